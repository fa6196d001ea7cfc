import Verif.Model.BNRest
import Verif.Props.BN
import Verif.Props.BNCopy

/-!
# Kinds of nodes and user-defined functions: C253, C254
-/

namespace Props.BNRest

set_option linter.unusedSectionVars false

open Py Spec Model Props.BN

variable {N V C O S L : Type} [DecidableEq N]

/-! ## Kinds of nodes -/

/-- **C253**: a name is in the network when it was defined or mentioned as a parent.  What is not in the network has no
kind (KeyError).  What is in the network is exactly one of: to be calculated (the last definition is a distribution or a
function), exogenous (no definition, or a last one without a rule), a value. -/
theorem C253 {ds : List (Loci N V C O)} {bn : BN N V C O} (hb : Built ds bn) (x : N) :
    (bn.contains x = true ↔ ∃ l ∈ ds, x = l.name ∨ x ∈ l.parents) ∧
    (bn.contains x = false → bn.needsCalculation x = .error .KeyError ∧ bn.isExogenous x = .error .KeyError ∧
      bn.isDeterministic x [] = .error .KeyError ∧ bn.isRv x = .error .KeyError) ∧
    (bn.contains x = true → ∃ cal exo val rv, bn.needsCalculation x = .ok cal ∧ bn.isExogenous x = .ok exo ∧
      bn.isDeterministic x [] = .ok val ∧ bn.isRv x = .ok rv ∧
      (cal = true ↔ ∃ e ps, lastDef ds x = some (.dist x e ps) ∨ lastDef ds x = some (.func x e ps)) ∧
      (exo = true ↔ lastDef ds x = none ∨ lastDef ds x = some (.exo x) ∨ ∃ ps, lastDef ds x = some (.pseudo x ps)) ∧
      (val = true ↔ ∃ v, lastDef ds x = some (.value x v)) ∧
      (rv = true ↔ ∃ e ps, lastDef ds x = some (.dist x e ps)) ∧
      (cal.toNat + exo.toNat + val.toNat = 1)) := by
  obtain ⟨-, -, hm, hl⟩ := built_inv hb
  have hc : bn.contains x = true ↔ x ∈ bn.dag.nodes := by simp [BN.contains]
  have hname : ∀ l, lastDef ds x = some l → l.name = x := fun l h => by
    have := List.find?_some h
    simpa using this
  refine ⟨hc.trans (hm x), fun h => ?_, fun h => ?_⟩
  · have hx : x ∉ bn.dag.nodes := fun h' => by rw [hc.2 h'] at h; cases h
    have hn : bn.loci.get? x = none := by
      rw [hl x]
      cases hd : lastDef ds x with
      | none => simp [hx]
      | some l =>
        refine absurd ((hm x).2 ⟨l, ?_, Or.inl (hname l hd).symm⟩) hx
        exact List.mem_reverse.1 (List.mem_of_find?_eq_some hd)
    have hg : bn.get x = .error .KeyError := by simp [BN.get, hn]
    simp [BN.needsCalculation, BN.isExogenous, BN.isDeterministic, BN.isRv, hg, bind, Except.bind]
  · have hx := hc.1 h
    cases hd : lastDef ds x with
    | none =>
      have hg : bn.get x = .ok (.exo x) := by simp [BN.get, hl x, hd, hx]
      refine ⟨false, true, false, false, ?_⟩
      simp [BN.needsCalculation, BN.isExogenous, BN.isDeterministic, BN.isRv, hg, bind, Except.bind, pure, Except.pure,
        Loci.isDist, Loci.isExo, Loci.isPseudo, Loci.isValue]
    | some l =>
      have hg : bn.get x = .ok l := by simp [BN.get, hl x, hd]
      have hn := hname l hd
      cases l <;> simp only [Loci.name] at hn <;> subst hn
      all_goals
        refine ⟨_, _, _, _, by simp only [BN.needsCalculation, hg, bind, Except.bind, Loci.isDist]; rfl,
          by simp only [BN.isExogenous, hg, bind, Except.bind, Loci.isExo, Loci.isPseudo]; rfl,
          by simp only [BN.isDeterministic, hg, bind, Except.bind, Loci.isValue]; rfl,
          by simp only [BN.isRv, hg, bind, Except.bind, Loci.isDist]; rfl, ?_⟩
        simp

/-- `a = 1`, `b ~ ...` given `a` and `c`. -/
example : Built [.value "a" 1, .dist "b" xe ["a", "c"]] (defineAll (.empty "m") [.value "a" 1, .dist "b" xe ["a", "c"]] : XBN) ∧
    (fun b : XBN => (b.needsCalculation "b", b.isExogenous "c", b.isDeterministic "a" [], b.contains "d"))
      (defineAll (.empty "m") [.value "a" 1, .dist "b" xe ["a", "c"]]) = (.ok true, .ok true, .ok true, false) :=
  ⟨((Built.empty "m").step _ rfl).step _ rfl, rfl⟩

/-! ## User-defined functions -/

section Kept

theorem removeNode_udf {bn b : BN N V C O} {x : N} {r : Result Unit} (h : bn.removeNode x = (b, r)) : b.udf = bn.udf := by
  unfold BN.removeNode at h
  split at h <;> cases h <;> rfl

theorem removeNodes_udf : ∀ {xs : List N} {bn b : BN N V C O} {r : Result Unit}, BN.removeNodes xs bn = (b, r) → b.udf = bn.udf
  | [], bn, b, r, h => by cases h; rfl
  | x :: xs, bn, b, r, h => by
    rw [BN.removeNodes] at h
    cases h1 : bn.removeNode x with
    | mk b1 r1 =>
      rw [h1] at h
      cases r1 with
      | ok u => exact (removeNodes_udf h).trans (removeNode_udf h1)
      | error e => cases h; exact removeNode_udf h1

theorem appendExo_udf {bn b : BN N V C O} {x : N} {r : Result Unit} (h : bn.appendExo x = (b, r)) : b.udf = bn.udf := by
  unfold BN.appendExo at h
  simp only at h
  split at h
  · cases h; rfl
  · split at h
    · cases h; rfl
    · split at h
      · rename_i h1
        cases h
        have e := removeNode_udf h1
        exact e
      · rename_i h1
        cases h
        have e := removeNode_udf h1
        exact e

theorem addParents_udf (name : N) : ∀ {ps : List N} {bn b : BN N V C O} {new new' : List N} {r : Result Unit},
    BN.addParents name ps bn new = (b, new', r) → b.udf = bn.udf
  | [], bn, b, new, new', r, h => by cases h; rfl
  | p :: ps, bn, b, new, new', r, h => by
    rw [BN.addParents] at h
    split at h
    · have e := addParents_udf name h
      exact e
    · cases h1 : bn.appendExo p with
      | mk b1 r1 =>
        rw [h1] at h
        cases r1 with
        | ok u =>
          have e := addParents_udf name h
          have e' := appendExo_udf h1
          exact Eq.trans (b := b1.udf) e e'
        | error e => cases h; exact appendExo_udf h1

theorem appendLoci_udf {bn b : BN N V C O} {l : Loci N V C O} {des : Option N} {r : Result Unit}
    (h : bn.appendLoci l des = (b, r)) : b.udf = bn.udf := by
  unfold BN.appendLoci at h
  split at h
  · cases h; rfl
  · simp only at h
    split at h
    · cases h; rfl
    · split at h
      · rename_i h1
        cases h
        have e1 := addParents_udf _ h1
        exact e1
      · rename_i h1
        have e1 := addParents_udf _ h1
        split at h
        · cases h; exact e1
        · split at h
          · rename_i h2
            cases h
            exact (removeNode_udf h2).trans e1
          · rename_i h2
            split at h
            · rename_i h3
              cases h
              exact (removeNodes_udf h3).trans ((removeNode_udf h2).trans e1)
            · rename_i h3
              cases h
              exact (removeNodes_udf h3).trans ((removeNode_udf h2).trans e1)

theorem appendFromJs_udf (sem : Sem N V C O S L) {bn b : BN N V C O} {js : LociJson N V C O} {r : Result Unit}
    (h : bn.appendFromJs sem js = (b, r)) : b.udf = bn.udf := by
  unfold BN.appendFromJs at h
  split at h
  · exact appendLoci_udf h
  · cases h; rfl

theorem mergeLoop_udf (f : N) (sem : Sem N V C O S L) (sub : BN N V C O) : ∀ {xs : List N} {bn b : BN N V C O} {r : Result Unit},
    BN.mergeLoop f sem sub xs bn = (b, r) → b.udf = bn.udf
  | [], bn, b, r, h => by cases h; rfl
  | x :: xs, bn, b, r, h => by
    rw [BN.mergeLoop] at h
    split at h
    · cases h; rfl
    · exact mergeLoop_udf f sem sub h
    · simp only at h
      have hr : ∀ {b1 : BN N V C O} {r1 : Result Unit}, (if x ∈ bn.dag.nodes then bn.removeNode x else (bn, .ok ())) = (b1, r1) →
          b1.udf = bn.udf := by
        intro b1 r1 h1
        split at h1
        · exact removeNode_udf h1
        · cases h1; rfl
      split at h
      · rename_i h1
        cases h
        exact hr h1
      · rename_i h1
        split at h
        · cases h; exact hr h1
        · split at h
          · rename_i h2
            exact (mergeLoop_udf f sem sub h).trans ((appendFromJs_udf sem h2).trans (hr h1))
          · cases h2 : BN.appendFromJs sem _ _ with
            | mk b2 r2 =>
              rw [h2] at h
              cases h
              exact (appendFromJs_udf sem h2).trans (hr h1)

theorem checkEdgesLoop_udf : ∀ {xs : List N} {bn b : BN N V C O} {exo : List N} {r : Result (List N)},
    BN.checkEdgesLoop xs bn exo = (b, r) → b.udf = bn.udf
  | [], bn, b, exo, r, h => by cases h; rfl
  | x :: xs, bn, b, exo, r, h => by
    rw [BN.checkEdgesLoop] at h
    split at h
    · cases h; rfl
    · split at h
      · cases h; rfl
      · have e := checkEdgesLoop_udf h
        exact e

theorem appendExos_udf : ∀ {xs : List N} {bn b : BN N V C O} {r : Result Unit}, BN.appendExos xs bn = (b, r) → b.udf = bn.udf
  | [], bn, b, r, h => by cases h; rfl
  | x :: xs, bn, b, r, h => by
    rw [BN.appendExos] at h
    cases h1 : bn.appendLoci (.exo x) with
    | mk b1 r1 =>
      rw [h1] at h
      cases r1 with
      | ok u => exact (appendExos_udf h).trans (appendLoci_udf h1)
      | error e => cases h; exact appendLoci_udf h1

theorem dropChildless_udf : ∀ {xs : List N} {bn b : BN N V C O} {r : Result Unit}, BN.dropChildless xs bn = (b, r) → b.udf = bn.udf
  | [], bn, b, r, h => by cases h; rfl
  | x :: xs, bn, b, r, h => by
    rw [BN.dropChildless] at h
    split at h
    · cases h; rfl
    · cases h1 : bn.removeNode x with
      | mk b1 r1 =>
        rw [h1] at h
        cases r1 with
        | ok u => exact (dropChildless_udf h).trans (removeNode_udf h1)
        | error e => cases h; exact removeNode_udf h1
    · exact dropChildless_udf h

theorem checkEdges_udf {bn b : BN N V C O} {r : Result Unit} (h : bn.checkEdges = (b, r)) : b.udf = bn.udf := by
  unfold BN.checkEdges at h
  split at h
  · cases h; rfl
  · split at h
    · rename_i h1
      cases h
      exact checkEdgesLoop_udf h1
    · rename_i h1
      split at h
      · rename_i h2
        cases h
        exact (appendExos_udf h2).trans (checkEdgesLoop_udf h1)
      · rename_i h2
        have e2 := (appendExos_udf h2).trans (checkEdgesLoop_udf h1)
        split at h
        · cases h; exact e2
        · exact (dropChildless_udf h).trans e2

theorem copy_udf {f : N} {sem : Sem N V C O S L} {bn b : BN N V C O} {nn : Option N} (h : bn.copy f sem nn = .ok b) :
    b.udf = bn.udf := by
  unfold BN.copy at h
  simp only at h
  split at h
  · split at h
    · cases h
    · split at h
      · cases h
      · split at h
        · cases h
        · cases h; rfl
  · cases h1 : bn.nodesJson f with
    | error e => rw [h1] at h; cases h
    | ok js =>
      rw [h1] at h
      simp only [bind, Except.bind] at h
      split at h
      · cases h
      · cases h; rfl

theorem merge_udf {f : N} {sem : Sem N V C O S L} {bn sub m : BN N V C O} {nn : N} (h : bn.merge f sem nn sub = .ok m) :
    m.udf = (bn.udf ++ bn.udf ++ sub.udf).dedup := by
  unfold BN.merge at h
  split at h
  · cases h
  · cases h0 : bn.copy f sem (some nn) with
    | error e => rw [h0] at h; cases h
    | ok b0 =>
      rw [h0] at h
      simp only [bind, Except.bind] at h
      split at h
      · cases h
      · split at h
        · cases h
        · rename_i h1
          split at h
          · cases h
          · rename_i h2
            cases h
            have e : b0.defrost.udf = b0.udf := rfl
            simp only
            rw [checkEdges_udf h2, mergeLoop_udf f sem sub h1, e, copy_udf h0]

end Kept

/-- **C254**: a user-defined function is added when its name is not taken, and refused with an AssertionError otherwise;
definitions, whether accepted or not, leave the table alone; a copy has the functions of the network, and a merged network
those of both, so each of these names is refused afterwards. -/
theorem C254_partial (f : N) (sem : Sem N V C O S L) (bn sub : BN N V C O) (fn : N) :
    ((bn.addUserFunc fn).2 = .ok () ↔ fn ∉ bn.udf) ∧ (fn ∈ bn.udf → bn.addUserFunc fn = (bn, .error .AssertionError)) ∧
    (∀ g, g ∈ (bn.addUserFunc fn).1.udf ↔ g = fn ∨ g ∈ bn.udf) ∧
    (∀ l des, (bn.appendLoci l des).1.udf = bn.udf) ∧
    (∀ nn b, bn.copy f sem nn = .ok b → b.udf = bn.udf) ∧
    (∀ nn m, bn.merge f sem nn sub = .ok m → (∀ g, g ∈ m.udf ↔ g ∈ bn.udf ∨ g ∈ sub.udf) ∧
      ((m.addUserFunc fn).2 = .ok () ↔ fn ∉ bn.udf ∧ fn ∉ sub.udf)) := by
  have hadd : ∀ b : BN N V C O, (b.addUserFunc fn).2 = .ok () ↔ fn ∉ b.udf := fun b => by
    unfold BN.addUserFunc
    split <;> simp_all
  refine ⟨hadd bn, fun h => if_pos h, fun g => ?_, fun l des => appendLoci_udf rfl, fun nn b h => copy_udf h, fun nn m h => ?_⟩
  · unfold BN.addUserFunc
    split
    · rename_i h
      exact ⟨Or.inr, fun h' => h'.elim (fun e => e ▸ h) id⟩
    · simp [or_comm]
  · have hg : ∀ g, g ∈ m.udf ↔ g ∈ bn.udf ∨ g ∈ sub.udf := fun g => by
      rw [merge_udf h]
      simp
    refine ⟨hg, ?_⟩
    rw [hadd, hg, not_or]

/-- **C254 is false** as far as use is concerned: nothing reads the table.  A network samples and evaluates with a
user-defined function as it does without, so a definition that calls the function fails as before. -/
theorem C254_refuted {K : Type} [AddCommMonoid K] (sem : Sem N V C O S (XR K)) (bn : BN N V C O) (fn : N) (cond pars : Dict N V) (s : S) :
    sample sem (bn.addUserFunc fn).1 cond s = sample sem bn cond s ∧
    evaluateNodes sem (bn.addUserFunc fn).1 pars = evaluateNodes sem bn pars := by
  unfold BN.addUserFunc
  split
  · exact ⟨rfl, rfl⟩
  · refine ⟨?_, rfl⟩
    have hl : ∀ od cond s, sampleLoop sem { bn with udf := bn.udf ++ [fn] } (fun _ => true) od cond s =
        sampleLoop sem bn (fun _ => true) od cond s := by
      intro od
      induction od with
      | nil => exact fun _ _ => rfl
      | cons x xs ih =>
        intro cond s
        have hg : ({ bn with udf := bn.udf ++ [fn] } : BN N V C O).get x = bn.get x := rfl
        simp only [sampleLoop, ih, hg]
    have he : ({ bn with udf := bn.udf ++ [fn] } : BN N V C O).exoList = bn.exoList := rfl
    have ho : ({ bn with udf := bn.udf ++ [fn] } : BN N V C O).order = bn.order := rfl
    simp only [sample, hl, he, ho]

/-- A network `a = g(1)` of a function that no table knows. -/
def calls : XBN := defineAll (.empty "m") [.func "a" (.call "g" (.cons (.const 1) .nil) .nil) []]

/-- Sampling it fails, also after `g` was added. -/
example : ((calls.addUserFunc "g").2 = .ok ()) ∧ ((calls.addUserFunc "g").1.addUserFunc "g").2 = .error .AssertionError ∧
    (sample xsem calls [] ()).1 = .error .KeyError ∧ (sample xsem (calls.addUserFunc "g").1 [] ()).1 = .error .KeyError :=
  ⟨rfl, rfl, rfl, rfl⟩

/-- A merged network has the functions of both. -/
example : (match (((BN.empty "a" : XBN).addUserFunc "f").1.merge "f" xsem "new" ((BN.empty "b" : XBN).addUserFunc "g").1) with
    | .ok m => m.udf | .error _ => []) = ["f", "g"] := by
  decide +kernel

end Props.BNRest
