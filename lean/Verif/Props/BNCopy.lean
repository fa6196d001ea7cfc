import Verif.Props.BNViews

/-!
# Properties of networks: JSON round trip (C17), copy (C19), merge (C20), extend (C22)
-/

namespace Props.BN

set_option linter.unusedSectionVars false

open Py Spec Relation Model Model.Digraph Model.BN

variable {N V C O S L : Type} [DecidableEq N]

/-! ## Replaying definitions -/

/-- The definition survives `to_json` followed by `loci_from_json`. -/
def Reloadable (sem : Sem N V C O S L) (f : N) (l : Loci N V C O) : Prop :=
  lociFromJson sem (l.toJson f) = .ok l

theorem lastDef_some {ds : List (Loci N V C O)} {x : N} {l : Loci N V C O} (h : lastDef ds x = some l) :
    l ∈ ds ∧ l.name = x := by
  unfold lastDef at h
  have h1 := List.mem_of_find?_eq_some h
  have h2 := List.find?_some h
  exact ⟨List.mem_reverse.1 h1, by simpa using h2⟩

theorem lastDef_none {ds : List (Loci N V C O)} {x : N} :
    lastDef ds x = none ↔ ∀ l ∈ ds, l.name ≠ x := by
  unfold lastDef
  rw [List.find?_eq_none]
  simp

theorem lastDef_of_nodup {ds : List (Loci N V C O)} (hnd : (ds.map Loci.name).Nodup)
    {l : Loci N V C O} (hl : l ∈ ds) : lastDef ds l.name = some l := by
  cases h : lastDef ds l.name with
  | none => exact absurd rfl (lastDef_none.1 h l hl)
  | some l' =>
    obtain ⟨h1, h2⟩ := lastDef_some h
    rw [List.inj_on_of_nodup_map hnd h1 hl h2]

theorem built_other {ds : List (Loci N V C O)} {bn : BN N V C O} (hb : Built ds bn) :
    bn.other = (BN.empty bn.name : BN N V C O).other := by
  induction hb with
  | empty n => rfl
  | @define ds bn b' l des hb e ih =>
    obtain ⟨hw, hf, -, -⟩ := built_inv hb
    obtain ⟨ha, -, -⟩ := accepted_of_ok hw.toRep hf hw.acyclic e
    have hn : b'.name = bn.name := congrArg (fun t => t.1) ha.other_eq
    rw [hn, ha.other_eq]
    exact ih

/-- Definitions with distinct names and parents along an acyclic relation are all accepted. -/
theorem appendAllJs_ok (sem : Sem N V C O S L) (f : N) {R : N → N → Prop} (hR : Acyclic R) :
    ∀ (ds ds0 : List (Loci N V C O)) (b : BN N V C O), Built ds0 b →
    ((ds0 ++ ds).map Loci.name).Nodup → (∀ l ∈ ds0 ++ ds, ∀ p ∈ l.parents, R p l.name) →
    (∀ l ∈ ds, Reloadable sem f l) →
    ∃ b', appendAllJs sem (ds.map (Loci.toJson f)) b = (b', .ok ()) ∧ Built (ds0 ++ ds) b' ∧
      b'.name = b.name := by
  intro ds
  induction ds with
  | nil => intro ds0 b hb _ _ _; exact ⟨b, rfl, by simpa using hb, rfl⟩
  | cons l ds ih =>
    intro ds0 b hb hnd hpar hrel
    have hok : (b.appendLoci l none).2 = .ok () := by
      rw [C12_accepted_iff hb]
      obtain ⟨-, -, -, -, hE⟩ := C12_well_formed hb
      have hfresh : lastDef ds0 l.name = none := by
        rw [lastDef_none]
        intro l' hl' e
        rw [List.map_append, List.nodup_append] at hnd
        exact hnd.2.2 l'.name (List.mem_map_of_mem hl') l.name (by simp) e
      constructor
      · intro p hp
        obtain ⟨l', h1, -⟩ := (hE p l.name).1 hp
        rw [hfresh] at h1
        cases h1
      · refine acyclic_mono ?_ hR
        rintro a c (h | ⟨rfl, h⟩)
        · obtain ⟨l', h1, h2⟩ := (hE a c).1 h
          obtain ⟨h3, h4⟩ := lastDef_some h1
          rw [← h4]
          exact hpar l' (by simp [h3]) a h2
        · exact hpar l (by simp) a h
    have hstep : b.appendFromJs sem (l.toJson f) = ((b.appendLoci l none).1, .ok ()) := by
      simp only [appendFromJs, show lociFromJson sem (l.toJson f) = .ok l from hrel l (by simp)]
      exact Prod.ext rfl hok
    have hb1 : Built (ds0 ++ [l]) (b.appendLoci l none).1 := hb.step l hok
    have hname : (b.appendLoci l none).1.name = b.name := by
      obtain ⟨hw, -, -, -⟩ := built_inv hb
      exact congrArg (fun t => t.1) (appendLoci_rep_other hw.toRep l none).2
    obtain ⟨b', h1, h2, h3⟩ := ih (ds0 ++ [l]) _ hb1 (by simpa using hnd) (by simpa using hpar)
      (fun l' hl' => hrel l' (by simp [hl']))
    refine ⟨b', ?_, by simpa using h2, by rw [h3, hname]⟩
    rw [List.map_cons, appendAllJs, hstep]
    exact h1

theorem defs_names {bn : BN N V C O} (hr : bn.Rep) : bn.defs.map Loci.name = bn.dag.nodes := by
  unfold defs
  have : ∀ ks : List N, (∀ a ∈ ks, a ∈ bn.dag.nodes) →
      (ks.filterMap bn.loci.get?).map Loci.name = ks := by
    intro ks
    induction ks with
    | nil => intro _; rfl
    | cons k ks ih =>
      intro hs
      obtain ⟨l, hl⟩ := hr.exists_loci (hs k (by simp))
      rw [List.filterMap_cons, hl]
      simp only [List.map_cons]
      rw [ih (fun x hx => hs x (by simp [hx])), hr.named k l hl]
  exact this _ (fun _ h => h)

theorem mem_defs {bn : BN N V C O} (hr : bn.Rep) {l : Loci N V C O} :
    l ∈ bn.defs ↔ bn.loci.get? l.name = some l := by
  unfold defs
  rw [List.mem_filterMap]
  constructor
  · rintro ⟨x, -, h⟩
    rw [hr.named x l h]
    exact h
  · intro h
    exact ⟨l.name, (hr.defined _).1 ⟨l, h⟩, h⟩

theorem lastDef_defs {bn : BN N V C O} (hr : bn.Rep) (x : N) : lastDef bn.defs x = bn.loci.get? x := by
  have hnd : (bn.defs.map Loci.name).Nodup := by rw [defs_names hr]; exact hr.wf.nodup_nodes
  cases h : bn.loci.get? x with
  | some l =>
    have hn := hr.named x l h
    subst hn
    exact lastDef_of_nodup hnd ((mem_defs hr).2 h)
  | none =>
    rw [lastDef_none]
    intro l hl e
    rw [mem_defs hr, e, h] at hl
    cases hl

/-- Replaying the definitions of a well formed network into an empty one gives the same network. -/
theorem replay (sem : Sem N V C O S L) (f : N) {bn : BN N V C O} (hw : bn.Well)
    (hrel : ∀ l ∈ bn.defs, Reloadable sem f l) (n : N) :
    ∃ b', appendAllJs sem (bn.defs.map (Loci.toJson f)) (BN.empty n) = (b', .ok ()) ∧
      b'.Well ∧ Same b' bn ∧ b'.other = (BN.empty n : BN N V C O).other := by
  have hr := hw.toRep
  obtain ⟨b', h1, h2, h3⟩ := appendAllJs_ok sem f hw.acyclic bn.defs [] (BN.empty n) (Built.empty n)
    (by simp only [List.nil_append]; rw [defs_names hr]; exact hr.wf.nodup_nodes)
    (by
      intro l hl p hp
      simp only [List.nil_append] at hl
      exact (hw.edges p l.name).2 ⟨l, (mem_defs hr).1 hl, hp⟩) hrel
  simp only [List.nil_append] at h2
  obtain ⟨-, hm, hd, he, hE⟩ := C12_well_formed h2
  have hmem : ∀ x, x ∈ b'.dag.nodes ↔ x ∈ bn.dag.nodes := by
    intro x
    rw [hm]
    constructor
    · rintro ⟨l, hl, rfl | hx⟩
      · exact (hr.defined _).1 ⟨l, (mem_defs hr).1 hl⟩
      · exact hw.wf.left_mem ((hw.edges x l.name).2 ⟨l, (mem_defs hr).1 hl, hx⟩)
    · intro hx
      obtain ⟨l, hl⟩ := hr.exists_loci hx
      have hn := hr.named x l hl
      exact ⟨l, (mem_defs hr).2 (by rw [hn]; exact hl), Or.inl hn.symm⟩
  obtain ⟨hwb, -, -, -⟩ := built_inv h2
  refine ⟨b', h1, hwb, ⟨hmem, ?_, ?_⟩, by rw [built_other h2, h3]; rfl⟩
  · intro x
    cases h : bn.loci.get? x with
    | some l => exact hd x l (by rw [lastDef_defs hr]; exact h)
    | none =>
      refine hwb.get?_none ?_
      rw [hmem]
      intro hx
      obtain ⟨l, hl⟩ := hr.exists_loci hx
      rw [h] at hl
      cases hl
  · intro u v
    rw [hE, hw.edges]
    simp only [lastDef_defs hr]

/-! ### When definitions are reloadable -/

theorem reloadable_exo (sem : Sem N V C O S L) (f x : N) : Reloadable sem f (.exo x) := rfl

theorem reloadable_value (sem : Sem N V C O S L) (f x : N) {v : V} (h : sem.reload v = .ok v) :
    Reloadable sem f (.value x v) := by
  simp only [Reloadable, Loci.toJson, lociFromJson, h]
  rfl

/-- Function definitions built from source text. -/
theorem reloadable_func (sem : Sem N V C O S L) (f x : N) (e : Expr N C O) :
    Reloadable sem f (mkFunc x e []) := by
  simp only [Reloadable, mkFunc, Loci.toJson, lociFromJson, List.isEmpty_nil, if_true]
  cases (parseParents e).1 <;> simp

theorem reloadable_pseudo (sem : Sem N V C O S L) (f x : N) {ps : List N} (h : ps ≠ []) :
    Reloadable sem f (.pseudo x ps) := by
  have : ps.isEmpty = false := by cases ps <;> simp_all
  simp only [Reloadable, Loci.toJson, lociFromJson, mkPseudo, this, Bool.false_eq_true, if_false]

theorem reloadable_dist (sem : Sem N V C O S L) (f x : N) {e : Expr N C O} {ps : List N}
    (hc : completeDef sem e = .ok e) (h : ps ≠ []) : Reloadable sem f (.dist x e ps) := by
  have : ps.isEmpty = false := by cases ps <;> simp_all
  simp only [Reloadable, Loci.toJson, lociFromJson, mkDist, this, hc]
  rfl

/-! ## A semantics for the examples -/

/-- Integers, one operator (sum), no functions. -/
def xsem : Sem String Int Int Unit Unit (XR Int) where
  const := id
  op := fun _ rs => .ok ((rs.map (fun r => match r with | .ok v => v | .error _ => 0)).sum)
  call := fun _ _ _ => .error .TypeError
  math := fun _ => none
  creators := fun _ => none
  create := fun _ => .error .TypeError
  schema := fun _ => none
  reparse := .const
  reload := .ok

/-- `x + 1` for a name `x`. -/
def succOf (x : String) : Expr String Int Unit := .op () (.cons (.name x) (.cons (.const 1) .nil))

/-! ## C17 -/

/-- **C17 is false**: for every network that any history of definitions / complete / defrost leads to, whatever
JSON it produces is refused by `bayes_net_from_json`; `clone()` never succeeds. -/
theorem C17_refuted (f n : N) (ops : List (Op N V C O)) (sem : Sem N V C O S L)
    (ha : Acyclic (runOps f ops (BN.empty n)).dag.E) :
    ∃ js, (runOps f ops (BN.empty n)).toJson f = .ok js ∧ (∃ e, fromJson sem js = .error e) ∧
      ∃ e, (runOps f ops (BN.empty n)).clone f sem = .error e := by
  have h := cacheInv_runOps f ops (cacheInv_empty f n : CacheInv f (BN.empty n : BN N V C O))
  have hfa := faithful_of_cacheInv h ha
  generalize runOps f ops (BN.empty n) = bn at *
  have hrd : bn.defrost.Rep := rep_congr h.1 rfl rfl
  obtain ⟨od, ho, -⟩ := order_ok_of_acyclic h.1.wf ha
  have hj : bn.toJson f = .ok (bn.defrost.jsonOf f od) := by
    rw [hfa.2.2.2.2.2]
    exact formJs_unfrozen hrd rfl ho f
  have herr : ∃ e, fromJson sem (bn.defrost.jsonOf f od) = .error e := by
    unfold fromJson
    split
    · exact ⟨_, rfl⟩
    · exact ⟨_, rfl⟩
  refine ⟨_, hj, herr, ?_⟩
  unfold clone
  rw [hj]
  exact herr

/-- **C17**, the reason and the part that holds: all the definitions are read back correctly; the only obstacle is
the key `RVRoots`, which the writer does not emit.  With that key added, reading succeeds and gives the same
nodes, definitions and edges.
Missing: the round trip as the library performs it (`C17_refuted`), the frozen state and the cached views. -/
theorem C17_json_partial (f n : N) (ops : List (Op N V C O)) (sem : Sem N V C O S L)
    (hw : (runOps f ops (BN.empty n)).Well)
    (hrel : ∀ x l, (runOps f ops (BN.empty n)).loci.get? x = some l → Reloadable sem f l) :
    ∃ js, (runOps f ops (BN.empty n)).toJson f = .ok js ∧ fromJson sem js = .error .KeyError ∧
      ∀ rr, ∃ b', fromJson sem { js with rvRoots := some rr } = .ok b' ∧
        Same b' (runOps f ops (BN.empty n)) ∧ b'.name = (runOps f ops (BN.empty n)).name := by
  have h := cacheInv_runOps f ops (cacheInv_empty f n : CacheInv f (BN.empty n : BN N V C O))
  have hfa := faithful_of_cacheInv h hw.acyclic
  generalize runOps f ops (BN.empty n) = bn at *
  have hrd : bn.defrost.Rep := rep_congr h.1 rfl rfl
  obtain ⟨od, ho, -⟩ := order_ok_of_acyclic h.1.wf hw.acyclic
  have hj : bn.toJson f = .ok (bn.jsonOf f od) := by
    rw [hfa.2.2.2.2.2]
    exact formJs_unfrozen hrd rfl ho f
  obtain ⟨b', h1, h2, h3, h4⟩ := replay sem f hw
    (fun l hl => hrel l.name l ((mem_defs hw.toRep).1 hl)) bn.name
  have h1' : appendAllJs sem (bn.jsonOf f od).nodes (BN.empty (bn.jsonOf f od).name) = (b', .ok ()) := h1
  refine ⟨_, hj, ?_, fun rr => ⟨{ b' with json := some { bn.jsonOf f od with rvRoots := some rr } }, ?_, h3, ?_⟩⟩
  · unfold fromJson
    rw [h1']
    rfl
  · unfold fromJson
    simp only
    rw [h1']
  · exact congrArg (fun t => t.1) h4

/-- `x ~ ...` left out; `a = 1`, `b = a + 1`. -/
def exOps2 : List (Op String Int Int Unit) :=
  [.define (.value "a" 1) none, .define (.func "b" (succOf "a") ["a"]) none, .complete]

theorem exOps2_well : (runOps "f" exOps2 (BN.empty "m")).Well := by
  have h1 : (runOps "f" (exOps2.take 2) (BN.empty "m")).Well :=
    (built_inv (((Built.empty "m").step (.value "a" 1) (by decide)).step
      (.func "b" (succOf "a") ["a"]) (by decide))).1
  have h2 := cacheInv_runOps "f" exOps2 (cacheInv_empty "f" "m")
  have hd : (runOps "f" exOps2 (BN.empty "m")).dag = (runOps "f" (exOps2.take 2) (BN.empty "m")).dag := by
    decide
  have hl : (runOps "f" exOps2 (BN.empty "m")).loci = (runOps "f" (exOps2.take 2) (BN.empty "m")).loci := by
    decide
  exact ⟨h2.1, by rw [hd]; exact h1.acyclic, by rw [hd, hl]; exact h1.edges⟩

theorem exOps2_reload : ∀ x l, (runOps "f" exOps2 (BN.empty "m")).loci.get? x = some l →
    Reloadable xsem "f" l := by
  intro x l h
  have hl : (runOps "f" exOps2 (BN.empty "m")).loci = [("a", .value "a" 1), ("b", .func "b" (succOf "a") ["a"])] := by
    decide
  rw [hl] at h
  have h' := Dict.mem_of_get? h
  simp at h'
  rcases h' with ⟨-, rfl⟩ | ⟨-, rfl⟩
  · exact reloadable_value _ _ _ rfl
  · exact reloadable_func xsem "f" "b" (succOf "a")

example : ∃ js, (runOps "f" exOps2 (BN.empty "m")).toJson "f" = .ok js ∧
    fromJson xsem js = .error .KeyError := by
  obtain ⟨js, h1, h2, -⟩ := C17_json_partial "f" "m" exOps2 xsem exOps2_well exOps2_reload
  exact ⟨js, h1, h2⟩

/-! ## C19 -/

/-- **C19**, under the hypothesis that every definition survives `to_json` / `loci_from_json`: `copy` succeeds; the
copy has the same nodes, definitions, edges and user defined functions, the requested name, is frozen iff the
original is and then has correct cached views.  (The copy is a new value, so later edits of either cannot affect
the other.)  Missing: definitions that do not survive, e.g. pseudo nodes without parents (`C19_refuted`). -/
theorem C19_copy_partial {f : N} (sem : Sem N V C O S L) {bn : BN N V C O} (hw : bn.Well)
    (hc : CacheInv f bn) (hrel : ∀ x l, bn.loci.get? x = some l → Reloadable sem f l)
    (newName : Option N) :
    ∃ b', bn.copy f sem newName = .ok b' ∧ Same b' bn ∧ b'.udf = bn.udf ∧
      b'.name = newName.getD bn.name ∧ b'.frozen = bn.frozen ∧ b'.Well ∧ Faithful f b' := by
  have hrel' : ∀ l ∈ bn.defs, Reloadable sem f l := fun l hl => hrel l.name l ((mem_defs hw.toRep).1 hl)
  obtain ⟨b', h1, h2, h3, h4⟩ := replay sem f hw hrel' (newName.getD bn.name)
  have hn : b'.name = newName.getD bn.name := congrArg (fun t => t.1) h4
  by_cases hf : bn.frozen = true
  · obtain ⟨od, ho, he⟩ := hc.2.1 hf hw.acyclic
    have hjs : bn.json = some (bn.jsonOf f od) := by rw [he]; rfl
    obtain ⟨od', ho', -⟩ := order_ok_of_acyclic h2.wf h2.acyclic
    refine ⟨{ b'.completed f od' with udf := bn.udf }, ?_, h3, rfl, hn, hf.symm, ?_, ?_⟩
    · unfold BN.copy
      rw [if_pos hf]
      simp only [hjs]
      have h1' : appendAllJs sem (bn.jsonOf f od).nodes (BN.empty (newName.getD bn.name)) =
        (b', .ok ()) := h1
      rw [h1']
      simp only
      rw [complete_ok h2.toRep ho']
    · exact ⟨rep_congr h2.toRep rfl rfl, h2.acyclic, h2.edges⟩
    · have := faithful_completed (f := f) (bn := { b' with udf := bn.udf }) (rep_congr h2.toRep rfl rfl)
        (od := od') ho'
      exact this
  · have hf' : bn.frozen = false := by simpa using hf
    refine ⟨{ b' with udf := bn.udf }, ?_, h3, rfl, hn, ?_, ?_, ?_⟩
    · unfold BN.copy
      rw [if_neg hf, nodesJson_ok hw.toRep]
      show (match appendAllJs sem (bn.defs.map (Loci.toJson f)) (BN.empty (newName.getD bn.name)) with
        | (_, .error e) => .error e
        | (b1, .ok ()) => Except.ok { b1 with udf := bn.udf } : Result _) = _
      rw [h1]
    · rw [hf']; exact frozen_of_other h4
    · exact ⟨rep_congr h2.toRep rfl rfl, h2.acyclic, h2.edges⟩
    · have hd : ({ b' with udf := bn.udf } : BN N V C O).defrost = { b' with udf := bn.udf } := by
        have := defrost_of_other h4 rfl
        rw [← this]
        rfl
      unfold Faithful
      rw [hd]
      simp

example : ∃ b', (runOps "f" exOps2 (BN.empty "m")).copy "f" xsem (some "m2") = .ok b' ∧
    Same b' (runOps "f" exOps2 (BN.empty "m")) ∧ b'.frozen = true := by
  obtain ⟨b', h1, h2, -, -, h3, -⟩ := C19_copy_partial xsem exOps2_well
    (cacheInv_runOps "f" exOps2 (cacheInv_empty "f" "m")) exOps2_reload (some "m2")
  exact ⟨b', h1, h2, h3.trans (by decide)⟩

/-- **C19 is false** in general: `x = f(1)` (a pseudo node without parents) is accepted, but `copy` raises. -/
theorem C19_refuted : ∃ bn : XBN, Built [.pseudo "x" []] bn ∧ bn.Well ∧
    bn.copy "f" xsem (some "m2") = .error .TypeError :=
  ⟨defineAll (.empty "m") [.pseudo "x" []], (Built.empty "m").step _ (by decide),
    (built_inv ((Built.empty "m").step (.pseudo "x" []) (by decide))).1, by rfl⟩

end Props.BN
