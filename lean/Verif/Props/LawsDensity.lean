import Verif.Props.Laws
import Mathlib.MeasureTheory.Integral.Marginal
import Mathlib.Probability.ProductMeasure
import Mathlib.Probability.Distributions.Gaussian.Real

/-!
# The law of what is drawn from a network with continuous variables: C243

The variables have densities with respect to measures such as those of Lebesgue or counting.  The generator is ideal in
the sense of `Spec.Chance`.
-/

namespace Props.LawsDensity

set_option linter.unusedSectionVars false

open Py Spec Relation Model Model.Digraph Model.BN Props.BN Props.Sampling Props.Laws MeasureTheory

variable {N V C O S : Type} [DecidableEq N] [MeasurableSpace V] [MeasurableSpace S]

/-- The density that `logpdf` reports; values that it refuses are impossible. -/
noncomputable def dens (d : Dist V S (XR ℝ)) (v : V) : ENNReal :=
  match d.logpdf v with
  | .ok l => expX l
  | .error _ => 0

/-- A distribution object draws with the density that its `logpdf` reports, with respect to `ν`, and leaves a state
that is as random as before, independently of what is drawn. -/
def FairDensity (μ : Measure S) (ν : Measure V) (d : Dist V S (XR ℝ)) : Prop :=
  ∀ G : Set (V × S), MeasurableSet G →
    μ {s | ∃ v s', d.sample s = (.ok v, s') ∧ (v, s') ∈ G} = ∫⁻ v, dens d v * μ {s' | (v, s') ∈ G} ∂ν

/-- The density of a random variable in an assignment, with the parameters that the assignment gives its parents. -/
noncomputable def nodeDens (sem : Sem N V C O S (XR ℝ)) (bn : BN N V C O) (x : N) (r : Dict N V) : ENNReal :=
  match bn.loci.get? x with
  | some (.dist _ f _) =>
    match getDistribution sem f r.get?, r.get? x with
    | .ok d, some v => dens d v
    | _, _ => 0
  | _ => 0

/-- The assignments `r φ` that the values `φ` of the random variables lead to, with the definitions that leave nothing
to chance, and what is needed of the distributions in them. -/
structure Family (μ : Measure S) (ν : N → Measure V) (sem : Sem N V C O S (XR ℝ)) (bn : BN N V C O) (cond : Dict N V)
    (r : (N → V) → Dict N V) : Prop where
  outcome : ∀ φ, Outcome sem bn cond (r φ)
  drawn : ∀ φ x, bn.Rv x → x ∉ cond.keys → (r φ).get? x = some (φ x)
  fair : ∀ φ x n f ps d, bn.loci.get? x = some (.dist n f ps) → x ∉ cond.keys →
    getDistribution sem f (r φ).get? = .ok d → FairDensity μ (ν x) d
  draws : ∀ x n f ps, bn.loci.get? x = some (.dist n f ps) → x ∉ cond.keys → ∀ H : Set ((N → V) × S), MeasurableSet H →
    MeasurableSet {p : (N → V) × S | ∃ d v s', getDistribution sem f (r p.1).get? = .ok d ∧ d.sample p.2 = (.ok v, s') ∧
      (Function.update p.1 x v, s') ∈ H}
  density : ∀ x, bn.Rv x → x ∉ cond.keys → Measurable (fun φ => nodeDens sem bn x (r φ))

/-! ## Filling in the values of an assignment -/

/-- The values of the nodes of a list that are not there yet are filled in. -/
def fill (g : N → Option V) : List N → Dict N V → Dict N V
  | [], res => res
  | x :: xs, res =>
    if x ∈ res.keys then fill g xs res
    else match g x with
      | some v => fill g xs (res.set x v)
      | none => fill g xs res

theorem fill_append (g : N → Option V) (xs ys : List N) (res : Dict N V) :
    fill g (xs ++ ys) res = fill g ys (fill g xs res) := by
  induction xs generalizing res with
  | nil => rfl
  | cons x xs ih =>
    simp only [List.cons_append, fill]
    split
    · exact ih _
    · split <;> exact ih _

theorem fill_congr {g h : N → Option V} (xs : List N) (res : Dict N V) (hx : ∀ x ∈ xs, g x = h x) :
    fill g xs res = fill h xs res := by
  induction xs generalizing res with
  | nil => rfl
  | cons x xs ih =>
    have hi := fun res => ih res (fun y hy => hx y (List.mem_cons_of_mem _ hy))
    simp only [fill, hx x (by simp)]
    split
    · exact hi _
    · split <;> exact hi _

theorem fill_spec {g : N → Option V} (xs : List N) (res : Dict N V) (h1 : ∀ y w, res.get? y = some w → g y = some w)
    (h2 : ∀ x ∈ xs, (g x).isSome) :
    (∀ y w, (fill g xs res).get? y = some w → g y = some w) ∧
      ∀ y, y ∈ (fill g xs res).keys ↔ y ∈ res.keys ∨ y ∈ xs := by
  induction xs generalizing res with
  | nil => exact ⟨h1, by simp [fill]⟩
  | cons x xs ih =>
    have h2' := fun y hy => h2 y (List.mem_cons_of_mem x hy)
    simp only [fill]
    split
    · rename_i hx
      obtain ⟨i1, i2⟩ := ih res h1 h2'
      refine ⟨i1, fun y => (i2 y).trans ?_⟩
      constructor
      · rintro (h | h)
        · exact Or.inl h
        · exact Or.inr (by simp [h])
      · rintro (h | h)
        · exact Or.inl h
        · rcases List.mem_cons.1 h with rfl | h
          · exact Or.inl hx
          · exact Or.inr h
    · obtain ⟨v, hv⟩ := Option.isSome_iff_exists.1 (h2 x (by simp))
      rw [hv]
      simp only
      obtain ⟨i1, i2⟩ := ih (res.set x v) (by
        intro y w hy
        rw [Dict.get?_set] at hy
        split at hy
        · rename_i e; subst e; cases hy; exact hv
        · exact h1 y w hy) h2'
      refine ⟨i1, fun y => (i2 y).trans ?_⟩
      rw [Dict.mem_keys_set]
      constructor
      · rintro ((rfl | h) | h)
        · exact Or.inr (by simp)
        · exact Or.inl h
        · exact Or.inr (by simp [h])
      · rintro (h | h)
        · exact Or.inl (Or.inr h)
        · rcases List.mem_cons.1 h with rfl | h
          · exact Or.inl (Or.inl rfl)
          · exact Or.inr h

/-! ## What an assignment depends on -/

section Agree

variable {μ : Measure S} {ν : N → Measure V} {sem : Sem N V C O S (XR ℝ)} {bn : BN N V C O} {cond : Dict N V}
  {r : (N → V) → Dict N V}

/-- The random variables of a list that are drawn. -/
def drawnOf (bn : BN N V C O) (cond : Dict N V) (xs : List N) : Finset N :=
  (xs.filter (fun x => bn.rvB x && decide (x ∉ cond.keys))).toFinset

theorem rvB_iff (bn : BN N V C O) (x : N) : bn.rvB x = true ↔ bn.Rv x := by
  unfold BN.rvB BN.Rv
  cases h : bn.loci.get? x with
  | none => simp
  | some l => simp

theorem mem_drawnOf {xs : List N} {x : N} : x ∈ drawnOf bn cond xs ↔ x ∈ xs ∧ bn.Rv x ∧ x ∉ cond.keys := by
  unfold drawnOf
  rw [List.mem_toFinset, List.mem_filter, Bool.and_eq_true, rvB_iff, decide_eq_true_iff]

theorem same_names (hcl : ∀ c, (sem.reparse c).names = []) (hns : NoShadow bn cond.keys) (hF : Family μ ν sem bn cond r)
    {x : N} {l : Loci N V C O} (hl : bn.loci.get? x = some l) {φ ψ : N → V}
    (hp : ∀ p ∈ l.parents, (r φ).get? p = (r ψ).get? p) :
    ∀ n f ps, l = .dist n f ps → getDistribution sem f (r φ).get? = getDistribution sem f (r ψ).get? := by
  rintro n f ps rfl
  refine Props.Expr.getDistribution_congr sem hcl (fun y hy => ?_)
  rcases hns x n f ps hl y ((Expr.mem_names y f).1 hy) with h | ⟨h1, h2⟩
  · exact hp y h
  · have : ∀ φ, (r φ).get? y = none := by
      intro φ
      rw [Dict.get?_eq_none_iff]
      intro h
      exact (((hF.outcome φ).keys y).1 h).elim h2 h1
    rw [this, this]

/-- Assignments that agree on the random variables of an initial part of the order agree on that part. -/
theorem agree (hcl : ∀ c, (sem.reparse c).names = []) (hw : bn.Well) (hns : NoShadow bn cond.keys)
    (hs : ∀ x, Exogenous bn x → x ∈ cond.keys) (s0 : S) (hF : Family μ ν sem bn cond r)
    {od : List N} (ht : TopologicalOrder (· ∈ bn.dag.nodes) bn.dag.E od) {φ ψ : N → V} :
    ∀ (pre xs : List N), od = pre ++ xs → (∀ y ∈ drawnOf bn cond pre, φ y = ψ y) →
      ∀ y, y ∈ cond.keys ∨ y ∈ pre → (r φ).get? y = (r ψ).get? y := by
  have hcond : ∀ y, y ∈ cond.keys → (r φ).get? y = (r ψ).get? y := by
    intro y hy
    obtain ⟨v, hv⟩ := (Dict.mem_keys_iff_exists _ _).1 hy
    rw [(hF.outcome φ).given y v hv, (hF.outcome ψ).given y v hv]
  intro pre
  induction pre using List.reverseRecOn with
  | nil =>
    rintro xs e h y (hy | hy)
    · exact hcond y hy
    · simp at hy
  | append_singleton pre x ih =>
    intro xs e h
    have e' : od = pre ++ (x :: xs) := by rw [e]; simp
    have ih := ih (x :: xs) e' (fun y hy => h y (by
      rw [mem_drawnOf] at hy ⊢
      exact ⟨by simp [hy.1], hy.2⟩))
    rintro y (hy | hy)
    · exact hcond y hy
    · rcases List.mem_append.1 hy with hy | hy
      · exact ih y (Or.inr hy)
      · rw [List.mem_singleton.1 hy]
        by_cases hx : x ∈ cond.keys
        · exact hcond x hx
        have hxn : x ∈ bn.dag.nodes := (ht.complete x).1 (by rw [e]; simp)
        obtain ⟨l, hl⟩ := (hw.defined x).2 hxn
        cases hi : l.isDist with
        | true =>
          have hrv : bn.Rv x := ⟨l, hl, hi⟩
          rw [hF.drawn φ x hrv hx, hF.drawn ψ x hrv hx, h x (mem_drawnOf.2 ⟨by simp, hrv, hx⟩)]
        | false =>
          obtain ⟨v, hv, h1⟩ := (hF.outcome φ).fixed x l hl hx hi
          obtain ⟨w, hw', h2⟩ := (hF.outcome ψ).fixed x l hl hx hi
          have hp : ∀ p ∈ l.parents, (r φ).get? p = (r ψ).get? p := fun p hp =>
            ih p (Or.inr (ht.parentsFirst pre x xs e' p ((hw.edges p x).2 ⟨l, hl, hp⟩)))
          have hex : ¬ Exogenous bn x := fun hh => hx (hs x hh)
          have hren := Loci.render_congr sem hcl l hp (by rintro n f ps rfl; cases hi) (by
            rintro n rfl
            exact absurd ⟨_, hl⟩ hex) s0
          rw [h1, h2] at hren
          cases hren
          rw [hv, hw']

theorem drawnOf_skip {x : N} {xs : List N} (h : ¬ (bn.Rv x ∧ x ∉ cond.keys)) :
    drawnOf bn cond (x :: xs) = drawnOf bn cond xs := by
  ext y
  rw [mem_drawnOf, mem_drawnOf, List.mem_cons]
  constructor
  · rintro ⟨rfl | h1, h2⟩
    · exact absurd h2 h
    · exact ⟨h1, h2⟩
  · rintro ⟨h1, h2⟩
    exact ⟨Or.inr h1, h2⟩

theorem drawnOf_insert {x : N} {xs : List N} (h : bn.Rv x ∧ x ∉ cond.keys) :
    drawnOf bn cond (x :: xs) = insert x (drawnOf bn cond xs) := by
  ext y
  rw [Finset.mem_insert, mem_drawnOf, mem_drawnOf, List.mem_cons]
  constructor
  · rintro ⟨rfl | h1, h2⟩
    · exact Or.inl rfl
    · exact Or.inr ⟨h1, h2⟩
  · rintro (rfl | ⟨h1, h2⟩)
    · exact ⟨Or.inl rfl, h⟩
    · exact ⟨Or.inr h1, h2⟩

/-- What is integrated: the densities of the random variables drawn, times a further factor. -/
noncomputable def integrand (sem : Sem N V C O S (XR ℝ)) (bn : BN N V C O) (r : (N → V) → Dict N V) (drawn : Finset N)
    (g : (N → V) → ENNReal) (ψ : N → V) : ENNReal :=
  (∏ x ∈ drawn, nodeDens sem bn x (r ψ)) * g ψ

theorem integrand_measurable (hF : Family μ ν sem bn cond r) {g : (N → V) → ENNReal} (hg : Measurable g) (xs : List N) :
    Measurable (integrand sem bn r (drawnOf bn cond xs) g) := by
  refine Measurable.mul ?_ hg
  refine Finset.measurable_fun_prod _ (fun x hx => ?_)
  rw [mem_drawnOf] at hx
  exact hF.density x hx.2.1 hx.2.2

/-- The assignments and states from which the rest of the loop ends well. -/
def Ends (sem : Sem N V C O S (XR ℝ)) (bn : BN N V C O) (cond : Dict N V) (r : (N → V) → Dict N V)
    (H : Set ((N → V) × S)) (od pre xs : List N) : Set ((N → V) × S) :=
  {p | ∃ ψ s', (∀ y, y ∉ drawnOf bn cond xs → ψ y = p.1 y) ∧
    sampleLoop sem bn (fun _ => true) xs (fill (r p.1).get? pre cond) p.2 = (.ok (fill (r ψ).get? od cond), s') ∧
    (ψ, s') ∈ H}

theorem lmarginal_const_mul' [∀ x, SigmaFinite (ν x)] (s : Finset N) {c : ENNReal} {f g : (N → V) → ENNReal}
    (hg : Measurable g) (ψ : N → V) (h : ∀ y : (i : s) → V, f (Function.updateFinset ψ s y) =
      c * g (Function.updateFinset ψ s y)) :
    (∫⋯∫⁻_s, f ∂ν) ψ = c * (∫⋯∫⁻_s, g ∂ν) ψ := by
  unfold lmarginal
  have hm : Measurable (fun y : (i : s) → V => g (Function.updateFinset ψ s y)) := hg.comp measurable_updateFinset
  exact (lintegral_congr h).trans (lintegral_const_mul c hm)

theorem fill_full (hF : Family μ ν sem bn cond r) {od : List N}
    (ht : TopologicalOrder (· ∈ bn.dag.nodes) bn.dag.E od) (φ : N → V) :
    (fill (r φ).get? od cond).get? = (r φ).get? := by
  obtain ⟨h1, h2⟩ := fill_spec od cond (hF.outcome φ).given (fun y hy => by
    obtain ⟨v, hv⟩ := (Dict.mem_keys_iff_exists _ _).1 (((hF.outcome φ).keys y).2 (Or.inr ((ht.complete y).1 hy)))
    rw [hv]; rfl)
  funext y
  refine same_of h1 (fun y hy => ?_) y
  rcases ((hF.outcome φ).keys y).1 hy with h | h
  · exact (h2 y).2 (Or.inl h)
  · exact (h2 y).2 (Or.inr ((ht.complete y).2 h))

theorem loop_law [SFinite μ] [∀ x, SigmaFinite (ν x)] (hcl : ∀ c, (sem.reparse c).names = []) (hw : bn.Well)
    (hns : NoShadow bn cond.keys) (hs : ∀ x, Exogenous bn x → x ∈ cond.keys) (s0 : S) (hF : Family μ ν sem bn cond r)
    {od : List N} (ht : TopologicalOrder (· ∈ bn.dag.nodes) bn.dag.E od) {H : Set ((N → V) × S)}
    (hH : MeasurableSet H) :
    ∀ (xs pre : List N), od = pre ++ xs → MeasurableSet (Ends sem bn cond r H od pre xs) ∧
      (∀ φ, μ {s | (φ, s) ∈ Ends sem bn cond r H od pre xs} = (∫⋯∫⁻_(drawnOf bn cond xs),
        integrand sem bn r (drawnOf bn cond xs) (fun ψ => μ {s' | (ψ, s') ∈ H}) ∂ν) φ) ∧
      ∀ φ s s' r', sampleLoop sem bn (fun _ => true) xs (fill (r φ).get? pre cond) s = (.ok r', s') →
        ∃ ψ, (∀ y, y ∉ drawnOf bn cond xs → ψ y = φ y) ∧ r' = fill (r ψ).get? od cond := by
  have hg : Measurable (fun ψ => μ {s' | (ψ, s') ∈ H}) := measurable_measure_prodMk_left hH
  have hfill : ∀ pre xs, od = pre ++ xs → ∀ φ, (∀ y w, (fill (r φ).get? pre cond).get? y = some w →
      (r φ).get? y = some w) ∧ ∀ y, y ∈ (fill (r φ).get? pre cond).keys ↔ y ∈ cond.keys ∨ y ∈ pre := by
    intro pre xs e φ
    refine fill_spec pre cond (hF.outcome φ).given (fun y hy => ?_)
    obtain ⟨v, hv⟩ := (Dict.mem_keys_iff_exists _ _).1 (((hF.outcome φ).keys y).2 (Or.inr ((ht.complete y).1 (by
      rw [e]; simp [hy]))))
    rw [hv]; rfl
  intro xs
  induction xs with
  | nil =>
    intro pre e
    have e0 : drawnOf bn cond [] = ∅ := rfl
    have ep : od = pre := by rw [e]; simp
    have hend : Ends sem bn cond r H od pre [] = H := by
      ext ⟨φ, s⟩
      simp only [Ends, sampleLoop, Set.mem_ofPred_eq, e0, ep, Prod.mk.injEq, Except.ok.injEq]
      constructor
      · rintro ⟨ψ, s', h1, ⟨-, rfl⟩, h2⟩
        have : ψ = φ := funext (fun y => h1 y (by simp))
        rw [← this]
        exact h2
      · intro h
        exact ⟨φ, s, fun _ _ => rfl, ⟨rfl, rfl⟩, h⟩
    rw [hend]
    refine ⟨hH, fun φ => ?_, fun φ s s' r' h => ⟨φ, fun _ _ => rfl, ?_⟩⟩
    · rw [e0, lmarginal_empty]
      simp [integrand]
    · simp only [sampleLoop, Prod.mk.injEq, Except.ok.injEq] at h
      rw [← h.1, ep]
  | cons x xs ih =>
    intro pre e
    have e' : od = (pre ++ [x]) ++ xs := by rw [e]; simp
    obtain ⟨i1, i2, i3⟩ := ih (pre ++ [x]) e'
    have hnd := ht.nodup
    rw [e] at hnd
    have hxpre : x ∉ pre := by
      intro h
      exact (List.nodup_append.1 hnd).2.2 x h x (by simp) rfl
    have hxxs : x ∉ xs := (List.nodup_cons.1 (List.nodup_append.1 hnd).2.1).1
    have hxn : x ∈ bn.dag.nodes := (ht.complete x).1 (by rw [e]; simp)
    obtain ⟨l, hl⟩ := (hw.defined x).2 hxn
    have hget : bn.get x = .ok l := by unfold BN.get; rw [hl]
    have hpar : ∀ p ∈ l.parents, p ∈ pre := fun p hp =>
      ht.parentsFirst pre x xs e p ((hw.edges p x).2 ⟨l, hl, hp⟩)
    have hskip : ¬ (bn.Rv x ∧ x ∉ cond.keys) → (∀ φ s, sampleLoop sem bn (fun _ => true) (x :: xs)
        (fill (r φ).get? pre cond) s = sampleLoop sem bn (fun _ => true) xs (fill (r φ).get? (pre ++ [x]) cond) s) →
        MeasurableSet (Ends sem bn cond r H od pre (x :: xs)) ∧
        (∀ φ, μ {s | (φ, s) ∈ Ends sem bn cond r H od pre (x :: xs)} = (∫⋯∫⁻_(drawnOf bn cond (x :: xs)),
          integrand sem bn r (drawnOf bn cond (x :: xs)) (fun ψ => μ {s' | (ψ, s') ∈ H}) ∂ν) φ) ∧
        ∀ φ s s' r', sampleLoop sem bn (fun _ => true) (x :: xs) (fill (r φ).get? pre cond) s = (.ok r', s') →
          ∃ ψ, (∀ y, y ∉ drawnOf bn cond (x :: xs) → ψ y = φ y) ∧ r' = fill (r ψ).get? od cond := by
      intro hno hloop
      have hend : Ends sem bn cond r H od pre (x :: xs) = Ends sem bn cond r H od (pre ++ [x]) xs := by
        ext ⟨φ, s⟩
        simp only [Ends, Set.mem_ofPred_eq, hloop, drawnOf_skip hno]
      rw [hend]
      simp only [hloop, drawnOf_skip hno]
      exact ⟨i1, i2, i3⟩
    by_cases hx : x ∈ cond.keys
    · -- given
      refine hskip (fun h => h.2 hx) (fun φ s => ?_)
      · have h2 := ((hfill pre _ e φ).2 x).2 (Or.inl hx)
        have h3 : fill (r φ).get? (pre ++ [x]) cond = fill (r φ).get? pre cond := by
          rw [fill_append]; simp [fill, h2]
        simp only [sampleLoop, h2, h3, not_true_eq_false, decide_false, Bool.and_false,
          Bool.false_eq_true, if_false]
    · have hnk : ∀ φ, x ∉ (fill (r φ).get? pre cond).keys := fun φ h => by
        rcases ((hfill pre _ e φ).2 x).1 h with h | h
        · exact hx h
        · exact hxpre h
      cases hi : l.isDist with
      | false =>
        refine hskip (fun h => by
          obtain ⟨l', hl', hd⟩ := h.1
          rw [hl] at hl'
          cases hl'
          rw [hi] at hd
          cases hd) (fun φ s => ?_)
        · obtain ⟨v, hv, h1⟩ := (hF.outcome φ).fixed x l hl hx hi
          have h3 : fill (r φ).get? (pre ++ [x]) cond = (fill (r φ).get? pre cond).set x v := by
            rw [fill_append]; simp [fill, hnk φ, hv]
          have hren := render_final sem hcl hns hl (fun h => hx (hs x h)) (hfill pre _ e φ).1
            (fun p hp => ((hfill pre _ e φ).2 p).2 (Or.inr (hpar p hp)))
            (fun k hk => ((hF.outcome φ).keys k).1 hk) s
          rw [h1] at hren
          simp only [sampleLoop, hnk φ, h3, hget, hren, not_false_eq_true, decide_true,
            Bool.and_true, if_true]
      | true =>
        have hrv : bn.Rv x := ⟨l, hl, hi⟩
        obtain ⟨n, f, ps, rfl⟩ : ∃ n f ps, l = .dist n f ps := by
          cases l <;> simp [Loci.isDist] at hi
          exact ⟨_, _, _, rfl⟩
        have hgd : ∀ φ, getDistribution sem f (fill (r φ).get? pre cond).get? = getDistribution sem f (r φ).get? := by
          intro φ
          obtain ⟨h1, h2⟩ := hfill pre _ e φ
          have hpk : ∀ p ∈ (fill (r φ).get? pre cond).keys, (fill (r φ).get? pre cond).get? p = (r φ).get? p := by
            intro p hp
            obtain ⟨w, hw'⟩ := (Dict.mem_keys_iff_exists _ _).1 hp
            rw [hw', h1 p w hw']
          refine Props.Expr.getDistribution_congr sem hcl (fun y hy => ?_)
          rcases hns x n f ps hl y ((Expr.mem_names y f).1 hy) with h | ⟨h3, h4⟩
          · exact hpk y ((h2 y).2 (Or.inr (hpar y h)))
          · rw [(Dict.get?_eq_none_iff _ _).2 (fun h => ?_), (Dict.get?_eq_none_iff _ _).2 (fun h => ?_)]
            · exact (((hF.outcome φ).keys y).1 h).elim h4 h3
            · rcases (h2 y).1 h with h | h
              · exact h4 h
              · exact h3 ((ht.complete y).1 (by rw [e]; simp [h]))
        have hup : ∀ φ v, ∀ y, y ∈ cond.keys ∨ y ∈ pre → (r (Function.update φ x v)).get? y = (r φ).get? y := by
          intro φ v
          refine agree hcl hw hns hs s0 hF ht pre (x :: xs) e (fun y hy => ?_)
          rw [mem_drawnOf] at hy
          exact Function.update_of_ne (fun h : y = x => hxpre (h ▸ hy.1)) _ _
        have hupx : ∀ φ v, (r (Function.update φ x v)).get? x = some v := fun φ v => by
          rw [hF.drawn _ x hrv hx, Function.update_self]
        have hset : ∀ φ v, fill (r (Function.update φ x v)).get? (pre ++ [x]) cond =
            (fill (r φ).get? pre cond).set x v := by
          intro φ v
          rw [fill_append, fill_congr pre cond (fun y hy => hup φ v y (Or.inr hy))]
          simp [fill, hnk φ, hupx]
        have hloop : ∀ φ s s' r', sampleLoop sem bn (fun _ => true) (x :: xs) (fill (r φ).get? pre cond) s = (.ok r', s') ↔
            ∃ d v s1, getDistribution sem f (r φ).get? = .ok d ∧ d.sample s = (.ok v, s1) ∧
              sampleLoop sem bn (fun _ => true) xs (fill (r (Function.update φ x v)).get? (pre ++ [x]) cond) s1 =
                (.ok r', s') := by
          intro φ s s' r'
          simp only [sampleLoop, hnk φ, hget, not_false_eq_true, decide_true,
            Bool.and_true, if_true, Loci.render, hgd, hset]
          cases hd : getDistribution sem f (r φ).get? with
          | error er => simp
          | ok d =>
            rcases hsam : d.sample s with ⟨⟨er⟩ | ⟨v⟩, s1⟩
            · simp only [hsam]
              constructor
              · intro h
                cases h
              · rintro ⟨d', v', s1', h1, h2, -⟩
                cases h1
                rw [hsam] at h2
                cases h2
            · simp only [hsam]
              constructor
              · intro h
                exact ⟨d, v, s1, rfl, hsam, h⟩
              · rintro ⟨d', v', s1', h1, h2, h'⟩
                cases h1
                rw [hsam] at h2
                cases h2
                exact h'
        have hend : Ends sem bn cond r H od pre (x :: xs) = {p : (N → V) × S | ∃ d v s',
            getDistribution sem f (r p.1).get? = .ok d ∧ d.sample p.2 = (.ok v, s') ∧
            (Function.update p.1 x v, s') ∈ Ends sem bn cond r H od (pre ++ [x]) xs} := by
          ext ⟨φ, s⟩
          simp only [Ends, Set.mem_ofPred_eq, hloop, drawnOf_insert ⟨hrv, hx⟩]
          constructor
          · rintro ⟨ψ, s', h1, ⟨d, v, s1, h2, h3, h4⟩, h5⟩
            refine ⟨d, v, s1, h2, h3, ψ, s', fun y hy => ?_, h4, h5⟩
            by_cases hyx : y = x
            · subst hyx
              have h6 := (sampleLoop_ok sem bn _ _ h4).2.1 y v (by rw [hset, Dict.get?_set, if_pos rfl])
              rw [fill_full hF ht, hF.drawn ψ y hrv hx] at h6
              rw [Function.update_self]
              exact Option.some.inj h6
            · rw [Function.update_of_ne hyx]
              exact h1 y (by rw [Finset.mem_insert]; exact fun h => h.elim hyx hy)
          · rintro ⟨d, v, s1, h2, h3, ψ, s', h1, h4, h5⟩
            refine ⟨ψ, s', fun y hy => ?_, ⟨d, v, s1, h2, h3, h4⟩, h5⟩
            rw [Finset.mem_insert, not_or] at hy
            rw [h1 y hy.2, Function.update_of_ne hy.1]
        rw [hend, drawnOf_insert ⟨hrv, hx⟩]
        refine ⟨hF.draws x n f ps hl hx _ i1, fun φ => ?_, fun φ s s' r' h => ?_⟩
        swap
        · obtain ⟨d, v, s1, h1, h2, h3⟩ := (hloop φ s s' r').1 h
          obtain ⟨ψ, h4, h5⟩ := i3 _ _ _ _ h3
          refine ⟨ψ, fun y hy => ?_, h5⟩
          rw [Finset.mem_insert, not_or] at hy
          rw [h4 y hy.2, Function.update_of_ne hy.1]
        have hxd : x ∉ drawnOf bn cond xs := fun h => hxxs (mem_drawnOf.1 h).1
        have hm : Measurable (integrand sem bn r (insert x (drawnOf bn cond xs)) (fun ψ => μ {s' | (ψ, s') ∈ H})) := by
          rw [← drawnOf_insert ⟨hrv, hx⟩]
          exact integrand_measurable hF hg _
        have hm' := integrand_measurable hF hg xs
        rw [lmarginal_insert _ hm hxd]
        -- the density of `x` does not depend on what is drawn later
        have hsplit : ∀ ψ, (∫⋯∫⁻_(drawnOf bn cond xs), integrand sem bn r (insert x (drawnOf bn cond xs))
            (fun ψ => μ {s' | (ψ, s') ∈ H}) ∂ν) ψ =
            nodeDens sem bn x (r ψ) *
              (∫⋯∫⁻_(drawnOf bn cond xs), integrand sem bn r (drawnOf bn cond xs)
                (fun ψ => μ {s' | (ψ, s') ∈ H}) ∂ν) ψ := by
          intro ψ
          refine lmarginal_const_mul' _ hm' ψ (fun y => ?_)
          have ha := agree hcl hw hns hs s0 hF ht (φ := Function.updateFinset ψ (drawnOf bn cond xs) y) (ψ := ψ)
            (pre ++ [x]) xs e' (fun z hz => by
              rw [mem_drawnOf] at hz
              rw [Function.updateFinset_def]
              refine dif_neg (fun h => ?_)
              have hz2 := (mem_drawnOf.1 h).1
              have hnd2 := ht.nodup
              rw [e'] at hnd2
              exact (List.nodup_append.1 hnd2).2.2 z hz.1 z hz2 rfl)
          have hsame := same_names hcl hns hF hl (fun p hp => ha p (Or.inr (by simp [hpar p hp]))) n f ps rfl
          have hnode : nodeDens sem bn x (r (Function.updateFinset ψ (drawnOf bn cond xs) y)) =
              nodeDens sem bn x (r ψ) := by
            unfold nodeDens
            rw [hl]
            simp only
            rw [hsame, ha x (Or.inr (by simp))]
          unfold integrand
          rw [Finset.prod_insert hxd, hnode, mul_assoc]
        simp only [hsplit]
        cases hd : getDistribution sem f (r φ).get? with
        | error er =>
          have hz : ∀ v, nodeDens sem bn x (r (Function.update φ x v)) = 0 := by
            intro v
            have hsame := same_names hcl hns hF hl (φ := Function.update φ x v) (ψ := φ)
              (fun p hp => hup φ v p (Or.inr (hpar p hp))) n f ps rfl
            unfold nodeDens
            rw [hl]
            simp only
            rw [hsame, hd]
          simp [hz, hd]
        | ok d =>
          have hz : ∀ v, nodeDens sem bn x (r (Function.update φ x v)) = dens d v := by
            intro v
            have hsame := same_names hcl hns hF hl (φ := Function.update φ x v) (ψ := φ)
              (fun p hp => hup φ v p (Or.inr (hpar p hp))) n f ps rfl
            unfold nodeDens
            rw [hl]
            simp only
            rw [hsame, hd, hupx]
          have hG : MeasurableSet {q : V × S | (Function.update φ x q.1, q.2) ∈
              Ends sem bn cond r H od (pre ++ [x]) xs} :=
            (((measurable_update φ).comp measurable_fst).prodMk measurable_snd) i1
          have hfd := hF.fair φ x n f ps d hl hx hd _ hG
          have hset' : {s | (φ, s) ∈ {p : (N → V) × S | ∃ d v s',
              getDistribution sem f (r p.1).get? = .ok d ∧ d.sample p.2 = (.ok v, s') ∧
              (Function.update p.1 x v, s') ∈ Ends sem bn cond r H od (pre ++ [x]) xs}} =
              {s | ∃ v s', d.sample s = (.ok v, s') ∧ (v, s') ∈ {q : V × S | (Function.update φ x q.1, q.2) ∈
                Ends sem bn cond r H od (pre ++ [x]) xs}} := by
            ext s
            simp only [Set.mem_ofPred_eq, hd]
            constructor
            · rintro ⟨d', v, s', h1, h2⟩
              cases h1
              exact ⟨v, s', h2⟩
            · rintro ⟨v, s', h2⟩
              exact ⟨d, v, s', rfl, h2⟩
          rw [hset', hfd]
          refine lintegral_congr (fun v => ?_)
          have := i2 (Function.update φ x v)
          simp only [Set.mem_ofPred_eq] at this ⊢
          rw [hz, this]

end Agree

/-- **C243** (the law of `sample` with densities, and of what follows): the values drawn and the state left have a property
with the integral, over the values of the random variables not given, of the product of the densities that their `logpdf`
report, each with the parameters that the assignment itself gives its parents, and of the chance that a fresh state has
the property with these values. -/
theorem C243_joint {μ : Measure S} [SFinite μ] {ν : N → Measure V} [∀ x, SigmaFinite (ν x)] (sem : Sem N V C O S (XR ℝ))
    (hcl : ∀ c, (sem.reparse c).names = []) {bn : BN N V C O} (hr : Ready bn) {cond : Dict N V}
    {r : (N → V) → Dict N V} (hns : NoShadow bn cond.keys) (hs : ∀ x, Exogenous bn x → x ∈ cond.keys)
    (hF : Family μ ν sem bn cond r) {drawn : Finset N} (hd : ∀ x, x ∈ drawn ↔ bn.Rv x ∧ x ∉ cond.keys)
    {H : Set ((N → V) × S)} (hH : MeasurableSet H) (φ : N → V) :
    MeasurableSet {s | ∃ ψ r' s', (∀ y, y ∉ drawn → ψ y = φ y) ∧ sample sem bn cond s = (.ok r', s') ∧
      r'.get? = (r ψ).get? ∧ (ψ, s') ∈ H} ∧
    μ {s | ∃ ψ r' s', (∀ y, y ∉ drawn → ψ y = φ y) ∧ sample sem bn cond s = (.ok r', s') ∧
      r'.get? = (r ψ).get? ∧ (ψ, s') ∈ H} =
      (∫⋯∫⁻_drawn, (fun ψ => (∏ x ∈ drawn, nodeDens sem bn x (r ψ)) * μ {s' | (ψ, s') ∈ H}) ∂ν) φ ∧
    ∀ s r' s', sample sem bn cond s = (.ok r', s') → ∃ ψ, (∀ y, y ∉ drawn → ψ y = φ y) ∧ r'.get? = (r ψ).get? := by
  rcases isEmpty_or_nonempty S with hS | ⟨⟨s0⟩⟩
  · have h0 : ∀ A : Set S, A = ∅ := fun A => Set.eq_empty_of_isEmpty A
    refine ⟨by rw [h0 {s | _}]; exact MeasurableSet.empty, ?_, fun s => isEmptyElim s⟩
    have h1 : (fun ψ => (∏ x ∈ drawn, nodeDens sem bn x (r ψ)) * μ {s' | (ψ, s') ∈ H}) = fun _ => 0 := by
      funext ψ
      rw [h0 {s' | _}]
      simp
    rw [h0 {s | _}, h1]
    simp [lmarginal]
  obtain ⟨od, ht, heq⟩ := sample_supplied sem hr hs
  have hdr : drawnOf bn cond od = drawn := by
    ext x
    rw [mem_drawnOf, hd, ht.complete]
    constructor
    · exact fun h => h.2
    · intro h
      obtain ⟨l, hl, -⟩ := h.1
      exact ⟨(hr.facts.1.defined x).1 ⟨l, hl⟩, h⟩
  obtain ⟨h1, h2, h3⟩ := loop_law hcl hr.facts.1 hns hs s0 hF ht hH od [] rfl
  rw [hdr] at h2 h3
  have hset : {s | ∃ ψ r' s', (∀ y, y ∉ drawn → ψ y = φ y) ∧ sample sem bn cond s = (.ok r', s') ∧
      r'.get? = (r ψ).get? ∧ (ψ, s') ∈ H} = {s | (φ, s) ∈ Ends sem bn cond r H od [] od} := by
    ext s
    simp only [Ends, Set.mem_ofPred_eq, heq, hdr]
    constructor
    · rintro ⟨ψ, r', s', h4, h5, h6, h7⟩
      obtain ⟨ψ', h8, h9⟩ := h3 φ s s' r' h5
      have e : ψ' = ψ := by
        funext y
        by_cases hy : y ∈ drawn
        · have h10 := congrFun h6 y
          obtain ⟨k1, k2⟩ := (hd y).1 hy
          rw [h9, fill_full hF ht, hF.drawn _ y k1 k2, hF.drawn _ y k1 k2] at h10
          exact Option.some.inj h10
        · rw [h8 y hy, h4 y hy]
      subst e
      exact ⟨ψ', s', h4, by rw [← h9]; exact h5, h7⟩
    · rintro ⟨ψ, s', h4, h5, h7⟩
      exact ⟨ψ, _, s', h4, h5, fill_full hF ht ψ, h7⟩
  rw [hset, h2 φ]
  refine ⟨(measurable_prodMk_left (x := φ)) h1, rfl, fun s r' s' h => ?_⟩
  rw [heq] at h
  obtain ⟨ψ, h4, h5⟩ := h3 φ s s' r' h
  exact ⟨ψ, h4, by rw [h5, fill_full hF ht]⟩

theorem lmarginal_mul_const {ν : N → Measure V} [∀ x, SigmaFinite (ν x)] (s : Finset N) {f : (N → V) → ENNReal}
    (hf : Measurable f) (c : ENNReal) (φ : N → V) :
    (∫⋯∫⁻_s, (fun ψ => f ψ * c) ∂ν) φ = (∫⋯∫⁻_s, f ∂ν) φ * c := by
  unfold lmarginal
  exact lintegral_mul_const c (hf.comp measurable_updateFinset)

/-- **C243** (the law of `sample` with densities): what is drawn has a property with the integral of the product of the
densities that the `logpdf` of the random variables not given report, each with the parameters that the assignment itself
gives its parents, over the values of these variables where the assignment has the property. -/
theorem C243 {μ : Measure S} [SFinite μ] {ν : N → Measure V} [∀ x, SigmaFinite (ν x)] (sem : Sem N V C O S (XR ℝ))
    (hcl : ∀ c, (sem.reparse c).names = []) {bn : BN N V C O} (hr : Ready bn) {cond : Dict N V}
    {r : (N → V) → Dict N V} (hns : NoShadow bn cond.keys) (hs : ∀ x, Exogenous bn x → x ∈ cond.keys)
    (hF : Family μ ν sem bn cond r) {drawn : Finset N} (hd : ∀ x, x ∈ drawn ↔ bn.Rv x ∧ x ∉ cond.keys)
    {E : Set (N → Option V)} (hE : MeasurableSet {ψ | (r ψ).get? ∈ E}) (φ : N → V) :
    Chance μ (fun s s' => ∃ r', sample sem bn cond s = (.ok r', s') ∧ r'.get? ∈ E)
      ((∫⋯∫⁻_drawn, (fun ψ => (∏ x ∈ drawn, nodeDens sem bn x (r ψ)) * {ψ | (r ψ).get? ∈ E}.indicator 1 ψ) ∂ν) φ) := by
  intro B hB
  obtain ⟨h1, h2, h3⟩ := C243_joint sem hcl hr hns hs hF hd (hE.prod hB) φ
  have hset : {s | ∃ s' ∈ B, ∃ r', sample sem bn cond s = (.ok r', s') ∧ r'.get? ∈ E} =
      {s | ∃ ψ r' s', (∀ y, y ∉ drawn → ψ y = φ y) ∧ sample sem bn cond s = (.ok r', s') ∧
        r'.get? = (r ψ).get? ∧ (ψ, s') ∈ {ψ | (r ψ).get? ∈ E} ×ˢ B} := by
    ext s
    constructor
    · rintro ⟨s', h4, r', h5, h6⟩
      obtain ⟨ψ, h7, h8⟩ := h3 s r' s' h5
      exact ⟨ψ, r', s', h7, h5, h8, by rw [h8] at h6; exact h6, h4⟩
    · rintro ⟨ψ, r', s', -, h5, h6, h7, h8⟩
      exact ⟨s', h8, r', h5, by rw [h6]; exact h7⟩
  rw [hset]
  refine ⟨h1, h2.trans ?_⟩
  have hm : Measurable (fun ψ => (∏ x ∈ drawn, nodeDens sem bn x (r ψ)) * {ψ | (r ψ).get? ∈ E}.indicator 1 ψ) := by
    refine Measurable.mul (Finset.measurable_fun_prod _ (fun x hx => ?_)) (measurable_one.indicator hE)
    exact hF.density x ((hd x).1 hx).1 ((hd x).1 hx).2
  rw [← lmarginal_mul_const drawn hm]
  congr 1
  congr 1
  funext ψ
  rw [mul_assoc]
  congr 1
  by_cases hψ : (r ψ).get? ∈ E
  · simp [hψ]
  · simp [hψ]

theorem nodeDens_eq {sem : Sem N V C O S (XR ℝ)} {bn : BN N V C O} {x : N} {r : Dict N V} {l : XR ℝ}
    (h : LogDensity sem bn r x l) : nodeDens sem bn x r = expX l := by
  obtain ⟨n, f, ps, v, hl, hv, hd⟩ := h
  unfold nodeDens
  rw [hl]
  simp only
  rcases hd with ⟨d, hg, hd⟩ | ⟨hg, rfl⟩
  · rw [hg, hv]
    simp only [dens]
    rcases hd with hd | ⟨hd, rfl⟩
    · rw [hd]
    · rw [hd]; rfl
  · rw [hg]; rfl

theorem prod_eq_expX {sem : Sem N V C O S (XR ℝ)} {bn : BN N V C O} (hr : Ready bn) {cond r : Dict N V}
    (ho : Outcome sem bn cond r) (hc : ∀ x ∈ cond.keys, ¬ bn.Rv x) {drawn : Finset N}
    (hd : ∀ x, x ∈ drawn ↔ bn.Rv x ∧ x ∉ cond.keys) {lp : XR ℝ} (he : evaluateNodes sem bn r = .ok lp) :
    ∏ x ∈ drawn, nodeDens sem bn x r = expX lp := by
  obtain ⟨rvs, d, h1, h2, h3, h4, h5⟩ := C26_sum sem hr ho.wf he
  have e : expX lp = expX ((rvs.map d).sum) := by
    by_cases hh : (rvs.map d).sum = .nan
    · rw [h4 hh, hh]; rfl
    · rw [h5 hh]
  have hdr : drawn = rvs.toFinset := by
    ext x
    rw [hd, List.mem_toFinset, h2]
    refine and_congr_right (fun hx => ?_)
    obtain ⟨l, hl, -⟩ := id hx
    exact ⟨fun _ => (ho.keys x).2 (Or.inr ((hr.facts.1.defined x).1 ⟨l, hl⟩)), fun _ h => hc x h hx⟩
  rw [e, expX_sum, List.map_map, hdr, List.prod_toFinset _ h1]
  congr 1
  exact List.map_congr_left (fun x hx => nodeDens_eq (h3 x hx))

/-- **C243** (with `evaluate_nodes`): without given random variables, what is drawn has a property with the integral of
the exponential of what `evaluate_nodes` reports for the assignments that have it. -/
theorem C243_evaluate {μ : Measure S} [SFinite μ] {ν : N → Measure V} [∀ x, SigmaFinite (ν x)] (sem : Sem N V C O S (XR ℝ))
    (hcl : ∀ c, (sem.reparse c).names = []) {bn : BN N V C O} (hr : Ready bn) {cond : Dict N V}
    {r : (N → V) → Dict N V} (hns : NoShadow bn cond.keys) (hs : ∀ x, Exogenous bn x → x ∈ cond.keys)
    (hc : ∀ x ∈ cond.keys, ¬ bn.Rv x) (hF : Family μ ν sem bn cond r) {drawn : Finset N}
    (hd : ∀ x, x ∈ drawn ↔ bn.Rv x) {lp : (N → V) → XR ℝ} (he : ∀ ψ, evaluateNodes sem bn (r ψ) = .ok (lp ψ))
    {E : Set (N → Option V)} (hE : MeasurableSet {ψ | (r ψ).get? ∈ E}) (φ : N → V) :
    Chance μ (fun s s' => ∃ r', sample sem bn cond s = (.ok r', s') ∧ r'.get? ∈ E)
      ((∫⋯∫⁻_drawn, (fun ψ => expX (lp ψ) * {ψ | (r ψ).get? ∈ E}.indicator 1 ψ) ∂ν) φ) := by
  have hd' : ∀ x, x ∈ drawn ↔ bn.Rv x ∧ x ∉ cond.keys := fun x => (hd x).trans
    ⟨fun h => ⟨h, fun hx => hc x hx h⟩, fun h => h.1⟩
  have h := C243 sem hcl hr hns hs hF hd' hE φ
  have e : (fun ψ => (∏ x ∈ drawn, nodeDens sem bn x (r ψ)) * {ψ | (r ψ).get? ∈ E}.indicator 1 ψ) =
      fun ψ => expX (lp ψ) * {ψ | (r ψ).get? ∈ E}.indicator 1 ψ := by
    funext ψ
    rw [prod_eq_expX hr (hF.outcome ψ) hc hd' (he ψ)]
  rw [e] at h
  exact h

/-- **C243** (chromosomes): a chromosome carries the log of the density that the law of its values has. -/
theorem C243_chromosome {μ : Measure S} [SFinite μ] {ν : N → Measure V} [∀ x, SigmaFinite (ν x)] (sem : Sem N V C O S (XR ℝ))
    (hcl : ∀ c, (sem.reparse c).names = []) {bn : BN N V C O} (hr : Ready bn) {cond : Dict N V} (hcw : cond.WF)
    {r : (N → V) → Dict N V} (hns : NoShadow bn cond.keys) (hs : ∀ x, Exogenous bn x → x ∈ cond.keys)
    (hc : ∀ x ∈ cond.keys, ¬ bn.Rv x) (hF : Family μ ν sem bn cond r) {drawn : Finset N}
    (hd : ∀ x, x ∈ drawn ↔ bn.Rv x) {lp : (N → V) → XR ℝ} (he : ∀ ψ, evaluateNodes sem bn (r ψ) = .ok (lp ψ))
    {E : Set (N → Option V)} (hE : MeasurableSet {ψ | (r ψ).get? ∈ E}) (φ : N → V) :
    Chance μ (fun s s' => ∃ ch ψ, sampleChromosome sem bn cond s = (.ok ch, s') ∧ ch.locus.get? = (r ψ).get? ∧
      ch.logProb = lp ψ ∧ ch.locus.get? ∈ E)
      ((∫⋯∫⁻_drawn, (fun ψ => expX (lp ψ) * {ψ | (r ψ).get? ∈ E}.indicator 1 ψ) ∂ν) φ) := by
  have hset : {ψ | (r ψ).get? ∈ E ∩ {g | ∃ ψ, g = (r ψ).get?}} = {ψ | (r ψ).get? ∈ E} := by
    ext ψ
    exact ⟨fun h => h.1, fun h => ⟨h, ψ, rfl⟩⟩
  have h := C243_evaluate sem hcl hr hns hs hc hF hd he (E := E ∩ {g | ∃ ψ, g = (r ψ).get?}) (by rw [hset]; exact hE) φ
  rw [hset] at h
  refine h.congr (fun s s' => ?_)
  constructor
  · rintro ⟨r', h1, h2, ψ, h3⟩
    have hwf : r'.WF := by
      obtain ⟨od, -, heq⟩ := sample_supplied sem hr hs
      rw [heq s] at h1
      exact (sampleLoop_ok sem bn _ _ h1).2.2.1 hcw
    have h4 := (C26_order sem bn hwf (hF.outcome ψ).wf (fun x => congrFun h3 x) (lp ψ)).2 (he ψ)
    exact ⟨⟨r', lp ψ⟩, ψ, (C27_chromosome sem bn cond s s' _).2 ⟨r', h1, rfl, h4⟩, h3, rfl, h2⟩
  · rintro ⟨ch, ψ, h1, h2, -, h3⟩
    obtain ⟨r', h4, h5, -⟩ := (C27_chromosome sem bn cond s s' _).1 h1
    rw [h5] at h2 h3
    exact ⟨r', h4, h3, ψ, h2⟩

/-! ## An example: a mean and a measurement -/

/-- A stream of numbers behind its first one. -/
def tail (s : ℕ → ℝ) (n : ℕ) : ℝ := s (n + 1)

/-- The stream with a number before it. -/
def cons (p : ℝ × (ℕ → ℝ)) : ℕ → ℝ
  | 0 => p.1
  | n + 1 => p.2 n

/-- Independent standard normal numbers. -/
noncomputable def stream : Measure (ℕ → ℝ) := Measure.infinitePi (fun _ => ProbabilityTheory.gaussianReal 0 1)

instance : IsProbabilityMeasure stream := by unfold stream; infer_instance

theorem measurable_tail : Measurable tail := measurable_pi_iff.2 (fun n => measurable_pi_apply (n + 1))

theorem measurable_cons : Measurable cons := by
  refine measurable_pi_iff.2 (fun n => ?_)
  cases n with
  | zero => exact measurable_fst
  | succ n => exact (measurable_pi_apply n).comp measurable_snd

/-- A number before a stream of independent numbers is such a stream. -/
theorem cons_stream (ρ : Measure ℝ) [IsProbabilityMeasure ρ] :
    (ρ.prod (Measure.infinitePi (fun _ : ℕ => ρ))).map cons = Measure.infinitePi (fun _ : ℕ => ρ) := by
  refine Measure.eq_infinitePi _ (fun s t ht => ?_)
  obtain ⟨n, hn⟩ : ∃ n, s ⊆ Finset.range (n + 1) := ⟨s.sup id, fun i hi => by
    have := Finset.le_sup (f := id) hi
    simp only [id] at this
    simp; omega⟩
  set t' : ℕ → Set ℝ := fun i => if i ∈ s then t i else Set.univ with ht'
  have hm : ∀ i, MeasurableSet (t' i) := fun i => by
    simp only [ht']; split
    · exact ht i
    · exact MeasurableSet.univ
  have h1 : Set.pi s t = Set.pi (Finset.range (n + 1)) t' := by
    ext x
    simp only [Set.mem_pi, ht']
    constructor
    · intro h i _
      split
      · exact h i (by assumption)
      · trivial
    · intro h i hi
      have := h i (hn hi)
      rwa [if_pos (by exact hi)] at this
  have h2 : ∏ i ∈ s, ρ (t i) =
      ∏ i ∈ Finset.range (n + 1), ρ (t' i) := by
    rw [← Finset.prod_subset hn (fun i _ hi => by simp [ht', hi])]
    exact Finset.prod_congr rfl (fun i hi => by simp [ht', hi])
  rw [h1, h2, Measure.map_apply measurable_cons (MeasurableSet.pi (Finset.countable_toSet _) (fun i _ => hm i))]
  have h3 : cons ⁻¹' Set.pi (Finset.range (n + 1)) t' = t' 0 ×ˢ Set.pi (Finset.range n) (fun i => t' (i + 1)) := by
    ext ⟨z, s⟩
    simp only [Set.mem_preimage, Set.mem_pi, Set.mem_prod, Finset.coe_range, Set.mem_Iio]
    constructor
    · intro h
      exact ⟨h 0 (by omega), fun i hi => h (i + 1) (by omega)⟩
    · rintro ⟨h, h'⟩ i hi
      cases i with
      | zero => exact h
      | succ i => exact h' i (by omega)
  have h4 : Measure.infinitePi (fun _ : ℕ => ρ) (Set.pi (Finset.range n) (fun i => t' (i + 1))) =
      ∏ i ∈ Finset.range n, ρ (t' (i + 1)) := by
    rw [Measure.infinitePi_pi]
    exact fun i _ => hm _
  rw [h3, Measure.prod_prod, h4, Finset.prod_range_succ', mul_comm]

theorem split_stream (ρ : Measure ℝ) [IsProbabilityMeasure ρ] :
    (Measure.infinitePi (fun _ : ℕ => ρ)).map (fun s => (s 0, tail s)) = ρ.prod (Measure.infinitePi (fun _ : ℕ => ρ)) := by
  have hm : Measurable (fun s : ℕ → ℝ => (s 0, tail s)) := (measurable_pi_apply 0).prodMk measurable_tail
  conv_lhs => rw [← cons_stream ρ]
  rw [Measure.map_map hm measurable_cons]
  have : (fun s : ℕ → ℝ => (s 0, tail s)) ∘ cons = id := by
    funext p
    rfl
  rw [this, Measure.map_id]

theorem stream_split : stream.map (fun s => (s 0, tail s)) = (ProbabilityTheory.gaussianReal 0 1).prod stream :=
  split_stream _

/-- A normal variable with standard deviation 1, which takes a number from the stream. -/
noncomputable def normal (m : ℝ) : Dist ℝ (ℕ → ℝ) (XR ℝ) where
  sample := fun s => (.ok (m + s 0), tail s)
  logpdf := fun v => .ok (.fin (Real.log (ProbabilityTheory.gaussianPDFReal m 1 v)))

theorem normal_dens (m v : ℝ) : dens (normal m) v = ProbabilityTheory.gaussianPDF m 1 v := by
  simp only [dens, normal, expX, ProbabilityTheory.gaussianPDF]
  rw [Real.exp_log (ProbabilityTheory.gaussianPDFReal_pos m 1 v one_ne_zero)]

theorem normal_fair (m : ℝ) : FairDensity stream volume (normal m) := by
  intro G hG
  have hm : Measurable (fun s : ℕ → ℝ => (s 0, tail s)) := (measurable_pi_apply 0).prodMk measurable_tail
  have hG' : MeasurableSet {q : ℝ × (ℕ → ℝ) | (m + q.1, q.2) ∈ G} :=
    ((measurable_const.add measurable_fst).prodMk measurable_snd) hG
  have e : {s | ∃ v s', (normal m).sample s = (.ok v, s') ∧ (v, s') ∈ G} =
      (fun s : ℕ → ℝ => (s 0, tail s)) ⁻¹' {q : ℝ × (ℕ → ℝ) | (m + q.1, q.2) ∈ G} := by
    ext s
    simp [normal]
  have hmG : Measurable (fun v => stream {s' | (v, s') ∈ G}) := measurable_measure_prodMk_left hG
  rw [e, ← Measure.map_apply hm hG', stream_split, Measure.prod_apply hG']
  calc ∫⁻ z, stream (Prod.mk z ⁻¹' {q : ℝ × (ℕ → ℝ) | (m + q.1, q.2) ∈ G}) ∂ProbabilityTheory.gaussianReal 0 1
      = ∫⁻ z, stream {s' | (m + z, s') ∈ G} ∂ProbabilityTheory.gaussianReal 0 1 := rfl
    _ = ∫⁻ v, stream {s' | (v, s') ∈ G} ∂(ProbabilityTheory.gaussianReal 0 1).map (m + ·) :=
        (lintegral_map hmG (measurable_const_add m)).symm
    _ = ∫⁻ v, stream {s' | (v, s') ∈ G} ∂ProbabilityTheory.gaussianReal m 1 := by
        rw [ProbabilityTheory.gaussianReal_map_const_add, zero_add]
    _ = ∫⁻ v, dens (normal m) v * stream {s' | (v, s') ∈ G} := by
        rw [ProbabilityTheory.gaussianReal_of_var_ne_zero m one_ne_zero,
          lintegral_withDensity_eq_lintegral_mul _ (ProbabilityTheory.measurable_gaussianPDF m 1) hmG]
        exact lintegral_congr (fun v => by rw [normal_dens]; rfl)

/-- The sum of numbers. -/
noncomputable def total : List (Result ℝ) → Result ℝ
  | [] => .ok 0
  | .error e :: _ => .error e
  | .ok a :: l => match total l with
    | .ok b => .ok (a + b)
    | .error e => .error e

/-- Numbers, sums, and normal variables with a given mean. -/
noncomputable def normSem : Sem String ℝ ℝ Unit (ℕ → ℝ) (XR ℝ) where
  const := id
  op := fun _ rs => total rs
  call := fun _ _ ks => total (ks.map Prod.snd)
  math := fun _ => none
  creators := fun f => if f = "norm" then some 0 else none
  create := fun m => .ok (normal m)
  schema := fun f => if f = "norm" then some [("mean", none)] else none
  reparse := .const
  reload := .ok

/-- `norm(mean=e)` -/
def normE (e : Expr String ℝ Unit) : Expr String ℝ Unit := .call "norm" .nil (Kws.ofList [("mean", e)])

/-- `mu ~ norm(mean=0)`, `w = mu + mu`, `x ~ norm(mean=w)` -/
noncomputable def normDefs : List (Loci String ℝ ℝ Unit) :=
  [.dist "mu" (normE (.const 0)) [],
   .func "w" (.op () (.cons (.name "mu") (.cons (.name "mu") .nil))) ["mu"],
   .dist "x" (normE (.name "w")) ["w"]]

/-- The network of these definitions. -/
noncomputable def normBN : BN String ℝ ℝ Unit := defineAll (.empty "m") normDefs

theorem normBuilt : Ready normBN :=
  ⟨_, _, ((((Built.empty "m").step _ rfl).step _ rfl).step _ rfl), Or.inl rfl⟩

/-- The assignments. -/
noncomputable def normAssign (φ : String → ℝ) : Dict String ℝ :=
  [("mu", φ "mu"), ("w", φ "mu" + (φ "mu" + 0)), ("x", φ "x")]

theorem norm_loci {x : String} {l : Loci String ℝ ℝ Unit} (h : normBN.loci.get? x = some l) :
    (x = "mu" ∧ l = .dist "mu" (normE (.const 0)) []) ∨
      (x = "w" ∧ l = .func "w" (.op () (.cons (.name "mu") (.cons (.name "mu") .nil))) ["mu"]) ∨
      (x = "x" ∧ l = .dist "x" (normE (.name "w")) ["w"]) := by
  have h1 := Dict.mem_of_get? h
  have e : normBN.loci = [("mu", .dist "mu" (normE (.const 0)) []),
      ("w", .func "w" (.op () (.cons (.name "mu") (.cons (.name "mu") .nil))) ["mu"]),
      ("x", .dist "x" (normE (.name "w")) ["w"])] := rfl
  rw [e] at h1
  simpa using h1

theorem norm_mu (φ : String → ℝ) :
    getDistribution normSem (normE (.const 0)) (normAssign φ).get? = .ok (normal (0 + 0)) := rfl

theorem norm_x (φ : String → ℝ) :
    getDistribution normSem (normE (.name "w")) (normAssign φ).get? = .ok (normal (φ "mu" + (φ "mu" + 0) + 0)) := rfl

theorem norm_draws {g : (String → ℝ) → ℝ} (hg : Measurable g) (x : String) {H : Set ((String → ℝ) × (ℕ → ℝ))}
    (hH : MeasurableSet H) {D : (String → ℝ) → Result (Dist ℝ (ℕ → ℝ) (XR ℝ))} (hD : ∀ φ, D φ = .ok (normal (g φ))) :
    MeasurableSet {p : (String → ℝ) × (ℕ → ℝ) | ∃ d v s', D p.1 = .ok d ∧ d.sample p.2 = (.ok v, s') ∧
      (Function.update p.1 x v, s') ∈ H} := by
  have e : {p : (String → ℝ) × (ℕ → ℝ) | ∃ d v s', D p.1 = .ok d ∧ d.sample p.2 = (.ok v, s') ∧
      (Function.update p.1 x v, s') ∈ H} = (fun p : (String → ℝ) × (ℕ → ℝ) =>
        (Function.update p.1 x (g p.1 + p.2 0), tail p.2)) ⁻¹' H := by
    ext p
    constructor
    · rintro ⟨d, v, s', h1, h2, h3⟩
      rw [hD] at h1
      cases h1
      cases h2
      exact h3
    · intro h
      exact ⟨_, _, _, hD _, rfl, h⟩
  rw [e]
  refine Measurable.prodMk ?_ (measurable_tail.comp measurable_snd) hH
  exact measurable_update'.comp (measurable_fst.prodMk ((hg.comp measurable_fst).add
    ((measurable_pi_apply 0).comp measurable_snd)))

theorem norm_family : Family stream (fun _ => volume) normSem normBN [] normAssign where
  outcome := fun φ => {
    wf := show ["mu", "w", "x"].Nodup by decide
    keys := by
      intro x
      have e : normBN.dag.nodes = ["mu", "w", "x"] := rfl
      have e' : Dict.keys (normAssign φ) = ["mu", "w", "x"] := rfl
      rw [e, e']
      simp [Dict.keys]
    given := by intro x v h; cases h
    fixed := by
      intro x l hl _ hd
      rcases norm_loci hl with ⟨-, rfl⟩ | ⟨rfl, rfl⟩ | ⟨-, rfl⟩
      · cases hd
      · exact ⟨_, rfl, fun s => rfl⟩
      · cases hd }
  drawn := by
    rintro φ x ⟨l, hl, hd⟩ -
    rcases norm_loci hl with ⟨rfl, rfl⟩ | ⟨rfl, rfl⟩ | ⟨rfl, rfl⟩
    · rfl
    · cases hd
    · rfl
  fair := by
    intro φ x n f ps d hl _ hd
    rcases norm_loci hl with ⟨rfl, h⟩ | ⟨rfl, h⟩ | ⟨rfl, h⟩
    · cases h
      rw [norm_mu] at hd
      cases hd
      exact normal_fair _
    · cases h
    · cases h
      rw [norm_x] at hd
      cases hd
      exact normal_fair _
  draws := by
    intro x n f ps hl _ H hH
    rcases norm_loci hl with ⟨rfl, h⟩ | ⟨rfl, h⟩ | ⟨rfl, h⟩
    · cases h
      exact norm_draws (g := fun _ => 0 + 0) measurable_const _ hH norm_mu
    · cases h
    · cases h
      exact norm_draws (g := fun φ => φ "mu" + (φ "mu" + 0) + 0)
        (((measurable_pi_apply _).add ((measurable_pi_apply _).add measurable_const)).add measurable_const) _ hH norm_x
  density := by
    rintro x ⟨l, hl, hd⟩ -
    have hpdf : Measurable (fun p : ℝ × ℝ => ProbabilityTheory.gaussianPDF p.1 1 p.2) := by
      unfold ProbabilityTheory.gaussianPDF ProbabilityTheory.gaussianPDFReal
      fun_prop
    rcases norm_loci hl with ⟨rfl, rfl⟩ | ⟨rfl, rfl⟩ | ⟨rfl, rfl⟩
    · have e : (fun φ => nodeDens normSem normBN "mu" (normAssign φ)) =
          fun φ => ProbabilityTheory.gaussianPDF (0 + 0) 1 (φ "mu") := by
        funext φ
        exact normal_dens _ _
      rw [e]
      exact (ProbabilityTheory.measurable_gaussianPDF _ _).comp (measurable_pi_apply _)
    · cases hd
    · have e : (fun φ => nodeDens normSem normBN "x" (normAssign φ)) =
          fun φ => ProbabilityTheory.gaussianPDF (φ "mu" + (φ "mu" + 0) + 0) 1 (φ "x") := by
        funext φ
        exact normal_dens _ _
      rw [e]
      have h1 : Measurable (fun φ : String → ℝ => φ "mu" + (φ "mu" + 0) + 0) :=
        ((measurable_pi_apply _).add ((measurable_pi_apply _).add measurable_const)).add measurable_const
      have h2 : Measurable (fun φ : String → ℝ => φ "x") := measurable_pi_apply _
      exact Measurable.comp (g := fun p : ℝ × ℝ => ProbabilityTheory.gaussianPDF p.1 1 p.2)
        (f := fun φ : String → ℝ => (φ "mu" + (φ "mu" + 0) + 0, φ "x")) hpdf (h1.prodMk h2)

theorem norm_exo (x : String) : ¬ Exogenous normBN x := by
  rintro ⟨n, h⟩
  rcases norm_loci h with ⟨-, h⟩ | ⟨-, h⟩ | ⟨-, h⟩ <;> cases h

theorem norm_rv (x : String) : x ∈ ({"mu", "x"} : Finset String) ↔ normBN.Rv x := by
  constructor
  · intro h
    rcases Finset.mem_insert.1 h with rfl | h
    · exact ⟨_, rfl, rfl⟩
    · rw [Finset.mem_singleton.1 h]
      exact ⟨_, rfl, rfl⟩
  · rintro ⟨l, hl, hd⟩
    rcases norm_loci hl with ⟨rfl, rfl⟩ | ⟨rfl, rfl⟩ | ⟨rfl, rfl⟩
    · simp
    · cases hd
    · simp

/-- The measurement is below the mean. -/
def below : Set (String → Option ℝ) := {g | ∃ a b, g "mu" = some a ∧ g "x" = some b ∧ b ≤ a}

theorem below_iff (ψ : String → ℝ) : (normAssign ψ).get? ∈ below ↔ ψ "x" ≤ ψ "mu" := by
  constructor
  · rintro ⟨a, b, h1, h2, h3⟩
    have e1 : (normAssign ψ).get? "mu" = some (ψ "mu") := rfl
    have e2 : (normAssign ψ).get? "x" = some (ψ "x") := rfl
    rw [e1] at h1
    rw [e2] at h2
    cases h1
    cases h2
    exact h3
  · intro h
    exact ⟨ψ "mu", ψ "x", rfl, rfl, h⟩

theorem below_measurable : MeasurableSet {ψ | (normAssign ψ).get? ∈ below} := by
  simp only [below_iff]
  exact measurableSet_le (measurable_pi_apply _) (measurable_pi_apply _)

example : Chance stream (fun s s' => ∃ r', sample normSem normBN [] s = (.ok r', s') ∧ r'.get? ∈ below)
    (∫⁻ a, ∫⁻ b in Set.Iic a, ProbabilityTheory.gaussianPDF 0 1 a * ProbabilityTheory.gaussianPDF (a + a) 1 b) := by
  have h := C243 normSem (fun _ => rfl) normBuilt (cond := []) (noShadow_of_check (by rfl))
    (fun x hx => absurd hx (norm_exo x)) norm_family (drawn := {"mu", "x"})
    (fun x => (norm_rv x).trans ⟨fun h => ⟨h, by simp [Dict.keys]⟩, fun h => h.1⟩) below_measurable (fun _ => 0)
  have hm : Measurable (fun ψ => (∏ x ∈ ({"mu", "x"} : Finset String), nodeDens normSem normBN x (normAssign ψ)) *
      {ψ | (normAssign ψ).get? ∈ below}.indicator 1 ψ) := by
    refine Measurable.mul (Finset.measurable_fun_prod _ (fun x hx => ?_)) (measurable_one.indicator below_measurable)
    exact norm_family.density x ((norm_rv x).1 hx) (by simp [Dict.keys])
  rw [lmarginal_insert _ hm (by decide)] at h
  simp only [lmarginal_singleton] at h
  convert h using 1
  refine lintegral_congr (fun a => ?_)
  rw [← lintegral_indicator measurableSet_Iic]
  refine lintegral_congr (fun b => ?_)
  rw [Finset.prod_insert (by decide), Finset.prod_singleton]
  have e1 : nodeDens normSem normBN "mu" (normAssign (Function.update (Function.update (fun _ => 0) "mu" a) "x" b)) =
      ProbabilityTheory.gaussianPDF 0 1 a := by
    refine (normal_dens (0 + 0) _).trans ?_
    simp
  have e2 : nodeDens normSem normBN "x" (normAssign (Function.update (Function.update (fun _ => 0) "mu" a) "x" b)) =
      ProbabilityTheory.gaussianPDF (a + a) 1 b := by
    refine (normal_dens _ _).trans ?_
    simp
  rw [e1, e2]
  by_cases hb : b ≤ a
  · simp [Set.indicator, hb, below_iff]
  · simp [Set.indicator, hb, below_iff]


-- the next number of the generator is independent of the values drawn: `x ≤ mu` and then a negative number
example : stream {s | ∃ ψ r' s', (∀ y, y ∉ ({"mu", "x"} : Finset String) → ψ y = (0 : ℝ)) ∧
      sample normSem normBN [] s = (.ok r', s') ∧ r'.get? = (normAssign ψ).get? ∧ ψ "x" ≤ ψ "mu" ∧ s' 0 < 0} =
    (∫⋯∫⁻_{"mu", "x"}, (fun ψ : String → ℝ => (∏ x ∈ {"mu", "x"}, nodeDens normSem normBN x (normAssign ψ)) *
      stream {s' | ψ "x" ≤ ψ "mu" ∧ s' 0 < 0}) ∂(fun _ => volume)) (fun _ => 0) := by
  have hH : MeasurableSet {p : (String → ℝ) × (ℕ → ℝ) | p.1 "x" ≤ p.1 "mu" ∧ p.2 0 < 0} := by
    refine MeasurableSet.inter ?_ ?_
    · exact measurableSet_le ((measurable_pi_apply _).comp measurable_fst) ((measurable_pi_apply _).comp measurable_fst)
    · exact measurableSet_lt ((measurable_pi_apply _).comp measurable_snd) measurable_const
  exact (C243_joint normSem (fun _ => rfl) normBuilt (cond := []) (noShadow_of_check (by rfl))
    (fun x hx => absurd hx (norm_exo x)) norm_family (drawn := {"mu", "x"})
    (fun x => (norm_rv x).trans ⟨fun h => ⟨h, by simp [Dict.keys]⟩, fun h => h.1⟩) hH (fun _ => 0)).2.1

/-- What `evaluate_nodes` adds up. -/
noncomputable def normLp (ψ : String → ℝ) : XR ℝ :=
  .fin (Real.log (ProbabilityTheory.gaussianPDFReal (0 + 0) 1 (ψ "mu")) +
    (0 + (Real.log (ProbabilityTheory.gaussianPDFReal (ψ "mu" + (ψ "mu" + 0) + 0) 1 (ψ "x")) + 0)))

theorem norm_eval (ψ : String → ℝ) : evaluateNodes normSem normBN (normAssign ψ) = .ok (normLp ψ) := rfl

example : Chance stream (fun s s' => ∃ r', sample normSem normBN [] s = (.ok r', s') ∧ r'.get? ∈ below)
    ((∫⋯∫⁻_{"mu", "x"}, (fun ψ : String → ℝ => expX (normLp ψ) * {ψ | ψ "x" ≤ ψ "mu"}.indicator 1 ψ)
      ∂(fun _ => volume)) (fun _ => 0)) := by
  have h := C243_evaluate normSem (fun _ => rfl) normBuilt (cond := []) (noShadow_of_check (by rfl))
    (fun x hx => absurd hx (norm_exo x)) (by simp [Dict.keys]) norm_family norm_rv norm_eval below_measurable (fun _ => 0)
  simpa only [below_iff] using h

example : Chance stream (fun s s' => ∃ ch ψ, sampleChromosome normSem normBN [] s = (.ok ch, s') ∧
      ch.locus.get? = (normAssign ψ).get? ∧ ch.logProb = normLp ψ ∧ ch.locus.get? ∈ below)
    ((∫⋯∫⁻_{"mu", "x"}, (fun ψ : String → ℝ => expX (normLp ψ) * {ψ | ψ "x" ≤ ψ "mu"}.indicator 1 ψ)
      ∂(fun _ => volume)) (fun _ => 0)) := by
  have h := C243_chromosome normSem (fun _ => rfl) normBuilt (cond := []) (by exact List.nodup_nil)
    (noShadow_of_check (by rfl)) (fun x hx => absurd hx (norm_exo x)) (by simp [Dict.keys]) norm_family norm_rv norm_eval
    below_measurable (fun _ => 0)
  simpa only [below_iff] using h

end Props.LawsDensity
