import Verif.Props.LawsAbc
import Verif.Props.Draw

/-!
# The law of the draws of the package `fitting`: C212
-/

namespace Props.LawsDraw

open Py Spec Model Model.Draw MeasureTheory ProbabilityTheory Props.Draw

set_option linter.unusedSectionVars false

variable {S N P K : Type} [DecidableEq N] [Field K] [LinearOrder K] [MeasurableSpace S] [MeasurableSpace P]

open Classical in
/-- A fair coin draws one of two values. -/
theorem coin_draws {α : Type} [MeasurableSpace α] (a b : α) :
    Draws uniform01 (fun s x s' => (if (coin (1 / 2) s).1 then a else b) = x ∧ (coin (1 / 2) s).2 = s')
      ((1 / 2 : ENNReal) • Measure.dirac a + (1 / 2 : ENNReal) • Measure.dirac b) := by
  intro A hA
  have e : ENNReal.ofReal (1 / 2) = 1 / 2 := by rw [ENNReal.ofReal_div_of_pos (by norm_num)]; simp
  have h1 : Chance uniform01 (fun s s' => a ∈ A ∧ coin (1 / 2) s = (true, s')) (if a ∈ A then 1 / 2 else 0) := by
    split
    · rename_i hA
      have h := coin_true (p := 1 / 2) (by norm_num) (by norm_num)
      rw [e] at h
      exact h.congr (fun s s' => (and_iff_right hA).symm)
    · rename_i hA
      exact Chance.never (fun s s' h => hA h.1)
  have h2 : Chance uniform01 (fun s s' => b ∈ A ∧ coin (1 / 2) s = (false, s')) (if b ∈ A then 1 / 2 else 0) := by
    split
    · rename_i hA
      have h := coin_false (p := 1 / 2) (by norm_num) (by norm_num)
      rw [show (1 - 1 / 2 : ℝ) = 1 / 2 by norm_num, e] at h
      exact h.congr (fun s s' => (and_iff_right hA).symm)
    · rename_i hA
      exact Chance.never (fun s s' h => hA h.1)
  have h3 := h1.or h2 (by
    rintro s m m' ⟨-, h⟩ ⟨-, h'⟩
    rw [h] at h'
    cases h')
  have e2 : ((1 / 2 : ENNReal) • Measure.dirac a + (1 / 2 : ENNReal) • Measure.dirac b) A =
      (if a ∈ A then 1 / 2 else 0) + (if b ∈ A then 1 / 2 else 0) := by
    simp [Measure.dirac_apply' _ hA, Set.indicator_apply]
  rw [e2]
  refine h3.congr (fun s s' => ?_)
  constructor
  · rintro (⟨h, h'⟩ | ⟨h, h'⟩)
    · exact ⟨a, h, by beta_reduce; rw [h']; exact ⟨rfl, rfl⟩⟩
    · exact ⟨b, h, by beta_reduce; rw [h']; exact ⟨rfl, rfl⟩⟩
  · rintro ⟨p, h, rfl, rfl⟩
    rcases hc : (coin (1 / 2) s).1 with _ | _
    · rw [hc] at h; exact .inr ⟨h, Prod.ext hc rfl⟩
    · rw [hc] at h; exact .inl ⟨h, Prod.ext hc rfl⟩

/-- The particles whose likelihood is not infinite. -/
def Good (o : Objective P N K S) : Set P := {p | o.logLik p ≠ .pinf ∧ o.logLik p ≠ .ninf}

theorem try_lik {o : Objective P N K S} {s s' : S} {l : XR K} {p : P} (h : Try o s l p s') : l = o.logLik p := by
  obtain ⟨q, s1, -, h2⟩ := h
  have h3 := evaluate_of h2
  unfold evaluate at h3
  split at h3
  · obtain ⟨h4, -⟩ := Run.pure_ok.1 h3
    cases h4; rfl
  · obtain ⟨l', m, -, h5⟩ := Run.bind_ok.1 h3
    obtain ⟨h4, -⟩ := Run.pure_ok.1 h5
    cases h4; rfl

theorem isInf_good {o : Objective P N K S} {p : P} : isInf (o.logLik p) = false ↔ p ∈ Good o := by
  rw [← Bool.not_eq_true, isInf_iff, not_or]; rfl

theorem loop_iff {o : Objective P N K S} {left i j : Nat} {p : P} {s s' : S} :
    drawLoop o (left + 1) i s = some (.ok (p, j), s') ↔ ∃ q m, (∃ l, Try o s l q m) ∧
      (if i + 1 > 20 then (p, j) = (o.dead, i + 1) ∧ m = s'
      else if isInf (o.logLik q) = true then drawLoop o left (i + 1) m = some (.ok (p, j), s')
      else (p, j) = (q, i + 1) ∧ m = s') := by
  have key : ∀ {q m l}, Try o s l q m → (drawLoop o (left + 1) i s = some (.ok (p, j), s') ↔
      (if i + 1 > 20 then (p, j) = (o.dead, i + 1) ∧ m = s'
      else if isInf (o.logLik q) = true then drawLoop o left (i + 1) m = some (.ok (p, j), s')
      else (p, j) = (q, i + 1) ∧ m = s')) := by
    intro q m l ht
    rw [drawLoop_step o left i ht, try_lik ht]
    split
    · simp [eq_comm]
    · split
      · rfl
      · simp [eq_comm]
  constructor
  · intro h
    have h0 := h
    rw [drawLoop] at h
    obtain ⟨q, s1, h1, h2⟩ := Run.bind_ok.1 h
    obtain ⟨⟨l, p'⟩, s2, h3, -⟩ := Run.bind_ok.1 h2
    have ht : Try o s l p' s2 := ⟨q, s1, h1, evaluate_ok h3⟩
    exact ⟨p', s2, ⟨l, ht⟩, (key ht).1 h0⟩
  · rintro ⟨q, m, ⟨l, ht⟩, h⟩
    exact (key ht).2 h

open Classical in
theorem loop_law {μ : Measure S} {Q : Measure P} [IsProbabilityMeasure Q] {o : Objective P N K S}
    (hQ : Draws μ (fun s p s' => ∃ l, Try o s l p s') Q) (hm : MeasurableSet (Good o)) {A : Set P} (hA : MeasurableSet A)
    (n : ℕ) (hn : n ≤ 20) :
    Chance μ (fun s s' => ∃ p j, drawLoop o (n + 1) (20 - n) s = some (.ok (p, j), s') ∧ p ∈ A)
      ((∑ k ∈ Finset.range n, Q (Good o)ᶜ ^ k) * Q (A ∩ Good o) + Q (Good o)ᶜ ^ n * (if o.dead ∈ A then 1 else 0)) := by
  induction n with
  | zero =>
    by_cases hd : o.dead ∈ A
    · have h := hQ _ MeasurableSet.univ
      rw [measure_univ] at h
      simp only [Finset.range_zero, Finset.sum_empty, zero_mul, pow_zero, hd, if_true, mul_one, zero_add]
      refine h.congr (fun s s' => ?_)
      constructor
      · rintro ⟨q, -, ht⟩
        exact ⟨o.dead, 21, loop_iff.2 ⟨q, s', ht, by simp⟩, hd⟩
      · rintro ⟨p, j, h1, -⟩
        obtain ⟨q, m, ht, h2⟩ := loop_iff.1 h1
        rw [if_pos (by omega)] at h2
        exact ⟨q, trivial, h2.2 ▸ ht⟩
    · simp only [Finset.range_zero, Finset.sum_empty, zero_mul, hd, if_false, mul_zero, add_zero]
      refine Chance.never (fun s s' => ?_)
      rintro ⟨p, j, h1, h3⟩
      obtain ⟨q, m, ht, h2⟩ := loop_iff.1 h1
      rw [if_pos (by omega)] at h2
      obtain ⟨rfl, -⟩ := Prod.mk.inj h2.1
      exact hd h3
  | succ n ih =>
    have ih := ih (by omega)
    have e : (∑ k ∈ Finset.range (n + 1), Q (Good o)ᶜ ^ k) * Q (A ∩ Good o) +
        Q (Good o)ᶜ ^ (n + 1) * (if o.dead ∈ A then 1 else 0) =
        Q (Good o)ᶜ * ((∑ k ∈ Finset.range n, Q (Good o)ᶜ ^ k) * Q (A ∩ Good o) +
          Q (Good o)ᶜ ^ n * (if o.dead ∈ A then 1 else 0)) + Q (A ∩ Good o) := by
      rw [Finset.sum_range_succ', add_mul, pow_zero, one_mul, mul_add, ← mul_assoc, ← mul_assoc, Finset.mul_sum]
      simp only [pow_succ']
      ac_rfl
    rw [e]
    refine (((hQ _ hm.compl).comp ih).or (hQ _ (hA.inter hm)) ?_).congr (fun s s' => ?_)
    · rintro s m m' ⟨k, ⟨q, h1, l, ht⟩, -⟩ ⟨q', h3, l', ht'⟩
      have : (l, q) = (l', q') := by
        obtain ⟨a, s1, h4, h5⟩ := ht
        obtain ⟨a', s1', h4', h5'⟩ := ht'
        rw [h4] at h4'
        cases h4'
        have h6 := evaluate_of h5
        rw [evaluate_of h5'] at h6
        cases h6; rfl
      cases this
      exact h1 h3.2
    · have hi : ¬ (20 - (n + 1) + 1 > 20) := by omega
      have hi2 : 20 - (n + 1) + 1 = 20 - n := by omega
      constructor
      · rintro (⟨m, ⟨q, h1, ht⟩, p, j, h2, h3⟩ | ⟨q, h1, ht⟩)
        · refine ⟨p, j, loop_iff.2 ⟨q, m, ht, ?_⟩, h3⟩
          rw [if_neg hi, if_pos (by
            rw [← Bool.not_eq_false, isInf_good]
            exact h1), hi2]
          exact h2
        · refine ⟨q, 20 - (n + 1) + 1, loop_iff.2 ⟨q, s', ht, ?_⟩, h1.1⟩
          rw [if_neg hi, if_neg (by rw [Bool.not_eq_true, isInf_good]; exact h1.2)]
          exact ⟨rfl, rfl⟩
      · rintro ⟨p, j, h1, h3⟩
        obtain ⟨q, m, ht, h2⟩ := loop_iff.1 h1
        rw [if_neg hi] at h2
        by_cases hg : q ∈ Good o
        · rw [if_neg (by rw [Bool.not_eq_true, isInf_good]; exact hg)] at h2
          obtain ⟨h4, rfl⟩ := h2
          obtain ⟨rfl, -⟩ := Prod.mk.inj h4
          exact .inr ⟨p, ⟨h3, hg⟩, ht⟩
        · rw [if_pos (by rw [← Bool.not_eq_false, isInf_good]; exact hg), hi2] at h2
          exact .inl ⟨m, ⟨q, hg, ht⟩, p, j, h2, h3⟩

open Classical in
/-- **C212**: a draw is from the prior conditioned on a finite likelihood, except that it is the empty particle with the
probability that twenty draws from the prior have no finite likelihood. -/
theorem C212 {μ : Measure S} {Q : Measure P} [IsProbabilityMeasure Q] {o : Objective P N K S}
    (hQ : Draws μ (fun s p s' => ∃ l, Try o s l p s') Q) (hm : MeasurableSet (Good o)) {A : Set P} (hA : MeasurableSet A) :
    Chance μ (fun s s' => ∃ p j, draw o s = some (.ok (p, j), s') ∧ p ∈ A)
      ((1 - Q (Good o)ᶜ ^ 20) * Q[|Good o] A + Q (Good o)ᶜ ^ 20 * (if o.dead ∈ A then 1 else 0)) := by
  have h := loop_law hQ hm hA 20 le_rfl
  have hb : Q (Good o) + Q (Good o)ᶜ = 1 := by rw [measure_add_measure_compl hm, measure_univ]
  have hg : ∀ n, (∑ k ∈ Finset.range n, Q (Good o)ᶜ ^ k) * Q (Good o) + Q (Good o)ᶜ ^ n = 1 := by
    intro n
    induction n with
    | zero => simp
    | succ n ih =>
      rw [Finset.sum_range_succ, add_mul, add_assoc, pow_succ, ← mul_add, hb, mul_one]
      exact ih
  have e : (∑ k ∈ Finset.range 20, Q (Good o)ᶜ ^ k) * Q (A ∩ Good o) = (1 - Q (Good o)ᶜ ^ 20) * Q[|Good o] A := by
    have h1 : Q (A ∩ Good o) = Q (Good o) * Q[|Good o] A := by
      rw [mul_comm, cond_mul_eq_inter hm, Set.inter_comm]
    rw [h1, ← mul_assoc]
    congr 1
    refine (ENNReal.eq_sub_of_add_eq ?_ (hg 20))
    exact ENNReal.pow_ne_top (measure_ne_top _ _)
  rw [← e]
  exact h

/-- A coin whose one side has the likelihood zero; `none` is the empty particle. -/
noncomputable def coinObj : Objective (Option Bool) Unit ℝ ℝ where
  samplePrior := fun s => some (.ok (some (coin (1 / 2) s).1), (coin (1 / 2) s).2)
  evaluatePrior := pure
  calcLikelihood := fun _ => pure (.fin 0)
  serve := fun _ => pure none
  logPrior := fun _ => .fin 0
  logLik := fun p => if p = some true then .fin 0 else .ninf
  likEvaluated := fun _ => true
  setLik := fun p _ => p
  setPrior := fun p _ => p
  dead := none
  clone := id
  locus := fun _ => []
  impulse := fun p _ => .ok p
  toJson := fun _ => ⟨[], none, none⟩
  normal := fun _ => pure 0

instance : MeasurableSpace (Option Bool) := ⊤

/-- The law of the coin. -/
noncomputable def coinQ : Measure (Option Bool) :=
  (1 / 2 : ENNReal) • Measure.dirac (some true) + (1 / 2 : ENNReal) • Measure.dirac (some false)

theorem coin_try {s s' : ℝ} {p : Option Bool} : (∃ l, Try coinObj s l p s') ↔
    some (coin (1 / 2) s).1 = p ∧ (coin (1 / 2) s).2 = s' := by
  constructor
  · rintro ⟨l, q, s1, h1, h2⟩
    obtain ⟨h3, rfl⟩ := Prod.mk.inj (Option.some.inj h1)
    cases h3
    rcases h2 with ⟨-, -, rfl, rfl⟩ | ⟨h, -⟩
    · exact ⟨rfl, rfl⟩
    · cases h
  · rintro ⟨rfl, rfl⟩
    exact ⟨_, _, _, rfl, .inl ⟨rfl, rfl, rfl, rfl⟩⟩

theorem coin_law : Draws uniform01 (fun s p s' => ∃ l, Try coinObj s l p s') coinQ := by
  intro A hA
  refine (coin_draws (some true) (some false) A hA).congr (fun s s' => exists_congr (fun p => and_congr_right (fun _ => ?_)))
  refine Iff.trans ?_ coin_try.symm
  beta_reduce
  cases (coin (1 / 2) s).1 <;> rfl

instance : IsProbabilityMeasure coinQ := ⟨by simp [coinQ, ENNReal.inv_two_add_inv_two]⟩

theorem coin_good : Good coinObj = {some true} := by
  ext p
  by_cases h : p = some true <;> simp [Good, coinObj, h]

/-- The side of positive likelihood is drawn unless twenty coins show the other one, and then the particle is empty. -/
example : Chance uniform01 (fun s s' => ∃ p j, draw coinObj s = some (.ok (p, j), s') ∧ p ∈ ({none} : Set (Option Bool)))
    ((1 / 2) ^ 20) := by
  classical
  have hb : coinQ (Good coinObj)ᶜ = 1 / 2 := by
    rw [coin_good]
    simp [coinQ]
  have h := C212 coin_law (o := coinObj) trivial (A := {none}) trivial
  rw [hb, cond_apply (show MeasurableSet (Good coinObj) from trivial), coin_good] at h
  simpa [coinObj] using h

end Props.LawsDraw
