import Verif.Model.Samplers
import Verif.Props.Dist
import Verif.Props.Regression

/-!
# Samplers of regressions and baselines of survival regressions (C146 to C148)
-/

namespace Props.Samplers

open Py Model Model.Dist MeasureTheory ProbabilityTheory
open Props.Dist (law)
open scoped NNReal

variable {L : Type} [DecidableEq L]

/-! ## Samplers -/

/-- C146: the sampler of a linear regression is normal around the expectation, with the error as deviation; an error that
is not positive is refused. -/
theorem C146_linear (tx : Texts L) (m : LinearReg L) (xs : Dict L (Covariate L)) {mu : ℝ}
    (h : m.glm.linear tx xs = .ok mu) :
    (0 < m.error → ∃ d, m.sampler tx xs = .ok d ∧ law d = gaussianReal mu (m.error ^ 2).toNNReal ∧ ∫ x, x ∂(law d) = mu) ∧
      (m.error ≤ 0 → m.sampler tx xs = .error .ValidationError) := by
  constructor
  · intro he
    obtain ⟨d, hd⟩ := Props.Dist.C143_accepted_partial (name := "norm") (args := [("mean", mu), ("sd", m.error)])
      (by simp) (by
        intro k v hv
        simp only [Dict.get?_cons] at hv
        by_cases h1 : "mean" = k
        · subst h1
          simp
        · rw [if_neg h1] at hv
          by_cases h2 : "sd" = k
          · rw [if_pos h2] at hv
            cases hv
            subst h2
            simp [he]
          · rw [if_neg h2] at hv
            cases hv)
    have hl := (Props.Dist.C140_norm hd).2
    have hg : law d = gaussianReal mu (m.error ^ 2).toNNReal := hl
    refine ⟨d, ?_, hg, ?_⟩
    · rw [LinearReg.sampler, h]
      exact hd
    · rw [hg, integral_id_gaussianReal]
  · intro he
    rw [LinearReg.sampler, h]
    show create "norm" [("mean", mu), ("sd", m.error)] = _
    rw [create]
    rw [Props.Dist.field_some (v := mu) rfl, Props.Dist.field_some (v := m.error) rfl, if_pos trivial,
      if_neg (not_lt.2 he)]
    rfl

/-- C146: `predict(xs, n)` of a linear regression draws from the sampler: one number for `n` up to one, and `n` otherwise. -/
theorem C146_predict (tx : Texts L) (m : LinearReg L) (xs : Dict L (Covariate L)) {d : SpDouble}
    (h : m.sampler tx xs = .ok d) (rvs : SpDouble → Nat → List ℝ) (hr : ∀ d n, (rvs d n).length = n) (n : Int) :
    (n ≤ 1 → ∃ x, rvs d 1 = [x] ∧ m.predict tx rvs xs n = .ok (.one x)) ∧
      (1 < n → ∃ l, (l.length : Int) = n ∧ rvs d n.toNat = l ∧ m.predict tx rvs xs n = .ok (.many l)) := by
  constructor
  · intro hn
    have h1 := hr d 1
    obtain ⟨x, hx⟩ := List.length_eq_one_iff.1 h1
    refine ⟨x, hx, ?_⟩
    have e : max n 1 = 1 := max_eq_right hn
    rw [LinearReg.predict, h]
    simp only [e]
    show (if True then (match rvs d 1 with
      | [] => .error .IndexError
      | x :: _ => .ok (.one x)) else Except.ok (.many (rvs d 1)) : Result (Drawn ℝ)) = _
    rw [if_pos trivial, hx]
  · intro hn
    have e : max n 1 = n := max_eq_left hn.le
    refine ⟨rvs d n.toNat, by rw [hr]; omega, rfl, ?_⟩
    rw [LinearReg.predict, h]
    simp only [e]
    show (if n = 1 then _ else _) = _
    rw [if_neg (by omega)]
    rfl

example : (LinearReg.mk ⟨3, []⟩ 2 : LinearReg String).glm.linear ⟨fun _ => none, ""⟩ [] = .ok ((([] : List ℝ).sum) + 3) := rfl

/-- C146: the sampler of a logistic regression draws one with the expected probability, and zero otherwise. -/
theorem C146_logistic (tx : Texts L) (m : GLM L) (xs : Dict L (Covariate L)) {p : ℝ} (h : m.logistic tx xs = .ok p) :
    ∃ d, m.logisticSampler tx xs = .ok d ∧ d.pmf 1 = p ∧ d.pmf 0 = 1 - p ∧ ∀ k : ℤ, k ≠ 0 → k ≠ 1 → d.pmf k = 0 := by
  have hp := (Props.Regression.C116 tx xs).1 m p h
  refine ⟨.binom 1 p, ?_, ?_, ?_, ?_⟩
  · rw [GLM.logisticSampler, h]
    show createBinom (some 1) (some p) = _
    unfold createBinom
    simp only [if_pos (show 0 ≤ p ∧ p ≤ 1 from ⟨hp.1.le, hp.2.le⟩)]
    rfl
  · simp [SpInteger.pmf]
  · simp [SpInteger.pmf]
  · intro k h0 h1
    rw [SpInteger.pmf, if_neg]
    push_cast
    omega

theorem poisson_mean {v : ℝ} (hv : 0 < v) : HasSum (fun k : ℕ => (k : ℝ) * (SpInteger.poisson v).pmf k) v := by
  have h1 := (hasSum_one_poissonMeasure v.toNNReal).mul_left v
  rw [Real.coe_toNNReal v hv.le, mul_one] at h1
  rw [← hasSum_nat_add_iff' 1]
  simp only [Finset.range_one, Finset.sum_singleton, Nat.cast_zero, zero_mul, sub_zero]
  refine h1.congr_fun ?_
  intro k
  show ((k + 1 : ℕ) : ℝ) * (SpInteger.poisson v).pmf ((k + 1 : ℕ) : ℤ) = _
  rw [SpInteger.pmf, if_pos (by omega), Int.toNat_natCast, Nat.factorial_succ, pow_succ]
  have : (k.factorial : ℝ) ≠ 0 := by exact_mod_cast k.factorial_ne_zero
  have : ((k : ℝ) + 1) ≠ 0 := by positivity
  push_cast
  field_simp

/-- C146: the sampler of a Poisson regression has the Poisson law whose mean is the expectation. -/
theorem C146_poisson (tx : Texts L) (m : GLM L) (xs : Dict L (Covariate L)) {v : ℝ} (h : m.poisson tx xs = .ok v) :
    ∃ d, m.poissonSampler tx xs = .ok d ∧ (∀ k : ℕ, d.pmf k = (poissonMeasure v.toNNReal).real {k}) ∧
      HasSum (fun k : ℕ => (k : ℝ) * d.pmf k) v := by
  have hv : 0 < v := by
    rw [GLM.poisson] at h
    cases hl : m.linear tx xs with
    | error e => rw [hl] at h; cases h
    | ok y =>
      rw [hl] at h
      cases h
      exact Real.exp_pos y
  have hc : createPois (some v) = .ok (.poisson v) := if_pos hv
  refine ⟨.poisson v, ?_, ?_, poisson_mean hv⟩
  · rw [GLM.poissonSampler, h]
    exact hc
  · exact ((Props.Dist.C145_pois (some v)).2 _ hc).2.1

example : (GLM.mk 3 [] : GLM String).poisson ⟨fun _ => none, ""⟩ [] = .ok (Real.exp ((([] : List ℝ).sum) + 3)) := rfl

/-! ## Baselines -/

theorem findBaseline_some (t : String) (nums : Dict String ℝ) (lists : Dict String (List ℝ)) :
    findBaseline ⟨some t, nums, lists⟩ =
        if t.toLower = "exp" then (do return .exp (← jsKey (nums.get? "Rate")))
        else if t.toLower = "weibull" then do
          let lam ← jsKey (nums.get? "Lambda")
          return .weibull lam (← jsKey (nums.get? "K"))
        else if t.toLower = "empirical" then do
          let times ← jsKey (lists.get? "Time")
          empiricalHazard times (← jsKey (lists.get? "CumHaz"))
        else .error .KeyError := rfl

/-- C147, as first stated, fails: a complete description of an empirical hazard is refused, whatever its lists. -/
theorem C147_refuted (times cumHaz : List ℝ) :
    findBaseline ⟨some "empirical", [], [("Time", times), ("CumHaz", cumHaz)]⟩ = .error .ValueError := by
  rw [findBaseline_some, if_neg (by decide +kernel), if_neg (by decide +kernel), if_pos (by decide +kernel)]
  rfl

/-- C147: descriptions of exponential and Weibull hazards give these, in whatever case the type is written; a missing key
and an unknown type raise KeyError, and an empirical hazard cannot be had.  Missing for the full claim: empirical hazards
(`C147_refuted`). -/
theorem C147_partial (js : BaselineJs) :
    (∀ t r, js.type = some t → t.toLower = "exp" → js.nums.get? "Rate" = some r → findBaseline js = .ok (.exp r)) ∧
      (∀ t lam k, js.type = some t → t.toLower = "weibull" → js.nums.get? "Lambda" = some lam →
        js.nums.get? "K" = some k → findBaseline js = .ok (.weibull lam k)) ∧
      (∀ e, findBaseline js = .error e → e = .KeyError ∨ e = .ValueError ∧ ∃ t, js.type = some t ∧ t.toLower = "empirical") ∧
      (∀ t, js.type = some t → t.toLower ∉ ["exp", "weibull", "empirical"] → findBaseline js = .error .KeyError) ∧
      ∀ haz, findBaseline js = .ok haz → (∃ r, haz = .exp r ∧ js.nums.get? "Rate" = some r) ∨
        ∃ lam k, haz = .weibull lam k ∧ js.nums.get? "Lambda" = some lam ∧ js.nums.get? "K" = some k := by
  obtain ⟨type, nums, lists⟩ := js
  cases type with
  | none =>
    refine ⟨fun t r h => (by cases h), fun t l k h => (by cases h), ?_, fun t h => (by cases h), ?_⟩
    · intro e h
      cases h
      exact .inl rfl
    · intro haz h
      cases h
  | some t =>
    rw [findBaseline_some]
    simp only []
    refine ⟨?_, ?_, ?_, ?_, ?_⟩
    · rintro t' r ⟨⟩ h1 h2
      rw [if_pos h1, h2]
      rfl
    · rintro t' lam k ⟨⟩ h1 h2 h3
      rw [if_neg (by rw [h1]; decide), if_pos h1, h2, h3]
      rfl
    · intro e
      by_cases h1 : t.toLower = "exp"
      · rw [if_pos h1]
        cases nums.get? "Rate" with
        | none => intro h; cases h; exact .inl rfl
        | some r => intro h; cases h
      · rw [if_neg h1]
        by_cases h2 : t.toLower = "weibull"
        · rw [if_pos h2]
          cases nums.get? "Lambda" with
          | none => intro h; cases h; exact .inl rfl
          | some r =>
            cases nums.get? "K" with
            | none => intro h; cases h; exact .inl rfl
            | some r => intro h; cases h
        · rw [if_neg h2]
          by_cases h3 : t.toLower = "empirical"
          · rw [if_pos h3]
            cases lists.get? "Time" with
            | none => intro h; cases h; exact .inl rfl
            | some r =>
              cases lists.get? "CumHaz" with
              | none => intro h; cases h; exact .inl rfl
              | some r => intro h; cases h; exact .inr ⟨rfl, t, rfl, h3⟩
          · rw [if_neg h3]
            intro h
            cases h
            exact .inl rfl
    · rintro t' ⟨⟩ h
      simp only [List.mem_cons, List.not_mem_nil, or_false, not_or] at h
      rw [if_neg h.1, if_neg h.2.1, if_neg h.2.2]
    · intro haz
      by_cases h1 : t.toLower = "exp"
      · rw [if_pos h1]
        cases nums.get? "Rate" with
        | none => intro h; cases h
        | some r => intro h; cases h; exact .inl ⟨r, rfl, rfl⟩
      · rw [if_neg h1]
        by_cases h2 : t.toLower = "weibull"
        · rw [if_pos h2]
          cases nums.get? "Lambda" with
          | none => intro h; cases h
          | some r =>
            cases nums.get? "K" with
            | none => intro h; cases h
            | some r' => intro h; cases h; exact .inr ⟨r, r', rfl, rfl, rfl⟩
        · rw [if_neg h2]
          by_cases h3 : t.toLower = "empirical"
          · rw [if_pos h3]
            cases lists.get? "Time" with
            | none => intro h; cases h
            | some r =>
              cases lists.get? "CumHaz" with
              | none => intro h; cases h
              | some r => intro h; cases h
          · rw [if_neg h3]
            intro h
            cases h

example : findBaseline ⟨some "Exp", [("Rate", 2)], []⟩ = .ok (.exp 2) :=
  (C147_partial _).1 "Exp" 2 rfl (by decide +kernel) rfl

/-! ## Expectations of survival regressions -/

/-- What `predict` draws on average for a case. -/
noncomputable def predicted (tx : Texts L) (m : Cox L) (xs : Dict L (Covariate L)) (y : ℝ) : ℝ :=
  ∫ e, Props.Hazard.value (m.predict tx xs e) ∂(expMeasure (Real.exp y))

theorem predicted_eq (tx : Texts L) (m : Cox L) (xs : Dict L (Covariate L)) {y : ℝ}
    (hy : linearPredict tx m.lc xs = .ok y) : predicted tx m xs y = Props.Hazard.expected m.haz (Real.exp y) := by
  unfold predicted Props.Hazard.expected
  congr 1
  funext e
  rw [Cox.predict, Cox.sampler, hy]
  rfl

/-- C148, as first stated, fails: an exponential baseline of rate two without covariates. -/
theorem C148_refuted : (Cox.mk (.exp 2) [] : Cox String).expectation ⟨fun _ => none, ""⟩ [] = .ok 2 ∧
    predicted ⟨fun _ => none, ""⟩ (Cox.mk (.exp 2) [] : Cox String) [] 0 = 1 / 2 := by
  constructor
  · show Except.ok (1 / (1 / (2 : ℝ)) / Real.exp (([] : List ℝ).sum)) = _
    simp
  · rw [predicted_eq _ _ _ rfl, Real.exp_zero]
    exact Props.Hazard.C109_refuted.2

/-- C148: the expectation of a Cox regression with an exponential baseline is the average of what `predict` draws exactly
when the rate of the baseline is one; it is otherwise off by the square of the rate.  Missing for the full claim: other
rates (`C148_refuted`). -/
theorem C148_partial (tx : Texts L) (lc : List (Regressor L)) {rate : ℝ} (hr : 0 < rate) (xs : Dict L (Covariate L))
    {y : ℝ} (hy : linearPredict tx lc xs = .ok y) :
    ∃ v, (Cox.mk (.exp rate) lc).expectation tx xs = .ok v ∧ v = rate ^ 2 * predicted tx (.mk (.exp rate) lc) xs y ∧
      (v = predicted tx (.mk (.exp rate) lc) xs y ↔ rate = 1) := by
  rw [predicted_eq tx (.mk (.exp rate) lc) xs hy]
  obtain ⟨h1, h2, -⟩ := (Props.Hazard.C109_partial (Real.exp y) (Real.exp_pos y)).1 rate hr
  refine ⟨(HazardDist.mk (.exp rate) (Real.exp y)).mean, ?_, h1, h2⟩
  rw [Cox.expectation, Cox.sampler, hy]
  rfl

/-- C148 for Weibull baselines: the expectation reported is right exactly when the square of the gamma function at
`1 + 1 / K` is the risk ratio to the power of `1 / K - 1`, for example for `K = 1`. -/
theorem C148_weibull_partial (tx : Texts L) (lc : List (Regressor L)) {lam k : ℝ} (hl : 0 < lam) (hk : 0 < k)
    (xs : Dict L (Covariate L)) {y : ℝ} (hy : linearPredict tx lc xs = .ok y) :
    ∃ v, (Cox.mk (.weibull lam k) lc).expectation tx xs = .ok v ∧
      (v = predicted tx (.mk (.weibull lam k) lc) xs y ↔ Real.Gamma (1 + 1 / k) ^ 2 = Real.exp y ^ (1 / k - 1)) ∧
      (k = 1 → v = predicted tx (.mk (.weibull lam k) lc) xs y) := by
  rw [predicted_eq tx (.mk (.weibull lam k) lc) xs hy]
  have key : (HazardDist.mk (.weibull lam k) (Real.exp y)).mean = Props.Hazard.expected (.weibull lam k) (Real.exp y) ↔
      Real.Gamma (1 + 1 / k) ^ 2 = Real.exp y ^ (1 / k - 1) := by
    rw [Props.Hazard.expected_weibull hk (Real.exp_pos y)]
    show 1 / (Real.Gamma (1 + 1 / k) * lam) / Real.exp y = _ ↔ _
    have hg : 0 < Real.Gamma (1 + 1 / k) := Real.Gamma_pos_of_pos (by positivity)
    have he := Real.exp_pos y
    have hp : 0 < Real.exp y ^ (1 / k) := Real.rpow_pos_of_pos he _
    rw [Real.rpow_sub he, Real.rpow_one, Real.div_rpow zero_le_one he.le, Real.one_rpow]
    rw [div_div, div_eq_div_iff (by positivity) (by positivity), eq_div_iff he.ne']
    constructor
    · intro h
      have h2 : lam * Real.exp y ^ (1 / k) = lam * (Real.Gamma (1 + 1 / k) ^ 2 * Real.exp y) := by
        have h3 := congrArg (· * Real.exp y ^ (1 / k)) h
        beta_reduce at h3
        have h4 : 1 / Real.exp y ^ (1 / k) * Real.exp y ^ (1 / k) = 1 := by field_simp
        calc lam * Real.exp y ^ (1 / k) = 1 * lam * Real.exp y ^ (1 / k) := by ring
          _ = 1 / Real.exp y ^ (1 / k) * Real.Gamma (1 + 1 / k) * (Real.Gamma (1 + 1 / k) * lam * Real.exp y) *
                Real.exp y ^ (1 / k) := h3
          _ = (1 / Real.exp y ^ (1 / k) * Real.exp y ^ (1 / k)) *
                (lam * (Real.Gamma (1 + 1 / k) ^ 2 * Real.exp y)) := by ring
          _ = _ := by rw [h4, one_mul]
      exact (mul_left_cancel₀ hl.ne' h2).symm
    · intro h
      rw [← h]
      field_simp
  refine ⟨(HazardDist.mk (.weibull lam k) (Real.exp y)).mean, ?_, key, ?_⟩
  · rw [Cox.expectation, Cox.sampler, hy]
    rfl
  · rintro rfl
    rw [key]
    norm_num [Props.Hazard.gamma_two]

/-- C148: a case whose linear predictor is larger has, in truth and in what is reported, a smaller expectation. -/
theorem C148_order_partial (tx : Texts L) (lc : List (Regressor L)) {rate : ℝ} (hr : 0 < rate)
    (xs xs' : Dict L (Covariate L)) {y y' : ℝ} (hy : linearPredict tx lc xs = .ok y)
    (hy' : linearPredict tx lc xs' = .ok y') (hlt : y < y') :
    ∃ v v', (Cox.mk (.exp rate) lc).expectation tx xs = .ok v ∧ (Cox.mk (.exp rate) lc).expectation tx xs' = .ok v' ∧
      v' < v ∧ predicted tx (.mk (.exp rate) lc) xs' y' < predicted tx (.mk (.exp rate) lc) xs y := by
  obtain ⟨v, h1, h2, -⟩ := C148_partial tx lc hr xs hy
  obtain ⟨v', h1', h2', -⟩ := C148_partial tx lc hr xs' hy'
  have hp : predicted tx (.mk (.exp rate) lc) xs' y' < predicted tx (.mk (.exp rate) lc) xs y := by
    rw [predicted_eq tx (.mk (.exp rate) lc) xs hy, predicted_eq tx (.mk (.exp rate) lc) xs' hy']
    rw [Props.Hazard.expected_exp (Real.exp_pos _), Props.Hazard.expected_exp (Real.exp_pos _)]
    have := Real.exp_lt_exp.2 hlt
    have := Real.exp_pos y
    exact one_div_lt_one_div_of_lt (by positivity) (by nlinarith)
  refine ⟨v, v', h1, h1', ?_, hp⟩
  rw [h2, h2']
  exact mul_lt_mul_of_pos_left hp (by positivity)

/-- C148: the expectation of a zero inflated regression with an exponential baseline is the average of what `predict`
draws exactly when the rate of the baseline is one. -/
theorem C148_zero_partial (tx : Texts L) (zero : GLM L) (lc : List (Regressor L)) {rate : ℝ} (hr : 0 < rate)
    (xs : Dict L (Covariate L)) {p y : ℝ} (hz : zero.logistic tx xs = .ok p) (hy : linearPredict tx lc xs = .ok y) :
    ∃ v, (ZeroCox.mk zero ⟨.exp rate, lc⟩).expectation tx xs = .ok v ∧
      (v = (∫ u in Set.Ico (0 : ℝ) 1, ∫ e, Props.Hazard.value ((ZeroCox.mk zero ⟨.exp rate, lc⟩).predict tx xs u e)
        ∂(expMeasure (Real.exp y))) ↔ rate = 1) := by
  obtain ⟨h0, h1⟩ := (Props.Regression.C116 tx xs).1 zero p hz
  have hs : (ZeroCox.mk zero ⟨.exp rate, lc⟩).sampler tx xs = .ok ⟨p, ⟨.exp rate, Real.exp y⟩⟩ := by
    rw [ZeroCox.sampler, hz]
    show (do let a ← Cox.sampler tx ⟨.exp rate, lc⟩ xs; Except.ok (ZeroHazardDist.mk p a)) = _
    rw [Cox.sampler, hy]
    rfl
  have hp : ∀ u e, (ZeroCox.mk zero ⟨.exp rate, lc⟩).predict tx xs u e =
      (ZeroHazardDist.mk p ⟨.exp rate, Real.exp y⟩).sample 1 [u] [e] := by
    intro u e
    rw [ZeroCox.predict, hs]
    rfl
  refine ⟨(ZeroHazardDist.mk p ⟨.exp rate, Real.exp y⟩).mean, ?_, ?_⟩
  · rw [ZeroCox.expectation, hs]
    rfl
  · simp only [hp]
    rw [(Props.Hazard.C109_zero_partial p rate (Real.exp y) h0.le h1.le hr (Real.exp_pos y)).2]
    exact ⟨fun h => h.resolve_right h1.ne, .inl⟩

example : linearPredict (⟨fun _ => none, ""⟩ : Texts String) [] [] = .ok (([] : List ℝ).sum) := rfl

end Props.Samplers
