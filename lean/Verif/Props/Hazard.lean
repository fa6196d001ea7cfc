import Verif.Model.Hazard
import Verif.Lemmas.ExpMeasure

/-!
# Hazards and times to event (C107-C112)
-/

namespace Props.Hazard
set_option linter.unusedSectionVars false

open Py Model MeasureTheory ProbabilityTheory Set

/-- The parameters of a hazard are positive. -/
def Positive : Hazard → Prop
  | .exp rate => 0 < rate
  | .weibull lam k => 0 < lam ∧ 0 < k

/-! ### C107: the cumulative hazard and its inverse -/

theorem cum_zero (h : Hazard) (hp : Positive h) : h.cumHazard 0 = 0 := by
  cases h with
  | exp rate => simp [Hazard.cumHazard]
  | weibull lam k => simp [Hazard.cumHazard, Real.zero_rpow hp.2.ne']

theorem cum_nonneg (h : Hazard) (hp : Positive h) {t : ℝ} (ht : 0 ≤ t) : 0 ≤ h.cumHazard t := by
  cases h with
  | exp rate => exact mul_nonneg ht (le_of_lt hp)
  | weibull lam k => exact Real.rpow_nonneg (mul_nonneg hp.1.le ht) k

theorem inv_nonneg (h : Hazard) (hp : Positive h) {x : ℝ} (hx : 0 ≤ x) : 0 ≤ h.invCumHazard x := by
  cases h with
  | exp rate => exact div_nonneg hx (le_of_lt hp)
  | weibull lam k => exact div_nonneg (Real.rpow_nonneg hx _) hp.1.le

theorem cum_strictMono (h : Hazard) (hp : Positive h) {s t : ℝ} (hs : 0 ≤ s) (hst : s < t) :
    h.cumHazard s < h.cumHazard t := by
  cases h with
  | exp rate => exact mul_lt_mul_of_pos_right hst hp
  | weibull lam k =>
    exact Real.rpow_lt_rpow (mul_nonneg hp.1.le hs) (mul_lt_mul_of_pos_left hst hp.1) hp.2

theorem inv_cum (h : Hazard) (hp : Positive h) {t : ℝ} (ht : 0 ≤ t) : h.invCumHazard (h.cumHazard t) = t := by
  cases h with
  | exp rate => exact mul_div_cancel_right₀ t (ne_of_gt hp)
  | weibull lam k =>
    show ((lam * t) ^ k) ^ (1 / k) / lam = t
    rw [← Real.rpow_mul (mul_nonneg hp.1.le ht), mul_one_div_cancel hp.2.ne', Real.rpow_one,
      mul_div_cancel_left₀ t hp.1.ne']

theorem cum_inv (h : Hazard) (hp : Positive h) {x : ℝ} (hx : 0 ≤ x) : h.cumHazard (h.invCumHazard x) = x := by
  cases h with
  | exp rate => exact div_mul_cancel₀ x (ne_of_gt hp)
  | weibull lam k =>
    show (lam * (x ^ (1 / k) / lam)) ^ k = x
    rw [mul_div_cancel₀ _ hp.1.ne', ← Real.rpow_mul hx, one_div_mul_cancel hp.2.ne', Real.rpow_one]

/-- **C107**: for positive parameters the cumulative hazard and its inverse map `[0, ∞)` to itself, undo each other and
are strictly increasing; the cumulative hazard starts at zero. -/
theorem C107 (h : Hazard) (hp : Positive h) :
    h.cumHazard 0 = 0 ∧
    (∀ t, 0 ≤ t → 0 ≤ h.cumHazard t ∧ h.invCumHazard (h.cumHazard t) = t) ∧
    (∀ x, 0 ≤ x → 0 ≤ h.invCumHazard x ∧ h.cumHazard (h.invCumHazard x) = x) ∧
    (∀ s t, 0 ≤ s → s < t → h.cumHazard s < h.cumHazard t) ∧
    (∀ x y, 0 ≤ x → x < y → h.invCumHazard x < h.invCumHazard y) := by
  refine ⟨cum_zero h hp, fun t ht => ⟨cum_nonneg h hp ht, inv_cum h hp ht⟩,
    fun x hx => ⟨inv_nonneg h hp hx, cum_inv h hp hx⟩, fun s t hs hst => cum_strictMono h hp hs hst, ?_⟩
  intro x y hx hxy
  by_contra hle
  rw [not_lt] at hle
  have hy : 0 ≤ y := hx.trans hxy.le
  rcases hle.lt_or_eq with hlt | heq
  · have := cum_strictMono h hp (inv_nonneg h hp hy) hlt
    rw [cum_inv h hp hx, cum_inv h hp hy] at this
    linarith
  · have : h.cumHazard (h.invCumHazard x) = h.cumHazard (h.invCumHazard y) := by rw [heq]
    rw [cum_inv h hp hx, cum_inv h hp hy] at this
    linarith

example : Positive (.weibull 2 3) ∧ (Hazard.weibull 2 3).cumHazard 1 = 8 := by
  refine ⟨⟨by norm_num, by norm_num⟩, ?_⟩
  show ((2 : ℝ) * 1) ^ (3 : ℝ) = 8
  rw [show (3 : ℝ) = ((3 : ℕ) : ℝ) by norm_num, Real.rpow_natCast]
  norm_num

/-! ### C108: mean and deviation of a baseline hazard -/

/-- The expected time to event when the risk is multiplied by `rr`: the expectation of the inverse cumulative hazard
of an exponential number of rate `rr`, which is what `sample` computes (C110). -/
noncomputable def expected (h : Hazard) (rr : ℝ) : ℝ := ∫ e, h.invCumHazard e ∂(expMeasure rr)

/-- The standard deviation of that time. -/
noncomputable def deviation (h : Hazard) (rr : ℝ) : ℝ :=
  Real.sqrt ((∫ e, h.invCumHazard e ^ 2 ∂(expMeasure rr)) - expected h rr ^ 2)

theorem gamma_two : Real.Gamma 2 = 1 := by
  rw [show (2 : ℝ) = 1 + 1 by norm_num, Real.Gamma_add_one one_ne_zero, Real.Gamma_one, mul_one]

theorem expected_exp {rate rr : ℝ} (hrr : 0 < rr) : expected (.exp rate) rr = 1 / (rate * rr) := by
  have h1 := Lemmas.integral_rpow_expMeasure (a := 1) hrr one_pos
  simp only [Real.rpow_one] at h1
  show ∫ e, e / rate ∂(expMeasure rr) = _
  rw [integral_div, h1, show (1 : ℝ) + 1 = 2 by norm_num, gamma_two]
  rw [mul_one, div_div, mul_comm]

theorem expected_weibull {lam k rr : ℝ} (hk : 0 < k) (hrr : 0 < rr) :
    expected (.weibull lam k) rr = (1 / rr) ^ (1 / k) * Real.Gamma (1 + 1 / k) / lam := by
  have h1 := Lemmas.integral_rpow_expMeasure (a := 1 / k) hrr (by positivity)
  show ∫ e, e ^ (1 / k) / lam ∂(expMeasure rr) = _
  rw [integral_div, h1]

theorem deviation_exp {rate rr : ℝ} (hr : 0 < rate) (hrr : 0 < rr) : deviation (.exp rate) rr = 1 / (rate * rr) := by
  have h1 := Lemmas.integral_rpow_expMeasure (a := 2) hrr two_pos
  have h2 : ∫ e, (Hazard.exp rate).invCumHazard e ^ 2 ∂(expMeasure rr) = 2 / (rate * rr) ^ 2 := by
    show ∫ e, (e / rate) ^ 2 ∂(expMeasure rr) = _
    simp_rw [div_pow]
    rw [integral_div]
    have h3 : ∫ e : ℝ, e ^ 2 ∂(expMeasure rr) = (1 / rr) ^ 2 * 2 := by
      have h4 : ∀ e : ℝ, e ^ 2 = e ^ (2 : ℝ) := fun e => by
        rw [show (2 : ℝ) = ((2 : ℕ) : ℝ) by norm_num, Real.rpow_natCast]
      simp_rw [h4]
      rw [h1, show (1 : ℝ) + 2 = 2 + 1 by norm_num, Real.Gamma_add_one (by norm_num), gamma_two]
      ring
    rw [h3]
    field_simp
  rw [deviation, h2, expected_exp hrr]
  rw [show 2 / (rate * rr) ^ 2 - (1 / (rate * rr)) ^ 2 = (1 / (rate * rr)) ^ 2 by ring]
  exact Real.sqrt_sq (by positivity)

theorem deviation_weibull {lam k rr : ℝ} (hl : 0 < lam) (hk : 0 < k) (hrr : 0 < rr) :
    deviation (.weibull lam k) rr =
      (1 / rr) ^ (1 / k) * Real.sqrt (Real.Gamma (1 + 2 / k) - Real.Gamma (1 + 1 / k) ^ 2) / lam := by
  have h1 := Lemmas.integral_rpow_expMeasure (a := 2 / k) hrr (by positivity)
  have h2 : ∫ e, (Hazard.weibull lam k).invCumHazard e ^ 2 ∂(expMeasure rr) =
      (1 / rr) ^ (2 / k) * Real.Gamma (1 + 2 / k) / lam ^ 2 := by
    rw [← h1, ← integral_div, Lemmas.integral_expMeasure hrr, Lemmas.integral_expMeasure hrr]
    refine setIntegral_congr_fun measurableSet_Ioi (fun x hx => ?_)
    have hx0 : (0 : ℝ) ≤ x := le_of_lt hx
    show _ * (x ^ (1 / k) / lam) ^ 2 = _ * (x ^ (2 / k) / lam ^ 2)
    rw [div_pow, ← Real.rpow_natCast (x ^ (1 / k)) 2, ← Real.rpow_mul hx0]
    rw [show 1 / k * ((2 : ℕ) : ℝ) = 2 / k by push_cast; ring]
  have h3 : ((1 / rr) ^ (1 / k)) ^ 2 = (1 / rr) ^ (2 / k) := by
    rw [← Real.rpow_natCast, ← Real.rpow_mul (by positivity)]
    congr 1
    push_cast
    ring
  rw [deviation, h2, expected_weibull hk hrr]
  rw [show (1 / rr) ^ (2 / k) * Real.Gamma (1 + 2 / k) / lam ^ 2 -
      ((1 / rr) ^ (1 / k) * Real.Gamma (1 + 1 / k) / lam) ^ 2 =
      ((1 / rr) ^ (1 / k) / lam) ^ 2 * (Real.Gamma (1 + 2 / k) - Real.Gamma (1 + 1 / k) ^ 2) by
    rw [div_pow, div_pow, mul_pow, h3]; ring]
  rw [Real.sqrt_mul (by positivity), Real.sqrt_sq (by positivity)]
  ring

/-- **C108**, what holds: `mean` and `std` are right for exponential hazards.  For Weibull hazards both are too large
by the square of `Lambda`, so that they are right for `Lambda = 1`, and the mean for no other. -/
theorem C108_partial :
    (∀ rate : ℝ, 0 < rate → (Hazard.exp rate).mean = expected (.exp rate) 1 ∧
      (Hazard.exp rate).std = deviation (.exp rate) 1) ∧
    (∀ lam k : ℝ, 0 < lam → 0 < k →
      (Hazard.weibull lam k).mean = lam ^ 2 * expected (.weibull lam k) 1 ∧
      (Hazard.weibull lam k).std = lam ^ 2 * deviation (.weibull lam k) 1 ∧
      ((Hazard.weibull lam k).mean = expected (.weibull lam k) 1 ↔ lam = 1)) := by
  refine ⟨fun rate hr => ?_, fun lam k hl hk => ?_⟩
  · rw [expected_exp one_pos, deviation_exp hr one_pos, mul_one]
    exact ⟨rfl, rfl⟩
  · rw [expected_weibull hk one_pos, deviation_weibull hl hk one_pos]
    simp only [Hazard.mean, Hazard.std, div_one, Real.one_rpow, one_mul]
    have hg : 0 < Real.Gamma (1 + 1 / k) := Real.Gamma_pos_of_pos (by positivity)
    refine ⟨by field_simp, by field_simp, ?_, fun h => by rw [h]; ring⟩
    intro h
    rw [eq_div_iff hl.ne', mul_assoc] at h
    have h2 : lam * lam = 1 := by
      apply mul_left_cancel₀ hg.ne'
      rw [h, mul_one]
    nlinarith

/-- **C108** fails: the Weibull hazard with `Lambda = 2`, `K = 1` has mean 1/2, but 2 is reported. -/
theorem C108_refuted : (Hazard.weibull 2 1).mean = 2 ∧ expected (.weibull 2 1) 1 = 1 / 2 := by
  rw [expected_weibull one_pos one_pos]
  constructor
  · show Real.Gamma (1 + 1 / 1) * 2 = 2
    norm_num [gamma_two]
  · norm_num [gamma_two]

/-! ### C109: mean and deviation of the time to event -/

/-- **C109**, what holds: for an exponential hazard the mean reported is `rate / rr` instead of `1 / (rate * rr)` and
the deviation `rate / rr ^ 2`; so the mean is right exactly for a rate of one, the deviation exactly when
`rate ^ 2 = rr`. For a Weibull hazard with `K = 1` the errors of C108 and C109 cancel in the mean. -/
theorem C109_partial (rr : ℝ) (hrr : 0 < rr) :
    (∀ rate : ℝ, 0 < rate →
      (HazardDist.mk (.exp rate) rr).mean = rate ^ 2 * expected (.exp rate) rr ∧
      ((HazardDist.mk (.exp rate) rr).mean = expected (.exp rate) rr ↔ rate = 1) ∧
      ((HazardDist.mk (.exp rate) rr).std = deviation (.exp rate) rr ↔ rate ^ 2 = rr)) ∧
    (∀ lam : ℝ, 0 < lam → (HazardDist.mk (.weibull lam 1) rr).mean = expected (.weibull lam 1) rr) := by
  refine ⟨fun rate hr => ?_, fun lam hl => ?_⟩
  · rw [expected_exp hrr, deviation_exp hr hrr]
    have hm : (HazardDist.mk (.exp rate) rr).mean = rate / rr := by
      show 1 / (1 / rate) / rr = _
      rw [one_div_one_div]
    have hs : (HazardDist.mk (.exp rate) rr).std = rate / rr ^ 2 := by
      show (rr ^ 2)⁻¹ / (1 / rate) = _
      rw [div_div_eq_mul_div, div_one]
      field_simp
    rw [hm, hs]
    refine ⟨by field_simp, ⟨fun h => ?_, fun h => by rw [h]; ring⟩, ?_⟩
    · rw [div_eq_div_iff hrr.ne' (by positivity)] at h
      have h2 : rate * rate = 1 := by
        apply mul_right_cancel₀ hrr.ne'
        linarith
      nlinarith
    · rw [div_eq_div_iff (by positivity) (by positivity)]
      constructor
      · intro h
        apply mul_right_cancel₀ hrr.ne'
        nlinarith
      · intro h
        rw [← h]
        ring
  · rw [expected_weibull one_pos hrr]
    show 1 / (Real.Gamma (1 + 1 / 1) * lam) / rr = _
    norm_num [gamma_two]
    field_simp

/-- **C109** fails: times with hazard 2 are 1/2 on average, but the mean reported is 2. -/
theorem C109_refuted : (HazardDist.mk (.exp 2) 1).mean = 2 ∧ expected (.exp 2) 1 = 1 / 2 := by
  rw [expected_exp one_pos]
  constructor
  · show 1 / (1 / 2) / (1 : ℝ) = 2
    norm_num
  · norm_num

/-! ### C110: the times drawn -/

/-- **C110**: a time drawn is not negative, exceeds `t` exactly when the exponential number it is made of exceeds the
cumulative hazard at `t`, and so exceeds it with probability `exp(-rr * H(t))`. -/
theorem C110 (d : HazardDist) (hp : Positive d.haz) (hrr : 0 < d.rr) :
    (∀ e, 0 ≤ e → ∃ x, d.sample 1 [e] = .ok (.one x) ∧ 0 ≤ x ∧ ∀ t, 0 ≤ t → (t < x ↔ d.haz.cumHazard t < e)) ∧
    (∀ (n : Nat) (es : List ℝ), 1 < n → es.length = n → ∃ xs, d.sample n es = .ok (.many xs) ∧ xs.length = n ∧
      ∀ (i : Nat) e, es[i]? = some e → ∃ x, xs[i]? = some x ∧ d.sample 1 [e] = .ok (.one x)) ∧
    (∀ t, 0 ≤ t → (expMeasure d.rr).real {e | ∃ x, d.sample 1 [e] = .ok (.one x) ∧ t < x} =
      Real.exp (-(d.rr * d.haz.cumHazard t))) := by
  have key : ∀ e, 0 ≤ e → ∀ t, 0 ≤ t → (t < d.haz.invCumHazard e ↔ d.haz.cumHazard t < e) := by
    obtain ⟨-, h1, h2, h3, h4⟩ := C107 d.haz hp
    intro e he t ht
    constructor
    · intro h
      have := h3 t _ ht h
      rwa [(h2 e he).2] at this
    · intro h
      have := h4 _ e (h1 t ht).1 h
      rwa [(h1 t ht).2] at this
  refine ⟨fun e he => ⟨_, rfl, inv_nonneg d.haz hp he, key e he⟩, ?_, ?_⟩
  · intro n es hn hl
    refine ⟨es.map d.haz.invCumHazard, by simp [HazardDist.sample, show ¬ n ≤ 1 by omega], by simpa using hl, ?_⟩
    intro i e he
    exact ⟨_, by simp [he], rfl⟩
  · intro t ht
    rw [← Lemmas.expMeasure_Ioi hrr (cum_nonneg d.haz hp ht)]
    refine measureReal_congr ?_
    have hae : ∀ᵐ e ∂(expMeasure d.rr), 0 ≤ e := by
      rw [ae_iff]
      simp only [not_le]
      exact Lemmas.expMeasure_Iio
    filter_upwards [hae] with e he
    refine propext ?_
    show (∃ x, d.sample 1 [e] = .ok (.one x) ∧ t < x) ↔ d.haz.cumHazard t < e
    rw [← key e he t ht]
    constructor
    · rintro ⟨x, hx, htx⟩
      simp only [HazardDist.sample, le_refl, if_true, Except.ok.injEq, Drawn.one.injEq] at hx
      rwa [hx]
    · intro h
      exact ⟨_, rfl, h⟩

example : Positive (HazardDist.mk (.weibull 2 3) 4).haz ∧ (0 : ℝ) < (HazardDist.mk (.weibull 2 3) 4).rr :=
  ⟨⟨by norm_num, by norm_num⟩, by norm_num⟩

/-! ### C111: the log density -/

/-- **C111** fails for every time: the difference whose logarithm is taken is that of the survival function, which
decreases, so the log density is NaN; it also does not depend on the risk ratio. -/
theorem C111_refuted (h : Hazard) (hp : Positive h) (rr v : ℝ) (hv : 1 / 100000 ≤ v) :
    (HazardDist.mk h rr).logpdf v = .nan := by
  have h1 : h.cumHazard (v - 1 / 100000) < h.cumHazard v := cum_strictMono h hp (by linarith) (by linarith)
  have h2 : Real.exp (-h.cumHazard v) < Real.exp (-h.cumHazard (v - 1 / 100000)) :=
    Real.exp_lt_exp.2 (by linarith)
  have h3 : (Real.exp (-h.cumHazard v) - 1 - (Real.exp (-h.cumHazard (v - 1 / 100000)) - 1)) / (1 / 100000) < 0 := by
    apply div_neg_of_neg_of_pos <;> linarith
  show npLog _ = _
  rw [npLog, if_neg (by linarith), if_neg (by linarith)]

/-- **C111**, what holds: with an extra probability of zero, the log density at zero is the log of that probability;
elsewhere it is NaN as before. -/
theorem C111_partial (d : ZeroHazardDist) (hp : Positive d.dist.haz) :
    (∀ v, v ≤ 0 → 0 < d.prob → d.logpdf v = .fin (Real.log d.prob)) ∧
    (∀ v, 1 / 100000 ≤ v → d.logpdf v = .nan) := by
  constructor
  · intro v hv h0
    rw [ZeroHazardDist.logpdf, if_pos hv, npLog, if_pos h0]
  · intro v hv
    rw [ZeroHazardDist.logpdf, if_neg (by norm_num at hv ⊢; linarith), C111_refuted _ hp _ _ hv]
    exact XR.add_nan _

example : Positive (ZeroHazardDist.mk (1 / 2) ⟨.exp 2, 1⟩).dist.haz ∧ 0 < (ZeroHazardDist.mk (1 / 2) ⟨.exp 2, 1⟩).prob :=
  ⟨by show (0 : ℝ) < 2; norm_num, by norm_num⟩

/-! ### C112: times that may be zero -/

/-- **C112**: each draw is zero when the uniform number drawn for it is below the probability, which happens with that
probability, and the time to event otherwise; `sample(n)` gives `n` of them. -/
theorem C112 (d : ZeroHazardDist) :
    (∀ u e, ∃ x, d.sample 1 [u] [e] = .ok (.one x) ∧
      (u < d.prob → x = 0) ∧ (d.prob ≤ u → d.dist.sample 1 [e] = .ok (.one x))) ∧
    (∀ (n : Nat) (us es : List ℝ), 1 < n → us.length = n → es.length = n →
      ∃ xs, d.sample n us es = .ok (.many xs) ∧ xs.length = n ∧
      ∀ (i : Nat) u e, us[i]? = some u → es[i]? = some e →
        ∃ x, xs[i]? = some x ∧ d.sample 1 [u] [e] = .ok (.one x)) ∧
    (0 ≤ d.prob → d.prob ≤ 1 → (volume.restrict (Ico (0 : ℝ) 1)).real {u | u < d.prob} = d.prob) := by
  have h1 : ∀ u e, d.sample 1 [u] [e] = .ok (.one (if u < d.prob then 0 else d.dist.haz.invCumHazard e)) := by
    intro u e
    simp only [ZeroHazardDist.sample, HazardDist.sample, le_refl, if_true, List.map_cons, List.map_nil,
      decide_eq_true_eq]
    rfl
  refine ⟨?_, ?_, ?_⟩
  · intro u e
    refine ⟨_, h1 u e, fun h => if_pos h, fun h => ?_⟩
    rw [if_neg (not_lt.2 h)]
    rfl
  · intro n us es hn hu he
    have hd : d.dist.sample n es = .ok (.many (es.map d.dist.haz.invCumHazard)) := by
      simp [HazardDist.sample, show ¬ n ≤ 1 by omega]
    refine ⟨_, by rw [ZeroHazardDist.sample, hd]; rfl, by simp [hu, he], ?_⟩
    intro i u e hui hei
    refine ⟨_, ?_, h1 u e⟩
    simp [List.getElem?_zipWith, hui, hei]
  · intro h0 h1
    rw [measureReal_restrict_apply (show MeasurableSet {u : ℝ | u < d.prob} from measurableSet_Iio)]
    have : {u : ℝ | u < d.prob} ∩ Ico 0 1 = Ico 0 d.prob := by
      ext u
      simp only [mem_inter_iff, mem_ofPred_eq, mem_Ico]
      constructor
      · rintro ⟨a, b, c⟩; exact ⟨b, a⟩
      · rintro ⟨a, b⟩; exact ⟨b, a, by linarith⟩
    rw [this, Real.volume_real_Ico_of_le h0, sub_zero]

example : ∃ x, (ZeroHazardDist.mk (1 / 2) ⟨.exp 2, 1⟩).sample 1 [3 / 4] [4] = .ok (.one x) ∧ x = 2 := by
  obtain ⟨x, hx, -, h⟩ := (C112 (ZeroHazardDist.mk (1 / 2) ⟨.exp 2, 1⟩)).1 (3 / 4) 4
  refine ⟨x, hx, ?_⟩
  have := h (by norm_num)
  simp only [HazardDist.sample, le_refl, if_true, Except.ok.injEq, Drawn.one.injEq, Hazard.invCumHazard] at this
  rw [← this]
  norm_num

/-- The number drawn. -/
def value : Result (Drawn ℝ) → ℝ
  | .ok (.one x) => x
  | _ => 0

/-- **C109** for zero inflated times, what holds: a draw is on average `1 - prob` times the time to event, and for an
exponential hazard the mean reported is that exactly when the rate is one or every draw is zero.  Missing: other
hazards. -/
theorem C109_zero_partial (p rate rr : ℝ) (h0 : 0 ≤ p) (h1 : p ≤ 1) (hr : 0 < rate) (hrr : 0 < rr) :
    (∫ u in Ico (0 : ℝ) 1, ∫ e, value ((ZeroHazardDist.mk p ⟨.exp rate, rr⟩).sample 1 [u] [e]) ∂(expMeasure rr)) =
      (1 - p) * expected (.exp rate) rr ∧
    ((ZeroHazardDist.mk p ⟨.exp rate, rr⟩).mean =
      (∫ u in Ico (0 : ℝ) 1, ∫ e, value ((ZeroHazardDist.mk p ⟨.exp rate, rr⟩).sample 1 [u] [e]) ∂(expMeasure rr)) ↔
      rate = 1 ∨ p = 1) := by
  have hv : ∀ u e, value ((ZeroHazardDist.mk p ⟨.exp rate, rr⟩).sample 1 [u] [e]) =
      if u < p then 0 else (Hazard.exp rate).invCumHazard e := by
    intro u e
    obtain ⟨x, hx, ha, hb⟩ := (C112 (ZeroHazardDist.mk p ⟨.exp rate, rr⟩)).1 u e
    rw [hx]
    show x = _
    by_cases hu : u < p
    · rw [if_pos hu, ha hu]
    · rw [if_neg hu]
      have := hb (not_lt.1 hu)
      simp only [HazardDist.sample, le_refl, if_true, Except.ok.injEq, Drawn.one.injEq] at this
      exact this.symm
  have hi : ∀ u, (∫ e, value ((ZeroHazardDist.mk p ⟨.exp rate, rr⟩).sample 1 [u] [e]) ∂(expMeasure rr)) =
      (Ici p).indicator (fun _ => expected (.exp rate) rr) u := by
    intro u
    simp only [hv]
    by_cases hu : u < p
    · rw [indicator_of_notMem (by simpa using hu)]
      simp [hu]
    · rw [indicator_of_mem (by simpa using hu)]
      simp only [if_neg hu]
      rfl
  have hmain : (∫ u in Ico (0 : ℝ) 1, ∫ e, value ((ZeroHazardDist.mk p ⟨.exp rate, rr⟩).sample 1 [u] [e])
      ∂(expMeasure rr)) = (1 - p) * expected (.exp rate) rr := by
    simp only [hi]
    rw [integral_indicator measurableSet_Ici, Measure.restrict_restrict measurableSet_Ici]
    have : Ici p ∩ Ico (0 : ℝ) 1 = Ico p 1 := by
      ext u
      simp only [mem_inter_iff, mem_Ici, mem_Ico]
      constructor
      · rintro ⟨a, b, c⟩; exact ⟨a, c⟩
      · rintro ⟨a, b⟩; exact ⟨a, h0.trans a, b⟩
    rw [this, setIntegral_const, Real.volume_real_Ico_of_le h1, smul_eq_mul]
  refine ⟨hmain, ?_⟩
  rw [hmain]
  obtain ⟨ha, hb, -⟩ := (C109_partial rr hrr).1 rate hr
  show (HazardDist.mk (.exp rate) rr).mean * (1 - p) = _ ↔ _
  rw [mul_comm (1 - p), mul_eq_mul_right_iff, hb, sub_eq_zero]
  exact or_congr_right ⟨Eq.symm, Eq.symm⟩

example : (0 : ℝ) ≤ 1 / 4 ∧ (1 / 4 : ℝ) ≤ 1 ∧ (0 : ℝ) < 1 ∧ (ZeroHazardDist.mk (1 / 4) ⟨.exp 1, 1⟩).mean = 3 / 4 := by
  refine ⟨by norm_num, by norm_num, one_pos, ?_⟩
  show 1 / (1 / 1) / (1 : ℝ) * (1 - 1 / 4) = 3 / 4
  norm_num

end Props.Hazard
