import Verif.Model.Dist
import Mathlib.Probability.Distributions.Gamma
import Mathlib.Probability.Distributions.Exponential
import Mathlib.Probability.Distributions.Beta
import Mathlib.Probability.Distributions.Gaussian.Real
import Mathlib.Probability.Distributions.Binomial
import Mathlib.Probability.Distributions.Poisson.Basic
import Mathlib.MeasureTheory.Function.Jacobian
import Mathlib.MeasureTheory.Function.JacobianOneDim

/-!
# The distributions behind the names (C140 to C145)
-/

namespace Props.Dist

open Py Model Model.Dist MeasureTheory ProbabilityTheory
open scoped ENNReal NNReal

/-- The law of what is drawn from a distribution: the measure with its density. -/
noncomputable def law (d : SpDouble) : Measure ℝ := volume.withDensity (fun x => ENNReal.ofReal (d.pdf x))

/-- The value of a field: what is given, or the default. -/
def given (args : Dict String ℝ) (k : String) (default : ℝ) : ℝ := (args.get? k).getD default

theorem field_ok {ok : ℝ → Prop} [DecidablePred ok] {default v : ℝ} {args : Dict String ℝ} {k : String}
    (h : field ok default args k = .ok v) : v = given args k default ∧ (ok default → ok v) := by
  unfold field at h
  unfold given
  cases hg : args.get? k with
  | none =>
    rw [hg] at h
    cases h
    exact ⟨rfl, id⟩
  | some w =>
    rw [hg] at h
    by_cases hw : ok w
    · simp only [if_pos hw] at h
      cases h
      exact ⟨rfl, fun _ => hw⟩
    · simp only [if_neg hw] at h
      cases h

theorem field_some {ok : ℝ → Prop} [DecidablePred ok] {default v : ℝ} {args : Dict String ℝ} {k : String}
    (hg : args.get? k = some v) : field ok default args k = if ok v then .ok v else .error .ValidationError := by
  unfold field
  rw [hg]

theorem bind_ok {α β : Type} {x : Result α} {f : α → Result β} {b : β} (h : (x >>= f) = .ok b) :
    ∃ a, x = .ok a ∧ f a = .ok b := by
  cases x with
  | error e => cases h
  | ok a => exact ⟨a, rfl, h⟩

theorem gamma_pdf {a r : ℝ} (hr : 0 < r) (x : ℝ) :
    SpDouble.pdf ⟨.gamma a, 0, 1 / r⟩ x = gammaPDFReal a r x := by
  unfold SpDouble.pdf Family.pdf gammaPDFReal
  have e : (x - 0) / (1 / r) = r * x := by field_simp; ring
  simp only [e]
  by_cases hx : 0 ≤ x
  · rw [if_pos (by positivity), if_pos hx, Real.mul_rpow hr.le hx, Real.rpow_sub_one hr.ne']
    field_simp
  · rw [if_neg (by rw [not_le] at hx ⊢; exact mul_neg_of_pos_of_neg hr hx), if_neg hx, zero_div]

theorem chi2_pdf {df : ℝ} (x : ℝ) : SpDouble.pdf ⟨.chi2 df, 0, 1⟩ x = gammaPDFReal (df / 2) (1 / 2) x := by
  unfold SpDouble.pdf Family.pdf gammaPDFReal
  have e : (x - 0) / 1 = x := by ring
  simp only [e]
  by_cases hx : 0 ≤ x
  · rw [if_pos hx, if_pos hx, Real.div_rpow zero_le_one (by norm_num), Real.one_rpow]
    rw [show -x / 2 = -(1 / 2 * x) by ring]
    field_simp
  · rw [if_neg hx, if_neg hx, zero_div]

theorem beta_pdf {a b : ℝ} (x : ℝ) : SpDouble.pdf ⟨.beta a b, 0, 1⟩ x = betaPDFReal a b x := by
  unfold SpDouble.pdf Family.pdf betaPDFReal ProbabilityTheory.beta
  have e : (x - 0) / 1 = x := by ring
  simp only [e]
  split
  · rw [one_div_div]
    ring
  · simp

theorem norm_pdf {m sd : ℝ} (hs : 0 < sd) (x : ℝ) :
    SpDouble.pdf ⟨.norm, m, sd⟩ x = gaussianPDFReal m (sd ^ 2).toNNReal x := by
  simp only [SpDouble.pdf, Family.pdf, gaussianPDFReal]
  rw [Real.coe_toNNReal _ (sq_nonneg sd), Real.sqrt_mul (x := 2 * Real.pi) (by positivity) (sd ^ 2), Real.sqrt_sq hs.le, show -((x - m) / sd) ^ 2 / 2 = -(x - m) ^ 2 / (2 * sd ^ 2) by
    field_simp]
  field_simp

theorem unif_pdf {a b : ℝ} (h : a < b) (x : ℝ) :
    SpDouble.pdf ⟨.uniform, a, b - a⟩ x = if a ≤ x ∧ x ≤ b then 1 / (b - a) else 0 := by
  simp only [SpDouble.pdf, Family.pdf]
  have hp : 0 < b - a := sub_pos.2 h
  by_cases hx : a ≤ x ∧ x ≤ b
  · rw [if_pos hx, if_pos]
    constructor
    · exact div_nonneg (sub_nonneg.2 hx.1) hp.le
    · rw [div_le_one hp]
      linarith [hx.2]
  · rw [if_neg hx, if_neg, zero_div]
    rintro ⟨h1, h2⟩
    apply hx
    rw [div_le_one hp] at h2
    rw [div_nonneg_iff] at h1
    rcases h1 with ⟨h1, -⟩ | ⟨-, h1⟩
    · exact ⟨by linarith, by linarith⟩
    · linarith

/-- C140: the names gamma, exp, norm, chisq, beta and unif stand for the distributions with the parameters that they
take: gamma of shape and rate, exponential of rate, normal of mean and deviation, gamma of half the degrees and one half,
beta of the two shapes, and uniform between the bounds. -/
theorem C140_gamma {args : Dict String ℝ} {d : SpDouble} (h : create "gamma" args = .ok d) :
    0 < given args "shape" 1 ∧ 0 < given args "rate" 1 ∧
      law d = gammaMeasure (given args "shape" 1) (given args "rate" 1) := by
  obtain ⟨a, h1, h⟩ := bind_ok h
  obtain ⟨r, h2, h⟩ := bind_ok h
  cases h
  obtain ⟨rfl, ha⟩ := field_ok h1
  obtain ⟨rfl, hr⟩ := field_ok h2
  refine ⟨ha one_pos, hr one_pos, ?_⟩
  unfold law gammaMeasure gammaPDF
  congr 1
  funext x
  rw [gamma_pdf (hr one_pos)]

theorem C140_exp {args : Dict String ℝ} {d : SpDouble} (h : create "exp" args = .ok d) :
    0 < given args "rate" 1 ∧ law d = expMeasure (given args "rate" 1) := by
  obtain ⟨r, h2, h⟩ := bind_ok h
  cases h
  obtain ⟨rfl, hr⟩ := field_ok h2
  refine ⟨hr one_pos, ?_⟩
  unfold law expMeasure gammaMeasure gammaPDF
  congr 1
  funext x
  rw [← gamma_pdf (hr one_pos)]
  unfold SpDouble.pdf Family.pdf
  simp

theorem C140_norm {args : Dict String ℝ} {d : SpDouble} (h : create "norm" args = .ok d) :
    0 < given args "sd" 1 ∧
      law d = gaussianReal (given args "mean" 0) ((given args "sd" 1) ^ 2).toNNReal := by
  obtain ⟨m, h1, h⟩ := bind_ok h
  obtain ⟨s, h2, h⟩ := bind_ok h
  cases h
  obtain ⟨rfl, -⟩ := field_ok h1
  obtain ⟨rfl, hs⟩ := field_ok h2
  have hs := hs one_pos
  refine ⟨hs, ?_⟩
  rw [gaussianReal_of_var_ne_zero]
  · unfold law gaussianPDF
    congr 1
    funext x
    rw [norm_pdf hs]
  · intro h0
    rw [Real.toNNReal_eq_zero] at h0
    have := pow_pos hs 2
    linarith

theorem C140_chisq {args : Dict String ℝ} {d : SpDouble} (h : create "chisq" args = .ok d) :
    0 < given args "df" 1 ∧ law d = gammaMeasure (given args "df" 1 / 2) (1 / 2) := by
  obtain ⟨r, h2, h⟩ := bind_ok h
  cases h
  obtain ⟨rfl, hr⟩ := field_ok h2
  refine ⟨hr one_pos, ?_⟩
  unfold law gammaMeasure gammaPDF
  congr 1
  funext x
  rw [chi2_pdf]

theorem C140_beta {args : Dict String ℝ} {d : SpDouble} (h : create "beta" args = .ok d) :
    0 < given args "shape1" 1 ∧ 0 < given args "shape2" 1 ∧
      law d = betaMeasure (given args "shape1" 1) (given args "shape2" 1) := by
  obtain ⟨a, h1, h⟩ := bind_ok h
  obtain ⟨r, h2, h⟩ := bind_ok h
  cases h
  obtain ⟨rfl, ha⟩ := field_ok h1
  obtain ⟨rfl, hr⟩ := field_ok h2
  refine ⟨ha one_pos, hr one_pos, ?_⟩
  unfold law betaMeasure betaPDF
  congr 1
  funext x
  rw [beta_pdf]

theorem C140_unif {args : Dict String ℝ} {d : SpDouble} (h : create "unif" args = .ok d)
    (hlt : given args "min" 0 < given args "max" 1) :
    law d = (volume (Set.Icc (given args "min" 0) (given args "max" 1)))⁻¹ •
      volume.restrict (Set.Icc (given args "min" 0) (given args "max" 1)) := by
  obtain ⟨a, h1, h⟩ := bind_ok h
  obtain ⟨b, h2, h⟩ := bind_ok h
  cases h
  obtain ⟨rfl, -⟩ := field_ok h1
  obtain ⟨rfl, -⟩ := field_ok h2
  unfold law
  set a := given args "min" 0
  set b := given args "max" 1
  have hp : 0 < b - a := sub_pos.2 hlt
  have e : (fun x => ENNReal.ofReal (SpDouble.pdf ⟨.uniform, a, b - a⟩ x)) =
      (Set.Icc a b).indicator (fun _ => (volume (Set.Icc a b))⁻¹) := by
    funext x
    rw [unif_pdf hlt, Real.volume_Icc]
    by_cases hx : a ≤ x ∧ x ≤ b
    · rw [if_pos hx, Set.indicator_of_mem (show x ∈ Set.Icc a b from hx), one_div, ENNReal.ofReal_inv_of_pos hp]
    · rw [if_neg hx, Set.indicator_of_notMem (show x ∉ Set.Icc a b from hx), ENNReal.ofReal_zero]
  rw [e, withDensity_indicator measurableSet_Icc, withDensity_const]

example : create "gamma" [("shape", 2), ("rate", 3)] = .ok ⟨.gamma 2, 0, 1 / 3⟩ := by
  simp [create, field, Dict.get?]
  rfl

/-! ## The logarithmic normal distribution -/

/-- A density that is `f (log x) / x` for positive and zero for other numbers is the law of the exponential of what has
the density `f`. -/
theorem map_log {f g : ℝ → ℝ} (h0 : ∀ x, x ≤ 0 → g x = 0) (h1 : ∀ x, 0 < x → g x = f (Real.log x) / x) :
    (volume.withDensity (fun x => ENNReal.ofReal (g x))).map Real.log =
      volume.withDensity (fun x => ENNReal.ofReal (f x)) := by
  ext B hB
  rw [Measure.map_apply Real.measurable_log hB, withDensity_apply _ hB,
    withDensity_apply _ (Real.measurable_log hB)]
  have hpos : ∫⁻ x in Real.log ⁻¹' B, ENNReal.ofReal (g x) =
      ∫⁻ x in Real.log ⁻¹' B ∩ Set.Ioi 0, ENNReal.ofReal (g x) := by
    rw [← lintegral_inter_add_sdiff (μ := volume) (fun x => ENNReal.ofReal (g x)) (Real.log ⁻¹' B)
      (measurableSet_Ioi (a := (0 : ℝ)))]
    rw [setLIntegral_eq_zero (s := Real.log ⁻¹' B \ Set.Ioi 0) ((Real.measurable_log hB).diff measurableSet_Ioi)]
    · simp
    · rintro x ⟨-, hx⟩
      simp only [Set.mem_Ioi, not_lt] at hx
      simp [h0 x hx]
  have himg : Real.log ⁻¹' B ∩ Set.Ioi 0 = Real.exp '' B := by
    ext x
    constructor
    · rintro ⟨hx, hp⟩
      exact ⟨Real.log x, hx, Real.exp_log hp⟩
    · rintro ⟨y, hy, rfl⟩
      exact ⟨by simpa using hy, Real.exp_pos y⟩
  rw [hpos, himg, lintegral_image_eq_lintegral_abs_deriv_mul hB
    (fun x _ => (Real.hasDerivAt_exp x).hasDerivWithinAt) Real.exp_injective.injOn]
  refine setLIntegral_congr_fun hB ?_
  intro y _
  show ENNReal.ofReal |Real.exp y| * ENNReal.ofReal (g (Real.exp y)) = ENNReal.ofReal (f y)
  rw [← ENNReal.ofReal_mul (abs_nonneg _), abs_of_pos (Real.exp_pos y), h1 _ (Real.exp_pos y), Real.log_exp]
  congr 1
  have := (Real.exp_pos y).ne'
  field_simp

theorem lognorm_pdf {m s : ℝ} (hs : 0 < s) {x : ℝ} (hx : 0 < x) :
    SpDouble.pdf ⟨.lognorm s, 0, Real.exp m⟩ x = gaussianPDFReal m (s ^ 2).toNNReal (Real.log x) / x := by
  simp only [SpDouble.pdf, Family.pdf, gaussianPDFReal, sub_zero]
  rw [if_pos (div_pos hx (Real.exp_pos m)), Real.log_div hx.ne' (Real.exp_pos m).ne', Real.log_exp,
    Real.coe_toNNReal _ (sq_nonneg s), Real.sqrt_mul (x := 2 * Real.pi) (by positivity) (s ^ 2), Real.sqrt_sq hs.le]
  have := (Real.exp_pos m).ne'
  field_simp

theorem lognorm_law {m s : ℝ} (hs : 0 < s) :
    (law ⟨.lognorm s, 0, Real.exp m⟩).map Real.log = gaussianReal m (s ^ 2).toNNReal := by
  rw [gaussianReal_of_var_ne_zero _ (by
    intro h0
    rw [Real.toNNReal_eq_zero] at h0
    have := pow_pos hs 2
    linarith)]
  unfold law gaussianPDF
  refine map_log ?_ (fun x hx => lognorm_pdf hs hx)
  intro x hx
  simp only [SpDouble.pdf, Family.pdf, sub_zero]
  rw [if_neg, zero_div]
  rw [not_lt]
  exact div_nonpos_of_nonpos_of_nonneg hx (Real.exp_pos m).le

/-- C141, as first stated, fails for every pair of parameters: the logarithm of what `lnorm` draws is never normal with
mean `meanlog` and deviation `sdlog`. -/
theorem C141_refuted {args : Dict String ℝ} {d : SpDouble} (h : create "lnorm" args = .ok d) :
    (law d).map Real.log ≠ gaussianReal (given args "meanlog" 0) ((given args "sdlog" 1) ^ 2).toNNReal := by
  obtain ⟨m, h1, h⟩ := bind_ok h
  obtain ⟨s, h2, h⟩ := bind_ok h
  cases h
  obtain ⟨rfl, -⟩ := field_ok h1
  obtain ⟨rfl, -⟩ := field_ok h2
  rw [lognorm_law (Real.exp_pos _)]
  intro he
  have hm := congrArg (fun μ : Measure ℝ => ∫ x, x ∂μ) he
  simp only [integral_id_gaussianReal] at hm
  have := Real.add_one_le_exp (given args "meanlog" 0)
  linarith

/-- C141: the logarithm of what `lnorm` draws is normal, with the exponential of `meanlog` as mean and the exponential of
`sdlog` as deviation; `meanlog` must not be negative and `sdlog` must be positive.  Missing for the full claim: these are
not the mean and the deviation asked for (`C141_refuted`). -/
theorem C141_partial {args : Dict String ℝ} {d : SpDouble} (h : create "lnorm" args = .ok d) :
    0 ≤ given args "meanlog" 0 ∧ 0 < given args "sdlog" 1 ∧
      (law d).map Real.log = gaussianReal (Real.exp (given args "meanlog" 0))
        ((Real.exp (given args "sdlog" 1)) ^ 2).toNNReal := by
  obtain ⟨m, h1, h⟩ := bind_ok h
  obtain ⟨s, h2, h⟩ := bind_ok h
  cases h
  obtain ⟨rfl, hm⟩ := field_ok h1
  obtain ⟨rfl, hs⟩ := field_ok h2
  exact ⟨hm le_rfl, hs one_pos, lognorm_law (Real.exp_pos _)⟩

example : ∃ d, create "lnorm" [("meanlog", 1), ("sdlog", 2)] = .ok d :=
  ⟨⟨.lognorm (Real.exp 2), 0, Real.exp (Real.exp 1)⟩, by simp [create, field, Dict.get?]; rfl⟩

/-! ## The inverse gamma distribution -/

/-- A density that is `f (1 / x) / x ^ 2` for positive and zero for other numbers is the law of the reciprocal of what has
the density `f`, if that is zero for negative numbers. -/
theorem map_inv {f g : ℝ → ℝ} (h0 : ∀ x, x ≤ 0 → g x = 0) (h1 : ∀ x, 0 < x → g x = f x⁻¹ / x ^ 2)
    (h2 : ∀ x, x < 0 → f x = 0) :
    (volume.withDensity (fun x => ENNReal.ofReal (g x))).map (fun x => x⁻¹) =
      volume.withDensity (fun x => ENNReal.ofReal (f x)) := by
  ext B hB
  have hm : Measurable (fun x : ℝ => x⁻¹) := measurable_inv
  rw [Measure.map_apply hm hB, withDensity_apply _ hB, withDensity_apply _ (hm hB)]
  have hpos : ∫⁻ x in (fun x : ℝ => x⁻¹) ⁻¹' B, ENNReal.ofReal (g x) =
      ∫⁻ x in (fun x : ℝ => x⁻¹) ⁻¹' B ∩ Set.Ioi 0, ENNReal.ofReal (g x) := by
    rw [← lintegral_inter_add_sdiff (μ := volume) (fun x => ENNReal.ofReal (g x)) ((fun x : ℝ => x⁻¹) ⁻¹' B)
      (measurableSet_Ioi (a := (0 : ℝ)))]
    rw [setLIntegral_eq_zero (s := (fun x : ℝ => x⁻¹) ⁻¹' B \ Set.Ioi 0) ((hm hB).diff measurableSet_Ioi)]
    · simp
    · rintro x ⟨-, hx⟩
      simp only [Set.mem_Ioi, not_lt] at hx
      simp [h0 x hx]
  have hpos' : ∫⁻ x in B, ENNReal.ofReal (f x) = ∫⁻ x in B ∩ Set.Ioi 0, ENNReal.ofReal (f x) := by
    rw [← lintegral_inter_add_sdiff (μ := volume) (fun x => ENNReal.ofReal (f x)) B
      (measurableSet_Ioi (a := (0 : ℝ)))]
    have hz : ∫⁻ x in B \ Set.Ioi 0, ENNReal.ofReal (f x) = 0 := by
      rw [lintegral_eq_zero_iff']
      · rw [Filter.EventuallyEq, ae_restrict_iff' (hB.diff measurableSet_Ioi)]
        have : ∀ᵐ x : ℝ, x ≠ 0 := by
          rw [ae_iff]
          simp
        filter_upwards [this] with x hx hmem
        have hx2 : x < 0 := lt_of_le_of_ne (not_lt.1 hmem.2) hx
        simp [h2 x hx2]
      · refine AEMeasurable.congr (f := fun _ => 0) aemeasurable_const ?_
        rw [Filter.EventuallyEq, ae_restrict_iff' (hB.diff measurableSet_Ioi)]
        have : ∀ᵐ x : ℝ, x ≠ 0 := by
          rw [ae_iff]
          simp
        filter_upwards [this] with x hx hmem
        have hx2 : x < 0 := lt_of_le_of_ne (not_lt.1 hmem.2) hx
        simp [h2 x hx2]
    rw [hz, add_zero]
  have himg : (fun x : ℝ => x⁻¹) ⁻¹' B ∩ Set.Ioi 0 = (fun x : ℝ => x⁻¹) '' (B ∩ Set.Ioi 0) := by
    ext x
    constructor
    · rintro ⟨hx, hp⟩
      exact ⟨x⁻¹, ⟨hx, Set.mem_Ioi.2 (inv_pos.2 (Set.mem_Ioi.1 hp))⟩, inv_inv x⟩
    · rintro ⟨y, ⟨hy, hp⟩, rfl⟩
      exact ⟨by simpa using hy, Set.mem_Ioi.2 (inv_pos.2 (Set.mem_Ioi.1 hp))⟩
  rw [hpos, hpos', himg, lintegral_image_eq_lintegral_abs_deriv_mul (hB.inter measurableSet_Ioi)
    (f' := fun x => -(x ^ 2)⁻¹) (fun x hx => (hasDerivAt_inv (ne_of_gt hx.2)).hasDerivWithinAt) inv_injective.injOn]
  refine setLIntegral_congr_fun (hB.inter measurableSet_Ioi) ?_
  rintro y ⟨-, hy⟩
  have hy : 0 < y := hy
  show ENNReal.ofReal |-(y ^ 2)⁻¹| * ENNReal.ofReal (g y⁻¹) = ENNReal.ofReal (f y)
  rw [← ENNReal.ofReal_mul (abs_nonneg _), abs_neg, abs_of_pos (by positivity), h1 _ (inv_pos.2 hy), inv_inv]
  congr 1
  field_simp

theorem invgamma_pdf {a c : ℝ} (hc : 0 < c) {x : ℝ} (hx : 0 < x) :
    SpDouble.pdf ⟨.invgamma a, 0, c⟩ x = gammaPDFReal a c x⁻¹ / x ^ 2 := by
  simp only [SpDouble.pdf, Family.pdf, gammaPDFReal, sub_zero]
  rw [if_pos (div_pos hx hc), if_pos (inv_pos.2 hx).le]
  rw [show -1 / (x / c) = -(c * x⁻¹) by field_simp]
  have e1 : (x / c) ^ (-a - 1) = x⁻¹ ^ (a + 1) * c ^ (a + 1) := by
    rw [show -a - 1 = -(a + 1) by ring, Real.rpow_neg (div_pos hx hc).le, ← Real.inv_rpow (div_pos hx hc).le,
      inv_div, div_eq_mul_inv, mul_comm, Real.mul_rpow (inv_pos.2 hx).le hc.le]
  have e2 : x⁻¹ ^ (a + 1) = x⁻¹ ^ (a - 1) * x⁻¹ ^ 2 := by
    rw [show a + 1 = (a - 1) + (2 : ℕ) by push_cast; ring, Real.rpow_add (inv_pos.2 hx), Real.rpow_natCast]
  have e3 : c ^ (a + 1) = c ^ a * c := by rw [Real.rpow_add hc, Real.rpow_one]
  rw [e1, e2, e3]
  field_simp

theorem invgamma_law {a c : ℝ} (hc : 0 < c) : (law ⟨.invgamma a, 0, c⟩).map (fun x => x⁻¹) = gammaMeasure a c := by
  unfold law gammaMeasure gammaPDF
  refine map_inv ?_ (fun x hx => invgamma_pdf hc hx) ?_
  · intro x hx
    simp only [SpDouble.pdf, Family.pdf, sub_zero]
    rw [if_neg, zero_div]
    rw [not_lt]
    exact div_nonpos_of_nonpos_of_nonneg hx hc.le
  · intro x hx
    unfold gammaPDFReal
    rw [if_neg (not_le.2 hx)]

theorem gamma_mean {a r : ℝ} (ha : 0 < a) (hr : 0 < r) : ∫ x, x ∂(gammaMeasure a r) = a / r := by
  have h1 : gammaMeasure a r = volume.withDensity (gammaPDF a r) := rfl
  have hm : Measurable (gammaPDF a r) := (measurable_gammaPDFReal a r).ennreal_ofReal
  rw [h1, integral_withDensity_eq_integral_toReal_smul hm
    (Filter.Eventually.of_forall (fun x => ENNReal.ofReal_lt_top))]
  have h2 : (fun x : ℝ => (gammaPDF a r x).toReal • x) =
      (Set.Ioi (0 : ℝ)).indicator (fun x => r ^ a / Real.Gamma a * (x ^ (a + 1 - 1) * Real.exp (-(r * x)))) := by
    funext x
    by_cases hx : 0 < x
    · rw [Set.indicator_of_mem (show x ∈ Set.Ioi 0 from hx), gammaPDF_of_nonneg hx.le,
        ENNReal.toReal_ofReal (by positivity), smul_eq_mul, show a + 1 - 1 = (a - 1) + 1 by ring, Real.rpow_add hx,
        Real.rpow_one]
      ring
    · rw [Set.indicator_of_notMem (show x ∉ Set.Ioi 0 from hx)]
      rcases lt_or_eq_of_le (not_lt.1 hx) with h | h
      · rw [gammaPDF_of_neg h]
        simp
      · subst h
        simp
  rw [h2, integral_indicator measurableSet_Ioi, integral_const_mul,
    Real.integral_rpow_mul_exp_neg_mul_Ioi (by linarith) hr, Real.Gamma_add_one ha.ne',
    Real.rpow_add (by positivity), Real.rpow_one, Real.div_rpow zero_le_one hr.le, Real.one_rpow]
  have := (Real.Gamma_pos_of_pos ha).ne'
  have := (Real.rpow_pos_of_pos hr a).ne'
  field_simp

/-- C142, as first stated, fails for every rate but one: the reciprocal of what `invgamma` draws does not have the gamma
distribution with the shape and the rate asked for. -/
theorem C142_refuted {args : Dict String ℝ} {d : SpDouble} (h : create "invgamma" args = .ok d)
    (h1 : given args "rate" 1 ≠ 1) :
    (law d).map (fun x => x⁻¹) ≠ gammaMeasure (given args "a" 2) (given args "rate" 1) := by
  obtain ⟨a, h2, h⟩ := bind_ok h
  obtain ⟨r, h3, h⟩ := bind_ok h
  cases h
  have ha : 0 < a := by
    unfold field at h2
    cases hg : args.get? "a" with
    | none => rw [hg] at h2; cases h2; norm_num
    | some v =>
      rw [hg] at h2
      by_cases hv : 2 < v
      · simp only [if_pos hv] at h2
        cases h2
        linarith
      · simp only [if_neg hv] at h2
        cases h2
  obtain ⟨rfl, -⟩ := field_ok h2
  obtain ⟨rfl, hr⟩ := field_ok h3
  have hr := hr one_pos
  rw [invgamma_law (by positivity)]
  intro he
  have hm := congrArg (fun μ : Measure ℝ => ∫ x, x ∂μ) he
  beta_reduce at hm
  rw [gamma_mean ha (by positivity), gamma_mean ha hr] at hm
  apply h1
  have h5 : given args "rate" 1 ^ 2 = 1 := by
    field_simp at hm
    linarith
  nlinarith

/-- C142: the reciprocal of what `invgamma` draws has the gamma distribution whose rate is the reciprocal of the rate
given, and so the one asked for when that is one.  A shape that is given must exceed two, which the default does not.
Missing for the full claim: all other rates (`C142_refuted`). -/
theorem C142_partial {args : Dict String ℝ} {d : SpDouble} (h : create "invgamma" args = .ok d) :
    0 < given args "rate" 1 ∧ 2 ≤ given args "a" 2 ∧
      (law d).map (fun x => x⁻¹) = gammaMeasure (given args "a" 2) (1 / given args "rate" 1) ∧
      (given args "rate" 1 = 1 →
        (law d).map (fun x => x⁻¹) = gammaMeasure (given args "a" 2) (given args "rate" 1)) := by
  obtain ⟨a, h2, h⟩ := bind_ok h
  obtain ⟨r, h3, h⟩ := bind_ok h
  cases h
  have ha : 2 ≤ a := by
    unfold field at h2
    cases hg : args.get? "a" with
    | none => rw [hg] at h2; cases h2; rfl
    | some v =>
      rw [hg] at h2
      by_cases hv : 2 < v
      · simp only [if_pos hv] at h2
        cases h2
        exact hv.le
      · simp only [if_neg hv] at h2
        cases h2
  obtain ⟨rfl, -⟩ := field_ok h2
  obtain ⟨rfl, hr⟩ := field_ok h3
  have hr := hr one_pos
  refine ⟨hr, ha, invgamma_law (by positivity), ?_⟩
  intro h1
  rw [invgamma_law (by positivity), h1, one_div_one]

/-- C142: the default of the shape is refused when it is given. -/
theorem C142_default_partial : create "invgamma" [] = .ok ⟨.invgamma 2, 0, 1 / 1⟩ ∧
    create "invgamma" [("a", 2)] = .error .ValidationError := by
  constructor
  · simp [create, field]
    rfl
  · simp [create, field, Dict.get?]
    rfl

example : ∃ d, create "invgamma" [("a", 3), ("rate", 2)] = .ok d ∧ given [("a", 3), ("rate", 2)] "rate" 1 ≠ 1 := by
  refine ⟨⟨.invgamma 3, 0, 1 / 2⟩, ?_, ?_⟩
  · rw [create]
    rw [field_some (v := 3) rfl, field_some (v := 2) rfl, if_pos (by norm_num), if_pos (by norm_num)]
    rfl
  · rw [show given [("a", 3), ("rate", 2)] "rate" 1 = 2 from rfl]
    norm_num

/-! ## What is created, and where it lives -/

/-- C143, as first stated, fails: bounds in the wrong order are accepted, and the log density is then not a number. -/
theorem C143_refuted : ∃ d, create "unif" [("min", 1), ("max", 0)] = .ok d ∧ ¬ d.Valid ∧ ∀ x, d.logpdf x = .nan := by
  refine ⟨⟨.uniform, 1, 0 - 1⟩, ?_, ?_, ?_⟩
  · rw [create]
    rw [field_some (v := 1) rfl, field_some (v := 0) rfl, if_pos trivial, if_pos trivial]
    rfl
  · rintro ⟨-, h⟩
    norm_num at h
  · intro x
    rw [SpDouble.logpdf, if_neg]
    rintro ⟨-, h⟩
    norm_num at h

/-- C143: what is created has parameters that scipy accepts, for every name but `unif`, and for that when the bounds are
in order.  Missing for the full claim: bounds that are not (`C143_refuted`). -/
theorem C143_partial {name : String} {args : Dict String ℝ} {d : SpDouble} (h : create name args = .ok d)
    (hu : name = "unif" → given args "min" 0 < given args "max" 1) : d.Valid := by
  unfold create at h
  split at h
  · obtain ⟨a, h1, h⟩ := bind_ok h
    obtain ⟨b, h2, h⟩ := bind_ok h
    cases h
    have := (field_ok h2).2 one_pos
    exact ⟨(field_ok h1).2 one_pos, by positivity⟩
  · obtain ⟨b, h2, h⟩ := bind_ok h
    cases h
    have := (field_ok h2).2 one_pos
    exact ⟨trivial, by positivity⟩
  · obtain ⟨a, h1, h⟩ := bind_ok h
    obtain ⟨b, h2, h⟩ := bind_ok h
    cases h
    exact ⟨Real.exp_pos _, Real.exp_pos _⟩
  · obtain ⟨a, h1, h⟩ := bind_ok h
    obtain ⟨b, h2, h⟩ := bind_ok h
    cases h
    obtain ⟨rfl, -⟩ := field_ok h1
    obtain ⟨rfl, -⟩ := field_ok h2
    exact ⟨trivial, sub_pos.2 (hu rfl)⟩
  · obtain ⟨a, h1, h⟩ := bind_ok h
    cases h
    exact ⟨(field_ok h1).2 one_pos, one_pos⟩
  · obtain ⟨a, h1, h⟩ := bind_ok h
    obtain ⟨b, h2, h⟩ := bind_ok h
    cases h
    exact ⟨⟨(field_ok h1).2 one_pos, (field_ok h2).2 one_pos⟩, one_pos⟩
  · have hc := C142_partial (args := args) (d := d) h
    obtain ⟨a, h1, h⟩ := bind_ok h
    obtain ⟨b, h2, h⟩ := bind_ok h
    cases h
    have := (field_ok h2).2 one_pos
    obtain ⟨rfl, -⟩ := field_ok h1
    exact ⟨show 0 < given args "a" 2 by linarith [hc.2.1], by positivity⟩
  · obtain ⟨a, h1, h⟩ := bind_ok h
    obtain ⟨b, h2, h⟩ := bind_ok h
    cases h
    exact ⟨trivial, (field_ok h2).2 one_pos⟩
  · cases h

/-- C143: the values of a field that are refused. -/
theorem C143_refused_partial {name key : String} {v : ℝ}
    (h : (name, key) ∈ [("gamma", "shape"), ("exp", "rate"), ("chisq", "df"), ("beta", "shape1")] ∧ v ≤ 0 ∨
      (name, key) = ("lnorm", "meanlog") ∧ v < 0 ∨ (name, key) = ("invgamma", "a") ∧ v ≤ 2) (args : Dict String ℝ)
    (hk : args.get? key = some v) : create name args = .error .ValidationError := by
  rcases h with ⟨h, hv⟩ | ⟨h, hv⟩ | ⟨h, hv⟩
  · simp only [List.mem_cons, Prod.mk.injEq, List.not_mem_nil, or_false] at h
    rcases h with ⟨rfl, rfl⟩ | ⟨rfl, rfl⟩ | ⟨rfl, rfl⟩ | ⟨rfl, rfl⟩ <;>
    · rw [create, field_some hk, if_neg (not_lt.2 hv)]
      rfl
  · cases h
    rw [create, field_some hk, if_neg (not_le.2 hv)]
    rfl
  · cases h
    rw [create, field_some hk, if_neg (not_lt.2 hv)]
    rfl

theorem field_accepts {ok : ℝ → Prop} [DecidablePred ok] {default : ℝ} {args : Dict String ℝ} {k : String}
    (h : ∀ v, args.get? k = some v → ok v) : ∃ v, field ok default args k = .ok v := by
  unfold field
  cases hg : args.get? k with
  | none => exact ⟨_, rfl⟩
  | some v => exact ⟨v, if_pos (h v hg)⟩

/-- C143: a distribution is created from values in range: locations are arbitrary, `meanlog` is not negative, the shape of
`invgamma` exceeds two, and all others are positive. -/
theorem C143_accepted_partial {name : String} {args : Dict String ℝ}
    (hn : name ∈ ["gamma", "exp", "lnorm", "unif", "chisq", "beta", "invgamma", "norm"])
    (h : ∀ k v, args.get? k = some v → k = "min" ∨ k = "max" ∨ k = "mean" ∨ k = "meanlog" ∧ 0 ≤ v ∨ k = "a" ∧ 2 < v ∨
      k ≠ "a" ∧ k ≠ "meanlog" ∧ 0 < v) : ∃ d, create name args = .ok d := by
  have pos : ∀ k, k ∉ ["min", "max", "mean", "meanlog", "a"] → ∀ v, args.get? k = some v → 0 < v := by
    intro k hk v hv
    simp only [List.mem_cons, List.not_mem_nil, or_false, not_or] at hk
    rcases h k v hv with h | h | h | ⟨h, -⟩ | ⟨h, -⟩ | ⟨-, -, h⟩
    · exact absurd h hk.1
    · exact absurd h hk.2.1
    · exact absurd h hk.2.2.1
    · exact absurd h hk.2.2.2.1
    · exact absurd h hk.2.2.2.2
    · exact h
  simp only [List.mem_cons, List.not_mem_nil, or_false] at hn
  rcases hn with rfl | rfl | rfl | rfl | rfl | rfl | rfl | rfl
  · obtain ⟨a, ha⟩ := field_accepts (default := 1) (pos "shape" (by decide))
    obtain ⟨b, hb⟩ := field_accepts (default := 1) (pos "rate" (by decide))
    exact ⟨_, by rw [create]; rw [ha, hb]; rfl⟩
  · obtain ⟨b, hb⟩ := field_accepts (default := 1) (pos "rate" (by decide))
    exact ⟨_, by rw [create]; rw [hb]; rfl⟩
  · obtain ⟨a, ha⟩ := field_accepts (ok := fun v => 0 ≤ v) (default := 0) (args := args) (k := "meanlog") (by
      intro v hv
      rcases h _ v hv with h | h | h | ⟨-, h⟩ | ⟨h, -⟩ | ⟨-, h, -⟩
      · exact absurd h (by decide)
      · exact absurd h (by decide)
      · exact absurd h (by decide)
      · exact h
      · exact absurd h (by decide)
      · exact absurd rfl h)
    obtain ⟨b, hb⟩ := field_accepts (default := 1) (pos "sdlog" (by decide))
    exact ⟨_, by rw [create]; rw [ha, hb]; rfl⟩
  · obtain ⟨a, ha⟩ := field_accepts (ok := fun _ => True) (default := 0) (args := args) (k := "min") (fun _ _ => trivial)
    obtain ⟨b, hb⟩ := field_accepts (ok := fun _ => True) (default := 1) (args := args) (k := "max") (fun _ _ => trivial)
    exact ⟨_, by rw [create]; rw [ha, hb]; rfl⟩
  · obtain ⟨b, hb⟩ := field_accepts (default := 1) (pos "df" (by decide))
    exact ⟨_, by rw [create]; rw [hb]; rfl⟩
  · obtain ⟨a, ha⟩ := field_accepts (default := 1) (pos "shape1" (by decide))
    obtain ⟨b, hb⟩ := field_accepts (default := 1) (pos "shape2" (by decide))
    exact ⟨_, by rw [create]; rw [ha, hb]; rfl⟩
  · obtain ⟨a, ha⟩ := field_accepts (ok := fun v => 2 < v) (default := 2) (args := args) (k := "a") (by
      intro v hv
      rcases h _ v hv with h | h | h | ⟨h, -⟩ | ⟨-, h⟩ | ⟨h, -⟩
      · exact absurd h (by decide)
      · exact absurd h (by decide)
      · exact absurd h (by decide)
      · exact absurd h (by decide)
      · exact h
      · exact absurd rfl h)
    obtain ⟨b, hb⟩ := field_accepts (default := 1) (pos "rate" (by decide))
    exact ⟨_, by rw [create]; rw [ha, hb]; rfl⟩
  · obtain ⟨a, ha⟩ := field_accepts (ok := fun _ => True) (default := 0) (args := args) (k := "mean") (fun _ _ => trivial)
    obtain ⟨b, hb⟩ := field_accepts (default := 1) (pos "sd" (by decide))
    exact ⟨_, by rw [create]; rw [ha, hb]; rfl⟩

example : create "exp" [("rate", -1)] = .error .ValidationError :=
  C143_refused_partial (key := "rate") (v := -1) (.inl ⟨by simp, by norm_num⟩) _ rfl

theorem npLog_pos {x : ℝ} (h : 0 < x) : ∃ y, npLog x = .fin y := ⟨_, by rw [npLog, if_pos h]⟩

theorem npLog_zero : npLog 0 = .ninf := by
  rw [npLog, if_neg (lt_irrefl 0), if_pos rfl]

/-- The standard density is positive inside the support and zero outside. -/
theorem family_support (f : Family) (hf : f.Valid) (x : ℝ) :
    (XR.lt f.ends.1 (.fin x) = true → XR.lt (.fin x) f.ends.2 = true → 0 < f.pdf x) ∧
      (XR.lt (.fin x) f.ends.1 = true ∨ XR.lt f.ends.2 (.fin x) = true → f.pdf x = 0) := by
  cases f with
  | gamma a =>
    have ha : 0 < a := hf
    simp only [Family.ends, Family.pdf, XR.lt, decide_eq_true_eq]
    refine ⟨fun h _ => ?_, fun h => ?_⟩
    · rw [if_pos h.le]
      have := Real.Gamma_pos_of_pos ha
      positivity
    · rw [if_neg (not_le.2 (by simpa using h))]
  | expon =>
    simp only [Family.ends, Family.pdf, XR.lt, decide_eq_true_eq]
    refine ⟨fun h _ => ?_, fun h => ?_⟩
    · rw [if_pos h.le]
      positivity
    · rw [if_neg (not_le.2 (by simpa using h))]
  | lognorm s =>
    have hs : 0 < s := hf
    simp only [Family.ends, Family.pdf, XR.lt, decide_eq_true_eq]
    refine ⟨fun h _ => ?_, fun h => ?_⟩
    · rw [if_pos h]
      have := Real.pi_pos
      positivity
    · have h : x < 0 := by simpa using h
      rw [if_neg (by linarith)]
  | uniform =>
    simp only [Family.ends, Family.pdf, XR.lt, decide_eq_true_eq]
    refine ⟨fun h h' => ?_, fun h => ?_⟩
    · rw [if_pos ⟨h.le, h'.le⟩]
      exact one_pos
    · rw [if_neg]
      rintro ⟨h1, h2⟩
      rcases h with h | h <;> linarith
  | chi2 df =>
    have hd : 0 < df := hf
    simp only [Family.ends, Family.pdf, XR.lt, decide_eq_true_eq]
    refine ⟨fun h _ => ?_, fun h => ?_⟩
    · rw [if_pos h.le]
      have := Real.Gamma_pos_of_pos (show 0 < df / 2 by positivity)
      positivity
    · rw [if_neg (not_le.2 (by simpa using h))]
  | beta a b =>
    obtain ⟨ha, hb⟩ : 0 < a ∧ 0 < b := hf
    simp only [Family.ends, Family.pdf, XR.lt, decide_eq_true_eq]
    refine ⟨fun h h' => ?_, fun h => ?_⟩
    · rw [if_pos ⟨h, h'⟩]
      have := Real.Gamma_pos_of_pos ha
      have := Real.Gamma_pos_of_pos hb
      have := Real.Gamma_pos_of_pos (add_pos ha hb)
      have : 0 < 1 - x := by linarith
      positivity
    · rw [if_neg]
      rintro ⟨h1, h2⟩
      rcases h with h | h <;> linarith
  | invgamma a =>
    have ha : 0 < a := hf
    simp only [Family.ends, Family.pdf, XR.lt, decide_eq_true_eq]
    refine ⟨fun h _ => ?_, fun h => ?_⟩
    · rw [if_pos h]
      have := Real.Gamma_pos_of_pos ha
      positivity
    · have h : x < 0 := by simpa using h
      rw [if_neg (by linarith)]
  | norm =>
    simp only [Family.ends, Family.pdf, XR.lt]
    refine ⟨fun _ _ => ?_, fun h => by simp at h⟩
    have := Real.pi_pos
    positivity

/-- C144: for parameters that scipy accepts, the log density is a number inside of `Interval`, and minus infinity outside. -/
theorem C144 {d : SpDouble} (hd : d.Valid) (x : ℝ) :
    (XR.lt d.interval.1 (.fin x) = true → XR.lt (.fin x) d.interval.2 = true → ∃ y, d.logpdf x = .fin y) ∧
      (XR.lt (.fin x) d.interval.1 = true ∨ XR.lt d.interval.2 (.fin x) = true → d.logpdf x = .ninf) := by
  have hs : 0 < d.scale := hd.2
  have hf := family_support d.family hd.1 ((x - d.loc) / d.scale)
  have key1 : ∀ e, XR.lt (d.place e) (.fin x) = XR.lt e (.fin ((x - d.loc) / d.scale)) := by
    intro e
    cases e with
    | fin v =>
      simp only [SpDouble.place, XR.lt, decide_eq_decide]
      rw [lt_div_iff₀ hs]
      constructor <;> intro h <;> linarith
    | pinf => rfl
    | ninf => rfl
    | nan => rfl
  have key2 : ∀ e, XR.lt (.fin x) (d.place e) = XR.lt (.fin ((x - d.loc) / d.scale)) e := by
    intro e
    cases e with
    | fin v =>
      simp only [SpDouble.place, XR.lt, decide_eq_decide]
      rw [div_lt_iff₀ hs]
      constructor <;> intro h <;> linarith
    | pinf => rfl
    | ninf => rfl
    | nan => rfl
  rw [SpDouble.interval, if_pos hd, SpDouble.logpdf, if_pos hd]
  simp only [key1, key2]
  constructor
  · intro h1 h2
    exact npLog_pos (div_pos (hf.1 h1 h2) hs)
  · intro h
    rw [SpDouble.pdf, hf.2 h, zero_div, npLog_zero]

example : (⟨.uniform, 2, 3⟩ : SpDouble).Valid ∧ (⟨.uniform, 2, 3⟩ : SpDouble).interval = (.fin 2, .fin 5) := by
  have h : (⟨.uniform, 2, 3⟩ : SpDouble).Valid := ⟨trivial, by norm_num⟩
  refine ⟨h, ?_⟩
  rw [SpDouble.interval, if_pos h]
  simp only [SpDouble.place, Family.ends]
  norm_num

/-! ## Integers -/

/-- C145: `binom` draws the number of successes in that many independent trials, and refuses a size or a probability out
of range. -/
theorem C145_binom {size : Option ℤ} {prob : Option ℝ} {d : SpInteger} (h : createBinom size prob = .ok d) :
    ∃ (n : ℕ) (p : unitInterval), (n : ℤ) = size.getD 1 ∧ 0 < n ∧ (p : ℝ) = prob.getD (1 / 2) ∧
      (∀ k : ℕ, d.pmf k = (binomial n p).real {k}) ∧ ∀ k : ℤ, k < 0 → d.pmf k = 0 := by
  unfold createBinom at h
  obtain ⟨n, h1, h⟩ := bind_ok h
  obtain ⟨p, h2, h⟩ := bind_ok h
  cases h
  have hn : (n : ℤ) = size.getD 1 ∧ 0 < n := by
    cases size with
    | none => cases h1; exact ⟨rfl, one_pos⟩
    | some v =>
      by_cases hv : 0 < v
      · simp only [if_pos hv] at h1
        cases h1
        exact ⟨Int.toNat_of_nonneg hv.le, by omega⟩
      · simp only [if_neg hv] at h1
        cases h1
  have hp : p = prob.getD (1 / 2) ∧ 0 ≤ p ∧ p ≤ 1 := by
    cases prob with
    | none => cases h2; exact ⟨rfl, by norm_num, by norm_num⟩
    | some v =>
      by_cases hv : 0 ≤ v ∧ v ≤ 1
      · simp only [if_pos hv] at h2
        cases h2
        exact ⟨rfl, hv⟩
      · simp only [if_neg hv] at h2
        cases h2
  refine ⟨n, ⟨p, hp.2⟩, hn.1, hn.2, hp.1, ?_, ?_⟩
  · intro k
    rw [binomial_real_singleton, SpInteger.pmf]
    simp only [Int.toNat_natCast]
    by_cases hk : k ≤ n
    · rw [if_pos ⟨by omega, by omega⟩]
    · rw [if_neg (by omega), Nat.choose_eq_zero_of_lt (by omega)]
      simp
  · intro k hk
    rw [SpInteger.pmf, if_neg (by omega)]

/-- C145: what `binom` refuses. -/
theorem C145_binom_refused {size : Option ℤ} {prob : Option ℝ} :
    createBinom size prob = .error .ValidationError ↔
      (∃ n, size = some n ∧ n ≤ 0) ∨ ∃ p, prob = some p ∧ ¬ (0 ≤ p ∧ p ≤ 1) := by
  unfold createBinom
  cases size with
  | none =>
    cases prob with
    | none => exact ⟨fun h => (by cases h), fun h => by rcases h with ⟨n, h, -⟩ | ⟨n, h, -⟩ <;> cases h⟩
    | some p =>
      by_cases hp : 0 ≤ p ∧ p ≤ 1
      · simp only [if_pos hp]
        refine ⟨fun h => (by cases h), ?_⟩
        rintro (⟨n, h, -⟩ | ⟨q, h, hq⟩)
        · cases h
        · cases h; exact absurd hp hq
      · simp only [if_neg hp]
        exact ⟨fun _ => .inr ⟨p, rfl, hp⟩, fun _ => rfl⟩
  | some n =>
    by_cases hn : 0 < n
    · simp only [if_pos hn]
      cases prob with
      | none =>
        refine ⟨fun h => (by cases h), ?_⟩
        rintro (⟨m, h, hm⟩ | ⟨q, h, hq⟩)
        · cases h; omega
        · cases h
      | some p =>
        by_cases hp : 0 ≤ p ∧ p ≤ 1
        · simp only [if_pos hp]
          refine ⟨fun h => (by cases h), ?_⟩
          rintro (⟨m, h, hm⟩ | ⟨q, h, hq⟩)
          · cases h; omega
          · cases h; exact absurd hp hq
        · simp only [if_neg hp]
          exact ⟨fun _ => .inr ⟨p, rfl, hp⟩, fun _ => rfl⟩
    · simp only [if_neg hn]
      exact ⟨fun _ => .inl ⟨n, rfl, by omega⟩, fun _ => rfl⟩

example : ∃ d, createBinom (some 3) (some 0) = .ok d := by
  refine ⟨.binom 3 0, ?_⟩
  unfold createBinom
  simp only [if_pos (show (0 : ℝ) ≤ 0 ∧ (0 : ℝ) ≤ 1 by norm_num)]
  rfl

/-- C145: `pois` draws from the Poisson distribution with the mean given, and refuses a mean that is not positive. -/
theorem C145_pois (lam : Option ℝ) :
    (createPois lam = .error .ValidationError ↔ ∃ v, lam = some v ∧ v ≤ 0) ∧
      ∀ d, createPois lam = .ok d → 0 < lam.getD 1 ∧
        (∀ k : ℕ, d.pmf k = (poissonMeasure (lam.getD 1).toNNReal).real {k}) ∧ ∀ k : ℤ, k < 0 → d.pmf k = 0 := by
  have key : ∀ v : ℝ, 0 < v → (∀ k : ℕ, (SpInteger.poisson v).pmf k = (poissonMeasure v.toNNReal).real {k}) ∧
      ∀ k : ℤ, k < 0 → (SpInteger.poisson v).pmf k = 0 := by
    intro v hv
    constructor
    · intro k
      rw [poissonMeasure_real_singleton, SpInteger.pmf, if_pos (by omega), Real.coe_toNNReal v hv.le, Int.toNat_natCast]
    · intro k hk
      rw [SpInteger.pmf, if_neg (by omega)]
  unfold createPois
  cases lam with
  | none =>
    refine ⟨⟨fun h => (by cases h), fun ⟨v, h, _⟩ => by cases h⟩, ?_⟩
    intro d h
    cases h
    exact ⟨one_pos, key 1 one_pos⟩
  | some v =>
    by_cases hv : 0 < v
    · simp only [if_pos hv]
      refine ⟨⟨fun h => (by cases h), fun ⟨w, h, hw⟩ => by cases h; linarith⟩, ?_⟩
      intro d h
      cases h
      exact ⟨hv, key v hv⟩
    · simp only [if_neg hv]
      refine ⟨⟨fun _ => ⟨v, rfl, not_lt.1 hv⟩, fun _ => trivial⟩, ?_⟩
      intro d h
      cases h

example : ∃ d, createPois (some 2) = .ok d := ⟨.poisson 2, if_pos two_pos⟩

/-- C145: `Interval` holds exactly the integers that have a positive probability, unless the trials of `binom` are sure to
fail or to succeed. -/
theorem C145_interval {size : Option ℤ} {prob lam : Option ℝ} {d : SpInteger}
    (h : createBinom size prob = .ok d ∧ prob.getD (1 / 2) ≠ 0 ∧ prob.getD (1 / 2) ≠ 1 ∨ createPois lam = .ok d)
    (k : ℤ) : (∃ y, d.logpdf k = .fin y) ∧ XR.le d.interval.1 (.fin (k : ℝ)) = true ∧
        XR.le (.fin (k : ℝ)) d.interval.2 = true ∨
      d.logpdf k = .ninf ∧ ¬ (XR.le d.interval.1 (.fin (k : ℝ)) = true ∧ XR.le (.fin (k : ℝ)) d.interval.2 = true) := by
  have pos : ∀ x : ℝ, 0 < x → ∃ y, npLog x = .fin y := fun x h => npLog_pos h
  have lo : ((.fin (-1) : XR ℝ) + .fin 1) = .fin 0 := by
    show XR.fin (-1 + 1 : ℝ) = _
    norm_num
  rcases h with ⟨h, hp0, hp1⟩ | h
  · unfold createBinom at h
    obtain ⟨n, h1, h⟩ := bind_ok h
    obtain ⟨p, h2, h⟩ := bind_ok h
    cases h
    have hp : 0 < p ∧ p < 1 := by
      cases prob with
      | none => cases h2; exact ⟨by norm_num, by norm_num⟩
      | some v =>
        by_cases hv : 0 ≤ v ∧ v ≤ 1
        · simp only [if_pos hv] at h2
          cases h2
          exact ⟨lt_of_le_of_ne hv.1 (Ne.symm hp0), lt_of_le_of_ne hv.2 hp1⟩
        · simp only [if_neg hv] at h2
          cases h2
    simp only [SpInteger.interval, SpInteger.scipyInterval, lo, XR.le, decide_eq_true_eq, SpInteger.logpdf, SpInteger.pmf]
    by_cases hk : 0 ≤ k ∧ k ≤ n
    · left
      rw [if_pos hk]
      refine ⟨pos _ ?_, by exact_mod_cast hk.1, by exact_mod_cast hk.2⟩
      have : 0 < n.choose k.toNat := Nat.choose_pos (by omega)
      have : (0 : ℝ) < n.choose k.toNat := by exact_mod_cast this
      have := hp.1
      have : 0 < 1 - p := by linarith [hp.2]
      positivity
    · right
      rw [if_neg hk]
      refine ⟨npLog_zero, ?_⟩
      rintro ⟨h3, h4⟩
      exact hk ⟨by exact_mod_cast h3, by exact_mod_cast h4⟩
  · have hv : ∃ v, 0 < v ∧ d = .poisson v := by
      unfold createPois at h
      cases lam with
      | none => cases h; exact ⟨1, one_pos, rfl⟩
      | some v =>
        by_cases hv : 0 < v
        · simp only [if_pos hv] at h
          cases h
          exact ⟨v, hv, rfl⟩
        · simp only [if_neg hv] at h
          cases h
    obtain ⟨v, hv, rfl⟩ := hv
    simp only [SpInteger.interval, SpInteger.scipyInterval, lo, XR.le, decide_eq_true_eq, SpInteger.logpdf, SpInteger.pmf]
    by_cases hk : 0 ≤ k
    · left
      rw [if_pos hk]
      exact ⟨pos _ (by positivity), by exact_mod_cast hk, trivial⟩
    · right
      rw [if_neg hk]
      refine ⟨npLog_zero, ?_⟩
      rintro ⟨h3, -⟩
      exact hk (by exact_mod_cast h3)

end Props.Dist
