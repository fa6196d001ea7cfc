import Mathlib.Probability.Distributions.Exponential
import Mathlib.Analysis.SpecialFunctions.Gamma.Basic

/-!
# Integrals against the exponential distribution
-/

namespace Lemmas

open MeasureTheory ProbabilityTheory Set

/-- The integral of a function of an exponential number. -/
theorem integral_expMeasure {r : ℝ} (hr : 0 < r) (f : ℝ → ℝ) :
    ∫ x, f x ∂(expMeasure r) = ∫ x in Ioi (0 : ℝ), r * Real.exp (-(r * x)) * f x := by
  have h1 : expMeasure r = volume.withDensity (exponentialPDF r) := rfl
  have hm : Measurable (exponentialPDF r) :=
    (measurable_exponentialPDFReal r).ennreal_ofReal
  rw [h1, integral_withDensity_eq_integral_toReal_smul hm
    (Filter.Eventually.of_forall (fun x => ENNReal.ofReal_lt_top)), ← integral_Ici_eq_integral_Ioi,
    ← integral_indicator measurableSet_Ici]
  congr 1
  funext x
  by_cases hx : 0 ≤ x
  · rw [indicator_of_mem (by exact hx), exponentialPDF_of_nonneg hx, ENNReal.toReal_ofReal (by positivity),
      smul_eq_mul]
  · rw [indicator_of_notMem (by simpa using hx), exponentialPDF_of_neg (by linarith)]
    simp

/-- Moments of an exponential number. -/
theorem integral_rpow_expMeasure {r a : ℝ} (hr : 0 < r) (ha : 0 < a) :
    ∫ x, x ^ a ∂(expMeasure r) = (1 / r) ^ a * Real.Gamma (1 + a) := by
  rw [integral_expMeasure hr]
  have h := Real.integral_rpow_mul_exp_neg_mul_Ioi (a := a + 1) (r := r) (by linarith) hr
  have h2 : ∀ x : ℝ, r * Real.exp (-(r * x)) * x ^ a = r * (x ^ (a + 1 - 1) * Real.exp (-(r * x))) := by
    intro x
    rw [show a + 1 - 1 = a by ring]
    ring
  simp_rw [h2]
  rw [integral_const_mul, h, Real.rpow_add (by positivity), Real.rpow_one, add_comm a 1]
  field_simp

/-- The chance that an exponential number exceeds `x`. -/
theorem expMeasure_Ioi {r x : ℝ} (hr : 0 < r) (hx : 0 ≤ x) :
    (expMeasure r).real (Ioi x) = Real.exp (-(r * x)) := by
  have := isProbabilityMeasure_expMeasure hr
  have h := cdf_expMeasure_eq hr x
  rw [cdf_eq_real, if_pos hx] at h
  have h2 := probReal_compl_eq_one_sub (μ := expMeasure r) (measurableSet_Iic (a := x))
  rw [compl_Iic, h] at h2
  rw [h2]
  ring

/-- An exponential number is not negative. -/
theorem expMeasure_Iio {r : ℝ} : (expMeasure r) (Iio 0) = 0 := by
  have h1 : expMeasure r = volume.withDensity (exponentialPDF r) := rfl
  rw [h1, withDensity_apply _ measurableSet_Iio]
  exact lintegral_exponentialPDF_of_nonpos le_rfl

end Lemmas
