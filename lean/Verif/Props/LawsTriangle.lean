import Verif.Props.Prob
import Mathlib.MeasureTheory.Integral.Lebesgue.Basic
import Mathlib.MeasureTheory.Measure.Haar.NormedSpace
import Mathlib.Analysis.SpecialFunctions.Integrals.Basic
import Mathlib.MeasureTheory.Measure.WithDensity
import Mathlib.MeasureTheory.Group.Integral
import Mathlib.MeasureTheory.Integral.Bochner.ContinuousLinearMap

/-!
# The law of the triangle: C242
-/

namespace Props.LawsTriangle

open Py Model MeasureTheory

theorem pdf_low {c x : ℝ} (hc1 : c ≤ 1) (hc : 0 < c) (h0 : 0 ≤ x) (h1 : x ≤ c) : triangPdf c x = 2 * x / c := by
  unfold triangPdf
  rw [if_pos ⟨h0, h1.trans hc1⟩]
  split
  · rfl
  · rename_i h
    have hx : x = c := le_antisymm h1 (not_lt.1 h)
    subst hx
    split
    · rename_i h2; rw [h2]; simp
    · rename_i h2
      have h3 : 1 - x ≠ 0 := fun h4 => h2 (by linarith)
      field_simp

theorem pdf_high {c x : ℝ} (hc0 : 0 ≤ c) (hc : c < 1) (h0 : c ≤ x) (h1 : x ≤ 1) : triangPdf c x = 2 * (1 - x) / (1 - c) := by
  unfold triangPdf
  rw [if_pos ⟨hc0.trans h0, h1⟩, if_neg (not_lt.2 h0), if_neg hc.ne]

theorem pdf_out {c x : ℝ} (h : ¬ (0 ≤ x ∧ x ≤ 1)) : triangPdf c x = 0 := by
  unfold triangPdf
  rw [if_neg h]

theorem pdf_bound {c : ℝ} (hc0 : 0 ≤ c) (hc1 : c ≤ 1) (x : ℝ) : 0 ≤ triangPdf c x ∧ triangPdf c x ≤ 2 := by
  by_cases hx : 0 ≤ x ∧ x ≤ 1
  · rcases lt_or_ge x c with h | h
    · have hc : 0 < c := lt_of_le_of_lt hx.1 h
      rw [pdf_low hc1 hc hx.1 h.le]
      refine ⟨div_nonneg (by linarith) hc.le, ?_⟩
      rw [div_le_iff₀ hc]; linarith
    · rcases eq_or_lt_of_le hc1 with h1 | h1
      · have hx1 : x = 1 := le_antisymm hx.2 (h1 ▸ h)
        subst hx1 h1
        unfold triangPdf
        norm_num
      · rw [pdf_high hc0 h1 h hx.2]
        have : 0 < 1 - c := by linarith
        refine ⟨div_nonneg (by linarith) this.le, ?_⟩
        rw [div_le_iff₀ this]; linarith
  · rw [pdf_out hx]; norm_num

theorem pdf_measurable (c : ℝ) : Measurable (triangPdf c) := by
  unfold triangPdf
  refine Measurable.ite ?_ (Measurable.ite ?_ ?_ (Measurable.ite ?_ ?_ ?_)) measurable_const
  · exact measurableSet_Icc
  · exact measurableSet_Iio
  · fun_prop
  · exact MeasurableSet.const _
  · fun_prop
  · fun_prop

theorem low_integral {c t : ℝ} (hc1 : c ≤ 1) (h0 : 0 ≤ t) (h1 : t ≤ c) :
    ∫ x in (0 : ℝ)..t, triangPdf c x = t ^ 2 / c := by
  rcases eq_or_lt_of_le (h0.trans h1) with hc | hc
  · have : t = 0 := le_antisymm (hc ▸ h1) h0
    subst this; simp
  · have e : ∫ x in (0 : ℝ)..t, triangPdf c x = ∫ x in (0 : ℝ)..t, 2 / c * x := by
      refine intervalIntegral.integral_congr (fun x hx => ?_)
      rw [Set.uIcc_of_le h0] at hx
      rw [pdf_low hc1 hc hx.1 (hx.2.trans h1)]; ring
    rw [e, intervalIntegral.integral_const_mul, integral_id]
    ring

theorem high_integral {c t : ℝ} (hc0 : 0 ≤ c) (h0 : c ≤ t) (h1 : t ≤ 1) :
    ∫ x in c..t, triangPdf c x = (1 - c) - (1 - t) ^ 2 / (1 - c) := by
  rcases eq_or_lt_of_le (h0.trans h1) with hc | hc
  · have : t = 1 := le_antisymm h1 (hc ▸ h0)
    subst this hc; simp
  · have hd : 1 - c ≠ 0 := by linarith
    have e : ∫ x in c..t, triangPdf c x = ∫ x in c..t, (2 / (1 - c) * 1 - 2 / (1 - c) * x) := by
      refine intervalIntegral.integral_congr (fun x hx => ?_)
      rw [Set.uIcc_of_le h0] at hx
      rw [pdf_high hc0 hc hx.1 (hx.2.trans h1)]; ring
    rw [e, intervalIntegral.integral_sub (f := fun _ => 2 / (1 - c) * 1) (g := fun x => 2 / (1 - c) * x) (by simp)
      (Continuous.intervalIntegrable (by fun_prop) _ _),
      intervalIntegral.integral_const_mul, intervalIntegral.integral_const_mul, integral_id]
    simp only [intervalIntegral.integral_const, smul_eq_mul, mul_one]
    field_simp
    ring

theorem low_moment {c : ℝ} (hc0 : 0 ≤ c) (hc1 : c ≤ 1) : ∫ x in (0 : ℝ)..c, x * triangPdf c x = 2 * c ^ 2 / 3 := by
  rcases eq_or_lt_of_le hc0 with hc | hc
  · subst hc; simp
  · have e : ∫ x in (0 : ℝ)..c, x * triangPdf c x = ∫ x in (0 : ℝ)..c, 2 / c * x ^ 2 := by
      refine intervalIntegral.integral_congr (fun x hx => ?_)
      rw [Set.uIcc_of_le hc0] at hx
      rw [pdf_low hc1 hc hx.1 hx.2]; ring
    rw [e, intervalIntegral.integral_const_mul, integral_pow]
    field_simp
    norm_num

theorem high_moment {c : ℝ} (hc0 : 0 ≤ c) (hc1 : c ≤ 1) :
    ∫ x in c..(1 : ℝ), x * triangPdf c x = (1 + c - 2 * c ^ 2) / 3 := by
  rcases eq_or_lt_of_le hc1 with hc | hc
  · subst hc; norm_num
  · have hd : 1 - c ≠ 0 := by linarith
    have e : ∫ x in c..(1 : ℝ), x * triangPdf c x = ∫ x in c..(1 : ℝ), (2 / (1 - c) * x - 2 / (1 - c) * x ^ 2) := by
      refine intervalIntegral.integral_congr (fun x hx => ?_)
      rw [Set.uIcc_of_le hc1] at hx
      rw [pdf_high hc0 hc hx.1 hx.2]; ring
    rw [e, intervalIntegral.integral_sub (f := fun x => 2 / (1 - c) * x) (g := fun x => 2 / (1 - c) * x ^ 2)
      (Continuous.intervalIntegrable (by fun_prop) _ _) (Continuous.intervalIntegrable (by fun_prop) _ _),
      intervalIntegral.integral_const_mul, intervalIntegral.integral_const_mul, integral_id, integral_pow]
    field_simp
    ring

theorem intervalIntegrable_pdf {c : ℝ} (hc0 : 0 ≤ c) (hc1 : c ≤ 1) (a b : ℝ) : IntervalIntegrable (triangPdf c) volume a b := by
  refine (intervalIntegrable_const (c := (2 : ℝ))).mono_fun (pdf_measurable c).aestronglyMeasurable ?_
  refine Filter.Eventually.of_forall (fun x => ?_)
  have := pdf_bound hc0 hc1 x
  show ‖triangPdf c x‖ ≤ ‖(2 : ℝ)‖
  rw [Real.norm_of_nonneg this.1]
  simpa using this.2

theorem intervalIntegrable_moment {c : ℝ} (hc0 : 0 ≤ c) (hc1 : c ≤ 1) (a b : ℝ) :
    IntervalIntegrable (fun x => x * triangPdf c x) volume a b :=
  (intervalIntegrable_pdf hc0 hc1 a b).continuousOn_mul continuousOn_id

/-- The distribution function of the standard form. -/
theorem standard_cdf {c t : ℝ} (hc0 : 0 ≤ c) (hc1 : c ≤ 1) (h0 : c ≤ t) (h1 : t ≤ 1) :
    ∫ x in (0 : ℝ)..t, triangPdf c x = 1 - (1 - t) ^ 2 / (1 - c) := by
  rw [← intervalIntegral.integral_add_adjacent_intervals (intervalIntegrable_pdf hc0 hc1 0 c)
    (intervalIntegrable_pdf hc0 hc1 c t), low_integral hc1 hc0 le_rfl, high_integral hc0 h0 h1]
  have : c ^ 2 / c = c := by
    rcases eq_or_ne c 0 with h | h
    · subst h; simp
    · field_simp
  rw [this]; ring

theorem standard_mean {c : ℝ} (hc0 : 0 ≤ c) (hc1 : c ≤ 1) : ∫ x in (0 : ℝ)..1, x * triangPdf c x = (1 + c) / 3 := by
  rw [← intervalIntegral.integral_add_adjacent_intervals (intervalIntegrable_moment hc0 hc1 0 c)
    (intervalIntegrable_moment hc0 hc1 c 1), low_moment hc0 hc1, high_moment hc0 hc1]
  ring

/-- What vanishes outside of the unit interval is integrated over it. -/
theorem integral_unit {f : ℝ → ℝ} {t : ℝ} (h0 : 0 ≤ t) (hf : ∀ x, ¬ (0 ≤ x ∧ x ≤ t) → f x = 0) :
    ∫ x, f x = ∫ x in (0 : ℝ)..t, f x := by
  rw [intervalIntegral.integral_of_le h0, ← integral_Icc_eq_integral_Ioc]
  refine (setIntegral_eq_integral_of_forall_compl_eq_zero (fun x hx => hf x hx)).symm

/-- Moved and stretched integrals. -/
theorem integral_place (h : ℝ → ℝ) {s : ℝ} (hs : 0 < s) (loc : ℝ) : ∫ x, h ((x - loc) / s) = s * ∫ y, h y := by
  rw [integral_sub_right_eq_self (fun x => h (x / s)) loc, Measure.integral_comp_div, abs_of_pos hs, smul_eq_mul]

/-- The law of what is drawn from a triangle: the measure with its density. -/
noncomputable def law (p : ℝ × ℝ × ℝ) : Measure ℝ := volume.withDensity (fun x => ENNReal.ofReal (trianglePdf p x))

theorem measurable_trianglePdf (p : ℝ × ℝ × ℝ) : Measurable (trianglePdf p) := by
  unfold trianglePdf
  exact ((pdf_measurable _).comp ((measurable_id.sub_const _).div_const _)).div_const _

theorem integrable_std {c : ℝ} (hc0 : 0 ≤ c) (hc1 : c ≤ 1) : Integrable (triangPdf c) := by
  have h := (intervalIntegrable_pdf hc0 hc1 0 1).1
  have h2 : IntegrableOn (triangPdf c) (Set.Icc 0 1) := by
    rw [integrableOn_Icc_iff_integrableOn_Ioc]; exact h
  refine (integrableOn_iff_integrable_of_support_subset (fun x hx => ?_)).1 h2
  by_contra hn
  exact hx (pdf_out hn)

theorem integrable_place {p : ℝ × ℝ × ℝ} (hs : 0 < p.2.1) (hc0 : 0 ≤ p.2.2) (hc1 : p.2.2 ≤ 1) :
    Integrable (trianglePdf p) := by
  unfold trianglePdf
  exact (((integrable_std hc0 hc1).comp_div hs.ne').comp_sub_right p.1).div_const _

theorem law_Iic {p : ℝ × ℝ × ℝ} (hs : 0 < p.2.1) (hc0 : 0 ≤ p.2.2) (hc1 : p.2.2 ≤ 1) {t : ℝ} (h0 : p.1 ≤ t)
    (h1 : t ≤ p.1 + p.2.1) : (law p).real (Set.Iic t) = ∫ x in (0 : ℝ)..((t - p.1) / p.2.1), triangPdf p.2.2 x := by
  have hn : ∀ x, 0 ≤ trianglePdf p x := fun x => div_nonneg (pdf_bound hc0 hc1 _).1 hs.le
  rw [law, measureReal_def, withDensity_apply _ measurableSet_Iic,
    ← ofReal_integral_eq_lintegral_ofReal (integrable_place hs hc0 hc1).integrableOn (Filter.Eventually.of_forall hn),
    ENNReal.toReal_ofReal (integral_nonneg hn), ← integral_indicator measurableSet_Iic]
  have e : (fun x => (Set.Iic t).indicator (trianglePdf p) x) = fun x =>
      (fun y => (Set.Iic ((t - p.1) / p.2.1)).indicator (triangPdf p.2.2) y / p.2.1) ((x - p.1) / p.2.1) := by
    funext x
    by_cases hx : x ≤ t
    · have : (x - p.1) / p.2.1 ≤ (t - p.1) / p.2.1 := div_le_div_of_nonneg_right (by linarith) hs.le
      simp only [Set.indicator, Set.mem_Iic, hx, this, if_true]
      rfl
    · have : ¬ (x - p.1) / p.2.1 ≤ (t - p.1) / p.2.1 := by
        rw [not_le]; exact div_lt_div_of_pos_right (by linarith) hs
      simp only [Set.indicator, Set.mem_Iic, hx, this, if_false, zero_div]
  rw [e, integral_place (fun y => (Set.Iic ((t - p.1) / p.2.1)).indicator (triangPdf p.2.2) y / p.2.1) hs p.1, integral_div,
    mul_div_cancel₀ _ hs.ne']
  have h2 : 0 ≤ (t - p.1) / p.2.1 := div_nonneg (by linarith) hs.le
  rw [integral_unit h2]
  · refine intervalIntegral.integral_congr (fun x hx => ?_)
    rw [Set.uIcc_of_le h2] at hx
    exact Set.indicator_of_mem (show x ∈ Set.Iic _ from hx.2) _
  · intro x hx
    by_cases hx2 : x ≤ (t - p.1) / p.2.1
    · rw [Set.indicator_of_mem (show x ∈ Set.Iic _ from hx2)]
      exact pdf_out (fun h4 => hx ⟨h4.1, hx2⟩)
    · exact Set.indicator_of_notMem (show x ∉ Set.Iic ((t - p.1) / p.2.1) from hx2) (triangPdf p.2.2)

theorem law_mean {p : ℝ × ℝ × ℝ} (hs : 0 < p.2.1) (hc0 : 0 ≤ p.2.2) (hc1 : p.2.2 ≤ 1) :
    ∫ x, x ∂(law p) = p.1 + p.2.1 * ((1 + p.2.2) / 3) := by
  have hn : ∀ x, 0 ≤ trianglePdf p x := fun x => div_nonneg (pdf_bound hc0 hc1 _).1 hs.le
  rw [law, integral_withDensity_eq_integral_toReal_smul (measurable_trianglePdf p).ennreal_ofReal (by simp)]
  have e : (fun x => (ENNReal.ofReal (trianglePdf p x)).toReal • x) = fun x =>
      (fun y => (p.1 + p.2.1 * y) * triangPdf p.2.2 y / p.2.1) ((x - p.1) / p.2.1) := by
    funext x
    simp only
    rw [ENNReal.toReal_ofReal (hn x), smul_eq_mul, mul_div_cancel₀ _ hs.ne', trianglePdf]
    ring
  rw [e, integral_place (fun y => (p.1 + p.2.1 * y) * triangPdf p.2.2 y / p.2.1) hs p.1, integral_div,
    mul_div_cancel₀ _ hs.ne', integral_unit (t := 1) zero_le_one]
  · have e2 : ∀ y, (p.1 + p.2.1 * y) * triangPdf p.2.2 y = p.1 * triangPdf p.2.2 y + p.2.1 * (y * triangPdf p.2.2 y) := by
      intro y; ring
    simp only [e2]
    rw [intervalIntegral.integral_add ((intervalIntegrable_pdf hc0 hc1 0 1).const_mul _)
      ((intervalIntegrable_moment hc0 hc1 0 1).const_mul _), intervalIntegral.integral_const_mul,
      intervalIntegral.integral_const_mul, standard_mean hc0 hc1, standard_cdf hc0 hc1 hc1 le_rfl]
    simp
  · intro x hx
    rw [pdf_out hx, mul_zero]

theorem law_univ {p : ℝ × ℝ × ℝ} (hs : 0 < p.2.1) (hc0 : 0 ≤ p.2.2) (hc1 : p.2.2 ≤ 1) : IsProbabilityMeasure (law p) := by
  have hn : ∀ x, 0 ≤ trianglePdf p x := fun x => div_nonneg (pdf_bound hc0 hc1 _).1 hs.le
  refine ⟨?_⟩
  rw [law, withDensity_apply _ MeasurableSet.univ, Measure.restrict_univ,
    ← ofReal_integral_eq_lintegral_ofReal (integrable_place hs hc0 hc1) (Filter.Eventually.of_forall hn)]
  have e : (fun x => trianglePdf p x) = fun x => (fun y => triangPdf p.2.2 y / p.2.1) ((x - p.1) / p.2.1) := rfl
  rw [e, integral_place (fun y => triangPdf p.2.2 y / p.2.1) hs p.1, integral_div, mul_div_cancel₀ _ hs.ne',
    integral_unit (t := 1) zero_le_one (fun x hx => pdf_out hx), standard_cdf hc0 hc1 hc1 le_rfl]
  simp

/-- **C242**: in whatever order the three numbers are given, unless they are all equal, the law has the distribution
function of the triangle over the smallest and the largest with its peak above the middle one, and their average as
mean. -/
theorem C242 {a m b : ℝ} (h : ¬ (a = m ∧ m = b)) :
    ∃ p lo mid hi, triangle a m b = .ok p ∧ List.Perm [lo, mid, hi] [a, m, b] ∧ lo ≤ mid ∧ mid ≤ hi ∧ lo < hi ∧
      IsProbabilityMeasure (law p) ∧
      (∀ t, lo ≤ t → t ≤ mid → (law p).real (Set.Iic t) = (t - lo) ^ 2 / ((hi - lo) * (mid - lo))) ∧
      (∀ t, mid ≤ t → t ≤ hi → (law p).real (Set.Iic t) = 1 - (hi - t) ^ 2 / ((hi - lo) * (hi - mid))) ∧
      ∫ x, x ∂(law p) = (a + m + b) / 3 := by
  rcases Props.Prob.C83_triangle a m b with ⟨h1, h2, -⟩ | ⟨loc, s, c, ht, hs, hc0, hc1, hp⟩
  · exact absurd ⟨h1, h2⟩ h
  refine ⟨(loc, s, c), loc, loc + c * s, loc + s, ht, hp, by nlinarith, by nlinarith, by linarith, ?_, ?_, ?_, ?_⟩
  · exact law_univ (p := (loc, s, c)) hs hc0 hc1
  · intro t h1 h2
    have h3 : (t - loc) / s ≤ c := by rw [div_le_iff₀ hs]; linarith
    rw [law_Iic (p := (loc, s, c)) hs hc0 hc1 h1 (by nlinarith),
      low_integral hc1 (div_nonneg (by linarith) hs.le) h3]
    simp only [add_sub_cancel_left]
    rw [div_pow, div_div]
    congr 1; ring
  · intro t h1 h2
    have h3 : c ≤ (t - loc) / s := by rw [le_div_iff₀ hs]; linarith
    rw [law_Iic (p := (loc, s, c)) hs hc0 hc1 (by nlinarith) h2,
      standard_cdf hc0 hc1 h3 (by rw [div_le_one hs]; linarith)]
    have e1 : 1 - (t - loc) / s = (loc + s - t) / s := by field_simp; ring
    simp only [e1, add_sub_cancel_left]
    rw [div_pow, div_div]
    congr 2; ring
  · rw [law_mean (p := (loc, s, c)) hs hc0 hc1]
    have hsum := hp.sum_eq
    simp only [List.sum_cons, List.sum_nil] at hsum
    simp only
    linarith

/-- The numbers of the example in the source, in another order. -/
example : ∃ p, triangle (5 : ℝ) 2 3 = .ok p ∧ ∫ x, x ∂(law p) = 10 / 3 := by
  obtain ⟨p, lo, mid, hi, h, -, -, -, -, -, -, -, hm⟩ := C242 (a := 5) (m := 2) (b := 3) (by norm_num)
  exact ⟨p, h, by rw [hm]; norm_num⟩

end Props.LawsTriangle
