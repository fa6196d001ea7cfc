import Verif.Props.Converter
import Verif.Props.Hme
import Verif.Spec.Chance
import Verif.Lemmas.ExpMeasure
import Mathlib.MeasureTheory.Constructions.BorelSpace.Order
import Mathlib.Probability.ConditionalProbability
import Mathlib.Probability.ProductMeasure

/-!
# The laws of converted uniform numbers, and of the points of history matching (C230-C232)
-/

namespace Props.LawsConverter

open Py Model Spec MeasureTheory ProbabilityTheory Set
open Props.Converter (Proper)

variable {N S D : Type}

/-- The law a domain stands for: uniform between two ends, exponential away from a single end, and Laplace without
ends. -/
noncomputable def lawOf (d : Dom N ℝ) : Measure ℝ :=
  match d.lower, d.upper, d.loc, d.scale with
  | .fin l, .fin u, _, _ => (ENNReal.ofReal (u - l))⁻¹ • volume.restrict (Icc l u)
  | .fin l, .pinf, _, .fin s => (expMeasure (1 / s)).map (fun x => l + x)
  | .ninf, .fin u, _, .fin s => (expMeasure (1 / s)).map (fun x => u - x)
  | .ninf, .pinf, .fin m, .fin s =>
    (2⁻¹ : ENNReal) • ((expMeasure (1 / s)).map (fun x => m + x) + (expMeasure (1 / s)).map (fun x => m - x))
  | _, _, _, _ => 0

/-! ## Cumulative distributions -/

theorem uniform01_eq : uniform01 = volume.restrict (Ioo 0 1) :=
  (Measure.restrict_congr_set Ioo_ae_eq_Ico).symm

theorem cdf_map {f : ℝ → ℝ} (hf : Measurable f) {t c : ℝ} (h0 : 0 ≤ c) (h1 : c ≤ 1)
    (h : ∀ u, 0 < u → u < 1 → (f u ≤ t ↔ u ≤ c)) : (uniform01.map f) (Iic t) = ENNReal.ofReal c := by
  rw [Measure.map_apply hf measurableSet_Iic, uniform01_eq, Measure.restrict_apply (hf measurableSet_Iic)]
  have h2 : (f ⁻¹' Iic t ∩ Ioo 0 1 : Set ℝ) =ᵐ[volume] (Ioc 0 c : Set ℝ) := by
    have h3 : f ⁻¹' Iic t ∩ Ioo 0 1 = Ioc 0 c ∩ Iio 1 := by
      ext u
      simp only [mem_inter_iff, mem_preimage, mem_Iic, mem_Ioo, mem_Ioc, mem_Iio]
      constructor
      · rintro ⟨a, b, e⟩; exact ⟨⟨b, (h u b e).1 a⟩, e⟩
      · rintro ⟨⟨a, b⟩, e⟩; exact ⟨(h u a e).2 b, a, e⟩
    rw [h3]
    have h4 : (Ioc 0 c ∩ Iio 1 : Set ℝ) =ᵐ[volume] (Ioc 0 c ∩ Iic 1 : Set ℝ) := (ae_eq_refl _).inter Iio_ae_eq_Iic
    have h5 : (Ioc 0 c ∩ Iic 1 : Set ℝ) = Ioc 0 c := inter_eq_left.2 (fun u hu => hu.2.trans h1)
    rwa [h5] at h4
  rw [measure_congr h2, Real.volume_Ioc, sub_zero]

theorem exp_Iic {s : ℝ} (hs : 0 < s) (x : ℝ) :
    (expMeasure (1 / s)) (Iic x) = ENNReal.ofReal (if 0 ≤ x then 1 - Real.exp (-(x / s)) else 0) := by
  have hr : 0 < 1 / s := by positivity
  have := isProbabilityMeasure_expMeasure hr
  have h := cdf_expMeasure_eq hr x
  rw [cdf_eq_real] at h
  rw [← ENNReal.ofReal_toReal (measure_ne_top _ _), ← Measure.real, h]
  congr 2
  ring_nf

theorem exp_Ici {s : ℝ} (hs : 0 < s) (x : ℝ) :
    (expMeasure (1 / s)) (Ici x) = ENNReal.ofReal (if 0 ≤ x then Real.exp (-(x / s)) else 1) := by
  have hr : 0 < 1 / s := by positivity
  have := isProbabilityMeasure_expMeasure hr
  have hna : NullSingletonClass (expMeasure (1 / s)) := by
    rw [show expMeasure (1 / s) = volume.withDensity (exponentialPDF (1 / s)) from rfl]
    infer_instance
  rw [← measure_congr (Ioi_ae_eq_Ici (μ := expMeasure (1 / s)) (a := x)), ← compl_Iic, prob_compl_eq_one_sub measurableSet_Iic, exp_Iic hs]
  split
  · rename_i h
    rw [← ENNReal.ofReal_one, ← ENNReal.ofReal_sub _ (by
      have : Real.exp (-(x / s)) ≤ 1 := Real.exp_le_one_iff.2 (by have : 0 ≤ x / s := by positivity
                                                                  linarith)
      linarith)]
    congr 1; ring
  · simp

/-! ## The four converters -/

/-- What a uniform number is converted to, as a real number. -/
noncomputable def real (c : Converter) (u : ℝ) : ℝ := toReal (c.uniform2value (.fin u))

theorem law_FF {l u : ℝ} (h : l < u) {f : ℝ → ℝ} (hf : Measurable f) (he : ∀ x, 0 < x → x < 1 → f x = x * (u - l) + l) :
    uniform01.map f = (ENNReal.ofReal (u - l))⁻¹ • volume.restrict (Icc l u) := by
  have hp : 0 < u - l := by linarith
  have : IsFiniteMeasure (uniform01.map f) := inferInstance
  refine Measure.ext_of_Iic _ _ (fun t => ?_)
  rw [cdf_map hf (c := max 0 (min 1 ((t - l) / (u - l)))) (le_max_left _ _) (max_le zero_le_one (min_le_left _ _)) (fun x h0 h1 => by
    rw [he x h0 h1, le_max_iff, le_min_iff, le_div_iff₀ hp]
    constructor
    · intro h; exact .inr ⟨h1.le, by linarith⟩
    · rintro (h | ⟨-, h⟩) <;> linarith)]
  rw [Measure.smul_apply, Measure.restrict_apply measurableSet_Iic, Set.inter_comm, show Icc l u ∩ Iic t = Icc l (min u t) by
    ext x; simp only [mem_inter_iff, mem_Icc, mem_Iic, le_min_iff]; tauto, Real.volume_Icc, smul_eq_mul,
    ← ENNReal.ofReal_inv_of_pos hp, ← ENNReal.ofReal_mul (by positivity)]
  have e : (u - l)⁻¹ * (min u t - l) = min 1 ((t - l) / (u - l)) := by
    rw [← min_sub_sub_right, mul_min_of_nonneg _ _ (by positivity), inv_mul_cancel₀ hp.ne', inv_mul_eq_div]
  rw [e]
  rcases le_total 0 (min 1 ((t - l) / (u - l))) with h0 | h0
  · rw [max_eq_right h0]
  · rw [max_eq_left h0, ENNReal.ofReal_of_nonpos h0, ENNReal.ofReal_zero]

theorem law_FI {l s : ℝ} (hs : 0 < s) {f : ℝ → ℝ} (hf : Measurable f) (he : ∀ x, 0 < x → x < 1 → f x = -Real.log (1 - x) * s + l) :
    uniform01.map f = (expMeasure (1 / s)).map (fun x => l + x) := by
  have hr : 0 < 1 / s := by positivity
  have := isProbabilityMeasure_expMeasure hr
  refine Measure.ext_of_Iic _ _ (fun t => ?_)
  rw [Measure.map_apply (f := fun x => l + x) (by fun_prop) measurableSet_Iic, show (fun x => l + x) ⁻¹' Iic t = Iic (t - l) by
    ext x; simp only [mem_preimage, mem_Iic]; constructor <;> intro h <;> linarith, exp_Iic hs]
  have hb : 0 ≤ t - l → Real.exp (-((t - l) / s)) ≤ 1 := fun h => Real.exp_le_one_iff.2 (by
    have : 0 ≤ (t - l) / s := by positivity
    linarith)
  have hc : 0 ≤ (if 0 ≤ t - l then 1 - Real.exp (-((t - l) / s)) else 0) ∧
      (if 0 ≤ t - l then 1 - Real.exp (-((t - l) / s)) else 0) ≤ 1 := by
    split
    · have := hb ‹_›
      exact ⟨by linarith, by linarith [Real.exp_pos (-((t - l) / s))]⟩
    · exact ⟨le_rfl, zero_le_one⟩
  refine cdf_map hf hc.1 hc.2 (fun x h0 h1 => ?_)
  rw [he x h0 h1]
  have hx : 0 < 1 - x := by linarith
  have key : -Real.log (1 - x) * s + l ≤ t ↔ Real.exp (-((t - l) / s)) ≤ 1 - x := by
    rw [← Real.le_log_iff_exp_le hx, neg_le, le_div_iff₀ hs]
    constructor <;> intro h <;> linarith
  rw [key]
  split
  · constructor <;> intro h <;> linarith
  · rename_i h
    have h2 : 1 < Real.exp (-((t - l) / s)) := Real.one_lt_exp_iff.2 (by
      have : (t - l) / s < 0 := div_neg_of_neg_of_pos (by linarith) hs
      linarith)
    constructor <;> intro h <;> linarith

theorem law_IF {u s : ℝ} (hs : 0 < s) {f : ℝ → ℝ} (hf : Measurable f) (he : ∀ x, 0 < x → x < 1 → f x = Real.log x * s + u) :
    uniform01.map f = (expMeasure (1 / s)).map (fun x => u - x) := by
  have hr : 0 < 1 / s := by positivity
  have := isProbabilityMeasure_expMeasure hr
  refine Measure.ext_of_Iic _ _ (fun t => ?_)
  rw [Measure.map_apply (f := fun x => u - x) (by fun_prop) measurableSet_Iic, show (fun x => u - x) ⁻¹' Iic t = Ici (u - t) by
    ext x; simp only [mem_preimage, mem_Iic, mem_Ici]; constructor <;> intro h <;> linarith, exp_Ici hs]
  have hb : 0 ≤ u - t → Real.exp (-((u - t) / s)) ≤ 1 := fun h => Real.exp_le_one_iff.2 (by
    have : 0 ≤ (u - t) / s := by positivity
    linarith)
  have hc : 0 ≤ (if 0 ≤ u - t then Real.exp (-((u - t) / s)) else 1) ∧
      (if 0 ≤ u - t then Real.exp (-((u - t) / s)) else 1) ≤ 1 := by
    split
    · exact ⟨by positivity, hb ‹_›⟩
    · exact ⟨zero_le_one, le_rfl⟩
  refine cdf_map hf hc.1 hc.2 (fun x h0 h1 => ?_)
  rw [he x h0 h1]
  have key : Real.log x * s + u ≤ t ↔ x ≤ Real.exp (-((u - t) / s)) := by
    rw [← Real.log_le_iff_le_exp h0, ← neg_div, le_div_iff₀ hs]
    constructor <;> intro h <;> linarith
  rw [key]
  split
  · rfl
  · rename_i h
    have h2 : 1 < Real.exp (-((u - t) / s)) := Real.one_lt_exp_iff.2 (by
      have : (u - t) / s < 0 := div_neg_of_neg_of_pos (by linarith) hs
      linarith)
    constructor <;> intro h <;> linarith

theorem law_II {m s : ℝ} (hs : 0 < s) {f : ℝ → ℝ} (hf : Measurable f)
    (hhi : ∀ x, 1 / 2 ≤ x → x < 1 → f x = -Real.log (2 * (1 - x)) * s + m)
    (hlo : ∀ x, 0 < x → x ≤ 1 / 2 → f x = Real.log (2 * x) * s + m) :
    uniform01.map f =
      (2⁻¹ : ENNReal) • ((expMeasure (1 / s)).map (fun x => m + x) + (expMeasure (1 / s)).map (fun x => m - x)) := by
  have hr : 0 < 1 / s := by positivity
  have := isProbabilityMeasure_expMeasure hr
  refine Measure.ext_of_Iic _ _ (fun t => ?_)
  rw [Measure.smul_apply, Measure.add_apply, Measure.map_apply (f := fun x => m + x) (by fun_prop) measurableSet_Iic,
    Measure.map_apply (f := fun x => m - x) (by fun_prop) measurableSet_Iic, show (fun x => m + x) ⁻¹' Iic t = Iic (t - m) by
    ext x; simp only [mem_preimage, mem_Iic]; constructor <;> intro h <;> linarith,
    show (fun x => m - x) ⁻¹' Iic t = Ici (m - t) by
    ext x; simp only [mem_preimage, mem_Iic, mem_Ici]; constructor <;> intro h <;> linarith, exp_Iic hs, exp_Ici hs]
  rw [smul_eq_mul, show (2⁻¹ : ENNReal) = ENNReal.ofReal 2⁻¹ by
    rw [ENNReal.ofReal_inv_of_pos (by norm_num)]; norm_num]
  have hb : ∀ y : ℝ, 0 ≤ y → Real.exp (-(y / s)) ≤ 1 := fun y h => Real.exp_le_one_iff.2 (by
    have : 0 ≤ y / s := by positivity
    linarith)
  rcases lt_or_ge m t with hmt | hmt
  · rw [if_pos (by linarith), if_neg (by linarith), ← ENNReal.ofReal_add (by linarith [hb (t - m) (by linarith)]) zero_le_one,
      ← ENNReal.ofReal_mul (by norm_num)]
    have h1 := hb (t - m) (by linarith)
    refine cdf_map hf (by linarith) (by linarith [Real.exp_pos (-((t - m) / s))]) (fun x hx0 hx1 => ?_)
    rcases le_total (1 / 2) x with hx | hx
    · rw [hhi x hx hx1]
      have hp : 0 < 2 * (1 - x) := by linarith
      have key : -Real.log (2 * (1 - x)) * s + m ≤ t ↔ Real.exp (-((t - m) / s)) ≤ 2 * (1 - x) := by
        rw [← Real.le_log_iff_exp_le hp, neg_le, le_div_iff₀ hs]
        constructor <;> intro h <;> linarith
      rw [key]
      constructor <;> intro h <;> linarith
    · rw [hlo x hx0 hx]
      have h2 : Real.log (2 * x) ≤ 0 := Real.log_nonpos (by linarith) (by linarith)
      constructor
      · intro; linarith
      · intro
        have : Real.log (2 * x) * s ≤ 0 := mul_nonpos_of_nonpos_of_nonneg h2 hs.le
        linarith
  · have h1 := hb (m - t) (by linarith)
    have hz : ENNReal.ofReal (if 0 ≤ t - m then 1 - Real.exp (-((t - m) / s)) else 0) = 0 := by
      split
      · rw [show t - m = 0 by linarith]; simp
      · simp
    rw [hz, zero_add, if_pos (by linarith), ← ENNReal.ofReal_mul (by norm_num)]
    refine cdf_map hf (by positivity) (by linarith) (fun x hx0 hx1 => ?_)
    rcases le_total x (1 / 2) with hx | hx
    · rw [hlo x hx0 hx]
      have hp : 0 < 2 * x := by linarith
      have key : Real.log (2 * x) * s + m ≤ t ↔ 2 * x ≤ Real.exp (-((m - t) / s)) := by
        rw [← Real.log_le_iff_le_exp hp, ← neg_div, le_div_iff₀ hs]
        constructor <;> intro h <;> linarith
      rw [key]
      constructor <;> intro h <;> linarith
    · rw [hhi x hx hx1]
      have hl : Real.log (2 * (1 - x)) ≤ 0 := Real.log_nonpos (by linarith) (by linarith)
      have hl2 : 0 ≤ -Real.log (2 * (1 - x)) * s := mul_nonneg (by linarith) hs.le
      rcases hx.lt_or_eq with hx' | hx'
      · have hl3 : 0 < -Real.log (2 * (1 - x)) * s := mul_pos (by
          have := Real.log_neg (show 0 < 2 * (1 - x) by linarith) (by linarith)
          linarith) hs
        constructor
        · intro; linarith
        · intro; linarith
      · subst hx'
        rw [show -Real.log (2 * (1 - 1 / 2)) * s + m = m by norm_num]
        constructor
        · intro h
          have : m = t := le_antisymm h hmt
          subst this
          norm_num
        · intro h
          by_contra hlt
          have : Real.exp (-((m - t) / s)) < 1 := Real.exp_lt_one_iff.2 (by
            have : 0 < (m - t) / s := div_pos (by linarith) hs
            linarith)
          linarith

/-! ## C230 -/

/-- What the converter of a domain makes of numbers inside the unit interval, and the law of what it makes. -/
theorem shape {d : Dom N ℝ} (h : Proper d) : ∃ f : ℝ → ℝ, Measurable f ∧
    (∀ x, 0 < x → x < 1 → (getConverter d).uniform2value (.fin x) = .fin (f x)) ∧ uniform01.map f = lawOf d := by
  obtain ⟨m', hm'⟩ := h.loc
  obtain ⟨s', hs', hsc'⟩ := h.scale
  rcases h.shapes with ⟨l, u, hlu, hl, hu, hc⟩ | ⟨l, s, hs, hl, hu, hc⟩ | ⟨u, s, hs, hl, hu, hc⟩ | ⟨s, m, hs, hl, hu, hc⟩
  · have hm : Measurable (fun x : ℝ => x * (u - l) + l) := by fun_prop
    refine ⟨_, hm, fun x _ _ => ?_, ?_⟩
    · rw [hc, Props.Converter.ff_u2v]
    · rw [law_FF hlu hm (fun x _ _ => rfl)]
      simp only [lawOf, hl, hu]
  · have hm : Measurable (fun x : ℝ => -Real.log (1 - x) * s + l) := by fun_prop
    refine ⟨_, hm, fun x _ h1 => ?_, ?_⟩
    · rw [hc, Props.Converter.fi_u2v _ _ h1]
    · rw [law_FI hs hm (fun x _ _ => rfl)]
      have : d.scale = .fin s := by
        have h1 : getConverter d = .FI d.lower d.scale := by simp [getConverter, hl, hu, XR.isInf]
        rw [hc, Converter.FI.injEq] at h1
        exact h1.2.symm
      simp only [lawOf, hl, hu, this]
  · have hm : Measurable (fun x : ℝ => Real.log x * s + u) := by fun_prop
    refine ⟨_, hm, fun x h0 _ => ?_, ?_⟩
    · rw [hc, Props.Converter.if_u2v _ _ h0]
    · rw [law_IF hs hm (fun x _ _ => rfl)]
      have : d.scale = .fin s := by
        have h1 : getConverter d = .IF d.upper d.scale := by simp [getConverter, hl, hu, XR.isInf]
        rw [hc, Converter.IF.injEq] at h1
        exact h1.2.symm
      simp only [lawOf, hl, hu, this]
  · have hm : Measurable (fun x : ℝ => if x ≤ 1 / 2 then Real.log (2 * x) * s + m else -Real.log (2 * (1 - x)) * s + m) :=
      Measurable.ite measurableSet_Iic (by fun_prop) (by fun_prop)
    refine ⟨_, hm, fun x h0 h1 => ?_, ?_⟩
    · rw [hc]
      split
      · rw [Props.Converter.ii_u2v_lo _ _ ‹_› h0]
      · rw [Props.Converter.ii_u2v_hi _ _ (by linarith) h1]
    · rw [law_II hs hm (fun x hx _ => by
        split
        · have : x = 1 / 2 := by linarith
          subst this; norm_num
        · rfl) (fun x _ hx => if_pos hx)]
      have h1 : getConverter d = .II d.scale d.loc := by simp [getConverter, hl, hu, XR.isInf]
      rw [hc, Converter.II.injEq] at h1
      simp only [lawOf, hl, hu, ← h1.1, ← h1.2]

/-- **C230**: a uniform number that is converted falls into a set with the probability of the set under the law the
domain stands for: the uniform law between finite ends, the exponential law away from a single end, the Laplace law
without ends. -/
theorem C230 {d : Dom N ℝ} (h : Proper d) {A : Set ℝ} (hA : MeasurableSet A) :
    uniform01 {u | ∃ v ∈ A, (getConverter d).uniform2value (.fin u) = .fin v} = lawOf d A := by
  obtain ⟨f, hf, he, hl⟩ := shape h
  rw [← hl, Measure.map_apply hf hA, uniform01_eq, Measure.restrict_apply' measurableSet_Ioo, Measure.restrict_apply' measurableSet_Ioo]
  congr 1
  ext u
  simp only [mem_inter_iff, mem_ofPred_eq, mem_preimage, mem_Ioo]
  constructor
  · rintro ⟨⟨v, hv, h1⟩, h0, h2⟩
    rw [he u h0 h2, XR.fin.injEq] at h1
    exact ⟨h1 ▸ hv, h0, h2⟩
  · rintro ⟨hv, h0, h2⟩
    exact ⟨⟨_, hv, he u h0 h2⟩, h0, h2⟩

/-- The laws of domains are probabilities, so a converted uniform number is almost surely finite. -/
theorem lawOf_prob {d : Dom N ℝ} (h : Proper d) : IsProbabilityMeasure (lawOf d) := by
  obtain ⟨f, hf, -, hl⟩ := shape h
  rw [← hl]
  exact Measure.isProbabilityMeasure_map hf.aemeasurable

/-! ## Uniform numbers between bounds -/

/-- The values between two bounds. -/
def between (a b : XR ℝ) : Set ℝ := {v | XR.le a (.fin v) = true ∧ XR.le (.fin v) b = true}

theorem between_meas (a b : XR ℝ) : MeasurableSet (between a b) := by
  refine Set.OrdConnected.measurableSet ⟨?_⟩
  rintro x ⟨hx, -⟩ y ⟨-, hy⟩ z ⟨h1, h2⟩
  constructor
  · cases a <;> simp [XR.le] at hx ⊢
    exact hx.trans h1
  · cases b <;> simp [XR.le] at hy ⊢
    exact h2.trans hy

theorem between_iff [DecidableEq N] {d : Dom N ℝ} (h : Proper d) {lo up x v : ℝ} (h0 : 0 ≤ lo) (h1 : up ≤ 1) (hlu : lo < up) (hx0 : 0 < x) (hx1 : x < 1)
    (hv : (getConverter d).uniform2value (.fin x) = .fin v) :
    v ∈ between ((getConverter d).uniform2value (.fin lo)) ((getConverter d).uniform2value (.fin up)) ↔ lo ≤ x ∧ x ≤ up := by
  unfold between
  rw [mem_ofPred_eq, ← hv]
  have hi : ∀ y : ℝ, 0 ≤ y → y ≤ 1 → Props.Converter.InUnit (.fin y) := fun y a b => (Props.Converter.inUnit_iff _).2 ⟨y, rfl, a, b⟩
  constructor
  · rintro ⟨a, b⟩
    constructor
    · by_contra hc
      have := Props.Converter.C57_value h (hi x hx0.le hx1.le) (hi lo h0 (by linarith)) (by simpa using hc)
      rw [hv] at this a
      generalize (getConverter d).uniform2value (.fin lo) = z at this a
      cases z <;> simp [XR.lt, XR.le] at this a
      linarith
    · by_contra hc
      have := Props.Converter.C57_value h (hi up (by linarith) h1) (hi x hx0.le hx1.le) (by simpa using hc)
      rw [hv] at this b
      generalize (getConverter d).uniform2value (.fin up) = z at this b
      cases z <;> simp [XR.lt, XR.le] at this b
      linarith
  · rintro ⟨a, b⟩
    exact ⟨Props.Hme.C100_converters h h0 a hx1.le, Props.Hme.C100_converters h hx0.le b h1⟩

/-- A uniform number, stretched to the bounds and converted, has the law of the domain between the values of the
bounds. -/
theorem truncated [DecidableEq N] {d : Dom N ℝ} (h : Proper d) {lo up : ℝ} (h0 : 0 ≤ lo) (h1 : up ≤ 1) (hlu : lo < up) {A : Set ℝ} (hA : MeasurableSet A) :
    MeasurableSet ({u | ∃ v ∈ A, (getConverter d).uniform2value (.fin (lo + u * (up - lo))) = .fin v} ∩ Icc 0 1) ∧
    uniform01 ({u | ∃ v ∈ A, (getConverter d).uniform2value (.fin (lo + u * (up - lo))) = .fin v} ∩ Icc 0 1) =
      (lawOf d)[A | between ((getConverter d).uniform2value (.fin lo)) ((getConverter d).uniform2value (.fin up))] := by
  obtain ⟨f, hf, he, hl⟩ := shape h
  have hc : 0 < up - lo := by linarith
  have hin : ∀ u : ℝ, 0 < u → u < 1 → lo < lo + u * (up - lo) ∧ lo + u * (up - lo) < up := fun u a b => by
    have := mul_pos a hc
    have : u * (up - lo) < 1 * (up - lo) := mul_lt_mul_of_pos_right b hc
    exact ⟨by linarith, by linarith⟩
  have hout : ∀ u : ℝ, lo < lo + u * (up - lo) → lo + u * (up - lo) < up → 0 < u ∧ u < 1 := fun u a b => by
    constructor
    · by_contra hu
      have := mul_nonpos_of_nonpos_of_nonneg (not_lt.1 hu) hc.le
      linarith
    · by_contra hu
      have : 1 * (up - lo) ≤ u * (up - lo) := mul_le_mul_of_nonneg_right (not_lt.1 hu) hc.le
      linarith
  have hset : {u | ∃ v ∈ A, (getConverter d).uniform2value (.fin (lo + u * (up - lo))) = .fin v} ∩ Ioo 0 1 =
      (fun u => u * (up - lo)) ⁻¹' ((fun x => lo + x) ⁻¹' (f ⁻¹' A ∩ Ioo lo up)) := by
    ext u
    simp only [mem_inter_iff, mem_ofPred_eq, mem_preimage, mem_Ioo]
    constructor
    · rintro ⟨⟨v, hv, e⟩, a, b⟩
      obtain ⟨c1, c2⟩ := hin u a b
      rw [he _ (by linarith) (by linarith), XR.fin.injEq] at e
      exact ⟨e ▸ hv, c1, c2⟩
    · rintro ⟨hv, c1, c2⟩
      exact ⟨⟨_, hv, he _ (by linarith) (by linarith)⟩, hout u c1 c2⟩
  have hms : MeasurableSet (f ⁻¹' A ∩ Ioo lo up) := (hf hA).inter measurableSet_Ioo
  have hB : ∀ A', MeasurableSet A' → lawOf d (between ((getConverter d).uniform2value (.fin lo)) ((getConverter d).uniform2value (.fin up)) ∩ A') =
      volume (f ⁻¹' A' ∩ Ioo lo up) := fun A' hA' => by
    rw [← hl, Measure.map_apply hf ((between_meas _ _).inter hA'), uniform01_eq, Measure.restrict_apply' measurableSet_Ioo]
    have e1 : f ⁻¹' (between ((getConverter d).uniform2value (.fin lo)) ((getConverter d).uniform2value (.fin up)) ∩ A') ∩ Ioo 0 1 =
        (f ⁻¹' A' ∩ Ioo 0 1) ∩ Icc lo up := by
      ext x
      simp only [mem_inter_iff, mem_preimage, mem_Ioo, mem_Icc]
      constructor
      · rintro ⟨⟨a, b⟩, c1, c2⟩
        exact ⟨⟨b, c1, c2⟩, (between_iff h h0 h1 hlu c1 c2 (he x c1 c2)).1 a⟩
      · rintro ⟨⟨b, c1, c2⟩, a⟩
        exact ⟨⟨(between_iff h h0 h1 hlu c1 c2 (he x c1 c2)).2 a, b⟩, c1, c2⟩
    have e2 : ((f ⁻¹' A' ∩ Ioo 0 1) ∩ Icc lo up : Set ℝ) =ᵐ[volume] ((f ⁻¹' A' ∩ Ioo 0 1) ∩ Ioo lo up : Set ℝ) :=
      (ae_eq_refl _).inter Ioo_ae_eq_Icc.symm
    rw [e1, measure_congr e2, inter_assoc, inter_eq_right.2 (Ioo_subset_Ioo h0 h1)]
  constructor
  · have e : {u | ∃ v ∈ A, (getConverter d).uniform2value (.fin (lo + u * (up - lo))) = .fin v} ∩ Icc 0 1 =
        ({u | ∃ v ∈ A, (getConverter d).uniform2value (.fin (lo + u * (up - lo))) = .fin v} ∩ Ioo 0 1) ∪
        ({u | ∃ v ∈ A, (getConverter d).uniform2value (.fin (lo + u * (up - lo))) = .fin v} ∩ {0, 1}) := by
      rw [← inter_union_distrib_left, Ioo_union_both zero_le_one]
    rw [e, hset]
    refine MeasurableSet.union ?_ ?_
    · exact (by fun_prop : Measurable (fun u : ℝ => u * (up - lo))) ((by fun_prop : Measurable (fun x : ℝ => lo + x)) hms)
    · exact ((Set.toFinite {(0 : ℝ), 1}).subset inter_subset_right).measurableSet
  · rw [cond_apply (between_meas _ _), hB A hA]
    have hB1 := hB univ MeasurableSet.univ
    rw [inter_univ, preimage_univ, univ_inter, Real.volume_Ioo] at hB1
    rw [hB1, uniform01_eq, Measure.restrict_apply' measurableSet_Ioo, inter_assoc, inter_eq_right.2 Ioo_subset_Icc_self, hset,
      Real.volume_preimage_mul_right hc.ne', measure_preimage_add, ← ENNReal.ofReal_inv_of_pos hc, abs_of_pos (inv_pos.2 hc)]

/-! ## C231 -/

/-- `rd.random((n, p))` is ideal: the table has its shape, and its entries are independent and uniform. -/
structure Ideal [MeasurableSpace S] (μ : Measure S) (random : Nat → Nat → S → List (List ℝ) × S) : Prop where
  shape : ∀ n p s, (random n p s).1.length = n ∧ ∀ us ∈ (random n p s).1, us.length = p ∧ ∀ u ∈ us, 0 ≤ u ∧ u ≤ 1
  law : ∀ (p : Nat) (As : List (List (Set ℝ))), (∀ r ∈ As, r.length = p ∧ ∀ A ∈ r, MeasurableSet A) →
    μ {s | List.Forall₂ (List.Forall₂ (fun u A => u ∈ A)) (random As.length p s).1 As} =
      (As.map (fun r => (r.map uniform01).prod)).prod

/-- A parameter of a state: its domain and the bounds of its number. -/
abbrev Dim (N : Type) := Dom N ℝ × ℝ × ℝ

/-- What the converter of a parameter makes of a number. -/
noncomputable def conv (q : Dim N) (x : ℝ) : XR ℝ := (getConverter q.1).uniform2value (.fin x)

/-- The law of a parameter between its bounds. -/
noncomputable def boundedLaw (q : Dim N) : Measure ℝ := (lawOf q.1)[|between (conv q q.2.1) (conv q q.2.2)]

theorem place_eq (qs : List (Dim N)) (us : List ℝ) :
    Hme.place (qs.map (·.2.1)) (qs.map (·.2.2)) us = List.zipWith (fun q u => q.2.1 + u * (q.2.2 - q.2.1)) qs us := by
  unfold Hme.place
  induction qs generalizing us with
  | nil => simp
  | cons q qs ih => cases us with
    | nil => simp
    | cons u us =>
      simp only [List.map_cons, List.zip_cons_cons, List.zipWith_cons_cons]
      rw [ih]

theorem mapM_total {A B : Type} {f : A → Result B} : ∀ {l : List A}, (∀ a ∈ l, ∃ b, f a = .ok b) → ∃ bs, l.mapM f = .ok bs
  | [], _ => ⟨[], rfl⟩
  | a :: l, h => by
    obtain ⟨b, hb⟩ := h a (List.mem_cons_self ..)
    obtain ⟨bs, hbs⟩ := mapM_total (fun a' ha' => h a' (List.mem_cons_of_mem _ ha'))
    exact ⟨b :: bs, by rw [List.mapM_cons, hb, hbs]; rfl⟩

theorem forall₂_mem_imp {A B : Type} {R R' : A → B → Prop} {l : List A} {l' : List B} (h : List.Forall₂ R l l')
    (hi : ∀ a b, a ∈ l → b ∈ l' → R a b → R' a b) : List.Forall₂ R' l l' := by
  induction h with
  | nil => exact .nil
  | cons h1 _ ih =>
    exact .cons (hi _ _ (List.mem_cons_self ..) (List.mem_cons_self ..) h1)
      (ih (fun a b ha hb => hi a b (List.mem_cons_of_mem _ ha) (List.mem_cons_of_mem _ hb)))

variable [DecidableEq N]

theorem simulateOne_total {env : HmeEnv S N ℝ D} (hnd : (env.doms.map (·.1)).Nodup) {xs : List ℝ} (hl : xs.length = env.doms.length)
    (hs : ∀ pars s, ∃ sims s', env.simulate pars s = (.ok sims, s') ∧ ∀ k ∈ env.data.keys, k ∈ sims.keys) (s : S) :
    ∃ r s', Hme.simulateOne env xs s = some (.ok r, s') := by
  obtain ⟨sims, s', h1, h2⟩ := hs (Hme.parsOf env.doms xs) s
  have h3 : ∃ vs, Hme.flatXs env.doms (Hme.parsOf env.doms xs) = .ok vs := by
    refine mapM_total (fun d hd => ?_)
    obtain ⟨i, hi, rfl⟩ := List.getElem_of_mem hd
    rw [Props.Hme.parsOf_get hnd hl (List.getElem?_eq_getElem hi) (List.getElem?_eq_getElem (by rw [hl]; exact hi))]
    exact ⟨_, rfl⟩
  have h4 : ∃ ys, Hme.flatYs env.data sims = .ok ys := by
    refine mapM_total (fun k hk => ?_)
    obtain ⟨v, hv⟩ := (Dict.mem_keys_iff_exists _ _).1 (h2 k hk)
    rw [hv]
    exact ⟨_, rfl⟩
  obtain ⟨vs, h3⟩ := h3
  obtain ⟨ys, h4⟩ := h4
  refine ⟨_, s', Run.bind_ok.2 ⟨sims, s', ?_, Run.bind_ok.2 ⟨vs, s', Run.ofResult_ok.2 ⟨h3, rfl⟩, Run.bind_ok.2 ⟨ys, s', Run.ofResult_ok.2 ⟨h4, rfl⟩, Run.pure_ok.2 ⟨rfl, rfl⟩⟩⟩⟩⟩
  exact Run.lift_ok.2 h1

theorem each_total {α β : Type} {f : α → Run S β} : ∀ {l : List α}, (∀ a ∈ l, ∀ s, ∃ r s', f a s = some (.ok r, s')) → ∀ s,
    ∃ rs s', Run.each f l s = some (.ok rs, s')
  | [], _, s => ⟨[], s, rfl⟩
  | a :: l, h, s => by
    obtain ⟨r, s1, h1⟩ := h a (List.mem_cons_self ..) s
    obtain ⟨rs, s2, h2⟩ := each_total (fun b hb => h b (List.mem_cons_of_mem _ hb)) s1
    exact ⟨r :: rs, s2, Run.bind_ok.2 ⟨r, s1, h1, Run.bind_ok.2 ⟨rs, s2, h2, Run.pure_ok.2 ⟨rfl, rfl⟩⟩⟩⟩

/-- The parameters of a posterior. -/
theorem posterior_iff {env : HmeEnv S N ℝ D} {set : HmeSettings ℝ} {st : HmeState N ℝ} {qs : List (Dim N)}
    (hd : env.doms = qs.map (fun q => (q.1.name, conv q))) (hnd : (qs.map (·.1.name)).Nodup) (hn : set.nPars = qs.length)
    (hlo : st.lower = qs.map (·.2.1)) (hup : st.upper = qs.map (·.2.2))
    (hs : ∀ pars s, ∃ sims s', env.simulate pars s = (.ok sims, s') ∧ ∀ k ∈ env.data.keys, k ∈ sims.keys)
    {n : Nat} {s : S} (hsh : ∀ us ∈ (env.random n set.nPars s).1, us.length = set.nPars) :
    ∃ s', Hme.samplePosteriors env set (some st) n s =
      some (.ok ((env.random n set.nPars s).1.map (fun us => Hme.parsOf env.doms (Hme.place st.lower st.upper us)),
        qs.map (fun q => (q.1.name, conv q q.2.1, conv q q.2.2))), s') := by
  have hnd' : (env.doms.map (·.1)).Nodup := by rw [hd, List.map_map]; exact hnd
  have hlen : ∀ us ∈ (env.random n set.nPars s).1, (Hme.place st.lower st.upper us).length = env.doms.length := fun us hus => by
    rw [hlo, hup, place_eq, hd, List.length_zipWith, hsh us hus, hn, List.length_map, min_self]
  obtain ⟨rs, s', h1⟩ := each_total (S := S) (f := Hme.simulateOne env)
    (l := (env.random n set.nPars s).1.map (Hme.place st.lower st.upper)) (fun xs hxs s => by
      obtain ⟨us, hus, rfl⟩ := List.mem_map.1 hxs
      exact simulateOne_total hnd' (hlen us hus) hs s) (env.random n set.nPars s).2
  refine ⟨s', Run.bind_ok.2 ⟨_, _, Run.lift_ok.2 rfl, Run.bind_ok.2 ⟨rs, s', h1, Run.pure_ok.2 ⟨?_, rfl⟩⟩⟩⟩
  refine Prod.ext ?_ (by
    rw [hlo, hup, hd]
    apply List.ext_getElem
    · simp
    · intro i _ _
      simp)
  have hf := Run.each_ok h1
  apply List.ext_getElem
  · simpa using hf.length_eq.symm
  · intro i h2 h3
    have h4 : i < rs.length := by simpa using h2
    obtain ⟨t, t', h5⟩ := (List.forall₂_iff_get.1 hf).2 i (by simpa using h3) h4
    simp only [List.get_eq_getElem, List.getElem_map] at h5
    simp only [List.getElem_map]
    exact (Props.Hme.simulateOne_ok h5).1

/-- The numbers that are stretched to the bounds and converted into a set. -/
def fibre (q : Dim N) (A : Set ℝ) : Set ℝ := {u | ∃ v ∈ A, conv q (q.2.1 + u * (q.2.2 - q.2.1)) = .fin v} ∩ Icc 0 1

theorem row_iff {qs : List (Dim N)} (hnd : (qs.map (·.1.name)).Nodup) {us : List ℝ} (hl : us.length = qs.length)
    (hu : ∀ u ∈ us, 0 ≤ u ∧ u ≤ 1) {row : List (Set ℝ)} (hr : row.length = qs.length) :
    List.Forall₂ (fun (q : Dim N) A => ∃ v ∈ A, (Hme.parsOf (qs.map (fun q => (q.1.name, conv q)))
      (Hme.place (qs.map (·.2.1)) (qs.map (·.2.2)) us)).get? q.1.name = some (.fin v)) qs row ↔
    List.Forall₂ (fun u A => u ∈ A) us (List.zipWith fibre qs row) := by
  rw [place_eq]
  have key : ∀ i (h1 : i < qs.length) (h2 : i < us.length),
      (Hme.parsOf (qs.map (fun q => (q.1.name, conv q))) (List.zipWith (fun q u => q.2.1 + u * (q.2.2 - q.2.1)) qs us)).get? qs[i].1.name =
        some (conv qs[i] (qs[i].2.1 + us[i] * (qs[i].2.2 - qs[i].2.1))) := fun i h1 h2 => by
    have := Props.Hme.parsOf_get (doms := qs.map (fun q => (q.1.name, conv q))) (by rw [List.map_map]; exact hnd)
      (xs := List.zipWith (fun q u => q.2.1 + u * (q.2.2 - q.2.1)) qs us) (by simp [hl]) (i := i) (d := (qs[i].1.name, conv qs[i]))
      (x := qs[i].2.1 + us[i] * (qs[i].2.2 - qs[i].2.1)) (by simp [h1]) (by simp [List.getElem?_zipWith, h1, h2])
    exact this
  rw [List.forall₂_iff_get, List.forall₂_iff_get]
  simp only [List.get_eq_getElem, List.length_zipWith, hl, hr, min_self, true_and, List.getElem_zipWith]
  constructor
  · intro h i h1 h2
    obtain ⟨v, hv, e⟩ := h i h1 h1
    rw [key i h1 (by rw [hl]; exact h1), Option.some.injEq] at e
    exact ⟨⟨v, hv, e⟩, hu _ (List.getElem_mem _)⟩
  · intro h i h1 h2
    obtain ⟨⟨v, hv, e⟩, -⟩ := h i h1 (by simpa [hr] using h1)
    exact ⟨v, hv, by rw [key i h1 (by rw [hl]; exact h1), e]⟩

/-- **C231**: the particles of a posterior of history matching are independent, and so are the parameters of each; a
parameter has the law of its domain between the bounds that are reported for it. -/
theorem C231 [MeasurableSpace S] {μ : Measure S} {env : HmeEnv S N ℝ D} (hi : Ideal μ env.random) {set : HmeSettings ℝ}
    {st : HmeState N ℝ} {qs : List (Dim N)} (hd : env.doms = qs.map (fun q => (q.1.name, conv q)))
    (hnd : (qs.map (·.1.name)).Nodup) (hp : ∀ q ∈ qs, Proper q.1) (hn : set.nPars = qs.length)
    (hlo : st.lower = qs.map (·.2.1)) (hup : st.upper = qs.map (·.2.2)) (hb : ∀ q ∈ qs, 0 ≤ q.2.1 ∧ q.2.1 < q.2.2 ∧ q.2.2 ≤ 1)
    (hs : ∀ pars s, ∃ sims s', env.simulate pars s = (.ok sims, s') ∧ ∀ k ∈ env.data.keys, k ∈ sims.keys)
    {As : List (List (Set ℝ))} (hA : ∀ r ∈ As, r.length = qs.length ∧ ∀ A ∈ r, MeasurableSet A) :
    μ {s | ∃ post bounds s', Hme.samplePosteriors env set (some st) As.length s = some (.ok (post, bounds), s') ∧
      bounds = qs.map (fun q => (q.1.name, conv q q.2.1, conv q q.2.2)) ∧
      List.Forall₂ (fun pars row => List.Forall₂ (fun (q : Dim N) A => ∃ v ∈ A, pars.get? q.1.name = some (.fin v)) qs row) post As} =
      (As.map (fun row => (List.zipWith (fun q A => boundedLaw q A) qs row).prod)).prod := by
  have hset : {s | ∃ post bounds s', Hme.samplePosteriors env set (some st) As.length s = some (.ok (post, bounds), s') ∧
      bounds = qs.map (fun q => (q.1.name, conv q q.2.1, conv q q.2.2)) ∧
      List.Forall₂ (fun pars row => List.Forall₂ (fun (q : Dim N) A => ∃ v ∈ A, pars.get? q.1.name = some (.fin v)) qs row) post As} =
      {s | List.Forall₂ (List.Forall₂ (fun u A => u ∈ A)) (env.random (As.map (List.zipWith fibre qs)).length set.nPars s).1
        (As.map (List.zipWith fibre qs))} := by
    ext s
    simp only [mem_ofPred_eq, List.length_map]
    obtain ⟨hl, hsh⟩ := hi.shape As.length set.nPars s
    obtain ⟨s', h1⟩ := posterior_iff hd hnd hn hlo hup hs (n := As.length) (s := s) (fun us hus => (hsh us hus).1)
    have h2 : (∃ post bounds s', Hme.samplePosteriors env set (some st) As.length s = some (.ok (post, bounds), s') ∧
        bounds = qs.map (fun q => (q.1.name, conv q q.2.1, conv q q.2.2)) ∧
        List.Forall₂ (fun pars row => List.Forall₂ (fun (q : Dim N) A => ∃ v ∈ A, pars.get? q.1.name = some (.fin v)) qs row) post As) ↔
        List.Forall₂ (fun us row => List.Forall₂ (fun (q : Dim N) A => ∃ v ∈ A,
          (Hme.parsOf env.doms (Hme.place st.lower st.upper us)).get? q.1.name = some (.fin v)) qs row) (env.random As.length set.nPars s).1 As := by
      constructor
      · rintro ⟨post, b', s'', h3, -, h4⟩
        rw [h1] at h3
        simp only [Option.some.injEq, Prod.mk.injEq, Except.ok.injEq] at h3
        rw [← h3.1.1, List.forall₂_map_left_iff] at h4
        exact h4
      · intro h4
        exact ⟨_, _, s', h1, rfl, by rw [List.forall₂_map_left_iff]; exact h4⟩
    rw [h2, List.forall₂_map_right_iff]
    constructor
    · intro h
      refine forall₂_mem_imp h (fun us row hus hrow h' => ?_)
      rw [hd, hlo, hup] at h'
      exact (row_iff hnd ((hsh us hus).1.trans hn) (hsh us hus).2 (hA row hrow).1).1 h'
    · intro h
      refine forall₂_mem_imp h (fun us row hus hrow h' => ?_)
      rw [hd, hlo, hup]
      exact (row_iff hnd ((hsh us hus).1.trans hn) (hsh us hus).2 (hA row hrow).1).2 h'
  rw [hset, hi.law set.nPars (As.map (List.zipWith fibre qs)) (fun r hr => by
    obtain ⟨row, hrow, rfl⟩ := List.mem_map.1 hr
    refine ⟨by rw [List.length_zipWith, (hA row hrow).1, min_self, hn], fun A hAm => ?_⟩
    obtain ⟨i, h1, rfl⟩ := List.getElem_of_mem hAm
    rw [List.getElem_zipWith]
    have h2 : i < qs.length := by simp at h1; omega
    have h3 : i < row.length := by simp at h1; omega
    obtain ⟨b1, b2, b3⟩ := hb qs[i] (List.getElem_mem _)
    exact (truncated (hp qs[i] (List.getElem_mem _)) b1 b3 b2 ((hA row hrow).2 row[i] (List.getElem_mem _))).1), List.map_map]
  congr 1
  refine List.map_congr_left (fun row hrow => ?_)
  simp only [Function.comp]
  rw [List.map_zipWith]
  congr 1
  apply List.ext_getElem
  · simp
  · intro i h1 h2
    rw [List.getElem_zipWith, List.getElem_zipWith]
    have h2' : i < qs.length := by simp at h1; omega
    have h3 : i < row.length := by simp at h1; omega
    obtain ⟨b1, b2, b3⟩ := hb qs[i] (List.getElem_mem _)
    exact (truncated (hp qs[i] (List.getElem_mem _)) b1 b3 b2 ((hA row hrow).2 row[i] (List.getElem_mem _))).2

/-! ## Examples -/

/-- A number between -2 and 2, a positive one and any one. -/
def exFF : Dom String ℝ := ⟨"a", .fin (-2), .fin 2, .fin 0, .fin 1⟩
/-- A positive number. -/
def exFI : Dom String ℝ := ⟨"b", .fin 0, .pinf, .fin 1, .fin 3⟩
/-- A number below 7. -/
def exIF : Dom String ℝ := ⟨"c", .ninf, .fin 7, .fin 5, .fin 2⟩
/-- Any number. -/
def exII : Dom String ℝ := ⟨"d", .ninf, .pinf, .fin 5, .fin 2⟩

theorem exProper : Proper exFF ∧ Proper exFI ∧ Proper exIF ∧ Proper exII := by
  refine ⟨⟨?_, ⟨0, rfl⟩, ⟨1, by norm_num, rfl⟩⟩, ⟨rfl, ⟨1, rfl⟩, ⟨3, by norm_num, rfl⟩⟩, ⟨rfl, ⟨5, rfl⟩, ⟨2, by norm_num, rfl⟩⟩,
    ⟨rfl, ⟨5, rfl⟩, ⟨2, by norm_num, rfl⟩⟩⟩
  simp [exFF, XR.lt]

/-- C230: the chance of a negative number. -/
example : uniform01 {u | ∃ v ∈ Iic 1, (getConverter exFF).uniform2value (.fin u) = .fin v} = ENNReal.ofReal (3 / 4) := by
  rw [C230 exProper.1 measurableSet_Iic]
  simp only [lawOf, exFF, Measure.smul_apply, smul_eq_mul]
  rw [Measure.restrict_apply measurableSet_Iic, Set.inter_comm, show (Icc (-2) 2 ∩ Iic 1 : Set ℝ) = Icc (-2) 1 by
    ext x; simp only [mem_inter_iff, mem_Icc, mem_Iic]; constructor
    · rintro ⟨⟨a, b⟩, c⟩; exact ⟨a, c⟩
    · rintro ⟨a, c⟩; exact ⟨⟨a, by linarith⟩, c⟩, Real.volume_Icc, ← ENNReal.ofReal_inv_of_pos (by norm_num),
    ← ENNReal.ofReal_mul (by norm_num)]
  norm_num

/-- C230: the chance that a positive number with the scale 3 is at most 3. -/
example : uniform01 {u | ∃ v ∈ Iic 3, (getConverter exFI).uniform2value (.fin u) = .fin v} = ENNReal.ofReal (1 - Real.exp (-1)) := by
  rw [C230 exProper.2.1 measurableSet_Iic]
  simp only [lawOf, exFI]
  rw [Measure.map_apply (by fun_prop) measurableSet_Iic, show (fun x : ℝ => 0 + x) ⁻¹' Iic 3 = Iic 3 by ext; simp, exp_Iic (by norm_num)]
  norm_num

/-- C230: the Laplace law. -/
example : uniform01 {u | ∃ v ∈ Iic 5, (getConverter exII).uniform2value (.fin u) = .fin v} = ENNReal.ofReal (1 / 2) := by
  rw [C230 exProper.2.2.2 measurableSet_Iic]
  simp only [lawOf, exII, Measure.smul_apply, Measure.add_apply]
  rw [Measure.map_apply (f := fun x => 5 + x) (by fun_prop) measurableSet_Iic, Measure.map_apply (f := fun x => 5 - x) (by fun_prop) measurableSet_Iic,
    show (fun x : ℝ => 5 + x) ⁻¹' Iic 5 = Iic 0 by ext; simp, show (fun x : ℝ => 5 - x) ⁻¹' Iic 5 = Ici 0 by ext; simp,
    exp_Iic (by norm_num), exp_Ici (by norm_num)]
  simp

/-- Independent uniform numbers. -/
noncomputable def grid : Measure (ℕ × ℕ → ℝ) := Measure.infinitePi (fun _ => uniform01)

/-- A number moved into the unit interval. -/
def clamp (u : ℝ) : ℝ := max 0 (min 1 u)

/-- Tables of these numbers. -/
def gridRandom (n p : Nat) (s : ℕ × ℕ → ℝ) : List (List ℝ) × (ℕ × ℕ → ℝ) :=
  ((List.range n).map (fun i => (List.range p).map (fun j => clamp (s (i, j)))), s)

theorem prod_range_get {A : Type} (l : List A) (d : A) (g : A → ENNReal) :
    ∏ i ∈ Finset.range l.length, g (l[i]?.getD d) = (l.map g).prod := by
  induction l with
  | nil => simp
  | cons a l ih =>
    rw [List.length_cons, Finset.prod_range_succ', List.map_cons, List.prod_cons, mul_comm]
    simp only [List.getElem?_cons_succ, List.getElem?_cons_zero, Option.getD_some, ih]

theorem clamp_law (A : Set ℝ) : uniform01 (clamp ⁻¹' A) = uniform01 A := by
  rw [uniform01, Measure.restrict_apply' measurableSet_Ico, Measure.restrict_apply' measurableSet_Ico]
  congr 1
  ext u
  simp only [mem_inter_iff, mem_preimage, mem_Ico]
  constructor <;> rintro ⟨h, h0, h1⟩ <;> refine ⟨?_, h0, h1⟩ <;>
    simpa [clamp, min_eq_right h1.le, max_eq_right h0] using h

theorem grid_ideal : Ideal grid gridRandom where
  shape := fun n p s => by
    refine ⟨by simp [gridRandom], fun us hus => ?_⟩
    obtain ⟨i, -, rfl⟩ := List.mem_map.1 hus
    refine ⟨by simp, fun u hu => ?_⟩
    obtain ⟨j, -, rfl⟩ := List.mem_map.1 hu
    exact ⟨le_max_left _ _, max_le zero_le_one (min_le_left _ _)⟩
  law := fun p As hA => by
    have hcl : Measurable clamp := by unfold clamp; fun_prop
    have hset : {s | List.Forall₂ (List.Forall₂ (fun u A => u ∈ A)) (gridRandom As.length p s).1 As} =
        Set.pi (Finset.range As.length ×ˢ Finset.range p : Finset (ℕ × ℕ)) (fun ij => clamp ⁻¹' ((As[ij.1]?.getD [])[ij.2]?.getD ∅)) := by
      ext s
      simp only [mem_ofPred_eq, Set.mem_pi, Finset.coe_product, Finset.coe_range, Set.mem_prod, mem_Iio, Prod.forall, gridRandom]
      rw [List.forall₂_map_left_iff, List.forall₂_iff_get]
      simp only [List.length_range, List.get_eq_getElem, List.getElem_range, true_and, List.forall₂_map_left_iff]
      constructor
      · intro h i j ⟨hi, hj⟩
        have h1 := List.forall₂_iff_get.1 (h i hi hi)
        simp only [List.length_range, List.get_eq_getElem, List.getElem_range] at h1
        have := h1.2 j hj (h1.1 ▸ hj)
        simpa [hi, (h1.1 ▸ hj : j < As[i].length)] using this
      · intro h i hi hi'
        rw [List.forall₂_iff_get]
        have hl := (hA As[i] (List.getElem_mem _)).1
        refine ⟨by simp [hl], fun j hj hj' => ?_⟩
        have := h i j ⟨hi, hl ▸ hj'⟩
        simpa [hi, hj'] using this
    rw [hset, grid, Measure.infinitePi_pi]
    · rw [Finset.prod_product, ← prod_range_get As [] (fun r => (r.map uniform01).prod)]
      refine Finset.prod_congr rfl (fun i hi => ?_)
      have hi := Finset.mem_range.1 hi
      obtain ⟨hl, hm⟩ := hA As[i] (List.getElem_mem _)
      rw [List.getElem?_eq_getElem hi, Option.getD_some, ← hl, ← prod_range_get As[i] ∅]
      refine Finset.prod_congr rfl (fun j hj => ?_)
      have hj := Finset.mem_range.1 hj
      simp only [List.getElem?_eq_getElem hi, List.getElem?_eq_getElem hj, Option.getD_some]
      exact clamp_law _
    · rintro ⟨i, j⟩ hij
      obtain ⟨hi, hj⟩ := Finset.mem_product.1 hij
      have hi := Finset.mem_range.1 hi
      have hj := Finset.mem_range.1 hj
      obtain ⟨hl, hm⟩ := hA As[i] (List.getElem_mem _)
      simp only [List.getElem?_eq_getElem hi, Option.getD_some]
      rw [List.getElem?_eq_getElem (by rw [hl]; exact hj), Option.getD_some]
      exact hcl (hm _ (List.getElem_mem _))

/-- Two parameters with bounds. -/
noncomputable def exDims : List (Dim String) := [(exFF, 1 / 4, 3 / 4), (exFI, 0, 1 / 2)]

/-- A model of two parameters and no data. -/
noncomputable def exEnv : HmeEnv (ℕ × ℕ → ℝ) String ℝ Unit where
  doms := exDims.map (fun q => (q.1.name, conv q))
  data := []
  ops := ⟨fun _ => .nan, fun _ => .nan, fun _ _ => .nan⟩
  sqrt := id
  lhs := fun _ _ s => (.ok [], s)
  random := gridRandom
  simulate := fun _ s => (.ok [], s)
  train := fun _ _ _ s => (.error .ValueError, s)

/-- A state with the bounds of the parameters. -/
noncomputable def exState : HmeState String ℝ :=
  { pts := [], lower := exDims.map (·.2.1), upper := exDims.map (·.2.2), wave := 1, mse := .nan, cutoff := .nan, acc := 1 }

/-- C231: two particles. -/
example (set : HmeSettings ℝ) (hn : set.nPars = 2) {A B A' B' : Set ℝ} (h1 : MeasurableSet A) (h2 : MeasurableSet B)
    (h3 : MeasurableSet A') (h4 : MeasurableSet B') :
    grid {s | ∃ post bounds s', Hme.samplePosteriors exEnv set (some exState) 2 s = some (.ok (post, bounds), s') ∧
      bounds = exDims.map (fun q => (q.1.name, conv q q.2.1, conv q q.2.2)) ∧
      List.Forall₂ (fun pars row => List.Forall₂ (fun (q : Dim String) A => ∃ v ∈ A, pars.get? q.1.name = some (.fin v)) exDims row)
        post [[A, B], [A', B']]} =
      boundedLaw (exFF, 1 / 4, 3 / 4) A * boundedLaw (exFI, 0, 1 / 2) B *
        (boundedLaw (exFF, 1 / 4, 3 / 4) A' * boundedLaw (exFI, 0, 1 / 2) B') := by
  refine (C231 (As := [[A, B], [A', B']]) grid_ideal rfl (by decide) (by
      intro q hq
      simp only [exDims, List.mem_cons, List.not_mem_nil, or_false] at hq
      rcases hq with rfl | rfl
      · exact exProper.1
      · exact exProper.2.1) hn rfl rfl (by
      intro q hq
      simp only [exDims, List.mem_cons, List.not_mem_nil, or_false] at hq
      rcases hq with rfl | rfl <;> norm_num) (fun pars s => ⟨[], s, rfl, fun k hk => hk⟩) (by
      intro r hr
      simp only [List.mem_cons, List.not_mem_nil, or_false] at hr
      rcases hr with rfl | rfl <;> refine ⟨rfl, fun X hX => ?_⟩ <;> simp only [List.mem_cons, List.not_mem_nil, or_false] at hX <;>
        rcases hX with rfl | rfl <;> assumption)).trans ?_
  simp [exDims]

/-! ## C232 -/

/-- What scipy promises of `LatinHypercube(p).random(n)`: the numbers lie in the unit interval, and in every column each
of the `n` equal slices of the interval holds exactly one of them. -/
structure Latin (lhs : Nat → Nat → S → Result (List (List ℝ)) × S) : Prop where
  shape : ∀ p n s xss s', lhs p n s = (.ok xss, s') → ∀ us ∈ xss, us.length = p ∧ ∀ u ∈ us, 0 ≤ u ∧ u ≤ 1
  slices : ∀ p n s xss s', lhs p n s = (.ok xss, s') → ∀ j < p, ∀ k < n, ∃! i : Nat, ∃ (us : List ℝ) (u : ℝ), xss[i]? = some us ∧ us[j]? = some u ∧
    (k : ℝ) / n ≤ u ∧ u < ((k : ℝ) + 1) / n

theorem conv_lt {q : Dim N} (h : Proper q.1) {x y : ℝ} (h0 : 0 ≤ x) (h1 : x ≤ 1) (h2 : 0 ≤ y) (h3 : y ≤ 1) :
    XR.lt (conv q x) (conv q y) = true ↔ x < y := by
  have hi : ∀ y : ℝ, 0 ≤ y → y ≤ 1 → Props.Converter.InUnit (.fin y) := fun y a b => (Props.Converter.inUnit_iff _).2 ⟨y, rfl, a, b⟩
  constructor
  · intro h'
    by_contra hc
    have := Props.Hme.C100_converters h h2 (not_lt.1 hc) h1
    unfold conv at h'
    generalize (getConverter q.1).uniform2value (.fin x) = a at this h'
    generalize (getConverter q.1).uniform2value (.fin y) = b at this h'
    cases a <;> cases b <;> simp [XR.lt, XR.le] at this h'
    linarith
  · intro h'
    exact Props.Converter.C57_value h (hi x h0 h1) (hi y h2 h3) (by simpa using h')

theorem conv_le {q : Dim N} (h : Proper q.1) {x y : ℝ} (h0 : 0 ≤ x) (h1 : x ≤ 1) (h2 : 0 ≤ y) (h3 : y ≤ 1) :
    XR.le (conv q x) (conv q y) = true ↔ x ≤ y := by
  constructor
  · intro h'
    by_contra hc
    have := (conv_lt h h2 h3 h0 h1).2 (not_le.1 hc)
    generalize conv q x = a at this h'
    generalize conv q y = b at this h'
    cases a <;> cases b <;> simp [XR.lt, XR.le] at this h'
    linarith
  · intro h'
    exact Props.Hme.C100_converters h h0 h' h3

/-- **C232**: the simulated particles of a wave are spread over the bounds of every parameter: between the values of the
ends of each of the `n_sims` equal slices lies the parameter of exactly one of them. -/
theorem C232 {env : HmeEnv S N ℝ D} (hl : Latin env.lhs) {set : HmeSettings ℝ} {st : HmeState N ℝ} {qs : List (Dim N)}
    (hd : env.doms = qs.map (fun q => (q.1.name, conv q))) (hnd : (qs.map (·.1.name)).Nodup) (hp : ∀ q ∈ qs, Proper q.1)
    (hn : set.nPars = qs.length) (hlo : st.lower = qs.map (·.2.1)) (hup : st.upper = qs.map (·.2.2))
    (hb : ∀ q ∈ qs, 0 ≤ q.2.1 ∧ q.2.1 < q.2.2 ∧ q.2.2 ≤ 1) {s s' : S} {sims : List (Dict N (XR ℝ) × List (XR ℝ) × Dict N (XR ℝ))}
    (h : Hme.simulateAll env set st s = some (.ok sims, s')) {q : Dim N} (hq : q ∈ qs) {k : Nat} (hk : k < set.nSims) :
    ∃! i : Nat, ∃ (r : Dict _ (XR ℝ) × List (XR ℝ) × Dict _ (XR ℝ)) (v : XR ℝ), sims[i]? = some r ∧ r.1.get? q.1.name = some v ∧
      XR.le (conv q (q.2.1 + k / set.nSims * (q.2.2 - q.2.1))) v = true ∧
      XR.lt v (conv q (q.2.1 + (k + 1) / set.nSims * (q.2.2 - q.2.1))) = true := by
  unfold Hme.simulateAll at h
  obtain ⟨xss, s1, h1, h2⟩ := Run.bind_ok.1 h
  have h1 := Run.lift_ok.1 h1
  have hf := Run.each_ok h2
  rw [List.forall₂_map_left_iff] at hf
  obtain ⟨j, hj, rfl⟩ := List.getElem_of_mem hq
  obtain ⟨b1, b2, b3⟩ := hb qs[j] hq
  have hc : 0 < qs[j].2.2 - qs[j].2.1 := by linarith
  have hn0 : (0 : ℝ) < set.nSims := by exact_mod_cast (by omega : 0 < set.nSims)
  have hkn : (k : ℝ) + 1 ≤ set.nSims := by exact_mod_cast hk
  have hin : ∀ u : ℝ, 0 ≤ u → u ≤ 1 → 0 ≤ qs[j].2.1 + u * (qs[j].2.2 - qs[j].2.1) ∧ qs[j].2.1 + u * (qs[j].2.2 - qs[j].2.1) ≤ 1 := fun u a b => by
    have h5 := mul_nonneg a hc.le
    have h6 : u * (qs[j].2.2 - qs[j].2.1) ≤ 1 * (qs[j].2.2 - qs[j].2.1) := mul_le_mul_of_nonneg_right b hc.le
    exact ⟨by linarith, by linarith⟩
  have key : ∀ i : Nat, (∃ (r : Dict _ (XR ℝ) × List (XR ℝ) × Dict _ (XR ℝ)) (v : XR ℝ), sims[i]? = some r ∧ r.1.get? qs[j].1.name = some v ∧
      XR.le (conv qs[j] (qs[j].2.1 + k / set.nSims * (qs[j].2.2 - qs[j].2.1))) v = true ∧
      XR.lt v (conv qs[j] (qs[j].2.1 + (k + 1) / set.nSims * (qs[j].2.2 - qs[j].2.1))) = true) ↔
      ∃ (us : List ℝ) (u : ℝ), xss[i]? = some us ∧ us[j]? = some u ∧ (k : ℝ) / set.nSims ≤ u ∧ u < ((k : ℝ) + 1) / set.nSims := fun i => by
    rcases lt_or_ge i xss.length with hi | hi
    · have hi' : i < sims.length := by rw [← hf.length_eq]; exact hi
      obtain ⟨t, t', ht⟩ := (List.forall₂_iff_get.1 hf).2 i hi hi'
      simp only [List.get_eq_getElem] at ht
      have hr := (Props.Hme.simulateOne_ok ht).1
      obtain ⟨e1, e2⟩ := hl.shape _ _ _ _ _ h1 xss[i] (List.getElem_mem _)
      have hj' : j < xss[i].length := by rw [e1, hn]; exact hj
      obtain ⟨u0, u1⟩ := e2 xss[i][j] (List.getElem_mem _)
      have hg : (sims[i].1).get? qs[j].1.name = some (conv qs[j] (qs[j].2.1 + xss[i][j] * (qs[j].2.2 - qs[j].2.1))) := by
        rw [hr, hd, hlo, hup, place_eq]
        exact Props.Hme.parsOf_get (doms := qs.map (fun q => (q.1.name, conv q))) (by rw [List.map_map]; exact hnd)
          (xs := List.zipWith (fun q u => q.2.1 + u * (q.2.2 - q.2.1)) qs xss[i]) (by simp [e1, hn]) (i := j) (d := (qs[j].1.name, conv qs[j]))
          (x := qs[j].2.1 + xss[i][j] * (qs[j].2.2 - qs[j].2.1)) (by simp [hj]) (by simp [List.getElem?_zipWith, hj, hj'])
      have k0 : 0 ≤ (k : ℝ) / set.nSims := by positivity
      have k1 : (k : ℝ) / set.nSims ≤ 1 := by rw [div_le_one hn0]; linarith
      have k2 : 0 ≤ ((k : ℝ) + 1) / set.nSims := by positivity
      have k3 : ((k : ℝ) + 1) / set.nSims ≤ 1 := by rw [div_le_one hn0]; linarith
      have iff1 := conv_le (hp qs[j] hq) (hin _ k0 k1).1 (hin _ k0 k1).2 (hin _ u0 u1).1 (hin _ u0 u1).2
      have iff2 := conv_lt (hp qs[j] hq) (hin _ u0 u1).1 (hin _ u0 u1).2 (hin _ k2 k3).1 (hin _ k2 k3).2
      rw [add_le_add_iff_left, mul_le_mul_iff_left₀ hc] at iff1
      rw [add_lt_add_iff_left, mul_lt_mul_iff_left₀ hc] at iff2
      constructor
      · rintro ⟨r, v, g1, g2, g3, g4⟩
        rw [List.getElem?_eq_getElem hi', Option.some.injEq] at g1
        subst g1
        rw [hg, Option.some.injEq] at g2
        subst g2
        exact ⟨xss[i], xss[i][j], List.getElem?_eq_getElem hi, List.getElem?_eq_getElem hj', iff1.1 g3, iff2.1 g4⟩
      · rintro ⟨us, u, g1, g2, g3, g4⟩
        rw [List.getElem?_eq_getElem hi, Option.some.injEq] at g1
        subst g1
        rw [List.getElem?_eq_getElem hj', Option.some.injEq] at g2
        subst g2
        exact ⟨_, _, List.getElem?_eq_getElem hi', hg, iff1.2 g3, iff2.2 g4⟩
    · have hi' : sims.length ≤ i := by rw [← hf.length_eq]; exact hi
      simp [List.getElem?_eq_none hi, List.getElem?_eq_none hi']
  obtain ⟨i, h3, h4⟩ := hl.slices _ _ _ _ _ h1 j (by rw [hn]; exact hj) k hk
  exact ⟨i, (key i).2 h3, fun i' h5 => h4 i' ((key i').1 h5)⟩

/-- The middles of the slices, in the same order in every column. -/
noncomputable def diagonal (p n : Nat) (s : ℕ × ℕ → ℝ) : Result (List (List ℝ)) × (ℕ × ℕ → ℝ) :=
  (.ok ((List.range n).map (fun i : ℕ => List.replicate p (((i : ℝ) + 1 / 2) / n))), s)

theorem diagonal_latin : Latin diagonal where
  shape := fun p n s xss s' h us hus => by
    cases h
    obtain ⟨i, hi, rfl⟩ := List.mem_map.1 hus
    refine ⟨by simp, fun u hu => ?_⟩
    obtain ⟨-, rfl⟩ := List.mem_replicate.1 hu
    have hi : i < n := List.mem_range.1 hi
    have hn : (0 : ℝ) < n := by exact_mod_cast (by omega : 0 < n)
    have hi' : (i : ℝ) + 1 ≤ n := by exact_mod_cast hi
    exact ⟨by positivity, by rw [div_le_one hn]; linarith⟩
  slices := fun p n s xss s' h j hj k hk => by
    cases h
    have hn : (0 : ℝ) < n := by exact_mod_cast (by omega : 0 < n)
    refine ⟨k, ⟨_, _, by simp [hk]; rfl, by simp [hj]; rfl, ?_, ?_⟩, ?_⟩
    · rw [div_le_div_iff_of_pos_right hn]; linarith
    · rw [div_lt_div_iff_of_pos_right hn]; linarith
    · rintro i ⟨us, u, h1, h2, h3, h4⟩
      simp only [List.getElem?_map, Option.map_eq_some_iff] at h1
      obtain ⟨i', h5, rfl⟩ := h1
      rw [List.getElem?_replicate, if_pos hj] at h2
      cases h2
      obtain ⟨_, h5⟩ := List.getElem?_eq_some_iff.1 h5
      rw [List.getElem_range] at h5
      subst h5
      rw [div_le_div_iff_of_pos_right hn] at h3
      rw [div_lt_div_iff_of_pos_right hn] at h4
      have a : (k : ℝ) < i + 1 := by linarith
      have b : (i : ℝ) < k + 1 := by linarith
      have a' : k < i + 1 := by exact_mod_cast a
      have b' : i < k + 1 := by exact_mod_cast b
      omega

/-- C232: a wave of five simulations. -/
example (set : HmeSettings ℝ) (hn : set.nPars = 2) (hs : set.nSims = 5) {s : ℕ × ℕ → ℝ} :
    ∃ sims, Hme.simulateAll { exEnv with lhs := diagonal } set exState s = some (.ok sims, s) ∧
      ∀ q ∈ exDims, ∀ k < (5 : ℕ), ∃! i : Nat, ∃ (r : Dict _ (XR ℝ) × List (XR ℝ) × Dict _ (XR ℝ)) (v : XR ℝ), sims[i]? = some r ∧ r.1.get? q.1.name = some v ∧
        XR.le (conv q (q.2.1 + k / (5 : ℕ) * (q.2.2 - q.2.1))) v = true ∧
        XR.lt v (conv q (q.2.1 + (k + 1) / (5 : ℕ) * (q.2.2 - q.2.1))) = true := by
  have h : ∀ l : List (List ℝ), (∀ us ∈ l, us.length = 2) → ∃ sims, Run.each (Hme.simulateOne { exEnv with lhs := diagonal })
      (l.map (Hme.place exState.lower exState.upper)) s = some (.ok sims, s) := by
    intro l hl
    induction l with
    | nil => exact ⟨[], rfl⟩
    | cons us l ih =>
      obtain ⟨sims, h1⟩ := ih (fun u hu => hl u (List.mem_cons_of_mem _ hu))
      have h2 := hl us (List.mem_cons_self ..)
      obtain ⟨a, b, rfl⟩ := List.length_eq_two.1 h2
      exact ⟨_ :: sims, Run.bind_ok.2 ⟨_, s, rfl, Run.bind_ok.2 ⟨sims, s, h1, Run.pure_ok.2 ⟨rfl, rfl⟩⟩⟩⟩
  obtain ⟨sims, h1⟩ := h ((List.range 5).map (fun i : ℕ => List.replicate 2 (((i : ℝ) + 1 / 2) / (5 : ℕ)))) (fun us hus => by
    obtain ⟨i, -, rfl⟩ := List.mem_map.1 hus; rfl)
  have h2 : Hme.simulateAll { exEnv with lhs := diagonal } set exState s = some (.ok sims, s) := by
    refine Run.bind_ok.2 ⟨_, s, Run.lift_ok.2 (?_ : diagonal set.nPars set.nSims s = (.ok _, s)), h1⟩
    rw [hn, hs]
    rfl
  refine ⟨sims, h2, fun q hq k hk => ?_⟩
  have := C232 (env := { exEnv with lhs := diagonal }) diagonal_latin rfl (by decide) (by
      intro q hq
      simp only [exDims, List.mem_cons, List.not_mem_nil, or_false] at hq
      rcases hq with rfl | rfl
      · exact exProper.1
      · exact exProper.2.1) hn rfl rfl (by
      intro q hq
      simp only [exDims, List.mem_cons, List.not_mem_nil, or_false] at hq
      rcases hq with rfl | rfl <;> norm_num) h2 hq (k := k) (by rw [hs]; exact hk)
  rw [hs] at this
  exact this

end Props.LawsConverter
