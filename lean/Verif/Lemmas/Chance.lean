import Verif.Spec.Chance
import Mathlib.MeasureTheory.Measure.Haar.OfBasis

/-!
# Helper lemmas on chances
-/

namespace Spec

open MeasureTheory

variable {S : Type} [MeasurableSpace S]

variable {μ : Measure S} {E F : S → S → Prop} {p q : ENNReal}

theorem Chance.congr (h : ∀ s s', E s s' ↔ F s s') (hE : Chance μ E p) : Chance μ F p := by
  have : E = F := by funext s s'; exact propext (h s s')
  exact this ▸ hE

/-- Doing nothing. -/
theorem Chance.refl : Chance μ (fun s s' => s = s') 1 := by
  intro B hB
  have : {s | ∃ s' ∈ B, s = s'} = B := by ext s; simp
  rw [this, one_mul]
  exact ⟨hB, rfl⟩

/-- What cannot happen. -/
theorem Chance.never (h : ∀ s s', ¬ E s s') : Chance μ E 0 := by
  intro B _
  have : {s | ∃ s' ∈ B, E s s'} = ∅ := by ext s; simp [h]
  rw [this]
  exact ⟨MeasurableSet.empty, by simp⟩

/-- One step after the other. -/
theorem Chance.comp (hE : Chance μ E p) (hF : Chance μ F q) :
    Chance μ (fun s s' => ∃ m, E s m ∧ F m s') (p * q) := by
  intro B hB
  obtain ⟨h1, h2⟩ := hF B hB
  obtain ⟨h3, h4⟩ := hE _ h1
  have : {s | ∃ s' ∈ B, ∃ m, E s m ∧ F m s'} = {s | ∃ m ∈ {m | ∃ s' ∈ B, F m s'}, E s m} := by
    ext s
    constructor
    · rintro ⟨s', hs, m, h, h'⟩; exact ⟨m, ⟨s', hs, h'⟩, h⟩
    · rintro ⟨m, ⟨s', hs, h'⟩, h⟩; exact ⟨s', hs, m, h, h'⟩
  rw [this, h4, h2, mul_assoc]
  exact ⟨h3, rfl⟩

/-- One of two things, of which not both happen. -/
theorem Chance.or (hE : Chance μ E p) (hF : Chance μ F q) (hd : ∀ s m m', E s m → ¬ F s m') :
    Chance μ (fun s s' => E s s' ∨ F s s') (p + q) := by
  intro B hB
  obtain ⟨h1, h2⟩ := hE B hB
  obtain ⟨h3, h4⟩ := hF B hB
  have : {s | ∃ s' ∈ B, E s s' ∨ F s s'} = {s | ∃ s' ∈ B, E s s'} ∪ {s | ∃ s' ∈ B, F s s'} := by
    ext s; simp only [Set.mem_ofPred_eq, Set.mem_union]
    constructor
    · rintro ⟨s', hs, h | h⟩
      · exact Or.inl ⟨s', hs, h⟩
      · exact Or.inr ⟨s', hs, h⟩
    · rintro (⟨s', hs, h⟩ | ⟨s', hs, h⟩)
      · exact ⟨s', hs, Or.inl h⟩
      · exact ⟨s', hs, Or.inr h⟩
  rw [this]
  refine ⟨h1.union h3, ?_⟩
  rw [measure_union _ h3, h2, h4, add_mul]
  rw [Set.disjoint_left]
  rintro s ⟨m, -, hm⟩ ⟨m', -, hm'⟩
  exact hd s m m' hm hm'

/-- One of countably many things, of which no two happen. -/
theorem Chance.exists {E : ℕ → S → S → Prop} {p : ℕ → ENNReal} (h : ∀ k, Chance μ (E k) (p k))
    (hd : ∀ j k s m m', E j s m → E k s m' → j = k) : Chance μ (fun s s' => ∃ k, E k s s') (∑' k, p k) := by
  intro B hB
  have : {s | ∃ s' ∈ B, ∃ k, E k s s'} = ⋃ k, {s | ∃ s' ∈ B, E k s s'} := by
    ext s; simp only [Set.mem_ofPred_eq, Set.mem_iUnion]
    constructor
    · rintro ⟨s', hs, k, h⟩; exact ⟨k, s', hs, h⟩
    · rintro ⟨k, s', hs, h⟩; exact ⟨s', hs, k, h⟩
  rw [this]
  refine ⟨MeasurableSet.iUnion (fun k => (h k B hB).1), ?_⟩
  rw [measure_iUnion _ (fun k => (h k B hB).1), ← ENNReal.tsum_mul_right]
  · exact tsum_congr (fun k => (h k B hB).2)
  · intro j k hjk
    rw [Function.onFun, Set.disjoint_left]
    rintro s ⟨m, -, hm⟩ ⟨m', -, hm'⟩
    exact hjk (hd j k s m m' hm hm')

theorem expX_zero : expX 0 = 1 := by
  change ENNReal.ofReal (Real.exp 0) = 1
  simp

theorem expX_add (a b : Py.XR ℝ) : expX (a + b) = expX a * expX b := by
  cases a <;> cases b <;>
    simp [Py.XR.add_def, Py.XR.add, expX, Real.exp_add, ENNReal.ofReal_mul, Real.exp_nonneg, ENNReal.top_mul,
      ENNReal.mul_top, Real.exp_pos]

theorem expX_sum (l : List (Py.XR ℝ)) : expX l.sum = (l.map expX).prod := by
  induction l with
  | nil => exact expX_zero
  | cons a l ih => rw [List.sum_cons, expX_add, ih]; rfl

/-! ## An ideal generator -/

theorem affine_chance {a c : ℝ} {I : Set ℝ} (hI : MeasurableSet I) (hc : 0 < c)
    (h : ∀ s, 0 ≤ s → s < 1 → (s ∈ I ↔ a ≤ s ∧ s < a + c)) (h0 : 0 ≤ a) (h1 : a + c ≤ 1) :
    Chance uniform01 (fun s s' => s ∈ I ∧ s' = (s - a) / c) (ENNReal.ofReal c) := by
  intro B hB
  have e : {s | ∃ s' ∈ B, s ∈ I ∧ s' = (s - a) / c} = I ∩ (fun s => (s - a) / c) ⁻¹' B := by
    ext s
    simp only [Set.mem_ofPred_eq, Set.mem_inter_iff, Set.mem_preimage]
    constructor
    · rintro ⟨s', hs, h2, rfl⟩; exact ⟨h2, hs⟩
    · rintro ⟨h2, hs⟩; exact ⟨_, hs, h2, rfl⟩
  have hm : Measurable (fun s : ℝ => (s - a) / c) := (measurable_id.sub_const a).div_const c
  rw [e]
  refine ⟨hI.inter (hm hB), ?_⟩
  have e2 : I ∩ (fun s => (s - a) / c) ⁻¹' B ∩ Set.Ico 0 1 =
      (fun s => s + -a) ⁻¹' ((fun s => c⁻¹ * s) ⁻¹' (B ∩ Set.Ico 0 1)) := by
    ext s
    simp only [Set.mem_inter_iff, Set.mem_Ico, Set.mem_preimage]
    have e3 : c⁻¹ * (s + -a) = (s - a) / c := by rw [div_eq_inv_mul, sub_eq_add_neg]
    rw [e3]
    have h2 : 0 ≤ (s - a) / c ↔ a ≤ s := by rw [le_div_iff₀ hc]; constructor <;> intro h <;> linarith
    have h3 : (s - a) / c < 1 ↔ s < a + c := by rw [div_lt_one hc]; constructor <;> intro h <;> linarith
    rw [h2, h3]
    constructor
    · rintro ⟨⟨h4, h6⟩, h7, h8⟩; exact ⟨h6, (h s h7 h8).1 h4⟩
    · rintro ⟨h6, h4, h5⟩; exact ⟨⟨(h s (by linarith) (by linarith)).2 ⟨h4, h5⟩, h6⟩, by linarith, by linarith⟩
  rw [uniform01, Measure.restrict_apply (hI.inter (hm hB)), e2, measure_preimage_add_right,
    Real.volume_preimage_mul_left (by positivity), Measure.restrict_apply hB]
  congr 2
  rw [inv_inv, abs_of_pos hc]

theorem coin_true {p : ℝ} (h0 : 0 < p) (h1 : p ≤ 1) :
    Chance uniform01 (fun s s' => coin p s = (true, s')) (ENNReal.ofReal p) := by
  refine (affine_chance (I := Set.Iio p) (a := 0) measurableSet_Iio h0 (by simp +contextual) le_rfl
    (by linarith)).congr ?_
  intro s s'
  simp only [coin, Set.mem_Iio, sub_zero]
  split <;> simp_all [eq_comm]

theorem coin_false {p : ℝ} (h0 : 0 ≤ p) (h1 : p < 1) :
    Chance uniform01 (fun s s' => coin p s = (false, s')) (ENNReal.ofReal (1 - p)) := by
  refine (affine_chance (I := Set.Ici p) (a := p) (c := 1 - p) measurableSet_Ici (by linarith) (by simp +contextual) h0
    (by linarith)).congr ?_
  intro s s'
  simp only [coin, Set.mem_Ici]
  split <;> simp_all [eq_comm]

end Spec
