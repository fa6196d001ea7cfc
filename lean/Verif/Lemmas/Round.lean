import Mathlib.Algebra.Order.Round
import Mathlib.Data.Int.Log
import Mathlib.Data.Rat.Floor
import Mathlib.Algebra.Order.Field.Rat
import Mathlib.Tactic.Linarith
import Mathlib.Tactic.Ring
import Mathlib.Tactic.FieldSimp
import Mathlib.Tactic.Positivity

/-!
# Rounding to 53 significant bits

Double precision numbers without limits on the exponent.
-/

namespace Lemmas
set_option linter.unusedSectionVars false

variable {K : Type} [Field K] [LinearOrder K] [IsStrictOrderedRing K]

/-- An integer of at most 53 bits times a power of two. -/
def IsDouble (x : K) : Prop := ∃ m e : ℤ, |m| ≤ 2 ^ 53 ∧ x = (m : K) * 2 ^ e

/-- A rounding to double precision: increasing, and exact on the numbers that need no rounding. -/
structure Rounding (r : K → K) : Prop where
  mono : ∀ x y, x ≤ y → r x ≤ r y
  exact : ∀ x, IsDouble x → r x = x

theorem isDouble_neg {x : K} (h : IsDouble x) : IsDouble (-x) := by
  obtain ⟨m, e, hm, rfl⟩ := h
  exact ⟨-m, e, by rwa [abs_neg], by push_cast; ring⟩

/-- Between -2 and 2 the gap above a double is at most `2 ^ -52`. -/
theorem next_double {x : K} (h : IsDouble x) (h0 : -2 ≤ x) (h1 : x < 2) :
    ∃ y, IsDouble y ∧ x < y ∧ y ≤ x + 2 ^ (-52 : ℤ) := by
  obtain ⟨m, e, hm, rfl⟩ := h
  have h2 : (0 : K) < 2 := by norm_num
  have hpos : ∀ k : ℤ, (0 : K) < 2 ^ k := fun k => zpow_pos h2 k
  rcases le_or_gt e (-52) with he | he
  · rcases lt_or_ge m (2 ^ 53) with hlt | hge
    · refine ⟨((m + 1 : ℤ) : K) * 2 ^ e, ⟨m + 1, e, ?_, rfl⟩, ?_, ?_⟩
      · rw [abs_le] at hm ⊢
        omega
      · push_cast
        nlinarith [hpos e]
      · have : (2 : K) ^ e ≤ 2 ^ (-52 : ℤ) := zpow_le_zpow_right₀ (by norm_num) he
        push_cast
        nlinarith
    · have hm' : m = 2 ^ 53 := le_antisymm (abs_le.1 hm).2 hge
      subst hm'
      have he' : e < -52 := by
        by_contra hc
        have : (2 : K) ^ (-52 : ℤ) ≤ 2 ^ e := zpow_le_zpow_right₀ (by norm_num) (by omega)
        have h3 : ((2 ^ 53 : ℤ) : K) * 2 ^ (-52 : ℤ) = 2 := by norm_num
        have h4 : ((2 ^ 53 : ℤ) : K) * 2 ^ (-52 : ℤ) ≤ ((2 ^ 53 : ℤ) : K) * 2 ^ e :=
          mul_le_mul_of_nonneg_left this (by norm_num)
        linarith
      have hs : (2 : K) ^ (e + 1) = 2 ^ e * 2 := by rw [zpow_add₀ (by norm_num), zpow_one]
      refine ⟨((2 ^ 52 + 1 : ℤ) : K) * 2 ^ (e + 1), ⟨2 ^ 52 + 1, e + 1, by norm_num, rfl⟩, ?_, ?_⟩
      · rw [hs]
        push_cast
        nlinarith [hpos e]
      · have : (2 : K) ^ (e + 1) ≤ 2 ^ (-52 : ℤ) := zpow_le_zpow_right₀ (by norm_num) (by omega)
        rw [hs] at this ⊢
        push_cast
        nlinarith
  · obtain ⟨n, hn⟩ : ∃ n : ℕ, e = -52 + n := ⟨(e + 52).toNat, by omega⟩
    have hx : (m : K) * 2 ^ e = ((m * 2 ^ n : ℤ) : K) * 2 ^ (-52 : ℤ) := by
      rw [hn, zpow_add₀ (by norm_num), zpow_natCast]
      push_cast
      ring
    have h52 : (2 : K) ^ (-52 : ℤ) * 2 ^ 53 = 2 := by norm_num
    rw [hx] at h0 h1 ⊢
    generalize m * 2 ^ n = k at h0 h1 ⊢
    have hk1 : (k : K) < 2 ^ 53 := by
      by_contra hc
      push Not at hc
      have := mul_le_mul_of_nonneg_right hc (hpos (-52)).le
      linarith
    have hk0 : -(2 ^ 53) ≤ (k : K) := by
      by_contra hc
      push Not at hc
      have := mul_lt_mul_of_pos_right hc (hpos (-52))
      linarith
    have hk1 : k < 2 ^ 53 := by exact_mod_cast hk1
    have hk0 : -(2 ^ 53) ≤ k := by exact_mod_cast hk0
    refine ⟨((k + 1 : ℤ) : K) * 2 ^ (-52 : ℤ), ⟨k + 1, -52, ?_, rfl⟩, ?_, ?_⟩
    · rw [abs_le]
      omega
    · push_cast
      nlinarith [hpos (-52)]
    · push_cast
      nlinarith [hpos (-52)]

theorem Rounding.add_eps {r : K → K} (hr : Rounding r) {x : K} (h : IsDouble x) (h0 : -2 ≤ x) (h1 : x < 2) :
    x < r (x + 2 ^ (-52 : ℤ)) := by
  obtain ⟨y, hy, h2, h3⟩ := next_double h h0 h1
  have := hr.mono _ _ h3
  rw [hr.exact y hy] at this
  exact h2.trans_le this

theorem Rounding.sub_eps {r : K → K} (hr : Rounding r) {x : K} (h : IsDouble x) (h0 : -2 < x) (h1 : x ≤ 2) :
    r (x - 2 ^ (-52 : ℤ)) < x := by
  obtain ⟨y, hy, h2, h3⟩ := next_double (isDouble_neg h) (by linarith) (by linarith)
  have := hr.mono (x - 2 ^ (-52 : ℤ)) (-y) (by linarith)
  rw [hr.exact _ (isDouble_neg hy)] at this
  linarith

/-! ### Rounding to nearest -/

/-- The exponent of the last of 53 bits. -/
def ulpExp (x : ℚ) : ℤ := Int.log 2 |x| - 52

/-- To the nearest double; halves are rounded up here, where IEEE rounds them to even. -/
def roundDouble (x : ℚ) : ℚ := if x = 0 then 0 else round (x / 2 ^ ulpExp x) * 2 ^ ulpExp x

theorem round_mono' {x y : ℚ} (h : x ≤ y) : round x ≤ round y := by
  rw [round_eq, round_eq]
  exact Int.floor_le_floor (by linarith)

theorem ulp_bounds {x : ℚ} (hx : x ≠ 0) : 2 ^ 52 ≤ |x / 2 ^ ulpExp x| ∧ |x / 2 ^ ulpExp x| < 2 ^ 53 := by
  have hp : (0 : ℚ) < 2 ^ ulpExp x := zpow_pos (by norm_num) _
  have ha : 0 < |x| := abs_pos.2 hx
  have h1 : (2 : ℚ) ^ Int.log 2 |x| ≤ |x| := by
    exact_mod_cast Int.zpow_log_le_self (b := 2) (by norm_num) ha
  have h2 : |x| < (2 : ℚ) ^ (Int.log 2 |x| + 1) := by
    exact_mod_cast Int.lt_zpow_succ_log_self (b := 2) (by norm_num) |x|
  have e1 : (2 : ℚ) ^ Int.log 2 |x| = 2 ^ 52 * 2 ^ ulpExp x := by
    rw [← zpow_natCast, ← zpow_add₀ (by norm_num)]
    congr 1
    unfold ulpExp
    push_cast
    ring
  have e2 : (2 : ℚ) ^ (Int.log 2 |x| + 1) = 2 ^ 53 * 2 ^ ulpExp x := by
    rw [← zpow_natCast, ← zpow_add₀ (by norm_num)]
    congr 1
    unfold ulpExp
    push_cast
    ring
  rw [abs_div, abs_of_pos hp, le_div_iff₀ hp, div_lt_iff₀ hp]
  rw [e1] at h1
  rw [e2] at h2
  exact ⟨h1, h2⟩

theorem roundDouble_exact (x : ℚ) (h : IsDouble x) : roundDouble x = x := by
  by_cases hx : x = 0
  · simp [roundDouble, hx]
  · obtain ⟨b1, b2⟩ := ulp_bounds hx
    have hp : (0 : ℚ) < 2 ^ ulpExp x := zpow_pos (by norm_num) _
    have hint : ∃ n : ℤ, x / 2 ^ ulpExp x = n := by
      obtain ⟨m, k, hm, hmk⟩ := h
      rcases le_or_gt (ulpExp x) k with hle | hgt
      · refine ⟨m * 2 ^ (k - ulpExp x).toNat, ?_⟩
        rw [div_eq_iff hp.ne']
        conv_lhs => rw [hmk]
        push_cast
        rw [mul_assoc, ← zpow_natCast, ← zpow_add₀ (by norm_num)]
        congr 2
        omega
      · obtain ⟨n, hn⟩ : ∃ n : ℕ, ulpExp x = k + 1 + n := ⟨(ulpExp x - k - 1).toNat, by omega⟩
        have hxe : x / 2 ^ ulpExp x = (m : ℚ) / 2 / 2 ^ n := by
          conv_lhs => rw [hn]
          conv_lhs => rw [hmk]
          rw [zpow_add₀ (by norm_num), zpow_add₀ (by norm_num), zpow_natCast, zpow_one]
          have : (2 : ℚ) ^ k ≠ 0 := (zpow_pos (by norm_num) k).ne'
          field_simp
        rw [hxe, abs_div, abs_div, abs_of_pos (by norm_num : (0 : ℚ) < 2), abs_of_pos (by positivity : (0 : ℚ) < 2 ^ n)]
          at b1
        have hm' : |(m : ℚ)| ≤ 2 ^ 53 := by exact_mod_cast hm
        have hn1 : (1 : ℚ) ≤ 2 ^ n := one_le_pow₀ (by norm_num)
        have hge : 2 ^ 52 * 2 ^ n ≤ |(m : ℚ)| / 2 := by
          rwa [le_div_iff₀ (by positivity)] at b1
        have hm2 : |(m : ℚ)| = 2 ^ 53 := by linarith
        have hn2 : (2 : ℚ) ^ n = 1 := by linarith
        have hm3 : |m| = 2 ^ 53 := by exact_mod_cast hm2
        rw [hxe, hn2, div_one]
        rcases abs_choice m with hc | hc
        · exact ⟨2 ^ 52, by rw [← hc, hm3]; norm_num⟩
        · have : m = -(2 ^ 53) := by omega
          exact ⟨-2 ^ 52, by rw [this]; norm_num⟩
    obtain ⟨n, hn⟩ := hint
    rw [roundDouble, if_neg hx, hn, round_intCast, ← hn, div_mul_cancel₀ _ hp.ne']

theorem roundDouble_sign {x : ℚ} : (0 ≤ x → 0 ≤ roundDouble x) ∧ (x ≤ 0 → roundDouble x ≤ 0) := by
  unfold roundDouble
  have hp : (0 : ℚ) < 2 ^ ulpExp x := zpow_pos (by norm_num) _
  split
  · simp
  · constructor
    · intro h
      have := round_mono' (div_nonneg h hp.le)
      rw [round_zero] at this
      exact mul_nonneg (by exact_mod_cast this) hp.le
    · intro h
      have := round_mono' (div_nonpos_of_nonpos_of_nonneg h hp.le)
      rw [round_zero] at this
      exact mul_nonpos_of_nonpos_of_nonneg (by exact_mod_cast this) hp.le

theorem ulpExp_lt {x y : ℚ} (hx : x ≠ 0) (h : |x| ≤ |y|) : ulpExp x ≤ ulpExp y := by
  unfold ulpExp
  have := Int.log_mono_right (b := 2) (abs_pos.2 hx) h
  omega

theorem pow_step {a b : ℤ} (h : a < b) : (2 : ℚ) ^ 53 * 2 ^ a ≤ 2 ^ 52 * 2 ^ b := by
  have : (2 : ℚ) ^ (a + 1) ≤ 2 ^ b := zpow_le_zpow_right₀ (by norm_num) h
  rw [zpow_add₀ (by norm_num), zpow_one] at this
  linarith

theorem roundDouble_mono (x y : ℚ) (h : x ≤ y) : roundDouble x ≤ roundDouble y := by
  rcases lt_trichotomy x 0 with hx | hx | hx
  · rcases lt_or_ge y 0 with hy | hy
    · obtain ⟨a1, a2⟩ := ulp_bounds hx.ne
      obtain ⟨b1, b2⟩ := ulp_bounds hy.ne
      have pa : (0 : ℚ) < 2 ^ ulpExp x := zpow_pos (by norm_num) _
      have pb : (0 : ℚ) < 2 ^ ulpExp y := zpow_pos (by norm_num) _
      have hle : ulpExp y ≤ ulpExp x := ulpExp_lt hy.ne (by rw [abs_of_neg hx, abs_of_neg hy]; linarith)
      rw [abs_of_neg (div_neg_of_neg_of_pos hx pa)] at a1 a2
      rw [abs_of_neg (div_neg_of_neg_of_pos hy pb)] at b1 b2
      rw [roundDouble, roundDouble, if_neg hx.ne, if_neg hy.ne]
      rcases hle.lt_or_eq with hlt | heq
      · have r1 : round (x / 2 ^ ulpExp x) ≤ round ((-(2 ^ 52) : ℤ) : ℚ) := round_mono' (by push_cast; linarith)
        have r2 : round ((-(2 ^ 53) : ℤ) : ℚ) ≤ round (y / 2 ^ ulpExp y) := round_mono' (by push_cast; linarith)
        rw [round_intCast] at r1 r2
        have r1 : (round (x / 2 ^ ulpExp x) : ℚ) ≤ -(2 ^ 52) := by exact_mod_cast r1
        have r2 : -(2 ^ 53) ≤ (round (y / 2 ^ ulpExp y) : ℚ) := by exact_mod_cast r2
        have := pow_step hlt
        have s1 := mul_le_mul_of_nonneg_right r1 pa.le
        have s2 := mul_le_mul_of_nonneg_right r2 pb.le
        linarith
      · rw [heq]
        refine mul_le_mul_of_nonneg_right ?_ pa.le
        exact_mod_cast round_mono' ((div_le_div_iff_of_pos_right pa).2 h)
    · exact (roundDouble_sign.2 hx.le).trans (roundDouble_sign.1 hy)
  · rw [hx]
    rw [hx] at h
    have : roundDouble 0 = 0 := by simp [roundDouble]
    rw [this]
    exact roundDouble_sign.1 h
  · have hy : 0 < y := hx.trans_le h
    obtain ⟨a1, a2⟩ := ulp_bounds hx.ne'
    obtain ⟨b1, b2⟩ := ulp_bounds hy.ne'
    have pa : (0 : ℚ) < 2 ^ ulpExp x := zpow_pos (by norm_num) _
    have pb : (0 : ℚ) < 2 ^ ulpExp y := zpow_pos (by norm_num) _
    have hle : ulpExp x ≤ ulpExp y := ulpExp_lt hx.ne' (by rw [abs_of_pos hx, abs_of_pos hy]; linarith)
    rw [abs_of_pos (div_pos hx pa)] at a1 a2
    rw [abs_of_pos (div_pos hy pb)] at b1 b2
    rw [roundDouble, roundDouble, if_neg hx.ne', if_neg hy.ne']
    rcases hle.lt_or_eq with hlt | heq
    · have r1 : round (x / 2 ^ ulpExp x) ≤ round (((2 ^ 53) : ℤ) : ℚ) := round_mono' (by push_cast; linarith)
      have r2 : round (((2 ^ 52) : ℤ) : ℚ) ≤ round (y / 2 ^ ulpExp y) := round_mono' (by push_cast; linarith)
      rw [round_intCast] at r1 r2
      have r1 : (round (x / 2 ^ ulpExp x) : ℚ) ≤ (2 ^ 53) := by exact_mod_cast r1
      have r2 : (2 ^ 52) ≤ (round (y / 2 ^ ulpExp y) : ℚ) := by exact_mod_cast r2
      have := pow_step hlt
      have s1 := mul_le_mul_of_nonneg_right r1 pa.le
      have s2 := mul_le_mul_of_nonneg_right r2 pb.le
      linarith
    · rw [← heq]
      refine mul_le_mul_of_nonneg_right ?_ pa.le
      exact_mod_cast round_mono' ((div_le_div_iff_of_pos_right pa).2 h)

/-- Rounding to nearest is a rounding. -/
theorem roundDouble_rounding : Rounding roundDouble := ⟨roundDouble_mono, roundDouble_exact⟩

end Lemmas
