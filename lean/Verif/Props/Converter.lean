import Verif.Model.Converter
import Mathlib.Tactic.Linarith
import Mathlib.Tactic.Ring
import Mathlib.Tactic.FieldSimp

/-!
# The converters are increasing bijections (C56, C57, C89)
-/

namespace Props.Converter

open Py Model

variable {N : Type}

/-- A domain the fitting code is meant for: the lower end below the upper end, each end finite or infinite
on its own side, a finite location and a positive finite scale. -/
structure Proper (d : Dom N ℝ) : Prop where
  ends : XR.lt d.lower d.upper = true
  loc : ∃ m, d.loc = .fin m
  scale : ∃ s : ℝ, 0 < s ∧ d.scale = .fin s

/-- The number lies in the domain, ends included. -/
def InDom (d : Dom N ℝ) (v : XR ℝ) : Prop := XR.le d.lower v = true ∧ XR.le v d.upper = true

/-- The number lies in the unit interval, ends included. -/
def InUnit (u : XR ℝ) : Prop := XR.le (.fin 0) u = true ∧ XR.le u (.fin 1) = true

theorem inUnit_iff (u : XR ℝ) : InUnit u ↔ ∃ x : ℝ, u = .fin x ∧ 0 ≤ x ∧ x ≤ 1 := by
  unfold InUnit
  cases u <;> simp [XR.le]

/-- The four shapes of a proper domain, with the converter chosen for each. -/
theorem Proper.shapes {d : Dom N ℝ} (h : Proper d) :
    (∃ l u : ℝ, l < u ∧ d.lower = .fin l ∧ d.upper = .fin u ∧ getConverter d = .FF (.fin l) (.fin u)) ∨
    (∃ l s : ℝ, 0 < s ∧ d.lower = .fin l ∧ d.upper = .pinf ∧ getConverter d = .FI (.fin l) (.fin s)) ∨
    (∃ u s : ℝ, 0 < s ∧ d.lower = .ninf ∧ d.upper = .fin u ∧ getConverter d = .IF (.fin u) (.fin s)) ∨
    (∃ s m : ℝ, 0 < s ∧ d.lower = .ninf ∧ d.upper = .pinf ∧ getConverter d = .II (.fin s) (.fin m)) := by
  obtain ⟨he, ⟨m, hm⟩, ⟨s, hs, hsc⟩⟩ := h
  cases hl : d.lower <;> cases hu : d.upper <;> rw [hl, hu] at he <;>
    simp [XR.lt] at he
  · rename_i l u
    exact .inl ⟨l, u, he, rfl, rfl, by simp [getConverter, hl, hu, XR.isInf]⟩
  · rename_i l
    exact .inr (.inl ⟨l, s, hs, rfl, rfl, by simp [getConverter, hl, hu, hsc, XR.isInf]⟩)
  · rename_i u
    exact .inr (.inr (.inl ⟨u, s, hs, rfl, rfl, by simp [getConverter, hl, hu, hsc, XR.isInf]⟩))
  · exact .inr (.inr (.inr ⟨s, m, hs, rfl, rfl, by simp [getConverter, hl, hu, hsc, hm, XR.isInf]⟩))

theorem xlog_pos {x : ℝ} (h : 0 < x) : xlog (.fin x) = .fin (Real.log x) := by
  simp [xlog, npLog, h]

/-! ### What the converters compute -/

theorem ff_u2v (l u x : ℝ) :
    (Converter.FF (.fin l) (.fin u)).uniform2value (.fin x) = .fin (x * (u - l) + l) := by
  simp [Converter.uniform2value]

theorem ff_v2u {l u : ℝ} (h : l < u) (v : ℝ) :
    (Converter.FF (.fin l) (.fin u)).value2uniform (.fin v) = .fin ((v - l) / (u - l)) := by
  simp only [Converter.value2uniform, XR.fin_sub_fin]
  exact XR.fin_div_fin_of_ne _ (by linarith)

theorem fi_u2v (l s : ℝ) {x : ℝ} (h : x < 1) :
    (Converter.FI (.fin l) (.fin s)).uniform2value (.fin x) = .fin (-Real.log (1 - x) * s + l) := by
  simp [Converter.uniform2value, not_le.mpr h, xlog_pos (sub_pos.mpr h)]

theorem fi_u2v_one (l s : ℝ) {x : ℝ} (h : 1 ≤ x) :
    (Converter.FI (.fin l) (.fin s)).uniform2value (.fin x) = .pinf := by
  simp [Converter.uniform2value, h]

theorem fi_v2u (l : ℝ) {s : ℝ} (h : 0 < s) (v : ℝ) :
    (Converter.FI (.fin l) (.fin s)).value2uniform (.fin v) = .fin (1 - Real.exp ((l - v) / s)) := by
  simp only [Converter.value2uniform, XR.fin_sub_fin, XR.fin_div_fin_of_ne _ h.ne', xexp]

theorem fi_v2u_inf (l : ℝ) {s : ℝ} (h : 0 < s) :
    (Converter.FI (.fin l) (.fin s)).value2uniform .pinf = .fin 1 := by
  simp [Converter.value2uniform, not_lt.mpr h.le, xexp]

theorem if_u2v (u s : ℝ) {x : ℝ} (h : 0 < x) :
    (Converter.IF (.fin u) (.fin s)).uniform2value (.fin x) = .fin (Real.log x * s + u) := by
  simp [Converter.uniform2value, not_le.mpr h, xlog_pos h]

theorem if_u2v_zero (u s : ℝ) {x : ℝ} (h : x ≤ 0) :
    (Converter.IF (.fin u) (.fin s)).uniform2value (.fin x) = .ninf := by
  simp [Converter.uniform2value, h]

theorem if_v2u (u : ℝ) {s : ℝ} (h : 0 < s) (v : ℝ) :
    (Converter.IF (.fin u) (.fin s)).value2uniform (.fin v) = .fin (Real.exp ((v - u) / s)) := by
  simp only [Converter.value2uniform, XR.fin_sub_fin, XR.fin_div_fin_of_ne _ h.ne', xexp]

theorem if_v2u_inf (u : ℝ) {s : ℝ} (h : 0 < s) :
    (Converter.IF (.fin u) (.fin s)).value2uniform .ninf = .fin 0 := by
  simp [Converter.value2uniform, not_lt.mpr h.le, xexp]

theorem ii_u2v_one (s m : ℝ) {x : ℝ} (h : 1 ≤ x) :
    (Converter.II (.fin s) (.fin m)).uniform2value (.fin x) = .pinf := by
  simp [Converter.uniform2value, h]

theorem ii_u2v_zero (s m : ℝ) {x : ℝ} (h : x ≤ 0) :
    (Converter.II (.fin s) (.fin m)).uniform2value (.fin x) = .ninf := by
  have : ¬ (1 : ℝ) ≤ x := by linarith
  simp [Converter.uniform2value, h, this]

/-- Upper half. -/
theorem ii_u2v_hi (s m : ℝ) {x : ℝ} (h : 1 / 2 ≤ x) (h1 : x < 1) :
    (Converter.II (.fin s) (.fin m)).uniform2value (.fin x) = .fin (-Real.log (2 * (1 - x)) * s + m) := by
  have h0 : ¬ x ≤ 0 := by linarith
  have e : 1 - 2 * |x - 1 / 2| = 2 * (1 - x) := by rw [abs_of_nonneg (by linarith)]; ring
  have hp : 0 < 1 - 2 * |x - 1 / 2| := by rw [e]; linarith
  simp only [Converter.uniform2value, XR.le_fin, not_le.mpr h1, h0, decide_false, Bool.false_eq_true, if_false,
    XR.fin_sub_fin, XR.abs, XR.sign, XR.fin_mul_fin, xlog_pos hp, XR.neg_fin, XR.fin_add_fin]
  rw [e]
  rcases h.lt_or_eq with h | h
  · have : 0 < x - 1 / 2 := by linarith
    rw [if_pos this]
    congr 1; ring
  · subst h
    norm_num

/-- Lower half. -/
theorem ii_u2v_lo (s m : ℝ) {x : ℝ} (h : x ≤ 1 / 2) (h1 : 0 < x) :
    (Converter.II (.fin s) (.fin m)).uniform2value (.fin x) = .fin (Real.log (2 * x) * s + m) := by
  have h0 : ¬ (1 : ℝ) ≤ x := by linarith
  have e : 1 - 2 * |x - 1 / 2| = 2 * x := by rw [abs_of_nonpos (by linarith)]; ring
  have hp : 0 < 1 - 2 * |x - 1 / 2| := by rw [e]; linarith
  simp only [Converter.uniform2value, XR.le_fin, not_le.mpr h1, h0, decide_false, Bool.false_eq_true, if_false,
    XR.fin_sub_fin, XR.abs, XR.sign, XR.fin_mul_fin, xlog_pos hp, XR.neg_fin, XR.fin_add_fin]
  rw [e]
  rcases h.lt_or_eq with h | h
  · have h2 : ¬ 0 < x - 1 / 2 := by linarith
    have h3 : x - 1 / 2 < 0 := by linarith
    rw [if_neg h2, if_pos h3]
    congr 1; ring
  · subst h
    norm_num

theorem ii_v2u_hi {s : ℝ} (hs : 0 < s) (m : ℝ) {v : ℝ} (h : m < v) :
    (Converter.II (.fin s) (.fin m)).value2uniform (.fin v) = .fin (1 - Real.exp (-(v - m) / s) / 2) := by
  have h0 : 0 < v - m := by linarith
  simp only [Converter.value2uniform, XR.fin_sub_fin, XR.lt_fin, h0, decide_true, if_true, XR.neg_fin,
    XR.fin_div_fin_of_ne _ hs.ne', xexp, XR.fin_div_fin_of_ne _ (two_ne_zero : (2 : ℝ) ≠ 0)]

theorem ii_v2u_lo {s : ℝ} (hs : 0 < s) (m : ℝ) {v : ℝ} (h : v ≤ m) :
    (Converter.II (.fin s) (.fin m)).value2uniform (.fin v) = .fin (Real.exp ((v - m) / s) / 2) := by
  have h0 : ¬ 0 < v - m := by linarith
  simp only [Converter.value2uniform, XR.fin_sub_fin, XR.lt_fin, h0, decide_false, Bool.false_eq_true, if_false,
    XR.fin_div_fin_of_ne _ hs.ne', xexp, XR.fin_div_fin_of_ne _ (two_ne_zero : (2 : ℝ) ≠ 0)]

theorem ii_v2u_inf {s : ℝ} (hs : 0 < s) (m : ℝ) :
    (Converter.II (.fin s) (.fin m)).value2uniform .pinf = .fin 1 := by
  simp [Converter.value2uniform, XR.lt, not_lt.mpr hs.le, xexp, XR.fin_div_fin]

theorem ii_v2u_ninf {s : ℝ} (hs : 0 < s) (m : ℝ) :
    (Converter.II (.fin s) (.fin m)).value2uniform .ninf = .fin 0 := by
  simp [Converter.value2uniform, XR.lt, not_lt.mpr hs.le, xexp, XR.fin_div_fin]

/-! ### The properties -/

/-- C56, from the unit interval: the value lies in the domain, and converting it back gives the number
one started from.  The ends of the interval are included. -/
theorem C56_value {d : Dom N ℝ} (h : Proper d) {u : XR ℝ} (hu : InUnit u) :
    InDom d ((getConverter d).uniform2value u) ∧
      (getConverter d).value2uniform ((getConverter d).uniform2value u) = u := by
  obtain ⟨x, rfl, h0, h1⟩ := (inUnit_iff u).1 hu
  rcases h.shapes with ⟨l, w, hlw, hl, hw, hc⟩ | ⟨l, s, hs, hl, hw, hc⟩ | ⟨w, s, hs, hl, hw, hc⟩ |
    ⟨s, m, hs, hl, hw, hc⟩
  · rw [hc, ff_u2v, ff_v2u hlw]
    unfold InDom
    rw [hl, hw]
    refine ⟨⟨?_, ?_⟩, ?_⟩
    · simp only [XR.le_fin, decide_eq_true_eq]
      nlinarith
    · simp only [XR.le_fin, decide_eq_true_eq]
      nlinarith
    · congr 1
      have : w - l ≠ 0 := by linarith
      field_simp
      ring
  · rw [hc]
    unfold InDom
    rw [hl, hw]
    rcases h1.lt_or_eq with h1 | rfl
    · rw [fi_u2v _ _ h1, fi_v2u _ hs]
      refine ⟨⟨?_, rfl⟩, ?_⟩
      · simp only [XR.le_fin, decide_eq_true_eq]
        have := Real.log_nonpos (by linarith : 0 ≤ 1 - x) (by linarith)
        nlinarith
      · have e : (l - (-Real.log (1 - x) * s + l)) / s = Real.log (1 - x) := by
          field_simp
          ring
        rw [e, Real.exp_log (by linarith)]
        congr 1; ring
    · rw [fi_u2v_one _ _ le_rfl, fi_v2u_inf _ hs]
      exact ⟨⟨rfl, rfl⟩, rfl⟩
  · rw [hc]
    unfold InDom
    rw [hl, hw]
    rcases h0.lt_or_eq with h0 | rfl
    · rw [if_u2v _ _ h0, if_v2u _ hs]
      refine ⟨⟨rfl, ?_⟩, ?_⟩
      · simp only [XR.le_fin, decide_eq_true_eq]
        have := Real.log_nonpos h0.le h1
        nlinarith
      · have e : (Real.log x * s + w - w) / s = Real.log x := by
          field_simp
          ring
        rw [e, Real.exp_log h0]
    · rw [if_u2v_zero _ _ le_rfl, if_v2u_inf _ hs]
      exact ⟨⟨rfl, rfl⟩, rfl⟩
  · rw [hc]
    unfold InDom
    rw [hl, hw]
    rcases h0.lt_or_eq with h0 | rfl
    · rcases h1.lt_or_eq with h1 | rfl
      · rcases le_or_gt x (1 / 2) with hx | hx
        · have hlog := Real.log_nonpos (by linarith : 0 ≤ 2 * x) (by linarith)
          rw [ii_u2v_lo _ _ hx h0, ii_v2u_lo hs _ (by nlinarith)]
          refine ⟨⟨rfl, rfl⟩, ?_⟩
          have e : (Real.log (2 * x) * s + m - m) / s = Real.log (2 * x) := by
            field_simp
            ring
          rw [e, Real.exp_log (by linarith)]
          congr 1; ring
        · have hlog := Real.log_neg (by linarith : 0 < 2 * (1 - x)) (by linarith)
          rw [ii_u2v_hi _ _ hx.le h1, ii_v2u_hi hs _ (by nlinarith)]
          refine ⟨⟨rfl, rfl⟩, ?_⟩
          have e : -(-Real.log (2 * (1 - x)) * s + m - m) / s = Real.log (2 * (1 - x)) := by
            field_simp
            ring
          rw [e, Real.exp_log (by linarith)]
          congr 1; ring
      · rw [ii_u2v_one _ _ le_rfl, ii_v2u_inf hs]
        exact ⟨⟨rfl, rfl⟩, rfl⟩
    · rw [ii_u2v_zero _ _ le_rfl, ii_v2u_ninf hs]
      exact ⟨⟨rfl, rfl⟩, rfl⟩

/-- C56, from the domain: the number lies in the unit interval, and converting it back gives the value one
started from.  Infinite ends are included. -/
theorem C56_uniform {d : Dom N ℝ} (h : Proper d) {v : XR ℝ} (hv : InDom d v) :
    InUnit ((getConverter d).value2uniform v) ∧
      (getConverter d).uniform2value ((getConverter d).value2uniform v) = v := by
  simp only [inUnit_iff]
  obtain ⟨h0, h1⟩ := hv
  rcases h.shapes with ⟨l, w, hlw, hl, hw, hc⟩ | ⟨l, s, hs, hl, hw, hc⟩ | ⟨w, s, hs, hl, hw, hc⟩ |
    ⟨s, m, hs, hl, hw, hc⟩ <;> rw [hl] at h0 <;> rw [hw] at h1 <;> rw [hc] <;> cases v <;>
    simp [XR.le] at h0 h1
  · rename_i v
    have hd : 0 < w - l := by linarith
    rw [ff_v2u hlw, ff_u2v]
    refine ⟨⟨_, rfl, div_nonneg (by linarith) hd.le, (div_le_one hd).2 (by linarith)⟩, ?_⟩
    congr 1
    field_simp
    ring
  · rename_i v
    have hp := Real.exp_pos ((l - v) / s)
    rw [fi_v2u _ hs, fi_u2v _ _ (by linarith)]
    refine ⟨⟨_, rfl, ?_, by linarith⟩, ?_⟩
    · have : Real.exp ((l - v) / s) ≤ 1 := Real.exp_le_one_iff.2 (div_nonpos_of_nonpos_of_nonneg (by linarith) hs.le)
      linarith
    · have e : 1 - (1 - Real.exp ((l - v) / s)) = Real.exp ((l - v) / s) := by ring
      rw [e, Real.log_exp]
      congr 1
      field_simp
      ring
  · rw [fi_v2u_inf _ hs, fi_u2v_one _ _ le_rfl]
    exact ⟨⟨1, rfl, zero_le_one, le_rfl⟩, rfl⟩
  · rename_i v
    have hp := Real.exp_pos ((v - w) / s)
    rw [if_v2u _ hs, if_u2v _ _ hp]
    refine ⟨⟨_, rfl, hp.le, Real.exp_le_one_iff.2 (div_nonpos_of_nonpos_of_nonneg (by linarith) hs.le)⟩, ?_⟩
    rw [Real.log_exp]
    congr 1
    field_simp
    ring
  · rw [if_v2u_inf _ hs, if_u2v_zero _ _ le_rfl]
    exact ⟨⟨0, rfl, le_rfl, zero_le_one⟩, rfl⟩
  · rename_i v
    rcases le_or_gt v m with hv | hv
    · have hp := Real.exp_pos ((v - m) / s)
      have hle : Real.exp ((v - m) / s) ≤ 1 :=
        Real.exp_le_one_iff.2 (div_nonpos_of_nonpos_of_nonneg (by linarith) hs.le)
      rw [ii_v2u_lo hs _ hv, ii_u2v_lo _ _ (by linarith) (by linarith)]
      refine ⟨⟨_, rfl, by linarith, by linarith⟩, ?_⟩
      have e : 2 * (Real.exp ((v - m) / s) / 2) = Real.exp ((v - m) / s) := by ring
      rw [e, Real.log_exp]
      congr 1
      field_simp
      ring
    · have hp := Real.exp_pos (-(v - m) / s)
      have hle : Real.exp (-(v - m) / s) ≤ 1 :=
        Real.exp_le_one_iff.2 (div_nonpos_of_nonpos_of_nonneg (by linarith) hs.le)
      rw [ii_v2u_hi hs _ hv, ii_u2v_hi _ _ (by linarith) (by linarith)]
      refine ⟨⟨_, rfl, by linarith, by linarith⟩, ?_⟩
      have e : 2 * (1 - (1 - Real.exp (-(v - m) / s) / 2)) = Real.exp (-(v - m) / s) := by ring
      rw [e, Real.log_exp]
      congr 1
      field_simp
      ring
  · rw [ii_v2u_inf hs, ii_u2v_one _ _ le_rfl]
    exact ⟨⟨1, rfl, zero_le_one, le_rfl⟩, rfl⟩
  · rw [ii_v2u_ninf hs, ii_u2v_zero _ _ le_rfl]
    exact ⟨⟨0, rfl, le_rfl, zero_le_one⟩, rfl⟩

/-- C57, from the unit interval: a larger number gives a larger value (ends included). -/
theorem C57_value {d : Dom N ℝ} (h : Proper d) {u u' : XR ℝ} (hu : InUnit u) (hu' : InUnit u')
    (hlt : XR.lt u u' = true) :
    XR.lt ((getConverter d).uniform2value u) ((getConverter d).uniform2value u') = true := by
  obtain ⟨x, rfl, h0, h1⟩ := (inUnit_iff u).1 hu
  obtain ⟨y, rfl, k0, k1⟩ := (inUnit_iff u').1 hu'
  simp only [XR.lt_fin, decide_eq_true_eq] at hlt
  rcases h.shapes with ⟨l, w, hlw, hl, hw, hc⟩ | ⟨l, s, hs, hl, hw, hc⟩ | ⟨w, s, hs, hl, hw, hc⟩ |
    ⟨s, m, hs, hl, hw, hc⟩ <;> rw [hc]
  · rw [ff_u2v, ff_u2v]
    simp only [XR.lt_fin, decide_eq_true_eq]
    nlinarith
  · rw [fi_u2v _ _ (by linarith)]
    rcases k1.lt_or_eq with k1 | rfl
    · rw [fi_u2v _ _ k1]
      simp only [XR.lt_fin, decide_eq_true_eq]
      have := Real.log_lt_log (by linarith : 0 < 1 - y) (by linarith : 1 - y < 1 - x)
      nlinarith
    · rw [fi_u2v_one _ _ le_rfl]
      rfl
  · rw [if_u2v _ _ (by linarith : 0 < y)]
    rcases h0.lt_or_eq with h0 | rfl
    · rw [if_u2v _ _ h0]
      simp only [XR.lt_fin, decide_eq_true_eq]
      have := Real.log_lt_log h0 hlt
      nlinarith
    · rw [if_u2v_zero _ _ le_rfl]
      rfl
  · rcases k1.lt_or_eq with k1 | rfl
    · rcases h0.lt_or_eq with h0 | rfl
      · rcases le_or_gt y (1 / 2) with hy | hy
        · rw [ii_u2v_lo _ _ (by linarith) h0, ii_u2v_lo _ _ hy (by linarith)]
          simp only [XR.lt_fin, decide_eq_true_eq]
          have := Real.log_lt_log (by linarith : 0 < 2 * x) (by linarith : 2 * x < 2 * y)
          nlinarith
        · rw [ii_u2v_hi _ _ hy.le k1]
          have hn := Real.log_neg (by linarith : 0 < 2 * (1 - y)) (by linarith)
          rcases le_or_gt x (1 / 2) with hx | hx
          · rw [ii_u2v_lo _ _ hx h0]
            simp only [XR.lt_fin, decide_eq_true_eq]
            have := Real.log_nonpos (by linarith : 0 ≤ 2 * x) (by linarith)
            nlinarith
          · rw [ii_u2v_hi _ _ hx.le (by linarith)]
            simp only [XR.lt_fin, decide_eq_true_eq]
            have := Real.log_lt_log (by linarith : 0 < 2 * (1 - y)) (by linarith : 2 * (1 - y) < 2 * (1 - x))
            nlinarith
      · rw [ii_u2v_zero _ _ le_rfl]
        rcases le_or_gt y (1 / 2) with hy | hy
        · rw [ii_u2v_lo _ _ hy hlt]; rfl
        · rw [ii_u2v_hi _ _ hy.le k1]; rfl
    · rw [ii_u2v_one _ _ le_rfl]
      rcases h0.lt_or_eq with h0 | rfl
      · rcases le_or_gt x (1 / 2) with hx | hx
        · rw [ii_u2v_lo _ _ hx h0]; rfl
        · rw [ii_u2v_hi _ _ hx.le hlt]; rfl
      · rw [ii_u2v_zero _ _ le_rfl]; rfl

/-- C57, from the domain: a larger value gives a larger number (infinite ends included). -/
theorem C57_uniform {d : Dom N ℝ} (h : Proper d) {v v' : XR ℝ} (hv : InDom d v) (hv' : InDom d v')
    (hlt : XR.lt v v' = true) :
    XR.lt ((getConverter d).value2uniform v) ((getConverter d).value2uniform v') = true := by
  obtain ⟨hu, e⟩ := C56_uniform h hv
  obtain ⟨hu', e'⟩ := C56_uniform h hv'
  have nn : ∀ {w : XR ℝ}, InUnit w → w ≠ .nan := by
    rintro w hw rfl
    obtain ⟨x, hx, -⟩ := (inUnit_iff _).1 hw
    cases hx
  by_contra hc
  have hle := XR.le_of_not_lt (nn hu) (nn hu') (by simpa using hc)
  by_cases he : (getConverter d).value2uniform v' = (getConverter d).value2uniform v
  · rw [← e, ← e', he, XR.lt_irrefl] at hlt
    cases hlt
  · have h1 : XR.lt ((getConverter d).value2uniform v') ((getConverter d).value2uniform v) = true := by
      rcases XR.lt_or_le (nn hu') (nn hu) with h2 | h2
      · exact h2
      · exact absurd (XR.le_antisymm hle h2) he
    have h2 := C57_value h hu' hu h1
    rw [e, e'] at h2
    have h3 := XR.lt_of_lt_of_le hlt (XR.le_of_lt h2)
    rw [XR.lt_irrefl] at h3
    cases h3

/-! ### Concrete cases -/

/-- The four domains of the script at the end of converter.py. -/
def domFF : Dom String ℝ := ⟨"Fin-Fin", .fin (-7), .fin 7, .fin 0, .fin 1⟩
def domFI : Dom String ℝ := ⟨"Fin-Inf", .fin (-7), .pinf, .fin 0, .fin 30⟩
def domIF : Dom String ℝ := ⟨"Inf-Fin", .ninf, .fin 3, .fin 0, .fin 20⟩
def domII : Dom String ℝ := ⟨"Inf-Inf", .ninf, .pinf, .fin 7, .fin 20⟩

theorem proper_FF : Proper domFF :=
  ⟨by norm_num [domFF], ⟨0, rfl⟩, ⟨1, by norm_num, rfl⟩⟩
theorem proper_FI : Proper domFI := ⟨rfl, ⟨0, rfl⟩, ⟨30, by norm_num, rfl⟩⟩
theorem proper_IF : Proper domIF := ⟨rfl, ⟨0, rfl⟩, ⟨20, by norm_num, rfl⟩⟩
theorem proper_II : Proper domII := ⟨rfl, ⟨7, rfl⟩, ⟨20, by norm_num, rfl⟩⟩

theorem inUnit_quarter : InUnit (.fin (1 / 4)) := (inUnit_iff _).2 ⟨_, rfl, by norm_num, by norm_num⟩
theorem inUnit_one : InUnit (.fin 1) := (inUnit_iff _).2 ⟨_, rfl, by norm_num, by norm_num⟩

example : (getConverter domFF).value2uniform ((getConverter domFF).uniform2value (.fin (1 / 4))) = .fin (1 / 4) :=
  (C56_value proper_FF inUnit_quarter).2
example : (getConverter domFI).value2uniform ((getConverter domFI).uniform2value (.fin 1)) = .fin 1 :=
  (C56_value proper_FI inUnit_one).2
example : (getConverter domII).value2uniform ((getConverter domII).uniform2value (.fin (1 / 4))) = .fin (1 / 4) :=
  (C56_value proper_II inUnit_quarter).2
example : (getConverter domIF).uniform2value ((getConverter domIF).value2uniform .ninf) = .ninf :=
  (C56_uniform proper_IF ⟨rfl, rfl⟩).2
example : XR.lt ((getConverter domII).uniform2value (.fin (1 / 4))) ((getConverter domII).uniform2value (.fin 1)) = true :=
  C57_value proper_II inUnit_quarter inUnit_one (by norm_num)
example : XR.lt ((getConverter domFF).value2uniform (.fin 2)) ((getConverter domFF).value2uniform (.fin 3)) = true :=
  C57_uniform proper_FF (by constructor <;> norm_num [domFF]) (by constructor <;> norm_num [domFF])
    (by norm_num)

/-! ### C89: any location and scale -/

/-- C89, what holds: with a finite location and a finite non-negative scale, zero included, every number of the unit
interval is mapped into the domain. -/
theorem C89_partial {d : Dom N ℝ} (he : XR.lt d.lower d.upper = true) {m s : ℝ} (hm : d.loc = .fin m)
    (hs : 0 ≤ s) (hsc : d.scale = .fin s) {u : XR ℝ} (hu : InUnit u) :
    InDom d ((getConverter d).uniform2value u) := by
  rcases hs.lt_or_eq with hs | rfl
  · exact (C56_value ⟨he, ⟨m, hm⟩, ⟨s, hs, hsc⟩⟩ hu).1
  obtain ⟨x, rfl, h0, h1⟩ := (inUnit_iff u).1 hu
  unfold InDom
  cases hl : d.lower <;> cases hw : d.upper <;> rw [hl, hw] at he <;> simp [XR.lt] at he
  · rename_i l w
    rw [show getConverter d = .FF (.fin l) (.fin w) by simp [getConverter, hl, hw, XR.isInf], ff_u2v]
    simp only [XR.le_fin, decide_eq_true_eq]
    constructor <;> nlinarith
  · rename_i l
    rw [show getConverter d = .FI (.fin l) (.fin 0) by simp [getConverter, hl, hw, hsc, XR.isInf]]
    rcases h1.lt_or_eq with h1 | rfl
    · rw [fi_u2v _ _ h1]
      simp [XR.le]
    · rw [fi_u2v_one _ _ le_rfl]
      exact ⟨rfl, rfl⟩
  · rename_i w
    rw [show getConverter d = .IF (.fin w) (.fin 0) by simp [getConverter, hl, hw, hsc, XR.isInf]]
    rcases h0.lt_or_eq with h0 | rfl
    · rw [if_u2v _ _ h0]
      simp [XR.le]
    · rw [if_u2v_zero _ _ le_rfl]
      exact ⟨rfl, rfl⟩
  · rw [show getConverter d = .II (.fin 0) (.fin m) by simp [getConverter, hl, hw, hsc, hm, XR.isInf]]
    rcases h0.lt_or_eq with h0 | rfl
    · rcases h1.lt_or_eq with h1 | rfl
      · rcases le_or_gt x (1 / 2) with hx | hx
        · rw [ii_u2v_lo _ _ hx h0]
          exact ⟨rfl, rfl⟩
        · rw [ii_u2v_hi _ _ hx.le h1]
          exact ⟨rfl, rfl⟩
      · rw [ii_u2v_one _ _ le_rfl]
        exact ⟨rfl, rfl⟩
    · rw [ii_u2v_zero _ _ le_rfl]
      exact ⟨rfl, rfl⟩

example : InDom (⟨"x", .fin 2, .pinf, .fin 2, .fin 0⟩ : Dom String ℝ)
    ((getConverter ⟨"x", .fin 2, .pinf, .fin 2, .fin 0⟩ : Converter).uniform2value (.fin (1 / 4))) :=
  C89_partial rfl rfl le_rfl rfl inUnit_quarter

/-- C89 fails for an infinite scale, as a distribution without a second moment reports it: the lower end of the unit
interval is mapped to NaN. -/
theorem C89_refuted :
    (getConverter (⟨"x", .fin 2, .pinf, .pinf, .pinf⟩ : Dom String ℝ)).uniform2value (.fin 0) = .nan := by
  have h : xlog (.fin 1 - .fin 0) = .fin 0 := by
    rw [XR.fin_sub_fin, sub_zero, xlog_pos one_pos, Real.log_one]
  have h2 : XR.le (.fin 1) (.fin (0 : ℝ)) = false := by simp
  simp only [getConverter, Converter.uniform2value, XR.isInf, h2, h, XR.neg_fin, neg_zero, if_true, if_false,
    Bool.false_eq_true]
  have h3 : (XR.fin (0 : ℝ)) * (XR.pinf : XR ℝ) = .nan := by
    show XR.mul _ _ = _
    simp [XR.mul, XR.scaleInf]
  rw [h3]
  rfl

end Props.Converter
