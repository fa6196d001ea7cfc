import Verif.Model.Toys
import Mathlib.Analysis.ODE.ExistUnique
import Mathlib.Analysis.Calculus.ContDiff.RCLike
import Mathlib.Analysis.Calculus.LocalExtr.Rolle
import Mathlib.Analysis.SpecialFunctions.Log.Deriv
import Mathlib.Analysis.SpecialFunctions.ExpDeriv
import Mathlib.Analysis.Calculus.MeanValue
import Mathlib.Analysis.Calculus.Deriv.MeanValue

/-!
# Solutions of the SIR equations

What follows from the differential equations of /repo/src/sims_pars/fit/toys.py:93-103 alone.
-/

namespace Lemmas.Sir

open Set Model

/-- `y` solves the initial value problem that is handed to `solve_ivp`, on `[0, 10]`. -/
structure IsSolution (be ga : ℝ) (y : ℝ → Sir ℝ) : Prop where
  start : y 0 = sirStart
  ds : ∀ t ∈ Icc (0 : ℝ) 10, HasDerivWithinAt (fun t => (y t).s) (sirDeriv be ga (y t)).s (Icc 0 10) t
  di : ∀ t ∈ Icc (0 : ℝ) 10, HasDerivWithinAt (fun t => (y t).i) (sirDeriv be ga (y t)).i (Icc 0 10) t
  dr : ∀ t ∈ Icc (0 : ℝ) 10, HasDerivWithinAt (fun t => (y t).r) (sirDeriv be ga (y t)).r (Icc 0 10) t

theorem toIci {T : ℝ} {f : ℝ → ℝ} {f' t : ℝ} (ht : t ∈ Ico 0 T) (h : HasDerivWithinAt f f' (Icc 0 T) t) :
    HasDerivWithinAt f f' (Ici t) t :=
  h.mono_of_mem_nhdsWithin (Icc_mem_nhdsGE_of_mem ht)

/-- A function whose derivative vanishes on `[0, T]` is constant there. -/
theorem const_of_deriv {T : ℝ} {f : ℝ → ℝ} (h : ∀ t ∈ Icc 0 T, HasDerivWithinAt f 0 (Icc 0 T) t) :
    ∀ t ∈ Icc 0 T, f t = f 0 :=
  constant_of_has_deriv_right_zero (fun t ht => (h t ht).continuousWithinAt)
    (fun t ht => toIci ht (h t ⟨ht.1, ht.2.le⟩))

/-- A solution of `x' = a x` that starts positive stays positive. -/
theorem pos_of_linear {T : ℝ} {x a : ℝ → ℝ} (hx : ∀ t ∈ Icc 0 T, HasDerivWithinAt x (a t * x t) (Icc 0 T) t)
    (ha : ContinuousOn a (Icc 0 T)) (h0 : 0 < x 0) : ∀ t ∈ Icc 0 T, 0 < x t := by
  obtain ⟨M, hM⟩ := (isCompact_Icc (a := (0 : ℝ)) (b := T)).exists_bound_of_continuousOn ha
  have key : ∀ ⦃t⦄, t ∈ Icc 0 T → -x t ≤ -(x 0 / 2 * Real.exp (-(M + 1) * t)) := by
    refine image_le_of_deriv_right_lt_deriv_boundary (f' := fun t => -(a t * x t))
      (B' := fun t => -(x 0 / 2 * (Real.exp (-(M + 1) * t) * -(M + 1)))) ?_ ?_ ?_ ?_ ?_
    · exact fun t ht => (hx t ht).continuousWithinAt.neg
    · exact fun t ht => (toIci ht (hx t ⟨ht.1, ht.2.le⟩)).neg
    · simp only [mul_zero, Real.exp_zero, mul_one]; linarith
    · intro t
      have h1 : HasDerivAt (fun t : ℝ => -(M + 1) * t) (-(M + 1)) t := by
        simpa using (hasDerivAt_id t).const_mul (-(M + 1))
      exact ((h1.exp).const_mul (x 0 / 2)).neg
    · intro t ht heq
      have hxt : x t = x 0 / 2 * Real.exp (-(M + 1) * t) := by linarith
      have hpos : 0 < x 0 / 2 * Real.exp (-(M + 1) * t) := by positivity
      have hb := hM t ⟨ht.1, ht.2.le⟩
      rw [Real.norm_eq_abs] at hb
      have hb' := (abs_le.1 hb).1
      rw [hxt]
      nlinarith
  intro t ht
  have := key ht
  have hpos : 0 < x 0 / 2 * Real.exp (-(M + 1) * t) := by positivity
  linarith

variable {be ga : ℝ} {y : ℝ → Sir ℝ}

theorem IsSolution.total (h : IsSolution be ga y) : ∀ t ∈ Icc (0 : ℝ) 10, (y t).total = 1000 := by
  intro t ht
  have := const_of_deriv (T := 10) (f := fun t => (y t).total) (fun t ht => by
    have := ((h.ds t ht).add (h.di t ht)).add (h.dr t ht)
    have e : (sirDeriv be ga (y t)).s + (sirDeriv be ga (y t)).i + (sirDeriv be ga (y t)).r = 0 := by
      simp only [sirDeriv]; ring
    rw [e] at this
    exact this) t ht
  beta_reduce at this
  rw [this, h.start]
  norm_num [Sir.total, sirStart]

theorem IsSolution.cs (h : IsSolution be ga y) : ContinuousOn (fun t => (y t).s) (Icc 0 10) :=
  fun t ht => (h.ds t ht).continuousWithinAt

theorem IsSolution.ci (h : IsSolution be ga y) : ContinuousOn (fun t => (y t).i) (Icc 0 10) :=
  fun t ht => (h.di t ht).continuousWithinAt

theorem IsSolution.cr (h : IsSolution be ga y) : ContinuousOn (fun t => (y t).r) (Icc 0 10) :=
  fun t ht => (h.dr t ht).continuousWithinAt

theorem IsSolution.s_pos (h : IsSolution be ga y) : ∀ t ∈ Icc (0 : ℝ) 10, 0 < (y t).s := by
  refine pos_of_linear (a := fun t => -be * (y t).i / 1000) (fun t ht => ?_)
    ((continuousOn_const.mul h.ci).div_const _) ?_
  · have := h.ds t ht
    simp only [sirDeriv, h.total t ht] at this
    convert this using 1
    ring
  · rw [h.start]; norm_num [sirStart]

theorem IsSolution.i_pos (h : IsSolution be ga y) : ∀ t ∈ Icc (0 : ℝ) 10, 0 < (y t).i := by
  refine pos_of_linear (a := fun t => be * (y t).s / 1000 - ga) (fun t ht => ?_)
    (((continuousOn_const.mul h.cs).div_const _).sub continuousOn_const) ?_
  · have := h.di t ht
    simp only [sirDeriv, h.total t ht] at this
    convert this using 1
    ring
  · rw [h.start]; norm_num [sirStart]

theorem toInterior {f : ℝ → ℝ} {f' t : ℝ} (ht : t ∈ interior (Icc (0 : ℝ) 10))
    (h : HasDerivWithinAt f f' (Icc 0 10) t) : HasDerivAt f f' t :=
  h.hasDerivAt (mem_interior_iff_mem_nhds.1 ht)

theorem IsSolution.s_anti (h : IsSolution be ga y) (hbe : 0 < be) : StrictAntiOn (fun t => (y t).s) (Icc 0 10) := by
  refine strictAntiOn_of_deriv_neg (convex_Icc _ _) h.cs (fun t ht => ?_)
  have hm := interior_subset ht
  rw [(toInterior ht (h.ds t hm)).deriv]
  simp only [sirDeriv, h.total t hm]
  have := h.s_pos t hm
  have := h.i_pos t hm
  have : 0 < be * (y t).s * (y t).i / 1000 := by positivity
  have e : -be * (y t).s * (y t).i / 1000 = -(be * (y t).s * (y t).i / 1000) := by ring
  linarith

theorem IsSolution.r_mono (h : IsSolution be ga y) (hga : 0 < ga) : StrictMonoOn (fun t => (y t).r) (Icc 0 10) := by
  refine strictMonoOn_of_deriv_pos (convex_Icc _ _) h.cr (fun t ht => ?_)
  have hm := interior_subset ht
  rw [(toInterior ht (h.dr t hm)).deriv]
  exact mul_pos hga (h.i_pos t hm)

theorem IsSolution.r_nonneg (h : IsSolution be ga y) (hga : 0 ≤ ga) : ∀ t ∈ Icc (0 : ℝ) 10, 0 ≤ (y t).r := by
  intro t ht
  have h0 : (y 0).r = 0 := by rw [h.start]; rfl
  rcases hga.eq_or_lt with rfl | hga
  · have := const_of_deriv (T := 10) (f := fun t => (y t).r) (fun t ht => by
      have := h.dr t ht
      simpa [sirDeriv] using this) t ht
    beta_reduce at this
    rw [this, h0]
  · have := (h.r_mono hga).monotoneOn ⟨le_rfl, by norm_num⟩ ht ht.1
    simp only [h0] at this
    exact this

/-- How many are susceptible follows from how many have been removed. -/
theorem IsSolution.s_eq (h : IsSolution be ga y) (hga : ga ≠ 0) :
    ∀ t ∈ Icc (0 : ℝ) 10, (y t).s = 990 * Real.exp (-be * (y t).r / (1000 * ga)) := by
  intro t ht
  have h0 : (y 0).r = 0 := by rw [h.start]; rfl
  have h1 : (y 0).s = 990 := by rw [h.start]; rfl
  have key := const_of_deriv (T := 10) (f := fun t => Real.log (y t).s + be * (y t).r / (1000 * ga)) (fun t ht => by
    have hs := h.s_pos t ht
    have := ((h.ds t ht).log hs.ne').add (((h.dr t ht).const_mul be).div_const (1000 * ga))
    refine this.congr_deriv ?_
    simp only [sirDeriv, h.total t ht]
    field_simp
    ring) t ht
  simp only [h0, h1, mul_zero, zero_div, add_zero] at key
  have hs := h.s_pos t ht
  have e : Real.log (y t).s = Real.log 990 + -be * (y t).r / (1000 * ga) := by
    rw [← key]; ring
  rw [← Real.exp_log hs, e, Real.exp_add, Real.exp_log (by norm_num)]

/-- The quantity `be (s + i) - ga n log s` does not change. -/
theorem IsSolution.first_integral (h : IsSolution be ga y) : ∀ t ∈ Icc (0 : ℝ) 10,
    be * ((y t).s + (y t).i) - ga * 1000 * Real.log (y t).s = be * 1000 - ga * 1000 * Real.log 990 := by
  intro t ht
  have key := const_of_deriv (T := 10) (f := fun t => be * ((y t).s + (y t).i) - ga * 1000 * Real.log (y t).s)
    (fun t ht => by
      have hs := h.s_pos t ht
      have := (((h.ds t ht).add (h.di t ht)).const_mul be).sub (((h.ds t ht).log hs.ne').const_mul (ga * 1000))
      refine this.congr_deriv ?_
      simp only [sirDeriv, h.total t ht]
      field_simp
      ring) t ht
  beta_reduce at key
  rw [key, h.start]
  norm_num [sirStart]

/-! ### Existence and uniqueness -/

/-- The rate at which people are removed, as a function of how many have been removed. -/
noncomputable def rate (be ga r : ℝ) : ℝ := ga * (1000 - r - 990 * Real.exp (-be * r / (1000 * ga)))

theorem rate_contDiff (be ga : ℝ) : ContDiff ℝ 1 (rate be ga) := by
  unfold rate
  fun_prop

theorem rate_lipschitz (be ga : ℝ) : ∃ k, LipschitzOnWith k (rate be ga) (Icc 0 1000) :=
  (((rate_contDiff be ga).locallyLipschitz).locallyLipschitzOn).exists_lipschitzOnWith_of_compact isCompact_Icc

theorem IsSolution.r_le (h : IsSolution be ga y) : ∀ t ∈ Icc (0 : ℝ) 10, (y t).r ≤ 1000 := by
  intro t ht
  have := h.total t ht
  have := h.s_pos t ht
  have := h.i_pos t ht
  unfold Sir.total at *
  linarith

theorem IsSolution.r_rate (h : IsSolution be ga y) (hga : ga ≠ 0) :
    ∀ t ∈ Icc (0 : ℝ) 10, HasDerivWithinAt (fun t => (y t).r) (rate be ga (y t).r) (Icc 0 10) t := by
  intro t ht
  refine (h.dr t ht).congr_deriv ?_
  have h1 := h.total t ht
  have h2 := h.s_eq hga t ht
  unfold Sir.total at h1
  simp only [sirDeriv, rate]
  rw [← h2, ← h1]
  ring

/-- Two solutions are the same on `[0, 10]`. -/
theorem IsSolution.unique {z : ℝ → Sir ℝ} (hga : 0 < ga) (h : IsSolution be ga y) (h' : IsSolution be ga z) :
    ∀ t ∈ Icc (0 : ℝ) 10, y t = z t := by
  obtain ⟨k, hk⟩ := rate_lipschitz be ga
  have hr : EqOn (fun t => (y t).r) (fun t => (z t).r) (Icc 0 10) := by
    refine ODE_solution_unique_of_mem_Icc_right (v := fun _ => rate be ga) (s := fun _ => Icc 0 1000) (K := k)
      (fun _ _ => hk) h.cr (fun t ht => toIci ht (h.r_rate hga.ne' t ⟨ht.1, ht.2.le⟩)) ?_ h'.cr
      (fun t ht => toIci ht (h'.r_rate hga.ne' t ⟨ht.1, ht.2.le⟩)) ?_ ?_
    · exact fun t ht => ⟨h.r_nonneg hga.le t ⟨ht.1, ht.2.le⟩, h.r_le t ⟨ht.1, ht.2.le⟩⟩
    · exact fun t ht => ⟨h'.r_nonneg hga.le t ⟨ht.1, ht.2.le⟩, h'.r_le t ⟨ht.1, ht.2.le⟩⟩
    · show (y 0).r = (z 0).r
      rw [h.start, h'.start]
  intro t ht
  have e1 : (y t).r = (z t).r := hr ht
  have e2 : (y t).s = (z t).s := by rw [h.s_eq hga.ne' t ht, h'.s_eq hga.ne' t ht, e1]
  have e3 : (y t).i = (z t).i := by
    have a := h.total t ht
    have b := h'.total t ht
    unfold Sir.total at a b
    linarith
  exact Sir.ext e2 e3 e1

/-- There is a solution on the whole of `[0, 10]`. -/
theorem exists_solution (be : ℝ) {ga : ℝ} (hga : 0 < ga) : ∃ y, IsSolution be ga y := by
  obtain ⟨k, hk⟩ := rate_lipschitz be ga
  obtain ⟨M, hM⟩ := (isCompact_Icc (a := (0 : ℝ)) (b := 1000)).exists_bound_of_continuousOn
    (rate_contDiff be ga).continuous.continuousOn
  have h01 : (0 : ℝ) ≤ 1000 := by norm_num
  set f : ℝ → ℝ := fun x => rate be ga (projIcc 0 1000 h01 x) with hf
  have hlip : LipschitzWith (k * 1) f := by
    refine LipschitzWith.comp (g := projIcc 0 1000 h01) (f := fun x : Icc (0 : ℝ) 1000 => rate be ga x) ?_
      (LipschitzWith.projIcc h01)
    exact hk.to_restrict
  have hb : ∀ x, ‖f x‖ ≤ M.toNNReal := by
    intro x
    have := hM _ (projIcc 0 1000 h01 x).2
    rw [Real.coe_toNNReal M ((norm_nonneg _).trans this)]
    exact this
  have hp : IsPicardLindelof (fun _ => f) (⟨0, by norm_num, by norm_num⟩ : Icc (0 : ℝ) 10) 0 (M.toNNReal * 10) 0
      M.toNNReal (k * 1) := by
    refine .of_time_independent (fun x _ => hb x) (hlip.lipschitzOnWith) ?_
    norm_num
  obtain ⟨r, hr0, hr⟩ := hp.exists_eq_forall_mem_Icc_hasDerivWithinAt₀
  replace hr0 : r 0 = 0 := hr0
  have hc : ContinuousOn r (Icc 0 10) := fun t ht => (hr t ht).continuousWithinAt
  have hlo : ∀ t ∈ Icc (0 : ℝ) 10, 0 ≤ r t := by
    have := image_le_of_deriv_right_lt_deriv_boundary (f := fun t => -r t) (f' := fun t => -f (r t)) (a := 0) (b := 10)
      (B := fun _ => 0) (B' := fun _ => 0) hc.neg (fun t ht => (toIci ht (hr t ⟨ht.1, ht.2.le⟩)).neg)
      (by simp [hr0]) (fun t => hasDerivAt_const t 0) (fun t ht he => by
        have e : r t = 0 := by linarith
        simp only [hf, e, projIcc_of_mem h01 (⟨le_rfl, h01⟩ : (0 : ℝ) ∈ Icc 0 1000), rate, mul_zero, zero_div,
          Real.exp_zero]
        nlinarith)
    intro t ht
    have := this ht
    beta_reduce at this
    linarith
  have hup : ∀ t ∈ Icc (0 : ℝ) 10, r t ≤ 1000 := by
    have := image_le_of_deriv_right_lt_deriv_boundary (f := r) (f' := fun t => f (r t)) (a := 0) (b := 10)
      (B := fun _ => 1000) (B' := fun _ => 0) hc (fun t ht => (toIci ht (hr t ⟨ht.1, ht.2.le⟩)))
      (by simp [hr0]) (fun t => hasDerivAt_const t 1000) (fun t ht he => by
        simp only [hf, he, projIcc_of_mem h01 (⟨h01, le_rfl⟩ : (1000 : ℝ) ∈ Icc 0 1000), rate, sub_self, zero_sub]
        have := Real.exp_pos (-be * 1000 / (1000 * ga))
        nlinarith)
    exact fun t ht => this ht
  have hr' : ∀ t ∈ Icc (0 : ℝ) 10, HasDerivWithinAt r (rate be ga (r t)) (Icc 0 10) t := by
    intro t ht
    have := hr t ht
    simpa only [hf, projIcc_of_mem h01 (⟨hlo t ht, hup t ht⟩ : r t ∈ Icc 0 1000)] using this
  have hs' : ∀ t ∈ Icc (0 : ℝ) 10, HasDerivWithinAt (fun t => 990 * Real.exp (-be * r t / (1000 * ga)))
      (990 * (Real.exp (-be * r t / (1000 * ga)) * (-be * rate be ga (r t) / (1000 * ga)))) (Icc 0 10) t :=
    fun t ht => ((((hr' t ht).const_mul (-be)).div_const (1000 * ga)).exp).const_mul 990
  refine ⟨fun t => ⟨990 * Real.exp (-be * r t / (1000 * ga)),
    1000 - r t - 990 * Real.exp (-be * r t / (1000 * ga)), r t⟩, ?_, ?_, ?_, ?_⟩
  · simp only [hr0, mul_zero, zero_div, Real.exp_zero, sirStart]
    norm_num
  · intro t ht
    refine (hs' t ht).congr_deriv ?_
    simp only [sirDeriv, rate, Sir.total]
    rw [show ∀ a b : ℝ, a + (1000 - b - a) + b = 1000 by intros; ring]
    field_simp
  · intro t ht
    refine (((hr' t ht).const_sub 1000).sub (hs' t ht)).congr_deriv ?_
    simp only [sirDeriv, rate, Sir.total]
    rw [show ∀ a b : ℝ, a + (1000 - b - a) + b = 1000 by intros; ring]
    field_simp
    ring
  · intro t ht
    exact hr' t ht

/-! ### Identification -/

/-- An interior turning point of the epidemic lies where `be s = ga n`. -/
theorem IsSolution.turn (h : IsSolution be ga y) {a b : ℝ} (ha : 0 ≤ a) (hab : a < b) (hb : b ≤ 10)
    (he : (y a).i = (y b).i) : ∃ t ∈ Ioo a b, be * (y t).s = 1000 * ga := by
  have hsub : Icc a b ⊆ Icc 0 10 := Icc_subset_Icc ha hb
  obtain ⟨t, ht, hd⟩ := exists_deriv_eq_zero hab (h.ci.mono hsub) he
  have hm : t ∈ Icc (0 : ℝ) 10 := hsub ⟨ht.1.le, ht.2.le⟩
  have hi : t ∈ interior (Icc (0 : ℝ) 10) := by
    rw [interior_Icc]
    exact ⟨ha.trans_lt ht.1, ht.2.trans_le hb⟩
  rw [(toInterior hi (h.di t hm)).deriv] at hd
  simp only [sirDeriv, h.total t hm] at hd
  refine ⟨t, ht, ?_⟩
  have hp := h.i_pos t hm
  have : (be * (y t).s / 1000 - ga) * (y t).i = 0 := by rw [← hd]; ring
  rcases mul_eq_zero.1 this with h | h
  · linarith
  · exact absurd h hp.ne'

/-- Prevalence and incidence at three times determine the transmission rate. -/
theorem IsSolution.identify {be' : ℝ} {z : ℝ → Sir ℝ} (hbe : 0 < be) (hbe' : 0 < be') (hga : 0 < ga)
    (h : IsSolution be ga y) (h' : IsSolution be' ga z) {a b c : ℝ} (ha : 0 ≤ a) (hab : a < b) (hbc : b < c)
    (hc : c ≤ 10)
    (hi : ∀ t ∈ ({a, b, c} : Set ℝ), (y t).i = (z t).i)
    (hs : ∀ t ∈ ({a, b, c} : Set ℝ), be * (y t).s = be' * (z t).s) : be = be' := by
  by_contra hne
  have ma : a ∈ Icc (0 : ℝ) 10 := ⟨ha, by linarith⟩
  have mb : b ∈ Icc (0 : ℝ) 10 := ⟨by linarith, by linarith⟩
  have mc : c ∈ Icc (0 : ℝ) 10 := ⟨by linarith, hc⟩
  have log_eq : ∀ t ∈ Icc (0 : ℝ) 10, be * (y t).s = be' * (z t).s →
      Real.log be - be * (y t).r / (1000 * ga) = Real.log be' - be' * (z t).r / (1000 * ga) := by
    intro t ht he
    rw [h.s_eq hga.ne' t ht, h'.s_eq hga.ne' t ht] at he
    have := congrArg Real.log he
    rw [Real.log_mul hbe.ne' (by positivity), Real.log_mul hbe'.ne' (by positivity), Real.log_mul (by norm_num) (by positivity),
      Real.log_mul (by norm_num) (by positivity), Real.log_exp, Real.log_exp] at this
    have e1 : -be * (y t).r / (1000 * ga) = -(be * (y t).r / (1000 * ga)) := by ring
    have e2 : -be' * (z t).r / (1000 * ga) = -(be' * (z t).r / (1000 * ga)) := by ring
    rw [e1, e2] at this
    linarith
  have step : ∀ t ∈ Icc (0 : ℝ) 10, ∀ u ∈ Icc (0 : ℝ) 10, (y t).i = (z t).i → (y u).i = (z u).i →
      be * (y t).s = be' * (z t).s → be * (y u).s = be' * (z u).s → (y t).i = (y u).i := by
    intro t ht u hu it iu st su
    have l1 := log_eq t ht st
    have l2 := log_eq u hu su
    have l3 : be * ((y t).r - (y u).r) = be' * ((z t).r - (z u).r) := by
      have : be * (y t).r / (1000 * ga) - be * (y u).r / (1000 * ga) =
          be' * (z t).r / (1000 * ga) - be' * (z u).r / (1000 * ga) := by linarith
      field_simp at this
      linarith
    have t1 := h.total t ht
    have t2 := h.total u hu
    have t3 := h'.total t ht
    have t4 := h'.total u hu
    unfold Sir.total at t1 t2 t3 t4
    have r1 : (z t).r = (y t).r + (y t).s - (z t).s := by linarith
    have r2 : (z u).r = (y u).r + (y u).s - (z u).s := by linarith
    have : (be' - be) * ((y t).r + (y t).s - ((y u).r + (y u).s)) = 0 := by
      rw [r1, r2] at l3
      linear_combination -l3 - st + su
    rcases mul_eq_zero.1 this with h | h
    · exact absurd (by linarith) hne
    · linarith
  have i1 := step a ma b mb (hi a (by simp)) (hi b (by simp)) (hs a (by simp)) (hs b (by simp))
  have i2 := step b mb c mc (hi b (by simp)) (hi c (by simp)) (hs b (by simp)) (hs c (by simp))
  obtain ⟨t, ht, et⟩ := h.turn ha hab (by linarith) i1
  obtain ⟨u, hu, eu⟩ := h.turn (by linarith) hbc hc i2
  have := h.s_anti hbe (a := t) (b := u) ⟨by linarith [ht.1], by linarith [ht.2]⟩ ⟨by linarith [hu.1], by linarith [hu.2]⟩
    (by linarith [ht.2, hu.1])
  beta_reduce at this
  nlinarith

end Lemmas.Sir
