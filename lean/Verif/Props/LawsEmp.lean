import Verif.Props.Empirical
import Verif.Props.LawsReg

/-!
# The law of empirical draws: C240 - C241
-/

namespace Props.LawsEmp

set_option linter.unusedSectionVars false

open Py Spec Model MeasureTheory Props.Empirical

theorem interp_line {K : Type} [Field K] [LinearOrder K] [IsStrictOrderedRing K] {t : K} (p : K × K) (rest : List (K × K))
    (hs : (p :: rest).Pairwise (fun a b => a.1 ≤ b.1)) {k : ℕ} {a b : K × K} (ha : (p :: rest)[k]? = some a)
    (hb : (p :: rest)[k + 1]? = some b) (h1 : a.1 ≤ t) (h2 : t < b.1) :
    interpFrom t p rest = (b.2 - a.2) / (b.1 - a.1) * (t - a.1) + a.2 := by
  induction rest generalizing p k with
  | nil => simp at hb
  | cons q rest ih =>
    rw [interpFrom]
    cases k with
    | zero =>
      simp only [List.getElem?_cons_zero, Option.some.injEq] at ha
      simp only [zero_add, List.getElem?_cons_succ, List.getElem?_cons_zero, Option.some.injEq] at hb
      subst ha hb
      rw [if_neg (not_le.2 h2)]
      split
      · rename_i h; rw [h, sub_self, mul_zero, zero_add]
      · rfl
    | succ k =>
      rw [List.getElem?_cons_succ] at ha hb
      obtain ⟨-, hs'⟩ := List.pairwise_cons.1 hs
      have hq : q.1 ≤ a.1 := by
        rcases List.mem_cons.1 (List.mem_of_getElem? ha) with rfl | h
        · exact le_rfl
        · exact (List.pairwise_cons.1 hs').1 a h
      rw [if_pos (hq.trans h1)]
      exact ih q hs' ha hb

/-- Between the shares of two neighbours the draw lies on the line between them. -/
theorem fn_line {xs ys : List ℝ} {e : Empirical ℝ} (h : Empirical.new xs ys = .ok e) (hx : xs.Pairwise (· < ·))
    (hy : ∀ y ∈ ys, 0 ≤ y) (hs : 0 < ys.sum) {k : ℕ} {a b : ℝ} (ha : xs[k]? = some a) (hb : xs[k + 1]? = some b)
    {u : ℝ} (h1 : share ys k ≤ u) (h2 : u < share ys (k + 1)) :
    e.fn u = (b - a) / (share ys (k + 1) - share ys k) * (u - share ys k) + a := by
  obtain ⟨ex, ey, hne, hl, mlo, mhi, -⟩ := new_ok h
  have hc : ((cumsum 0 ys).map (· / ys.sum)).Pairwise (· ≤ ·) := by
    rw [List.pairwise_map]
    exact (cumsum_sorted 0 ys hy).imp (fun hab => div_le_div_of_nonneg_right hab hs.le)
  have hz := zip_pairwise hc hx
  have hget : ∀ j c, xs[j]? = some c → (((cumsum 0 ys).map (· / ys.sum)).zip xs)[j]? = some (share ys j, c) := by
    intro j c hj
    have hjlt : j < xs.length := (List.getElem?_eq_some_iff.1 hj).1
    rw [List.getElem?_zip_eq_some]
    refine ⟨?_, hj⟩
    rw [List.getElem?_map, cumsum_get 0 ys j (by omega)]
    simp [share]
  have ga := hget k a ha
  have gb := hget (k + 1) b hb
  have hlast := fun c y => last_share ys hs.ne' (c := c) (x := y) hl
  have hle : share ys (k + 1) ≤ 1 := by
    rw [share, div_le_one hs]
    conv_rhs => rw [← List.take_append_drop (k + 1 + 1) ys, List.sum_append]
    have := List.sum_nonneg (l := ys.drop (k + 1 + 1)) (fun y hm => hy y (List.mem_of_mem_drop hm))
    linarith
  unfold Empirical.fn linear1d
  rw [ex, ey, List.Pairwise.insertionSort_eq (hz.imp (fun hab => hab.1))]
  generalize ((cumsum 0 ys).map (· / ys.sum)).zip xs = s at hz hlast ga gb
  cases s with
  | nil => simp at ga
  | cons p rest =>
    have hl1 : ((p :: rest).getLast (by simp)).1 = 1 :=
      (hlast _ ((p :: rest).getLast (by simp)).2 (List.getLast?_eq_getLast_of_ne_nil (by simp))).1
    simp only [hl1]
    rw [if_neg (not_lt.2 (h2.le.trans hle))]
    have hp : p.1 ≤ share ys k := by
      rcases List.mem_cons.1 (List.mem_of_getElem? ga) with h3 | h3
      · rw [← h3]
      · exact ((List.pairwise_cons.1 hz).1 _ h3).1
    rw [if_neg (not_lt.2 (hp.trans h1))]
    exact interp_line p rest (hz.imp (fun hab => hab.1)) ga gb h1 h2

theorem share_nonneg {ys : List ℝ} (hy : ∀ y ∈ ys, 0 ≤ y) (hs : 0 < ys.sum) (k : ℕ) : 0 ≤ share ys k :=
  div_nonneg (List.sum_nonneg (fun y hm => hy y (List.mem_of_mem_take hm))) hs.le

theorem share_le_one {ys : List ℝ} (hy : ∀ y ∈ ys, 0 ≤ y) (hs : 0 < ys.sum) (k : ℕ) : share ys k ≤ 1 := by
  rw [share, div_le_one hs]
  conv_rhs => rw [← List.take_append_drop (k + 1) ys, List.sum_append]
  have := List.sum_nonneg (l := ys.drop (k + 1)) (fun y hm => hy y (List.mem_of_mem_drop hm))
  linarith

/-- **C240**: for increasing values and weights that are not negative, a draw is at most a number between two neighbouring
values with the chance that is the share of the weights up to the lower, and of the weight of the upper the part that the
number has gone of the way: the weight of a value is spread evenly over the way to it from the one below. -/
theorem C240 {xs ys : List ℝ} {e : Empirical ℝ} (h : Empirical.new xs ys = .ok e) (hx : xs.Pairwise (· < ·))
    (hy : ∀ y ∈ ys, 0 ≤ y) (hs : 0 < ys.sum) {k : ℕ} {a b w : ℝ} (ha : xs[k]? = some a) (hb : xs[k + 1]? = some b)
    (hw : ys[k + 1]? = some w) {x : ℝ} (hax : a ≤ x) (hxb : x ≤ b) :
    volume.real {u | 0 ≤ u ∧ u < 1 ∧ e.fn u ≤ x} = ((ys.take (k + 1)).sum + w * ((x - a) / (b - a))) / ys.sum := by
  have hab : a < b := by
    obtain ⟨i1, rfl⟩ := List.getElem?_eq_some_iff.1 ha
    obtain ⟨i2, rfl⟩ := List.getElem?_eq_some_iff.1 hb
    exact List.pairwise_iff_getElem.1 hx _ _ i1 i2 (Nat.lt_succ_self k)
  have hd : 0 < b - a := by linarith
  have hsh : share ys (k + 1) - share ys k = w / ys.sum := by
    unfold share
    rw [List.take_add_one (i := k + 1), hw, List.sum_append]
    simp only [Option.toList_some, List.sum_cons, List.sum_nil]
    ring
  have hw0 : 0 ≤ w / ys.sum := div_nonneg (hy w (List.mem_of_getElem? hw)) hs.le
  set L := share ys k + w / ys.sum * ((x - a) / (b - a)) with hL
  have hr0 : 0 ≤ (x - a) / (b - a) := div_nonneg (by linarith) hd.le
  have hr1 : (x - a) / (b - a) ≤ 1 := by rw [div_le_one hd]; linarith
  have e0 : ((ys.take (k + 1)).sum + w * ((x - a) / (b - a))) / ys.sum = L := by
    rw [hL, share, add_div, mul_div_right_comm]
  have hk0 := share_nonneg hy hs k
  have hk1 := share_le_one hy hs (k + 1)
  have hLk : share ys k ≤ L := by rw [hL]; nlinarith
  have hL1 : L ≤ share ys (k + 1) := by rw [hL]; nlinarith
  -- where the draw lies on the line, it is compared with `x` as `u` is with `L`
  have hline : ∀ u, share ys k ≤ u → u < share ys (k + 1) → e.fn u = a + (b - a) * ((u - share ys k) / (w / ys.sum)) := by
    intro u h1 h2
    rw [fn_line h hx hy hs ha hb h1 h2, hsh]
    ring
  rw [e0]
  have hsub1 : Set.Ico 0 L ⊆ {u | 0 ≤ u ∧ u < 1 ∧ e.fn u ≤ x} := by
    rintro u ⟨hu0, hu1⟩
    refine ⟨hu0, by linarith, ?_⟩
    rcases lt_or_ge u (share ys k) with h1 | h1
    · exact ((fn_iff h hx hy hs ha (by linarith)).1 h1).trans hax
    · have h2 : u < share ys (k + 1) := by linarith
      have hwp : 0 < w / ys.sum := by linarith
      rw [hline u h1 h2]
      have : (u - share ys k) / (w / ys.sum) ≤ (x - a) / (b - a) := by
        rw [div_le_iff₀ hwp]; rw [hL] at hu1; linarith
      calc a + (b - a) * ((u - share ys k) / (w / ys.sum)) ≤ a + (b - a) * ((x - a) / (b - a)) := by gcongr
        _ = x := by rw [mul_div_cancel₀ _ hd.ne']; ring
  have hsub2 : {u | 0 ≤ u ∧ u < 1 ∧ e.fn u ≤ x} ⊆ Set.Icc 0 L ∪ {share ys (k + 1)} := by
    rintro u ⟨hu0, hu1, hf⟩
    by_contra hn
    simp only [Set.mem_union, Set.mem_Icc, Set.mem_singleton_iff, not_or, not_and, not_le] at hn
    have hu2 := hn.1 hu0
    rcases lt_trichotomy u (share ys (k + 1)) with h2 | h2 | h2
    · have h1 : share ys k ≤ u := by linarith
      have hwp : 0 < w / ys.sum := by linarith
      rw [hline u h1 h2] at hf
      have : (x - a) / (b - a) < (u - share ys k) / (w / ys.sum) := by
        rw [lt_div_iff₀ hwp]; rw [hL] at hu2; linarith
      have h3 : a + (b - a) * ((x - a) / (b - a)) < a + (b - a) * ((u - share ys k) / (w / ys.sum)) := by gcongr
      rw [mul_div_cancel₀ _ hd.ne'] at h3
      linarith
    · exact hn.2 h2
    · have := (fn_iff h hx hy hs hb hu1.le).2 h2
      linarith
  have hL0 : 0 ≤ L := by linarith
  apply le_antisymm
  · refine (measureReal_mono hsub2 ?_).trans ((measureReal_union_le _ _).trans ?_)
    · exact ne_top_of_le_ne_top (by simp) (measure_union_le _ _)
    · rw [Real.volume_real_Icc_of_le hL0, sub_zero]
      simp [measureReal_def]
  · refine le_trans ?_ (measureReal_mono hsub1 (ne_top_of_le_ne_top ?_ (measure_mono hsub2)))
    · rw [Real.volume_real_Ico_of_le hL0, sub_zero]
    · exact ne_top_of_le_ne_top (by simp) (measure_union_le _ _)

/-- **C240** (the lowest value): no way leads to the lowest value, so that its weight stays on it. -/
theorem C240_lowest {xs ys : List ℝ} {e : Empirical ℝ} (h : Empirical.new xs ys = .ok e) (hx : xs.Pairwise (· < ·))
    (hy : ∀ y ∈ ys, 0 ≤ y) (hs : 0 < ys.sum) {x w : ℝ} (hk : xs[0]? = some x) (hw : ys[0]? = some w) :
    volume.real {u | 0 ≤ u ∧ u < 1 ∧ e.fn u = x} = w / ys.sum := by
  have hC := C150_partial h hx hy hs hk
  have hlow : ∀ u, x ≤ e.fn u := by
    intro u
    obtain ⟨-, h1, -, -, h2⟩ := C149 h [u]
    have hmin : ∀ y ∈ xs, x ≤ y := by
      intro y hym
      obtain ⟨i2, hi, rfl⟩ := List.getElem_of_mem hym
      obtain ⟨i1, rfl⟩ := List.getElem?_eq_some_iff.1 hk
      rcases Nat.eq_zero_or_pos i2 with rfl | hp
      · exact le_rfl
      · exact (List.pairwise_iff_getElem.1 hx _ _ i1 hi hp).le
    exact (hmin _ h1).trans (h2 (e.fn u) (by simp [Empirical.sample])).1
  have e1 : {u | 0 ≤ u ∧ u < 1 ∧ e.fn u = x} = {u | 0 ≤ u ∧ u < 1 ∧ e.fn u ≤ x} := by
    ext u
    exact ⟨fun ⟨h1, h2, h3⟩ => ⟨h1, h2, h3.le⟩, fun ⟨h1, h2, h3⟩ => ⟨h1, h2, le_antisymm h3 (hlow u)⟩⟩
  rw [e1, hC]
  congr 1
  cases ys with
  | nil => simp at hw
  | cons y ys => simpa using hw

/-- **C241**: the draws of one call of `sample` are independent. -/
theorem C241 (e : Empirical ℝ) {n : ℕ} (A : Fin n → Set ℝ) :
    (LawsReg.sampleLaw uniform01 n).real {u | ∃ xs, e.sample (List.ofFn u) = xs ∧ xs.length = n ∧
        ∀ i : Fin n, ∃ x, xs[i.1]? = some x ∧ x ∈ A i} =
      ∏ i, uniform01.real {u | ∃ x, e.sample [u] = [x] ∧ x ∈ A i} := by
  have e1 : {u : Fin n → ℝ | ∃ xs, e.sample (List.ofFn u) = xs ∧ xs.length = n ∧
        ∀ i : Fin n, ∃ x, xs[i.1]? = some x ∧ x ∈ A i} =
      Set.pi Set.univ (fun i => {u | ∃ x, e.sample [u] = [x] ∧ x ∈ A i}) := by
    ext u
    simp [Empirical.sample, Set.mem_pi]
  rw [e1, LawsReg.sampleLaw, measureReal_def, Measure.pi_pi, ENNReal.toReal_prod]
  rfl

theorem one_draw (e : Empirical ℝ) (x : ℝ) :
    uniform01.real {u | ∃ y, e.sample [u] = [y] ∧ y ∈ Set.Iic x} = volume.real {u | 0 ≤ u ∧ u < 1 ∧ e.fn u ≤ x} := by
  have e1 : {u | ∃ y, e.sample [u] = [y] ∧ y ∈ Set.Iic x} = {u | e.fn u ≤ x} := by
    ext u
    simp [Empirical.sample]
  rw [e1, uniform01, measureReal_restrict_apply' measurableSet_Ico]
  congr 1
  ext u
  simp only [Set.mem_inter_iff, Set.mem_ofPred_eq, Set.mem_Ico]
  tauto

/-- **C241** (at the values): the chance that every draw is at most a value of its own is the product of the shares of the
weights up to these values. -/
theorem C241_shares {xs ys : List ℝ} {e : Empirical ℝ} (h : Empirical.new xs ys = .ok e) (hx : xs.Pairwise (· < ·))
    (hy : ∀ y ∈ ys, 0 ≤ y) (hs : 0 < ys.sum) {n : ℕ} (k : Fin n → ℕ) (x : Fin n → ℝ) (hk : ∀ i, xs[k i]? = some (x i)) :
    (LawsReg.sampleLaw uniform01 n).real {u | List.Forall₂ (· ≤ ·) (e.sample (List.ofFn u)) (List.ofFn x)} =
      ∏ i, ((ys.take (k i + 1)).sum / ys.sum) := by
  have e1 : {u : Fin n → ℝ | List.Forall₂ (· ≤ ·) (e.sample (List.ofFn u)) (List.ofFn x)} =
      {u | ∃ xs, e.sample (List.ofFn u) = xs ∧ xs.length = n ∧ ∀ i : Fin n, ∃ y, xs[i.1]? = some y ∧ y ∈ Set.Iic (x i)} := by
    ext u
    simp only [Set.mem_ofPred_eq, List.forall₂_iff_get, Empirical.sample, Set.mem_Iic]
    constructor
    · rintro ⟨-, h2⟩
      refine ⟨_, rfl, by simp, fun i => ⟨e.fn (u i), by simp, ?_⟩⟩
      simpa using h2 i.1 (by simp) (by simp)
    · rintro ⟨_, rfl, -, h2⟩
      refine ⟨by simp, fun i h3 h4 => ?_⟩
      obtain ⟨y, h5, h6⟩ := h2 ⟨i, by simpa using h4⟩
      have h7 : i < n := by simpa using h4
      simp [h7] at h5
      simp [h5, h6]
  rw [e1, C241]
  exact Finset.prod_congr rfl (fun i _ => by rw [one_draw, C150_partial h hx hy hs (hk i)])

/-! A concrete case: the values 1, 3 and 4 with the weights 1, 2 and 1. -/

example : ∃ e, Empirical.new [1, 3, 4] [1, 2, (1 : ℝ)] = .ok e ∧
    volume.real {u | 0 ≤ u ∧ u < 1 ∧ e.fn u ≤ 2} = 1 / 2 ∧ volume.real {u | 0 ≤ u ∧ u < 1 ∧ e.fn u = 1} = 1 / 4 := by
  obtain ⟨e, he⟩ := (C149_new [1, 3, 4] [1, 2, (1 : ℝ)]).2 ⟨by simp, rfl⟩
  have hx : [1, 3, (4 : ℝ)].Pairwise (· < ·) := by norm_num
  have hy : ∀ y ∈ [1, 2, (1 : ℝ)], 0 ≤ y := by simp
  refine ⟨e, he, ?_, ?_⟩
  · rw [C240 he hx hy (by norm_num) (k := 0) (a := 1) (b := 3) (w := 2) rfl rfl rfl (by norm_num) (by norm_num)]
    norm_num
  · rw [C240_lowest he hx hy (by norm_num) (x := 1) (w := 1) rfl rfl]
    norm_num

example : ∃ e, Empirical.new [1, 3, 4] [1, 2, (1 : ℝ)] = .ok e ∧
    (LawsReg.sampleLaw uniform01 2).real {u | List.Forall₂ (· ≤ ·) (e.sample (List.ofFn u)) (List.ofFn ![3, 1])} =
      3 / 16 := by
  obtain ⟨e, he⟩ := (C149_new [1, 3, 4] [1, 2, (1 : ℝ)]).2 ⟨by simp, rfl⟩
  refine ⟨e, he, ?_⟩
  rw [C241_shares he (by norm_num) (by simp) (by norm_num) ![1, 0] ![3, 1] (by intro i; fin_cases i <;> rfl)]
  rw [Fin.prod_univ_two]
  norm_num

end Props.LawsEmp
