import Verif.Model.Empirical
import Mathlib.MeasureTheory.Measure.Lebesgue.Basic
import Mathlib.MeasureTheory.Measure.Real
import Mathlib.Tactic.FieldSimp
import Mathlib.Tactic.Linarith

/-!
# Empirical distributions (C149 to C152)
-/

namespace Props.Empirical
set_option linter.unusedSectionVars false

open Py Model

section Field

variable {K : Type} [Field K] [LinearOrder K] [IsStrictOrderedRing K]

/-! ## Interpolation -/

theorem between {p q : K × K} {t : K} (h1 : p.1 ≤ t) (h2 : t < q.1) :
    ∃ w : K, 0 ≤ w ∧ w ≤ 1 ∧ (p.1 < t → 0 < w) ∧
      (q.2 - p.2) / (q.1 - p.1) * (t - p.1) + p.2 = (1 - w) * p.2 + w * q.2 := by
  have hd : 0 < q.1 - p.1 := by linarith
  refine ⟨(t - p.1) / (q.1 - p.1), div_nonneg (by linarith) hd.le, ?_, ?_, ?_⟩
  · rw [div_le_one hd]
    linarith
  · intro h
    exact div_pos (by linarith) hd
  · field_simp
    ring

theorem interp_ge {a t : K} (p : K × K) (rest : List (K × K)) (hp : p.1 ≤ t)
    (hv : ∀ q ∈ p :: rest, a ≤ q.2) : a ≤ interpFrom t p rest := by
  induction rest generalizing p with
  | nil => exact hv p (by simp)
  | cons q rest ih =>
    rw [interpFrom]
    by_cases h : q.1 ≤ t
    · rw [if_pos h]
      exact ih q h (fun r hr => hv r (List.mem_cons_of_mem _ hr))
    · rw [if_neg h]
      have hp' := hv p (by simp)
      have hq' := hv q (by simp)
      by_cases h2 : p.1 = t
      · rw [if_pos h2]
        exact hp'
      · rw [if_neg h2]
        obtain ⟨w, hw0, hw1, -, e⟩ := between hp (not_le.1 h)
        rw [e]
        nlinarith

theorem interp_mem {a b t : K} (p : K × K) (rest : List (K × K)) (hp : p.1 ≤ t)
    (hv : ∀ q ∈ p :: rest, a ≤ q.2 ∧ q.2 ≤ b) : a ≤ interpFrom t p rest ∧ interpFrom t p rest ≤ b := by
  induction rest generalizing p with
  | nil => exact hv p (by simp)
  | cons q rest ih =>
    rw [interpFrom]
    by_cases h : q.1 ≤ t
    · rw [if_pos h]
      exact ih q h (fun r hr => hv r (List.mem_cons_of_mem _ hr))
    · rw [if_neg h]
      have hp' := hv p (by simp)
      have hq' := hv q (by simp)
      by_cases h2 : p.1 = t
      · rw [if_pos h2]
        exact hp'
      · rw [if_neg h2]
        obtain ⟨w, hw0, hw1, -, e⟩ := between hp (not_le.1 h)
        rw [e]
        constructor <;> nlinarith

theorem linear_mem {a b t lo hi : K} (pts : List (K × K)) (hlo : a ≤ lo ∧ lo ≤ b) (hhi : a ≤ hi ∧ hi ≤ b)
    (hv : ∀ q ∈ pts, a ≤ q.2 ∧ q.2 ≤ b) : a ≤ linear1d pts lo hi t ∧ linear1d pts lo hi t ≤ b := by
  unfold linear1d
  have hm : ∀ q, q ∈ pts.insertionSort (fun a b => a.1 ≤ b.1) → q ∈ pts := fun q h => (List.mem_insertionSort _).1 h
  generalize pts.insertionSort (fun a b => a.1 ≤ b.1) = s at hm
  cases s with
  | nil => exact hlo
  | cons p rest =>
    simp only []
    by_cases h1 : t < p.1
    · rw [if_pos h1]; exact hlo
    · rw [if_neg h1]
      split
      · exact hhi
      · exact interp_mem p rest (not_lt.1 h1) (fun q hq => hv q (hm q hq))

theorem new_ok {xs ys : List K} {e : Empirical K} (h : Empirical.new xs ys = .ok e) :
    e.xs = xs ∧ e.ys = ys ∧ xs ≠ [] ∧ xs.length = ys.length ∧ e.lo ∈ xs ∧ e.hi ∈ xs ∧ ∀ x ∈ xs, e.lo ≤ x ∧ x ≤ e.hi := by
  unfold Empirical.new at h
  cases h1 : xs.min? with
  | none => rw [h1] at h; cases h
  | some lo =>
    cases h2 : xs.max? with
    | none => rw [h1, h2] at h; cases h
    | some hi =>
      rw [h1, h2] at h
      simp only [] at h
      by_cases hl : xs.length = ys.length
      · rw [if_pos hl] at h
        cases h
        obtain ⟨m1, b1⟩ := List.min?_eq_some_iff.1 h1
        obtain ⟨m2, b2⟩ := List.max?_eq_some_iff.1 h2
        exact ⟨rfl, rfl, List.ne_nil_of_mem m1, hl, m1, m2, fun x hx => ⟨b1 x hx, b2 x hx⟩⟩
      · rw [if_neg hl] at h
        cases h

/-- C149: a distribution is made of as many weights as values, at least one. -/
theorem C149_new (xs ys : List K) :
    (∃ e, Empirical.new xs ys = .ok e) ↔ xs ≠ [] ∧ xs.length = ys.length := by
  constructor
  · rintro ⟨e, h⟩
    obtain ⟨-, -, h1, h2, -⟩ := new_ok h
    exact ⟨h1, h2⟩
  · rintro ⟨h1, h2⟩
    unfold Empirical.new
    cases hm : xs.min? with
    | none => exact absurd (List.min?_eq_none_iff.1 hm) h1
    | some lo =>
      cases hM : xs.max? with
      | none => exact absurd (List.max?_eq_none_iff.1 hM) h1
      | some hi => exact ⟨_, if_pos h2⟩

/-- C149: every draw lies between the smallest and the largest value, which `Interval` holds, whatever the weights and
whatever the order of the values; as many numbers are drawn as asked for. -/
theorem C149 {xs ys : List K} {e : Empirical K} (h : Empirical.new xs ys = .ok e) (us : List K) :
    (e.sample us).length = us.length ∧ e.lo ∈ xs ∧ e.hi ∈ xs ∧ (∀ x ∈ xs, e.lo ≤ x ∧ x ≤ e.hi) ∧
      ∀ x ∈ e.sample us, e.lo ≤ x ∧ x ≤ e.hi := by
  obtain ⟨hx, hy, hne, hl, mlo, mhi, hb⟩ := new_ok h
  refine ⟨List.length_map _, mlo, mhi, hb, ?_⟩
  intro x hxs
  obtain ⟨u, -, rfl⟩ := List.mem_map.1 hxs
  refine linear_mem _ ⟨le_rfl, (hb _ mlo).2⟩ ⟨(hb _ mhi).1, le_rfl⟩ ?_
  intro q hq
  have hq2 : q.2 ∈ e.xs := (List.of_mem_zip (a := q.1) (b := q.2) hq).2
  rw [hx] at hq2
  exact hb _ hq2

example : ∃ e, Empirical.new [2, 1, 5] [1, 0, (3 : ℚ)] = .ok e ∧ e.sample [1 / 8, 1 / 2] = [1, 7 / 3] :=
  ⟨⟨[2, 1, 5], [1, 0, 3], 1, 5⟩, rfl, by decide +kernel⟩

/-! ## The distribution function -/

theorem interp_le {t : K} (p : K × K) (rest : List (K × K)) (hp : p.1 ≤ t)
    (hs : (p :: rest).Pairwise (fun a b => a.1 ≤ b.1 ∧ a.2 ≤ b.2)) {q : K × K} (hq : q ∈ p :: rest) (ht : t < q.1) :
    interpFrom t p rest ≤ q.2 := by
  induction rest generalizing p with
  | nil =>
    simp only [List.mem_cons, List.not_mem_nil, or_false] at hq
    subst hq
    exact absurd ht (not_lt.2 hp)
  | cons r rest ih =>
    rw [interpFrom]
    have hq' : q ∈ r :: rest := by
      rcases List.mem_cons.1 hq with rfl | h
      · exact absurd ht (not_lt.2 hp)
      · exact h
    obtain ⟨h1, h2⟩ := List.pairwise_cons.1 hs
    by_cases h : r.1 ≤ t
    · rw [if_pos h]
      exact ih r h h2 hq'
    · rw [if_neg h]
      have hr : r.2 ≤ q.2 := by
        rcases List.mem_cons.1 hq' with rfl | h
        · exact le_rfl
        · exact ((List.pairwise_cons.1 h2).1 q h).2
      have hpr := (h1 r (by simp)).2
      by_cases he : p.1 = t
      · rw [if_pos he]
        exact hpr.trans hr
      · rw [if_neg he]
        obtain ⟨w, hw0, hw1, -, e⟩ := between hp (not_le.1 h)
        rw [e]
        nlinarith

theorem lt_interp {t : K} (p : K × K) (rest : List (K × K))
    (hp : p.1 ≤ t) (hl : t ≤ ((p :: rest).getLast (by simp)).1)
    (hs : (p :: rest).Pairwise (fun a b => a.1 ≤ b.1 ∧ a.2 < b.2)) {q : K × K} (hq : q ∈ p :: rest) (ht : q.1 < t) :
    q.2 < interpFrom t p rest := by
  induction rest generalizing p with
  | nil =>
    simp only [List.mem_cons, List.not_mem_nil, or_false] at hq
    subst hq
    exact absurd ht (not_lt.2 hl)
  | cons r rest ih =>
    rw [interpFrom]
    obtain ⟨h1, h2⟩ := List.pairwise_cons.1 hs
    by_cases h : r.1 ≤ t
    · rw [if_pos h]
      rcases List.mem_cons.1 hq with rfl | hq'
      · refine (h1 r (by simp)).2.trans_le (interp_ge r rest h ?_)
        intro x hx
        rcases List.mem_cons.1 hx with rfl | hx
        · exact le_rfl
        · exact ((List.pairwise_cons.1 h2).1 x hx).2.le
      · exact ih r h (by simpa using hl) h2 hq'
    · rw [if_neg h]
      have hqp : q = p := by
        rcases List.mem_cons.1 hq with rfl | hq'
        · rfl
        · exfalso
          rcases List.mem_cons.1 hq' with rfl | h3
          · exact h ht.le
          · exact h (((List.pairwise_cons.1 h2).1 q h3).1.trans ht.le)
      subst hqp
      rw [if_neg ht.ne]
      obtain ⟨w, hw0, hw1, hw, e⟩ := between hp (not_le.1 h)
      rw [e]
      have := (h1 r (by simp)).2
      have := hw ht
      nlinarith

theorem cumsum_length (acc : K) (ys : List K) : (cumsum acc ys).length = ys.length := by
  induction ys generalizing acc with
  | nil => rfl
  | cons y ys ih => simp [cumsum, ih]

theorem cumsum_get (acc : K) (ys : List K) (k : Nat) (hk : k < ys.length) :
    (cumsum acc ys)[k]? = some (acc + (ys.take (k + 1)).sum) := by
  induction ys generalizing acc k with
  | nil => simp at hk
  | cons y ys ih =>
    cases k with
    | zero => simp [cumsum]
    | succ k =>
      simp only [cumsum, List.getElem?_cons_succ, List.take_succ_cons, List.sum_cons]
      rw [ih (acc + y) k (by simpa using hk), add_assoc]

theorem le_cumsum (acc : K) (ys : List K) (h : ∀ y ∈ ys, 0 ≤ y) : ∀ c ∈ cumsum acc ys, acc ≤ c := by
  induction ys generalizing acc with
  | nil => simp [cumsum]
  | cons y ys ih =>
    have hy := h y (by simp)
    intro c hc
    rw [cumsum] at hc
    rcases List.mem_cons.1 hc with rfl | hc
    · linarith
    · have := ih (acc + y) (fun z hz => h z (List.mem_cons_of_mem _ hz)) c hc
      linarith

theorem cumsum_sorted (acc : K) (ys : List K) (h : ∀ y ∈ ys, 0 ≤ y) : (cumsum acc ys).Pairwise (· ≤ ·) := by
  induction ys generalizing acc with
  | nil => exact List.Pairwise.nil
  | cons y ys ih =>
    rw [cumsum, List.pairwise_cons]
    have hh := fun z hz => h z (List.mem_cons_of_mem _ hz)
    exact ⟨le_cumsum _ ys hh, ih _ hh⟩

/-- The share of the first `k + 1` weights. -/
def share (ys : List K) (k : Nat) : K := (ys.take (k + 1)).sum / ys.sum

theorem zip_pairwise {R S : K → K → Prop} {l m : List K} (hl : l.Pairwise R) (hm : m.Pairwise S) :
    (l.zip m).Pairwise (fun a b => R a.1 b.1 ∧ S a.2 b.2) := by
  induction l generalizing m with
  | nil => simp
  | cons a l ih =>
    cases m with
    | nil => simp
    | cons b m =>
      obtain ⟨h1, h2⟩ := List.pairwise_cons.1 hl
      obtain ⟨h3, h4⟩ := List.pairwise_cons.1 hm
      rw [List.zip_cons_cons, List.pairwise_cons]
      exact ⟨fun p hp => ⟨h1 _ (List.of_mem_zip (a := p.1) (b := p.2) hp).1,
        h3 _ (List.of_mem_zip (a := p.1) (b := p.2) hp).2⟩, ih h2 h4⟩

theorem last_share (ys : List K) (hs : ys.sum ≠ 0) {c x : K} {xs : List K} (hl : xs.length = ys.length)
    (h : (((cumsum 0 ys).map (· / ys.sum)).zip xs).getLast? = some (c, x)) : c = 1 ∧ xs.getLast? = some x := by
  rw [List.getLast?_eq_getElem?, List.getElem?_zip_eq_some] at h
  simp only [List.length_zip, List.length_map, cumsum_length, hl, min_self] at h
  obtain ⟨h1, h2⟩ := h
  have hpos : 0 < ys.length := by
    by_contra h0
    rw [List.length_eq_zero_iff.1 (by omega : ys.length = 0)] at hs
    simp at hs
  rw [List.getElem?_map, cumsum_get 0 ys _ (by omega)] at h1
  simp only [Option.map_some, Option.some.injEq, zero_add] at h1
  rw [show ys.length - 1 + 1 = ys.length by omega, List.take_length, div_self hs] at h1
  refine ⟨h1.symm, ?_⟩
  rw [List.getLast?_eq_getElem?, hl]
  exact h2

/-- For increasing values and weights that are not negative, the draw made of `u` is at most the value in position `k`
when `u` is below the share of the weights up to it, and beyond it when `u` is above. -/
theorem fn_iff {xs ys : List K} {e : Empirical K} (h : Empirical.new xs ys = .ok e) (hx : xs.Pairwise (· < ·))
    (hy : ∀ y ∈ ys, 0 ≤ y) (hs : 0 < ys.sum) {k : Nat} {x : K} (hk : xs[k]? = some x) {u : K} (hu : u ≤ 1) :
    (u < share ys k → e.fn u ≤ x) ∧ (share ys k < u → x < e.fn u) := by
  obtain ⟨ex, ey, hne, hl, mlo, mhi, hb⟩ := new_ok h
  have hc : ((cumsum 0 ys).map (· / ys.sum)).Pairwise (· ≤ ·) := by
    rw [List.pairwise_map]
    exact (cumsum_sorted 0 ys hy).imp (fun hab => div_le_div_of_nonneg_right hab hs.le)
  have hz := zip_pairwise hc hx
  have hklt : k < xs.length := by
    by_contra hge
    rw [List.getElem?_eq_none (by omega)] at hk
    cases hk
  have hmem : (share ys k, x) ∈ ((cumsum 0 ys).map (· / ys.sum)).zip xs := by
    refine List.mem_of_getElem? (i := k) ?_
    rw [List.getElem?_zip_eq_some]
    refine ⟨?_, hk⟩
    rw [List.getElem?_map, cumsum_get 0 ys k (by omega)]
    simp [share]
  have hlast := fun c y => last_share ys hs.ne' (c := c) (x := y) hl
  unfold Empirical.fn linear1d
  rw [ex, ey, List.Pairwise.insertionSort_eq (hz.imp (fun hab => hab.1))]
  generalize ((cumsum 0 ys).map (· / ys.sum)).zip xs = s at hz hmem hlast
  cases s with
  | nil => simp at hmem
  | cons p rest =>
    have hl1 : ((p :: rest).getLast (by simp)).1 = 1 :=
      (hlast _ ((p :: rest).getLast (by simp)).2 (List.getLast?_eq_getLast_of_ne_nil (by simp))).1
    simp only [hl1]
    rw [if_neg (not_lt.2 hu)]
    have hxm : x ∈ xs := List.mem_of_getElem? hk
    by_cases h1 : u < p.1
    · rw [if_pos h1]
      refine ⟨fun _ => (hb x hxm).1, fun h2 => ?_⟩
      exfalso
      rcases List.mem_cons.1 hmem with h3 | h3
      · rw [← h3] at h1
        exact lt_asymm h1 h2
      · have := ((List.pairwise_cons.1 hz).1 _ h3).1
        simp only [] at this
        exact absurd (h1.trans_le this) (not_lt.2 h2.le)
    · rw [if_neg h1]
      refine ⟨fun h2 => ?_, fun h2 => ?_⟩
      · exact interp_le p rest (not_lt.1 h1) (hz.imp (fun hab => ⟨hab.1, hab.2.le⟩)) hmem h2
      · exact lt_interp p rest (not_lt.1 h1) (by rw [hl1]; exact hu) hz hmem h2

theorem interp_at (p : K × K) (rest : List (K × K)) (hs : (p :: rest).Pairwise (fun a b => a.1 < b.1)) {q : K × K}
    (hq : q ∈ p :: rest) : interpFrom q.1 p rest = q.2 := by
  induction rest generalizing p with
  | nil =>
    simp only [List.mem_cons, List.not_mem_nil, or_false] at hq
    subst hq
    rfl
  | cons r rest ih =>
    rw [interpFrom]
    obtain ⟨h1, h2⟩ := List.pairwise_cons.1 hs
    rcases List.mem_cons.1 hq with rfl | hq'
    · rw [if_neg (not_le.2 (h1 r (by simp))), if_pos rfl]
    · have hr : r.1 ≤ q.1 := by
        rcases List.mem_cons.1 hq' with rfl | h
        · exact le_rfl
        · exact ((List.pairwise_cons.1 h2).1 q h).le
      rw [if_pos hr]
      exact ih r h2 hq'

theorem interp_last {t : K} (p : K × K) (rest : List (K × K)) (h : ∀ q ∈ p :: rest, q.1 ≤ t) :
    interpFrom t p rest = ((p :: rest).getLast (by simp)).2 := by
  induction rest generalizing p with
  | nil => rfl
  | cons r rest ih =>
    rw [interpFrom, if_pos (h r (by simp)), ih r (fun q hq => h q (List.mem_cons_of_mem _ hq))]
    simp

/-! ### C151 -/

/-- C151, as first stated, fails: for a value that is never drawn zero is returned instead of minus infinity, and for one
of two values of the same weight that weight instead of its logarithm, here one instead of zero. -/
theorem C151_refuted : ∃ e, Empirical.new [1, 2] [1, (1 : ℚ)] = .ok e ∧ e.logpdf 5 = 0 ∧ e.logpdf 1 = 1 :=
  ⟨⟨[1, 2], [1, 1], 1, 2⟩, rfl, by decide +kernel, by decide +kernel⟩

theorem insertionSort_bounds {pts : List (K × K)} {p : K × K} {rest : List (K × K)}
    (hs : pts.insertionSort (fun a b => a.1 ≤ b.1) = p :: rest) :
    (∀ q ∈ pts, p.1 ≤ q.1 ∧ q.1 ≤ ((p :: rest).getLast (by simp)).1) ∧ p ∈ pts ∧ (p :: rest).getLast (by simp) ∈ pts := by
  have hp : (p :: rest).Pairwise (fun a b => a.1 ≤ b.1) := by
    rw [← hs]
    exact List.pairwise_insertionSort (r := fun a b : K × K => a.1 ≤ b.1) pts
  have hm : ∀ q, q ∈ p :: rest ↔ q ∈ pts := by
    intro q
    rw [← hs]
    exact List.mem_insertionSort _
  refine ⟨?_, (hm p).1 (by simp), (hm _).1 (List.getLast_mem _)⟩
  intro q hq
  have hq' := (hm q).2 hq
  constructor
  · rcases List.mem_cons.1 hq' with rfl | h
    · exact le_rfl
    · exact (List.pairwise_cons.1 hp).1 q h
  · obtain ⟨init, hinit⟩ : ∃ init, p :: rest = init ++ [(p :: rest).getLast (by simp)] :=
      ⟨_, (List.dropLast_append_getLast (by simp)).symm⟩
    rw [hinit] at hp hq'
    rcases List.mem_append.1 hq' with h | h
    · exact (List.pairwise_append.1 hp).2.2 q h _ (by simp)
    · simp only [List.mem_singleton] at h
      exact (congrArg Prod.fst h).le

/-- C151: `logpdf` is zero outside of `Interval`, the weight itself at each of the values when they are increasing, and for
weights that are not negative never negative.  Missing for the full claim: logarithms (`C151_refuted`). -/
theorem C151_partial {xs ys : List K} {e : Empirical K} (h : Empirical.new xs ys = .ok e) :
    (∀ v, v < e.lo ∨ e.hi < v → e.logpdf v = 0) ∧
      (xs.Pairwise (· < ·) → ∀ (k : Nat) (x y : K), xs[k]? = some x → ys[k]? = some y → e.logpdf x = y) ∧
      ((∀ y ∈ ys, 0 ≤ y) → ∀ v, 0 ≤ e.logpdf v) := by
  obtain ⟨ex, ey, hne, hl, mlo, mhi, hb⟩ := new_ok h
  have hfst : ∀ x ∈ xs, ∃ y, (x, y) ∈ xs.zip ys := by
    intro x hx
    obtain ⟨i, hi⟩ := List.mem_iff_getElem?.1 hx
    have hlt : i < xs.length := (List.getElem?_eq_some_iff.1 hi).1
    refine ⟨ys[i]'(by omega), List.mem_of_getElem? (i := i) ?_⟩
    rw [List.getElem?_zip_eq_some]
    exact ⟨hi, List.getElem?_eq_getElem _⟩
  refine ⟨?_, ?_, ?_⟩
  · intro v hv
    unfold Empirical.logpdf linear1d
    rw [ex, ey]
    cases hs : (xs.zip ys).insertionSort (fun a b => a.1 ≤ b.1) with
    | nil => rfl
    | cons p rest =>
      simp only []
      obtain ⟨hq, -, -⟩ := insertionSort_bounds hs
      rcases hv with hv | hv
      · have : p.1 ∈ xs := (List.of_mem_zip (a := p.1) (b := p.2) (insertionSort_bounds hs).2.1).1
        rw [if_pos (hv.trans_le (hb _ this).1)]
      · have h1 := (List.of_mem_zip (a := p.1) (b := p.2) (insertionSort_bounds hs).2.1).1
        have h2 := (List.of_mem_zip (a := ((p :: rest).getLast (by simp)).1) (b := ((p :: rest).getLast (by simp)).2)
          (insertionSort_bounds hs).2.2).1
        rw [if_neg (not_lt.2 ((hb _ h1).2.trans hv.le)), if_pos ((hb _ h2).2.trans_lt hv)]
  · intro hx k x y hk hy
    have hz : (xs.zip ys).Pairwise (fun a b => a.1 < b.1) :=
      (zip_pairwise (S := fun _ _ => True) hx (List.pairwise_of_forall (fun _ _ => trivial))).imp (fun hab => hab.1)
    have hmem : (x, y) ∈ xs.zip ys := List.mem_of_getElem? (i := k) (List.getElem?_zip_eq_some.2 ⟨hk, hy⟩)
    unfold Empirical.logpdf linear1d
    rw [ex, ey]
    have hsort : (xs.zip ys).insertionSort (fun a b => a.1 ≤ b.1) = xs.zip ys :=
      List.Pairwise.insertionSort_eq (hz.imp (fun hab => hab.le))
    cases hs : (xs.zip ys).insertionSort (fun a b => a.1 ≤ b.1) with
    | nil => rw [hsort] at hs; rw [hs] at hmem; simp at hmem
    | cons p rest =>
      simp only []
      obtain ⟨hq, -, -⟩ := insertionSort_bounds hs
      have hb' := hq _ hmem
      rw [if_neg (not_lt.2 hb'.1), if_neg (not_lt.2 hb'.2)]
      rw [hsort] at hs
      rw [hs] at hz hmem
      exact interp_at p rest hz hmem
  · intro hy v
    unfold Empirical.logpdf linear1d
    rw [ex, ey]
    cases hs : (xs.zip ys).insertionSort (fun a b => a.1 ≤ b.1) with
    | nil => exact le_rfl
    | cons p rest =>
      simp only []
      by_cases h1 : v < p.1
      · rw [if_pos h1]
      · rw [if_neg h1]
        split
        · exact le_rfl
        · refine interp_ge p rest (not_lt.1 h1) ?_
          intro q hq
          rw [← hs, List.mem_insertionSort] at hq
          exact hy _ (List.of_mem_zip (a := q.1) (b := q.2) hq).2

/-! ### C152 -/

/-- C152, as first stated, fails: the mean of draws between one and two is said to be three. -/
theorem C152_refuted : ∃ e, Empirical.new [1, 2] [1, (1 : ℚ)] = .ok e ∧ e.hi = 2 ∧ e.mean = 3 ∧ e.std = 5 :=
  ⟨⟨[1, 2], [1, 1], 1, 2⟩, rfl, rfl, by decide +kernel, by decide +kernel⟩

/-- C152: for increasing values from one on and weights that are not negative, `mean()` is the average of the values times
the largest, and `std()` the average of their squares times the largest.  Missing for the full claim: the mean and the
deviation of the draws (`C152_refuted`). -/
theorem C152_partial {xs ys : List K} {e : Empirical K} (h : Empirical.new xs ys = .ok e) (hx : xs.Pairwise (· < ·))
    (hy : ∀ y ∈ ys, 0 ≤ y) (hs : 0 < ys.sum) (h1 : ∀ x ∈ xs, 1 ≤ x) :
    e.mean = xs.sum / xs.length * e.hi ∧ e.std = (xs.map (fun x => x * x)).sum / xs.length * e.hi := by
  obtain ⟨ex, ey, hne, hl, mlo, mhi, hb⟩ := new_ok h
  have hc : ((cumsum 0 ys).map (· / ys.sum)).Pairwise (· ≤ ·) := by
    rw [List.pairwise_map]
    exact (cumsum_sorted 0 ys hy).imp (fun hab => div_le_div_of_nonneg_right hab hs.le)
  have hz := zip_pairwise hc hx
  have hlast := fun c y => last_share ys hs.ne' (c := c) (x := y) hl
  have hhi : xs.getLast hne = e.hi := by
    refine le_antisymm (hb _ (List.getLast_mem hne)).2 ?_
    obtain ⟨init, hinit⟩ : ∃ init, xs = init ++ [xs.getLast hne] := ⟨_, (List.dropLast_append_getLast hne).symm⟩
    have hmh := mhi
    rw [hinit] at hmh
    rcases List.mem_append.1 hmh with hm | hm
    · rw [hinit] at hx
      exact ((List.pairwise_append.1 hx).2.2 _ hm _ (by simp)).le
    · simp only [List.mem_singleton] at hm
      exact hm.le
  have hfn : ∀ x ∈ xs, e.fn x = e.hi := by
    intro x hxm
    have hx1 := h1 x hxm
    unfold Empirical.fn linear1d
    rw [ex, ey]
    have hsort : (((cumsum 0 ys).map (· / ys.sum)).zip xs).insertionSort (fun a b => a.1 ≤ b.1) =
        ((cumsum 0 ys).map (· / ys.sum)).zip xs := List.Pairwise.insertionSort_eq (hz.imp (fun hab => hab.1))
    cases hs' : (((cumsum 0 ys).map (· / ys.sum)).zip xs).insertionSort (fun a b => a.1 ≤ b.1) with
    | nil =>
      rw [hsort] at hs'
      have := congrArg List.length hs'
      simp only [List.length_zip, List.length_map, cumsum_length, hl, min_self, List.length_nil] at this
      rw [← hl] at this
      exact absurd (List.length_eq_zero_iff.1 this) hne
    | cons p rest =>
      simp only []
      obtain ⟨hq, hpm, -⟩ := insertionSort_bounds hs'
      rw [hsort] at hs'
      rw [hs'] at hlast
      obtain ⟨hl1, hl2⟩ := hlast _ ((p :: rest).getLast (by simp)).2 (List.getLast?_eq_getLast_of_ne_nil (by simp))
      have hp1 : p.1 ≤ 1 := by
        have := (hq p hpm).2
        rwa [hl1] at this
      rw [if_neg (not_lt.2 (hp1.trans hx1))]
      simp only [hl1]
      by_cases hgt : 1 < x
      · rw [if_pos hgt]
      · rw [if_neg hgt, interp_last]
        · rw [List.getLast?_eq_getLast_of_ne_nil hne, Option.some.injEq] at hl2
          rw [← hl2, hhi]
        · intro q hqm
          rw [← hs'] at hqm
          have := (hq q hqm).2
          rw [hl1] at this
          exact this.trans hx1
  unfold Empirical.mean Empirical.std
  rw [ex]
  constructor
  · rw [List.map_congr_left (g := fun x => x * e.hi) (fun x hxm => by rw [hfn x hxm]), List.sum_map_mul_right,
      List.map_id']
    ring
  · rw [List.map_congr_left (g := fun x => x * x * e.hi) (fun x hxm => by rw [hfn x hxm]), List.sum_map_mul_right]
    ring

end Field

/-! ### C150 -/

open MeasureTheory

/-- C150, as first stated, fails for values that are not in order: of two values the larger of which has a quarter of the
weight, the smaller is drawn with a probability of a quarter, or at most so large a number. -/
theorem C150_refuted : ∃ e, Empirical.new [2, 1] [1, (3 : ℝ)] = .ok e ∧
    ∀ u, 0 ≤ u → u < 1 → (e.fn u ≤ 1 ↔ u < 1 / 4) := by
  refine ⟨⟨[2, 1], [1, 3], 1, 2⟩, ?_, ?_⟩
  · have h1 : ([2, 1] : List ℝ).min? = some 1 := by simp [List.min?]
    have h2 : ([2, 1] : List ℝ).max? = some 2 := by simp [List.max?]
    rw [Empirical.new, h1, h2]
    rfl
  · intro u h0 h1
    have hz : ((cumsum 0 [1, (3 : ℝ)]).map (· / ([1, (3 : ℝ)]).sum)).zip [2, (1 : ℝ)] = [(1 / 4, 2), (1, 1)] := by
      simp only [cumsum, List.map_cons, List.map_nil, List.sum_cons, List.sum_nil, List.zip_cons_cons, List.zip_nil_left]
      norm_num
    have hsort : ([(1 / 4, 2), (1, 1)] : List (ℝ × ℝ)).insertionSort (fun a b => a.1 ≤ b.1) = [(1 / 4, 2), (1, 1)] := by
      apply List.Pairwise.insertionSort_eq
      norm_num
    show linear1d (((cumsum 0 [1, (3 : ℝ)]).map (· / ([1, (3 : ℝ)]).sum)).zip [2, 1]) 1 2 u ≤ 1 ↔ _
    rw [hz]
    unfold linear1d
    rw [hsort]
    simp only []
    have hl : ¬ (([(1 / 4, 2), (1, 1)] : List (ℝ × ℝ)).getLast (by simp)).1 < u := not_lt.2 h1.le
    by_cases h : u < 1 / 4
    · rw [if_pos h]
      exact ⟨fun _ => h, fun _ => le_rfl⟩
    · rw [if_neg h, if_neg hl, interpFrom, if_neg (not_le.2 h1)]
      simp only [h, iff_false, not_le]
      by_cases he : (1 / 4 : ℝ) = u
      · rw [if_pos he]
        norm_num
      · rw [if_neg he]
        nlinarith

/-- C150: for increasing values and weights that are not negative, a draw is at most the value in position `k` with the
probability that is the share of the weights up to it.  Missing for the full claim: values in other orders
(`C150_refuted`). -/
theorem C150_partial {xs ys : List ℝ} {e : Empirical ℝ} (h : Empirical.new xs ys = .ok e) (hx : xs.Pairwise (· < ·))
    (hy : ∀ y ∈ ys, 0 ≤ y) (hs : 0 < ys.sum) {k : Nat} {x : ℝ} (hk : xs[k]? = some x) :
    volume.real {u | 0 ≤ u ∧ u < 1 ∧ e.fn u ≤ x} = (ys.take (k + 1)).sum / ys.sum := by
  have h0 : 0 ≤ share ys k := div_nonneg (List.sum_nonneg (fun y hm => hy y (List.mem_of_mem_take hm))) hs.le
  have h1 : share ys k ≤ 1 := by
    rw [share, div_le_one hs]
    conv_rhs => rw [← List.take_append_drop (k + 1) ys, List.sum_append]
    have := List.sum_nonneg (l := ys.drop (k + 1)) (fun y hm => hy y (List.mem_of_mem_drop hm))
    linarith
  show _ = share ys k
  have hsub1 : Set.Ico 0 (share ys k) ⊆ {u | 0 ≤ u ∧ u < 1 ∧ e.fn u ≤ x} := by
    rintro u ⟨hu0, hu1⟩
    exact ⟨hu0, hu1.trans_le h1, (fn_iff h hx hy hs hk (hu1.le.trans h1)).1 hu1⟩
  have hsub2 : {u | 0 ≤ u ∧ u < 1 ∧ e.fn u ≤ x} ⊆ Set.Icc 0 (share ys k) := by
    rintro u ⟨hu0, hu1, hf⟩
    refine ⟨hu0, ?_⟩
    by_contra hgt
    exact absurd ((fn_iff h hx hy hs hk hu1.le).2 (not_le.1 hgt)) (not_lt.2 hf)
  apply le_antisymm
  · refine (measureReal_mono hsub2 (by simp)).trans ?_
    rw [Real.volume_real_Icc_of_le h0, sub_zero]
  · refine le_trans ?_ (measureReal_mono hsub1 (ne_top_of_le_ne_top (by simp) (measure_mono hsub2)))
    rw [Real.volume_real_Ico_of_le h0, sub_zero]

example : ∃ e, Empirical.new [1, 2] [1, (3 : ℝ)] = .ok e := (C149_new _ _).2 ⟨by simp, rfl⟩

example : ([1, 2] : List ℝ).Pairwise (· < ·) ∧ (∀ y ∈ [1, (3 : ℝ)], 0 ≤ y) ∧ 0 < [1, (3 : ℝ)].sum ∧
    ∀ x ∈ ([1, 2] : List ℝ), 1 ≤ x := by
  norm_num

end Props.Empirical
