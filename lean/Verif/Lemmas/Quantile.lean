import Verif.Model.Quantile
import Mathlib.Tactic.Linarith
import Mathlib.Tactic.Ring

/-!
# Facts about quantiles of finite numbers
-/

namespace Lemmas
set_option linter.unusedSectionVars false

open Py Model

variable {K : Type} [Field K] [LinearOrder K] [IsStrictOrderedRing K] [FloorSemiring K]

theorem lerp_fin (a b g : K) : lerp (.fin a) (.fin b) (.fin g) = .fin (a + (b - a) * g) := by
  unfold lerp
  split
  · simp only [XR.fin_sub_fin, XR.fin_mul_fin]
    congr 1; ring
  · simp only [XR.fin_sub_fin, XR.fin_mul_fin, XR.fin_add_fin]

theorem countP_take_le (s : List K) (p : K → Bool) (i : Nat) (h : ∀ j (hj : j < s.length), j < i → p s[j] = true)
    (hi : i ≤ s.length) : i ≤ s.countP p := by
  calc i = (s.take i).length := by simp [hi]
    _ = (s.take i).countP p := by
        symm
        rw [List.countP_eq_length]
        intro a ha
        obtain ⟨j, hj, rfl⟩ := List.getElem_of_mem ha
        have hj' : j < i := by
          have := hj
          simp at this
          omega
        rw [List.getElem_take]
        exact h j (by omega) hj'
    _ ≤ s.countP p := (List.take_sublist i s).countP_le

/-- The quantile of finite numbers is a finite number between the smallest and the largest; more than
`q * (n - 1)` of the numbers are at or below it, and if the numbers are pairwise different at least
`q * (n - 1)` are strictly below it. -/
theorem quantile_fin (xs : List K) (hne : xs ≠ []) {q : K} (h0 : 0 ≤ q) (h1 : q ≤ 1) :
    ∃ r, quantile (xs.map XR.fin) (.fin q) = .ok (.fin r) ∧ (∃ a ∈ xs, a ≤ r) ∧ (∃ b ∈ xs, r ≤ b) ∧
      q * ((xs.length : K) - 1) < (xs.countP (fun x => decide (x ≤ r)) : K) ∧
      (xs.Nodup → q * ((xs.length : K) - 1) ≤ (xs.countP (fun x => decide (x < r)) : K)) := by
  have hsort : (xs.map XR.fin).insertionSort (fun x y => XR.le x y = true)
      = (xs.insertionSort (· ≤ ·)).map XR.fin := by
    rw [List.map_insertionSort (· ≤ ·) (fun x y => XR.le x y = true)]
    intro a _ b _
    simp
  set s := xs.insertionSort (· ≤ ·) with hs
  have hperm : s.Perm xs := List.perm_insertionSort _ _
  have hlen : s.length = xs.length := hperm.length_eq
  have hpos : 0 < s.length := by
    rw [hlen]
    exact List.length_pos_iff.2 hne
  have hsd : s.Pairwise (· ≤ ·) := List.pairwise_insertionSort _ _
  have hmono : ∀ i j (hi : i < s.length) (hj : j < s.length), i ≤ j → s[i] ≤ s[j] := by
    intro i j hi hj hij
    rcases hij.lt_or_eq with h | rfl
    · exact List.pairwise_iff_getElem.1 hsd i j hi hj h
    · exact le_rfl
  have hstrict : xs.Nodup → ∀ i j (hi : i < s.length) (hj : j < s.length), i < j → s[i] < s[j] := by
    intro hn i j hi hj hij
    refine lt_of_le_of_ne (hmono i j hi hj hij.le) ?_
    have hn' : s.Nodup := hperm.nodup_iff.2 hn
    intro he
    have := (List.Nodup.getElem_inj_iff hn').1 he
    omega
  have hnan : (xs.map XR.fin).any XR.isNan = false := by
    rw [List.any_eq_false]
    intro x hx
    obtain ⟨a, -, rfl⟩ := List.mem_map.1 hx
    simp [XR.isNan]
  have hemp : (xs.map XR.fin).isEmpty = false := by
    simp [hne]
  have hval : (!(XR.le (.fin 0) (.fin q) && XR.le (.fin q) (.fin 1))) = false := by
    simp [h0, h1]
  have hq : quantile (xs.map XR.fin) (.fin q) =
      if (s.length : K) - 1 ≤ q * ((s.length : K) - 1) then
        .ok ((s.map XR.fin).getD (s.length - 1) .nan)
      else .ok (lerp ((s.map XR.fin).getD ⌊q * ((s.length : K) - 1)⌋₊ .nan)
        ((s.map XR.fin).getD (⌊q * ((s.length : K) - 1)⌋₊ + 1) .nan)
        (.fin (q * ((s.length : K) - 1) - ⌊q * ((s.length : K) - 1)⌋₊))) := by
    unfold quantile
    rw [hval, hemp, hnan, hsort]
    simp only [Bool.false_eq_true, if_false, List.length_map]
  have hget : ∀ i (hi : i < s.length), (s.map XR.fin).getD i .nan = .fin s[i] := by
    intro i hi
    rw [List.getD_eq_getElem?_getD, List.getElem?_map, List.getElem?_eq_getElem hi]
    rfl
  have hcount : ∀ p : K → Bool, xs.countP p = s.countP p := fun p => (hperm.countP_eq p).symm
  have hmem : ∀ i (hi : i < s.length), s[i] ∈ xs := fun i hi => hperm.mem_iff.1 (List.getElem_mem hi)
  have hvi0 : 0 ≤ q * ((s.length : K) - 1) := by
    apply mul_nonneg h0
    have : (1 : K) ≤ (s.length : K) := by exact_mod_cast hpos
    linarith
  rw [hq]
  simp only [hcount, ← hlen]
  by_cases hc : (s.length : K) - 1 ≤ q * ((s.length : K) - 1)
  · rw [if_pos hc, hget _ (by omega)]
    have hle : q * ((s.length : K) - 1) ≤ (s.length : K) - 1 := by
      have : (0 : K) ≤ (s.length : K) - 1 := by
        have : (1 : K) ≤ (s.length : K) := by exact_mod_cast hpos
        linarith
      nlinarith
    refine ⟨_, rfl, ⟨_, hmem (s.length - 1) (by omega), le_rfl⟩, ⟨_, hmem (s.length - 1) (by omega), le_rfl⟩, ?_, ?_⟩
    · have h2 := countP_take_le s (fun x => decide (x ≤ s[s.length - 1])) s.length
        (fun j hj _ => by simpa using hmono j (s.length - 1) hj (by omega) (by omega)) le_rfl
      have h3 : (s.length : K) ≤ (s.countP (fun x => decide (x ≤ s[s.length - 1])) : K) := by exact_mod_cast h2
      linarith
    · intro hn
      have h2 := countP_take_le s (fun x => decide (x < s[s.length - 1])) (s.length - 1)
        (fun j hj hj' => by simpa using hstrict hn j (s.length - 1) hj (by omega) hj') (by omega)
      have h3 : ((s.length - 1 : Nat) : K) ≤ (s.countP (fun x => decide (x < s[s.length - 1])) : K) := by
        exact_mod_cast h2
      rw [Nat.cast_sub hpos] at h3
      simp only [Nat.cast_one] at h3
      linarith
  · rw [if_neg hc]
    push Not at hc
    set vi := q * ((s.length : K) - 1) with hvi
    set i := ⌊vi⌋₊ with hi
    have hile : (i : K) ≤ vi := Nat.floor_le hvi0
    have hlti : vi < (i : K) + 1 := Nat.lt_floor_add_one vi
    have hi1 : i + 1 < s.length := by
      have : (i : K) + 1 < (s.length : K) := by linarith
      exact_mod_cast this
    rw [hget i (by omega), hget (i + 1) hi1, lerp_fin]
    have hm := hmono i (i + 1) (by omega) hi1 (by omega)
    refine ⟨_, rfl, ⟨_, hmem i (by omega), ?_⟩, ⟨_, hmem (i + 1) hi1, ?_⟩, ?_, ?_⟩
    · nlinarith
    · nlinarith
    · have h2 := countP_take_le s (fun x => decide (x ≤ s[i] + (s[i + 1] - s[i]) * (vi - i))) (i + 1)
        (fun j hj hj' => by
          have := hmono j i hj (by omega) (by omega)
          simp only [decide_eq_true_eq]
          nlinarith) (by omega)
      have h3 : ((i + 1 : Nat) : K) ≤ _ := Nat.cast_le.2 h2
      push_cast at h3
      linarith
    · intro hn
      rcases hile.lt_or_eq with h | h
      · have h2 := countP_take_le s (fun x => decide (x < s[i] + (s[i + 1] - s[i]) * (vi - i))) (i + 1)
          (fun j hj hj' => by
            have h4 := hmono j i hj (by omega) (by omega)
            have h5 := hstrict hn i (i + 1) (by omega) hi1 (by omega)
            simp only [decide_eq_true_eq]
            nlinarith [mul_pos (sub_pos.2 h5) (sub_pos.2 h)]) (by omega)
        have h3 : ((i + 1 : Nat) : K) ≤ _ := Nat.cast_le.2 h2
        push_cast at h3
        linarith
      · have h2 := countP_take_le s (fun x => decide (x < s[i] + (s[i + 1] - s[i]) * (vi - i))) i
          (fun j hj hj' => by
            have h4 := hstrict hn j i hj (by omega) hj'
            have h5 : (s[i + 1] - s[i]) * (vi - i) = 0 := by rw [← h]; ring
            simp only [decide_eq_true_eq, h5, add_zero]
            exact h4) (by omega)
        have h3 : (i : K) ≤ _ := Nat.cast_le.2 h2
        exact h.symm.le.trans h3

end Lemmas
