import Verif.Model.Tables
import Verif.Lemmas.Rand
import Mathlib.Algebra.Order.Field.Basic
import Mathlib.Tactic.Linarith
import Mathlib.Tactic.FieldSimp
import Mathlib.Data.List.Pairwise

/-!
# Lemmas about tables
-/

namespace Lemmas.Tables

open Py Model

set_option linter.unusedSectionVars false

/-! ### Lists of results -/

theorem mapM_of {A B : Type} (f : A → Result B) (g : A → B) (l : List A) (h : ∀ a ∈ l, f a = .ok (g a)) :
    l.mapM f = .ok (l.map g) := by
  induction l with
  | nil => rfl
  | cons a l ih =>
    rw [List.mapM_cons, h a (by simp), ih (fun b hb => h b (by simp [hb]))]
    rfl

theorem mapM_inv {A B : Type} {f : A → Result B} {l : List A} {l' : List B} (h : l.mapM f = .ok l') :
    List.Forall₂ (fun a b => f a = .ok b) l l' := by
  induction l generalizing l' with
  | nil =>
    cases h
    exact .nil
  | cons a l ih =>
    rw [List.mapM_cons] at h
    cases h1 : f a with
    | error e => rw [h1] at h; cases h
    | ok b =>
      rw [h1] at h
      cases h2 : l.mapM f with
      | error e => rw [h2] at h; cases h
      | ok bs =>
        rw [h2] at h
        cases h
        exact .cons h1 (ih h2)

/-! ### Dictionaries filled in a loop -/

variable {κ ν A : Type} [DecidableEq κ]

theorem set_of_not_mem (d : Dict κ ν) (x : κ) (w : ν) (h : x ∉ d.keys) : d.set x w = d ++ [(x, w)] := by
  induction d with
  | nil => rfl
  | cons p d ih =>
    obtain ⟨k, v⟩ := p
    simp only [Dict.keys_cons, List.mem_cons, not_or] at h
    simp [Dict.set, Ne.symm h.1, ih h.2]

theorem foldl_set_nodup (f : A → κ) (g : A → ν) (l : List A) (d : Dict κ ν)
    (h : (d.keys ++ l.map f).Nodup) :
    l.foldl (fun d a => d.set (f a) (g a)) d = d ++ l.map (fun a => (f a, g a)) := by
  induction l generalizing d with
  | nil => simp
  | cons a l ih =>
    have ha : f a ∉ d.keys := by
      rw [List.nodup_append] at h
      intro hm
      exact h.2.2 _ hm _ (by simp) rfl
    rw [List.foldl_cons, set_of_not_mem _ _ _ ha, ih]
    · simp
    · rw [show Dict.keys (d ++ [(f a, g a)]) = d.keys ++ [f a] by simp [Dict.keys]]
      simpa using h

theorem foldl_set_get? (f : A → κ) (g : A → ν) (l : List A) (d : Dict κ ν) (x : κ) :
    (l.foldl (fun d a => d.set (f a) (g a)) d).get? x =
      ((l.reverse.find? (fun a => decide (f a = x))).map g).or (d.get? x) := by
  induction l generalizing d with
  | nil => simp
  | cons a l ih =>
    rw [List.foldl_cons, ih, Dict.get?_set, List.reverse_cons, List.find?_append]
    cases l.reverse.find? (fun a => decide (f a = x)) with
    | some b => simp
    | none =>
      by_cases h : f a = x
      · simp [h]
      · simp [h]

theorem get?_map (f : A → κ) (g : A → ν) (l : List A) (hn : (l.map f).Nodup) {a : A} (ha : a ∈ l) :
    Dict.get? (l.map (fun a => (f a, g a))) (f a) = some (g a) := by
  apply Dict.get?_of_mem
  · show ((l.map (fun a => (f a, g a))).map Prod.fst).Nodup
    rw [List.map_map]
    exact hn
  · exact List.mem_map.2 ⟨a, ha, rfl⟩

theorem get?_map_none (f : A → κ) (g : A → ν) (l : List A) {x : κ} (hx : ∀ a ∈ l, f a ≠ x) :
    Dict.get? (l.map (fun a => (f a, g a))) x = none := by
  rw [Dict.get?_eq_none_iff]
  intro h
  simp only [Dict.keys, List.map_map, List.mem_map] at h
  obtain ⟨a, ha, h⟩ := h
  exact hx a ha h

theorem get?_zip {ks : List κ} {vs : List ν} (hn : ks.Nodup) (hl : vs.length = ks.length) :
    ks.map (Dict.get? (ks.zip vs)) = vs.map some := by
  induction ks generalizing vs with
  | nil =>
    cases vs with
    | nil => rfl
    | cons v vs => simp at hl
  | cons k ks ih =>
    cases vs with
    | nil => simp at hl
    | cons v vs =>
      rw [List.nodup_cons] at hn
      simp only [List.zip_cons_cons, List.map_cons, Dict.get?_cons, if_true, List.cons.injEq, true_and]
      rw [← ih hn.2 (by simpa using hl)]
      apply List.map_congr_left
      intro x hx
      rw [Dict.get?_cons, if_neg]
      rintro rfl
      exact hn.1 hx

/-! ### Joined texts -/

theorem append_colon_inj {x y a b : List Char} (hx : ':' ∉ x) (hy : ':' ∉ y) (h : x ++ ':' :: a = y ++ ':' :: b) :
    x = y ∧ a = b := by
  induction x generalizing y with
  | nil =>
    cases y with
    | nil => simpa using h
    | cons c y =>
      simp only [List.nil_append, List.cons_append, List.cons.injEq] at h
      exact absurd (by rw [← h.1]; simp) hy
  | cons c x ih =>
    cases y with
    | nil =>
      simp only [List.nil_append, List.cons_append, List.cons.injEq] at h
      exact absurd (by simp [h.1]) hx
    | cons d y =>
      simp only [List.cons_append, List.cons.injEq] at h
      obtain ⟨h1, h2⟩ := ih (fun hm => hx (by simp [hm])) (fun hm => hy (by simp [hm])) h.2
      exact ⟨by rw [h.1, h1], h2⟩

theorem joinColon_inj {xs ys : List (List Char)} (hl : xs.length = ys.length) (hx : ∀ x ∈ xs, ':' ∉ x)
    (hy : ∀ y ∈ ys, ':' ∉ y) (h : joinColon xs = joinColon ys) : xs = ys := by
  induction xs generalizing ys with
  | nil => exact (List.length_eq_zero_iff.1 hl.symm).symm
  | cons x xs ih =>
    cases ys with
    | nil => simp at hl
    | cons y ys =>
      cases xs with
      | nil =>
        cases ys with
        | nil => simpa [joinColon] using h
        | cons => simp at hl
      | cons x' xs =>
        cases ys with
        | nil => simp at hl
        | cons y' ys =>
          rw [joinColon, joinColon] at h
          obtain ⟨h1, h2⟩ := append_colon_inj (hx x (by simp)) (hy y (by simp)) h
          rw [h1, ih (by simpa using hl) (fun z hz => hx z (by simp [hz])) (fun z hz => hy z (by simp [hz])) h2]

/-! ### Sums -/

variable {K : Type} [Field K] [LinearOrder K] [IsStrictOrderedRing K]

theorem sum_fin (l : List K) : (l.map XR.fin).sum = XR.fin l.sum := by
  induction l with
  | nil => rfl
  | cons a l ih => simp [ih]

theorem sum_div (l : List K) (c : K) : (l.map (· / c)).sum = l.sum / c := by
  induction l with
  | nil => simp
  | cons a l ih => simp [ih, add_div]

theorem valid_of_pos (ws : List K) (h0 : ∀ w ∈ ws, 0 ≤ w) (hs : 0 < ws.sum) :
    validProbs ((ws.map XR.fin).map (· / (ws.map XR.fin).sum)) = true := by
  have e : (ws.map XR.fin).map (· / (ws.map XR.fin).sum) = (ws.map (· / ws.sum)).map XR.fin := by
    rw [sum_fin, List.map_map, List.map_map]
    apply List.map_congr_left
    intro w _
    exact XR.fin_div_fin_of_ne w hs.ne'
  rw [e]
  unfold validProbs
  rw [sum_fin, sum_div, div_self hs.ne']
  simp only [decide_true, Bool.and_true, List.all_eq_true, List.mem_map]
  rintro x ⟨y, ⟨w, hw, rfl⟩, rfl⟩
  have := div_nonneg (h0 w hw) hs.le
  simp [XR.isFinite, this]

end Lemmas.Tables
