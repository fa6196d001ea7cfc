import Verif.Py.Rand
import Mathlib.Algebra.Order.BigOperators.Group.List

/-!
# An honest source of random choices
-/

namespace Lemmas

open Py

variable {K : Type} [Field K] [LinearOrder K] [IsStrictOrderedRing K]

/-- A source that always picks the first index of positive probability. -/
def firstRand : Rand Nat K where
  random := fun s => (0, s + 1)
  pick := fun p n s => (List.replicate n (p.findIdx (fun w => XR.lt (.fin 0) w)), s + 1)

theorem exists_pos_of_valid (p : List (XR K)) (h : validProbs p = true) : ∃ w ∈ p, XR.lt (.fin 0) w = true := by
  unfold validProbs at h
  simp only [Bool.and_eq_true, List.all_eq_true, decide_eq_true_eq] at h
  obtain ⟨h1, h2⟩ := h
  by_contra hno
  push Not at hno
  have : p.sum = 0 := by
    apply List.sum_eq_zero
    intro x hx
    have h3 := h1 x hx
    have h4 := hno x hx
    cases x with
    | fin a =>
      simp only [XR.le_fin, decide_eq_true_eq, XR.lt_fin, decide_eq_true_eq] at h3 h4
      have h4 : ¬ 0 < a := by simpa using h4
      have : a = 0 := by exact le_antisymm (not_lt.1 h4) h3.1
      rw [this]
      rfl
    | pinf => simp [XR.isFinite] at h3
    | ninf => simp [XR.isFinite] at h3
    | nan => simp [XR.isFinite] at h3
  rw [this, XR.zero_def, XR.fin.injEq] at h2
  exact zero_ne_one h2

theorem firstRand_honest : (firstRand : Rand Nat K).Honest where
  random := fun s => ⟨le_refl _, one_pos⟩
  size := fun p n s _ => by simp [firstRand]
  support := by
    intro p n s hv i hi
    obtain ⟨w, hw, hpos⟩ := exists_pos_of_valid p hv
    have hlt : p.findIdx (fun w => XR.lt (.fin 0) w) < p.length := List.findIdx_lt_length.2 ⟨w, hw, hpos⟩
    simp only [firstRand, List.mem_replicate] at hi
    rw [hi.2]
    exact ⟨_, List.getElem?_eq_getElem hlt, List.findIdx_getElem⟩

/-! ### Programs that always end -/

/-- The program ends from every state. -/
def Total {S α : Type} (x : Run S α) : Prop := ∀ s, x s ≠ none

variable {S α β : Type}

theorem Total.bind {x : Run S α} {f : α → Run S β} (hx : Total x) (hf : ∀ a, Total (f a)) : Total (x >>= f) := by
  intro s
  rw [Run.bind_apply]
  have := hx s
  rcases hs : x s with _ | ⟨_ | a, s'⟩
  · exact absurd hs this
  · simp
  · exact hf a s'

theorem total_pure (a : α) : Total (pure a : Run S α) := by intro s; simp [pure]
theorem total_lift (f : S → Result α × S) : Total (Run.lift f) := by intro s; simp [Run.lift]
theorem total_ofResult (r : Result α) : Total (Run.ofResult r : Run S α) := by intro s; simp [Run.ofResult]
theorem total_fail (e : Err) : Total (Run.fail e : Run S α) := by intro s; simp [Run.fail]

theorem total_each {f : α → Run S β} (hf : ∀ a, Total (f a)) (as : List α) : Total (Run.each f as) := by
  induction as with
  | nil => exact total_pure _
  | cons a as ih => exact (hf a).bind (fun _ => ih.bind (fun _ => total_pure _))

theorem total_times {x : Run S α} (hx : Total x) (n : Nat) : Total (Run.times n x) := by
  induction n with
  | zero => exact total_pure _
  | succ n ih => exact hx.bind (fun _ => ih.bind (fun _ => total_pure _))

end Lemmas
