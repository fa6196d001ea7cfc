import Mathlib.Data.List.Basic
import Mathlib.Data.List.Nodup

/-!
# Python dictionaries

A `dict` is an association list in insertion order.  Assigning to an existing key keeps its
position, as in Python (>= 3.7).
-/

namespace Py

/-- Python `dict`: key/value pairs in insertion order. -/
abbrev Dict (κ : Type _) (ν : Type _) := List (κ × ν)

namespace Dict
set_option linter.unusedSectionVars false
variable {κ : Type _} {ν : Type _} [DecidableEq κ]

/-- `d.get(k)`; `none` is the absence of the key (a `KeyError` for `d[k]`). -/
def get? : Dict κ ν → κ → Option ν
  | [], _ => none
  | (k, v) :: d, x => if k = x then some v else get? d x

/-- `d.keys()`. -/
def keys (d : Dict κ ν) : List κ := d.map Prod.fst

/-- `d[k] = v`. -/
def set : Dict κ ν → κ → ν → Dict κ ν
  | [], x, w => [(x, w)]
  | (k, v) :: d, x, w => if k = x then (k, w) :: d else (k, v) :: set d x w

/-- `del d[k]` (no effect when the key is absent; callers check first). -/
def erase (d : Dict κ ν) (x : κ) : Dict κ ν := d.filter (fun p => p.1 ≠ x)

/-- `d.update(e)`. -/
def update (d e : Dict κ ν) : Dict κ ν := e.foldl (fun acc p => set acc p.1 p.2) d

/-- `{k: v for k, v in d.items() if c(k, v)}`. -/
def filterItems (d : Dict κ ν) (c : κ → ν → Bool) : Dict κ ν := d.filter (fun p => c p.1 p.2)

/-- Keys are unique: the invariant every Python dict satisfies. -/
def WF (d : Dict κ ν) : Prop := (keys d).Nodup

@[simp] theorem get?_nil (x : κ) : get? ([] : Dict κ ν) x = none := rfl

theorem get?_cons (k : κ) (v : ν) (d : Dict κ ν) (x : κ) :
    get? ((k, v) :: d) x = if k = x then some v else get? d x := rfl

@[simp] theorem keys_nil : keys ([] : Dict κ ν) = [] := rfl
@[simp] theorem keys_cons (p : κ × ν) (d : Dict κ ν) : keys (p :: d) = p.1 :: keys d := rfl

theorem get?_eq_none_iff (d : Dict κ ν) (x : κ) : get? d x = none ↔ x ∉ keys d := by
  induction d with
  | nil => simp
  | cons p d ih =>
    obtain ⟨k, v⟩ := p
    simp only [get?_cons, keys_cons, List.mem_cons]
    split
    · simp_all
    · rename_i h; rw [ih]; constructor
      · rintro h1 (h2 | h2)
        · exact h h2.symm
        · exact h1 h2
      · intro h1 h2; exact h1 (Or.inr h2)

theorem get?_isSome_iff (d : Dict κ ν) (x : κ) : (get? d x).isSome ↔ x ∈ keys d := by
  have := get?_eq_none_iff d x
  cases h : get? d x with
  | none => simp_all
  | some v =>
    simp only [Option.isSome_some, true_iff]
    by_contra hn
    rw [← this, h] at hn
    cases hn

theorem mem_keys_iff_exists (d : Dict κ ν) (x : κ) : x ∈ keys d ↔ ∃ v, get? d x = some v := by
  rw [← get?_isSome_iff, Option.isSome_iff_exists]

theorem get?_set (d : Dict κ ν) (x : κ) (w : ν) (y : κ) :
    get? (set d x w) y = if x = y then some w else get? d y := by
  induction d with
  | nil => simp [set, get?_cons]
  | cons p d ih =>
    obtain ⟨k, v⟩ := p
    by_cases hk : k = x
    · subst hk; simp [set, get?_cons]
      by_cases hy : k = y <;> simp [hy]
    · simp only [set, hk, if_false, get?_cons, ih]
      by_cases hy : k = y
      · subst hy
        have : ¬ x = k := fun h => hk h.symm
        simp [this]
      · simp [hy]

@[simp] theorem get?_set_self (d : Dict κ ν) (x : κ) (w : ν) : get? (set d x w) x = some w := by
  simp [get?_set]

theorem get?_set_ne (d : Dict κ ν) {x y : κ} (w : ν) (h : x ≠ y) :
    get? (set d x w) y = get? d y := by
  simp [get?_set, h]

theorem keys_set (d : Dict κ ν) (x : κ) (w : ν) :
    keys (set d x w) = if x ∈ keys d then keys d else keys d ++ [x] := by
  induction d with
  | nil => simp [set, keys]
  | cons p d ih =>
    obtain ⟨k, v⟩ := p
    by_cases hk : k = x
    · subst hk; simp [set]
    · have hk' : ¬ x = k := fun h => hk h.symm
      simp only [set, hk, if_false, keys_cons, ih, List.mem_cons, hk', false_or]
      split <;> simp

theorem mem_keys_set (d : Dict κ ν) (x : κ) (w : ν) (y : κ) :
    y ∈ keys (set d x w) ↔ y = x ∨ y ∈ keys d := by
  rw [keys_set]
  split
  · constructor
    · exact Or.inr
    · rintro (rfl | h)
      · assumption
      · exact h
  · simp [or_comm]

theorem WF.set {d : Dict κ ν} (h : WF d) (x : κ) (w : ν) : WF (set d x w) := by
  unfold WF at *
  rw [keys_set]
  split
  · exact h
  · rename_i hx
    rw [List.nodup_append]
    refine ⟨h, by simp, ?_⟩
    intro a ha b hb
    simp at hb
    subst hb
    intro hab; subst hab; exact hx ha

theorem wf_nil : WF ([] : Dict κ ν) := List.nodup_nil

theorem get?_erase (d : Dict κ ν) (x y : κ) :
    get? (erase d x) y = if y = x then none else get? d y := by
  induction d with
  | nil => simp [erase]
  | cons p d ih =>
    obtain ⟨k, v⟩ := p
    by_cases hk : k = x
    · subst hk
      have : erase ((k, v) :: d) k = erase d k := by simp [erase]
      rw [this, ih, get?_cons]
      by_cases hy : y = k
      · simp [hy]
      · have : ¬ k = y := fun h => hy h.symm
        simp [hy, this]
    · have : erase ((k, v) :: d) x = (k, v) :: erase d x := by simp [erase, hk]
      rw [this, get?_cons, get?_cons, ih]
      by_cases hy : k = y
      · subst hy; simp [hk]
      · simp [hy]

theorem mem_keys_erase (d : Dict κ ν) (x y : κ) :
    y ∈ keys (erase d x) ↔ y ∈ keys d ∧ y ≠ x := by
  rw [← get?_isSome_iff, ← get?_isSome_iff, get?_erase]
  by_cases hy : y = x <;> simp [hy]

theorem keys_erase (d : Dict κ ν) (x : κ) :
    keys (erase d x) = (keys d).filter (fun y => y ≠ x) := by
  unfold erase keys
  rw [List.filter_map]
  rfl

theorem WF.erase {d : Dict κ ν} (h : WF d) (x : κ) : WF (erase d x) := by
  unfold WF at *
  rw [keys_erase]
  exact h.filter _

theorem mem_of_get? {d : Dict κ ν} {x : κ} {v : ν} (h : get? d x = some v) : (x, v) ∈ d := by
  induction d with
  | nil => simp at h
  | cons p d ih =>
    obtain ⟨k, w⟩ := p
    rw [get?_cons] at h
    split at h
    · rename_i hk; subst hk; cases h; simp
    · exact List.mem_cons_of_mem _ (ih h)

theorem mem_keys_of_mem {d : Dict κ ν} {x : κ} {v : ν} (h : (x, v) ∈ d) : x ∈ keys d :=
  List.mem_map.2 ⟨_, h, rfl⟩

theorem get?_of_mem {d : Dict κ ν} (hw : WF d) {x : κ} {v : ν} (h : (x, v) ∈ d) :
    get? d x = some v := by
  induction d with
  | nil => simp at h
  | cons p d ih =>
    obtain ⟨k, w⟩ := p
    unfold WF at hw
    simp only [keys_cons, List.nodup_cons] at hw
    rw [get?_cons]
    rcases List.mem_cons.1 h with h | h
    · cases h; simp
    · have : k ≠ x := by
        rintro rfl
        exact hw.1 (mem_keys_of_mem h)
      simp [this]
      exact ih hw.2 h

theorem get?_append (d e : Dict κ ν) (x : κ) :
    get? (d ++ e) x = (get? d x).or (get? e x) := by
  induction d with
  | nil => simp
  | cons p d ih =>
    obtain ⟨k, v⟩ := p
    simp only [List.cons_append, get?_cons]
    split
    · simp
    · exact ih

theorem get?_filterItems_key (d : Dict κ ν) (c : κ → Bool) (x : κ) :
    get? (filterItems d (fun k _ => c k)) x = if c x then get? d x else none := by
  induction d with
  | nil => simp [filterItems]
  | cons p d ih =>
    obtain ⟨k, v⟩ := p
    unfold filterItems at *
    by_cases hc : c k
    · rw [List.filter_cons_of_pos (by simpa using hc), get?_cons, get?_cons, ih]
      by_cases hk : k = x
      · subst hk; simp [hc]
      · simp [hk]
    · rw [List.filter_cons_of_neg (by simpa using hc), ih, get?_cons]
      by_cases hk : k = x
      · subst hk; simp [hc]
      · simp [hk]

theorem mem_keys_filterItems_key (d : Dict κ ν) (c : κ → Bool) (x : κ) :
    x ∈ keys (filterItems d (fun k _ => c k)) ↔ x ∈ keys d ∧ c x := by
  rw [← get?_isSome_iff, ← get?_isSome_iff, get?_filterItems_key]
  by_cases h : c x <;> simp [h]

theorem WF.filterItems {d : Dict κ ν} (h : WF d) (c : κ → ν → Bool) : WF (filterItems d c) := by
  unfold WF keys Dict.filterItems at *
  exact h.sublist (List.filter_sublist.map _)

theorem get?_update (d e : Dict κ ν) (he : WF e) (x : κ) :
    get? (update d e) x = (get? e x).or (get? d x) := by
  unfold update
  induction e generalizing d with
  | nil => simp
  | cons p e ih =>
    obtain ⟨k, v⟩ := p
    unfold WF at he
    simp only [keys_cons, List.nodup_cons] at he
    simp only [List.foldl_cons]
    rw [ih _ he.2, get?_set, get?_cons]
    by_cases hk : k = x
    · subst hk
      have : get? e k = none := (get?_eq_none_iff e k).2 he.1
      simp [this]
    · simp [hk]

theorem mem_keys_update (d e : Dict κ ν) (x : κ) :
    x ∈ keys (update d e) ↔ x ∈ keys d ∨ x ∈ keys e := by
  unfold update
  induction e generalizing d with
  | nil => simp
  | cons p e ih =>
    simp only [List.foldl_cons, ih, mem_keys_set, keys_cons, List.mem_cons]
    tauto

theorem WF.update {d : Dict κ ν} (h : WF d) (e : Dict κ ν) : WF (update d e) := by
  unfold Dict.update
  induction e generalizing d with
  | nil => exact h
  | cons p e ih => exact ih (h.set _ _)

theorem keys_update_of_subset (d e : Dict κ ν) (h : ∀ x ∈ keys e, x ∈ keys d) :
    keys (update d e) = keys d := by
  unfold update
  induction e generalizing d with
  | nil => rfl
  | cons p e ih =>
    simp only [keys_cons, List.mem_cons, forall_eq_or_imp] at h
    have hk : keys (Dict.set d p.1 p.2) = keys d := by rw [keys_set, if_pos h.1]
    simp only [List.foldl_cons]
    rw [ih _ (by rw [hk]; exact h.2), hk]

end Dict

end Py
