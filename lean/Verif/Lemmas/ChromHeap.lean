import Verif.Model.ChromHeap

/-!
# Helper lemmas on chromosome objects on a heap
-/

namespace Model

set_option linter.unusedSectionVars false

open Py

variable {N V K : Type} [DecidableEq N]

namespace ChromHeap

/-- Values and probability of an object. -/
def view (h : ChromHeap N V K) (i : Nat) : Option (Dict N V × XR K) :=
  (h.objs[i]?).bind fun o => (h.dicts[o.1]?).map fun d => (d, o.2)

/-- No two objects share a dictionary, and no reference dangles. -/
structure Inv (h : ChromHeap N V K) : Prop where
  apart : ∀ (i j : Nat) (o o' : Nat × XR K), h.objs[i]? = some o → h.objs[j]? = some o' → o.1 = o'.1 → i = j
  bound : ∀ (i : Nat) (o : Nat × XR K), h.objs[i]? = some o → o.1 < h.dicts.length

theorem inv_empty : Inv (empty : ChromHeap N V K) := ⟨by simp [empty], by simp [empty]⟩

theorem Inv.init {h : ChromHeap N V K} (hi : h.Inv) (vs : Dict N V) (p : XR K) :
    (h.init vs p).Inv ∧ ∀ j, (h.init vs p).view j = if j = h.objs.length then some (vs, p) else h.view j := by
  have hobj : ∀ j : Nat, (h.init vs p).objs[j]? = if j = h.objs.length then some (h.dicts.length, p)
      else h.objs[j]? := by
    intro j
    show (h.objs ++ [(h.dicts.length, p)])[j]? = _
    by_cases hj : j = h.objs.length
    · subst hj; simp
    · rw [if_neg hj]
      rcases Nat.lt_or_ge j h.objs.length with hlt | hge
      · rw [List.getElem?_append_left hlt]
      · rw [List.getElem?_append_right hge, List.getElem?_eq_none (by simp; omega),
          List.getElem?_eq_none (by omega)]
  refine ⟨⟨?_, ?_⟩, ?_⟩
  · intro i j o o' ho ho' he
    rw [hobj] at ho ho'
    split at ho <;> split at ho'
    · omega
    · cases ho
      have := hi.bound _ _ ho'
      simp only at he
      omega
    · cases ho'
      have := hi.bound _ _ ho
      simp only at he
      omega
    · exact hi.apart i j o o' ho ho' he
  · intro i o ho
    rw [hobj] at ho
    show o.1 < (h.dicts ++ [vs]).length
    rw [List.length_append, List.length_singleton]
    split at ho
    · cases ho; simp
    · have := hi.bound _ _ ho; omega
  · intro j
    unfold view
    rw [hobj]
    split
    · show (((h.dicts ++ [vs])[h.dicts.length]?).map fun d => (d, p)) = _
      simp
    · cases ho : h.objs[j]? with
      | none => rfl
      | some o =>
        show (((h.dicts ++ [vs])[o.1]?).map fun d => (d, o.2)) = ((h.dicts[o.1]?).map fun d => (d, o.2))
        rw [List.getElem?_append_left (hi.bound j o ho)]

theorem Inv.upd {h : ChromHeap N V K} (hi : h.Inv) {i : Nat} {o : Nat × XR K} (ho : h.objs[i]? = some o)
    (d : Dict N V) (p : XR K) :
    (⟨h.dicts.set o.1 d, h.objs.set i (o.1, p)⟩ : ChromHeap N V K).Inv ∧
    (h.objs.set i (o.1, p)).length = h.objs.length ∧
    ∀ j, (⟨h.dicts.set o.1 d, h.objs.set i (o.1, p)⟩ : ChromHeap N V K).view j
      = if j = i then some (d, p) else h.view j := by
  have hil : i < h.objs.length := by
    by_contra hc
    rw [List.getElem?_eq_none (by omega)] at ho; cases ho
  have hobj : ∀ j : Nat, (h.objs.set i (o.1, p))[j]? = if j = i then some (o.1, p) else h.objs[j]? := by
    intro j
    by_cases hj : j = i
    · subst hj; simp [hil]
    · rw [if_neg hj, List.getElem?_set_ne (Ne.symm hj)]
  have hfst : ∀ (j : Nat) (o' : Nat × XR K), (h.objs.set i (o.1, p))[j]? = some o' →
      ∃ o'' : Nat × XR K, h.objs[j]? = some o'' ∧ o''.1 = o'.1 := by
    intro j o' hj
    rw [hobj] at hj
    split at hj
    · rename_i e; cases hj; exact ⟨o, e ▸ ho, rfl⟩
    · exact ⟨o', hj, rfl⟩
  refine ⟨⟨?_, ?_⟩, by simp, ?_⟩
  · intro a b x y hx hy he
    obtain ⟨x', hx', ex⟩ := hfst a x hx
    obtain ⟨y', hy', ey⟩ := hfst b y hy
    exact hi.apart a b x' y' hx' hy' (by rw [ex, ey, he])
  · intro a x hx
    obtain ⟨x', hx', ex⟩ := hfst a x hx
    show x.1 < (h.dicts.set o.1 d).length
    rw [List.length_set, ← ex]
    exact hi.bound a x' hx'
  · intro j
    unfold view
    simp only
    rw [hobj]
    by_cases hj : j = i
    · simp [hj, hi.bound i o ho]
    · rw [if_neg hj, if_neg hj]
      cases hoj : h.objs[j]? with
      | none => rfl
      | some o' =>
        have hne : o.1 ≠ o'.1 := fun e => hj (hi.apart i j o o' ho hoj e).symm
        show ((h.dicts.set o.1 d)[o'.1]?.map fun d => (d, o'.2)) = _
        rw [List.getElem?_set_ne hne]
        rfl

theorem Inv.dict {h : ChromHeap N V K} (hi : h.Inv) {i : Nat} {o : Nat × XR K} (ho : h.objs[i]? = some o) :
    ∃ d, h.dicts[o.1]? = some d ∧ h.view i = some (d, o.2) := by
  have := hi.bound i o ho
  refine ⟨h.dicts[o.1], by simp [this], ?_⟩
  unfold view
  rw [ho]
  simp [this]

end ChromHeap

end Model
