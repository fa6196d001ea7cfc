import Verif.Model.Registry

/-!
# Properties of workshops: C40, C82
-/

namespace Props.Registry

open Py Model Model.Registry

variable {N Cr : Type} [DecidableEq N]

/-- What can happen to the registry. -/
inductive Op (N Cr : Type)
  | get (n : N)
  | register (i : Nat) (k : N) (c : Cr)
  | evaluate (i : Nat)

/-- One step. -/
def act (builtins : N) (b : Cr) (r : Registry N Cr) : Op N Cr → Registry N Cr
  | .get n => (r.getAtelier n).1
  | .register i k c => r.register i k c
  | .evaluate i => r.evaluate builtins b i

/-- A history. -/
def run (builtins : N) (b : Cr) (ops : List (Op N Cr)) (r : Registry N Cr) : Registry N Cr :=
  ops.foldl (act builtins b) r

/-- Names refer to existing objects, different names to different ones. -/
def Good (r : Registry N Cr) : Prop :=
  (∀ n i, r.names.get? n = some i → i < r.heap.length) ∧
  ∀ n m i, r.names.get? n = some i → r.names.get? m = some i → n = m

theorem good_act (builtins : N) (b : Cr) {r : Registry N Cr} (h : Good r) (o : Op N Cr) : Good (act builtins b r o) := by
  cases o with
  | register i k c =>
    refine ⟨fun n j hj => ?_, h.2⟩
    have : (act builtins b r (.register i k c)).heap.length = r.heap.length := by simp [act, register]
    rw [this]; exact h.1 n j hj
  | evaluate i =>
    refine ⟨fun n j hj => ?_, h.2⟩
    have : (act builtins b r (.evaluate i)).heap.length = r.heap.length := by simp [act, evaluate]
    rw [this]; exact h.1 n j hj
  | get n =>
    show Good (r.getAtelier n).1
    unfold getAtelier
    cases hn : r.names.get? n with
    | some i => exact h
    | none =>
      refine ⟨?_, ?_⟩
      · intro m i hm
        simp only [Dict.get?_set] at hm
        simp only [List.length_append, List.length_singleton]
        split at hm
        · cases hm; omega
        · have := h.1 m i hm; omega
      · intro m m' i hm hm'
        simp only [Dict.get?_set] at hm hm'
        split at hm
        · split at hm'
          · simp_all
          · cases hm
            have := h.1 m' _ hm'
            omega
        · split at hm'
          · cases hm'
            have := h.1 m _ hm
            omega
          · exact h.2 m m' i hm hm'

theorem good_run (builtins : N) (b : Cr) (ops : List (Op N Cr)) : ∀ {r : Registry N Cr}, Good r →
    Good (run builtins b ops r) := by
  induction ops with
  | nil => intro r h; exact h
  | cons o ops ih => intro r h; exact ih (good_act builtins b h o)

theorem good_init : Good (.init : Registry N Cr) := ⟨by simp [init], by simp [init]⟩

theorem names_act (builtins : N) (b : Cr) {r : Registry N Cr} {n : N} {i : Nat} (h : r.names.get? n = some i)
    (o : Op N Cr) : (act builtins b r o).names.get? n = some i := by
  cases o with
  | register i k c => exact h
  | evaluate i => exact h
  | get m =>
    show ((r.getAtelier m).1).names.get? n = some i
    unfold getAtelier
    cases hm : r.names.get? m with
    | some j => exact h
    | none =>
      have : n ≠ m := by rintro rfl; rw [h] at hm; cases hm
      simp only
      rw [Dict.get?_set_ne _ _ (Ne.symm this)]
      exact h

theorem names_run (builtins : N) (b : Cr) (ops : List (Op N Cr)) : ∀ {r : Registry N Cr} {n : N} {i : Nat},
    r.names.get? n = some i → (run builtins b ops r).names.get? n = some i := by
  induction ops with
  | nil => intro r n i h; exact h
  | cons o ops ih => intro r n i h; exact ih (names_act builtins b h o)

theorem names_get (r : Registry N Cr) (n : N) : (r.getAtelier n).1.names.get? n = some (r.getAtelier n).2 := by
  unfold getAtelier
  cases h : r.names.get? n with
  | some i => exact h
  | none => simp

/-- **C40** (one workshop per name): asking again for a name, whatever happened in between, gives the same object and
changes nothing. -/
theorem C40_same (builtins : N) (b : Cr) (r : Registry N Cr) (n : N) (ops : List (Op N Cr)) :
    (run builtins b ops (r.getAtelier n).1).getAtelier n
      = (run builtins b ops (r.getAtelier n).1, (r.getAtelier n).2) := by
  have h := names_run builtins b ops (names_get r n)
  rw [getAtelier, h]

/-- **C40** (different names): at any time in any history, different names give different objects. -/
theorem C40_distinct (builtins : N) (b : Cr) (before between : List (Op N Cr)) {n m : N} (hnm : n ≠ m) :
    ((run builtins b before .init).getAtelier n).2
      ≠ ((run builtins b between ((run builtins b before .init).getAtelier n).1).getAtelier m).2 := by
  intro e
  have hg := good_run builtins b before (r := (.init : Registry N Cr)) good_init
  have hg1 : Good ((run builtins b before .init).getAtelier n).1 := good_act builtins b hg (.get n)
  have hg2 := good_run builtins b between hg1
  have hg3 := good_act builtins b hg2 (.get m)
  have h1 := names_act builtins b (names_run builtins b between (names_get (run builtins b before .init) n)) (.get m)
  have h2 := names_get (run builtins b between ((run builtins b before .init).getAtelier n).1) m
  rw [← e] at h2
  exact hnm (hg3.2 _ _ _ h1 h2)

/-- The last creator registered for `k` in workshop `i` during a history. -/
def lastRegistered (i : Nat) (k : N) : List (Op N Cr) → Option Cr
  | [] => none
  | o :: ops => (lastRegistered i k ops).or (match o with
    | .register j l c => if j = i ∧ l = k then some c else none
    | _ => none)

theorem creator_act (builtins : N) (b : Cr) {r : Registry N Cr} {i : Nat} (hi : i < r.heap.length) {k : N}
    (hk : k ≠ builtins) (o : Op N Cr) :
    i < (act builtins b r o).heap.length ∧
    (act builtins b r o).creator i k = (lastRegistered i k [o]).or (r.creator i k) := by
  cases o with
  | get n =>
    show i < (r.getAtelier n).1.heap.length ∧ (r.getAtelier n).1.creator i k = r.creator i k
    unfold getAtelier creator
    cases r.names.get? n with
    | some j => exact ⟨hi, rfl⟩
    | none =>
      simp only [List.length_append, List.length_singleton]
      refine ⟨by omega, ?_⟩
      rw [List.getElem?_append_left hi]
  | register j l c =>
    refine ⟨by simpa [act, register] using hi, ?_⟩
    simp only [act, creator, register, List.getElem?_modify, lastRegistered, Option.none_or]
    by_cases hj : j = i
    · subst hj
      simp only [List.getElem?_eq_getElem hi, if_true, true_and, Option.map_eq_map, Option.map_some, Option.bind_some, Dict.get?_set]
      by_cases hl : l = k
      · simp [hl]
      · simp [hl]
    · simp [hj]
  | evaluate j =>
    refine ⟨by simpa [act, evaluate] using hi, ?_⟩
    simp only [act, creator, evaluate, List.getElem?_modify, lastRegistered, Option.none_or]
    by_cases hj : j = i
    · subst hj
      simp only [List.getElem?_eq_getElem hi, if_true, Option.map_eq_map, Option.map_some, Option.bind_some]
      split
      · rfl
      · rw [Dict.get?_set_ne _ _ (Ne.symm hk)]
    · simp [hj]

/-- **C40** (last wins): at any time a workshop holds, for each name, the creator registered last; registrations in
other workshops and under other names have no influence. -/
theorem C40_last_wins (builtins : N) (b : Cr) {k : N} (hk : k ≠ builtins) {i : Nat} : ∀ (ops : List (Op N Cr))
    {r : Registry N Cr}, i < r.heap.length →
    (run builtins b ops r).creator i k = (lastRegistered i k ops).or (r.creator i k) := by
  intro ops
  induction ops with
  | nil => intro r _; rfl
  | cons o ops ih =>
    intro r hi
    obtain ⟨h1, h2⟩ := creator_act builtins b hi hk o
    show (run builtins b ops (act builtins b r o)).creator i k = _
    rw [ih h1, h2]
    simp only [lastRegistered, Option.none_or]
    cases lastRegistered i k ops <;> rfl

/-- `A = get('A'); A.register('x', 1); B = get('B'); B.register('x', 2); get('A').register('x', 3); A.create(...)` -/
def exOps : List (Op String Nat) :=
  [.get "A", .register 0 "x" 1, .get "B", .register 1 "x" 2, .get "A", .register 0 "x" 3, .evaluate 0]

example : (run "__builtins__" 0 exOps .init).creator 0 "x" = some 3 ∧
    (run "__builtins__" 0 exOps .init).creator 1 "x" = some 2 ∧
    ((run "__builtins__" 0 exOps .init).getAtelier "B").2 = 1 := by decide

/-! ## C82 -/

/-- Only registrations, into any workshop. -/
def registeredIn (i : Nat) (k : N) (ops : List (Op N Cr)) : Prop := ∃ c, Op.register i k c ∈ ops

/-- **C82** fails: once anything has been evaluated in a workshop, its list shows `__builtins__`, although nobody
registered it. -/
theorem C82_refuted (builtins : N) (b : Cr) {r : Registry N Cr} {i : Nat} (hi : i < r.heap.length) :
    ∃ l, (r.evaluate builtins b i).list i = some l ∧ builtins ∈ l := by
  simp only [list, evaluate, List.getElem?_modify, List.getElem?_eq_getElem hi, if_true, Option.map_eq_map, Option.map_some]
  refine ⟨_, rfl, ?_⟩
  split
  · assumption
  · rw [Dict.mem_keys_set]; exact Or.inl rfl

example : (run "__builtins__" 0 exOps .init).list 0 = some ["x", "__builtins__"] := by decide

theorem creator_none_iff (r : Registry N Cr) {i : Nat} (hi : i < r.heap.length) (k : N) :
    (∃ l, r.list i = some l ∧ k ∈ l) ↔ (r.creator i k).isSome := by
  simp only [list, creator, List.getElem?_eq_getElem hi, Option.map_some, Option.bind_some, Option.some.injEq,
    exists_eq_left', Dict.get?_isSome_iff]

theorem lastRegistered_isSome (i : Nat) (k : N) (ops : List (Op N Cr)) :
    (lastRegistered i k ops).isSome ↔ registeredIn i k ops := by
  induction ops with
  | nil => simp [lastRegistered, registeredIn]
  | cons o ops ih =>
    unfold lastRegistered
    rw [Option.isSome_or]
    constructor
    · intro h
      rcases Bool.or_eq_true_iff.1 h with h | h
      · obtain ⟨c, hc⟩ := ih.1 h
        exact ⟨c, by simp [hc]⟩
      · cases o with
        | get n => simp at h
        | evaluate j => simp at h
        | register j l c =>
          simp only at h
          split at h
          · rename_i e
            obtain ⟨rfl, rfl⟩ := e
            exact ⟨c, by simp⟩
          · simp at h
    · rintro ⟨c, hc⟩
      rcases List.mem_cons.1 hc with rfl | hc
      · simp
      · simp [ih.2 ⟨c, hc⟩]

/-- **C82** (the provable part): apart from `__builtins__`, a workshop lists exactly the names registered in it. -/
theorem C82_partial (builtins : N) (b : Cr) {k : N} (hk : k ≠ builtins) (before after : List (Op N Cr)) (n : N)
    (hnew : (run builtins b before .init).names.get? n = none) :
    (∃ l, (run builtins b after ((run builtins b before .init).getAtelier n).1).list
        ((run builtins b before .init).getAtelier n).2 = some l ∧ k ∈ l) ↔
      registeredIn ((run builtins b before .init).getAtelier n).2 k after := by
  generalize hr : run builtins b before (.init : Registry N Cr) = r at *
  have hi : (r.getAtelier n).2 < (r.getAtelier n).1.heap.length := by
    simp [getAtelier, hnew]
  have hlen : (r.getAtelier n).2 < (run builtins b after (r.getAtelier n).1).heap.length := by
    have : ∀ (ops : List (Op N Cr)) (q : Registry N Cr), (r.getAtelier n).2 < q.heap.length →
        (r.getAtelier n).2 < (run builtins b ops q).heap.length := by
      intro ops
      induction ops with
      | nil => intro q h; exact h
      | cons o ops ih => intro q h; exact ih _ (creator_act builtins b h hk o).1
    exact this after _ hi
  rw [creator_none_iff _ hlen, C40_last_wins builtins b hk after hi]
  have : (r.getAtelier n).1.creator (r.getAtelier n).2 k = none := by
    simp [getAtelier, hnew, creator]
  rw [this, Option.or_none, lastRegistered_isSome]

end Props.Registry
