import Verif.Py.XRField
import Verif.Py.Err
import Mathlib.Algebra.BigOperators.Group.List.Basic

/-!
# numpy's random choices, and programs whose loops need not end

`Rand` is what the fitting algorithms ask of `numpy.random`; `Run` is a program that reads a random state and may
raise, finish, or still be running when its fuel is used up.
-/

namespace Py

/-- A source of uniform numbers and of weighted choices, with its state. -/
structure Rand (S K : Type) where
  /-- `rd.random()` -/
  random : S → K × S
  /-- the indices that `np.random.choice(len(p), n, replace=True, p=p)` draws for a valid `p` -/
  pick : List (XR K) → Nat → S → List Nat × S

variable {S K : Type} [Field K] [LinearOrder K]

/-- What `choice` checks of `p`: non-negative numbers that sum to one (numpy allows a rounding error, numbers are
exact here). -/
def validProbs (p : List (XR K)) : Bool :=
  p.all (fun x => XR.le (.fin 0) x && x.isFinite) && decide (p.sum = .fin 1)

/-- `np.random.choice(len(p), n, replace=True, p=p)`: ValueError for an invalid `p`. -/
def Rand.choice (r : Rand S K) (p : List (XR K)) (n : Nat) (s : S) : Result (List Nat) × S :=
  if validProbs p then
    let (is, s') := r.pick p n s
    (.ok is, s')
  else (.error .ValueError, s)

/-- What numpy guarantees: uniform numbers lie in [0, 1), a choice has the requested size, and picks only indices of
positive probability. -/
structure Rand.Honest (r : Rand S K) : Prop where
  random : ∀ s, 0 ≤ (r.random s).1 ∧ (r.random s).1 < 1
  size : ∀ p n s, validProbs p = true → (r.pick p n s).1.length = n
  support : ∀ p n s, validProbs p = true → ∀ i ∈ (r.pick p n s).1, ∃ w, p[i]? = some w ∧ XR.lt (.fin 0) w = true

/-- A program: `none` when its fuel is used up, otherwise its outcome and the new random state. -/
def Run (S α : Type) := S → Option (Result α × S)

namespace Run
variable {α β : Type}

instance : Monad (Run S) where
  pure a := fun s => some (.ok a, s)
  bind x f := fun s => match x s with
    | none => none
    | some (.error e, s') => some (.error e, s')
    | some (.ok a, s') => f a s'

/-- A step that always ends. -/
def lift (f : S → Result α × S) : Run S α := fun s => some (f s)
/-- An outcome that uses no random number. -/
def ofResult (r : Result α) : Run S α := fun s => some (r, s)
/-- Raise an exception. -/
def fail (e : Err) : Run S α := fun s => some (.error e, s)
/-- Still running when the fuel is used up. -/
def more : Run S α := fun _ => none
/-- `[x() for _ in range(n)]` -/
def times : Nat → Run S α → Run S (List α)
  | 0, _ => pure []
  | n + 1, x => do
    let a ← x
    let as ← times n x
    return a :: as
/-- `[f(a) for a in as]` -/
def each (f : α → Run S β) : List α → Run S (List β)
  | [] => pure []
  | a :: as => do
    let b ← f a
    let bs ← each f as
    return b :: bs

theorem pure_ok {a b : α} {s s' : S} : (pure a : Run S α) s = some (.ok b, s') ↔ a = b ∧ s = s' := by
  simp [pure]

theorem pure_apply (a : α) (s : S) : (pure a : Run S α) s = some (.ok a, s) := rfl

theorem bind_apply (x : Run S α) (f : α → Run S β) (s : S) : (x >>= f) s = match x s with
    | none => none
    | some (.error e, s') => some (.error e, s')
    | some (.ok a, s') => f a s' := rfl

theorem bind_ok {x : Run S α} {f : α → Run S β} {s s' : S} {b : β} :
    (x >>= f) s = some (.ok b, s') ↔ ∃ a s1, x s = some (.ok a, s1) ∧ f a s1 = some (.ok b, s') := by
  rw [bind_apply]
  rcases x s with _ | ⟨_ | a, s1⟩ <;> simp

theorem bind_error {x : Run S α} {f : α → Run S β} {s s' : S} {e : Err} :
    (x >>= f) s = some (.error e, s') ↔
      x s = some (.error e, s') ∨ ∃ a s1, x s = some (.ok a, s1) ∧ f a s1 = some (.error e, s') := by
  rw [bind_apply]
  rcases x s with _ | ⟨_ | a, s1⟩ <;> simp

theorem lift_ok {f : S → Result α × S} {a : α} {s s' : S} : lift f s = some (.ok a, s') ↔ f s = (.ok a, s') := by
  simp [lift]

theorem ofResult_ok {r : Result α} {a : α} {s s' : S} :
    ofResult r s = some (.ok a, s') ↔ r = .ok a ∧ s = s' := by
  simp [ofResult]

theorem fail_ok {e : Err} {a : α} {s s' : S} : ¬ (fail e : Run S α) s = some (.ok a, s') := by
  simp [fail]

theorem more_ok {a : α} {s s' : S} : ¬ (more : Run S α) s = some (.ok a, s') := by
  simp [more]

theorem times_ok {x : Run S α} {n : Nat} {s s' : S} {as : List α} (h : times n x s = some (.ok as, s')) :
    as.length = n ∧ ∀ a ∈ as, ∃ t t', x t = some (.ok a, t') := by
  induction n generalizing s s' as with
  | zero =>
    obtain ⟨rfl, -⟩ := pure_ok.1 h
    simp
  | succ n ih =>
    obtain ⟨a, s1, h1, h2⟩ := bind_ok.1 h
    obtain ⟨as', s2, h3, h4⟩ := bind_ok.1 h2
    obtain ⟨rfl, -⟩ := pure_ok.1 h4
    obtain ⟨h5, h6⟩ := ih h3
    refine ⟨by simp [h5], ?_⟩
    intro b hb
    rcases List.mem_cons.1 hb with rfl | hb
    · exact ⟨_, _, h1⟩
    · exact h6 b hb

theorem each_ok {f : α → Run S β} {as : List α} {s s' : S} {bs : List β} (h : each f as s = some (.ok bs, s')) :
    List.Forall₂ (fun a b => ∃ t t', f a t = some (.ok b, t')) as bs := by
  induction as generalizing s s' bs with
  | nil =>
    obtain ⟨rfl, -⟩ := pure_ok.1 h
    exact .nil
  | cons a as ih =>
    obtain ⟨b, s1, h1, h2⟩ := bind_ok.1 h
    obtain ⟨bs', s2, h3, h4⟩ := bind_ok.1 h2
    obtain ⟨rfl, -⟩ := pure_ok.1 h4
    exact .cons ⟨_, _, h1⟩ (ih h3)

theorem each_error {f : α → Run S β} {as : List α} {s s' : S} {e : Err} (h : each f as s = some (.error e, s')) :
    ∃ a ∈ as, ∃ t t', f a t = some (.error e, t') := by
  induction as generalizing s with
  | nil => simp [each, pure] at h
  | cons a as ih =>
    rcases bind_error.1 h with h | ⟨b, s1, -, h⟩
    · exact ⟨a, by simp, _, _, h⟩
    · rcases bind_error.1 h with h | ⟨bs, s2, -, h⟩
      · obtain ⟨x, hx, r⟩ := ih h
        exact ⟨x, by simp [hx], r⟩
      · simp [pure] at h

end Run

end Py
