import Mathlib.Algebra.BigOperators.Group.List.Basic
import Mathlib.Algebra.Order.Monoid.Defs

/-!
# Extended numbers

IEEE style numbers over an arbitrary carrier `K`: finite values, the two infinities and NaN.  Rounding is
not modelled: finite arithmetic is exact.
-/

namespace Py

/-- A float: finite, `+inf`, `-inf` or NaN. -/
inductive XR (K : Type _)
  | fin (x : K)
  | pinf
  | ninf
  | nan
  deriving DecidableEq, Repr

namespace XR

variable {K : Type _}

/-- IEEE addition: NaN is absorbing, opposite infinities give NaN. -/
def add [Add K] : XR K → XR K → XR K
  | .nan, _ => .nan
  | _, .nan => .nan
  | .fin a, .fin b => .fin (a + b)
  | .fin _, y => y
  | x, .fin _ => x
  | .pinf, .pinf => .pinf
  | .ninf, .ninf => .ninf
  | .pinf, .ninf => .nan
  | .ninf, .pinf => .nan

instance [Add K] : Add (XR K) := ⟨add⟩
instance [Zero K] : Zero (XR K) := ⟨.fin 0⟩

/-- `np.isnan`. -/
def isNan : XR K → Bool
  | .nan => true
  | _ => false

/-- `np.isfinite`. -/
def isFinite : XR K → Bool
  | .fin _ => true
  | _ => false

theorem add_def [Add K] (x y : XR K) : x + y = add x y := rfl

@[simp] theorem fin_add_fin [Add K] (a b : K) : (XR.fin a) + (XR.fin b) = XR.fin (a + b) := rfl

theorem zero_def [Zero K] : (0 : XR K) = XR.fin 0 := rfl

instance [AddCommMonoid K] : AddCommMonoid (XR K) where
  add := (· + ·)
  zero := 0
  add_assoc := by
    intro a b c
    cases a <;> cases b <;> cases c <;> simp [add_def, add, add_assoc]
  zero_add := by
    intro a
    cases a <;> simp [add_def, add, zero_def]
  add_zero := by
    intro a
    cases a <;> simp [add_def, add, zero_def]
  add_comm := by
    intro a b
    cases a <;> cases b <;> simp [add_def, add, add_comm]
  nsmul := nsmulRec

@[simp] theorem nan_add [Add K] (x : XR K) : (XR.nan : XR K) + x = XR.nan := by
  cases x <;> rfl

@[simp] theorem add_nan [Add K] (x : XR K) : x + (XR.nan : XR K) = XR.nan := by
  cases x <;> rfl

/-- Python/IEEE `<`: false as soon as NaN is involved. -/
def lt [LT K] [DecidableLT K] : XR K → XR K → Bool
  | .fin a, .fin b => decide (a < b)
  | .fin _, .pinf => true
  | .ninf, .fin _ => true
  | .ninf, .pinf => true
  | _, _ => false

/-- Python/IEEE `<=`: false as soon as NaN is involved. -/
def le [LE K] [DecidableLE K] : XR K → XR K → Bool
  | .fin a, .fin b => decide (a ≤ b)
  | .fin _, .pinf => true
  | .ninf, .fin _ => true
  | .ninf, .pinf => true
  | .pinf, .pinf => true
  | .ninf, .ninf => true
  | _, _ => false

end XR

end Py
