import Verif.Py.XR
import Mathlib.Algebra.Order.Field.Basic
import Mathlib.Algebra.Order.AbsoluteValue.Basic

/-!
# Arithmetic of extended numbers

The numpy operations on floats the fitting code uses, over an ordered field: infinities and NaN follow
IEEE 754, finite arithmetic is exact, and there is one zero (signed zeros are not modelled: dividing by zero
uses the sign of the numerator).
-/

namespace Py

namespace XR
set_option linter.unusedSectionVars false

variable {K : Type _} [Field K] [LinearOrder K]

/-- `-x`. -/
def neg : XR K → XR K
  | .fin a => .fin (-a)
  | .pinf => .ninf
  | .ninf => .pinf
  | .nan => .nan

instance : Neg (XR K) := ⟨neg⟩

/-- `x - y`. -/
def sub (x y : XR K) : XR K := x + -y

instance : Sub (XR K) := ⟨sub⟩

/-- `x` times an infinity of positive sign: the sign of `x` decides, zero gives NaN. -/
def scaleInf : XR K → XR K
  | .fin a => if 0 < a then .pinf else if a < 0 then .ninf else .nan
  | x => x

/-- `x * y`. -/
def mul : XR K → XR K → XR K
  | .fin a, .fin b => .fin (a * b)
  | x, .pinf => scaleInf x
  | x, .ninf => -(scaleInf x)
  | .pinf, y => scaleInf y
  | .ninf, y => -(scaleInf y)
  | .nan, _ => .nan
  | _, .nan => .nan

instance : Mul (XR K) := ⟨mul⟩

/-- `x / y` of numpy floats: a division by zero gives an infinity of the sign of `x`, or NaN. -/
def div : XR K → XR K → XR K
  | .fin a, .fin b => if b = 0 then scaleInf (.fin a) else .fin (a / b)
  | .fin _, .pinf => .fin 0
  | .fin _, .ninf => .fin 0
  | .pinf, .fin b => if b < 0 then .ninf else .pinf
  | .ninf, .fin b => if b < 0 then .pinf else .ninf
  | _, _ => .nan

instance : Div (XR K) := ⟨div⟩

/-- `np.abs(x)`. -/
def abs : XR K → XR K
  | .fin a => .fin |a|
  | .pinf => .pinf
  | .ninf => .pinf
  | .nan => .nan

/-- `np.sign(x)`. -/
def sign : XR K → XR K
  | .fin a => .fin (if 0 < a then 1 else if a < 0 then -1 else 0)
  | .pinf => .fin 1
  | .ninf => .fin (-1)
  | .nan => .nan

/-- `np.isinf(x)`. -/
def isInf : XR K → Bool
  | .pinf => true
  | .ninf => true
  | _ => false

/-- `np.power(x, 2)`, `x ** 2`. -/
def sq (x : XR K) : XR K := x * x

@[simp] theorem neg_fin (a : K) : -(XR.fin a) = XR.fin (-a) := rfl
@[simp] theorem neg_pinf : -(XR.pinf : XR K) = XR.ninf := rfl
@[simp] theorem neg_ninf : -(XR.ninf : XR K) = XR.pinf := rfl
@[simp] theorem neg_nan : -(XR.nan : XR K) = XR.nan := rfl
theorem sub_def (x y : XR K) : x - y = x + -y := rfl
@[simp] theorem fin_sub_fin (a b : K) : XR.fin a - XR.fin b = XR.fin (a - b) := by
  show XR.fin (a + -b) = _
  rw [sub_eq_add_neg]
@[simp] theorem fin_add_pinf (a : K) : XR.fin a + XR.pinf = XR.pinf := rfl
@[simp] theorem fin_add_ninf (a : K) : XR.fin a + XR.ninf = XR.ninf := rfl
@[simp] theorem pinf_add_fin (a : K) : XR.pinf + XR.fin a = XR.pinf := rfl
@[simp] theorem ninf_add_fin (a : K) : XR.ninf + XR.fin a = XR.ninf := rfl
@[simp] theorem fin_sub_pinf (a : K) : XR.fin a - XR.pinf = XR.ninf := rfl
@[simp] theorem fin_sub_ninf (a : K) : XR.fin a - XR.ninf = XR.pinf := rfl
@[simp] theorem pinf_sub_fin (a : K) : XR.pinf - XR.fin a = XR.pinf := rfl
@[simp] theorem ninf_sub_fin (a : K) : XR.ninf - XR.fin a = XR.ninf := rfl
@[simp] theorem fin_mul_fin (a b : K) : XR.fin a * XR.fin b = XR.fin (a * b) := rfl
theorem fin_div_fin (a b : K) :
    XR.fin a / XR.fin b = if b = 0 then scaleInf (.fin a) else XR.fin (a / b) := rfl
@[simp] theorem pinf_div_fin (b : K) : XR.pinf / XR.fin b = if b < 0 then XR.ninf else XR.pinf := rfl
@[simp] theorem ninf_div_fin (b : K) : XR.ninf / XR.fin b = if b < 0 then XR.pinf else XR.ninf := rfl

theorem fin_div_fin_of_ne (a : K) {b : K} (h : b ≠ 0) : XR.fin a / XR.fin b = XR.fin (a / b) := by
  rw [fin_div_fin, if_neg h]

@[simp] theorem sq_fin (a : K) : sq (XR.fin a) = XR.fin (a * a) := rfl

@[simp] theorem lt_fin (a b : K) : lt (XR.fin a) (XR.fin b) = decide (a < b) := rfl
@[simp] theorem le_fin (a b : K) : le (XR.fin a) (XR.fin b) = decide (a ≤ b) := rfl

/-- The order of non-NaN numbers is total and transitive. -/
theorem le_of_not_lt {x y : XR K} (hx : x ≠ .nan) (hy : y ≠ .nan) (h : lt x y = false) : le y x = true := by
  cases x <;> cases y <;> simp_all [lt, le]

theorem lt_of_lt_of_le {x y z : XR K} (h : lt x y = true) (h' : le y z = true) : lt x z = true := by
  cases x <;> cases y <;> cases z <;> simp_all [lt, le]
  exact _root_.lt_of_lt_of_le h h'

theorem lt_of_le_of_lt {x y z : XR K} (h : le x y = true) (h' : lt y z = true) : lt x z = true := by
  cases x <;> cases y <;> cases z <;> simp_all [lt, le]
  exact _root_.lt_of_le_of_lt h h'

theorem le_trans {x y z : XR K} (h : le x y = true) (h' : le y z = true) : le x z = true := by
  cases x <;> cases y <;> cases z <;> simp_all [le]
  exact _root_.le_trans h h'

theorem le_of_lt {x y : XR K} (h : lt x y = true) : le x y = true := by
  cases x <;> cases y <;> simp_all [lt, le]
  exact _root_.le_of_lt h

theorem lt_irrefl (x : XR K) : lt x x = false := by
  cases x <;> simp [lt]

theorem le_refl {x : XR K} (h : x ≠ .nan) : le x x = true := by
  cases x <;> simp_all [le]

theorem le_antisymm {x y : XR K} (h : le x y = true) (h' : le y x = true) : x = y := by
  cases x <;> cases y <;> simp_all [le]
  exact _root_.le_antisymm h h'

theorem lt_or_le {x y : XR K} (hx : x ≠ .nan) (hy : y ≠ .nan) : lt x y = true ∨ le y x = true := by
  cases h : lt x y
  · exact .inr (le_of_not_lt hx hy h)
  · exact .inl rfl

theorem not_lt_of_le {x y : XR K} (h : le y x = true) : lt x y = false := by
  cases hc : lt x y
  · rfl
  · have := lt_of_lt_of_le hc h
    rw [lt_irrefl] at this
    cases this

end XR

end Py
