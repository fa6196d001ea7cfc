import Verif.Model.Expr

/-!
# Specification vocabulary for expressions

Only the syntax of expressions is used: sub-expressions, used variables, called functions.
-/

namespace Spec

open Model

variable {N C O : Type}

/-- `Sub s e`: `s` is a sub-expression of `e` (possibly `e` itself), at any depth. -/
inductive Sub : Expr N C O → Expr N C O → Prop
  | refl (e) : Sub e e
  | operand {s e o as} : e ∈ as.toList → Sub s e → Sub s (.op o as)
  | argument {s e f as ks} : e ∈ as.toList → Sub s e → Sub s (.call f as ks)
  | keyword {s k e f as ks} : (k, e) ∈ ks.toList → Sub s e → Sub s (.call f as ks)

/-- The variable `x` is read somewhere in `e` (outside call position). -/
def Uses (e : Expr N C O) (x : N) : Prop := Sub (.name x) e

/-- The function `f` is called somewhere in `e`. -/
def Calls (e : Expr N C O) (f : N) : Prop := ∃ as ks, Sub (.call f as ks) e

end Spec
