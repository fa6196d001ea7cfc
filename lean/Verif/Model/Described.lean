import Verif.Model.Dist
import Verif.Model.Empirical
import Verif.Model.Converter

/-!
# What distributions tell about themselves (prob.py), and the domains made of it (fit/base.py, fit/converter.py)
-/

namespace Model.Described

open Py Model.Dist

/-- The distribution objects.  For those of scipy, `mean` and `std` are what scipy gives -
/repo/src/sims_pars/prob.py:78-103, 106-132, 135-172, 175-220, 223-251. -/
inductive RV
  | double (d : SpDouble) (mean std : XR ℝ)
  | integer (d : SpInteger) (mean std : XR ℝ)
  | const (k : ℝ)
  | cat (kv : Dict String ℝ)
  | emp (e : Empirical ℝ)

/-- The property `Type`: one of three strings, or for constants the class of the value. -/
inductive TypeName
  | Double
  | Integer
  | Category
  | float
  deriving DecidableEq

namespace RV

/-- `Type` - /repo/src/sims_pars/prob.py:92-94, 121-123, 156-158, 199-201, 237-239. -/
def type : RV → TypeName
  | .double _ _ _ => .Double
  | .integer _ _ _ => .Integer
  | .const _ => .float
  | .cat _ => .Category
  | .emp _ => .Double

/-- `Lower` and `Upper` - /repo/src/sims_pars/prob.py:33-39, 88-90, 116-119, 148-154, 195-197, 233-235; `none` is
Python's `None`. -/
noncomputable def ends : RV → Option (XR ℝ) × Option (XR ℝ)
  | .double d _ _ => (some d.interval.1, some d.interval.2)
  | .integer d _ _ => (some d.interval.1, some d.interval.2)
  | .const k => (some (.fin k), some (.fin k))
  | .cat _ => (none, none)
  | .emp e => (some (.fin e.lo), some (.fin e.hi))

/-- `mean()` - /repo/src/sims_pars/prob.py:99-100, 128-129, 168-169, 216-217, 247-248. -/
noncomputable def mean : RV → XR ℝ
  | .double _ m _ => m
  | .integer _ m _ => m
  | .const k => .fin k
  | .cat _ => .fin 0
  | .emp e => .fin e.mean

/-- `std()` - /repo/src/sims_pars/prob.py:102-103, 131-132, 171-172, 219-220, 250-251. -/
noncomputable def std : RV → XR ℝ
  | .double _ _ s => s
  | .integer _ _ s => s
  | .const _ => .fin 0
  | .cat _ => .fin 0
  | .emp e => .fin e.std

end RV

/-- A `Domain` object - /repo/src/sims_pars/fit/base.py:14-19. -/
structure DomObj (N : Type) where
  name : N
  type : TypeName
  lower : Option (XR ℝ)
  upper : Option (XR ℝ)
  loc : XR ℝ
  scale : XR ℝ

variable {N : Type}

/-- `Domain(name=node, tp=d.Type, upper=d.Upper, lower=d.Lower, loc=d.mean(), scale=d.std())` -
/repo/src/sims_pars/fit/base.py:93. -/
noncomputable def domainOf (x : N) (d : RV) : DomObj N := ⟨x, d.type, d.ends.1, d.ends.2, d.mean, d.std⟩

/-- `get_converter` with its calls of `np.isinf`, which refuses `None` - /repo/src/sims_pars/fit/converter.py:99-110. -/
def getConverter (dom : DomObj N) : Result Converter :=
  match dom.lower with
  | none => .error .TypeError
  | some lower =>
    if lower.isInf then
      match dom.upper with
      | none => .error .TypeError
      | some upper => if upper.isInf then .ok (.II dom.scale dom.loc) else .ok (.IF upper dom.scale)
    else
      match dom.upper with
      | none => .error .TypeError
      | some upper => if upper.isInf then .ok (.FI lower dom.scale) else .ok (.FF lower upper)

/-- `[get_converter(dom) for dom in model.Domain]` - /repo/src/sims_pars/fit/hme/alg.py:79; the distributions of the random
roots are given. -/
noncomputable def converters (roots : List (N × RV)) : Result (List Converter) :=
  roots.mapM (fun r => getConverter (domainOf r.1 r.2))

open Classical in
/-- The log density of a number.  scipy gives minus infinity for numbers that are not integers. -/
noncomputable def logpdf : RV → ℝ → Result (XR ℝ)
  | .double d _ _, x => .ok (d.logpdf x)
  | .integer d _ _, x => .ok (if (⌊x⌋ : ℝ) = x then d.logpdf ⌊x⌋ else .ninf)
  | .const k, x => .ok (Const.logpdf k x)
  | .cat _, _ => .error .KeyError
  | .emp e, x => .ok (.fin (e.logpdf x))

end Model.Described
