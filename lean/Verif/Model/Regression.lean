import Verif.Model.Hazard
import Verif.Py.Rand
import Mathlib.Algebra.Order.Floor.Ring

/-!
# Regressions (data/reg/linear.py, glm.py, survival.py)

`L` is the type of texts (names and labels); `intOf` is `int(text)`.
-/

namespace Model

open Py

variable {L : Type} [DecidableEq L]

/-- A value of a regressor variable. -/
inductive Covariate (L : Type)
  | bool (b : Bool)
  | num (x : ℝ)
  | text (s : L)

/-- `Boolean`, `Continuous` and `Categorical` - /repo/src/sims_pars/data/reg/linear.py:17-20, 33-36, 49-55. -/
inductive Regressor (L : Type)
  | boolean (name : L) (coef : ℝ)
  | continuous (name : L) (coef : ℝ)
  | categorical (name : L) (coefs : List ℝ) (labels : List L) (ref : Nat)

/-- The dictionary that describes a regressor, its keys `Name`, `Type`, `Value`, `Values`, `Labels` and `Ref`; the type
is told apart only into the three cases of the code. -/
structure RegressorJs (L : Type) where
  type : Option (Option Bool)
  name : Option L
  value : Option ℝ
  values : Option (List ℝ)
  labels : Option (List L)
  ref : Option L

/-- `js[key]`. -/
def jsKey {A : Type} : Option A → Result A
  | some a => .ok a
  | none => .error .KeyError

namespace Regressor

/-- `{l: i for i, l in enumerate(labels)}`. -/
def references (labels : List L) : Dict L Nat :=
  labels.zipIdx.foldl (fun d p => d.set p.1 p.2) []

/-- `__append_regressor` and the constructors - /repo/src/sims_pars/data/reg/linear.py:18-20, 34-36, 50-55, 76-83: the
type `Boolean` is `some true`, `Categorical` is `some false`, any other `none`. -/
def ofJson (js : RegressorJs L) : Result (Regressor L) := do
  match ← jsKey js.type with
  | some true =>
    let name ← jsKey js.name
    return .boolean name (← jsKey js.value)
  | some false =>
    let name ← jsKey js.name
    let values ← jsKey js.values
    let labels ← jsKey js.labels
    let ref ← jsKey js.ref
    return .categorical name values labels (← jsKey ((references labels).get? ref))
  | none =>
    let name ← jsKey js.name
    return .continuous name (← jsKey js.value)

/-- `to_json` - /repo/src/sims_pars/data/reg/linear.py:25-30, 41-46, 60-67. -/
def toJson : Regressor L → Result (RegressorJs L)
  | .boolean name coef => .ok ⟨some (some true), some name, some coef, none, none, none⟩
  | .continuous name coef => .ok ⟨some none, some name, some coef, none, none, none⟩
  | .categorical name coefs labels ref =>
    match labels[ref]? with
    | none => .error .IndexError
    | some l => .ok ⟨some (some false), some name, none, some coefs, some labels, some l⟩

/-- The name of the variable. -/
def name : Regressor L → L
  | .boolean n _ => n
  | .continuous n _ => n
  | .categorical n _ _ _ => n

end Regressor

namespace Covariate

/-- `bool(value)`; `empty` is the empty text. -/
noncomputable def truthy (empty : L) : Covariate L → Bool
  | .bool b => b
  | .num x => decide (x ≠ 0)
  | .text s => decide (s ≠ empty)

/-- `int(value)`: numbers are cut towards zero. -/
noncomputable def toInt (intOf : L → Option Int) : Covariate L → Result Int
  | .bool b => .ok (if b then 1 else 0)
  | .num x => .ok (if 0 ≤ x then ⌊x⌋ else ⌈x⌉)
  | .text s =>
    match intOf s with
    | some i => .ok i
    | none => .error .ValueError

/-- The number a value is multiplied as; a text is refused (at the latest by `sum`). -/
def toNum : Covariate L → Result ℝ
  | .bool b => .ok (if b then 1 else 0)
  | .num x => .ok x
  | .text _ => .error .TypeError

end Covariate

/-- `xs[i]` of a Python list: negative positions count from the end. -/
def pyGet {A : Type} (xs : List A) (i : Int) : Result A :=
  match (if 0 ≤ i then xs[i.toNat]? else if -i ≤ xs.length then xs[(xs.length + i).toNat]? else none) with
  | some a => .ok a
  | none => .error .IndexError

/-- What reading texts takes: `int(text)` and the empty text. -/
structure Texts (L : Type) where
  intOf : L → Option Int
  empty : L

/-- `effect` - /repo/src/sims_pars/data/reg/linear.py:22-23, 38-39, 57-58. -/
noncomputable def Regressor.effect (tx : Texts L) : Regressor L → Covariate L → Result ℝ
  | .boolean _ c, v => .ok (if v.truthy tx.empty then c else 0)
  | .continuous _ c, v => do return c * (← v.toNum)
  | .categorical _ cs _ _, v => do pyGet cs (← v.toInt tx.intOf)

/-- `LinearCombination` - /repo/src/sims_pars/data/reg/linear.py:71-74. -/
def linearOfJson (js : List (RegressorJs L)) : Result (List (Regressor L)) := js.mapM Regressor.ofJson

/-- `LinearCombination.predict` - /repo/src/sims_pars/data/reg/linear.py:85-87. -/
noncomputable def linearPredict (tx : Texts L) (regs : List (Regressor L)) (kvs : Dict L (Covariate L)) : Result ℝ := do
  let es ← regs.mapM (fun v => do v.effect tx (← jsKey (kvs.get? v.name)))
  return es.sum

/-- `scipy.special.expit`. -/
noncomputable def expit (x : ℝ) : ℝ := 1 / (1 + Real.exp (-x))

/-- `LinearRegression`, `LogisticRegression`, `PoissonRegression` - /repo/src/sims_pars/data/reg/linear.py:115-118,
/repo/src/sims_pars/data/reg/glm.py:12-14, 34-37; the error and the offset are not used by `expectation`. -/
structure GLM (L : Type) where
  intercept : ℝ
  lc : List (Regressor L)

namespace GLM

/-- `mu = self.LC.predict(xs) + self.Intercept`, `LinearRegression.expectation` -
/repo/src/sims_pars/data/reg/linear.py:123-124, /repo/src/sims_pars/data/reg/glm.py:20, 43. -/
noncomputable def linear (tx : Texts L) (m : GLM L) (xs : Dict L (Covariate L)) : Result ℝ := do
  return (← linearPredict tx m.lc xs) + m.intercept

/-- `LogisticRegression.expectation` - /repo/src/sims_pars/data/reg/glm.py:19-21. -/
noncomputable def logistic (tx : Texts L) (m : GLM L) (xs : Dict L (Covariate L)) : Result ℝ := do
  return expit (← m.linear tx xs)

/-- `PoissonRegression.expectation` - /repo/src/sims_pars/data/reg/glm.py:42-44. -/
noncomputable def poisson (tx : Texts L) (m : GLM L) (xs : Dict L (Covariate L)) : Result ℝ := do
  return Real.exp (← m.linear tx xs)

/-- `PoissonRegression.predict` - /repo/src/sims_pars/data/reg/glm.py:46-47: the expectation is passed as the number of
draws, and numpy refuses a float there. -/
noncomputable def poissonPredict (tx : Texts L) (m : GLM L) (xs : Dict L (Covariate L)) : Result (List Nat) := do
  let _ ← m.poisson tx xs
  .error .TypeError

end GLM

/-- `MultinomialLogisticRegression` - /repo/src/sims_pars/data/reg/glm.py:57-63. -/
structure Multinomial (L : Type) where
  intercepts : List ℝ
  lcs : List (List (Regressor L))
  labels : List L

namespace Multinomial

/-- `expectation` - /repo/src/sims_pars/data/reg/glm.py:68-72. -/
noncomputable def expectation (tx : Texts L) (m : Multinomial L) (xs : Dict L (Covariate L)) : Result (List ℝ) := do
  let mus ← (m.lcs.zip m.intercepts).mapM (fun p => do return (← linearPredict tx p.1 xs) + p.2)
  let ps := mus.map expit
  return ps.map (· / ps.sum)

/-- `predict` - /repo/src/sims_pars/data/reg/glm.py:74-76: `choice` refuses labels and probabilities of different
number, and returns an array of one label. -/
noncomputable def predict {S : Type} (tx : Texts L) (m : Multinomial L) (r : Rand S ℝ) (xs : Dict L (Covariate L)) (s : S) :
    Result (List L) × S :=
  match m.expectation tx xs with
  | .error e => (.error e, s)
  | .ok ps =>
    if m.labels.length ≠ ps.length then (.error .ValueError, s)
    else match r.choice (ps.map .fin) 1 s with
      | (.error e, s') => (.error e, s')
      | (.ok is, s') => (.ok (is.filterMap (m.labels[·]?)), s')

/-- The dictionary `kv` of `get_sampler` - /repo/src/sims_pars/data/reg/glm.py:78-80. -/
noncomputable def samplerTable (tx : Texts L) (m : Multinomial L) (xs : Dict L (Covariate L)) : Result (Dict L ℝ) := do
  let ps ← m.expectation tx xs
  return (m.labels.zip ps).foldl (fun d p => d.set p.1 p.2) []

end Multinomial

/-- `CoxRegression` - /repo/src/sims_pars/data/reg/survival.py:22-24. -/
structure Cox (L : Type) where
  haz : Hazard
  lc : List (Regressor L)

/-- `CoxRegression._rr`, `get_sampler` - /repo/src/sims_pars/data/reg/survival.py:29-30, 39-40. -/
noncomputable def Cox.sampler (tx : Texts L) (m : Cox L) (xs : Dict L (Covariate L)) : Result HazardDist := do
  return ⟨m.haz, Real.exp (← linearPredict tx m.lc xs)⟩

/-- `CoxRegression.expectation` - /repo/src/sims_pars/data/reg/survival.py:32-33. -/
noncomputable def Cox.expectation (tx : Texts L) (m : Cox L) (xs : Dict L (Covariate L)) : Result ℝ := do
  return (← m.sampler tx xs).mean

/-- `ZeroInflatedCoxRegression` - /repo/src/sims_pars/data/reg/survival.py:47-52. -/
structure ZeroCox (L : Type) where
  zero : GLM L
  cox : Cox L

/-- `ZeroInflatedCoxRegression.get_sampler` - /repo/src/sims_pars/data/reg/survival.py:57-61, 69-71. -/
noncomputable def ZeroCox.sampler (tx : Texts L) (m : ZeroCox L) (xs : Dict L (Covariate L)) : Result ZeroHazardDist := do
  let p ← m.zero.logistic tx xs
  return ⟨p, ← m.cox.sampler tx xs⟩

end Model
