import Verif.Model.Dist
import Verif.Model.Regression

/-!
# Samplers of regressions, and baselines of survival regressions (data/reg/linear.py, glm.py, survival.py)

`parse_distribution` of these samplers is the creator of `Model/Dist.lean` with the values put in place.
-/

namespace Model

open Py Model.Dist

variable {L : Type} [DecidableEq L]

/-- `LinearRegression` - /repo/src/sims_pars/data/reg/linear.py:114-118. -/
structure LinearReg (L : Type) where
  glm : GLM L
  error : ℝ

namespace LinearReg

/-- `get_sampler` - /repo/src/sims_pars/data/reg/linear.py:130-131. -/
noncomputable def sampler (tx : Texts L) (m : LinearReg L) (xs : Dict L (Covariate L)) : Result SpDouble := do
  create "norm" [("mean", ← m.glm.linear tx xs), ("sd", m.error)]

/-- `predict` - /repo/src/sims_pars/data/reg/linear.py:126-128, with `SpDouble.sample` -
/repo/src/sims_pars/prob.py:83-86.  `rvs d n` are the `n` numbers that scipy draws from a distribution. -/
noncomputable def predict (tx : Texts L) (rvs : SpDouble → Nat → List ℝ) (m : LinearReg L) (xs : Dict L (Covariate L))
    (n : Int) : Result (Drawn ℝ) := do
  let n := max n 1
  let d ← m.sampler tx xs
  if n = 1 then
    match rvs d 1 with
    | [] => .error .IndexError
    | x :: _ => return .one x
  else return .many (rvs d n.toNat)

end LinearReg

namespace GLM

/-- `LogisticRegression.get_sampler` - /repo/src/sims_pars/data/reg/glm.py:26-27; `predict`
(/repo/src/sims_pars/data/reg/glm.py:23-24) draws one number with the same law. -/
noncomputable def logisticSampler (tx : Texts L) (m : GLM L) (xs : Dict L (Covariate L)) : Result SpInteger := do
  createBinom (some 1) (some (← m.logistic tx xs))

/-- `PoissonRegression.get_sampler` - /repo/src/sims_pars/data/reg/glm.py:49-50. -/
noncomputable def poissonSampler (tx : Texts L) (m : GLM L) (xs : Dict L (Covariate L)) : Result SpInteger := do
  createPois (some (← m.poisson tx xs))

end GLM

/-- The dictionary that describes a baseline hazard: its numbers and its lists by their keys. -/
structure BaselineJs where
  type : Option String
  nums : Dict String ℝ
  lists : Dict String (List ℝ)

/-- `EmpiricalHazard.__init__` - /repo/src/sims_pars/data/reg/hazard.py:67-71.  `max` of nothing raises ValueError, and so
does `interp1d`, which takes a list of two fill values for one value that must have the shape of a single number. -/
def empiricalHazard (_times _cumHaz : List ℝ) : Result Hazard := .error .ValueError

/-- `find_baseline` - /repo/src/sims_pars/data/reg/survival.py:10-18. -/
def findBaseline (js : BaselineJs) : Result Hazard := do
  let tp := (← jsKey js.type).toLower
  if tp = "exp" then return .exp (← jsKey (js.nums.get? "Rate"))
  else if tp = "weibull" then do
    let lam ← jsKey (js.nums.get? "Lambda")
    return .weibull lam (← jsKey (js.nums.get? "K"))
  else if tp = "empirical" then do
    let times ← jsKey (js.lists.get? "Time")
    empiricalHazard times (← jsKey (js.lists.get? "CumHaz"))
  else .error .KeyError

/-- `CoxRegression.__init__` - /repo/src/sims_pars/data/reg/survival.py:22-24. -/
def Cox.ofJson (baseline : Option BaselineJs) (regressors : Option (List (RegressorJs L))) : Result (Cox L) := do
  let haz ← findBaseline (← jsKey baseline)
  return ⟨haz, ← linearOfJson (← jsKey regressors)⟩

/-- `CoxRegression.predict` - /repo/src/sims_pars/data/reg/survival.py:35-37; `e` is the exponential number drawn. -/
noncomputable def Cox.predict (tx : Texts L) (m : Cox L) (xs : Dict L (Covariate L)) (e : ℝ) : Result (Drawn ℝ) := do
  (← m.sampler tx xs).sample 1 [e]

/-- `ZeroInflatedCoxRegression.expectation` - /repo/src/sims_pars/data/reg/survival.py:63-64. -/
noncomputable def ZeroCox.expectation (tx : Texts L) (m : ZeroCox L) (xs : Dict L (Covariate L)) : Result ℝ := do
  return (← m.sampler tx xs).mean

/-- `ZeroInflatedCoxRegression.predict` - /repo/src/sims_pars/data/reg/survival.py:66-67. -/
noncomputable def ZeroCox.predict (tx : Texts L) (m : ZeroCox L) (xs : Dict L (Covariate L)) (u e : ℝ) :
    Result (Drawn ℝ) := do
  (← m.sampler tx xs).sample 1 [u] [e]

end Model
