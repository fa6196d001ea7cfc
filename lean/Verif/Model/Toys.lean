import Verif.Model.FitBase
import Verif.Model.Dist
import Mathlib.Analysis.SpecialFunctions.Log.Basic
import Mathlib.Analysis.SpecialFunctions.Sqrt
import Mathlib.Analysis.Real.Pi.Bounds

/-!
# The example models (fit/toys.py, fitting/cases.py)

The integrator `scipy.integrate.solve_ivp` and the generator behind `rvs` are outside the model: functions take the
states the integrator answers with, and the numbers that were drawn.
-/

namespace Model

open Py

section Sir

variable {K D : Type} [Field K] [LinearOrder K]

/-- A state of the SIR model: the array `y` of three numbers. -/
@[ext] structure Sir (K : Type) where
  s : K
  i : K
  r : K
  deriving DecidableEq

/-- `y.sum()` - /repo/src/sims_pars/fit/toys.py:96, 109. -/
def Sir.total (y : Sir K) : K := y.s + y.i + y.r

/-- `sir(t, y, p)` - /repo/src/sims_pars/fit/toys.py:93-101.  Simplification: for an array of sum 0 the code gets NaN
or an infinity here; the integrator is never at such a state (`Props.Toys.C153_total`). -/
def sirDeriv (be ga : K) (y : Sir K) : Sir K :=
  ⟨-be * y.s * y.i / y.total, be * y.s * y.i / y.total - ga * y.i, ga * y.i⟩

/-- `y0=[990, 10, 0]` - /repo/src/sims_pars/fit/toys.py:103. -/
def sirStart : Sir K := ⟨990, 10, 0⟩

/-- `t_eval=np.linspace(2, 7, 6)` - /repo/src/sims_pars/fit/toys.py:103. -/
def sirTimes : List ℕ := [2, 3, 4, 5, 6, 7]

/-- The body of the loop of `EpiSIR.solve`; the times are whole numbers, so `{t:.0f}` writes their digits -
/repo/src/sims_pars/fit/toys.py:107-113. -/
def sirRecord (be ga : K) (dat : Dict String (XR K)) (t : ℕ) (y : Sir K) : Dict String (XR K) :=
  let n : XR K := .fin y.total
  let dat := dat.set ("Inc_" ++ toString t) (.fin (be * y.s * y.i) / n / n)
  let dat := dat.set ("Prev_" ++ toString t) (.fin y.i / n)
  dat.set ("Rec_" ++ toString t) (.fin (ga * y.i) / n)

/-- `EpiSIR.solve(p)`, given the states `ys` that `solve_ivp` answers with at the evaluation times -
/repo/src/sims_pars/fit/toys.py:91-115. -/
def sirSolve (be ga : K) (ys : List (Sir K)) : Dict String (XR K) :=
  (sirTimes.zip ys).foldl (fun dat ty => sirRecord be ga dat ty.1 ty.2) []

/-- The targets of `EpiSIR(be, ga)`: the solution for these parameters, read with `error=0.05` -
/repo/src/sims_pars/fit/toys.py:84-86. -/
def sirTargets (ops : DistOps D K) (parse : String → Result D) (be ga : K) (ys : List (Sir K)) :
    Result (Dict String (Target String K D)) :=
  readTargets ops parse (.fin (1 / 20)) ((sirSolve be ga ys).map (fun kv => (kv.1, .num kv.2)))

/-- `EpiSIR.simulate(pars)` - /repo/src/sims_pars/fit/toys.py:88-89. -/
def sirSimulate {V : Type} (pars : Pars String V K) (be ga : K) (ys : List (Sir K)) : Particle String V K :=
  .new pars (sirSolve be ga ys)

/-- The targets of `BetaBin(data)` - /repo/src/sims_pars/fit/toys.py:23-26 (`error` is 0.1 by default). -/
def betaBinTargets (ops : DistOps D K) (parse : String → Result D) (d1 d2 : K) :
    Result (Dict String (Target String K D)) :=
  readTargets ops parse (.fin (1 / 10)) [("x1", .num (.fin d1)), ("x2", .num (.fin d2))]

/-- `link_likelihood` of the `BetaBin` of fitting/cases.py - /repo/src/sims_pars/fitting/cases.py:32-33, with the
dictionary `simulate` makes (26-30). -/
def betaBinLink (d1 d2 : K) (pars : Dict String K) : Result K := do
  let x1 ← match pars.get? "x1" with
    | some x => (.ok x : Result K)
    | none => .error .KeyError
  let x2 ← match pars.get? "x2" with
    | some x => (.ok x : Result K)
    | none => .error .KeyError
  return -((x1 - d1) ^ 2 + (x2 - d2) ^ 2)

/-- `xs.mean()` of an array: NaN when it is empty. -/
def npMean (xs : List K) : XR K := .fin xs.sum / .fin xs.length

/-- The targets of `Normal2(data, n)`, given the two arrays drawn around `data` -
/repo/src/sims_pars/fit/toys.py:55-58. -/
def normal2Targets (ops : DistOps D K) (parse : String → Result D) (xs1 xs2 : List K) :
    Result (Dict String (Target String K D)) :=
  readTargets ops parse (.fin (1 / 10)) [("x1", .num (npMean xs1)), ("x2", .num (npMean xs2))]

/-- The simulated values of `Normal2.simulate`, given the two arrays drawn - /repo/src/sims_pars/fit/toys.py:63-68. -/
def normal2Sims (xs1 xs2 : List K) : Dict String (XR K) := [("x1", npMean xs1), ("x2", npMean xs2)]

end Sir

/-- `sts.norm.logpdf(x, mu, 1)`. -/
noncomputable def normLogpdf1 (x mu : ℝ) : ℝ := -(x - mu) ^ 2 / 2 - Real.log (Real.sqrt (2 * Real.pi))

/-- `link_likelihood` of `NormalTwo` - /repo/src/sims_pars/fitting/cases.py:56-57, with the dictionary `simulate` makes
(50-54). -/
noncomputable def normalTwoLink (xs1 xs2 : List ℝ) (pars : Dict String ℝ) : Result ℝ := do
  let m1 ← match pars.get? "mu1" with
    | some x => (.ok x : Result ℝ)
    | none => .error .KeyError
  let m2 ← match pars.get? "mu2" with
    | some x => (.ok x : Result ℝ)
    | none => .error .KeyError
  return (xs1.map (normLogpdf1 · m1)).sum + (xs2.map (normLogpdf1 · m2)).sum

end Model
