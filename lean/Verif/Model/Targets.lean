import Verif.Py.XRField
import Verif.Py.Dict
import Verif.Py.Err
import Mathlib.Data.List.Sort

/-!
# Calibration targets (fit/targets)
-/

namespace Model

open Py

variable {N K D : Type} [DecidableEq N] [Field K] [LinearOrder K]

/-- What a distribution object offers to a target: `mean()`, `std()` and `logpdf` (or `logpmf` when there is no
`logpdf`, /repo/src/sims_pars/fit/targets/single.py:67-71). -/
structure DistOps (D K : Type) where
  mean : D → XR K
  std : D → XR K
  logp : D → XR K → XR K

/-- The factor 1.96. -/
def z95 : K := 49 / 25

/-- The objects of the target classes, with their attributes. -/
inductive Target (N K D : Type)
  /-- `DataPointError` - /repo/src/sims_pars/fit/targets/single.py:13-17. -/
  | pointError (name : N) (value error std : XR K)
  /-- `DataPointRange` - /repo/src/sims_pars/fit/targets/single.py:34-38. -/
  | pointRange (name : N) (value lower upper range : XR K)
  /-- `DataDistribution` - /repo/src/sims_pars/fit/targets/single.py:55-58. -/
  | dist (name : N) (value : XR K) (d : D)
  deriving DecidableEq

namespace Target

/-- `DataPointError(name, v, error)`: `Std = error * v / 2 / 1.96` -
/repo/src/sims_pars/fit/targets/single.py:14-17. -/
def mkError (name : N) (v error : XR K) : Target N K D :=
  .pointError name v error (error * v / .fin 2 / .fin z95)

/-- `DataPointRange(name, m, l, u)`: `Range = u - l` - /repo/src/sims_pars/fit/targets/single.py:35-38. -/
def mkRange (name : N) (m l u : XR K) : Target N K D := .pointRange name m l u (u - l)

/-- `DataDistribution(name, dist)` - /repo/src/sims_pars/fit/targets/single.py:56-58. -/
def mkDist (ops : DistOps D K) (name : N) (d : D) : Target N K D := .dist name (ops.mean d) d

/-- `self.Name`. -/
def name : Target N K D → N
  | .pointError n _ _ _ => n
  | .pointRange n _ _ _ _ => n
  | .dist n _ _ => n

/-- `self.Value`. -/
def value : Target N K D → XR K
  | .pointError _ v _ _ => v
  | .pointRange _ v _ _ _ => v
  | .dist _ v _ => v

/-- `get_var_obs` - /repo/src/sims_pars/fit/targets/single.py:19-20, 40-41, 60-61. -/
def varObs (ops : DistOps D K) : Target N K D → XR K
  | .pointError _ _ _ std => std.sq
  | .pointRange _ _ _ _ range => (range / .fin 2 / .fin z95).sq
  | .dist _ _ d => (ops.std d).sq

/-- `calc_likelihood` - /repo/src/sims_pars/fit/targets/single.py:25-26, 46-47, 66-71. -/
def likelihood (ops : DistOps D K) (sim : Dict N (XR K)) : Target N K D → Result (XR K)
  | .dist name _ d =>
    match sim.get? name with
    | none => .error .KeyError
    | some s => .ok (ops.logp d s)
  | _ => .error .AttributeError

/-- `calc_distance` - /repo/src/sims_pars/fit/targets/single.py:22-23, 43-44, 63-64. -/
def distance (ops : DistOps D K) (sim : Dict N (XR K)) : Target N K D → Result (XR K)
  | .pointError name value _ std =>
    match sim.get? name with
    | none => .error .KeyError
    | some s => .ok ((s - value).sq / std)
  | .pointRange name value _ _ range =>
    match sim.get? name with
    | none => .error .KeyError
    | some s => .ok ((s - value).sq / range * .fin (2 * z95))
  | .dist name value d => do
    let l ← likelihood ops sim (.dist name value d)
    return -l

end Target

/-- A value of the dictionary handed to `read_targets`: an `int`, `float` or `bool`; a dictionary of numbers; a
string; a target object; anything else. -/
inductive TargetSrc (N K D : Type)
  | num (x : XR K)
  | dict (d : Dict String (XR K))
  | str (s : String)
  | data (t : Target N K D)
  | other
  deriving DecidableEq

/-- One turn of the loop of `read_targets` - /repo/src/sims_pars/fit/targets/__init__.py:12-34.  `parse` is
`parse_distribution`. -/
def readTarget (ops : DistOps D K) (parse : String → Result D) (error : XR K) (k : N) :
    TargetSrc N K D → Result (Target N K D)
  | .num v => .ok (.mkError k v error)
  | .dict d =>
    match d.get? "m" with
    | none => .error .ValueError
    | some m =>
      match d.get? "l", d.get? "u" with
      | some l, some u =>
        if XR.lt l m && XR.lt m u then .ok (.mkRange k m l u) else .error .AssertionError
      | _, _ =>
        match d.get? "error" with
        | some e => .ok (.mkError k m e)
        | none => .ok (.mkError k m error)
  | .str s => do
    let d ← parse s
    return .mkDist ops k d
  | .data t => .ok t
  | .other => .error .ValueError

/-- `read_targets` - /repo/src/sims_pars/fit/targets/__init__.py:9-36. -/
def readTargets (ops : DistOps D K) (parse : String → Result D) (error : XR K)
    (src : Dict N (TargetSrc N K D)) : Result (Dict N (Target N K D)) :=
  src.foldlM (fun parsed kv => do
    let pt ← readTarget ops parse error kv.1 kv.2
    return parsed.set kv.1 pt) []

end Model
