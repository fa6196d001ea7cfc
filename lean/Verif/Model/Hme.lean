import Verif.Model.FitBase
import Verif.Model.Quantile
import Verif.Py.Rand

/-!
# Bayesian history matching (fit/hme/alg.py)

The world state `S` holds the random state and the kernels of the emulators, which are fitted in place.  Points of
the unit cube are lists of numbers; arithmetic on them is exact.  `model.Domain` makes a draw from the prior each time
it is read; its names do not depend on the draw (C92), and the draws are left out here.
-/

namespace Model

open Py

/-- What the algorithm asks of the model, of numpy, scipy and gpflow. -/
structure HmeEnv (S N K D : Type) where
  /-- the names in `Domain` with the `uniform2value` of their converters -/
  doms : List (N × (K → XR K))
  data : Dict N (Target N K D)
  ops : DistOps D K
  /-- `np.sqrt` -/
  sqrt : XR K → XR K
  /-- `LatinHypercube(n_pars).random(n_sims)` -/
  lhs : Nat → Nat → S → Result (List (List K)) × S
  /-- `rd.random((n, n_pars))` -/
  random : Nat → Nat → S → List (List K) × S
  /-- `model.simulate(pars)`: the simulated values -/
  simulate : Dict N (XR K) → S → Result (Dict N (XR K)) × S
  /-- `emu.train(xss, yss)` of the emulator of one output: the function its `predict` then computes (mean and
  variance) - /repo/src/sims_pars/fit/hme/emulator.py:33-45 -/
  train : N → List (List (XR K)) → List (XR K) → S → Result (List K → XR K × XR K) × S

/-- The settings - /repo/src/sims_pars/fit/hme/alg.py:53-61. -/
structure HmeSettings (K : Type) where
  nPars : Nat
  nSims : Nat
  nEms : Nat
  maxWave : Int
  varModel : XR K
  cutoff : XR K
  minAcc : K

/-- An emulated particle: its notes `Xs`, `Ys`, `Vs` and `Imp` - /repo/src/sims_pars/fit/hme/alg.py:147-151. -/
structure EmuPt (N K : Type) where
  xs : List K
  ys : Dict N (XR K)
  vs : Dict N (XR K)
  imp : XR K
  deriving DecidableEq

/-- A `StateHME` object (the emulators are in the world state, the converters and matchers in the environment) -
/repo/src/sims_pars/fit/hme/alg.py:13-23. -/
structure HmeState (N K : Type) where
  pts : List (EmuPt N K)
  lower : List K
  upper : List K
  wave : Nat
  mse : XR K
  cutoff : XR K
  acc : K
  deriving DecidableEq

namespace Hme

variable {S N K D : Type} [DecidableEq N] [Field K] [LinearOrder K] [FloorSemiring K]

/-- The sizes `n_sims` and `n_ems` that `initialise` settles on; `n_sims` is a local variable that is only bound when
the setting was not positive - /repo/src/sims_pars/fit/hme/alg.py:68-74. -/
def sizes (nPars : Nat) (nSims nEms : Int) : Result (Int × Int) :=
  let bound : Option Int := if nSims ≤ 0 then some (nPars * 10) else none
  let nSims := bound.getD nSims
  if nEms ≤ 0 then
    match bound with
    | some n => .ok (nSims, n * 100)
    | none => .error .UnboundLocalError
  else .ok (nSims, nEms)

/-- `initialise` - /repo/src/sims_pars/fit/hme/alg.py:63-83: the settings it leaves and the state. -/
def initialise (nPars : Nat) (nSims nEms : Int) (set : HmeSettings K) : Result (HmeSettings K × HmeState N K) := do
  let (a, b) ← sizes nPars nSims nEms
  return ({ set with nPars := nPars, nSims := a.toNat, nEms := b.toNat },
    { pts := [], lower := List.replicate nPars 0, upper := List.replicate nPars 1, wave := 0, mse := .pinf,
      cutoff := .pinf, acc := 1 })

/-- `lower + xs * (upper - lower)` for one row - /repo/src/sims_pars/fit/hme/alg.py:114, 136, 184. -/
def place (lower upper us : List K) : List K :=
  List.zipWith (fun lu u => lu.1 + u * (lu.2 - lu.1)) (lower.zip upper) us

/-- `{dom.Name: con.uniform2value(x) for dom, con, x in zip(model.Domain, cons, xs)}` -
/repo/src/sims_pars/fit/hme/alg.py:118, 143, 189. -/
def parsOf (doms : List (N × (K → XR K))) (xs : List K) : Dict N (XR K) :=
  (doms.zip xs).foldl (fun d p => d.set p.1.1 (p.1.2 p.2)) []

/-- The note `Xs` that `flatten` makes - /repo/src/sims_pars/fit/base.py:151. -/
def flatXs (doms : List (N × (K → XR K))) (pars : Dict N (XR K)) : Result (List (XR K)) :=
  doms.mapM (fun d => match pars.get? d.1 with
    | some v => .ok v
    | none => .error .KeyError)

/-- The note `Ys` that `flatten` makes - /repo/src/sims_pars/fit/base.py:152-154. -/
def flatYs (data : Dict N (Target N K D)) (sims : Dict N (XR K)) : Result (Dict N (XR K)) :=
  data.keys.mapM (fun k => match sims.get? k with
    | some y => .ok (k, y)
    | none => .error .KeyError)

/-- One simulated particle: its parameters and the notes `Xs` and `Ys` - /repo/src/sims_pars/fit/hme/alg.py:118-121,
188-192. -/
def simulateOne (env : HmeEnv S N K D) (xs : List K) : Run S (Dict N (XR K) × List (XR K) × Dict N (XR K)) := do
  let pars := parsOf env.doms xs
  let sims ← .lift (env.simulate pars)
  let xs' ← .ofResult (flatXs env.doms pars)
  let ys ← .ofResult (flatYs env.data sims)
  return (pars, xs', ys)

/-- `_simulate` - /repo/src/sims_pars/fit/hme/alg.py:108-122. -/
def simulateAll (env : HmeEnv S N K D) (set : HmeSettings K) (st : HmeState N K) :
    Run S (List (Dict N (XR K) × List (XR K) × Dict N (XR K))) := do
  let xss ← .lift (env.lhs set.nPars set.nSims)
  Run.each (simulateOne env) (xss.map (place st.lower st.upper))

/-- `emu.train(xss, yss)` for all emulators; the emulator picks its output from the notes `Ys` -
/repo/src/sims_pars/fit/hme/alg.py:129-134, /repo/src/sims_pars/fit/hme/emulator.py:33-35. -/
def trainAll (env : HmeEnv S N K D) (sims : List (Dict N (XR K) × List (XR K) × Dict N (XR K))) :
    Run S (List (N × (List K → XR K × XR K))) :=
  Run.each (fun k => do
    let ys ← .ofResult (sims.mapM (fun p => match p.2.2.get? k with
      | some y => .ok y
      | none => .error .KeyError))
    let f ← .lift (env.train k (sims.map (·.2.1)) ys)
    return (k, f)) env.data.keys

/-- `np.max` of a list: ValueError when it is empty, NaN when one entry is NaN. -/
def npMax : List (XR K) → Result (XR K)
  | [] => .error .ValueError
  | x :: xs => .ok (xs.foldl (fun a b => if a.isNan then a else if b.isNan then b else if XR.lt a b then b else a) x)

/-- `eval_implausibility` - /repo/src/sims_pars/fit/hme/alg.py:31-40. -/
def implausibility (env : HmeEnv S N K D) (vm : XR K) (ys vs : Dict N (XR K)) : Result (XR K) := do
  let ims ← env.data.mapM (fun kd => match ys.get? kd.1, vs.get? kd.1 with
    | some y, some v => (.ok (XR.abs (kd.2.value - y) / env.sqrt (vm + kd.2.varObs env.ops + v)) : Result (XR K))
    | _, _ => .error .KeyError)
  npMax ims

/-- One emulated particle - /repo/src/sims_pars/fit/hme/alg.py:142-151. -/
def emulateOne (env : HmeEnv S N K D) (vm : XR K) (ems : List (N × (List K → XR K × XR K))) (xs : List K) :
    Result (EmuPt N K) := do
  let ys := ems.map (fun kf => (kf.1, (kf.2 xs).1))
  let vs := ems.map (fun kf => (kf.1, (kf.2 xs).2))
  let imp ← implausibility env vm ys vs
  return ⟨xs, ys, vs, imp⟩

/-- `_emulate` - /repo/src/sims_pars/fit/hme/alg.py:124-153. -/
def emulateAll (env : HmeEnv S N K D) (set : HmeSettings K) (st : HmeState N K)
    (sims : List (Dict N (XR K) × List (XR K) × Dict N (XR K))) : Run S (List (EmuPt N K)) := do
  let ems ← trainAll env sims
  let uss ← .lift (fun s => ((.ok (env.random set.nEms set.nPars s).1 : Result _), (env.random set.nEms set.nPars s).2))
  .ofResult ((uss.map (place st.lower st.upper)).mapM (emulateOne env set.varModel ems))

/-- `_keep_plausible` - /repo/src/sims_pars/fit/hme/alg.py:155-163; `max(co, q)` of Python is `q` only when it is
greater.  The division by `len(pts_emu)` is never reached with an empty list. -/
def keepPlausible (set : HmeSettings K) (pts : List (EmuPt N K)) : Result (List (EmuPt N K) × XR K × K) := do
  let q ← quantile (pts.map (·.imp)) (.fin set.minAcc)
  let co := if XR.lt set.cutoff q then q else set.cutoff
  let pls := pts.filter (fun p => XR.lt p.imp co)
  return (pls, co, (pls.length : K) / (pts.length : K))

/-- `np.mean`. -/
def mean (xs : List (XR K)) : XR K := xs.sum / .fin (xs.length : K)

/-- `eval_mse` - /repo/src/sims_pars/fit/hme/alg.py:42-44; the mean of nothing is NaN. -/
def evalMse (env : HmeEnv S N K D) (pts : List (EmuPt N K)) : Result (XR K) := do
  let rs ← pts.mapM (fun p => do
    let ds ← env.data.mapM (fun kd => match p.ys.get? kd.1 with
      | some y => (.ok (y - kd.2.value).sq : Result (XR K))
      | none => .error .KeyError)
    return mean ds)
  return mean rs

/-- `xss.min(0)` or `xss.max(0)`: ValueError when there is no row. -/
def columns (f : K → K → K) : List (List K) → Result (List K)
  | [] => .error .ValueError
  | x :: xs => .ok (xs.foldl (List.zipWith f) x)

/-- `_a_wave` - /repo/src/sims_pars/fit/hme/alg.py:91-106. -/
def aWave (env : HmeEnv S N K D) (set : HmeSettings K) (st : HmeState N K) : Run S (HmeState N K) := do
  let sims ← simulateAll env set st
  let emu ← emulateAll env set st sims
  let r ← .ofResult (keepPlausible set emu)
  let mse ← .ofResult (evalMse env r.1)
  let lower ← .ofResult (columns min (r.1.map (·.xs)))
  let upper ← .ofResult (columns max (r.1.map (·.xs)))
  return ⟨r.1, lower, upper, st.wave + 1, mse, r.2.1, r.2.2⟩

/-- `update` - /repo/src/sims_pars/fit/hme/alg.py:85-89, 165-171; the number bounds the waves. -/
def update (env : HmeEnv S N K D) (set : HmeSettings K) : Nat → HmeState N K → Run S (HmeState N K)
  | 0, _ => .more
  | k + 1, st => do
    let st' ← aWave env set st
    if set.maxWave ≤ st'.wave then return st' else update env set k st'

/-- `sample_posteriors` - /repo/src/sims_pars/fit/hme/alg.py:176-201: the parameters of the particles collected and the
bounds reported. -/
def samplePosteriors (env : HmeEnv S N K D) (set : HmeSettings K) (state : Option (HmeState N K)) (n : Nat) :
    Run S (List (Dict N (XR K)) × List (N × XR K × XR K)) :=
  match state with
  | none => .fail .AssertionError
  | some st => do
    let uss ← .lift (fun s => ((.ok (env.random n set.nPars s).1 : Result _), (env.random n set.nPars s).2))
    let sims ← Run.each (simulateOne env) (uss.map (place st.lower st.upper))
    return (sims.map (·.1),
      List.zipWith (fun d lu => (d.1, d.2 lu.1, d.2 lu.2)) env.doms (st.lower.zip st.upper))

end Hme

end Model
