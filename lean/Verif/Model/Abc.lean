import Verif.Py.Rand
import Verif.Model.Quantile

/-!
# ABC rejection (fit/abcom/alg.py)

`Θ` is the type of particles.  A simulated particle keeps one distance (C78), so `calc_distance` is a function of the
particle; a particle and its JSON form are identified (C78_json).  Loops take fuel; results hold for every fuel.
-/

namespace Model

open Py

/-- What the algorithm asks of the data model. -/
structure SimEnv (S Θ K : Type) where
  /-- `model.simulate(model.sample_prior())`, together with `calc_distance` raising or not -/
  prior : S → Result Θ × S
  /-- `model.calc_distance` -/
  dist : Θ → XR K
  /-- `model.flatten` -/
  flatten : Θ → S → Result Unit × S

variable {S Θ K : Type} [Field K] [LinearOrder K] [FloorSemiring K]

/-- The loop `while np.isinf(di)` of `sample_fin` after `n` evaluations, entered with an infinite distance -
/repo/src/sims_pars/fit/abcom/alg.py:20-25 and /repo/src/sims_pars/fit/abc_smc/alg.py:25-34 (which also
returns the particle). -/
def sampleFin (env : SimEnv S Θ K) : Nat → Nat → Run S (XR K × Θ × Nat)
  | 0, _ => .more
  | fuel + 1, n => do
    let sim ← .lift env.prior
    let di := env.dist sim
    if di.isInf then sampleFin env fuel (n + 1) else return (di, sim, n + 1)

/-- The loop `while di > eps` of `sample_ess` after `n` evaluations, once entered -
/repo/src/sims_pars/fit/abcom/alg.py:31-36 and /repo/src/sims_pars/fit/abc_smc/alg.py:54-58. -/
def sampleEssLoop (env : SimEnv S Θ K) (eps : XR K) : Nat → Nat → Run S (XR K × Θ × Nat)
  | 0, _ => .more
  | fuel + 1, n => do
    let sim ← .lift env.prior
    let di := env.dist sim
    if XR.lt eps di then sampleEssLoop env eps fuel (n + 1) else return (di, sim, n + 1)

/-- `sample_ess` - /repo/src/sims_pars/fit/abcom/alg.py:28-36 and /repo/src/sims_pars/fit/abc_smc/alg.py:51-61 (which is
not called): `sim` is unbound when the loop is not entered. -/
def sampleEss (env : SimEnv S Θ K) (eps : XR K) (fuel : Nat) : Run S (XR K × Θ × Nat) :=
  if XR.lt eps .pinf then sampleEssLoop env eps fuel 0 else .fail .UnboundLocalError

namespace Abc

/-- The inner loop of the serial branch of `initialise`, which counts evaluations across particles -
/repo/src/sims_pars/fit/abcom/alg.py:70-75. -/
def serialOne (env : SimEnv S Θ K) : Nat → Nat → Run S (XR K × Nat)
  | 0, _ => .more
  | fuel + 1, n => do
    let sim ← .lift env.prior
    let di := env.dist sim
    if di.isInf then serialOne env fuel (n + 1) else return (di, n + 1)

/-- The outer loop of the serial branch - /repo/src/sims_pars/fit/abcom/alg.py:67-76. -/
def serialAll (env : SimEnv S Θ K) (fuel : Nat) : Nat → Nat → List (XR K) → Run S (List (XR K) × Nat)
  | 0, n, dis => pure (dis, n)
  | k + 1, n, dis => do
    let (di, n) ← serialOne env fuel n
    serialAll env fuel k n (dis ++ [di])

/-- The parallel branch - /repo/src/sims_pars/fit/abcom/alg.py:60-63.  The jobs are run one after the other on one
random stream (in the program each worker has its own). -/
def parallelAll (env : SimEnv S Θ K) (fuel : Nat) (nTest : Nat) : Run S (List (XR K) × Nat) := do
  let samples ← Run.times nTest (sampleFin env fuel 0)
  return (samples.map (·.1), (samples.map (·.2.2)).sum)

/-- The two branches - /repo/src/sims_pars/fit/abcom/alg.py:58-76. -/
def testRuns (env : SimEnv S Θ K) (fuel : Nat) (parallel : Bool) (nTest : Nat) : Run S (List (XR K) × Nat) :=
  if parallel then parallelAll env fuel nTest else serialAll env fuel nTest 0 []

/-- `initialise` - /repo/src/sims_pars/fit/abcom/alg.py:53-82: the tolerance that the state keeps.  The message
`n_sim / n_eval` divides by the number of evaluations. -/
def initialise (env : SimEnv S Θ K) (fuel : Nat) (parallel : Bool) (nTest : Nat) (pTest : XR K) : Run S (XR K) := do
  let (dis, nEval) ← testRuns env fuel parallel nTest
  let eps ← .ofResult (quantile dis pTest)
  if nEval = 0 then .fail .ZeroDivisionError else return eps

/-- The notes and particles of the returned `ParameterSet`. -/
structure Post (Θ K : Type) where
  particles : List Θ
  eps : XR K
  acceptance : K
  ess : Nat

/-- The loop of the serial branch of `sample_posteriors` - /repo/src/sims_pars/fit/abcom/alg.py:106-110. -/
def collectSerial (env : SimEnv S Θ K) (eps : XR K) (fuel : Nat) : Nat → List Θ → Nat → Run S (List Θ × Nat)
  | 0, post, n => pure (post, n)
  | k + 1, post, n => do
    let (_, sim, ne) ← sampleEss env eps fuel
    collectSerial env eps fuel k (post ++ [sim]) (n + ne)

/-- The parallel branch - /repo/src/sims_pars/fit/abcom/alg.py:100-104. -/
def collectParallel (env : SimEnv S Θ K) (eps : XR K) (fuel : Nat) (n : Nat) : Run S (List Θ × Nat) := do
  let samples ← Run.times n (sampleEss env eps fuel)
  return (samples.map (·.2.1), (samples.map (·.2.2)).sum)

/-- The two branches - /repo/src/sims_pars/fit/abcom/alg.py:99-110. -/
def collect (env : SimEnv S Θ K) (eps : XR K) (fuel : Nat) (parallel : Bool) (n : Nat) : Run S (List Θ × Nat) :=
  if parallel then collectParallel env eps fuel n else collectSerial env eps fuel n [] 0

/-- `sample_posteriors(n_collect)` - /repo/src/sims_pars/fit/abcom/alg.py:90-119; `eps` is the tolerance of the state,
`none` before `initialise`.  The serial branch appends the JSON dictionaries themselves, which have no attribute
`Pars`, so `flatten` raises on the first of them. -/
def samplePosteriors (env : SimEnv S Θ K) (fuel : Nat) (parallel : Bool) (state : Option (XR K)) (n : Nat) :
    Run S (Post Θ K) :=
  match state with
  | none => .fail .AssertionError
  | some eps => do
    let (post, nEval) ← collect env eps fuel parallel n
    if !parallel ∧ post ≠ [] then Run.fail .AttributeError
    else do
      let _ ← Run.each (fun pt => .lift (env.flatten pt)) post
      if nEval = 0 then .fail .ZeroDivisionError
      else return ⟨post, eps, (n : K) / (nEval : K), n⟩

end Abc

end Model
