import Verif.Model.Smc
import Verif.Model.Spread

/-!
# The fitting algorithms on a data model (fit/abcom/alg.py, fit/abc_smc/alg.py over fit/base.py)

`Model.Abc` and `Model.Smc` are written over an arbitrary type of particles.  Here they are put together with the data
models of `Model.FitBase`: the particles are `Particle` objects, with the notes that `calc_distance` leaves on them.
-/

namespace Model

open Py

/-- A data model together with what its author supplies (`simulate`, which returns `Particle(pars, sims)` for the
parameters it is given) and what numpy supplies. -/
structure Study (N V C O S K D : Type) where
  env : FitEnv N V C O S K D
  model : DataModel N V C O K D
  simulate : Chromosome N V K → S → Result (Dict N (XR K)) × S
  /-- `v is None` -/
  isNone : V → Bool
  ops : NumOps V K
  /-- `np.random.normal(0, v)` -/
  normal : K → S → K × S
  sqrt : K → K
  rng : Rand S K

namespace Study

variable {N V C O S K D : Type} [DecidableEq N] [Field K] [LinearOrder K] [FloorSemiring K]

/-- `sim = model.simulate(p); di = model.calc_distance(sim)`, the particle with its notes -
/repo/src/sims_pars/fit/abc_smc/alg.py:30-31, 44-45, 81-82 and /repo/src/sims_pars/fit/abcom/alg.py:24-25, 34-35. -/
def run (u : Study N V C O S K D) (p : Chromosome N V K) (s : S) : Result (Particle N V K) × S :=
  match u.simulate p s with
  | (.error e, s') => (.error e, s')
  | (.ok sims, s') =>
    match u.model.calcDistance u.env (.new (.chrom p) sims) s' with
    | (_, s'', .error e) => (.error e, s'')
    | (pt, s'', .ok _) => (.ok pt, s'')

/-- One turn of the loop of `sample_fin` - /repo/src/sims_pars/fit/abc_smc/alg.py:29-31. -/
def prior (u : Study N V C O S K D) (s : S) : Result (Particle N V K) × S :=
  match u.model.samplePrior u.env s with
  | (.error e, s') => (.error e, s')
  | (.ok p, s') => u.run p s'

/-- One turn of the loop of `sample_fin_cont` - /repo/src/sims_pars/fit/abc_smc/alg.py:42-45. -/
def priorFrom (u : Study N V C O S K D) (p0 : Dict N V) (s : S) : Result (Particle N V K) × S :=
  match u.model.samplePrior u.env s with
  | (.error e, s') => (.error e, s')
  | (.ok p, s') =>
    match p.impulse u.isNone u.env.sem u.model.bn p0 s' with
    | (_, s'', .error e) => (.error e, s'')
    | (p, s'', .ok ()) => u.run p s''

/-- The distance noted on a particle. -/
def distance (pt : Particle N V K) : XR K :=
  match pt.notes.get? "distance" with
  | some (.num d) => d
  | _ => .nan

/-- The values of the parameters of a particle. -/
def locus (pt : Particle N V K) : Dict N V :=
  match pt.pars with
  | .chrom c => c.locus
  | .plain d => d

/-- One turn of the loop of `sample_mutation` - /repo/src/sims_pars/fit/abc_smc/alg.py:74-82. -/
def propose (u : Study N V C O S K D) (tau : Dict N K) (pt : Particle N V K) (s : S) :
    Result (Option (Particle N V K)) × S :=
  match Spread.propose u.env u.model u.ops u.normal (locus pt) tau s with
  | (.error e, s') => (.error e, s')
  | (.ok p1, s') =>
    if p1.logProb.isInf then (.ok none, s')
    else
      match u.run p1 s' with
      | (.error e, s'') => (.error e, s'')
      | (.ok sim, s'') => (.ok (some sim), s'')

/-- The weights as numbers; they always are (C65). -/
def numbers : List (XR K) → Option (List K)
  | [] => some []
  | .fin w :: ws => (numbers ws).map (w :: ·)
  | _ :: _ => none

/-- `calc_weighted_std(pts, wts)` - /repo/src/sims_pars/fit/abc_smc/alg.py:267-278. -/
def spread (u : Study N V C O S K D) (pts : List (Particle N V K)) (wts : List (XR K)) (s : S) :
    Result (Dict N K) × S :=
  match numbers wts with
  | none => (.error .ValueError, s)
  | some ws => Spread.calcWeightedStd u.env u.model u.ops u.sqrt (pts.map locus) ws s

/-- What the algorithms see of the study. -/
def smcEnv (u : Study N V C O S K D) : SmcEnv S (Particle N V K) (Dict N K) (Dict N V) K where
  prior := u.prior
  dist := distance
  flatten := fun pt s =>
    match u.model.flatten u.env pt s with
    | (_, s', r) => (r, s')
  rng := u.rng
  priorFrom := u.priorFrom
  propose := u.propose
  spread := u.spread

/-- `fit(model)` of the SMC algorithm, then `sample_posteriors(n)` - /repo/src/sims_pars/fit/base.py:211-217,
/repo/src/sims_pars/fit/abc_smc/alg.py:122-332: the particles collected. -/
def smc (u : Study N V C O S K D) (set : SmcSettings K) (fuel rounds : Nat) (parents : Option (List (Dict N V))) (n : Nat) :
    Run S (List (Pt (Particle N V K))) := do
  let st ← Smc.initialise u.smcEnv set fuel parents
  fun s =>
    match Smc.update u.smcEnv set fuel rounds st s with
    | .done st' s' => Smc.samplePosteriors u.smcEnv set fuel (some st') n s'
    | .raised e => some (.error e, s)
    | .inRound => none
    | .toGo => none

/-- `fit(model)` of rejection ABC, then `sample_posteriors(n)` - /repo/src/sims_pars/fit/base.py:211-217,
/repo/src/sims_pars/fit/abcom/alg.py:53-119. -/
def abc (u : Study N V C O S K D) (fuel : Nat) (parallel : Bool) (nTest : Nat) (pTest : XR K) (n : Nat) :
    Run S (Abc.Post (Particle N V K) K) := do
  let eps ← Abc.initialise u.smcEnv.toSimEnv fuel parallel nTest pTest
  Abc.samplePosteriors u.smcEnv.toSimEnv fuel parallel (some eps) n

end Study

end Model
