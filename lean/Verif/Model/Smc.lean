import Verif.Model.Abc

/-!
# ABC with sequential Monte Carlo (fit/abc_smc/alg.py)

Particles of type `Θ` as in `Model.Abc`; here it also matters whether a particle object has the note `distance`,
which `copy` drops.  The jobs of the parallel mode are run one after the other on one random stream (in the program
each worker has its own).
-/

namespace Model

open Py

/-- A particle object: what it stands for, and whether it has the note `distance`. -/
structure Pt (Θ : Type) where
  val : Θ
  cached : Bool
  deriving DecidableEq

/-- `Particle.copy` - /repo/src/sims_pars/fit/base.py:46-54. -/
def Pt.copy {Θ : Type} (p : Pt Θ) : Pt Θ := ⟨p.val, false⟩

/-- What the algorithm asks of the data model and of numpy.  `P` are the parameters handed to `set_parents`, `T` the
step sizes. -/
structure SmcEnv (S Θ T P K : Type) extends SimEnv S Θ K where
  rng : Rand S K
  /-- `p = model.sample_prior(); p.impulse(p0, bn); model.simulate(p)` - alg.py:42-44 -/
  priorFrom : P → S → Result Θ × S
  /-- `p1 = model.serve(mutate(p0, steps))` and, unless its `LogProb` is infinite (`none`), `model.simulate(p1)` -
  alg.py:74-81 -/
  propose : T → Θ → S → Result (Option Θ) × S
  /-- `calc_weighted_std` - alg.py:267-278 (modelled in `Model.Spread`); `Domain` draws from the prior -/
  spread : List Θ → List (XR K) → S → Result T × S

/-- The settings - /repo/src/sims_pars/fit/abc_smc/alg.py:105-117. -/
structure SmcSettings (K : Type) where
  nIter : Nat
  parallel : Bool
  alpha : K
  pThres : K
  maxRound : Int
  maxStay : Int
  minAcc : K

/-- A `StateABCSMC` object - /repo/src/sims_pars/fit/abc_smc/alg.py:12-21 - and the number of evaluations `Eval` that the
monitor is told with it (alg.py:151, 198). -/
structure SmcState (Θ K : Type) where
  wts : List (XR K)
  pts : List (Pt Θ)
  round : Nat
  stay : Nat
  ess : XR K
  acc : K
  eps : XR K
  epsThres : XR K
  evals : Nat
  deriving DecidableEq

namespace Smc

variable {S Θ T P K : Type} [Field K] [LinearOrder K] [FloorSemiring K]

/-- The parameters that the first particles start from - /repo/src/sims_pars/fit/abc_smc/alg.py:128.  The choice is
uniform. -/
def pickParents (env : SmcEnv S Θ T P K) (ps : List P) (n : Nat) : Run S (List P) :=
  if n = 0 then pure []
  else do
    let is ← .lift (env.rng.choice (List.replicate ps.length (.fin (1 / (ps.length : K)))) n)
    .ofResult (is.mapM (fun i => match ps[i]? with
      | some p => .ok p
      | none => .error .IndexError))

/-- The first particles - /repo/src/sims_pars/fit/abc_smc/alg.py:127-142; `sample_fin_cont` is `sample_fin` with other
draws (alg.py:37-49). -/
def firstSamples (env : SmcEnv S Θ T P K) (fuel n : Nat) : Option (List P) → Run S (List (XR K × Θ × Nat))
  | none => Run.times n (sampleFin env.toSimEnv fuel 0)
  | some ps => do
    let p0s ← pickParents env ps n
    Run.each (fun p0 => sampleFin { env.toSimEnv with prior := env.priorFrom p0 } fuel 0) p0s

/-- `1 / sum(wts * wts)`. -/
def essOf (wts : List (XR K)) : XR K := .fin 1 / (wts.map XR.sq).sum

/-- `np.ones(n) / n`. -/
def uniformWts (n : Nat) : List (XR K) := List.replicate n (.fin (1 / (n : K)))

/-- `initialise` - /repo/src/sims_pars/fit/abc_smc/alg.py:122-158.  Without particles `1 / sum([])` divides by the
integer zero. -/
def initialise (env : SmcEnv S Θ T P K) (set : SmcSettings K) (fuel : Nat) (parents : Option (List P)) :
    Run S (SmcState Θ K) := do
  let samples ← firstSamples env fuel set.nIter parents
  if set.nIter = 0 then Run.fail .ZeroDivisionError
  else return {
    wts := uniformWts set.nIter
    pts := samples.map (fun x => ⟨x.2.1, true⟩)
    round := 0
    stay := 0
    ess := essOf (uniformWts set.nIter : List (XR K))
    acc := 1
    eps := .pinf
    epsThres := .fin ((set.nIter : K) * set.pThres)
    evals := (samples.map (·.2.2)).sum }

/-- `find_eps` - /repo/src/sims_pars/fit/abc_smc/alg.py:160-166. -/
def findEps (env : SmcEnv S Θ T P K) (set : SmcSettings K) (eps0 : XR K) (theta0 : List (Pt Θ)) : Result (XR K) :=
  let ds := theta0.map (fun p => env.dist p.val)
  let e0 := (ds.countP (fun d => XR.le d eps0) : K) / (ds.length : K)
  quantile ds (.fin (set.alpha * e0))

/-- The new tolerance and the new `Stay` - /repo/src/sims_pars/fit/abc_smc/alg.py:179-184. -/
def nextEps (eps0 : XR K) (stay : Nat) (q : XR K) : XR K × Nat :=
  if XR.le eps0 q then (eps0, stay + 1) else (q, 0)

/-- The loop of `update_wts` - /repo/src/sims_pars/fit/abc_smc/alg.py:206-209. -/
def cutWts (eps0 eps1 : XR K) (ds wts : List (XR K)) : List (XR K) :=
  List.zipWith (fun d w => if XR.lt d eps0 then (if XR.lt d eps1 then w else .fin 0) else w) ds wts

/-- `wts /= wts.sum()`. -/
def normalise (wts : List (XR K)) : List (XR K) := wts.map (· / wts.sum)

/-- `update_wts` - /repo/src/sims_pars/fit/abc_smc/alg.py:202-211. -/
def updateWts (env : SmcEnv S Θ T P K) (eps0 : XR K) (theta0 : List (Pt Θ)) (wts : List (XR K)) (eps1 : XR K) :
    List (XR K) :=
  normalise (cutWts eps0 eps1 (theta0.map (fun p => env.dist p.val)) wts)

/-- `ind = np.where(wts > 0, wts, 0); ind /= ind.sum()` - /repo/src/sims_pars/fit/abc_smc/alg.py:219-220, 302-303. -/
def indWts (wts : List (XR K)) : List (XR K) :=
  normalise (wts.map (fun w => if XR.lt (.fin 0) w then w else .fin 0))

/-- `[theta0[i] for i in theta1]`. -/
def takePts (theta0 : List (Pt Θ)) (is : List Nat) : Result (List (Pt Θ)) :=
  is.mapM (fun i => match theta0[i]? with
    | some p => .ok p
    | none => .error .IndexError)

/-- `resample` - /repo/src/sims_pars/fit/abc_smc/alg.py:213-228. -/
def resample (env : SmcEnv S Θ T P K) (set : SmcSettings K) (theta0 : List (Pt Θ)) (wts : List (XR K))
    (epsThres : XR K) : Run S (List (XR K) × List (Pt Θ)) :=
  if wts.countP (fun w => XR.lt (.fin 0) w) ≤ 2 then .fail .AssertionError
  else if XR.lt (.fin 1) (epsThres * (wts.map XR.sq).sum) then do
    let is ← .lift (env.rng.choice (indWts wts) set.nIter)
    let theta1 ← .ofResult (takePts theta0 is)
    return (uniformWts set.nIter, theta1.map Pt.copy)
  else return (wts, theta0.map Pt.copy)

/-- The loop of `sample_mutation` after `n` evaluations - /repo/src/sims_pars/fit/abc_smc/alg.py:69-90.  Once more than
20 proposals were evaluated it falls back to `pt0['distance']`, which raises KeyError for the JSON form (parallel mode)
and for a particle without that note. -/
def sampleMutation (env : SmcEnv S Θ T P K) (parallel : Bool) (tau : T) (pt0 : Pt Θ) :
    Nat → Nat → Run S (XR K × Pt Θ × Nat)
  | 0, _ => .more
  | fuel + 1, n => do
    match ← .lift (env.propose tau pt0.val) with
    | none => sampleMutation env parallel tau pt0 fuel n
    | some sim =>
      let di := env.dist sim
      if 20 < n + 1 then
        if parallel || !pt0.cached then .fail .KeyError
        else return (env.dist pt0.val, pt0, n + 1)
      else if di.isInf then sampleMutation env parallel tau pt0 fuel (n + 1)
      else return (di, ⟨sim, true⟩, n + 1)

/-- The second loop of `mcmc_proposal`: `rd.random() < acc[i]`, where `acc[i]` is 1 when the distance of the proposal
is below the tolerance and 0 otherwise - /repo/src/sims_pars/fit/abc_smc/alg.py:243-260. -/
def acceptLoop (env : SmcEnv S Θ T P K) (eps1 : XR K) :
    List (Pt Θ × Pt Θ) → S → (List (Pt Θ) × Nat) × S
  | [], s => (([], 0), s)
  | (old, new) :: l, s =>
    let (u, s) := env.rng.random s
    let a : K := if XR.lt (env.dist new.val) eps1 then 1 else 0
    let ((pts, k), s) := acceptLoop env eps1 l s
    if u < a then ((new :: pts, k + 1), s) else ((old :: pts, k), s)

/-- `mcmc_proposal` - /repo/src/sims_pars/fit/abc_smc/alg.py:230-265: the particles, `ess`, the share of accepted
proposals and the number of evaluations.  The two loops index arrays of length `n_iter`; that `theta1` has this length is checked here at the start
(it always has, C64). -/
def mcmcProposal (env : SmcEnv S Θ T P K) (set : SmcSettings K) (fuel : Nat) (theta1 : List (Pt Θ))
    (wts : List (XR K)) (eps1 : XR K) : Run S (List (Pt Θ) × XR K × K × Nat) :=
  if theta1.length ≠ set.nIter then .fail .IndexError
  else do
    let tau ← .lift (env.spread (theta1.map Pt.val) wts)
    let sampleP ← Run.each (fun pt => sampleMutation env set.parallel tau pt fuel 0) theta1
    let (pts, accepted) ← .lift (fun s =>
      let (r, s) := acceptLoop env eps1 (theta1.zip (sampleP.map (·.2.1))) s
      (.ok r, s))
    return (pts, essOf wts, (accepted : K) / (set.nIter : K), (sampleP.map (·.2.2)).sum)

/-- `_a_round` - /repo/src/sims_pars/fit/abc_smc/alg.py:174-200.  When a step raises, the state of the object stays
what it was (apart from cached distances). -/
def aRound (env : SmcEnv S Θ T P K) (set : SmcSettings K) (fuel : Nat) (st : SmcState Θ K) : Run S (SmcState Θ K) := do
  let q ← .ofResult (findEps env set st.eps st.pts)
  let eps1 := (nextEps st.eps st.stay q).1
  let stay := (nextEps st.eps st.stay q).2
  let wts := updateWts env st.eps st.pts st.wts eps1
  let r ← resample env set st.pts wts st.epsThres
  let m ← mcmcProposal env set fuel r.2 r.1 eps1
  return {
    wts := r.1
    pts := m.1
    round := st.round + 1
    stay := stay
    ess := m.2.1
    acc := m.2.2.1
    eps := eps1
    epsThres := st.epsThres
    evals := m.2.2.2 }

/-- `_check_termination` - /repo/src/sims_pars/fit/abc_smc/alg.py:280-291. -/
def checkTermination (set : SmcSettings K) (st : SmcState Θ K) : Bool :=
  if set.maxRound ≤ st.round then true
  else if 3 ≤ st.round ∧ set.maxStay ≤ st.stay then true
  else if st.acc < set.minAcc then true
  else false

/-- How `update` can end: with a state, with an exception, inside a round that has not ended, or with rounds to go. -/
inductive Ended (Θ K S : Type)
  | done (st : SmcState Θ K) (s : S)
  | raised (e : Err)
  | inRound
  | toGo

/-- `update` - /repo/src/sims_pars/fit/abc_smc/alg.py:168-172; the first number bounds the rounds, the second the fuel
of each. -/
def update (env : SmcEnv S Θ T P K) (set : SmcSettings K) (fuel : Nat) : Nat → SmcState Θ K → S → Ended Θ K S
  | 0, _, _ => .toGo
  | k + 1, st, s =>
    match aRound env set fuel st s with
    | none => .inRound
    | some (.error e, _) => .raised e
    | some (.ok st', s') => if checkTermination set st' then .done st' s' else update env set fuel k st' s'

/-- `sample_posteriors` - /repo/src/sims_pars/fit/abc_smc/alg.py:296-332: the particles collected.  Both branches of
the last loop append the parent. -/
def samplePosteriors (env : SmcEnv S Θ T P K) (set : SmcSettings K) (fuel : Nat) (state : Option (SmcState Θ K))
    (n : Nat) : Run S (List (Pt Θ)) :=
  match state with
  | none => .fail .AssertionError
  | some st => do
    let is ← .lift (env.rng.choice (indWts st.wts) n)
    let theta1 ← .ofResult (takePts st.pts is)
    let tau ← .lift (env.spread (st.pts.map Pt.val) st.wts)
    let sampleP ← Run.each (fun pt => sampleMutation env set.parallel tau pt fuel 0) theta1
    return (theta1.zip (sampleP.map (·.2.1))).map (fun p => if XR.lt (env.dist p.2.val) st.eps then p.1 else p.1)

end Smc

end Model
