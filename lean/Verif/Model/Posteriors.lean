import Verif.Model.Abc
import Verif.Model.Draw
import Verif.Model.Fitter

/-!
# Rejection ABC and the sampler of priors in their objects (fit/abcom/alg.py, fitting/fitter.py), posteriors of history matching

As in `Model.Fitter`, messages to the log are left out.
-/

namespace Model

open Py

namespace Fitters

section Abc

variable {W Θ M K : Type} [Field K] [LinearOrder K] [FloorSemiring K]

/-- `DefaultSettings` - /repo/src/sims_pars/fit/abcom/alg.py:43-51. -/
def abcDefaults : SDict K :=
  [("parallel", .flag true), ("n_test", .int 200), ("p_test", .num (1 / 20)), ("n_core", .int 4), ("verbose", .int 5)]

/-- `StateABC` - /repo/src/sims_pars/fit/abcom/alg.py:11-14. -/
structure AbcState (K : Type) where
  eps : XR K
  acc : K

/-- `initialise` - /repo/src/sims_pars/fit/abcom/alg.py:53-82.  The settings do not change during a fit, so it does not
matter when they are read.  The state is kept before the message that divides by the number of evaluations, which is
zero only for `n_test = 0`, and then the quantile of no distances has already raised. -/
def abcInitialise (envOf : M → SimEnv W Θ K) (fuel : Nat) : Method W K M (AbcState K) Θ (PNote K) := fun o w =>
  match (do return (← o.settings.int "n_test", ← o.settings.flag "parallel", ← o.settings.num "p_test") :
      Result (Int × Bool × K)) with
  | .error e => some (.error e, o, w)
  | .ok (n, par, p) =>
    match Abc.initialise (envOf o.model) fuel par n.toNat (.fin p) w with
    | none => none
    | some (.error e, w') => some (.error e, o, w')
    | some (.ok eps, w') => some (.ok (), { o with state := some ⟨eps, p⟩ }, w')

/-- `ApproxBayesCom` - /repo/src/sims_pars/fit/abcom/alg.py:39-88. -/
def abc (envOf : M → SimEnv W Θ K) (idle : M) (fuel : Nat) : Alg W K M (AbcState K) Θ (PNote K) where
  defaults := abcDefaults
  idle := idle
  initialise := abcInitialise envOf fuel
  update := fun o w => some (.ok (), o, w)
  terminate := fun o w => some (.ok (), o, w)

/-- `sample_posteriors(n_collect)` - /repo/src/sims_pars/fit/abcom/alg.py:90-119: the object is not changed. -/
def abcPosteriors (envOf : M → SimEnv W Θ K) (fuel n : Nat) (o : FitterObj K M (AbcState K) Θ (PNote K)) :
    Run W (ParamSet Θ (PNote K)) := do
  let par ← .ofResult (o.settings.flag "parallel")
  let post ← Abc.samplePosteriors (envOf o.model) fuel par (o.state.map (·.eps)) n
  let set := post.particles.foldl ParamSet.append ((ParamSet.new "HME").keep "Eps" (.num post.eps))
  return ((set.keep "Eps" (.num post.eps)).keep "Acceptance" (.num (.fin post.acceptance))).keep "ESS"
    (.num (.fin (post.ess : K)))

end Abc

section Hme

variable {W N K D M P A : Type} [DecidableEq N] [Field K] [LinearOrder K] [FloorSemiring K]

/-- The notes that history matching leaves on a `ParameterSet`. -/
inductive HNote (N K : Type)
  | num (x : XR K)
  | bounds (b : List (N × XR K × XR K))

/-- `sample_posteriors(n_collect)` - /repo/src/sims_pars/fit/hme/alg.py:176-201; of the particles the parameters are
kept. -/
def hmePosteriors (envOf : M → HmeEnv W N K D) (n : Nat) (o : FitterObj K M (HmeState N K) P A) :
    Run W (ParamSet (Dict N (XR K)) (HNote N K)) := do
  let set ← .ofResult (hmeSettings o.settings)
  let (pars, bounds) ← Hme.samplePosteriors (envOf o.model) set o.state n
  match o.state with
  | none => .fail .AssertionError
  | some st =>
    return (((((pars.foldl ParamSet.append (ParamSet.new "HME")).keep "MSE" (.num st.mse)).keep "Acceptance"
      (.num (.fin st.acc))).keep "CutOff" (.num st.cutoff)).keep "Bounds" (.bounds bounds))

end Hme

section Prior

variable {P N K S M : Type} [DecidableEq N] [Field K] [LinearOrder K]

open Draw

/-- `DefaultSettings` - /repo/src/sims_pars/fitting/fitter.py:62-69. -/
def priorDefaults : SDict K := [("n_collect", .int 1000), ("parallel", .flag true), ("n_core", .int 4), ("verbose", .int 5)]

/-- The loop of the serial branch of `collect` - /repo/src/sims_pars/fitting/fitter.py:124-129: the set and the
random state when it ends or raises; `nEval` is `n_eval`. -/
def priorSerial (ob : Objective P N K S) : Nat → ParamSet P Nat → Nat → S → Option (Result Unit × ParamSet P Nat × S)
  | 0, res, nEval, s => some (.ok (), res.keep "N_Eval" nEval, s)
  | k + 1, res, nEval, s =>
    match draw ob s with
    | none => none
    | some (.error e, s') => some (.error e, res, s')
    | some (.ok (p, _), s') => priorSerial ob k (res.append p) (nEval + 1) s'

/-- The loop of the parallel branch of `collect`, after the draws - /repo/src/sims_pars/fitting/fitter.py:116-119. -/
def priorServe (ob : Objective P N K S) (nEval : Nat) : List (Js N K) → ParamSet P Nat → S →
    Option (Result Unit × ParamSet P Nat × S)
  | [], res, s => some (.ok (), res.keep "N_Eval" nEval, s)
  | js :: jss, res, s =>
    match serveJson ob js s with
    | none => none
    | some (.error e, s') => some (.error e, res, s')
    | some (.ok p, s') => priorServe ob nEval jss (res.append p) s'

/-- `collect` - /repo/src/sims_pars/fitting/fitter.py:107-132: it ends with `res.finish()`, which a `ParameterSet` does
not have (/repo/src/sims_pars/fit/results.py:6-37). -/
def priorCollect (objOf : M → Objective P N K S) : Method S K M Unit P Nat := fun o s =>
  match o.settings.int "n_collect" with
  | .error e => some (.error e, o, s)
  | .ok n =>
    let o := { o with collector := .new "Prior" }
    match o.settings.flag "parallel" with
    | .error e => some (.error e, o, s)
    | .ok par =>
      let r := if par then
          match Run.times n.toNat (do let (p, i) ← draw (objOf o.model); return ((objOf o.model).toJson p, i)) s with
          | none => none
          | some (.error e, s') => some (.error e, o.collector, s')
          | some (.ok samples, s') =>
            priorServe (objOf o.model) (samples.map Prod.snd).sum (samples.map Prod.fst) o.collector s'
        else priorSerial (objOf o.model) n.toNat o.collector 0 s
      match r with
      | none => none
      | some (.error e, res, s') => some (.error e, { o with collector := res }, s')
      | some (.ok (), res, s') => some (.error .AttributeError, { o with collector := res }, s')

/-- `PriorSampling` - /repo/src/sims_pars/fitting/fitter.py:97-132.  Its `Fitter` (39-94) is the one of fit/base.py with
`collect` in the place of `terminate`; it has no state. -/
def prior (objOf : M → Objective P N K S) (idle : M) : Alg S K M Unit P Nat where
  defaults := priorDefaults
  idle := idle
  initialise := fun o s => some (.ok (), o, s)
  update := fun o s => some (.ok (), o, s)
  terminate := priorCollect objOf

/-- The objective `IdleModel` with its chromosome `p0` - /repo/src/sims_pars/fitting/fitter.py:14-33; particles are
values here, so what is stored on one draw of `p0` is not seen on the next. -/
def idleObjective (ob : Objective P N K S) (p0 : P) : Objective P N K S :=
  { ob with
    samplePrior := pure p0
    evaluatePrior := pure
    calcLikelihood := fun _ => pure (.fin 0)
    serve := fun _ => pure p0 }

/-- `AbsObjectiveSimBased` with its `simulate` and `link_likelihood` - /repo/src/sims_pars/fitting/base.py:110-123. -/
def simBased {R : Type} (ob : Objective P N K S) (simulate : P → Run S (Option R)) (link : R → Run S (XR K)) :
    Objective P N K S :=
  { ob with
    calcLikelihood := fun p => do
      match ← simulate p with
      | none => Run.fail .ValueError
      | some r => link r }

/-- `simulate(obj, p)` - /repo/src/sims_pars/fitting/util.py:98-101. -/
def simulateAny {R : Type} (ob : Objective P N K S) (simulate : P → Run S (Option R)) (x : Js N K ⊕ P) :
    Run S (Option R) := do
  let p ← (match x with | .inl js => serveJson ob js | .inr p => pure p)
  simulate p

end Prior

end Fitters

end Model
