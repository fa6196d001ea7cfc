import Verif.Model.Fitter

/-!
# The genetic algorithm in its object (fit/ga/alg.py)

The serial mode; the settings are read at the start of a fit.
-/

namespace Model

open Py

/-- The names that an instance of `ParameterSet` answers to - /repo/src/sims_pars/fit/results.py:6-37. -/
def paramSetNames : List String :=
  ["Algorithm", "Settings", "Notes", "Particles", "__init__", "__getitem__", "__len__", "keep", "append", "to_df",
    "to_json", "to_pred_df"]

/-- A `GeneticAlg` object in use: its settings and operators, its collector, its states with the scales of its mutator,
and its monitor - /repo/src/sims_pars/fit/ga/alg.py:28-34. -/
structure GaObj (N K P : Type) where
  fitter : GaFitter K
  collector : ParamSet P (Monitor.Frame String (XR K))
  states : Option (Ga.State N K P)
  scales : Dict N (XR K)
  monitor : Monitor String (XR K)

namespace GaObj

variable {S N K P : Type} [DecidableEq N] [Field K] [LinearOrder K]

/-- The settings that a fit reads - /repo/src/sims_pars/fit/ga/alg.py:80, 94, 107, 130, 152. -/
def settings (o : GaFitter K) : Result (Ga.Settings K) := do
  let n ← o.settings.int "n_collect"
  let mr ← o.settings.int "max_round"
  let ms ← o.settings.int "max_stay"
  let pm ← o.settings.num "p_mut"
  let pc ← o.settings.num "p_cro"
  let t ← o.settings.text "target"
  return ⟨n.toNat, mr, ms, .fin pm, .fin pc, o.crossover, o.selector, decide (t = "MAP")⟩

/-- What the monitor is told of a generation - /repo/src/sims_pars/fit/ga/alg.py:139, 146; `mean` is
`logsumexp(wts) - np.log(len(wts))`. -/
def told (env : GaEnv S N K P) (mean : List (XR K) → XR K) (set : Ga.Settings K) (st : Ga.State N K P) :
    Dict String (XR K) :=
  [("Round", .fin st.generation), ("Stay", .fin st.stay), ("MaxFitness", st.maxFit),
    ("MeanFitness", mean (st.ps.map (Ga.fitness env set.isMap)))]

/-- `self.Monitor.keep(...); self.Monitor.step()` - /repo/src/sims_pars/fit/ga/alg.py:146-147. -/
def report (env : GaEnv S N K P) (mean : List (XR K) → XR K) (set : Ga.Settings K) (st : Ga.State N K P)
    (m : Monitor String (XR K)) : Monitor String (XR K) :=
  ((m.keep (told env mean set st)).step "Time" (fun t => .fin (t : K)) none).1

/-- `collect` - /repo/src/sims_pars/fit/ga/alg.py:72-75; `names` are the names that the collector answers to. -/
def collect (names : List String) (o : GaObj N K P) (s : S) : Option (Result Unit × GaObj N K P × S) :=
  match o.monitor.trajectories "Time" with
  | .error e => some (.error e, o, s)
  | .ok f =>
    let o := { o with collector := o.collector.keep "Trace" f }
    if "finish" ∈ names then some (.ok (), o, s) else some (.error .AttributeError, o, s)

/-- `update` and `collect` - /repo/src/sims_pars/fit/ga/alg.py:61-75, 120-125; the number bounds the generations.  The
selection puts the population into a new `ParameterSet()`. -/
def loop (names : List String) (env : GaEnv S N K P) (mean : List (XR K) → XR K) (set : Ga.Settings K) :
    Nat → Ga.State N K P → GaObj N K P → S → Option (Result Unit × GaObj N K P × S)
  | 0, _, _, _ => none
  | k + 1, st, o, s =>
    match Ga.generation env set st s with
    | none => none
    | some (.error e, s') => some (.error e, o, s')
    | some (.ok st', s') =>
      let o := { o with
        collector := st'.ps.foldl ParamSet.append .new
        states := some st'
        scales := st'.scales
        monitor := report env mean set st' o.monitor }
      if Ga.terminated set st' then collect names o s' else loop names env mean set k st' o s'

/-- `fit(model, **kwargs)` - /repo/src/sims_pars/fitting/fitter.py:76-82, /repo/src/sims_pars/fit/ga/alg.py:53-59, 77-89:
`__genesis` first reads `self.Collector.ParameterList`.  Left out: what an exception leaves of a generation that has begun. -/
def fit (names : List String) (env : GaEnv S N K P) (mean : List (XR K) → XR K) (fuel : Nat) (kw : SDict K)
    (o : GaObj N K P) (s : S) : Option (Result Unit × GaObj N K P × S) :=
  let o := { o with fitter := o.fitter.begun kw, collector := .new "Test", states := none }
  if "ParameterList" ∈ names then
    match settings o.fitter with
    | .error e => some (.error e, o, s)
    | .ok set =>
      match Ga.initialise env set o.scales s with
      | none => none
      | some (.error e, s') => some (.error e, o, s')
      | some (.ok st, s') => loop names env mean set fuel st { o with
          collector := st.ps.foldl ParamSet.append o.collector
          states := some st
          monitor := report env mean set st o.monitor } s'
  else some (.error .AttributeError, o, s)

end GaObj

end Model
