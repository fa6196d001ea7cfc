import Verif.Model.Smc
import Verif.Model.Hme
import Verif.Model.Ga
import Verif.Model.Monitor
import Verif.Model.Script

/-!
# The object around a fitting algorithm (fit/base.py `Fitter`, `IdleModel`)

A fitter keeps its settings, its monitor and its state from one call of `fit` to the next.  Here the algorithms of
`Model.Smc`, `Model.Hme` and `Model.Ga` are put into that object.  Messages to the log are left out.
-/

namespace Model

open Py

/-- A value of a setting. -/
inductive SVal (K : Type)
  | int (i : Int)
  | num (x : K)
  | flag (b : Bool)
  | text (t : String)
  deriving DecidableEq

/-- The settings of a fitter. -/
abbrev SDict (K : Type) := Dict String (SVal K)

namespace SDict

variable {K : Type}

/-- `self.Settings[k]` where an integer is needed; another kind of value is taken for a TypeError. -/
def int (s : SDict K) (k : String) : Result Int :=
  match s.get? k with
  | some (.int i) => .ok i
  | some _ => .error .TypeError
  | none => .error .KeyError

/-- `self.Settings[k]` where a number is needed; another kind of value is taken for a TypeError. -/
def num [IntCast K] (s : SDict K) (k : String) : Result K :=
  match s.get? k with
  | some (.num x) => .ok x
  | some (.int i) => .ok (i : K)
  | some _ => .error .TypeError
  | none => .error .KeyError

/-- `if self.Settings[k]`; another kind of value is taken for a TypeError. -/
def flag (s : SDict K) (k : String) : Result Bool :=
  match s.get? k with
  | some (.flag b) => .ok b
  | some _ => .error .TypeError
  | none => .error .KeyError

/-- `self.Settings[k]` where a text is needed (`seq.endswith`): AttributeError for another kind of value. -/
def text (s : SDict K) (k : String) : Result String :=
  match s.get? k with
  | some (.text t) => .ok t
  | some _ => .error .AttributeError
  | none => .error .KeyError

/-- `update_settings(**kwargs)` - /repo/src/sims_pars/fit/base.py:206-209. -/
def updated (s : SDict K) : SDict K → SDict K
  | [] => s
  | (k, v) :: kw => updated (if k ∈ s.keys then s.set k v else s) kw

end SDict

/-- A `ParameterSet` - /repo/src/sims_pars/fit/results.py:6-11; its `Settings` are never written. -/
structure ParamSet (P A : Type) where
  algorithm : String
  notes : Dict String A
  particles : List P
  deriving DecidableEq

namespace ParamSet

variable {P A : Type}

/-- `ParameterSet(alg)` - /repo/src/sims_pars/fit/results.py:7-11. -/
def new (alg : String := "Prior") : ParamSet P A := ⟨alg, [], []⟩

/-- `keep(k, note)` - /repo/src/sims_pars/fit/results.py:19-20. -/
def keep (ps : ParamSet P A) (k : String) (a : A) : ParamSet P A := { ps with notes := ps.notes.set k a }

/-- `append(p)` - /repo/src/sims_pars/fit/results.py:22-23. -/
def append (ps : ParamSet P A) (p : P) : ParamSet P A := { ps with particles := ps.particles ++ [p] }

/-- `ps[item]` - /repo/src/sims_pars/fit/results.py:13-14. -/
def get (ps : ParamSet P A) (k : String) : Result A :=
  match ps.notes.get? k with
  | some a => .ok a
  | none => .error .KeyError

end ParamSet

/-- A `Fitter` object - /repo/src/sims_pars/fit/base.py:175-181.  `M` are the models, `Q` the states, `P` the particles
and `A` the notes of a `ParameterSet`. -/
structure FitterObj (K M Q P A : Type) where
  settings : SDict K
  collector : ParamSet P A
  model : M
  state : Option Q
  monitor : Monitor String (XR K)

/-- What a method of a fitter does: the outcome, the object and the world afterwards; `none` when it does not end. -/
abbrev Method (W K M Q P A : Type) :=
  FitterObj K M Q P A → W → Option (Result Unit × FitterObj K M Q P A × W)

/-- What a subclass of `Fitter` supplies - /repo/src/sims_pars/fit/base.py:198-204, 219-229. -/
structure Alg (W K M Q P A : Type) where
  defaults : SDict K
  /-- `IdleModel()` -/
  idle : M
  initialise : Method W K M Q P A
  update : Method W K M Q P A
  terminate : Method W K M Q P A

namespace FitterObj

variable {W K M Q P A : Type}

/-- `Fitter(name, **kwargs)` - /repo/src/sims_pars/fit/base.py:175-181. -/
def new (alg : Alg W K M Q P A) (kw : SDict K) : FitterObj K M Q P A :=
  ⟨SDict.updated alg.defaults kw, .new, alg.idle, none, .init⟩

/-- One method after another; an exception ends it. -/
def andThen (f g : Method W K M Q P A) : Method W K M Q P A := fun o w =>
  match f o w with
  | none => none
  | some (.error e, o, w) => some (.error e, o, w)
  | some (.ok (), o, w) => g o w

/-- `fit(model, **kwargs)` - /repo/src/sims_pars/fit/base.py:211-217. -/
def fit (alg : Alg W K M Q P A) (m : M) (kw : SDict K) : Method W K M Q P A := fun o w =>
  andThen alg.initialise (andThen alg.update alg.terminate)
    { o with model := m, collector := .new, settings := o.settings.updated kw } w

/-- `close()` - /repo/src/sims_pars/fit/base.py:189-190. -/
def close (alg : Alg W K M Q P A) (o : FitterObj K M Q P A) : FitterObj K M Q P A := { o with model := alg.idle }

end FitterObj

/-! ## Sequential Monte Carlo in its object -/

/-- The notes that the algorithms leave on a `ParameterSet`. -/
inductive PNote (K : Type)
  | num (x : XR K)
  | trace (rows : List (Dict String (XR K)))
  deriving DecidableEq

namespace Fitters

variable {W Θ T P M K : Type} [Field K] [LinearOrder K] [FloorSemiring K]

/-- `DefaultSettings` - /repo/src/sims_pars/fit/abc_smc/alg.py:105-117. -/
def smcDefaults : SDict K :=
  [("n_iter", .int 500), ("parallel", .flag true), ("alpha", .num (9 / 10)), ("p_thres", .num (3 / 5)),
    ("max_round", .int 20), ("max_stay", .int 3), ("min_acc", .num (1 / 10)), ("n_core", .int 4), ("verbose", .int 5)]

/-- The settings the algorithm reads - /repo/src/sims_pars/fit/abc_smc/alg.py:125, 130, 156, 164, 216, 231, 283-288.
They do not change during a fit, so it does not matter when they are read. -/
def smcSettings (s : SDict K) : Result (SmcSettings K) := do
  let nIter ← s.int "n_iter"
  let parallel ← s.flag "parallel"
  let alpha ← s.num "alpha"
  let pThres ← s.num "p_thres"
  let maxRound ← s.int "max_round"
  let maxStay ← s.int "max_stay"
  let minAcc ← s.num "min_acc"
  return ⟨nIter.toNat, parallel, alpha, pThres, maxRound, maxStay, minAcc⟩

/-- `self.Monitor.keep(Round=..., Eval=..., Eps=..., ESS=..., Acc=...); self.Monitor.step()` -
/repo/src/sims_pars/fit/abc_smc/alg.py:151-152, 198-199. -/
def report (m : Monitor String (XR K)) (st : SmcState Θ K) : Monitor String (XR K) :=
  ((m.keep [("Round", .fin (st.round : K)), ("Eval", .fin (st.evals : K)), ("Eps", st.eps), ("ESS", st.ess),
    ("Acc", .fin st.acc)]).step "Time" (fun t => .fin (t : K)) none).1

/-- `initialise` - /repo/src/sims_pars/fit/abc_smc/alg.py:122-158. -/
def smcInitialise (envOf : M → SmcEnv W Θ T P K) (fuel : Nat) (parents : Option (List P)) :
    Method W K M (SmcState Θ K) (Pt Θ) (PNote K) := fun o w =>
  match smcSettings o.settings with
  | .error e => some (.error e, o, w)
  | .ok set =>
    match Smc.initialise (envOf o.model) set fuel parents w with
    | none => none
    | some (.error e, w') => some (.error e, o, w')
    | some (.ok st, w') => some (.ok (), { o with state := some st, monitor := report o.monitor st }, w')

/-- The loop of `update` - /repo/src/sims_pars/fit/abc_smc/alg.py:168-172, 174-200; the number bounds the rounds. -/
def smcRounds (envOf : M → SmcEnv W Θ T P K) (fuel : Nat) (set : SmcSettings K) :
    Nat → SmcState Θ K → Method W K M (SmcState Θ K) (Pt Θ) (PNote K)
  | 0, _, _, _ => none
  | k + 1, st, o, w =>
    match Smc.aRound (envOf o.model) set fuel st w with
    | none => none
    | some (.error e, w') => some (.error e, o, w')
    | some (.ok st', w') =>
      let o' := { o with state := some st', monitor := report o.monitor st' }
      if Smc.checkTermination set st' then some (.ok (), o', w') else smcRounds envOf fuel set k st' o' w'

/-- `update` - /repo/src/sims_pars/fit/abc_smc/alg.py:168-172. -/
def smcUpdate (envOf : M → SmcEnv W Θ T P K) (fuel rounds : Nat) :
    Method W K M (SmcState Θ K) (Pt Θ) (PNote K) := fun o w =>
  match smcSettings o.settings, o.state with
  | .error e, _ => some (.error e, o, w)
  | .ok _, none => some (.error .AttributeError, o, w)
  | .ok set, some st => smcRounds envOf fuel set rounds st o w

/-- `ApproxBayesComSMC` - /repo/src/sims_pars/fit/abc_smc/alg.py:100-332; `parents` is what `set_parents` left. -/
def smc (envOf : M → SmcEnv W Θ T P K) (idle : M) (fuel rounds : Nat) (parents : Option (List P)) :
    Alg W K M (SmcState Θ K) (Pt Θ) (PNote K) where
  defaults := smcDefaults
  idle := idle
  initialise := smcInitialise envOf fuel parents
  update := smcUpdate envOf fuel rounds
  terminate := fun o w => some (.ok (), o, w)

/-- `sample_posteriors(n_collect)` - /repo/src/sims_pars/fit/abc_smc/alg.py:296-332: the object is not changed.  The
trace is the table of all records of the monitor. -/
def smcPosteriors (envOf : M → SmcEnv W Θ T P K) (fuel n : Nat) (o : FitterObj K M (SmcState Θ K) (Pt Θ) (PNote K)) :
    Run W (ParamSet (Pt Θ) (PNote K)) := do
  let set ← .ofResult (smcSettings o.settings)
  let pts ← Smc.samplePosteriors (envOf o.model) set fuel o.state n
  let post := pts.foldl ParamSet.append (ParamSet.new "ABC-SMC")
  return (post.keep "Trace" (.trace o.monitor.records)).keep "Eps" (.num ((o.state.map (·.eps)).getD .nan))

end Fitters

/-! ## History matching in its object -/

namespace Fitters

variable {W N K D M P A : Type} [DecidableEq N] [Field K] [LinearOrder K] [FloorSemiring K]

/-- `DefaultSettings` - /repo/src/sims_pars/fit/hme/alg.py:52-61. -/
def hmeDefaults : SDict K :=
  [("n_sims", .int 0), ("n_ems", .int 0), ("n_pars", .int 0), ("max_wave", .int 5), ("var_model", .int 1),
    ("cutoff", .int 3), ("min_acc", .num (1 / 5))]

/-- `initialise` - /repo/src/sims_pars/fit/hme/alg.py:63-83: it writes the sizes it settles on into the settings, also
when it then raises.  `nPars` is `len(model.Domain)`. -/
def hmeInitialise (nPars : M → Nat) : Method W K M (HmeState N K) P A := fun o w =>
  let n := nPars o.model
  let s1 : SDict K := o.settings.set "n_pars" (.int n)
  match s1.int "n_sims" with
  | .error e => some (.error e, { o with settings := s1 }, w)
  | .ok nSims =>
    let s2 : SDict K := if nSims ≤ 0 then s1.set "n_sims" (.int (n * 10)) else s1
    match s2.int "n_ems" with
    | .error e => some (.error e, { o with settings := s2 }, w)
    | .ok nEms =>
      if nEms ≤ 0 ∧ 0 < nSims then some (.error .UnboundLocalError, { o with settings := s2 }, w)
      else
        let s3 : SDict K := if nEms ≤ 0 then s2.set "n_ems" (.int (n * 10 * 100)) else s2
        some (.ok (), { o with
          settings := s3
          state := some { pts := [], lower := List.replicate n 0, upper := List.replicate n 1, wave := 0, mse := .pinf,
                          cutoff := .pinf, acc := 1 } }, w)

/-- The settings that `update` reads - /repo/src/sims_pars/fit/hme/alg.py:76, 112, 126, 158, 166. -/
def hmeSettings (s : SDict K) : Result (HmeSettings K) := do
  let nPars ← s.int "n_pars"
  let nSims ← s.int "n_sims"
  let nEms ← s.int "n_ems"
  let maxWave ← s.int "max_wave"
  let varModel ← s.num "var_model"
  let cutoff ← s.num "cutoff"
  let minAcc ← s.num "min_acc"
  return ⟨nPars.toNat, nSims.toNat, nEms.toNat, maxWave, .fin varModel, .fin cutoff, minAcc⟩

/-- The loop of `update` - /repo/src/sims_pars/fit/hme/alg.py:85-89, 91-106, 165-171; the number bounds the waves. -/
def hmeWaves (envOf : M → HmeEnv W N K D) (set : HmeSettings K) : Nat → HmeState N K → Method W K M (HmeState N K) P A
  | 0, _, _, _ => none
  | k + 1, st, o, w =>
    match Hme.aWave (envOf o.model) set st w with
    | none => none
    | some (.error e, w') => some (.error e, o, w')
    | some (.ok st', w') =>
      let o' := { o with state := some st' }
      if set.maxWave ≤ st'.wave then some (.ok (), o', w') else hmeWaves envOf set k st' o' w'

/-- `update` - /repo/src/sims_pars/fit/hme/alg.py:85-89. -/
def hmeUpdate (envOf : M → HmeEnv W N K D) (waves : Nat) : Method W K M (HmeState N K) P A := fun o w =>
  match hmeSettings o.settings, o.state with
  | .error e, _ => some (.error e, o, w)
  | .ok _, none => some (.error .AttributeError, o, w)
  | .ok set, some st => hmeWaves envOf set waves st o w

/-- `BayesHistoryMatching` - /repo/src/sims_pars/fit/hme/alg.py:47-201. -/
def hme (envOf : M → HmeEnv W N K D) (idle : M) (waves : Nat) : Alg W K M (HmeState N K) P A where
  defaults := hmeDefaults
  idle := idle
  initialise := hmeInitialise (fun m => (envOf m).doms.length)
  update := hmeUpdate envOf waves
  terminate := fun o w => some (.ok (), o, w)

end Fitters

/-! ## The operators of the genetic algorithm -/

/-- A `GeneticAlg` object: its settings and the operators it holds - /repo/src/sims_pars/fit/ga/alg.py:27-34. -/
structure GaFitter (K : Type) where
  settings : SDict K
  crossover : Ga.Cross
  selector : Ga.Sel

namespace GaFitter

variable {K : Type} [Field K]

/-- `DefaultSettings` - /repo/src/sims_pars/fit/ga/alg.py:36-51. -/
def defaults : SDict K :=
  [("n_collect", .int 300), ("parallel", .flag true), ("max_round", .int 100), ("max_stay", .int 5), ("n_core", .int 4),
    ("verbose", .int 5), ("p_mut", .num (1 / 10)), ("p_cro", .num (4 / 5)), ("mut", .text "rw"),
    ("cro", .text "shuffle"), ("sel", .text "importance"), ("target", .text "MAP")]

/-- `GeneticAlg(**kwargs)` - /repo/src/sims_pars/fit/ga/alg.py:28-34.  `getCross` and `getSel` are `get_crossover` and
`get_selector`; there is one mutator, `rw`, which is left out. -/
def new (getCross : String → Result Ga.Cross) (getSel : String → Result Ga.Sel) (kw : SDict K) : Result (GaFitter K) := do
  let s : SDict K := SDict.updated defaults kw
  let c ← getCross (← s.text "cro")
  let e ← getSel (← s.text "sel")
  return ⟨s, c, e⟩

/-- The settings with which `fit(model, **kwargs)` runs - /repo/src/sims_pars/fitting/fitter.py:76-82; the operators
stay those of the constructor. -/
def begun (o : GaFitter K) (kw : SDict K) : GaFitter K := { o with settings := o.settings.updated kw }

end GaFitter

/-! ## The idle model -/

/-- The script of `IdleModel` - /repo/src/sims_pars/fit/base.py:166-168. -/
def idleScript : Text :=
  ("\n                PCore Empty {\n        }\n        " : String).toList

end Model
