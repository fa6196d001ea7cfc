import Verif.Model.Sampling
import Verif.Model.Targets
import Verif.Model.Converter

/-!
# Settings, particles and data models (fit/base.py)
-/

namespace Model

open Py

/-- `Fitter.update_settings(**kwargs)` - /repo/src/sims_pars/fit/base.py:206-209. -/
def updateSettings {X : Type} (settings kwargs : Dict String X) : Dict String X :=
  kwargs.foldl (fun st kv => if kv.1 ∈ st.keys then st.set kv.1 kv.2 else st) settings

variable {N V C O S K D : Type} [DecidableEq N] [Field K] [LinearOrder K]

/-- The parameters of a particle: a `Chromosome`, or a plain dictionary as the history matching passes it
(/repo/src/sims_pars/fit/hme/alg.py:121). -/
inductive Pars (N V K : Type)
  | chrom (c : Chromosome N V K)
  | plain (d : Dict N V)
  deriving DecidableEq

/-- `pars[name]`. -/
def Pars.get? : Pars N V K → N → Option V
  | .chrom c, x => c.locus.get? x
  | .plain d, x => d.get? x

/-- The values found in `Notes`. -/
inductive Note (N V K : Type)
  | xs (vs : List V)
  | ys (d : Dict N (XR K))
  | num (x : XR K)
  deriving DecidableEq

/-- A `Particle` object - /repo/src/sims_pars/fit/base.py:27-31. -/
structure Particle (N V K : Type) where
  pars : Pars N V K
  sims : Dict N (XR K)
  notes : Dict String (Note N V K)
  deriving DecidableEq

/-- The JSON form of a particle (the parameters as `Chromosome.to_json` gives them) -
/repo/src/sims_pars/fit/base.py:39-44. -/
structure ParticleJson (N V K : Type) where
  pars : Dict N V × XR K
  sims : Dict N (XR K)
  notes : Dict String (Note N V K)
  deriving DecidableEq

namespace Particle

/-- `Particle(pars, sims)` - /repo/src/sims_pars/fit/base.py:28-31. -/
def new (pars : Pars N V K) (sims : Dict N (XR K)) : Particle N V K := ⟨pars, sims, []⟩

/-- `particle[key] = value` - /repo/src/sims_pars/fit/base.py:33-34. -/
def setNote (p : Particle N V K) (k : String) (v : Note N V K) : Particle N V K :=
  { p with notes := p.notes.set k v }

/-- `to_json` - /repo/src/sims_pars/fit/base.py:39-44; a plain dictionary has no `to_json`. -/
def toJson (p : Particle N V K) : Result (ParticleJson N V K) :=
  match p.pars with
  | .chrom c => .ok ⟨(c.locus, c.logProb), p.sims, p.notes⟩
  | .plain _ => .error .AttributeError

/-- `from_json` - /repo/src/sims_pars/fit/base.py:55-59. -/
def fromJson (js : ParticleJson N V K) : Particle N V K :=
  let p : Particle N V K := new (.chrom (Chromosome.new js.pars.1 js.pars.2)) js.sims
  { p with notes := p.notes.update js.notes }

/-- `copy` - /repo/src/sims_pars/fit/base.py:46-54: only the notes `Xs` and `Ys` are kept; a plain dictionary has no
`clone`. -/
def copy (p : Particle N V K) : Result (Particle N V K) :=
  match p.pars with
  | .plain _ => .error .AttributeError
  | .chrom c =>
    let pt : Particle N V K := new (.chrom c.clone) p.sims
    let pt := match p.notes.get? "Xs" with
      | some x => pt.setNote "Xs" x
      | none => pt
    let pt := match p.notes.get? "Ys" with
      | some y => pt.setNote "Ys" y
      | none => pt
    .ok pt

end Particle

/-- What the data model needs from its surroundings: the semantics of definitions, the operations of target
distributions, `isinstance(v, float)`, and the attributes `Lower`, `Upper`, `mean()`, `std()` of a distribution
object. -/
structure FitEnv (N V C O S K D : Type) where
  sem : Sem N V C O S (XR K)
  ops : DistOps D K
  isFloat : V → Bool
  support : Dist V S (XR K) → Result (XR K × XR K × XR K × XR K)

/-- A `DataModel` object - /repo/src/sims_pars/fit/base.py:62-79. -/
structure DataModel (N V C O K D : Type) where
  data : Dict N (Target N K D)
  bn : BN N V C O
  exo : Dict N V
  free : List N

namespace DataModel

/-- `sample_prior` - /repo/src/sims_pars/fit/base.py:101-105. -/
def samplePrior (env : FitEnv N V C O S K D) (m : DataModel N V C O K D) (s : S) :
    Result (Chromosome N V K) × S :=
  match sample env.sem m.bn m.exo s with
  | (.error e, s') => (.error e, s')
  | (.ok p, s') =>
    match evaluateNodes env.sem m.bn p with
    | .error e => (.error e, s')
    | .ok lp => (.ok (Chromosome.new p lp), s')

/-- `DataModel(data, bn, exo)` for a network object - /repo/src/sims_pars/fit/base.py:63-79. -/
def new (env : FitEnv N V C O S K D) (data : Dict N (Target N K D)) (bn : BN N V C O) (exo : Dict N V) (s : S) :
    Result (DataModel N V C O K D) × S :=
  match bn.rvRoots with
  | .error e => (.error e, s)
  | .ok none => (.error .TypeError, s)
  | .ok (some rr) =>
    let m : DataModel N V C O K D := ⟨data, bn, exo, rr.filter (· ∉ exo.keys)⟩
    match m.samplePrior env s with
    | (.error e, s') => (.error e, s')
    | (.ok p0, s') =>
      let pfs := (p0.locus.filterItems (fun _ v => env.isFloat v)).keys
      (.ok { m with free := m.free.filter (· ∈ pfs) }, s')

/-- `serve` - /repo/src/sims_pars/fit/base.py:81-85. -/
def serve (env : FitEnv N V C O S K D) (m : DataModel N V C O K D) (p : Dict N V) (s : S) :
    Result (Chromosome N V K) × S :=
  sampleChromosome env.sem m.bn (p.update m.exo) s

/-- `serve_from_json` - /repo/src/sims_pars/fit/base.py:96-99. -/
def serveFromJson (env : FitEnv N V C O S K D) (m : DataModel N V C O K D) (js : Dict N V × XR K) (s : S) :
    Result (Chromosome N V K) × S :=
  match m.serve env js.1 s with
  | (.error e, s') => (.error e, s')
  | (.ok p, s') => (.ok { p with logProb := js.2 }, s')

/-- `evaluate_prior` - /repo/src/sims_pars/fit/base.py:107-110: the chromosome after the call and the outcome. -/
def evaluatePrior (env : FitEnv N V C O S K D) (m : DataModel N V C O K D) (p : Chromosome N V K) :
    Chromosome N V K × Result (XR K) :=
  if p.isEvaluated then (p, .ok p.logProb)
  else
    match evaluateNodes env.sem m.bn p.locus with
    | .error e => (p, .error e)
    | .ok lp => ({ p with logProb := lp }, .ok lp)

/-- One entry of `Domain` - /repo/src/sims_pars/fit/base.py:92-93; only random variables have
`get_distribution`. -/
def domainOf (env : FitEnv N V C O S K D) (m : DataModel N V C O K D) (p : Chromosome N V K) (x : N) :
    Result (Dom N K) := do
  match ← m.bn.get x with
  | .dist _ f _ =>
    let d ← getDistribution env.sem f p.locus.get?
    let (lo, up, mean, std) ← env.support d
    return ⟨x, lo, up, mean, std⟩
  | _ => .error .AttributeError

/-- `Domain`: a prior draw is made to evaluate the distributions of the random roots -
/repo/src/sims_pars/fit/base.py:87-94. -/
def domain (env : FitEnv N V C O S K D) (m : DataModel N V C O K D) (s : S) : Result (List (Dom N K)) × S :=
  match m.samplePrior env s with
  | (.error e, s') => (.error e, s')
  | (.ok p, s') =>
    match m.bn.rvRoots with
    | .error e => (.error e, s')
    | .ok none => (.error .TypeError, s')
    | .ok (some rr) => (rr.mapM (m.domainOf env p), s')

/-- `flatten` - /repo/src/sims_pars/fit/base.py:150-155: the particle after the call (also when it fails half way),
the random state and the outcome. -/
def flatten (env : FitEnv N V C O S K D) (m : DataModel N V C O K D) (p : Particle N V K) (s : S) :
    Particle N V K × S × Result Unit :=
  match m.domain env s with
  | (.error e, s') => (p, s', .error e)
  | (.ok doms, s') =>
    match doms.mapM (fun d => match p.pars.get? d.name with
        | some v => (.ok v : Result V)
        | none => .error .KeyError) with
    | .error e => (p, s', .error e)
    | .ok xs =>
      let p1 := p.setNote "Xs" (.xs xs)
      match m.data.keys.mapM (fun k => match p.sims.get? k with
          | some y => (.ok (k, y) : Result (N × XR K))
          | none => .error .KeyError) with
      | .error e => (p1, s', .error e)
      | .ok ys => (p1.setNote "Ys" (.ys ys), s', .ok ())

/-- `di = 0; for dat in Data: di += dat.calc_distance(ys)` - /repo/src/sims_pars/fit/base.py:126-128. -/
def sumTargets (f : Target N K D → Result (XR K)) : List (Target N K D) → XR K → Result (XR K)
  | [], acc => .ok acc
  | t :: ts, acc => do
    let d ← f t
    sumTargets f ts (acc + d)

/-- `try: ys = p['Ys'] except KeyError: self.flatten(p); ys = p['Ys']` -
/repo/src/sims_pars/fit/base.py:119-124 and 136-141. -/
def lookupYs (env : FitEnv N V C O S K D) (m : DataModel N V C O K D) (p : Particle N V K) (s : S) :
    Particle N V K × S × Result (Note N V K) :=
  match p.notes.get? "Ys" with
  | some y => (p, s, .ok y)
  | none =>
    match m.flatten env p s with
    | (p', s', .error e) => (p', s', .error e)
    | (p', s', .ok ()) =>
      match p'.notes.get? "Ys" with
      | some y => (p', s', .ok y)
      | none => (p', s', .error .KeyError)

/-- The part that `calc_distance` and `calc_likelihood` share: the cached note, else the note `Ys` (flattening when
it is missing), else the sum over the targets, which is then cached.  A note `Ys` that is not a dictionary cannot be
subscripted with the name of a target. -/
def calcNote (env : FitEnv N V C O S K D) (m : DataModel N V C O K D) (key : String)
    (f : Dict N (XR K) → Target N K D → Result (XR K)) (p : Particle N V K) (s : S) :
    Particle N V K × S × Result (Note N V K) :=
  match p.notes.get? key with
  | some v => (p, s, .ok v)
  | none =>
    match m.lookupYs env p s with
    | (p', s', .error e) => (p', s', .error e)
    | (p', s', .ok (.ys ys)) =>
      match sumTargets (f ys) (m.data.map Prod.snd) 0 with
      | .error e => (p', s', .error e)
      | .ok di => (p'.setNote key (.num di), s', .ok (.num di))
    | (p', s', .ok _) =>
      if m.data.isEmpty then (p'.setNote key (.num 0), s', .ok (.num 0)) else (p', s', .error .TypeError)

/-- `calc_distance` - /repo/src/sims_pars/fit/base.py:116-131. -/
def calcDistance (env : FitEnv N V C O S K D) (m : DataModel N V C O K D) (p : Particle N V K) (s : S) :
    Particle N V K × S × Result (Note N V K) :=
  m.calcNote env "distance" (Target.distance env.ops) p s

/-- `calc_likelihood` - /repo/src/sims_pars/fit/base.py:133-148. -/
def calcLikelihood (env : FitEnv N V C O S K D) (m : DataModel N V C O K D) (p : Particle N V K) (s : S) :
    Particle N V K × S × Result (Note N V K) :=
  m.calcNote env "log_lik" (Target.likelihood env.ops) p s

end DataModel

end Model
