import Verif.Py.Rand
import Verif.Py.Dict

/-!
# Drawing and mutating particles (fitting/util.py, fitting/fitter.py, fitting/base.py)

The package expects particles with the attributes `LogPrior` and `LogLikelihood` and the methods `is_prior_evaluated` and
`is_likelihood_evaluated`, which the `Chromosome` of this commit lacks; so it is modelled over an arbitrary type `P` of
particles.  What joblib runs in parallel is modelled as run in order with one random state.
-/

namespace Model.Draw

open Py

/-- What `to_json` of a particle gives: its locus and, when they are there, the entries `LogPrior` and `LogLikelihood` -
/repo/src/sims_pars/fitting/base.py:28-31. -/
structure Js (N K : Type) where
  locus : Dict N K
  logPrior : Option (XR K)
  logLik : Option (XR K)

/-- What the functions ask of particles `P` and of the objective. -/
structure Objective (P N K S : Type) where
  /-- `obj.sample_prior()` - /repo/src/sims_pars/fitting/base.py:33-35 -/
  samplePrior : Run S P
  /-- `obj.evaluate_prior(p)`, which stores what it finds - /repo/src/sims_pars/fitting/base.py:37-39 -/
  evaluatePrior : P → Run S P
  /-- `obj.calc_likelihood(p)` - /repo/src/sims_pars/fitting/base.py:41-43 -/
  calcLikelihood : P → Run S (XR K)
  /-- `obj.serve(locus)` - /repo/src/sims_pars/fitting/base.py:24-26 -/
  serve : Dict N K → Run S P
  /-- `p.LogPrior` -/
  logPrior : P → XR K
  /-- `p.LogLikelihood` -/
  logLik : P → XR K
  /-- `p.is_likelihood_evaluated()` -/
  likEvaluated : P → Bool
  /-- `p.LogLikelihood = l` -/
  setLik : P → XR K → P
  /-- `p.LogPrior = l` -/
  setPrior : P → XR K → P
  /-- `Chromosome()` with its `LogLikelihood` set to minus infinity - /repo/src/sims_pars/fitting/util.py:18-19 -/
  dead : P
  /-- `p.clone()` -/
  clone : P → P
  /-- `p.Locus` -/
  locus : P → Dict N K
  /-- `p.impulse(changes)` -/
  impulse : P → Dict N K → Result P
  /-- `p.to_json()` -/
  toJson : P → Js N K
  /-- `np.random.normal(0, sd)` -/
  normal : K → Run S K

variable {P N K S : Type} [DecidableEq N] [Field K] [LinearOrder K]

/-- `np.isinf`. -/
def isInf : XR K → Bool
  | .pinf => true
  | .ninf => true
  | _ => false

/-- `obj.serve_from_json(js)` - /repo/src/sims_pars/fitting/base.py:28-31. -/
def serveJson (o : Objective P N K S) (js : Js N K) : Run S P := do
  let p ← o.serve js.locus
  match js.logPrior, js.logLik with
  | some lp, some ll => return o.setLik (o.setPrior p lp) ll
  | _, _ => Run.fail .KeyError

/-- `obj.evaluate(p)`: the likelihood, and the particle that now has it - /repo/src/sims_pars/fitting/base.py:45-49. -/
def evaluate (o : Objective P N K S) (p : P) : Run S (XR K × P) :=
  if o.likEvaluated p then pure (o.logLik p, p)
  else do
    let l ← o.calcLikelihood p
    return (o.logLik (o.setLik p l), o.setLik p l)

/-- The loop of `draw`, with `left` tries that may still be begun and `i` evaluations made -
/repo/src/sims_pars/fitting/util.py:13-20. -/
def drawLoop (o : Objective P N K S) : Nat → Nat → Run S (P × Nat)
  | 0, _ => Run.more
  | left + 1, i => do
    let p ← o.samplePrior
    let (li, p) ← evaluate o p
    if i + 1 > 20 then return (o.dead, i + 1)
    else if isInf li then drawLoop o left (i + 1)
    else return (p, i + 1)

/-- `draw(obj)` - /repo/src/sims_pars/fitting/util.py:11-24.  The loop ends with the 21st try. -/
def draw (o : Objective P N K S) : Run S (P × Nat) := drawLoop o 21 0

/-- `draw_parallel` - /repo/src/sims_pars/fitting/util.py:27-29. -/
def drawParallel (o : Objective P N K S) (n : Nat) : Run S (List (P × Nat)) := do
  let samples ← Run.times n (do let (p, i) ← draw o; return (o.toJson p, i))
  Run.each (fun s => do return (← serveJson o s.1, s.2)) samples

/-- `{k: np.random.normal(0, v) for k, v in scale.items()}` - /repo/src/sims_pars/fitting/util.py:43, 71. -/
def drawSizes (o : Objective P N K S) (scale : Dict N K) : Run S (Dict N K) :=
  Run.each (fun kv => do return (kv.1, ← o.normal kv.2)) scale

/-- `mutate` - /repo/src/sims_pars/fitting/util.py:32-37. -/
def mutate (o : Objective P N K S) (p0 : P) (sizes : Dict N K) : Result P :=
  let p := o.clone p0
  o.impulse p ((o.locus p).filterMap (fun kv => (sizes.get? kv.1).map (fun d => (kv.1, kv.2 + d))))

/-- The loop of `mutate_and_draw`, with `i` evaluations made - /repo/src/sims_pars/fitting/util.py:42-60: it ends with
the copy of the original when the condition of the loop fails. -/
def mutateLoop (o : Objective P N K S) (p0 : P) (scale : Dict N K) : Nat → Nat → Run S (P × Nat)
  | 0, _ => Run.more
  | fuel + 1, i => do
    let sizes ← drawSizes o scale
    match mutate o p0 sizes with
    | .error .ValueError => mutateLoop o p0 scale fuel i
    | .error e => Run.fail e
    | .ok p => do
      let p ← o.evaluatePrior p
      if isInf (o.logPrior p) then mutateLoop o p0 scale fuel i
      else do
        let (li, _) ← evaluate o p
        if i + 1 > 20 then return (o.dead, i + 1)
        else if isInf li then mutateLoop o p0 scale fuel (i + 1)
        else return (o.clone p0, i + 1)

/-- `mutate_and_draw(obj, p0, scale)` - /repo/src/sims_pars/fitting/util.py:40-65. -/
def mutateAndDraw (o : Objective P N K S) (fuel : Nat) (p0 : P) (scale : Dict N K) : Run S (P × Nat) :=
  mutateLoop o p0 scale fuel 0

/-- `obj.serve(p)`, caught when it raises ValueError - /repo/src/sims_pars/fitting/util.py:74-77. -/
def tryServe (o : Objective P N K S) (l : Dict N K) : Run S (Option P) := fun s =>
  match o.serve l s with
  | some (.ok p, s') => some (.ok (some p), s')
  | some (.error .ValueError, s') => some (.ok none, s')
  | some (.error e, s') => some (.error e, s')
  | none => none

/-- `{k: p0[k] + v for k, v in sizes.items()}` - /repo/src/sims_pars/fitting/util.py:73. -/
def shifted (p0 sizes : Dict N K) : Result (Dict N K) :=
  sizes.mapM (fun kv => match p0.get? kv.1 with | some v => .ok (kv.1, v + kv.2) | none => .error .KeyError)

/-- `__mutate_and_draw`, before the particle is turned into JSON - /repo/src/sims_pars/fitting/util.py:68-89. -/
def workerLoop (o : Objective P N K S) (p0 scale : Dict N K) : Nat → Nat → Run S (P × Nat)
  | 0, _ => Run.more
  | fuel + 1, i => do
    let sizes ← drawSizes o scale
    let l ← Run.ofResult (shifted p0 sizes)
    match ← tryServe o l with
    | none => workerLoop o p0 scale fuel i
    | some p => do
      let p ← o.evaluatePrior p
      if isInf (o.logPrior p) then workerLoop o p0 scale fuel i
      else do
        let (li, p) ← evaluate o p
        if i + 1 > 20 then return (o.dead, i + 1)
        else if isInf li then workerLoop o p0 scale fuel (i + 1)
        else return (p, i + 1)

/-- `mutate_and_draw_parallel` - /repo/src/sims_pars/fitting/util.py:92-95. -/
def mutateParallel (o : Objective P N K S) (fuel : Nat) (p0s : List P) (scale : Dict N K) : Run S (List (P × Nat)) := do
  let ps ← Run.each (fun p0 => do
    let (p, i) ← workerLoop o (o.locus p0) scale fuel 0
    return (o.toJson p, i)) p0s
  Run.each (fun s => do return (← serveJson o s.1, s.2)) ps

/-- `serve_and_evaluate` of a dictionary or of a particle - /repo/src/sims_pars/fitting/util.py:104-112. -/
def serveAndEvaluate (o : Objective P N K S) (x : Dict N K ⊕ P) : Run S P := do
  let p ← (match x with | .inl l => o.serve l | .inr p => pure p)
  let p ← o.evaluatePrior p
  if isInf (o.logPrior p) then return p
  else do
    let (_, p) ← evaluate o p
    return p

/-- `serve_and_evaluate_parallel` - /repo/src/sims_pars/fitting/util.py:115-129: only the locus of a particle is passed
on. -/
def serveAndEvaluateParallel (o : Objective P N K S) (xs : List (Dict N K ⊕ P)) : Run S (List P) := do
  let ps ← Run.each (fun x => do
    let p ← serveAndEvaluate o (.inl (match x with | .inl l => l | .inr p => o.locus p))
    return o.toJson p) xs
  Run.each (fun js => serveJson o js) ps

/-- What is left in `Collector` when `PriorSampling.collect` ends, and the exception that it ends with. -/
structure Collected (P : Type) where
  samples : List P
  nEval : Nat
  raised : Option Err

/-- `PriorSampling.collect` - /repo/src/sims_pars/fitting/fitter.py:107-132: a `ParameterSet` has no `finish`
(/repo/src/sims_pars/fit/results.py:6-37). -/
def collect (o : Objective P N K S) (parallel : Bool) (n : Nat) : Run S (Collected P) :=
  if parallel then do
    let ps ← drawParallel o n
    return ⟨ps.map Prod.fst, (ps.map Prod.snd).sum, some .AttributeError⟩
  else do
    let ps ← Run.times n (draw o)
    return ⟨ps.map Prod.fst, n, some .AttributeError⟩

/-- What an `AbsObjectiveBN` is made of: the order of its network and which nodes are random, its exogenous parameters,
`sample(bn, cond)`, `evaluate_nodes`, `isinstance(v, float)`, and whether the class `Chromosome` has the method
`is_prior_evaluated` - /repo/src/sims_pars/fitting/base.py:56-71. -/
structure Net (N V K S : Type) where
  order : List N
  isRv : N → Bool
  exo : Dict N V
  sample : Dict N V → Run S (Dict N V)
  evaluateNodes : Dict N V → Result (XR K)
  isFloat : V → Bool
  hasMethod : Bool

variable {V : Type}

/-- The names that an instance of `Chromosome` answers to - /repo/src/sims_pars/bayesnet/chromosome.py:8-115. -/
def chromosomeNames : List String :=
  ["Locus", "LogProb", "__init__", "__len__", "__iter__", "__bool__", "__getitem__", "__setitem__", "__contains__",
    "keys", "impulse", "clone", "reset_probability", "is_evaluated", "__repr__", "__dict__", "to_json", "to_data",
    "from_json", "summarise", "mean", "to_data_frame"]

/-- `evaluate_prior` of a chromosome that is new - /repo/src/sims_pars/fitting/base.py:96-99. -/
def netPrior (b : Net N V K S) (p : Dict N V) : Result (XR K) :=
  if b.hasMethod then b.evaluateNodes p else .error .AttributeError

/-- `AbsObjectiveBN.sample_prior` - /repo/src/sims_pars/fitting/base.py:89-94. -/
def netSamplePrior (b : Net N V K S) : Run S (Dict N V × XR K) := do
  let p ← b.sample b.exo
  let p := p.update b.exo
  let l ← Run.ofResult (netPrior b p)
  return (p, l)

/-- `AbsObjectiveBN.serve` - /repo/src/sims_pars/fitting/base.py:73-78. -/
def netServe (b : Net N V K S) (p : Dict N V) : Run S (Dict N V × XR K) := do
  let p ← b.sample (p.update b.exo)
  let l ← Run.ofResult (netPrior b p)
  return (p, l)

/-- `AbsObjectiveBN.__init__`: the free parameters - /repo/src/sims_pars/fitting/base.py:57-71. -/
def netFree (b : Net N V K S) : Run S (List N) := do
  let free := b.order.filter (fun n => b.isRv n && !(b.exo.get? n).isSome)
  let (p0, _) ← netSamplePrior b
  let pfs := (p0.filter (fun kv => b.isFloat kv.2)).map Prod.fst
  return free.filter (fun n => decide (n ∈ pfs))

end Model.Draw
