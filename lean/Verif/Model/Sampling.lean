import Verif.Model.BN

/-!
# Sampling from and evaluating on a network (fn.py), chromosomes (bayesnet/chromosome.py)
-/

namespace Model

open Py

variable {N V C O S L K : Type} [DecidableEq N]

/-- `for nod in bn.Exo`: iterating over the property; a frozen network without cache has `None`. -/
def BN.exoList (bn : BN N V C O) : Result (List N) := do
  match ← bn.exo with
  | some l => .ok l
  | none => .error .TypeError

/-- The sampling loops - /repo/src/sims_pars/fn.py:22-24 (`sel` = everything) and 50-52 (`sel` = the sufficient
nodes).  The whole dictionary sampled so far is passed to `render`. -/
def sampleLoop (sem : Sem N V C O S L) (bn : BN N V C O) (sel : N → Bool) :
    List N → Dict N V → S → Result (Dict N V) × S
  | [], res, s => (.ok res, s)
  | x :: xs, res, s =>
    if sel x && x ∉ res.keys then
      match bn.get x with
      | .error e => (.error e, s)
      | .ok l =>
        match l.render sem res.get? s with
        | (.error e, s') => (.error e, s')
        | (.ok v, s') => sampleLoop sem bn sel xs (res.set x v) s'
    else sampleLoop sem bn sel xs res s

/-- `sample` - /repo/src/sims_pars/fn.py:8-25 (`cond=None` is the empty dictionary). -/
def sample (sem : Sem N V C O S L) (bn : BN N V C O) (cond : Dict N V) (s : S) :
    Result (Dict N V) × S :=
  match bn.exoList with
  | .error e => (.error e, s)
  | .ok exo =>
    if exo.any (· ∉ cond.keys) then (.error .ValueError, s)
    else
      match bn.order with
      | .error e => (.error e, s)
      | .ok od => sampleLoop sem bn (fun _ => true) od cond s

/-- `sample_minimally` - /repo/src/sims_pars/fn.py:28-59: the sinks and the mediators. -/
def sampleMinimally (sem : Sem N V C O S L) (bn : BN N V C O) (included : List N) (cond : Dict N V)
    (s : S) : Result (Dict N V × Dict N V) × S :=
  match bn.dag.sufficientNodes included (some cond.keys) with
  | .error e => (.error e, s)
  | .ok suf =>
    match bn.exoList with
    | .error e => (.error e, s)
    | .ok exo =>
      if (exo.filter (· ∈ suf)).any (· ∉ cond.keys) then (.error .ValueError, s)
      else
        match bn.order with
        | .error e => (.error e, s)
        | .ok od =>
          match sampleLoop sem bn (· ∈ suf) od cond s with
          | (.error e, s') => (.error e, s')
          | (.ok res, s') =>
            (.ok (res.filterItems (fun k _ => k ∈ included), res.filterItems (fun k _ => k ∉ included)), s')

/-- `evaluate_nodes` - /repo/src/sims_pars/fn.py:62-75.  The sum is exact; NaN becomes `-inf`. -/
def evaluateNodes [AddCommMonoid K] (sem : Sem N V C O S (XR K)) (bn : BN N V C O) (pars : Dict N V) :
    Result (XR K) := do
  let lps ← (pars.keys.filter (· ∈ bn.dag.nodes)).mapM (fun k => do
    (← bn.get k).evaluate sem pars.get?)
  let lp := lps.sum
  return if lp.isNan then .ninf else lp

/-- A `Chromosome` object - /repo/src/sims_pars/bayesnet/chromosome.py:8-11. -/
structure Chromosome (N V K : Type) where
  locus : Dict N V
  logProb : XR K
  deriving DecidableEq

namespace Chromosome

/-- `Chromosome(vs, prob)` - /repo/src/sims_pars/bayesnet/chromosome.py:9-11 (the dictionary is copied). -/
def new (vs : Dict N V) (prob : XR K) : Chromosome N V K := ⟨vs, prob⟩

/-- `ch[item]` - /repo/src/sims_pars/bayesnet/chromosome.py:22-23. -/
def get (ch : Chromosome N V K) (x : N) : Result V :=
  match ch.locus.get? x with
  | some v => .ok v
  | none => .error .KeyError

/-- `reset_probability` - /repo/src/sims_pars/bayesnet/chromosome.py:72-73. -/
def reset (ch : Chromosome N V K) : Chromosome N V K := { ch with logProb := .nan }

/-- `ch[key] = value` - /repo/src/sims_pars/bayesnet/chromosome.py:25-27. -/
def set (ch : Chromosome N V K) (x : N) (v : V) : Chromosome N V K :=
  ({ ch with locus := ch.locus.set x v } : Chromosome N V K).reset

/-- `is_evaluated` - /repo/src/sims_pars/bayesnet/chromosome.py:75-76. -/
def isEvaluated (ch : Chromosome N V K) : Bool := !ch.logProb.isNan

/-- `clone` - /repo/src/sims_pars/bayesnet/chromosome.py:68-70.  A value, so no aliasing. -/
def clone (ch : Chromosome N V K) : Chromosome N V K := new ch.locus ch.logProb

/-- The loop of `impulse` - /repo/src/sims_pars/bayesnet/chromosome.py:55-57. -/
def renderLoop (sem : Sem N V C O S L) (bn : BN N V C O) (shocked : List N) :
    List N → Chromosome N V K → S → Chromosome N V K × S × Result Unit
  | [], ch, s => (ch, s, .ok ())
  | x :: xs, ch, s =>
    if x ∈ shocked then
      match bn.get x with
      | .error e => (ch, s, .error e)
      | .ok l =>
        match l.render sem ch.locus.get? s with
        | (.error e, s') => (ch, s', .error e)
        | (.ok v, s') => renderLoop sem bn shocked xs (ch.set x v) s'
    else renderLoop sem bn shocked xs ch s

/-- `impulse(new_locus, bn)` - /repo/src/sims_pars/bayesnet/chromosome.py:35-60.  `isNone` is `v is None`.
Returns the chromosome after the call, the random state and the outcome. -/
def impulse (isNone : V → Bool) (sem : Sem N V C O S L) (bn : BN N V C O) (ch : Chromosome N V K)
    (newLocus : Dict N V) (s : S) : Chromosome N V K × S × Result Unit :=
  let held := newLocus.filterItems (fun k _ => k ∈ ch.locus.keys)
  match (do Digraph.setUnion (← held.keys.mapM bn.dag.descendants) : Result (List N)) with
  | .error e => (ch, s, .error e)
  | .ok des =>
    let nonImp := (held.filterItems (fun _ v => isNone v)).keys
    let imp := held.filterItems (fun _ v => !isNone v)
    let shocked := ((des.filter (· ∉ imp.keys)) ++ nonImp).filter (· ∈ ch.locus.keys)
    let ch1 : Chromosome N V K := { ch with locus := ch.locus.update imp }
    match bn.order with
    | .error e => (ch1, s, .error e)
    | .ok od =>
      match renderLoop sem bn shocked od ch1 s with
      | (ch2, s', .error e) => (ch2, s', .error e)
      | (ch2, s', .ok ()) => (if imp.isEmpty then ch2 else ch2.reset, s', .ok ())

/-- `impulse(new_locus)` without a network - /repo/src/sims_pars/bayesnet/chromosome.py:62-66. -/
def impulsePlain (ch : Chromosome N V K) (newLocus : Dict N V) : Chromosome N V K :=
  let imp := newLocus.filterItems (fun k _ => k ∈ ch.locus.keys)
  let ch1 : Chromosome N V K := { ch with locus := ch.locus.update imp }
  if imp.isEmpty then ch1 else ch1.reset

end Chromosome

/-- `sample_chromosome` - /repo/src/sims_pars/fn.py:78-82. -/
def sampleChromosome [AddCommMonoid K] (sem : Sem N V C O S (XR K)) (bn : BN N V C O) (cond : Dict N V)
    (s : S) : Result (Chromosome N V K) × S :=
  match sample sem bn cond s with
  | (.error e, s') => (.error e, s')
  | (.ok p, s') =>
    match evaluateNodes sem bn p with
    | .error e => (.error e, s')
    | .ok lp => (.ok (Chromosome.new p lp), s')

end Model
