import Verif.Model.Factory
import Verif.Py.XR

/-!
# Loci: the definitions of single variables (bayesnet/loci.py)
-/

namespace Model

open Py

/-- The five kinds of definitions, as constructed objects.  `parents` is the list that iterating
`loci.Parents` yields (a Python set, so any order may occur).
/repo/src/sims_pars/bayesnet/loci.py:51-228. -/
inductive Loci (N V C O : Type)
  | value (name : N) (v : V)
  | exo (name : N)
  | dist (name : N) (func : Expr N C O) (parents : List N)
  | func (name : N) (e : Expr N C O) (parents : List N)
  | pseudo (name : N) (parents : List N)
  deriving DecidableEq

/-- `Loci.to_json()` results - /repo/src/sims_pars/bayesnet/loci.py:46-48, 70-73, 104-105, 147-151, 183-187,
219-223; `other` is any further `Type`. -/
inductive LociJson (N V C O : Type)
  | value (name : N) (d : V)
  | exo (name : N)
  | dist (name : N) (d : Expr N C O) (parents : List N)
  | func (name : N) (d : Expr N C O) (parents : List N)
  | pseudo (name : N) (d : Expr N C O) (parents : List N)
  | other (name : N)
  deriving DecidableEq

variable {N V C O S K : Type}

namespace Loci

/-- `loci.Name`. -/
def name : Loci N V C O → N
  | .value n _ => n
  | .exo n => n
  | .dist n _ _ => n
  | .func n _ _ => n
  | .pseudo n _ => n

/-- `loci.Parents` - /repo/src/sims_pars/bayesnet/loci.py:57, 86, 121, 166, 203. -/
def parents : Loci N V C O → List N
  | .value _ _ => []
  | .exo _ => []
  | .dist _ _ ps => ps
  | .func _ _ ps => ps
  | .pseudo _ ps => ps

/-- `isinstance(loci, DistributionLoci)`. -/
def isDist : Loci N V C O → Bool
  | .dist _ _ _ => true
  | _ => false

/-- `isinstance(loci, ExoValueLoci)`. -/
def isExo : Loci N V C O → Bool
  | .exo _ => true
  | _ => false

/-- `isinstance(loci, PseudoLoci)`. -/
def isPseudo : Loci N V C O → Bool
  | .pseudo _ _ => true
  | _ => false

/-- `isinstance(loci, ValueLoci)`. -/
def isValue : Loci N V C O → Bool
  | .value _ _ => true
  | _ => false

/-- `to_json` - the lines cited at `LociJson`.  The `Def` of a pseudo node is `f(p1, ..)`; `f` is the
identifier "f". -/
def toJson (f : N) : Loci N V C O → LociJson N V C O
  | .value n v => .value n v
  | .exo n => .exo n
  | .dist n e ps => .dist n e ps
  | .func n e ps => .func n e ps
  | .pseudo n ps => .pseudo n (.call f (Args.ofList (ps.map .name)) .nil) ps

end Loci

variable [DecidableEq N]

section Construct
variable {L : Type}

/-- `ValueLoci.__init__` on source text: `eval(val, MATH_FUNC)` - /repo/src/sims_pars/bayesnet/loci.py:52-54. -/
def mkValue (sem : Sem N V C O S L) (n : N) (e : Expr N C O) : Result (Loci N V C O) := do
  return .value n (← e.eval sem sem.math (fun _ => none))

/-- `FunctionLoci.__init__` - /repo/src/sims_pars/bayesnet/loci.py:160-163 (an empty `pas` counts as absent). -/
def mkFunc (n : N) (e : Expr N C O) (pas : List N) : Loci N V C O :=
  .func n e (if pas.isEmpty then (parseParents e).1 else pas)

/-- `DistributionLoci.__init__` - /repo/src/sims_pars/bayesnet/loci.py:114-118. -/
def mkDist (sem : Sem N V C O S L) (n : N) (e : Expr N C O) (pas : List N) :
    Result (Loci N V C O) := do
  let f ← completeDef sem e
  if pas.isEmpty then
    return .dist n f (← parsedParents (parseFunction e.parsed).2)
  else return .dist n f pas

/-- `PseudoLoci.__init__` - /repo/src/sims_pars/bayesnet/loci.py:196-200. -/
def mkPseudo (n : N) (e : Expr N C O) (pas : List N) : Result (Loci N V C O) :=
  if pas.isEmpty then do
    return .pseudo n (← parsedParents (parseFunction e.parsed).2)
  else .ok (.pseudo n pas)

/-- `loci_from_json` - /repo/src/sims_pars/bayesnet/loci.py:231-244. -/
def lociFromJson (sem : Sem N V C O S L) : LociJson N V C O → Result (Loci N V C O)
  | .value n v => do return .value n (← sem.reload v)
  | .exo n => .ok (.exo n)
  | .func n e ps => .ok (mkFunc n e ps)
  | .dist n e ps => mkDist sem n e ps
  | .pseudo n e ps => mkPseudo n e ps
  | .other _ => .error .AttributeError

/-- `DistributionLoci.get_distribution` - /repo/src/sims_pars/bayesnet/loci.py:128-132.  In the handler
`self.Func` is a string, so `self.Func.Function` is an AttributeError. -/
def getDistribution (sem : Sem N V C O S L) (func : Expr N C O) (pas : N → Option V) :
    Result (Dist V S L) :=
  match parseDistribution sem func pas with
  | .error .KeyError => .error .AttributeError
  | r => r

/-- `FunctionLoci.render` - /repo/src/sims_pars/bayesnet/loci.py:173-178.  Only the parents are passed as
locals; a missing parent, or a NameError / KeyError of the evaluation, becomes KeyError. -/
def renderFunc (sem : Sem N V C O S L) (e : Expr N C O) (ps : List N) (pas : N → Option V) :
    Result V :=
  if ps.all (fun p => (pas p).isSome) then
    match e.eval sem sem.math (fun x => if x ∈ ps then pas x else none) with
    | .error .NameError => .error .KeyError
    | r => r
  else .error .KeyError

/-- `render(pas)` of each kind - /repo/src/sims_pars/bayesnet/loci.py:64, 93-99, 134-135, 173-178, 210-211.
`pas` is the mapping passed; the random state is threaded. -/
def Loci.render (sem : Sem N V C O S L) (l : Loci N V C O) (pas : N → Option V) (s : S) :
    Result V × S :=
  match l with
  | .value _ v => (.ok v, s)
  | .exo n => match pas n with
    | some v => (.ok v, s)
    | none => (.error .KeyError, s)
  | .dist _ f _ => match getDistribution sem f pas with
    | .ok d => d.sample s
    | .error e => (.error e, s)
  | .func _ e ps => (renderFunc sem e ps pas, s)
  | .pseudo _ _ => (.error .AttributeError, s)

end Construct

/-- `evaluate(pas)` of each kind - /repo/src/sims_pars/bayesnet/loci.py:67, 101, 140-145, 180, 213-214.
Log densities are extended numbers. -/
def Loci.evaluate [Zero K] (sem : Sem N V C O S (XR K)) (l : Loci N V C O) (pas : N → Option V) :
    Result (XR K) :=
  match l with
  | .value _ _ => .ok 0
  | .exo _ => .ok 0
  | .func _ _ _ => .ok 0
  | .pseudo _ _ => .error .AttributeError
  | .dist n f _ =>
    let r := do
      let d ← getDistribution sem f pas
      match pas n with
      | none => .error .KeyError
      | some v => d.logpdf v
    match r with
    | .error .ValidationError => .ok .ninf
    | r => r

end Model
