import Verif.Model.Parsed
import Verif.Model.Script
import Verif.Model.Ga

/-!
# The operators of the genetic algorithm by name (fit/ga/cross.py, mutate.py, select.py)

`get_crossover`, `get_mutator` and `get_selector` complete the text to a call and let a workshop (`Atelier`) make the operator.
-/

namespace Model

open Py

variable {V C O S L : Type}

/-- The objects made by the creators - /repo/src/sims_pars/fit/ga/cross.py:50-63, /repo/src/sims_pars/fit/ga/mutate.py:63-68,
/repo/src/sims_pars/fit/ga/select.py:69-84. -/
inductive Operator
  | average
  | shuffle
  | rw
  | tour (k : Nat)
  | importance
  deriving DecidableEq

/-- The names registered with the three workshops - the `register` calls in the lines cited at `Operator`. -/
inductive Centre
  | crossover
  | mutator
  | selector

/-- `Creators.keys()` of a workshop. -/
def Centre.names : Centre → List String
  | .crossover => ["average", "shuffle"]
  | .mutator => ["rw"]
  | .selector => ["tour", "importance"]

/-- Values met when such a text is evaluated: ordinary ones, the registered creators, and the blueprints they make. -/
inductive OpVal (V : Type)
  | plain (v : V)
  | creator (f : String)
  | blueprint (o : Operator)

/-- What an ordinary operator or function sees of an outcome: creators and blueprints are no operands. -/
def OpVal.plainly : Result (OpVal V) → Result V
  | .error e => .error e
  | .ok (.plain v) => .ok v
  | .ok _ => .error .TypeError

/-- Calling a creator, a pydantic model: keyword arguments only, unknown ones are ignored, `K` of `tour` is validated by
`positive` (pydantic's `PositiveInt`) and is 3 when it is not given - /repo/src/sims_pars/fit/ga/select.py:69-73. -/
def callCreator (positive : OpVal V → Result Nat) (f : String) (vs : List (OpVal V)) (kvs : List (String × OpVal V)) :
    Result (OpVal V) :=
  if vs ≠ [] then .error .TypeError
  else if f = "average" then .ok (.blueprint .average)
  else if f = "shuffle" then .ok (.blueprint .shuffle)
  else if f = "rw" then .ok (.blueprint .rw)
  else if f = "importance" then .ok (.blueprint .importance)
  else
    match kvs.lookup "K" with
    | none => .ok (.blueprint (.tour 3))
    | some v => do return .blueprint (.tour (← positive v))

/-- The environment of a workshop over the environment of ordinary values; `three` is the default of `K`. -/
def workshop (base : Sem String V C O S L) (positive : OpVal V → Result Nat) (three : C) (centre : Centre) :
    Sem String (OpVal V) C O S L where
  const := fun c => .plain (base.const c)
  op := fun o rs => (base.op o (rs.map OpVal.plainly)).map .plain
  call := fun v as ks =>
    match v with
    | .creator f => strictly (callCreator positive f) as ks
    | .plain g => (base.call g (as.map OpVal.plainly) (ks.map (fun k => (k.1, OpVal.plainly k.2)))).map .plain
    | .blueprint _ => .error .TypeError
  math := fun x => (base.math x).map .plain
  creators := fun x => if x ∈ centre.names then some (.creator x) else (base.creators x).map .plain
  create := fun _ => .error .AttributeError
  schema := fun f => if f ∈ centre.names then some (if f = "tour" then [("K", some three)] else []) else none
  reparse := base.reparse
  reload := .ok

/-- `get_crossover(seq)`, `get_mutator(seq)`, `get_selector(seq)` - /repo/src/sims_pars/fit/ga/cross.py:44-47,
/repo/src/sims_pars/fit/ga/mutate.py:57-60, /repo/src/sims_pars/fit/ga/select.py:63-66,
/repo/src/sims_pars/factory/craftstation.py:58-65.  `parse` is `ast.parse`; what is no blueprint has no `create`. -/
def getOperator (base : Sem String V C O S L) (positive : OpVal V → Result Nat) (three : C) (parse : Text → Result (Expr String C O))
    (centre : Centre) (seq : Text) : Result Operator := do
  let seq := if seq.getLast? = some ')' then seq else seq ++ ['(', ')']
  match ← getBlueprint (workshop base positive three centre) (← parse seq) (fun _ => none) with
  | .blueprint o => return o
  | _ => .error .AttributeError

end Model
