import Verif.Model.Sampling

/-!
# Chromosome objects on a heap (bayesnet/chromosome.py)

`Model.Chromosome` is a value.  Here the `Locus` dictionary of an object is a reference into a heap of dictionaries, so
that two objects could share one.
-/

namespace Model

open Py

variable {N V K : Type} [DecidableEq N]

/-- The dictionaries that have been created, and the chromosome objects: reference of `Locus`, `LogProb`. -/
structure ChromHeap (N V K : Type) where
  dicts : List (Dict N V)
  objs : List (Nat × XR K)

namespace ChromHeap

/-- No object yet. -/
def empty : ChromHeap N V K := ⟨[], []⟩

/-- The dictionary an object refers to. -/
def locus (h : ChromHeap N V K) (i : Nat) : Option (Dict N V) := (h.objs[i]?).bind fun o => h.dicts[o.1]?

/-- `Chromosome(vs, prob)` - /repo/src/sims_pars/bayesnet/chromosome.py:9-11: `dict(vs)` is a new dictionary. -/
def init (h : ChromHeap N V K) (vs : Dict N V) (p : XR K) : ChromHeap N V K :=
  ⟨h.dicts ++ [vs], h.objs ++ [(h.dicts.length, p)]⟩

/-- `ch[key] = value` - /repo/src/sims_pars/bayesnet/chromosome.py:25-27. -/
def set (h : ChromHeap N V K) (i : Nat) (x : N) (v : V) : ChromHeap N V K :=
  match h.objs[i]? with
  | none => h
  | some o =>
    match h.dicts[o.1]? with
    | none => h
    | some d => ⟨h.dicts.set o.1 (d.set x v), h.objs.set i (o.1, .nan)⟩

/-- `clone` - /repo/src/sims_pars/bayesnet/chromosome.py:68-70: the constructor on the dictionary of the object. -/
def clone (h : ChromHeap N V K) (i : Nat) : ChromHeap N V K :=
  match h.objs[i]? with
  | none => h
  | some o =>
    match h.dicts[o.1]? with
    | none => h
    | some d => h.init d o.2

/-- `impulse(new)` without a network - /repo/src/sims_pars/bayesnet/chromosome.py:62-66. -/
def impulse (h : ChromHeap N V K) (i : Nat) (new : Dict N V) : ChromHeap N V K :=
  match h.objs[i]? with
  | none => h
  | some o =>
    match h.dicts[o.1]? with
    | none => h
    | some d =>
      let imp := new.filterItems (fun k _ => k ∈ d.keys)
      ⟨h.dicts.set o.1 (d.update imp), if imp.isEmpty then h.objs else h.objs.set i (o.1, .nan)⟩

/-- `ch[item]` - /repo/src/sims_pars/bayesnet/chromosome.py:22-23. -/
def get (h : ChromHeap N V K) (i : Nat) (x : N) : Result V :=
  match h.locus i with
  | none => .error .IndexError
  | some d => match d.get? x with
    | some v => .ok v
    | none => .error .KeyError

/-- `LogProb` of an object. -/
def prob (h : ChromHeap N V K) (i : Nat) : Option (XR K) := (h.objs[i]?).map Prod.snd

/-- A write through the dictionary that `to_json()` returns -
/repo/src/sims_pars/bayesnet/chromosome.py:87-91: `'Locus': self.Locus` is the dictionary itself, so
`ch.to_json()['Locus'][x] = v` changes the object without going through `__setitem__`. -/
def writeJson (h : ChromHeap N V K) (i : Nat) (x : N) (v : V) : ChromHeap N V K :=
  match h.objs[i]? with
  | none => h
  | some o =>
    match h.dicts[o.1]? with
    | none => h
    | some d => { h with dicts := h.dicts.set o.1 (d.set x v) }

/-- `Chromosome.from_json(ch.to_json())` - /repo/src/sims_pars/bayesnet/chromosome.py:87-91, 99-101. -/
def jsonCopy (h : ChromHeap N V K) (i : Nat) : ChromHeap N V K :=
  match h.objs[i]? with
  | none => h
  | some o =>
    match h.dicts[o.1]? with
    | none => h
    | some d => h.init d o.2

/-- What a program can do to chromosomes. -/
inductive Op (N V K : Type)
  /-- `Chromosome(vs, p)` -/
  | new (vs : Dict N V) (p : XR K)
  /-- `ch_i[x] = v` -/
  | set (i : Nat) (x : N) (v : V)
  /-- `ch_i.clone()` -/
  | clone (i : Nat)
  /-- `Chromosome.from_json(ch_i.to_json())` -/
  | json (i : Nat)
  /-- `ch_i.impulse(new)` -/
  | impulse (i : Nat) (new : Dict N V)

/-- One operation. -/
def step (h : ChromHeap N V K) : Op N V K → ChromHeap N V K
  | .new vs p => h.init vs p
  | .set i x v => h.set i x v
  | .clone i => h.clone i
  | .json i => h.jsonCopy i
  | .impulse i new => h.impulse i new

/-- A history of operations. -/
def run (h : ChromHeap N V K) (ops : List (Op N V K)) : ChromHeap N V K := ops.foldl step h

end ChromHeap

end Model
