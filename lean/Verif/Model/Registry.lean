import Verif.Py.Err
import Verif.Py.Dict

/-!
# Workshops and their registry (factory/__init__.py, factory/craftstation.py)

`complete_def` is in `Model.Factory`.
-/

namespace Model

open Py

/-- The global `AtelierDict` - /repo/src/sims_pars/factory/__init__.py:6 - and the `Atelier` objects made so far.  An
object is its position in `heap`; its state is the dictionary `Creators`. -/
structure Registry (N Cr : Type) where
  names : Dict N Nat
  heap : List (Dict N Cr)

namespace Registry

variable {N Cr : Type} [DecidableEq N]

/-- No workshop yet. -/
def init : Registry N Cr := ⟨[], []⟩

/-- `get_atelier` - /repo/src/sims_pars/factory/__init__.py:9-17, `Atelier.__init__`
- /repo/src/sims_pars/factory/craftstation.py:16-17. -/
def getAtelier (r : Registry N Cr) (n : N) : Registry N Cr × Nat :=
  match r.names.get? n with
  | some i => (r, i)
  | none => (⟨r.names.set n r.heap.length, r.heap ++ [[]]⟩, r.heap.length)

/-- `Atelier.register` - /repo/src/sims_pars/factory/craftstation.py:19-20. -/
def register (r : Registry N Cr) (i : Nat) (k : N) (c : Cr) : Registry N Cr :=
  { r with heap := r.heap.modify i (fun d => d.set k c) }

/-- The call of `eval` in `get_blueprint` - /repo/src/sims_pars/factory/craftstation.py:58-61: Python puts
`__builtins__` into a dictionary of globals that lacks it. -/
def evaluate (builtins : N) (b : Cr) (r : Registry N Cr) (i : Nat) : Registry N Cr :=
  { r with heap := r.heap.modify i (fun d => if builtins ∈ d.keys then d else d.set builtins b) }

/-- `Creators[k]`. -/
def creator (r : Registry N Cr) (i : Nat) (k : N) : Option Cr := (r.heap[i]?).bind (fun d => d.get? k)

/-- `list()` - /repo/src/sims_pars/factory/craftstation.py:85-86. -/
def list (r : Registry N Cr) (i : Nat) : Option (List N) := (r.heap[i]?).map (fun d => d.keys)

end Registry

end Model
