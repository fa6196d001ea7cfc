import Verif.Model.Sampling

/-!
# The remaining questions that a network answers (bayesnet/bn.py)

Membership, kinds of nodes, and the table of user-defined functions.
-/

namespace Model

open Py

variable {N V C O S L : Type} [DecidableEq N]

namespace BN

/-- `item in bn` - /repo/src/sims_pars/bayesnet/bn.py:213-214. -/
def contains (bn : BN N V C O) (x : N) : Bool := decide (x ∈ bn.dag.nodes)

/-- `needs_calculation(node)` - /repo/src/sims_pars/bayesnet/bn.py:175-176. -/
def needsCalculation (bn : BN N V C O) (x : N) : Result Bool := do
  if (← bn.get x).isDist then return true
  else match ← bn.get x with
    | .func _ _ _ => return true
    | _ => return false

/-- `add_user_defined_func(fn_name, fn)` - /repo/src/sims_pars/bayesnet/bn.py:109-111; only the name is kept.  The table
is not frozen with the graph. -/
def addUserFunc (bn : BN N V C O) (fn : N) : BN N V C O × Result Unit :=
  if fn ∈ bn.udf then (bn, .error .AssertionError) else ({ bn with udf := bn.udf ++ [fn] }, .ok ())

end BN

end Model
