import Verif.Model.Tables

/-!
# Samples from a data set (data/frame.py)
-/

namespace Model

open Py

section DataSample
variable {A S : Type}

/-- What `AbsDataSet.sample` returns: one value, or a list of values - /repo/src/sims_pars/data/frame.py:15-19. -/
inductive Sampled (A : Type)
  | one (a : A)
  | many (as : List A)
  deriving DecidableEq

/-- `[self(**kwargs) for _ in range(n)]` - /repo/src/sims_pars/data/frame.py:19; `call` is `self(**kwargs)`. -/
def dataCalls (call : S → Result A × S) : Nat → S → Result (List A) × S
  | 0, s => (.ok [], s)
  | n + 1, s =>
    match call s with
    | (.error e, s') => (.error e, s')
    | (.ok a, s') =>
      match dataCalls call n s' with
      | (.error e, s'') => (.error e, s'')
      | (.ok as, s'') => (.ok (a :: as), s'')

/-- `AbsDataSet.sample`, which `ConditionalProbabilityTable` and the time series inherit -
/repo/src/sims_pars/data/frame.py:15-19. -/
def dataSample (call : S → Result A × S) (n : Int) (s : S) : Result (Sampled A) × S :=
  if n = 1 then
    match call s with
    | (.error e, s') => (.error e, s')
    | (.ok a, s') => (.ok (.one a), s')
  else
    match dataCalls call n.toNat s with
    | (.error e, s') => (.error e, s')
    | (.ok as, s') => (.ok (.many as), s')

end DataSample

end Model
