import Verif.Py.Rand
import Mathlib.Algebra.Order.Field.Basic
import Mathlib.Data.List.Sort

/-!
# Empirical distributions (prob.py)

Numbers are elements of an ordered field.  Weights whose sum is zero, for which numpy has NaN, are not modelled: the
field has zero for a division by zero, and the theorems assume a positive sum.
-/

namespace Model

open Py

variable {K : Type} [Field K] [LinearOrder K]

/-- `y.cumsum()`. -/
def cumsum : K → List K → List K
  | _, [] => []
  | acc, y :: ys => (acc + y) :: cumsum (acc + y) ys

/-- `np.interp` between points in order, for a `t` that is not below the first and not above the last: the value of the
last point that is not beyond `t` when it is at `t`, and otherwise the line to the next. -/
def interpFrom (t : K) : K × K → List (K × K) → K
  | p, [] => p.2
  | p, q :: rest =>
    if q.1 ≤ t then interpFrom t q rest
    else if p.1 = t then p.2
    else (q.2 - p.2) / (q.1 - p.1) * (t - p.1) + p.2

/-- `interp1d(x, y, bounds_error=False, fill_value=(lo, hi))(t)`: scipy sorts the points, which are not none. -/
def linear1d (pts : List (K × K)) (lo hi t : K) : K :=
  match pts.insertionSort (fun a b => a.1 ≤ b.1) with
  | [] => lo
  | p :: rest =>
    if t < p.1 then lo
    else if ((p :: rest).getLast (by simp)).1 < t then hi
    else interpFrom t p rest

/-- `EmpiricalRV`: the arrays `X` and `Y`, and the ends of `Interval` - /repo/src/sims_pars/prob.py:223-235. -/
structure Empirical (K : Type) where
  xs : List K
  ys : List K
  lo : K
  hi : K

namespace Empirical

/-- `EmpiricalRV.__init__` - /repo/src/sims_pars/prob.py:224-231: `min` of nothing and arrays of different lengths raise
ValueError. -/
def new (xs ys : List K) : Result (Empirical K) :=
  match xs.min?, xs.max? with
  | some lo, some hi => if xs.length = ys.length then .ok ⟨xs, ys, lo, hi⟩ else .error .ValueError
  | _, _ => .error .ValueError

/-- `self.Fn` - /repo/src/sims_pars/prob.py:230. -/
def fn (e : Empirical K) (t : K) : K :=
  linear1d (((cumsum 0 e.ys).map (· / e.ys.sum)).zip e.xs) e.lo e.hi t

/-- `logpdf` - /repo/src/sims_pars/prob.py:231, 241-242. -/
def logpdf (e : Empirical K) (v : K) : K := linear1d (e.xs.zip e.ys) 0 0 v

/-- `sample` - /repo/src/sims_pars/prob.py:244-245: an array also for one draw; `us` are the numbers of `rd.random(n)`. -/
def sample (e : Empirical K) (us : List K) : List K := us.map e.fn

/-- `mean` - /repo/src/sims_pars/prob.py:247-248. -/
def mean (e : Empirical K) : K := (e.xs.map (fun x => x * e.fn x)).sum / e.xs.length

/-- `std` - /repo/src/sims_pars/prob.py:250-251. -/
def std (e : Empirical K) : K := (e.xs.map (fun x => x * x * e.fn x)).sum / e.xs.length

end Empirical

end Model
