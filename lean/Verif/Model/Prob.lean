import Mathlib.Analysis.SpecialFunctions.Log.Basic
import Mathlib.Data.List.Sort
import Verif.Model.Sampling

/-!
# The distributions whose code is in prob.py itself

Constants, categories and the parameters handed to `scipy.stats.triang`.  The distributions that only wrap
`scipy.stats` objects are opaque (`Dist` in `Model.Expr`); floating point rounding is not modelled.
-/

namespace Model

open Py

namespace Const

variable {V K : Type} [DecidableEq V] [Zero K]

/-- `Const.logpdf` - /repo/src/sims_pars/prob.py:165-166. -/
def logpdf (k v : V) : XR K := if v = k then 0 else .pinf

/-- `Const.sample(1)` - /repo/src/sims_pars/prob.py:160-163: no random number is used. -/
def sample {S : Type} (k : V) (s : S) : Result V × S := (.ok k, s)

/-- The distribution object. -/
def dist {S : Type} (k : V) : Dist V S (XR K) := ⟨sample k, fun v => .ok (logpdf k v)⟩

end Const

/-- `np.log` on the reals: `-inf` at 0, NaN below. -/
noncomputable def npLog (x : ℝ) : XR ℝ :=
  if 0 < x then .fin (Real.log x) else if x = 0 then .ninf else .nan

namespace Cat

variable {N : Type} [DecidableEq N]

/-- `kv.values().sum()`. -/
noncomputable def total (kv : Dict N ℝ) : ℝ := (kv.map Prod.snd).sum

/-- The probability `self.p` of a category - /repo/src/sims_pars/prob.py:187-189. -/
noncomputable def prob (kv : Dict N ℝ) (c : N) : Option ℝ := (kv.get? c).map (· / total kv)

/-- `CategoricalRV.logpdf` of one category - /repo/src/sims_pars/prob.py:206-207. -/
noncomputable def logpdf (kv : Dict N ℝ) (c : N) : Result (XR ℝ) :=
  match kv.get? c with
  | none => .error .KeyError
  | some w => .ok (npLog w)

end Cat

/-- `loc`, `scale` and `c` handed to `sts.triang` by `CreTriangle.create` - /repo/src/sims_pars/prob.py:358-362. -/
def triangle {K : Type} [Field K] [LinearOrder K] (a m b : K) : Result (K × K × K) :=
  match [a, m, b].insertionSort (· ≤ ·) with
  | [lo, mid, hi] =>
    if hi - lo = 0 then .error .ZeroDivisionError
    else .ok (lo, hi - lo, (mid - lo) / (hi - lo))
  | _ => .error .ValueError

/-- scipy's density of `triang` in standard form: on the unit interval, with the peak at `c`. -/
noncomputable def triangPdf (c x : ℝ) : ℝ :=
  if 0 ≤ x ∧ x ≤ 1 then
    if x < c then 2 * x / c
    else if c = 1 then 2 * x
    else 2 * (1 - x) / (1 - c)
  else 0

/-- The density of what `CreTriangle.create` returns - /repo/src/sims_pars/prob.py:362. -/
noncomputable def trianglePdf (p : ℝ × ℝ × ℝ) (x : ℝ) : ℝ := triangPdf p.2.2 ((x - p.1) / p.2.1) / p.2.1

end Model
