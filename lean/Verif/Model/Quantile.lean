import Verif.Py.XRField
import Verif.Py.Err
import Mathlib.Data.List.Sort
import Mathlib.Algebra.Order.Floor.Ring
import Mathlib.Algebra.Order.Floor.Semiring

/-!
# `np.quantile`

The default (linear) method of numpy, used by the fitting algorithms
(/repo/src/sims_pars/fit/abcom/alg.py:78, /repo/src/sims_pars/fit/abc_smc/alg.py:166,
/repo/src/sims_pars/fit/hme/alg.py:159).
-/

namespace Model

open Py

variable {K : Type} [Field K] [LinearOrder K] [FloorSemiring K]

/-- numpy's interpolation between two neighbours: from the right for weights of at least one half. -/
def lerp (a b g : XR K) : XR K :=
  if XR.le (.fin (1 / 2)) g then b - (b - a) * (.fin 1 - g) else a + (b - a) * g

/-- `np.quantile(ds, q)` of a one-dimensional array: `ValueError` unless `0 <= q <= 1`, `IndexError` for an
empty array, NaN as soon as one entry is NaN, otherwise the interpolated order statistic. -/
def quantile (ds : List (XR K)) (q : XR K) : Result (XR K) :=
  if !(XR.le (.fin 0) q && XR.le q (.fin 1)) then .error .ValueError
  else if ds.isEmpty then .error .IndexError
  else if ds.any XR.isNan then .ok .nan
  else
    match q with
    | .fin q =>
      let s := ds.insertionSort (fun x y => XR.le x y = true)
      let vi := q * ((s.length : K) - 1)
      if (s.length : K) - 1 ≤ vi then .ok (s.getD (s.length - 1) .nan)
      else
        let i := ⌊vi⌋₊
        .ok (lerp (s.getD i .nan) (s.getD (i + 1) .nan) (.fin (vi - i)))
    | _ => .ok .nan

end Model
