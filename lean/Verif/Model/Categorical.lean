import Verif.Model.Tables
import Verif.Model.Hazard
import Verif.Model.Resample

/-!
# Categories drawn together, and the density of counts (prob.py)
-/

namespace Model

open Py

variable {N S : Type} [DecidableEq N]

/-- `CategoricalRV.sample(n)` - /repo/src/sims_pars/prob.py:209-214: all categories are drawn in one call; one is returned
bare, another number of them as an array. -/
noncomputable def catSamples (r : Rand S ℝ) (kv : Dict N (XR ℝ)) (n : Nat) (s : S) : Result (Drawn N) × S :=
  match r.choice (catProbs kv) n s with
  | (.error e, s') => (.error e, s')
  | (.ok is, s') =>
    match select (kv.map Prod.fst) is with
    | .error e => (.error e, s')
    | .ok ks =>
      if n = 1 then
        match ks with
        | k :: _ => (.ok (.one k), s')
        | [] => (.error .IndexError, s')
      else (.ok (.many ks), s')

/-- `x*np.log(self.kv[k])` - /repo/src/sims_pars/prob.py:205. -/
noncomputable def Cat.countTerm (kv : Dict N ℝ) (kx : N × ℝ) : Result (XR ℝ) :=
  match kv.get? kx.1 with
  | none => .error .KeyError
  | some w => .ok (XR.fin kx.2 * npLog w)

/-- `CategoricalRV.logpdf` of a dictionary of counts - /repo/src/sims_pars/prob.py:203-205: the sum of the counts times the
logarithms of the weights; an unknown category is a KeyError.  (numpy adds in another order, which makes no difference to
exact numbers.) -/
noncomputable def Cat.logpdfCounts (kv : Dict N ℝ) (v : Dict N ℝ) : Result (XR ℝ) := do
  let ls ← v.mapM (Cat.countTerm kv)
  return ls.sum

end Model
