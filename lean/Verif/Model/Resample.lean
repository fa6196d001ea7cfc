import Verif.Py.Rand
import Verif.Model.Converter
import Mathlib.Data.List.Basic

/-!
# `resample` (util.py)
-/

namespace Model

open Py

variable {S H P : Type}

/-- `scipy.special.logsumexp` of finite numbers. -/
noncomputable def logsumexp (ws : List ℝ) : ℝ := Real.log (ws.map Real.exp).sum

/-- The finite numbers of a list, `[float(wt) for wt, f in zip(wts, fin) if f]`. -/
def finite : List (XR ℝ) → List ℝ
  | [] => []
  | .fin w :: ws => w :: finite ws
  | _ :: ws => finite ws

/-- `[h for h, f in zip(hs, fin) if f]` - /repo/src/sims_pars/util.py:89, 92. -/
def keepFinite (wts : List (XR ℝ)) (hs : List H) : List H :=
  ((hs.zip wts).filter (fun p => p.2.isFinite)).map Prod.fst

/-- `[hs[i] for i in sel]`. -/
def select (hs : List H) (sel : List Nat) : Result (List H) :=
  sel.mapM (fun i => match hs[i]? with
    | some h => .ok h
    | none => .error .IndexError)

/-- `new_size = max(new_size, 1) if new_size else size` - /repo/src/sims_pars/util.py:78. -/
def newSize (wts : List (XR ℝ)) : Option Int → Nat
  | none => wts.length
  | some n => if n = 0 then wts.length else (max n 1).toNat

/-- `resample(wts, hs, pars, log, new_size)` - /repo/src/sims_pars/util.py:76-107.  The second component of the result
is absent when `pars` is `None` or empty, or has become empty by leaving out the infinite weights (lines 91-92, 104).  Numbers are real, so `np.exp`, `np.log` and `logsumexp` are exact. -/
noncomputable def resample (r : Rand S ℝ) (wts : List (XR ℝ)) (hs : List H) (pars : Option (List P)) (log : Bool)
    (size : Option Int) (s : S) : Result (List H × Option (List P) × XR ℝ) × S :=
  let m := newSize wts size
  let pars := match pars with
    | some [] => none
    | ps => ps
  let ws := finite wts
  if ws.isEmpty then (.ok (hs, pars, -(xlog (.fin 0))), s)
  else
    let hs := keepFinite wts hs
    let pars := pars.map (keepFinite wts)
    let (lse, p) :=
      if log then
        let lse := logsumexp ws;
        (XR.fin lse, ws.map (fun w => XR.fin (Real.exp (w - lse))))
      else
        let tot := ws.sum;
        (xlog (.fin tot), ws.map (fun w => XR.fin w / XR.fin tot))
    match r.choice p m s with
    | (.error e, s') => (.error e, s')
    | (.ok sel, s') =>
      match select hs sel with
      | .error e => (.error e, s')
      | .ok hs' =>
        match pars with
        | none => (.ok (hs', none, lse - xlog (.fin m)), s')
        | some [] => (.ok (hs', none, lse - xlog (.fin m)), s')
        | some (p0 :: ps) =>
          match select (p0 :: ps) sel with
          | .error e => (.error e, s')
          | .ok ps' => (.ok (hs', some ps', lse - xlog (.fin m)), s')

end Model
