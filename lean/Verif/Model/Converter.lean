import Verif.Py.XRField
import Verif.Model.Prob
import Mathlib.Analysis.SpecialFunctions.Log.Basic

/-!
# Converters between the unit interval and the domain of a parameter (fit/converter.py)

Numbers are real numbers with the two infinities and NaN (`XR ℝ`), so `np.exp` and `np.log` are exact.
-/

namespace Model

open Py

/-- A `Domain` object - /repo/src/sims_pars/fit/base.py:14-19.  `Type` plays no role in the fitting code. -/
structure Dom (N K : Type) where
  name : N
  lower : XR K
  upper : XR K
  loc : XR K
  scale : XR K
  deriving DecidableEq

/-- `np.log` of a float. -/
noncomputable def xlog : XR ℝ → XR ℝ
  | .fin x => npLog x
  | .pinf => .pinf
  | .ninf => .nan
  | .nan => .nan

/-- `np.exp` of a float. -/
noncomputable def xexp : XR ℝ → XR ℝ
  | .fin x => .fin (Real.exp x)
  | .pinf => .pinf
  | .ninf => .fin 0
  | .nan => .nan

/-- The four converter classes with their attributes - /repo/src/sims_pars/fit/converter.py:18-21, 35-38, 54-57,
73-76. -/
inductive Converter
  | FF (lower upper : XR ℝ)
  | FI (lower scale : XR ℝ)
  | IF (upper scale : XR ℝ)
  | II (scale loc : XR ℝ)

namespace Converter

/-- `uniform2value` - /repo/src/sims_pars/fit/converter.py:23-24 (FF), 40-43 (FI), 59-62 (IF), 78-84 (II). -/
noncomputable def uniform2value : Converter → XR ℝ → XR ℝ
  | .FF lower upper, u => u * (upper - lower) + lower
  | .FI lower scale, u =>
    if XR.le (.fin 1) u then .pinf
    else -(xlog (.fin 1 - u)) * scale + lower
  | .IF upper scale, u =>
    if XR.le u (.fin 0) then .ninf
    else xlog u * scale + upper
  | .II scale loc, u =>
    if XR.le (.fin 1) u then .pinf
    else if XR.le u (.fin 0) then .ninf
    else
      let w := u - .fin (1 / 2);
      -(XR.sign w) * xlog (.fin 1 - .fin 2 * XR.abs w) * scale + loc

/-- `value2uniform` - /repo/src/sims_pars/fit/converter.py:26-27 (FF), 45-46 (FI), 64-65 (IF), 86-91 (II). -/
noncomputable def value2uniform : Converter → XR ℝ → XR ℝ
  | .FF lower upper, v => (v - lower) / (upper - lower)
  | .FI lower scale, v => .fin 1 - xexp ((lower - v) / scale)
  | .IF upper scale, v => xexp ((v - upper) / scale)
  | .II scale loc, v =>
    let w := v - loc
    if XR.lt (.fin 0) w then .fin 1 - xexp (-w / scale) / .fin 2
    else xexp (w / scale) / .fin 2

end Converter

/-- `get_converter` - /repo/src/sims_pars/fit/converter.py:99-110. -/
def getConverter {N : Type} (dom : Dom N ℝ) : Converter :=
  if dom.lower.isInf then
    if dom.upper.isInf then .II dom.scale dom.loc
    else .IF dom.upper dom.scale
  else
    if dom.upper.isInf then .FI dom.lower dom.scale
    else .FF dom.lower dom.upper

end Model
