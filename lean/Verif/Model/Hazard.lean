import Mathlib.Analysis.SpecialFunctions.Pow.Real
import Mathlib.Analysis.SpecialFunctions.Gamma.Basic
import Verif.Model.Prob

/-!
# Hazards and times to event (data/reg/hazard.py)

The package `data` imports its own modules under the old name `epidag`; its code is modelled as it stands.  Parameters
that are divided by are taken to be non-zero, and a power of a negative number (a complex number in Python) does not
occur for positive parameters and times.  `EmpiricalHazard` (lines 66-83) cannot be made (`Model/Samplers.lean`).
-/

namespace Model

open Py

/-- A baseline hazard - /repo/src/sims_pars/data/reg/hazard.py:31-33, 48-51. -/
inductive Hazard
  | exp (rate : ℝ)
  | weibull (lam k : ℝ)

namespace Hazard

/-- `cum_hazard` - /repo/src/sims_pars/data/reg/hazard.py:35-36, 53-54. -/
noncomputable def cumHazard : Hazard → ℝ → ℝ
  | exp rate, t => t * rate
  | weibull lam k, t => (lam * t) ^ k

/-- `inv_cum_hazard` - /repo/src/sims_pars/data/reg/hazard.py:38-39, 56-57. -/
noncomputable def invCumHazard : Hazard → ℝ → ℝ
  | exp rate, h => h / rate
  | weibull lam k, h => h ^ (1 / k) / lam

/-- `mean` - /repo/src/sims_pars/data/reg/hazard.py:41-42, 59-60. -/
noncomputable def mean : Hazard → ℝ
  | exp rate => 1 / rate
  | weibull lam k => Real.Gamma (1 + 1 / k) * lam

/-- `std` - /repo/src/sims_pars/data/reg/hazard.py:44-45, 62-63. -/
noncomputable def std : Hazard → ℝ
  | exp rate => 1 / rate
  | weibull lam k => Real.sqrt (Real.Gamma (1 + 2 / k) - Real.Gamma (1 + 1 / k) ^ 2) * lam

end Hazard

/-- What `sample(n)` returns: a bare number for `n <= 1`, a list otherwise. -/
inductive Drawn (A : Type)
  | one (x : A)
  | many (xs : List A)

/-- `HazardDistribution` - /repo/src/sims_pars/data/reg/hazard.py:86-90. -/
structure HazardDist where
  haz : Hazard
  rr : ℝ

namespace HazardDist

/-- `sample` - /repo/src/sims_pars/data/reg/hazard.py:100-105.  `es` are the `n` numbers that
`rd.exponential(1/self.RiskRatio, n)` draws. -/
noncomputable def sample (d : HazardDist) (n : Nat) (es : List ℝ) : Result (Drawn ℝ) :=
  if n ≤ 1 then
    match es with
    | [] => .error .IndexError
    | e :: _ => .ok (.one (d.haz.invCumHazard e))
  else .ok (.many (es.map d.haz.invCumHazard))

/-- `logpdf` - /repo/src/sims_pars/data/reg/hazard.py:107-110; `expm1(x)` is `exp(x) - 1`. -/
noncomputable def logpdf (d : HazardDist) (v : ℝ) : XR ℝ :=
  let s1 := Real.exp (-d.haz.cumHazard v) - 1
  let s2 := Real.exp (-d.haz.cumHazard (v - 1 / 100000)) - 1
  npLog ((s1 - s2) / (1 / 100000))

/-- `mean` - /repo/src/sims_pars/data/reg/hazard.py:112-113. -/
noncomputable def mean (d : HazardDist) : ℝ := 1 / d.haz.mean / d.rr

/-- `std` - /repo/src/sims_pars/data/reg/hazard.py:115-116. -/
noncomputable def std (d : HazardDist) : ℝ := (d.rr ^ 2)⁻¹ / d.haz.std

end HazardDist

/-- `ZeroInflatedHazardDistribution` - /repo/src/sims_pars/data/reg/hazard.py:119-122. -/
structure ZeroHazardDist where
  prob : ℝ
  dist : HazardDist

namespace ZeroHazardDist

/-- `logpdf` - /repo/src/sims_pars/data/reg/hazard.py:124-128. -/
noncomputable def logpdf (d : ZeroHazardDist) (v : ℝ) : XR ℝ :=
  if v ≤ 0 then npLog d.prob else npLog (1 - d.prob) + d.dist.logpdf v

/-- `sample` - /repo/src/sims_pars/data/reg/hazard.py:130-138.  `us` are the `n` numbers of `rd.random(n)`, `es` those
of the exponential draws made after them.  The array has the values of the times, those with `ps > 0` set to zero. -/
noncomputable def sample (d : ZeroHazardDist) (n : Nat) (us es : List ℝ) : Result (Drawn ℝ) := do
  let ps := us.map (fun u => decide (u < d.prob))
  match ← d.dist.sample n es with
  | .one t =>
    match ps with
    | [] => .error .IndexError
    | p :: _ => return .one (if p then 0 else t)
  | .many ts => return .many (List.zipWith (fun p t => if p then 0 else t) ps ts)

/-- `mean` - /repo/src/sims_pars/data/reg/hazard.py:140-141. -/
noncomputable def mean (d : ZeroHazardDist) : ℝ := d.dist.mean * (1 - d.prob)

end ZeroHazardDist

end Model
