import Verif.Model.Prob
import Mathlib.Analysis.SpecialFunctions.Gamma.Basic
import Mathlib.Analysis.SpecialFunctions.Pow.Real

/-!
# The distributions that wrap scipy (prob.py)

scipy is trusted to have the densities and supports that its documentation gives.  At the ends of a support, where a
density may be infinite, the model has some finite number.
-/

namespace Model.Dist

open Py

/-- scipy's continuous families, in their standard form. -/
inductive Family
  | gamma (a : ℝ)
  | expon
  | lognorm (s : ℝ)
  | uniform
  | chi2 (df : ℝ)
  | beta (a b : ℝ)
  | invgamma (a : ℝ)
  | norm

/-- What scipy requires of the shapes. -/
def Family.Valid : Family → Prop
  | gamma a => 0 < a
  | expon => True
  | lognorm s => 0 < s
  | uniform => True
  | chi2 df => 0 < df
  | beta a b => 0 < a ∧ 0 < b
  | invgamma a => 0 < a
  | norm => True

/-- The densities in standard form, as documented in scipy.stats. -/
noncomputable def Family.pdf : Family → ℝ → ℝ
  | gamma a, x => if 0 ≤ x then x ^ (a - 1) * Real.exp (-x) / Real.Gamma a else 0
  | expon, x => if 0 ≤ x then Real.exp (-x) else 0
  | lognorm s, x => if 0 < x then 1 / (s * x * √(2 * Real.pi)) * Real.exp (-(Real.log x) ^ 2 / (2 * s ^ 2)) else 0
  | uniform, x => if 0 ≤ x ∧ x ≤ 1 then 1 else 0
  | chi2 df, x => if 0 ≤ x then
      1 / (2 ^ (df / 2) * Real.Gamma (df / 2)) * x ^ (df / 2 - 1) * Real.exp (-x / 2) else 0
  | beta a b, x => if 0 < x ∧ x < 1 then
      Real.Gamma (a + b) * x ^ (a - 1) * (1 - x) ^ (b - 1) / (Real.Gamma a * Real.Gamma b) else 0
  | invgamma a, x => if 0 < x then x ^ (-a - 1) / Real.Gamma a * Real.exp (-1 / x) else 0
  | norm, x => Real.exp (-x ^ 2 / 2) / √(2 * Real.pi)

/-- The ends of the supports in standard form. -/
def Family.ends : Family → XR ℝ × XR ℝ
  | gamma _ => (.fin 0, .pinf)
  | expon => (.fin 0, .pinf)
  | lognorm _ => (.fin 0, .pinf)
  | uniform => (.fin 0, .fin 1)
  | chi2 _ => (.fin 0, .pinf)
  | beta _ _ => (.fin 0, .fin 1)
  | invgamma _ => (.fin 0, .pinf)
  | norm => (.ninf, .pinf)

/-- A frozen distribution of scipy in an `SpDouble` - /repo/src/sims_pars/prob.py:78-81. -/
structure SpDouble where
  family : Family
  loc : ℝ
  scale : ℝ

/-- The frozen distribution has parameters that scipy accepts. -/
def SpDouble.Valid (d : SpDouble) : Prop := d.family.Valid ∧ 0 < d.scale

/-- scipy's `pdf` of a frozen distribution with parameters that it accepts. -/
noncomputable def SpDouble.pdf (d : SpDouble) (x : ℝ) : ℝ := d.family.pdf ((x - d.loc) / d.scale) / d.scale

open Classical in
/-- `SpDouble.logpdf` - /repo/src/sims_pars/prob.py:96-97: NaN for parameters that scipy does not accept. -/
noncomputable def SpDouble.logpdf (d : SpDouble) (x : ℝ) : XR ℝ := if d.Valid then npLog (d.pdf x) else .nan

/-- An end of the support, moved and stretched. -/
def SpDouble.place (d : SpDouble) : XR ℝ → XR ℝ
  | .fin x => .fin (x * d.scale + d.loc)
  | y => y

open Classical in
/-- `SpDouble.Interval`: scipy's `interval(1)` - /repo/src/sims_pars/prob.py:88-90. -/
noncomputable def SpDouble.interval (d : SpDouble) : XR ℝ × XR ℝ :=
  if d.Valid then (d.place d.family.ends.1, d.place d.family.ends.2) else (.nan, .nan)

/-- A field of a creator with a condition on the values that are given; defaults are not checked. -/
noncomputable def field (ok : ℝ → Prop) [DecidablePred ok] (default : ℝ) (args : Dict String ℝ) (k : String) : Result ℝ :=
  match args.get? k with
  | some v => if ok v then .ok v else .error .ValidationError
  | none => .ok default

/-- The creators of continuous distributions - /repo/src/sims_pars/prob.py:267-347, without the triangle. -/
noncomputable def create (name : String) (args : Dict String ℝ) : Result SpDouble :=
  open Classical in
  match name with
  | "gamma" => do
    let shape ← field (fun v => 0 < v) 1 args "shape"
    let rate ← field (fun v => 0 < v) 1 args "rate"
    return ⟨.gamma shape, 0, 1 / rate⟩
  | "exp" => do
    let rate ← field (fun v => 0 < v) 1 args "rate"
    return ⟨.expon, 0, 1 / rate⟩
  | "lnorm" => do
    let meanlog ← field (fun v => 0 ≤ v) 0 args "meanlog"
    let sdlog ← field (fun v => 0 < v) 1 args "sdlog"
    return ⟨.lognorm (Real.exp sdlog), 0, Real.exp (Real.exp meanlog)⟩
  | "unif" => do
    let min ← field (fun _ => True) 0 args "min"
    let max ← field (fun _ => True) 1 args "max"
    return ⟨.uniform, min, max - min⟩
  | "chisq" => do
    let df ← field (fun v => 0 < v) 1 args "df"
    return ⟨.chi2 df, 0, 1⟩
  | "beta" => do
    let shape1 ← field (fun v => 0 < v) 1 args "shape1"
    let shape2 ← field (fun v => 0 < v) 1 args "shape2"
    return ⟨.beta shape1 shape2, 0, 1⟩
  | "invgamma" => do
    let a ← field (fun v => 2 < v) 2 args "a"
    let rate ← field (fun v => 0 < v) 1 args "rate"
    return ⟨.invgamma a, 0, 1 / rate⟩
  | "norm" => do
    let mean ← field (fun _ => True) 0 args "mean"
    let sd ← field (fun v => 0 < v) 1 args "sd"
    return ⟨.norm, mean, sd⟩
  | _ => .error .KeyError

/-- scipy's discrete distributions in an `SpInteger` - /repo/src/sims_pars/prob.py:106-109. -/
inductive SpInteger
  | binom (n : Nat) (p : ℝ)
  | poisson (mu : ℝ)

/-- scipy's probabilities. -/
noncomputable def SpInteger.pmf : SpInteger → ℤ → ℝ
  | binom n p, k => if 0 ≤ k ∧ k ≤ n then (n.choose k.toNat : ℝ) * p ^ k.toNat * (1 - p) ^ (n - k.toNat) else 0
  | poisson mu, k => if 0 ≤ k then Real.exp (-mu) * mu ^ k.toNat / (k.toNat.factorial : ℝ) else 0

/-- `SpInteger.logpdf` - /repo/src/sims_pars/prob.py:125-126. -/
noncomputable def SpInteger.logpdf (d : SpInteger) (k : ℤ) : XR ℝ := npLog (d.pmf k)

/-- scipy's `interval(1)` of a discrete distribution, from one below the support. -/
def SpInteger.scipyInterval : SpInteger → XR ℝ × XR ℝ
  | binom n _ => (.fin (-1), .fin n)
  | poisson _ => (.fin (-1), .pinf)

/-- `SpInteger.Interval` - /repo/src/sims_pars/prob.py:116-119. -/
noncomputable def SpInteger.interval (d : SpInteger) : XR ℝ × XR ℝ :=
  (d.scipyInterval.1 + .fin 1, d.scipyInterval.2)

/-- `CreBinom.create`, `none` for a field that is not given - /repo/src/sims_pars/prob.py:368-373. -/
noncomputable def createBinom (size : Option ℤ) (prob : Option ℝ) : Result SpInteger :=
  open Classical in
  do
    let n ← (match size with
      | some v => if 0 < v then .ok v.toNat else .error .ValidationError
      | none => .ok 1 : Result Nat)
    let p ← (match prob with
      | some v => if 0 ≤ v ∧ v ≤ 1 then .ok v else .error .ValidationError
      | none => .ok (1 / 2) : Result ℝ)
    return .binom n p

/-- `CrePois.create` - /repo/src/sims_pars/prob.py:379-383. -/
noncomputable def createPois (lam : Option ℝ) : Result SpInteger :=
  open Classical in
  match lam with
  | some v => if 0 < v then .ok (.poisson v) else .error .ValidationError
  | none => .ok (.poisson 1)

end Model.Dist
