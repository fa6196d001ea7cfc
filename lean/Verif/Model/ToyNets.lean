import Verif.Model.Toys
import Verif.Model.Assembled

/-!
# The examples `BetaBin`, `Normal2` and `EpiSIR` as data models (fit/toys.py)

The networks are those that `bayes_net_from_script` makes of the scripts.
-/

namespace Model

open Py

variable {V O S D : Type}

/-- `beta(al, be)`, as `complete_def` leaves it with the names of prob.py:321-322. -/
def betaE {C : Type} : Expr String C O := .call "beta" .nil (Kws.ofList [("shape1", .name "al"), ("shape2", .name "be")])

/-- `binom(n, x)`, as `complete_def` leaves it with the names of prob.py:369-370. -/
def binomE (n : ℝ) (x : String) : Expr String ℝ O := .call "binom" .nil (Kws.ofList [("size", .const n), ("prob", .name x)])

/-- The definitions of the prior - /repo/src/sims_pars/fit/toys.py:14-21. -/
def betaBinDefs : List (Loci String ℝ ℝ O) :=
  [.value "al" 1, .value "be" 1, .dist "p1" betaE ["al", "be"], .dist "p2" betaE ["al", "be"]]

/-- The definitions of the data - /repo/src/sims_pars/fit/toys.py:30-35. -/
def betaBinDataDefs : List (Loci String ℝ ℝ O) :=
  [.dist "x1" (binomE 10 "p1") ["p1"], .dist "x2" (binomE 20 "p2") ["p2"]]

/-- A network of the definitions of a script, completed - /repo/src/sims_pars/bayesnet/bn.py:303-309. -/
def BN.ofDefs (name : String) (ds : List (Loci String ℝ ℝ O)) : BN String ℝ ℝ O :=
  ((ds.foldl (fun (b : BN String ℝ ℝ O) l => (b.appendLoci l).1) (BN.empty name)).complete "f").1

/-- The network of the prior - /repo/src/sims_pars/fit/toys.py:13-22. -/
def betaBinNet : BN String ℝ ℝ O := .ofDefs "BetaBin" betaBinDefs

/-- `self.DataBN` - /repo/src/sims_pars/fit/toys.py:30-35. -/
def betaBinData : BN String ℝ ℝ O := .ofDefs "Data" betaBinDataDefs

/-- `simulate(pars)` - /repo/src/sims_pars/fit/toys.py:37-38: `sample(self.DataBN, pars)`. -/
def betaBinSimulate (sem : Sem String ℝ ℝ O S (XR ℝ)) (ch : Chromosome String ℝ ℝ) (s : S) :
    Result (Dict String (XR ℝ)) × S :=
  match sample sem betaBinData ch.locus s with
  | (.error e, s') => (.error e, s')
  | (.ok r, s') => (.ok (r.map (fun kv => (kv.1, .fin kv.2))), s')

/-- `BetaBin(data)` with the targets read from `data` - /repo/src/sims_pars/fit/toys.py:11-38.  The free parameters are
`p1` and `p2`. -/
def betaBinModel (targets : Dict String (Target String ℝ D)) : DataModel String ℝ ℝ O ℝ D :=
  { data := targets, bn := betaBinNet, exo := [], free := ["p1", "p2"] }

/-- `get_betabin(data)` as a study, with what numpy supplies taken from `tools` - /repo/src/sims_pars/fit/toys.py:41-42. -/
def betaBinStudy (tools : Study String ℝ ℝ O S ℝ D) (targets : Dict String (Target String ℝ D)) :
    Study String ℝ ℝ O S ℝ D :=
  { tools with model := betaBinModel targets, simulate := betaBinSimulate tools.env.sem }

/-! ## `Normal2` -/

/-- `gamma(shape, rate)`, as `complete_def` leaves it with the names of prob.py:267-269. -/
def gammaE (shape rate : ℝ) : Expr String ℝ O :=
  .call "gamma" .nil (Kws.ofList [("shape", .const shape), ("rate", .const rate)])

/-- `norm(0, std)`, as `complete_def` leaves it with the names of prob.py:342-344. -/
def normE : Expr String ℝ O := .call "norm" .nil (Kws.ofList [("mean", .const 0), ("sd", .name "std")])

/-- The definitions of the prior - /repo/src/sims_pars/fit/toys.py:47-53. -/
noncomputable def normal2Defs : List (Loci String ℝ ℝ O) :=
  [.dist "std" (gammaE (1 / 10) (1 / 10)) [], .dist "mu1" normE ["std"], .dist "mu2" normE ["std"]]

/-- The network of the prior - /repo/src/sims_pars/fit/toys.py:47-54. -/
noncomputable def normal2Net : BN String ℝ ℝ O := .ofDefs "Normal2" normal2Defs

/-- `Normal2(data, n)` with the targets made of `data` - /repo/src/sims_pars/fit/toys.py:45-61.  The only random variable
without random parents is `std`. -/
noncomputable def normal2Model (targets : Dict String (Target String ℝ D)) : DataModel String ℝ ℝ O ℝ D :=
  { data := targets, bn := normal2Net, exo := [], free := ["std"] }

/-- `simulate(pars)` - /repo/src/sims_pars/fit/toys.py:63-68; `rvs mu sd n` is `sts.norm(mu, sd).rvs(n)`. -/
noncomputable def normal2Simulate (rvs : ℝ → ℝ → ℕ → S → Result (List ℝ) × S) (n : ℕ) (ch : Chromosome String ℝ ℝ) (s : S) :
    Result (Dict String (XR ℝ)) × S :=
  match ch.locus.get? "mu1", ch.locus.get? "std" with
  | some m1, some sd =>
    match rvs m1 sd n s with
    | (.error e, s1) => (.error e, s1)
    | (.ok xs1, s1) =>
      match ch.locus.get? "mu2" with
      | some m2 =>
        match rvs m2 sd n s1 with
        | (.error e, s2) => (.error e, s2)
        | (.ok xs2, s2) => (.ok (normal2Sims xs1 xs2), s2)
      | none => (.error .KeyError, s1)
  | _, _ => (.error .KeyError, s)

/-- `get_normal2(mu, n)` as a study, with what numpy supplies taken from `tools` - /repo/src/sims_pars/fit/toys.py:45-72. -/
noncomputable def normal2Study (tools : Study String ℝ ℝ O S ℝ D) (rvs : ℝ → ℝ → ℕ → S → Result (List ℝ) × S) (n : ℕ)
    (targets : Dict String (Target String ℝ D)) : Study String ℝ ℝ O S ℝ D :=
  { tools with model := normal2Model targets, simulate := normal2Simulate rvs n }

/-! ## `EpiSIR` -/

/-- `unif(lo, hi)`, as `complete_def` leaves it with the names of prob.py:299-301. -/
def unifE (lo hi : ℝ) : Expr String ℝ O := .call "unif" .nil (Kws.ofList [("min", .const lo), ("max", .const hi)])

/-- The definitions of the prior - /repo/src/sims_pars/fit/toys.py:77-82. -/
noncomputable def sirDefs : List (Loci String ℝ ℝ O) :=
  [.dist "gamma" (unifE (1 / 10) 1) [], .dist "beta" (unifE 1 20) []]

/-- The network of the prior - /repo/src/sims_pars/fit/toys.py:77-83. -/
noncomputable def sirNet : BN String ℝ ℝ O := .ofDefs "SIR" sirDefs

/-- `EpiSIR(be, ga)` with the targets made of the solution - /repo/src/sims_pars/fit/toys.py:75-86. -/
noncomputable def sirModel (targets : Dict String (Target String ℝ D)) : DataModel String ℝ ℝ O ℝ D :=
  { data := targets, bn := sirNet, exo := [], free := ["gamma", "beta"] }

/-- `get_sir(be, ga)` as a study, with what numpy supplies taken from `tools`, and `ivp` answering with the states at the
evaluation times - /repo/src/sims_pars/fit/toys.py:75-119. -/
noncomputable def sirStudy (tools : Study String ℝ ℝ O S ℝ D) (ivp : ℝ → ℝ → List (Sir ℝ))
    (targets : Dict String (Target String ℝ D)) : Study String ℝ ℝ O S ℝ D :=
  { tools with
    model := sirModel targets
    simulate := fun ch s =>
      match ch.locus.get? "beta", ch.locus.get? "gamma" with
      | some be, some ga => (.ok (sirSolve be ga (ivp be ga)), s)
      | _, _ => (.error .KeyError, s) }

end Model
