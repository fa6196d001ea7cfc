import Verif.Model.FitBase
import Mathlib.Algebra.BigOperators.Group.List.Basic

/-!
# Step sizes and proposals of the sequential Monte Carlo algorithm (fit/abc_smc/alg.py)
-/

namespace Model

open Py

/-- What the algorithm does with the values of parameters: turn them into floats, and add a number. -/
structure NumOps (V K : Type) where
  toNum : V → Result K
  plus : V → K → Result V

namespace Spread

variable {N V C O S K D : Type} [DecidableEq N] [Field K] [LinearOrder K]

/-- `np.average(vs, weights=ws)`: TypeError for lists of different lengths, ZeroDivisionError for weights that sum to
zero. -/
def average (vs ws : List K) : Result K :=
  if vs.length ≠ ws.length then .error .TypeError
  else if ws.sum = 0 then .error .ZeroDivisionError
  else .ok ((List.zipWith (fun v w => v * w) vs ws).sum / ws.sum)

/-- The weighted variance of one parameter - /repo/src/sims_pars/fit/abc_smc/alg.py:271-274. -/
def variance (ops : NumOps V K) (theta : List (Dict N V)) (ws : List K) (k : N) : Result K := do
  let vs ← theta.mapM (fun p => match p.get? k with
    | some v => ops.toNum v
    | none => .error .KeyError)
  let m ← average vs ws
  average (vs.map (fun v => (v - m) ^ 2)) ws

/-- The loop of `calc_weighted_std` - /repo/src/sims_pars/fit/abc_smc/alg.py:268-278, over the names in `Domain`.
`theta` are the values of the particles' chromosomes, the weights are finite (C65). -/
def steps (ops : NumOps V K) (sqrt : K → K) (theta : List (Dict N V)) (ws : List K) : List N → Dict N K →
    Result (Dict N K)
  | [], tau => .ok tau
  | k :: ks, tau => do
    let var ← variance ops theta ws k
    steps ops sqrt theta ws ks (if 0 < var then tau.set k (sqrt var) else tau)

/-- `calc_weighted_std` - /repo/src/sims_pars/fit/abc_smc/alg.py:267-278. -/
def calcWeightedStd (env : FitEnv N V C O S K D) (m : DataModel N V C O K D) (ops : NumOps V K) (sqrt : K → K)
    (theta : List (Dict N V)) (ws : List K) (s : S) : Result (Dict N K) × S :=
  match m.domain env s with
  | (.error e, s') => (.error e, s')
  | (.ok doms, s') => (steps ops sqrt theta ws (doms.map Dom.name) [], s')

/-- `{k: np.random.normal(0, v) for k, v in steps.items()}` - /repo/src/sims_pars/fit/abc_smc/alg.py:65. -/
def sizes (normal : K → S → K × S) : List (N × K) → S → List (N × K) × S
  | [], s => ([], s)
  | (k, v) :: l, s =>
    let (x, s) := normal v s
    let (r, s) := sizes normal l s
    ((k, x) :: r, s)

/-- `mutate` - /repo/src/sims_pars/fit/abc_smc/alg.py:64-66. -/
def mutate (ops : NumOps V K) (normal : K → S → K × S) (p0 : Dict N V) (tau : Dict N K) (s : S) :
    Result (Dict N V) × S :=
  let (zs, s) := sizes normal tau s
  (zs.mapM (fun kz => match p0.get? kz.1 with
    | some v => (ops.plus v kz.2).map (fun v' => (kz.1, v'))
    | none => .error .KeyError), s)

/-- `model.serve(mutate(p0, steps))` - /repo/src/sims_pars/fit/abc_smc/alg.py:74-75. -/
def propose (env : FitEnv N V C O S K D) (m : DataModel N V C O K D) (ops : NumOps V K) (normal : K → S → K × S)
    (p0 : Dict N V) (tau : Dict N K) (s : S) : Result (Chromosome N V K) × S :=
  match mutate ops normal p0 tau s with
  | (.error e, s') => (.error e, s')
  | (.ok p1, s') => m.serve env p1 s'

end Spread

end Model
