import Verif.Py.Rand
import Verif.Py.Dict
import Verif.Model.Resample

/-!
# The genetic algorithm (fit/ga)

The package is written against the older objectives in `sims_pars/fitting` and against chromosomes with the attributes
`LogPrior`, `LogLikelihood` and `LogPosterior`, which the chromosomes of this commit do not have; so the individuals
are of an arbitrary type `P` here, with what the package asks of them in the environment.  The serial branches are
modelled; the parallel ones do the same through JSON and back.  Reports to the monitor are left out.
-/

namespace Model

open Py

/-- A domain: name, lower and upper end - /repo/src/sims_pars/fitting/base.py:11. -/
structure GaDom (N K : Type) where
  name : N
  lower : XR K
  upper : XR K
  deriving DecidableEq

/-- What the algorithm asks of the objective, of the individuals and of numpy. -/
structure GaEnv (S N K P : Type) where
  /-- `obj.Domain`, which makes a draw from the prior - /repo/src/sims_pars/fitting/base.py:80-87 -/
  domain : S → Result (List (GaDom N K)) × S
  /-- `p[name]` -/
  get : P → N → Option (XR K)
  /-- `draw(obj)` - /repo/src/sims_pars/fitting/util.py:11-24 -/
  draw : S → Result P × S
  /-- `serve_and_evaluate(obj, locus)` - /repo/src/sims_pars/fitting/util.py:104-112 -/
  serve : Dict N (XR K) → S → Result P × S
  /-- `p.LogLikelihood` -/
  lik : P → XR K
  /-- `p.LogPosterior` -/
  post : P → XR K
  /-- `p.clone()` -/
  clone : P → P
  rng : Rand S K
  /-- `np.where(rd.binomial(1, p, n))`: the increasing indices of the ones -/
  binomial : XR K → Nat → S → Result (List Nat) × S
  /-- `rd.normal(loc, scale)` -/
  normal : XR K → XR K → S → Result (XR K) × S
  /-- `rd.choice(n, k, replace=False)` -/
  distinct : Nat → Nat → S → Result (List Nat) × S
  /-- `x.std()` -/
  std : List (XR K) → XR K
  /-- `sts.iqr(x)` -/
  iqr : List (XR K) → XR K
  /-- `np.power(n, -0.2)` -/
  fifth : Nat → XR K
  /-- `np.exp(wts - logsumexp(wts))` -/
  softmax : List (XR K) → List (XR K)
  /-- the rounding of floating-point arithmetic -/
  rnd : XR K → XR K
  /-- `np.finfo(float).eps` -/
  eps : K

namespace Ga

variable {S N K P : Type} [DecidableEq N] [Field K] [LinearOrder K]

/-- `p[name]`: KeyError when there is no such parameter. -/
def item (env : GaEnv S N K P) (p : P) (n : N) : Result (XR K) :=
  match env.get p n with
  | some v => .ok v
  | none => .error .KeyError

/-- The loop of `AverageCrossover.crossover` - /repo/src/sims_pars/fit/ga/cross.py:18-20. -/
def average (env : GaEnv S N K P) (p1 p2 : P) (locus : Dict N (XR K)) : List (GaDom N K) → Result (Dict N (XR K))
  | [] => .ok locus
  | d :: ds => do
    let a ← item env p1 d.name
    let b ← item env p2 d.name
    average env p1 p2 (locus.set d.name ((a + b) / .fin 2)) ds

/-- `AverageCrossover.crossover` - /repo/src/sims_pars/fit/ga/cross.py:17-22. -/
def averageCross (env : GaEnv S N K P) (p1 p2 : P) : Run S (Dict N (XR K) × Dict N (XR K)) := do
  let ds ← .lift env.domain
  let l ← .ofResult (average env p1 p2 [] ds)
  return (l, l)

/-- One node of `ShuffleCrossover.crossover` - /repo/src/sims_pars/fit/ga/cross.py:30-35. -/
def shuffleOne (env : GaEnv S N K P) (p1 p2 : P) (n : N) (l : Dict N (XR K) × Dict N (XR K)) :
    Run S (Dict N (XR K) × Dict N (XR K)) := do
  let u ← .lift (fun s => ((.ok (env.rng.random s).1 : Result K), (env.rng.random s).2))
  if u < 1 / 2 then do
    let b ← .ofResult (item env p2 n)
    let a ← .ofResult (item env p1 n)
    return (l.1.set n b, l.2.set n a)
  else do
    let a ← .ofResult (item env p1 n)
    let b ← .ofResult (item env p2 n)
    return (l.1.set n a, l.2.set n b)

/-- The loop of `ShuffleCrossover.crossover` - /repo/src/sims_pars/fit/ga/cross.py:28-35. -/
def shuffle (env : GaEnv S N K P) (p1 p2 : P) (l : Dict N (XR K) × Dict N (XR K)) :
    List (GaDom N K) → Run S (Dict N (XR K) × Dict N (XR K))
  | [] => pure l
  | d :: ds => do
    let l' ← shuffleOne env p1 p2 d.name l
    shuffle env p1 p2 l' ds

/-- `ShuffleCrossover.crossover` - /repo/src/sims_pars/fit/ga/cross.py:26-38. -/
def shuffleCross (env : GaEnv S N K P) (p1 p2 : P) : Run S (Dict N (XR K) × Dict N (XR K)) := do
  let ds ← .lift env.domain
  shuffle env p1 p2 ([], []) ds

/-- Python's `min(a, b)`. -/
def pyMin (a b : XR K) : XR K := if XR.lt b a then b else a
/-- Python's `max(a, b)`. -/
def pyMax (a b : XR K) : XR K := if XR.lt a b then b else a

/-- The scale of one node; `not lo` holds of zero only - /repo/src/sims_pars/fit/ga/mutate.py:36-41. -/
def scaleOf (env : GaEnv S N K P) (xs : List (XR K)) : XR K :=
  let hi := env.std xs
  let lo := pyMin (env.iqr xs) (env.iqr xs / .fin (67 / 50))
  let lo := if lo = .fin 0 then (if hi = .fin 0 then .fin (1 / 10) else hi) else lo
  .fin (9 / 10) * lo * env.fifth xs.length

/-- The loop of `set_scales` - /repo/src/sims_pars/fit/ga/mutate.py:31-41. -/
def scales (env : GaEnv S N K P) (ps : List P) (acc : Dict N (XR K)) : List (GaDom N K) → Result (Dict N (XR K))
  | [] => .ok acc
  | d :: ds => do
    let xs ← ps.mapM (fun p => item env p d.name)
    scales env ps (acc.set d.name (scaleOf env xs)) ds

/-- `set_scales`: the scales of earlier calls stay where they are not overwritten -
/repo/src/sims_pars/fit/ga/mutate.py:30-41. -/
def setScales (env : GaEnv S N K P) (ps : List P) (old : Dict N (XR K)) : Run S (Dict N (XR K)) := do
  let ds ← .lift env.domain
  .ofResult (scales env ps old ds)

/-- `max(min(v1, node.Upper - self.Eps), node.Lower + self.Eps)` - /repo/src/sims_pars/fit/ga/mutate.py:49. -/
def clamp (env : GaEnv S N K P) (d : GaDom N K) (v : XR K) : XR K :=
  pyMax (pyMin v (env.rnd (d.upper - .fin env.eps))) (env.rnd (d.lower + .fin env.eps))

/-- The loop of `propose` - /repo/src/sims_pars/fit/ga/mutate.py:46-49. -/
def proposeNodes (env : GaEnv S N K P) (scs : Dict N (XR K)) (p : P) (locus : Dict N (XR K)) :
    List (GaDom N K) → Run S (Dict N (XR K))
  | [] => pure locus
  | d :: ds => do
    let x ← .ofResult (item env p d.name)
    let sc ← .ofResult (match scs.get? d.name with
      | some v => (.ok v : Result (XR K))
      | none => .error .KeyError)
    let v ← .lift (env.normal x sc)
    proposeNodes env scs p (locus.set d.name (clamp env d v)) ds

/-- `propose` - /repo/src/sims_pars/fit/ga/mutate.py:43-51. -/
def propose (env : GaEnv S N K P) (scs : Dict N (XR K)) (p : P) : Run S (Dict N (XR K)) := do
  let ds ← .lift env.domain
  proposeNodes env scs p [] ds

/-- `max(ps, key=f)`: the first of the greatest; ValueError for an empty list. -/
def maxBy (f : P → XR K) : List P → Result P
  | [] => .error .ValueError
  | p :: ps => .ok (ps.foldl (fun a b => if XR.lt (f a) (f b) then b else a) p)

/-- The fitness that `select` looks at - /repo/src/sims_pars/fit/ga/select.py:32-35, 48-51. -/
def fitness (env : GaEnv S N K P) (isMap : Bool) : P → XR K := if isMap then env.post else env.lik

/-- `[p for p in ps if np.isfinite(p.LogLikelihood)]` - /repo/src/sims_pars/fit/ga/select.py:25, 44. -/
def eligible (env : GaEnv S N K P) (ps : List P) : List P := ps.filter (fun p => (env.lik p).isFinite)

/-- One tournament - /repo/src/sims_pars/fit/ga/select.py:31-37. -/
def tournament (env : GaEnv S N K P) (k : Nat) (isMap : Bool) (el : List P) : Run S P := do
  let is ← .lift (env.distinct el.length k)
  let cs ← .ofResult (Model.select el is)
  let w ← .ofResult (maxBy (fitness env isMap) cs)
  return env.clone w

/-- `TourSelection.select` - /repo/src/sims_pars/fit/ga/select.py:23-38. -/
def tour (env : GaEnv S N K P) (k : Nat) (isMap : Bool) (ps : List P) : Run S (List P) :=
  let el := eligible env ps
  if k < el.length then Run.times ps.length (tournament env k isMap el) else .fail .AssertionError

/-- `ImpSelection.select` - /repo/src/sims_pars/fit/ga/select.py:42-57. -/
def importance (env : GaEnv S N K P) (isMap : Bool) (ps : List P) : Run S (List P) :=
  let el := eligible env ps
  if 5 < el.length then do
    let is ← .lift (env.rng.choice (env.softmax (el.map (fitness env isMap))) ps.length)
    let sel ← .ofResult (Model.select el is)
    return sel.map env.clone
  else .fail .AssertionError

/-- The crossovers registered - /repo/src/sims_pars/fit/ga/cross.py:55, 63. -/
inductive Cross
  | average
  | shuffle
  deriving DecidableEq

/-- The selectors registered - /repo/src/sims_pars/fit/ga/select.py:76, 84. -/
inductive Sel
  | tour (k : Nat)
  | importance
  deriving DecidableEq

/-- The settings - /repo/src/sims_pars/fit/ga/alg.py:37-51. -/
structure Settings (K : Type) where
  nCollect : Nat
  maxRound : Int
  maxStay : Int
  pMut : XR K
  pCro : XR K
  cro : Cross
  sel : Sel
  /-- `target == 'MAP'` -/
  isMap : Bool

/-- The states, the population and the scales of the mutator - /repo/src/sims_pars/fit/ga/alg.py:19-24; the mean
fitness is only reported. -/
structure State (N K P : Type) where
  generation : Nat
  stay : Nat
  maxFit : XR K
  best : Option P
  ps : List P
  scales : Dict N (XR K)
  deriving DecidableEq

/-- `self.Crossover.crossover`. -/
def cross (env : GaEnv S N K P) (c : Cross) (p1 p2 : P) : Run S (Dict N (XR K) × Dict N (XR K)) :=
  match c with
  | .average => averageCross env p1 p2
  | .shuffle => shuffleCross env p1 p2

/-- One pair of `__crossover` - /repo/src/sims_pars/fit/ga/alg.py:98-100. -/
def crossPair (env : GaEnv S N K P) (c : Cross) (i : Nat) (ps : List P) : Run S (List P) :=
  match ps[2 * i]?, ps[2 * i + 1]? with
  | some a, some b => do
    let l ← cross env c a b
    let p ← .lift (env.serve l.1)
    let q ← .lift (env.serve l.2)
    return (ps.set (2 * i) p).set (2 * i + 1) q
  | _, _ => .fail .IndexError

/-- The loop of `__crossover` - /repo/src/sims_pars/fit/ga/alg.py:97-100. -/
def crossPairs (env : GaEnv S N K P) (c : Cross) : List Nat → List P → Run S (List P)
  | [], ps => pure ps
  | i :: is, ps => do
    let ps' ← crossPair env c i ps
    crossPairs env c is ps'

/-- `__crossover` - /repo/src/sims_pars/fit/ga/alg.py:91-100. -/
def crossover (env : GaEnv S N K P) (set : Settings K) (ps : List P) : Run S (List P) := do
  let is ← .lift (env.binomial set.pCro (ps.length / 2))
  crossPairs env set.cro is ps

/-- `for i, p in zip(nxt, proposed): if np.isfinite(p.LogLikelihood): ps[i] = p` -
/repo/src/sims_pars/fit/ga/alg.py:116-118. -/
def replace (env : GaEnv S N K P) : List (Nat × P) → List P → List P
  | [], ps => ps
  | (i, p) :: r, ps => replace env r (if (env.lik p).isFinite then ps.set i p else ps)

/-- `__mutation` - /repo/src/sims_pars/fit/ga/alg.py:102-118: the population and the scales. -/
def mutation (env : GaEnv S N K P) (set : Settings K) (old : Dict N (XR K)) (ps : List P) :
    Run S (List P × Dict N (XR K)) := do
  let scs ← setScales env ps old
  let nxt ← .lift (env.binomial set.pMut ps.length)
  let loci ← Run.each (propose env scs) ps
  let proposed ← Run.each (fun l => .lift (env.serve l)) loci
  return (replace env (nxt.zip proposed) ps, scs)

/-- `__selection`; the selector is called with its default fitness, MAP - /repo/src/sims_pars/fit/ga/alg.py:120-125. -/
def selection (env : GaEnv S N K P) (set : Settings K) (ps : List P) : Run S (List P) :=
  match set.sel with
  | .tour k => tour env k true ps
  | .importance => importance env true ps

/-- `__find_elitism` - /repo/src/sims_pars/fit/ga/alg.py:127-144. -/
def findElitism (env : GaEnv S N K P) (set : Settings K) (st : State N K P) : Result (State N K P) := do
  let b ← maxBy (fitness env set.isMap) st.ps
  let m := fitness env set.isMap b
  return { st with best := some b, maxFit := m, stay := if XR.le m st.maxFit then st.stay + 1 else 0 }

/-- `initialise` - /repo/src/sims_pars/fit/ga/alg.py:53-59, 77-89; the scales of the mutator are kept. -/
def initialise (env : GaEnv S N K P) (set : Settings K) (old : Dict N (XR K)) : Run S (State N K P) := do
  let ps ← Run.times set.nCollect (.lift env.draw)
  .ofResult (findElitism env set ⟨0, 0, .ninf, none, ps, old⟩)

/-- One generation - /repo/src/sims_pars/fit/ga/alg.py:64-68. -/
def generation (env : GaEnv S N K P) (set : Settings K) (st : State N K P) : Run S (State N K P) := do
  let ps1 ← crossover env set st.ps
  let r ← mutation env set st.scales ps1
  let ps3 ← selection env set r.1
  .ofResult (findElitism env set { st with generation := st.generation + 1, ps := ps3, scales := r.2 })

/-- `__termination` - /repo/src/sims_pars/fit/ga/alg.py:151-153. -/
def terminated (set : Settings K) (st : State N K P) : Bool :=
  decide (set.maxStay < st.stay) || decide (set.maxRound < st.generation)

/-- `update` - /repo/src/sims_pars/fit/ga/alg.py:61-70; the number bounds the generations. -/
def update (env : GaEnv S N K P) (set : Settings K) : Nat → State N K P → Run S (State N K P)
  | 0, _ => .more
  | k + 1, st => do
    let st' ← generation env set st
    if terminated set st' then return st' else update env set k st'

end Ga

/-- `np.exp(wts - logsumexp(wts))` over the reals: numbers as they are, and `-inf` as weight zero; NaN throughout when
an entry is NaN or `+inf` or all are `-inf` (NumPy gives some zeros next to the NaN of `+inf`; `choice` refuses either) - /repo/src/sims_pars/fit/ga/select.py:53-55. -/
noncomputable def gaSoftmax (ws : List (XR ℝ)) : List (XR ℝ) :=
  if ws.all (fun w => w.isFinite || decide (w = .ninf)) && ws.any (·.isFinite) then
    let lse := logsumexp (finite ws);
    ws.map (fun w => match w with
      | .fin x => .fin (Real.exp (x - lse))
      | _ => .fin 0)
  else ws.map (fun _ => .nan)

end Model
