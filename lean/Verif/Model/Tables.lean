import Verif.Py.Rand
import Verif.Py.Dict
import Mathlib.Data.List.Sort
import Mathlib.Analysis.SpecialFunctions.Exp

/-!
# Data tables (data/static.py, data/timeseries.py)

A data frame is a list of rows.  The package imports its own modules under the old name `epidag`; its code is modelled
as it stands.
-/

namespace Model

open Py

section Categories

variable {N K S : Type} [DecidableEq N] [Field K] [LinearOrder K]

/-- `CategoricalRV` over numpy weights: the probabilities `self.p` - /repo/src/sims_pars/prob.py:186-189. -/
def catProbs (kv : Dict N (XR K)) : List (XR K) :=
  let ws := kv.map Prod.snd
  ws.map (· / ws.sum)

/-- `CategoricalRV.sample(1)` - /repo/src/sims_pars/prob.py:209-214: `choice` refuses weights that are no probabilities. -/
def catSample (r : Rand S K) (kv : Dict N (XR K)) (s : S) : Result N × S :=
  match r.choice (catProbs kv) 1 s with
  | (.error e, s') => (.error e, s')
  | (.ok is, s') =>
    match is with
    | i :: _ =>
      match kv[i]? with
      | some p => (.ok p.1, s')
      | none => (.error .IndexError, s')
    | [] => (.error .IndexError, s')

/-- `TransitionMatrix`: its rows, each with its state - /repo/src/sims_pars/data/static.py:10-14. -/
structure Transitions (N K : Type) where
  rows : List (N × Dict N (XR K))

namespace Transitions

/-- `self.Transitions` - /repo/src/sims_pars/data/static.py:12: of two rows for a state the later one counts. -/
def table (m : Transitions N K) : Dict N (Dict N (XR K)) := m.rows.foldl (fun d p => d.set p.1 p.2) []

/-- `sample_next`, `__call__` - /repo/src/sims_pars/data/static.py:16-26. -/
def next (r : Rand S K) (m : Transitions N K) (current : N) (s : S) : Result N × S :=
  match m.table.get? current with
  | none => (.error .KeyError, s)
  | some kv => catSample r kv s

/-- What is handed to `self(current=...)` by `sample` - /repo/src/sims_pars/data/static.py:30, 37. -/
inductive Asked (N : Type)
  | state (k : N)
  | numbered (i : Nat) (k : N)
  | keywords

/-- `self(current=k)` for whatever `k` - /repo/src/sims_pars/data/static.py:16-26: a dictionary cannot be looked up (TypeError); states are taken not to be pairs
of a number and a state. -/
def call (r : Rand S K) (m : Transitions N K) (k : Asked N) (s : S) : Result N × S :=
  match k with
  | .state k => m.next r k s
  | .numbered _ _ => (.error .KeyError, s)
  | .keywords => (.error .TypeError, s)

/-- `[self(current=k) for k in ks]` - /repo/src/sims_pars/data/static.py:37. -/
def callAll (r : Rand S K) (m : Transitions N K) : List (Asked N) → S → Result (List N) × S
  | [], s => (.ok [], s)
  | k :: ks, s =>
    match m.call r k s with
    | (.error e, s') => (.error e, s')
    | (.ok a, s') =>
      match m.callAll r ks s' with
      | (.error e, s'') => (.error e, s'')
      | (.ok as, s'') => (.ok (a :: as), s'')

/-- `sample` - /repo/src/sims_pars/data/static.py:28-37, for the keywords `current` and `currents`. -/
def sample (r : Rand S K) (m : Transitions N K) (n : Nat) (current : Option N) (currents : Option (List N)) (s : S) :
    Result (List N) × S :=
  if n = 1 then
    match m.call r .keywords s with
    | (.error e, s') => (.error e, s')
    | (.ok a, s') => (.ok [a], s')
  else
    match currents, current with
    | some ks, _ => m.callAll r (((List.range (max n ks.length)).zip ks).map (fun p => .numbered p.1 p.2)) s
    | none, some k => m.callAll r (((List.range (max n 1)).zip [k]).map (fun p => .numbered p.1 p.2)) s
    | none, none => (.error .KeyError, s)

end Transitions

end Categories

section CPT

variable {I K : Type} [DecidableEq I] [Field K] [LinearOrder K]

/-- `':'.join(xs)` - /repo/src/sims_pars/data/static.py:55. -/
def joinColon : List (List Char) → List Char
  | [] => []
  | [x] => x
  | x :: y :: xs => x ++ ':' :: joinColon (y :: xs)

/-- A row of a probability table: its columns and its weight - /repo/src/sims_pars/data/static.py:44-50.  The values of
the columns are texts, as `join` needs them to be. -/
structure CptRow (I K : Type) where
  cols : Dict I (List Char)
  p : K

/-- `[ir[x] for x in indices]` - /repo/src/sims_pars/data/static.py:55, 58. -/
def CptRow.values (r : CptRow I K) (indices : List I) : Result (List (List Char)) :=
  indices.mapM (fun x => match r.cols.get? x with | some v => .ok v | none => .error .KeyError)

/-- `ConditionalProbabilityTable` - /repo/src/sims_pars/data/static.py:43-59; the source matrix is not changed here (depending on its version pandas may
normalise the column of weights in place, which makes no difference to the tables derived from it). -/
structure Cpt (I K : Type) where
  indices : List I
  source : List (CptRow I K)
  invGroups : Dict (List Char) (XR K)
  groups : Dict (List Char) (Dict I (List Char))

namespace Cpt

/-- The constructor - /repo/src/sims_pars/data/static.py:44-59. -/
def new (mat : List (CptRow I K)) (indices : List I) : Result (Cpt I K) := do
  let total := (mat.map (fun r => XR.fin r.p)).sum
  let keyed ← mat.mapM (fun r => do
    let vs ← r.values indices
    return (joinColon vs, XR.fin r.p / total, indices.zip vs))
  return ⟨indices, mat, keyed.foldl (fun d k => d.set k.1 k.2.1) [], keyed.foldl (fun d k => d.set k.1 k.2.2) []⟩

/-- The probability with which `Sampler` gives a key, which is then looked up in `Groups` -
/repo/src/sims_pars/data/static.py:59, 61-62. -/
def prob (t : Cpt I K) (key : List Char) : Option (XR K) :=
  (t.invGroups.get? key).map (· / (t.invGroups.map Prod.snd).sum)

/-- `__call__`: a key is drawn and looked up - /repo/src/sims_pars/data/static.py:59, 61-62. -/
def call {S : Type} (r : Rand S K) (t : Cpt I K) (s : S) : Result (Dict I (List Char)) × S :=
  match catSample r t.invGroups s with
  | (.error e, s') => (.error e, s')
  | (.ok key, s') =>
    match t.groups.get? key with
    | some g => (.ok g, s')
    | none => (.error .KeyError, s')

/-- `groupby(ix)[prob].sum()` as rows - /repo/src/sims_pars/data/static.py:66-67; pandas sorts them, here they are in order of first appearance. -/
def groupRows (mat : List (CptRow I K)) (ix : List I) : Result (List (CptRow I K)) := do
  let keyed ← mat.mapM (fun r => do return (← r.values ix, r.p))
  let sums := keyed.foldl (fun (d : Dict (List (List Char)) K) k => d.set k.1 (((d.get? k.1).getD 0) + k.2)) []
  return sums.map (fun k => ⟨ix.zip k.1, k.2⟩)

/-- `marginalise` - /repo/src/sims_pars/data/static.py:64-68; grouping by nothing is refused. -/
def marginalise (t : Cpt I K) (index : I) : Result (Cpt I K) := do
  let ix := t.indices.filter (· ≠ index)
  if ix = [] then .error .ValueError
  let df ← groupRows t.source ix
  Cpt.new df ix

/-- `condition` - /repo/src/sims_pars/data/static.py:70-79. -/
def condition (t : Cpt I K) (kwargs : Dict I (List Char)) : Result (Cpt I K) :=
  let ixCond := t.indices.filter (fun x => (kwargs.get? x).isSome)
  let mat := ixCond.foldl (fun m k => m.filter (fun r => decide (r.cols.get? k = kwargs.get? k))) t.source
  let ixNew := t.indices.filter (fun x => decide (x ∉ ixCond))
  Cpt.new (mat.map (fun r => ⟨r.cols.filter (fun c => decide (c.1 ∉ ixCond)), r.p⟩)) ixNew

end Cpt

end CPT

section TimeSeries

variable {K A : Type} [Field K] [LinearOrder K]

/-- The steps of `interp1d(kind='nearest')` over points in order of time: go on to the next point while `t` is beyond
the middle - /repo/src/sims_pars/data/timeseries.py:17. -/
def nearestFrom (t : K) : K × A → List (K × A) → A
  | cur, [] => cur.2
  | cur, p :: rest => if (cur.1 + p.1) / 2 < t then nearestFrom t p rest else cur.2

/-- `interp1d(x, y, kind='nearest', bounds_error=False, fill_value=(ys[0], ys[-1]))(t)` as `TimeSeries`,
`TimeSeriesVector`, `TimeSeriesProbabilityTable` and `LeeCarter` use it -
/repo/src/sims_pars/data/timeseries.py:11-20, 27-39, 51, 77-78: scipy sorts the points, the two outer values are
those of the first and the last row. -/
def nearestLine (rows : List (K × A)) (t : K) : Result A :=
  match rows, rows.getLast?, rows.insertionSort (fun a b => a.1 ≤ b.1) with
  | first :: _, some last, lo :: rest =>
    if t < lo.1 then .ok first.2
    else if (((lo :: rest).getLast (by simp)).1) < t then .ok last.2
    else .ok (nearestFrom t lo rest)
  | _, _, _ => .error .IndexError

/-- `TimeSeriesVector.__call__` - /repo/src/sims_pars/data/timeseries.py:27-39: one line for every column asked for; a row
holds its time and its columns. -/
def vectorAt {I : Type} [DecidableEq I] (rows : List (K × (I → A))) (xs : List I) (t : K) : Result (Dict I A) := do
  let vs ← xs.mapM (fun x => do return (x, ← nearestLine (rows.map (fun r => (r.1, r.2 x))) t))
  return vs.foldl (fun d v => d.set v.1 v.2) []

/-- `self.PTs` - /repo/src/sims_pars/data/timeseries.py:52-57: of two rows for a time the later one counts. -/
def ptTable {N : Type} (rows : List (K × Dict N (XR K))) : Dict K (Dict N (XR K)) :=
  rows.foldl (fun d r => d.set r.1 r.2) []

/-- `TimeSeriesProbabilityTable.__call__` - /repo/src/sims_pars/data/timeseries.py:46-61. -/
def ptCall {N S : Type} [DecidableEq N] (r : Rand S K) (rows : List (K × Dict N (XR K))) (t : K) (s : S) :
    Result N × S :=
  match nearestLine (rows.map (fun r => (r.1, r.1))) t with
  | .error e => (.error e, s)
  | .ok ti =>
    match (ptTable rows).get? ti with
    | none => (.error .KeyError, s)
    | some kv => catSample r kv s

end TimeSeries

section LeeCarter

/-- A row of the table of ages of `LeeCarter` - /repo/src/sims_pars/data/timeseries.py:74-76. -/
structure AgeRow (N : Type) where
  age : N
  alpha : ℝ
  beta : ℝ

variable {N : Type} [DecidableEq N]

/-- `LeeCarter.get_rate` - /repo/src/sims_pars/data/timeseries.py:68-78, 83-85. -/
noncomputable def lcRate (times : List (ℝ × ℝ)) (ages : List (AgeRow N)) (t : ℝ) (a : N) : Result ℝ := do
  let alphas : Dict N ℝ := ages.foldl (fun d r => d.set r.age r.alpha) []
  let betas : Dict N ℝ := ages.foldl (fun d r => d.set r.age r.beta) []
  match alphas.get? a, betas.get? a with
  | some al, some be => do
    let kappa ← nearestLine times t
    return Real.exp (al + kappa * be)
  | _, _ => .error .KeyError

/-- `LeeCarter.__call__` - /repo/src/sims_pars/data/timeseries.py:80-81. -/
noncomputable def lcRates (times : List (ℝ × ℝ)) (ages : List (AgeRow N)) (t : ℝ) : Result (Dict N ℝ) := do
  let vs ← (ages.map AgeRow.age).mapM (fun a => do return (a, ← lcRate times ages t a))
  return vs.foldl (fun d v => d.set v.1 v.2) []

end LeeCarter

end Model
