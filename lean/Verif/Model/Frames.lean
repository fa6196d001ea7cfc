import Verif.Model.FitBase
import Verif.Model.Monitor
import Verif.Model.Quantile

/-!
# Data frames of chromosomes and particles

`Chromosome.to_data`, `to_data_frame`, `mean`, `summarise` and `ParameterSet.to_df`, `to_pred_df`.  A data frame
made of dictionaries has one row for each, and the keys as columns in order of first appearance (pandas).  The values are
numbers; pandas leaves out columns of other kinds, which are not modelled.
-/

namespace Model

open Py

/-- A data frame without an index of its own; `none` is a missing value. -/
structure Table (N V : Type) where
  columns : List N
  rows : List (List (Option V))
  deriving DecidableEq

namespace Table

variable {N V : Type} [DecidableEq N]

/-- `pd.DataFrame(list_of_dicts)` (pandas). -/
def ofRows (ds : List (Dict N V)) : Table N V :=
  ⟨Monitor.columnsOf ds, ds.map (fun d => (Monitor.columnsOf ds).map d.get?)⟩

/-- The values of the column at a position, missing ones left out. -/
def column (t : Table N V) (i : Nat) : List V := t.rows.filterMap (fun r => r.getD i none)

end Table

section Stats

variable {K : Type} [Field K] [LinearOrder K] [FloorSemiring K]

/-- The mean of a column: NaN entries are left out, NaN when nothing remains (pandas). -/
def meanOf (xs : List (XR K)) : XR K :=
  let ys := xs.filter (fun x => !x.isNan)
  if ys.isEmpty then .nan else ys.sum / .fin (ys.length : K)

/-- The least of some numbers. -/
def minOf : List (XR K) → XR K
  | [] => .nan
  | x :: xs => xs.foldl (fun a b => if XR.lt b a then b else a) x

/-- The greatest of some numbers. -/
def maxOf : List (XR K) → XR K
  | [] => .nan
  | x :: xs => xs.foldl (fun a b => if XR.lt a b then b else a) x

/-- A column of `df.describe()`. -/
structure Stats (K : Type) where
  count : Nat
  mean : XR K
  std : XR K
  min : XR K
  q25 : XR K
  q50 : XR K
  q75 : XR K
  max : XR K

/-- The column of `df.describe()` for a column of numbers (pandas): NaN entries are left out, the standard deviation is
that of a sample, quantiles are interpolated; NaN where there is nothing to report. -/
def describe (sqrt : XR K → XR K) (xs : List (XR K)) : Stats K :=
  let ys := xs.filter (fun x => !x.isNan)
  let m := meanOf xs
  let q : K → XR K := fun p => match quantile ys (.fin p) with
    | .ok v => v
    | .error _ => .nan
  { count := ys.length
    mean := m
    std := if ys.length ≤ 1 then .nan else sqrt ((ys.map (fun y => (y - m).sq)).sum / .fin ((ys.length : K) - 1))
    min := minOf ys
    q25 := q (1 / 4)
    q50 := q (1 / 2)
    q75 := q (3 / 4)
    max := maxOf ys }

end Stats

section Chromosomes

variable {N K : Type} [DecidableEq N] [Field K] [LinearOrder K] [FloorSemiring K]

/-- `to_data()` - /repo/src/sims_pars/bayesnet/chromosome.py:93-97; `logKey` is `'LogProb'`. -/
def Chromosome.toData (logKey : N) (c : Chromosome N (XR K) K) : Dict N (XR K) :=
  if c.isEvaluated then c.locus.set logKey c.logProb else c.locus

/-- `Chromosome.to_data_frame(genes)` - /repo/src/sims_pars/bayesnet/chromosome.py:113-115. -/
def Chromosome.toDataFrame (logKey : N) (genes : List (Chromosome N (XR K) K)) : Table N (XR K) :=
  .ofRows (genes.map (·.toData logKey))

/-- `Chromosome.mean(genes)` - /repo/src/sims_pars/bayesnet/chromosome.py:108-111. -/
def Chromosome.mean (genes : List (Chromosome N (XR K) K)) : Dict N (XR K) :=
  let df := Table.ofRows (genes.map (·.locus))
  df.columns.zipIdx.map (fun ci => (ci.1, meanOf (df.column ci.2)))

/-- `Chromosome.summarise(genes)` - /repo/src/sims_pars/bayesnet/chromosome.py:103-106: `describe` refuses a data frame
without columns (pandas). -/
def Chromosome.summarise (sqrt : XR K → XR K) (genes : List (Chromosome N (XR K) K)) : Result (Dict N (Stats K)) :=
  let df := Table.ofRows (genes.map (·.locus))
  if df.columns.isEmpty then .error .ValueError
  else .ok (df.columns.zipIdx.map (fun ci => (ci.1, describe sqrt (df.column ci.2))))

end Chromosomes

section Particles

variable {N V K : Type} [DecidableEq N]

/-- `dict(pt.Pars)` - /repo/src/sims_pars/fit/results.py:26: a chromosome has `keys` and `__getitem__`. -/
def Pars.toDict : Pars N V K → Dict N V
  | .chrom c => c.locus
  | .plain d => d

/-- `to_df()` - /repo/src/sims_pars/fit/results.py:25-26; `predictive` is not used. -/
def toDf (particles : List (Particle N V K)) : Table N V := .ofRows (particles.map (·.pars.toDict))

/-- `dict(pt['Ys'])` - /repo/src/sims_pars/fit/results.py:37: the particle looks up its notes
(/repo/src/sims_pars/fit/base.py:36-37); `dict` of a note of another kind raises. -/
def ysOf (p : Particle N V K) : Result (Dict N (XR K)) :=
  match p.notes.get? "Ys" with
  | some (.ys d) => .ok d
  | some _ => .error .TypeError
  | none => .error .KeyError

/-- `to_pred_df()` - /repo/src/sims_pars/fit/results.py:36-37. -/
def toPredDf (particles : List (Particle N V K)) : Result (Table N (XR K)) := do
  let ds ← particles.mapM ysOf
  return .ofRows ds

end Particles

end Model
