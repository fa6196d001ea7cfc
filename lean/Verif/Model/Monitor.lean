import Verif.Py.Err
import Verif.Py.Dict

/-!
# The monitor of a simulation (monitor.py)

Logging (lines 10-42) and `save_trajectories` (lines 70-71) are not modelled.
-/

namespace Model

open Py

/-- A `Monitor` - /repo/src/sims_pars/monitor.py:17-19.  Keys `K`, values `V`; `Last` is replaced and never shared
after it was recorded, so records are plain dictionaries. -/
structure Monitor (K V : Type) where
  records : List (Dict K V)
  time : Int
  last : Dict K V

namespace Monitor

variable {K V : Type} [DecidableEq K]

/-- `Monitor(name)`. -/
def init : Monitor K V := ⟨[], 0, []⟩

/-- `keep(**kwargs)` - /repo/src/sims_pars/monitor.py:62-63. -/
def keep (m : Monitor K V) (kw : Dict K V) : Monitor K V := { m with last := m.last.update kw }

/-- `reset(time)` - /repo/src/sims_pars/monitor.py:44-47. -/
def reset (_m : Monitor K V) (t : Int) : Monitor K V := ⟨[], t, []⟩

/-- `time if time else self.Time + 1` - /repo/src/sims_pars/monitor.py:50.  `none` is `time=None`; `0` is falsy too. -/
def target (m : Monitor K V) : Option Int → Int
  | none => m.time + 1
  | some t => if t = 0 then m.time + 1 else t

/-- `step(time)` - /repo/src/sims_pars/monitor.py:49-59.
`timeKey` is `'Time'`, `num` makes a value of a time. -/
def step (timeKey : K) (num : Int → V) (m : Monitor K V) (t : Option Int) : Monitor K V × Result Unit :=
  let time := m.target t
  if time < m.time then (m, .error .KeyError)
  else if time = m.time then (m, .ok ())
  else (⟨m.records ++ [m.last.set timeKey (num m.time)], time, []⟩, .ok ())

/-- `monitor[item]` - /repo/src/sims_pars/monitor.py:41-42. -/
def get (m : Monitor K V) (k : K) : Result V :=
  match m.last.get? k with
  | some v => .ok v
  | none => .error .KeyError

/-- The columns of `pd.DataFrame(records)`: the keys of the records in order of first appearance -
/repo/src/sims_pars/monitor.py:67. -/
def columnsOf (rs : List (Dict K V)) : List K :=
  rs.foldl (fun cs r => r.keys.foldl (fun cs k => if k ∈ cs then cs else cs ++ [k]) cs) []

/-- A table with an index; `none` is a missing value. -/
structure Frame (K V : Type) where
  index : List (Option V)
  columns : List K
  rows : List (List (Option V))
  deriving DecidableEq

/-- `Trajectories` - /repo/src/sims_pars/monitor.py:65-68: `set_index` raises KeyError when there is no column of that
name, and takes it out of the columns otherwise. -/
def trajectories (timeKey : K) (m : Monitor K V) : Result (Frame K V) :=
  let cols := columnsOf m.records
  if timeKey ∈ cols then
    .ok ⟨m.records.map (fun r => r.get? timeKey), cols.filter (· ≠ timeKey),
      m.records.map (fun r => (cols.filter (· ≠ timeKey)).map r.get?)⟩
  else .error .KeyError

end Monitor

end Model
