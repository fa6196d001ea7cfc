import Verif.Model.Monitor

/-!
# Properties of the monitor: C54, C55
-/

namespace Props.Monitor

open Py Model Model.Monitor

variable {K V : Type} [DecidableEq K]

/-- What a user can do with a monitor. -/
inductive Op (K V : Type)
  | keep (kw : Dict K V)
  | step (t : Option Int)
  | reset (t : Int)

/-- One operation; a raised exception leaves whatever state the call left. -/
def act (timeKey : K) (num : Int → V) (m : Monitor K V) : Op K V → Monitor K V
  | .keep kw => m.keep kw
  | .step t => (m.step timeKey num t).1
  | .reset t => m.reset t

/-- A history of operations. -/
def run (timeKey : K) (num : Int → V) (ops : List (Op K V)) (m : Monitor K V) : Monitor K V :=
  ops.foldl (act timeKey num) m

/-- The recorded times are strictly increasing and below the current time. -/
def Increasing (timeKey : K) (num : Int → V) (m : Monitor K V) : Prop :=
  ∃ ts : List Int, m.records.map (fun r => r.get? timeKey) = ts.map (fun t => some (num t)) ∧
    ts.Pairwise (· < ·) ∧ ∀ t ∈ ts, t < m.time

theorem increasing_act (timeKey : K) (num : Int → V) {m : Monitor K V} (h : Increasing timeKey num m) (o : Op K V) :
    Increasing timeKey num (act timeKey num m o) := by
  obtain ⟨ts, h1, h2, h3⟩ := h
  cases o with
  | keep kw => exact ⟨ts, h1, h2, h3⟩
  | reset t => exact ⟨[], rfl, List.Pairwise.nil, by simp⟩
  | step t =>
    show Increasing timeKey num (m.step timeKey num t).1
    unfold Monitor.step
    simp only
    generalize m.target t = u
    split
    · exact ⟨ts, h1, h2, h3⟩
    · split
      · exact ⟨ts, h1, h2, h3⟩
      · rename_i ha hb
        refine ⟨ts ++ [m.time], ?_, ?_, ?_⟩
        · show (m.records ++ [m.last.set timeKey (num m.time)]).map _ = _
          rw [List.map_append, h1, List.map_append]
          simp
        · rw [List.pairwise_append]
          exact ⟨h2, List.pairwise_singleton _ _, fun a ha b hb => by
            rw [List.mem_singleton] at hb; subst hb; exact h3 a ha⟩
        · intro t ht
          show t < u
          rcases List.mem_append.1 ht with ht | ht
          · have := h3 t ht; omega
          · rw [List.mem_singleton] at ht; omega

/-- **C54** (times): along every history the recorded times strictly increase and stay below the current time. -/
theorem C54_increasing (timeKey : K) (num : Int → V) (ops : List (Op K V)) :
    Increasing timeKey num (run timeKey num ops .init) := by
  suffices h : ∀ m : Monitor K V, Increasing timeKey num m → Increasing timeKey num (run timeKey num ops m) from
    h _ ⟨[], rfl, List.Pairwise.nil, by simp⟩
  induction ops with
  | nil => intro m h; exact h
  | cons o ops ih => intro m h; exact ih _ (increasing_act timeKey num h o)

/-- `keep(n=4); step(); keep(n=6); step(9); step(3); keep(n=8)` -/
def exOps : List (Op String Int) :=
  [.keep [("n", 4)], .step none, .keep [("n", 6)], .step (some 9), .step (some 3), .keep [("n", 8)]]

example : (run "Time" id exOps .init).records = [[("n", 4), ("Time", 0)], [("n", 6), ("Time", 1)]] ∧
    (run "Time" id exOps .init).time = 9 ∧ (run "Time" id exOps .init).last = [("n", 8)] := by decide

/-- The last value given for `k` in a list of dictionaries. -/
def lastKept : List (Dict K V) → K → Option V
  | [], _ => none
  | kw :: kws, k => (lastKept kws k).or (kw.get? k)

theorem keep_all (timeKey : K) (num : Int → V) : ∀ (kws : List (Dict K V)) (m : Monitor K V), (∀ kw ∈ kws, kw.WF) →
    ∃ d, run timeKey num (kws.map .keep) m = { m with last := d } ∧
      ∀ k, d.get? k = (lastKept kws k).or (m.last.get? k) := by
  intro kws
  induction kws with
  | nil => intro m _; exact ⟨m.last, rfl, fun k => rfl⟩
  | cons kw kws ih =>
    intro m hw
    obtain ⟨d, h1, h2⟩ := ih (m.keep kw) (fun x hx => hw x (by simp [hx]))
    refine ⟨d, ?_, ?_⟩
    · exact h1
    · intro k
      rw [h2]
      have : (m.keep kw).last.get? k = (kw.get? k).or (m.last.get? k) := by
        show (m.last.update kw).get? k = _
        rw [Dict.get?_update _ _ (hw kw (by simp))]
      rw [this, lastKept]
      cases lastKept kws k <;> rfl

/-- **C54** (records): a step forward appends one record, which holds the time it left and, for every other key, the
last value kept since the previous step forward; nothing is carried over to the next. -/
theorem C54_record (timeKey : K) (num : Int → V) {m : Monitor K V} (hm : m.last = []) (kws : List (Dict K V))
    (hw : ∀ kw ∈ kws, kw.WF) {t : Option Int} (ht : ∀ u, t = some u → m.time < u ∧ u ≠ 0) :
    ∃ r, (run timeKey num (kws.map .keep ++ [.step t]) m).records = m.records ++ [r] ∧
      (run timeKey num (kws.map .keep ++ [.step t]) m).last = [] ∧ r.get? timeKey = some (num m.time) ∧
      ∀ k, k ≠ timeKey → r.get? k = lastKept kws k := by
  obtain ⟨d, h1, h2⟩ := keep_all timeKey num kws m hw
  have e : run timeKey num (kws.map .keep ++ [.step t]) m
      = (Monitor.step timeKey num { m with last := d } t).1 := by
    rw [← h1]
    simp [run, act]
  rw [e]
  have hstep : (Monitor.step timeKey num { m with last := d } t).1
      = ⟨m.records ++ [d.set timeKey (num m.time)], (match t with | none => m.time + 1 | some u => u), []⟩ := by
    unfold Monitor.step Monitor.target
    cases t with
    | none =>
      simp only
      rw [if_neg (by omega), if_neg (by omega)]
    | some u =>
      obtain ⟨h3, h4⟩ := ht u rfl
      simp only
      rw [if_neg h4, if_neg (by omega), if_neg (by omega)]
  rw [hstep]
  refine ⟨_, rfl, rfl, Dict.get?_set_self _ _ _, ?_⟩
  intro k hk
  rw [Dict.get?_set_ne _ _ (Ne.symm hk), h2, hm]
  cases lastKept kws k <;> rfl

example : (run "Time" id [.keep [("n", 4)], .keep [("m", 1), ("n", 5)], .step none] (.init : Monitor String Int)).records
    = [[("n", 5), ("m", 1), ("Time", 0)]] := by decide

/-- **C54** (backwards): a step backwards raises KeyError and changes nothing. -/
theorem C54_backward (timeKey : K) (num : Int → V) {m : Monitor K V} {t : Int} (h : t < m.time) (h0 : t ≠ 0) :
    m.step timeKey num (some t) = (m, .error .KeyError) := by
  unfold Monitor.step Monitor.target
  simp only
  rw [if_neg h0, if_pos h]

example : (5 : Int) ≠ 0 ∧ (5 : Int) < (run "Time" id exOps .init).time := by decide

/-- **C54** (no move): a step to the current time changes nothing. -/
theorem C54_same (timeKey : K) (num : Int → V) {m : Monitor K V} (h0 : m.time ≠ 0) :
    m.step timeKey num (some m.time) = (m, .ok ()) := by
  unfold Monitor.step Monitor.target
  simp only
  rw [if_neg h0, if_neg (by omega), if_pos rfl]

/-- **C54**, **C55** fail at time 0: `step(0)` is treated like `step()`, so it never raises, always moves to the next
time and makes a record, even when 0 is the current time or lies in the past. -/
theorem C55_refuted (timeKey : K) (num : Int → V) (m : Monitor K V) :
    (m.step timeKey num (some 0)).2 = .ok () ∧ (m.step timeKey num (some 0)).1.time = m.time + 1 ∧
    (m.step timeKey num (some 0)).1.records = m.records ++ [m.last.set timeKey (num m.time)] ∧
    (m.time ≠ -1 → (m.step timeKey num (some 0)).1.time ≠ 0) := by
  unfold Monitor.step Monitor.target
  simp only [if_true]
  rw [if_neg (by omega), if_neg (by omega)]
  exact ⟨rfl, rfl, rfl, fun h => by show m.time + 1 ≠ 0; omega⟩

/-- **C55** (the provable part): apart from 0, a step that returns has moved to the given time. -/
theorem C55_partial (timeKey : K) (num : Int → V) {m m' : Monitor K V} {t : Int} (h0 : t ≠ 0)
    (h : m.step timeKey num (some t) = (m', .ok ())) : m'.time = t := by
  unfold Monitor.step Monitor.target at h
  simp only at h
  rw [if_neg h0] at h
  split at h
  · cases h
  · split at h
    · cases h; rename_i e; exact e.symm
    · cases h; rfl

example : ((run "Time" id exOps .init).step "Time" id (some 12)).1.time = 12 := by decide

/-- **C55**: `step()` moves to the next time. -/
theorem C55_next (timeKey : K) (num : Int → V) (m : Monitor K V) :
    (m.step timeKey num none).2 = .ok () ∧ (m.step timeKey num none).1.time = m.time + 1 := by
  unfold Monitor.step Monitor.target
  simp only
  rw [if_neg (by omega), if_neg (by omega)]
  exact ⟨rfl, rfl⟩

end Props.Monitor
