import Verif.Props.Monitor

/-!
# The table of what a monitor recorded: C216
-/

namespace Props.Monitor

open Py Model Model.Monitor

variable {K V : Type} [DecidableEq K]

theorem addKeys (ks cs : List K) :
    (∀ k, k ∈ ks.foldl (fun cs k => if k ∈ cs then cs else cs ++ [k]) cs ↔ k ∈ cs ∨ k ∈ ks) ∧
      (cs.Nodup → (ks.foldl (fun cs k => if k ∈ cs then cs else cs ++ [k]) cs).Nodup) := by
  induction ks generalizing cs with
  | nil => simp
  | cons a ks ih =>
    simp only [List.foldl_cons]
    obtain ⟨h1, h2⟩ := ih (if a ∈ cs then cs else cs ++ [a])
    by_cases ha : a ∈ cs
    · rw [if_pos ha] at h1 h2
      rw [if_pos ha]
      refine ⟨fun k => ?_, h2⟩
      rw [h1, List.mem_cons]
      constructor
      · rintro (h | h)
        · exact .inl h
        · exact .inr (.inr h)
      · rintro (h | rfl | h)
        · exact .inl h
        · exact .inl ha
        · exact .inr h
    · rw [if_neg ha] at h1 h2
      rw [if_neg ha]
      refine ⟨fun k => ?_, fun hn => h2 ?_⟩
      · rw [h1, List.mem_append, List.mem_singleton, List.mem_cons, or_assoc]
      · rw [List.nodup_append]
        exact ⟨hn, by simp, fun x hx y hy h => ha (by rw [List.mem_singleton] at hy; rw [← hy, ← h]; exact hx)⟩

theorem columns_mem (rs : List (Dict K V)) :
    (∀ k, k ∈ columnsOf rs ↔ ∃ r ∈ rs, k ∈ r.keys) ∧ (columnsOf rs).Nodup := by
  suffices h : ∀ cs : List K,
      (∀ k, k ∈ rs.foldl (fun cs r => r.keys.foldl (fun cs k => if k ∈ cs then cs else cs ++ [k]) cs) cs ↔
        k ∈ cs ∨ ∃ r ∈ rs, k ∈ r.keys) ∧
      (cs.Nodup → (rs.foldl (fun cs r => r.keys.foldl (fun cs k => if k ∈ cs then cs else cs ++ [k]) cs) cs).Nodup) by
    obtain ⟨h1, h2⟩ := h []
    exact ⟨fun k => by unfold columnsOf; rw [h1]; simp, h2 List.nodup_nil⟩
  induction rs with
  | nil => simp
  | cons r rs ih =>
    intro cs
    simp only [List.foldl_cons]
    obtain ⟨h1, h2⟩ := ih (r.keys.foldl (fun cs k => if k ∈ cs then cs else cs ++ [k]) cs)
    obtain ⟨h3, h4⟩ := addKeys r.keys cs
    refine ⟨fun k => ?_, fun hn => h2 (h4 hn)⟩
    rw [h1, h3]
    simp [or_assoc]

theorem key_iff (r : Dict K V) (k : K) : k ∈ r.keys ↔ r.get? k ≠ none := by
  rw [Ne, Dict.get?_eq_none_iff]; simp

/-- `keep` of each dictionary, then `step()`, for each round. -/
def rounds (rs : List (List (Dict K V))) : List (Op K V) :=
  rs.flatMap (fun kws => kws.map .keep ++ [.step none])

theorem rounds_records (timeKey : K) (num : Int → V) (rs : List (List (Dict K V))) (hw : ∀ kws ∈ rs, ∀ kw ∈ kws, kw.WF)
    (m : Monitor K V) (hm : m.last = []) :
    (∃ ds : List (Dict K V), (run timeKey num (rounds rs) m).records = m.records ++ ds ∧
      ds.length = rs.length ∧ ∀ (i : ℕ) (d : Dict K V) (kws : List (Dict K V)), ds[i]? = some d → rs[i]? = some kws →
        d.get? timeKey = some (num (m.time + i)) ∧ ∀ k, k ≠ timeKey → d.get? k = lastKept kws k) := by
  induction rs generalizing m with
  | nil => exact ⟨[], by simp [rounds, run], rfl, fun i d kws h => by simp at h⟩
  | cons kws rs ih =>
    obtain ⟨r, h1, h2, h3, h4⟩ := C54_record timeKey num hm kws (hw kws (by simp)) (t := none) (by simp)
    have ht : (run timeKey num (kws.map .keep ++ [.step none]) m).time = m.time + 1 := by
      obtain ⟨d, h5, -⟩ := keep_all timeKey num kws m (hw kws (by simp))
      have e : run timeKey num (kws.map .keep ++ [.step none]) m = (Monitor.step timeKey num { m with last := d } none).1 := by
        rw [← h5]; simp [run, act]
      rw [e]
      unfold Monitor.step Monitor.target
      simp only
      rw [if_neg (by omega), if_neg (by omega)]
    obtain ⟨ds, h5, h6, h7⟩ := ih (fun x hx => hw x (by simp [hx])) _ h2
    have e : run timeKey num (rounds (kws :: rs)) m =
        run timeKey num (rounds rs) (run timeKey num (kws.map .keep ++ [.step none]) m) := by
      simp [rounds, run, List.foldl_append]
    refine ⟨r :: ds, ?_, by simp [h6], ?_⟩
    · rw [e, h5, h1]; simp
    · intro i d kws' hd hk
      cases i with
      | zero =>
        simp only [List.getElem?_cons_zero, Option.some.injEq] at hd hk
        subst hd; subst hk
        exact ⟨by simpa using h3, h4⟩
      | succ i =>
        rw [List.getElem?_cons_succ] at hd hk
        obtain ⟨h8, h9⟩ := h7 i d kws' hd hk
        refine ⟨?_, h9⟩
        rw [h8, ht]
        congr 2
        push_cast
        omega

/-- **C216** (nothing): after every history there is a table exactly when something was recorded; else it is a KeyError. -/
theorem C216_none (timeKey : K) (num : Int → V) (ops : List (Op K V)) :
    ((run timeKey num ops .init).records = [] ∧
      trajectories timeKey (run timeKey num ops .init) = .error .KeyError) ∨
    ((run timeKey num ops .init).records ≠ [] ∧ ∃ f, trajectories timeKey (run timeKey num ops .init) = .ok f) := by
  obtain ⟨ts, h1, -⟩ := C54_increasing timeKey num ops
  generalize run timeKey num ops .init = m at *
  unfold trajectories
  simp only
  rcases hr : m.records with _ | ⟨r, rs⟩
  · exact .inl ⟨rfl, if_neg (by simp [columnsOf])⟩
  · refine .inr ⟨by simp, _, if_pos ?_⟩
    rw [(columns_mem _).1]
    refine ⟨r, by simp, (key_iff r timeKey).2 ?_⟩
    rw [hr] at h1
    cases ts with
    | nil => cases h1
    | cons t ts =>
      rw [List.map_cons, List.map_cons] at h1
      rw [(List.cons.inj h1).1]; simp

/-- **C216** (table): the table of a monitor that was told something in each of one or more rounds has one row for each round,
in order, with the number of the round as its index; its columns are the names told in some round, each once; and the cell of
a round and a name is what was told last under the name in that round, or missing. -/
theorem C216_table (timeKey : K) (num : Int → V) {rs : List (List (Dict K V))} (hn : rs ≠ [])
    (hw : ∀ kws ∈ rs, ∀ kw ∈ kws, kw.WF) :
    ∃ f, trajectories timeKey (run timeKey num (rounds rs) .init) = .ok f ∧
      f.index = (List.range rs.length).map (fun i : ℕ => some (num i)) ∧ f.columns.Nodup ∧
      (∀ k, k ∈ f.columns ↔ k ≠ timeKey ∧ ∃ kws ∈ rs, lastKept kws k ≠ none) ∧
      f.rows = rs.map (fun kws => f.columns.map (lastKept kws)) := by
  obtain ⟨ds, h1, h2, h3⟩ := rounds_records timeKey num rs hw .init rfl
  rw [show (Monitor.init : Monitor K V).records = [] from rfl, List.nil_append] at h1
  have hk : ∀ i (hi : i < rs.length), (ds[i]'(h2 ▸ hi)).get? timeKey = some (num i) ∧
      ∀ k, k ≠ timeKey → (ds[i]'(h2 ▸ hi)).get? k = lastKept rs[i] k := by
    intro i hi
    obtain ⟨h4, h5⟩ := h3 i _ _ (List.getElem?_eq_getElem (h2 ▸ hi)) (List.getElem?_eq_getElem hi)
    refine ⟨?_, h5⟩
    rw [h4]
    show some (num (0 + (i : Int))) = _
    rw [Int.zero_add]
  obtain ⟨h4, h5⟩ := columns_mem ds
  have hl : 0 < rs.length := List.length_pos_iff.2 hn
  have ht : timeKey ∈ columnsOf ds := by
    rw [h4]
    exact ⟨ds[0]'(h2 ▸ hl), List.getElem_mem _, (key_iff _ _).2 (by rw [(hk 0 hl).1]; simp)⟩
  have hcol : ∀ k, k ∈ (columnsOf ds).filter (· ≠ timeKey) ↔ k ≠ timeKey ∧ ∃ kws ∈ rs, lastKept kws k ≠ none := by
    intro k
    rw [List.mem_filter, decide_eq_true_iff, h4, and_comm]
    refine and_congr_right (fun hne => ?_)
    constructor
    · rintro ⟨r, hr, hr'⟩
      obtain ⟨i, hi, rfl⟩ := List.getElem_of_mem hr
      refine ⟨rs[i]'(h2 ▸ hi), List.getElem_mem _, ?_⟩
      rw [← (hk i (h2 ▸ hi)).2 k hne]
      exact (key_iff _ _).1 hr'
    · rintro ⟨kws, hr, hr'⟩
      obtain ⟨i, hi, rfl⟩ := List.getElem_of_mem hr
      refine ⟨ds[i]'(h2 ▸ hi), List.getElem_mem _, (key_iff _ _).2 ?_⟩
      rw [(hk i hi).2 k hne]
      exact hr'
  refine ⟨⟨ds.map (fun r => r.get? timeKey), (columnsOf ds).filter (· ≠ timeKey),
      ds.map (fun r => ((columnsOf ds).filter (· ≠ timeKey)).map r.get?)⟩, ?_, ?_, h5.filter _, hcol, ?_⟩
  · unfold trajectories
    simp only
    rw [h1, if_pos ht]
  · refine List.ext_getElem (by simp [h2]) (fun i hi hi' => ?_)
    simp only [List.length_map, List.length_range] at hi'
    simp only [List.getElem_map, List.getElem_range]
    exact (hk i hi').1
  · refine List.ext_getElem (by simp [h2]) (fun i hi hi' => ?_)
    simp only [List.length_map] at hi'
    simp only [List.getElem_map]
    refine List.map_congr_left (fun k hk' => ?_)
    exact (hk i hi').2 k ((hcol k).1 hk').1

/-- Two rounds that are told different names. -/
example : trajectories "Time" (run "Time" id (rounds [[[("n", 4)], [("m", 1), ("n", 5)]], [[("k", 7), ("n", 6)]]]) .init)
    = .ok ⟨[some 0, some 1], ["n", "m", "k"], [[some 5, some 1, none], [some 6, none, some (7 : Int)]]⟩ := by decide +kernel

example : ∀ kws ∈ ([[[("n", 4)], [("m", 1), ("n", 5)]], [[("k", 7), ("n", 6)]]] : List (List (Dict String Int))),
    ∀ kw ∈ kws, kw.WF := by
  simp [Dict.WF, Dict.keys]

end Props.Monitor
