import Verif.Model.GaFit
import Verif.Props.Ga
import Verif.Props.Fitter
import Verif.Props.Trajectories

/-!
# Properties of the fits of the genetic algorithm: C217
-/

namespace Props.GaFit

open Py Model Model.Ga Model.GaObj Props.Ga Props.Monitor

set_option linter.unusedSectionVars false

variable {S N K P : Type} [DecidableEq N] [Field K] [LinearOrder K] [IsStrictOrderedRing K]

/-- **C217**, as first stated - a fit draws a first population - fails for every object, model, setting and random state: a
`ParameterSet` has no `ParameterList`, so every fit raises AttributeError before anything is drawn, and leaves an empty set. -/
theorem C217_refuted (env : GaEnv S N K P) (mean : List (XR K) → XR K) (fuel : Nat) (kw : SDict K) (o : GaObj N K P) (s : S) :
    ∃ o', fit paramSetNames env mean fuel kw o s = some (.error .AttributeError, o', s) ∧
      o'.collector = ⟨"Test", [], []⟩ ∧ o'.states = none ∧ o'.monitor = o.monitor := by
  refine ⟨⟨o.fitter.begun kw, .new "Test", none, o.scales, o.monitor⟩, ?_, rfl, rfl, rfl⟩
  unfold fit
  simp only
  rw [if_neg (by decide)]

theorem appended (ps : List P) (c : ParamSet P (Monitor.Frame String (XR K))) :
    ps.foldl ParamSet.append c = ⟨c.algorithm, c.notes, c.particles ++ ps⟩ := by
  induction ps generalizing c with
  | nil => simp
  | cons p ps ih => rw [List.foldl_cons, ih]; simp [ParamSet.append]

/-- The number of a time. -/
abbrev numOf (t : Int) : XR K := .fin (t : K)

theorem report_run (env : GaEnv S N K P) (mean : List (XR K) → XR K) (set : Settings K) (st : State N K P)
    (rs : List (List (Dict String (XR K)))) :
    report env mean set st (run "Time" numOf (rounds rs) .init) =
      run "Time" numOf (rounds (rs ++ [[told env mean set st]])) .init := by
  unfold report rounds run
  rw [List.flatMap_append, List.foldl_append]
  rfl

theorem gens {env : GaEnv S N K P} {set : Settings K} : ∀ {l : List (State N K P)}, Trace env set l →
    (∀ x, l.getLast? = some x → x.generation = 0) → ∀ i st, l[i]? = some st → st.generation + i + 1 = l.length := by
  intro l h
  induction h with
  | start st =>
    intro h0 i x hx
    cases i with
    | zero => simp at hx; subst hx; simp [h0 st rfl]
    | succ i => simp at hx
  | @next st st' l s s' ht hg ih =>
    intro h0 i x hx
    have ih := ih (fun z hz => h0 z (by rw [List.getLast?_cons_cons]; exact hz))
    cases i with
    | zero =>
      simp only [List.getElem?_cons_zero, Option.some.injEq] at hx
      subst hx
      have := ih 0 st rfl
      rw [(generation_ok hg).1]
      simp only [List.length_cons] at this ⊢
      omega
    | succ i =>
      rw [List.getElem?_cons_succ] at hx
      have := ih i x hx
      simp only [List.length_cons] at this ⊢
      omega

/-- What a set that answers to both names is left with. -/
structure Filled (env : GaEnv S N K P) (mean : List (XR K) → XR K) (set : Settings K) (st0 : State N K P)
    (o' : GaObj N K P) : Prop where
  ends : ∃ st m f, Trace env set (st :: m ++ [st0]) ∧ terminated set st = true ∧ (∀ x ∈ m, terminated set x = false) ∧
    o'.states = some st ∧ o'.collector = ⟨"Prior", [("Trace", f)], st.ps⟩ ∧
    f.index = (List.range (m.length + 2)).map (fun i : ℕ => some (.fin (i : K))) ∧
    f.columns = ["Round", "Stay", "MaxFitness", "MeanFitness"] ∧
    f.rows = (st :: m ++ [st0]).reverse.map (fun x => [some (.fin (x.generation : K)), some (.fin (x.stay : K)),
      some x.maxFit, some (mean (x.ps.map (fitness env set.isMap)))])

theorem lastKept_told (env : GaEnv S N K P) (mean : List (XR K) → XR K) (set : Settings K) (st : State N K P) (k : String) :
    lastKept [told env mean set st] k = (told env mean set st).get? k := by
  simp [lastKept]

theorem told_keys (env : GaEnv S N K P) (mean : List (XR K) → XR K) (set : Settings K) (st : State N K P) :
    (told env mean set st).keys = ["Round", "Stay", "MaxFitness", "MeanFitness"] := rfl

theorem columns_told (env : GaEnv S N K P) (mean : List (XR K) → XR K) (set : Settings K) (sts : List (State N K P))
    (hn : sts ≠ []) (ds : List (Dict String (XR K)))
    (hd : ds.map Dict.keys = sts.map (fun _ => ["Round", "Stay", "MaxFitness", "MeanFitness", "Time"])) :
    Monitor.columnsOf ds = ["Round", "Stay", "MaxFitness", "MeanFitness", "Time"] := by
  have e : Monitor.columnsOf ds = (ds.map Dict.keys).foldl
      (fun cs r => r.foldl (fun cs k => if k ∈ cs then cs else cs ++ [k]) cs) [] := by
    unfold Monitor.columnsOf
    rw [List.foldl_map]
  rw [e, hd]
  cases sts with
  | nil => exact absurd rfl hn
  | cons a sts =>
    rw [List.map_cons, List.foldl_cons]
    have h1 : (["Round", "Stay", "MaxFitness", "MeanFitness", "Time"].foldl
        (fun (cs : List String) k => if k ∈ cs then cs else cs ++ [k]) []) =
        ["Round", "Stay", "MaxFitness", "MeanFitness", "Time"] := by decide
    rw [h1]
    clear hn hd e
    induction sts with
    | nil => rfl
    | cons b sts ih =>
      rw [List.map_cons, List.foldl_cons]
      have h2 : (["Round", "Stay", "MaxFitness", "MeanFitness", "Time"].foldl
        (fun (cs : List String) k => if k ∈ cs then cs else cs ++ [k])
          ["Round", "Stay", "MaxFitness", "MeanFitness", "Time"]) =
        ["Round", "Stay", "MaxFitness", "MeanFitness", "Time"] := by decide
      rw [h2]
      exact ih

theorem rounds_told (env : GaEnv S N K P) (mean : List (XR K) → XR K) (set : Settings K) (sts : List (State N K P))
    (t : Int) (rec : List (Dict String (XR K))) :
    run "Time" numOf (rounds (sts.map (fun x => [told env mean set x]))) ⟨rec, t, []⟩ =
      ⟨rec ++ sts.mapIdx (fun i x => told env mean set x ++ [("Time", numOf (t + i))]), t + sts.length, []⟩ := by
  induction sts generalizing t rec with
  | nil => simp [rounds, run]
  | cons a sts ih =>
    have e : run "Time" numOf (rounds ((a :: sts).map (fun x => [told env mean set x]))) ⟨rec, t, []⟩ =
        run "Time" numOf (rounds (sts.map (fun x => [told env mean set x])))
          ⟨rec ++ [told env mean set a ++ [("Time", numOf t)]], t + 1, []⟩ := by
      unfold rounds run
      rw [List.map_cons, List.flatMap_cons, List.foldl_append]
      congr 1
      show (Monitor.step "Time" numOf (Monitor.keep ⟨rec, t, []⟩ (told env mean set a)) none).1 = _
      unfold Monitor.step Monitor.target
      simp only
      rw [if_neg (by simp [Monitor.keep]), if_neg (by simp [Monitor.keep])]
      rfl
    rw [e, ih, List.mapIdx_cons]
    simp only [List.append_assoc, List.singleton_append, List.length_cons, Monitor.mk.injEq, and_true]
    refine ⟨?_, by push_cast; omega⟩
    congr 2
    · simp
    · congr 1
      funext i x
      rw [show t + 1 + (i : Int) = t + ((i + 1 : Nat) : Int) by push_cast; omega]

theorem table_told (env : GaEnv S N K P) (mean : List (XR K) → XR K) (set : Settings K) (sts : List (State N K P))
    (hn : sts ≠ []) :
    ∃ f, (run "Time" numOf (rounds (sts.map (fun x => [told env mean set x]))) .init).trajectories "Time" = .ok f ∧
      f.index = (List.range sts.length).map (fun i : ℕ => some (.fin (i : K))) ∧
      f.columns = ["Round", "Stay", "MaxFitness", "MeanFitness"] ∧
      f.rows = sts.map (fun x => [some (.fin (x.generation : K)), some (.fin (x.stay : K)),
        some x.maxFit, some (mean (x.ps.map (fitness env set.isMap)))]) := by
  have hr := rounds_told env mean set sts 0 []
  rw [show (⟨[], 0, []⟩ : Monitor String (XR K)) = .init from rfl, List.nil_append] at hr
  have hc := columns_told env mean set sts hn
    (sts.mapIdx (fun i x => told env mean set x ++ [("Time", numOf ((0 : Int) + i))])) (by
      refine List.ext_getElem (by simp) (fun i h1 h2 => ?_)
      simp [Dict.keys, told])
  unfold Monitor.trajectories
  rw [hr]
  simp only
  rw [hc, if_pos (by decide)]
  refine ⟨_, rfl, ?_, by simp, ?_⟩
  · refine List.ext_getElem (by simp) (fun i h1 h2 => ?_)
    simp [told, Dict.get?, numOf]
  · refine List.ext_getElem (by simp) (fun i h1 h2 => ?_)
    simp [told, Dict.get?]

theorem loop_filled {names : List String} (hf : "finish" ∈ names) {env : GaEnv S N K P} {mean : List (XR K) → XR K}
    {set : Settings K} {st0 : State N K P} {fuel : Nat} : ∀ {st : State N K P} {l : List (State N K P)} {o o' : GaObj N K P}
      {s s' : S}, Trace env set (st :: l) → (st :: l).getLast? = some st0 →
      (∀ x ∈ (st :: l).dropLast, terminated set x = false) →
      o.monitor = run "Time" numOf (rounds ((st :: l).reverse.map (fun x => [told env mean set x]))) .init →
      loop names env mean set fuel st o s = some (.ok (), o', s') → Filled env mean set st0 o' := by
  induction fuel with
  | zero => intro st l o o' s s' _ _ _ _ h; cases h
  | succ k ih =>
    intro st l o o' s s' ht h0 hterm hm h
    rw [loop] at h
    cases hg : generation env set st s with
    | none => rw [hg] at h; cases h
    | some r =>
      obtain ⟨r, s1⟩ := r
      cases r with
      | error e => rw [hg] at h; cases h
      | ok st1 =>
        rw [hg] at h
        simp only at h
        have hm1 : report env mean set st1 o.monitor =
            run "Time" numOf (rounds ((st1 :: st :: l).reverse.map (fun x => [told env mean set x]))) .init := by
          rw [hm, report_run]
          simp
        have ht1 : Trace env set (st1 :: st :: l) := .next ht hg
        split at h
        · rename_i hte
          obtain ⟨f, h1, h2, h3, h4⟩ := table_told env mean set (st1 :: st :: l).reverse (by simp)
          unfold collect at h
          simp only [hm1, h1] at h
          rw [if_pos hf] at h
          simp only [Option.some.injEq, Prod.mk.injEq, true_and] at h
          obtain ⟨rfl, rfl⟩ := h
          have e : st :: l = (st :: l).dropLast ++ [st0] := by
            obtain ⟨ys, hy⟩ := List.getLast?_eq_some_iff.1 h0
            rw [hy, List.dropLast_concat]
          refine ⟨st1, (st :: l).dropLast, f, ?_, hte, hterm, rfl, ?_, ?_, h3, ?_⟩
          · rw [List.cons_append, ← e]; exact ht1
          · simp [appended, ParamSet.keep, ParamSet.new, Dict.set]
          · rw [h2]
            simp
          · rw [h4, List.cons_append, ← e]
        · rename_i hte
          refine ih ht1 (by rw [List.getLast?_cons_cons]; exact h0) ?_ hm1 h
          intro x hx
          rw [List.dropLast_cons_of_ne_nil (by simp)] at hx
          rcases List.mem_cons.1 hx with rfl | hx
          · simpa using hte
          · exact hterm x hx

/-- **C217**, what would hold if a `ParameterSet` had a `ParameterList` with its particles, and a `finish`: the first fit of an
object that ends leaves the last population, under the label `Prior`, and a trace with one row for each generation from 0 on,
which are those that the algorithm went through until it stopped. -/
theorem C217_partial {names : List String} (hp : "ParameterList" ∈ names) (hf : "finish" ∈ names) {env : GaEnv S N K P}
    {mean : List (XR K) → XR K} {fuel : Nat} {kw : SDict K} {o o' : GaObj N K P} {s s' : S} (ho : o.monitor = .init)
    (h : fit names env mean fuel kw o s = some (.ok (), o', s')) :
    ∃ set st0 s0 st m f, settings (o.fitter.begun kw) = .ok set ∧ initialise env set o.scales s = some (.ok st0, s0) ∧
      Trace env set (st :: m ++ [st0]) ∧ terminated set st = true ∧ (∀ x ∈ m, terminated set x = false) ∧
      o'.states = some st ∧ o'.collector = ⟨"Prior", [("Trace", f)], st.ps⟩ ∧
      f.index = (List.range (m.length + 2)).map (fun i : ℕ => some (.fin (i : K))) ∧
      f.columns = ["Round", "Stay", "MaxFitness", "MeanFitness"] ∧
      f.rows = (st :: m ++ [st0]).reverse.map (fun x => [some (.fin (x.generation : K)), some (.fin (x.stay : K)),
        some x.maxFit, some (mean (x.ps.map (fitness env set.isMap)))]) ∧
      ∀ (i : ℕ) x, (st :: m ++ [st0]).reverse[i]? = some x → x.generation = i := by
  unfold fit at h
  simp only at h
  rw [if_pos hp] at h
  cases hs : settings (o.fitter.begun kw) with
  | error e => rw [hs] at h; cases h
  | ok set =>
    rw [hs] at h
    simp only at h
    cases hi : initialise env set o.scales s with
    | none => rw [hi] at h; cases h
    | some r =>
      obtain ⟨r, s0⟩ := r
      cases r with
      | error e => rw [hi] at h; cases h
      | ok st0 =>
        rw [hi] at h
        simp only at h
        have hm : report env mean set st0 o.monitor =
            run "Time" numOf (rounds ([st0].reverse.map (fun x => [told env mean set x]))) .init := by
          rw [ho]
          exact report_run env mean set st0 []
        obtain ⟨st, m, f, h1, h2, h3, h4, h5, h6, h7, h8⟩ :=
          (loop_filled hf (.start st0) rfl (by simp) hm h).ends
        refine ⟨set, st0, s0, st, m, f, rfl, hi, h1, h2, h3, h4, h5, h6, h7, h8, ?_⟩
        have h0 : st0.generation = 0 := by
          unfold initialise at hi
          obtain ⟨ps, m', -, h9⟩ := Run.bind_ok.1 hi
          exact (findElitism_ok (Run.ofResult_ok.1 h9).1).1
        intro i x hx
        have hl : i < (st :: m ++ [st0]).length := by
          have := (List.getElem?_eq_some_iff.1 hx).1
          rwa [List.length_reverse] at this
        rw [List.getElem?_reverse hl] at hx
        have := gens h1 (fun z hz => by
          rw [List.getLast?_append] at hz
          simp at hz
          rw [← hz]; exact h0) _ _ hx
        simp only [List.length_append, List.length_cons, List.length_nil] at this hl
        omega

/-- A genetic algorithm that was just made, for three individuals and at most three generations. -/
def exObj : GaObj String ℚ ℚ :=
  ⟨⟨GaFitter.defaults, .average, .tour 2⟩, .new, none, [], .init⟩

/-- The settings of its fit. -/
def exKw : SDict ℚ := [("n_collect", .int 3), ("max_round", .int 2), ("max_stay", .int 2)]

/-- A fit that goes through three generations after the first. -/
example : ("ParameterList" ∈ "ParameterList" :: "finish" :: paramSetNames) ∧
    (fit ("ParameterList" :: "finish" :: paramSetNames) exGa (fun ws => ws.headD .nan) 9 exKw exObj 0).map
      (fun r => (r.1.toBool, r.2.1.collector.algorithm, r.2.1.collector.particles.length)) = some (true, "Prior", 3) ∧
    (fit ("ParameterList" :: "finish" :: paramSetNames) exGa (fun ws => ws.headD .nan) 9 exKw exObj 0).map
      (fun r => r.2.1.collector.notes.flatMap (fun n => n.2.index)) =
      some [some (.fin 0), some (.fin 1), some (.fin 2), some (.fin 3)] := by
  refine ⟨by decide, ?_, ?_⟩ <;> decide +kernel

end Props.GaFit
