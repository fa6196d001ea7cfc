import Verif.Lemmas.Sir
import Verif.Props.FitBase
import Verif.Props.Targets
import Mathlib.Probability.Distributions.Gaussian.Real
import Mathlib.Probability.Independence.Basic
import Mathlib.Tactic.FinCases

/-!
# The example models (C153 to C158)
-/

namespace Props.Toys
set_option linter.unusedSectionVars false

open Py Model Props.FitBase

/-! ### C153: what the numerical solution of the SIR model is made of -/

section Numeric

variable {K D : Type} [Field K] [LinearOrder K] [IsStrictOrderedRing K]

/-- The states an explicit integrator visits: it starts at the initial state, and moves by multiples of derivatives
taken at states it has visited.  The stages, steps and interpolated answers of every explicit Runge-Kutta method,
with every choice of step sizes (so those of the `RK45` of `solve_ivp`), are sums of this form. -/
inductive Reached (be ga : K) : Sir K → Prop
  | start : Reached be ga sirStart
  | move {y z : Sir K} (w : K) : Reached be ga y → Reached be ga z →
      Reached be ga ⟨y.s + w * (sirDeriv be ga z).s, y.i + w * (sirDeriv be ga z).i, y.r + w * (sirDeriv be ga z).r⟩

/-- C153, the population: at every state an integrator visits the three groups sum to 1000. -/
theorem C153_total {be ga : K} {y : Sir K} (h : Reached be ga y) : y.s + y.i + y.r = 1000 := by
  induction h with
  | start => norm_num [sirStart]
  | @move y z w _ _ ih _ =>
    simp only [sirDeriv]
    linear_combination ih

/-- An Euler step of half a day is among the states. -/
example : Reached (3 / 2 : ℚ) (1 / 5) ⟨990 - 2970 / 400, 10 + 2970 / 400 - 1, 1⟩ := by
  have := Reached.move (be := (3 / 2 : ℚ)) (ga := 1 / 5) (1 / 2) .start .start
  norm_num [sirDeriv, sirStart, Sir.total] at this ⊢
  exact this

/-- The names and numbers that six states lead to, in the order in which they are recorded. -/
def recorded (be ga : K) (ys : List (Sir K)) : List (String × K) :=
  ((["Inc_2", "Inc_3", "Inc_4", "Inc_5", "Inc_6", "Inc_7"].zip
      (["Prev_2", "Prev_3", "Prev_4", "Prev_5", "Prev_6", "Prev_7"].zip
        ["Rec_2", "Rec_3", "Rec_4", "Rec_5", "Rec_6", "Rec_7"])).zip ys).flatMap
    (fun ky => [(ky.1.1, be * ky.2.s * ky.2.i / 1000000), (ky.1.2.1, ky.2.i / 1000), (ky.1.2.2, ga * ky.2.i / 1000)])

theorem six {X : Type} {ys : List X} (h : ys.length = 6) : ∃ a b c d e f, ys = [a, b, c, d, e, f] := by
  match ys, h with
  | [a, b, c, d, e, f], _ => exact ⟨a, b, c, d, e, f, rfl⟩

theorem record_eq (be ga : K) (dat : Dict String (XR K)) (t : ℕ) (y : Sir K) (hy : y.total = 1000) :
    sirRecord be ga dat t y =
      ((dat.set ("Inc_" ++ toString t) (.fin (be * y.s * y.i / 1000000))).set ("Prev_" ++ toString t)
        (.fin (y.i / 1000))).set ("Rec_" ++ toString t) (.fin (ga * y.i / 1000)) := by
  have h : (1000 : K) ≠ 0 := by norm_num
  simp only [sirRecord, hy, XR.fin_div_fin_of_ne _ h]
  congr 4
  rw [div_div]
  norm_num

theorem solve_eq (be ga : K) {ys : List (Sir K)} (hl : ys.length = 6) (hy : ∀ y ∈ ys, y.total = 1000) :
    sirSolve be ga ys = (recorded be ga ys).map (fun p => (p.1, .fin p.2)) := by
  obtain ⟨a, b, c, d, e, f, rfl⟩ := six hl
  simp only [List.mem_cons, List.not_mem_nil, or_false, forall_eq_or_imp, forall_eq] at hy
  obtain ⟨ha, hb, hc, hd, he, hf⟩ := hy
  simp only [sirSolve, sirTimes, List.zip_cons_cons, List.zip_nil_right, List.foldl_cons, List.foldl_nil,
    record_eq be ga _ _ _ ha, record_eq be ga _ _ _ hb, record_eq be ga _ _ _ hc, record_eq be ga _ _ _ hd,
    record_eq be ga _ _ _ he, record_eq be ga _ _ _ hf]
  have e2 : toString 2 = "2" := rfl
  have e3 : toString 3 = "3" := rfl
  have e4 : toString 4 = "4" := rfl
  have e5 : toString 5 = "5" := rfl
  have e6 : toString 6 = "6" := rfl
  have e7 : toString 7 = "7" := rfl
  simp [e2, e3, e4, e5, e6, e7, Dict.set, recorded]

theorem recorded_keys (be ga : K) {ys : List (Sir K)} (hl : ys.length = 6) :
    (recorded be ga ys).map Prod.fst = ["Inc_2", "Prev_2", "Rec_2", "Inc_3", "Prev_3", "Rec_3", "Inc_4", "Prev_4",
      "Rec_4", "Inc_5", "Prev_5", "Rec_5", "Inc_6", "Prev_6", "Rec_6", "Inc_7", "Prev_7", "Rec_7"] := by
  obtain ⟨a, b, c, d, e, f, rfl⟩ := six hl
  rfl

/-- C153: whatever states an integrator answers with, the simulation has exactly the eighteen values of six times,
and at each of them they are the prevalence `i/1000`, the incidence `be s i / 1000^2` and the removal rate, which is
`ga` times the prevalence. -/
theorem C153 (be ga : K) (ys : List (Sir K)) (hl : ys.length = 6) (hr : ∀ y ∈ ys, Reached be ga y) :
    (sirSolve be ga ys).keys = ["Inc_2", "Prev_2", "Rec_2", "Inc_3", "Prev_3", "Rec_3", "Inc_4", "Prev_4",
      "Rec_4", "Inc_5", "Prev_5", "Rec_5", "Inc_6", "Prev_6", "Rec_6", "Inc_7", "Prev_7", "Rec_7"] ∧
    ∀ j : Fin 6, ∃ y ∈ ys[j.val]?, ∃ prev : K, prev = y.i / 1000 ∧
      (sirSolve be ga ys).get? ("Prev_" ++ toString (j.val + 2)) = some (.fin prev) ∧
      (sirSolve be ga ys).get? ("Inc_" ++ toString (j.val + 2)) = some (.fin (be * (y.s / 1000) * prev)) ∧
      (sirSolve be ga ys).get? ("Rec_" ++ toString (j.val + 2)) = some (.fin (ga * prev)) := by
  have ht : ∀ y ∈ ys, y.total = 1000 := fun y h => C153_total (hr y h)
  rw [solve_eq be ga hl ht]
  obtain ⟨a, b, c, d, e, f, rfl⟩ := six hl
  refine ⟨rfl, fun j => ?_⟩
  have key : ∀ y : Sir K, be * (y.s / 1000) * (y.i / 1000) = be * y.s * y.i / 1000000 ∧
      ga * (y.i / 1000) = ga * y.i / 1000 := by
    intro y
    constructor <;> ring
  fin_cases j
  · exact ⟨a, rfl, _, rfl, rfl, by rw [(key a).1]; rfl, by rw [(key a).2]; rfl⟩
  · exact ⟨b, rfl, _, rfl, rfl, by rw [(key b).1]; rfl, by rw [(key b).2]; rfl⟩
  · exact ⟨c, rfl, _, rfl, rfl, by rw [(key c).1]; rfl, by rw [(key c).2]; rfl⟩
  · exact ⟨d, rfl, _, rfl, rfl, by rw [(key d).1]; rfl, by rw [(key d).2]; rfl⟩
  · exact ⟨e, rfl, _, rfl, rfl, by rw [(key e).1]; rfl, by rw [(key e).2]; rfl⟩
  · exact ⟨f, rfl, _, rfl, rfl, by rw [(key f).1]; rfl, by rw [(key f).2]; rfl⟩

example : (List.replicate 6 (⟨990 - 2970 / 400, 10 + 2970 / 400 - 1, 1⟩ : Sir ℚ)).length = 6 ∧
    (sirSolve (3 / 2 : ℚ) (1 / 5) (List.replicate 6 ⟨990, 10, 0⟩)).get? "Prev_7" = some (.fin (1 / 100)) := by
  decide +kernel

end Numeric

/-! ### C154: what the exact solution of the SIR model is -/

section Exact

open Set Lemmas.Sir

variable {be ga : ℝ} {y : ℝ → Sir ℝ}

/-- C154, existence and uniqueness: for every positive removal rate there is one solution on `[0, 10]`. -/
theorem C154_unique (be : ℝ) (hga : 0 < ga) :
    (∃ y, IsSolution be ga y) ∧
      ∀ y z, IsSolution be ga y → IsSolution be ga z → ∀ t ∈ Icc (0 : ℝ) 10, y t = z t :=
  ⟨exists_solution be hga, fun _ _ h h' => h.unique hga h'⟩

/-- C154, the course of the epidemic: nobody is lost, the susceptible and the infectious are never exhausted, and the
course stays on the curve `be (s + i) - ga n log s = const`; with positive rates the susceptible always fall and the
removed always rise. -/
theorem C154 (h : IsSolution be ga y) :
    (∀ t ∈ Icc (0 : ℝ) 10, (y t).s + (y t).i + (y t).r = 1000 ∧ 0 < (y t).s ∧ 0 < (y t).i ∧
      (0 ≤ ga → 0 ≤ (y t).r) ∧
      be * ((y t).s + (y t).i) - ga * 1000 * Real.log (y t).s = be * 1000 - ga * 1000 * Real.log 990) ∧
    (0 < be → StrictAntiOn (fun t => (y t).s) (Icc 0 10)) ∧
    (0 < ga → StrictMonoOn (fun t => (y t).r) (Icc 0 10)) :=
  ⟨fun t ht => ⟨h.total t ht, h.s_pos t ht, h.i_pos t ht, fun hga => h.r_nonneg hga t ht, h.first_integral t ht⟩,
    h.s_anti, h.r_mono⟩

/-- The states at the evaluation times. -/
def atTimes (y : ℝ → Sir ℝ) : List (Sir ℝ) := [y 2, y 3, y 4, y 5, y 6, y 7]

theorem atTimes_mem {x : Sir ℝ} (h : x ∈ atTimes y) : ∃ t ∈ Icc (0 : ℝ) 10, x = y t := by
  simp only [atTimes, List.mem_cons, List.not_mem_nil, or_false] at h
  rcases h with rfl | rfl | rfl | rfl | rfl | rfl
  · exact ⟨2, by norm_num, rfl⟩
  · exact ⟨3, by norm_num, rfl⟩
  · exact ⟨4, by norm_num, rfl⟩
  · exact ⟨5, by norm_num, rfl⟩
  · exact ⟨6, by norm_num, rfl⟩
  · exact ⟨7, by norm_num, rfl⟩

theorem atTimes_total (h : IsSolution be ga y) : ∀ x ∈ atTimes y, x.total = 1000 := by
  intro x hx
  obtain ⟨t, ht, rfl⟩ := atTimes_mem hx
  exact h.total t ht

/-- C154, the simulated values: from an exact solution every value is finite and positive, the prevalence is less
than one, and the incidence at most `be/4`. -/
theorem C154_values (h : IsSolution be ga y) (hbe : 0 < be) (hga : 0 < ga) :
    ∀ j : Fin 6, ∃ prev inc rec : ℝ,
      (sirSolve be ga (atTimes y)).get? ("Prev_" ++ toString (j.val + 2)) = some (.fin prev) ∧
      (sirSolve be ga (atTimes y)).get? ("Inc_" ++ toString (j.val + 2)) = some (.fin inc) ∧
      (sirSolve be ga (atTimes y)).get? ("Rec_" ++ toString (j.val + 2)) = some (.fin rec) ∧
      0 < prev ∧ prev < 1 ∧ 0 < inc ∧ inc ≤ be / 4 ∧ 0 < rec ∧ rec < ga := by
  rw [solve_eq be ga (ys := atTimes y) rfl (atTimes_total h)]
  have key : ∀ t ∈ Icc (0 : ℝ) 10, 0 < (y t).i / 1000 ∧ (y t).i / 1000 < 1 ∧
      0 < be * (y t).s * (y t).i / 1000000 ∧ be * (y t).s * (y t).i / 1000000 ≤ be / 4 ∧
      0 < ga * (y t).i / 1000 ∧ ga * (y t).i / 1000 < ga := by
    intro t ht
    have h1 := h.total t ht
    have h2 := h.s_pos t ht
    have h3 := h.i_pos t ht
    have h4 := h.r_nonneg hga.le t ht
    unfold Sir.total at h1
    have h5 : (y t).s * (y t).i ≤ 250000 := by nlinarith [sq_nonneg ((y t).s - (y t).i)]
    refine ⟨by positivity, by linarith, by positivity, ?_, by positivity, ?_⟩
    · have : be * ((y t).s * (y t).i) ≤ be * 250000 := mul_le_mul_of_nonneg_left h5 hbe.le
      linarith
    · have : ga * (y t).i < ga * 1000 := mul_lt_mul_of_pos_left (by linarith) hga
      linarith
  intro j
  fin_cases j
  · exact ⟨_, _, _, rfl, rfl, rfl, key 2 (by norm_num)⟩
  · exact ⟨_, _, _, rfl, rfl, rfl, key 3 (by norm_num)⟩
  · exact ⟨_, _, _, rfl, rfl, rfl, key 4 (by norm_num)⟩
  · exact ⟨_, _, _, rfl, rfl, rfl, key 5 (by norm_num)⟩
  · exact ⟨_, _, _, rfl, rfl, rfl, key 6 (by norm_num)⟩
  · exact ⟨_, _, _, rfl, rfl, rfl, key 7 (by norm_num)⟩

/-- There are such solutions, for the default parameters of `EpiSIR` as well. -/
example : ∃ y, IsSolution (3 / 2) (1 / 5) y := exists_solution _ (by norm_num)

end Exact

/-! ### Targets read from numbers -/

section Targets

variable {K D : Type} [Field K] [LinearOrder K] [IsStrictOrderedRing K]

theorem set_fresh {V : Type} (d : Dict String V) (k : String) (v : V) (hk : k ∉ d.keys) :
    d.set k v = d ++ [(k, v)] := by
  induction d with
  | nil => rfl
  | cons p d ih =>
    obtain ⟨k', v'⟩ := p
    simp only [Dict.keys_cons, List.mem_cons, not_or] at hk
    have hne : ¬ k' = k := fun e => hk.1 e.symm
    simp [Dict.set, hne, ih hk.2]

/-- A dictionary of numbers is read as error targets. -/
theorem read_numbers (ops : DistOps D K) (parse : String → Result D) (e : XR K) (l : List (String × XR K))
    (hl : (l.map Prod.fst).Nodup) :
    readTargets ops parse e (l.map (fun p => (p.1, .num p.2))) = .ok (l.map (fun p => (p.1, .mkError p.1 p.2 e))) := by
  have key : ∀ (l : List (String × XR K)) (acc : Dict String (Target String K D)),
      (acc.keys ++ l.map Prod.fst).Nodup →
      ((l.map (fun p => (p.1, TargetSrc.num p.2))).foldlM (fun parsed kv => do
        let pt ← readTarget ops parse e kv.1 kv.2
        return parsed.set kv.1 pt) acc : Result _) = .ok (acc ++ l.map (fun p => (p.1, .mkError p.1 p.2 e))) := by
    intro l
    induction l with
    | nil => intro acc _; simp [pure, Except.pure]
    | cons p l ih =>
      intro acc hn
      have hk : p.1 ∉ acc.keys := by
        intro hk
        rw [List.nodup_append] at hn
        exact hn.2.2 p.1 hk p.1 (by simp) rfl
      have := ih (acc ++ [(p.1, .mkError p.1 p.2 e)]) (by simpa [Dict.keys] using hn)
      have hrd : readTarget ops parse e p.1 (.num p.2) = .ok (.mkError p.1 p.2 e) := rfl
      simp only [List.map_cons, List.foldlM_cons, hrd, bind, Except.bind, pure, Except.pure,
        set_fresh _ _ _ hk] at this ⊢
      rw [this]
      simp
  unfold readTargets
  rw [key l [] (by simpa [Dict.keys] using hl)]
  simp

/-- The distance to error targets of positive values: finite, at least 0, and 0 exactly when all values are met. -/
theorem distance_numbers (ops : DistOps D K) {e : K} (he : 0 < e) (l : List (String × K)) (hl : ∀ p ∈ l, 0 < p.2)
    (sims : Dict String (XR K)) (hs : ∀ p ∈ l, ∃ s, sims.get? p.1 = some (.fin s)) :
    ∃ d : K, IsDistance ops (l.map (fun p => (p.1, .mkError p.1 (.fin p.2) (.fin e)))) sims (.fin d) ∧ 0 ≤ d ∧
      (d = 0 ↔ ∀ p ∈ l, sims.get? p.1 = some (.fin p.2)) := by
  induction l with
  | nil => exact ⟨0, ⟨[], .nil, rfl⟩, le_rfl, by simp⟩
  | cons p l ih =>
    obtain ⟨d, ⟨ds, hf, hsum⟩, hd, hiff⟩ := ih (fun q hq => hl q (.tail _ hq)) (fun q hq => hs q (.tail _ hq))
    obtain ⟨s, hps⟩ := hs p (.head _)
    obtain ⟨d', h1, h2, h3⟩ := Props.Targets.C59_error_partial ops p.1 p.2 e (mul_pos he (hl p (.head _))) sims s hps
    refine ⟨d' + d, ⟨.fin d' :: ds, .cons h1 hf, by rw [List.sum_cons, ← hsum, XR.fin_add_fin]⟩, add_nonneg h2 hd, ?_⟩
    simp only [List.mem_cons, forall_eq_or_imp, ← hiff, hps, Option.some.injEq, XR.fin.injEq, ← h3]
    constructor
    · intro h
      constructor <;> linarith
    · rintro ⟨ha, hb⟩
      rw [ha, hb, add_zero]

/-- Error targets with any values: there always is a distance when every value is simulated. -/
theorem distance_exists (ops : DistOps D K) (e : XR K) (l : List (String × XR K)) (sims : Dict String (XR K))
    (hs : ∀ p ∈ l, ∃ s, sims.get? p.1 = some s) :
    ∃ ds, List.Forall₂ (fun (kt : String × Target String K D) d => Target.distance ops sims kt.2 = .ok d)
      (l.map (fun p => (p.1, .mkError p.1 p.2 e))) ds := by
  induction l with
  | nil => exact ⟨[], .nil⟩
  | cons p l ih =>
    obtain ⟨ds, hf⟩ := ih (fun q hq => hs q (.tail _ hq))
    obtain ⟨s, hps⟩ := hs p (.head _)
    exact ⟨_ :: ds, .cons (by simp only [Target.distance, Target.mkError, hps]; rfl) hf⟩

theorem sum_nan {l : List (XR K)} (h : .nan ∈ l) : l.sum = .nan := by
  induction l with
  | nil => cases h
  | cons x l ih =>
    rw [List.sum_cons]
    rcases List.mem_cons.1 h with rfl | h
    · simp
    · rw [ih h]; simp

/-- A value of zero that is met exactly spoils the whole distance. -/
theorem distance_nan (ops : DistOps D K) (e : K) (l : List (String × XR K)) (sims : Dict String (XR K))
    (hs : ∀ p ∈ l, ∃ s, sims.get? p.1 = some s) {k : String} (hk : (k, .fin 0) ∈ l)
    (h0 : sims.get? k = some (.fin 0)) :
    IsDistance ops (l.map (fun p => (p.1, .mkError p.1 p.2 (.fin e)))) sims .nan := by
  obtain ⟨ds, hf⟩ := distance_exists ops (.fin e) l sims hs
  refine ⟨ds, hf, ?_⟩
  rw [sum_nan]
  have hz : (z95 : K) ≠ 0 := by unfold z95; norm_num
  clear hs
  induction l generalizing ds with
  | nil => cases hk
  | cons p l ih =>
    cases hf with
    | @cons _ d _ ds hd hf =>
      rcases List.mem_cons.1 hk with rfl | hk
      · have : d = .nan := by
          simp only [Target.distance, Target.mkError, h0, Except.ok.injEq, XR.fin_mul_fin, mul_zero,
            XR.fin_div_fin_of_ne _ (two_ne_zero (α := K)), zero_div, XR.fin_div_fin_of_ne _ hz, XR.fin_sub_fin,
            sub_self, XR.sq_fin] at hd
          rw [← hd]
          simp [XR.fin_div_fin, XR.scaleInf]
        exact this ▸ .head _
      · exact .tail _ (ih hk ds hf)

end Targets

/-! ### C155: the targets of the SIR model -/

section SirTargets

open Lemmas.Sir

variable {D V : Type} {be ga be' ga' : ℝ} {y z : ℝ → Sir ℝ}

theorem sims_simulate (pars : Pars String V ℝ) (be ga : ℝ) (ys : List (Sir ℝ)) :
    (sirSimulate pars be ga ys).sims = sirSolve be ga ys := by
  unfold sirSimulate
  generalize sirSolve be ga ys = d
  rfl

theorem solve_nums (h : IsSolution be ga y) :
    sirSolve be ga (atTimes y) = (recorded be ga (atTimes y)).map (fun p => (p.1, .fin p.2)) :=
  solve_eq be ga (ys := atTimes y) rfl (atTimes_total h)

theorem keys_nodup (be ga : ℝ) (y : ℝ → Sir ℝ) : ((recorded be ga (atTimes y)).map Prod.fst).Nodup := by
  rw [recorded_keys be ga (ys := atTimes y) rfl]
  decide

/-- C155 (the part that holds): when both rates are positive, the targets of `EpiSIR(be, ga)` made from the exact
solution identify the rates: every simulation with a positive transmission rate has a finite distance of at least 0, and it is 0
exactly for the rates the data were made with. -/
theorem C155_partial (ops : DistOps D ℝ) (parse : String → Result D) (hbe : 0 < be) (hga : 0 < ga) (hbe' : 0 < be')
    (hy : IsSolution be ga y) (hz : IsSolution be' ga' z) (pars : Pars String V ℝ) :
    ∃ data, sirTargets ops parse be ga (atTimes y) = .ok data ∧
      ∃ d : ℝ, IsDistance ops data (sirSimulate pars be' ga' (atTimes z)).sims (.fin d) ∧ 0 ≤ d ∧
        (d = 0 ↔ be' = be ∧ ga' = ga) := by
  rw [sims_simulate]
  refine ⟨(recorded be ga (atTimes y)).map (fun p => (p.1, .mkError p.1 (.fin p.2) (.fin (1 / 20)))), ?_, ?_⟩
  · have := read_numbers ops parse (.fin (1 / 20)) ((recorded be ga (atTimes y)).map (fun p => (p.1, XR.fin p.2)))
      (by rw [List.map_map]; exact keys_nodup be ga y)
    simp only [List.map_map, Function.comp_def] at this
    unfold sirTargets
    rw [solve_nums hy]
    simpa only [List.map_map, Function.comp_def] using this
  · have hpos : ∀ p ∈ recorded be ga (atTimes y), 0 < p.2 := by
      intro p hp
      simp only [recorded, List.mem_flatMap] at hp
      obtain ⟨ky, hky, hp⟩ := hp
      obtain ⟨t, ht, e⟩ := atTimes_mem (List.of_mem_zip hky).2
      rw [e] at hp
      have h1 := hy.s_pos t ht
      have h2 := hy.i_pos t ht
      simp only [List.mem_cons, List.not_mem_nil, or_false] at hp
      rcases hp with rfl | rfl | rfl <;> positivity
    have hs : ∀ p ∈ recorded be ga (atTimes y), ∃ s, (sirSolve be' ga' (atTimes z)).get? p.1 = some (.fin s) := by
      intro p hp
      rw [solve_nums hz]
      simp only [recorded, atTimes, List.zip_cons_cons, List.zip_nil_right, List.flatMap_cons, List.flatMap_nil,
        List.append_nil, List.cons_append, List.nil_append, List.mem_cons, List.not_mem_nil, or_false] at hp
      rcases hp with rfl | rfl | rfl | rfl | rfl | rfl | rfl | rfl | rfl | rfl | rfl | rfl | rfl | rfl | rfl | rfl | rfl | rfl <;>
        exact ⟨_, rfl⟩
    obtain ⟨d, h1, h2, h3⟩ := distance_numbers ops (e := (1 / 20 : ℝ)) (by norm_num) _ hpos _ hs
    refine ⟨d, h1, h2, h3.trans ⟨fun h => ?_, ?_⟩⟩
    · rw [solve_nums hz] at h
      have get : ∀ (k : String) (a b : ℝ), (k, a) ∈ recorded be ga (atTimes y) →
          Dict.get? ((recorded be' ga' (atTimes z)).map (fun p => (p.1, XR.fin p.2))) k = some (.fin b) → b = a := by
        intro k a b hk hb
        have := h (k, a) hk
        rw [hb] at this
        simpa using this
      have p2 : (z 2).i / 1000 = (y 2).i / 1000 := get "Prev_2" _ _ (by simp [recorded, atTimes]) rfl
      have p3 : (z 3).i / 1000 = (y 3).i / 1000 := get "Prev_3" _ _ (by simp [recorded, atTimes]) rfl
      have p4 : (z 4).i / 1000 = (y 4).i / 1000 := get "Prev_4" _ _ (by simp [recorded, atTimes]) rfl
      have r2 : ga' * (z 2).i / 1000 = ga * (y 2).i / 1000 := get "Rec_2" _ _ (by simp [recorded, atTimes]) rfl
      have i2 : be' * (z 2).s * (z 2).i / 1000000 = be * (y 2).s * (y 2).i / 1000000 :=
        get "Inc_2" _ _ (by simp [recorded, atTimes]) rfl
      have i3 : be' * (z 3).s * (z 3).i / 1000000 = be * (y 3).s * (y 3).i / 1000000 :=
        get "Inc_3" _ _ (by simp [recorded, atTimes]) rfl
      have i4 : be' * (z 4).s * (z 4).i / 1000000 = be * (y 4).s * (y 4).i / 1000000 :=
        get "Inc_4" _ _ (by simp [recorded, atTimes]) rfl
      have e2 : (z 2).i = (y 2).i := by linarith
      have e3 : (z 3).i = (y 3).i := by linarith
      have e4 : (z 4).i = (y 4).i := by linarith
      have q2 := hy.i_pos 2 (by norm_num)
      have q3 := hy.i_pos 3 (by norm_num)
      have q4 := hy.i_pos 4 (by norm_num)
      have hg : ga' = ga := by
        rw [e2] at r2
        have : ga' * (y 2).i = ga * (y 2).i := by linarith
        exact mul_right_cancel₀ q2.ne' this
      subst hg
      refine ⟨?_, rfl⟩
      have s2 : be' * (z 2).s = be * (y 2).s := by
        rw [e2] at i2
        exact mul_right_cancel₀ q2.ne' (by linarith)
      have s3 : be' * (z 3).s = be * (y 3).s := by
        rw [e3] at i3
        exact mul_right_cancel₀ q3.ne' (by linarith)
      have s4 : be' * (z 4).s = be * (y 4).s := by
        rw [e4] at i4
        exact mul_right_cancel₀ q4.ne' (by linarith)
      refine hz.identify hbe' hbe hga hy (a := 2) (b := 3) (c := 4) (by norm_num) (by norm_num) (by norm_num)
        (by norm_num) ?_ ?_
      · intro t ht
        simp only [Set.mem_insert_iff, Set.mem_singleton_iff] at ht
        rcases ht with rfl | rfl | rfl <;> assumption
      · intro t ht
        simp only [Set.mem_insert_iff, Set.mem_singleton_iff] at ht
        rcases ht with rfl | rfl | rfl <;> assumption
    · rintro ⟨rfl, rfl⟩ p hp
      have hu := hy.unique hga hz
      have : atTimes z = atTimes y := by
        simp only [atTimes]
        rw [hu 2 (by norm_num), hu 3 (by norm_num), hu 4 (by norm_num), hu 5 (by norm_num), hu 6 (by norm_num),
          hu 7 (by norm_num)]
      rw [this, solve_nums hy]
      refine Dict.get?_of_mem ?_ (List.mem_map.2 ⟨p, hp, rfl⟩)
      unfold Dict.WF Dict.keys
      rw [List.map_map]
      exact keys_nodup _ _ y

/-- The hypotheses can be met: data from one pair of rates, a simulation from another. -/
example : ∃ y z, IsSolution (3 / 2) (1 / 5) y ∧ IsSolution 2 (1 / 4) z :=
  let ⟨y, hy⟩ := exists_solution (3 / 2) (ga := 1 / 5) (by norm_num)
  let ⟨z, hz⟩ := exists_solution 2 (ga := 1 / 4) (by norm_num)
  ⟨y, z, hy, hz⟩

/-- C155 fails without removal: in `EpiSIR(be, 0)` the targets `Rec_2` to `Rec_7` are 0 with a standard deviation of 0, and
the distance of the very solution the data were made from is NaN. -/
theorem C155_refuted (ops : DistOps D ℝ) (parse : String → Result D) (be : ℝ) (ys : List (Sir ℝ)) (hl : ys.length = 6)
    (hr : ∀ x ∈ ys, Reached be 0 x) (pars : Pars String V ℝ) :
    ∃ data, sirTargets ops parse be 0 ys = .ok data ∧ IsDistance ops data (sirSimulate pars be 0 ys).sims .nan := by
  have hs := solve_eq be 0 hl (fun x hx => C153_total (hr x hx))
  rw [sims_simulate]
  refine ⟨(sirSolve be 0 ys).map (fun p => (p.1, .mkError p.1 p.2 (.fin (1 / 20)))), ?_, ?_⟩
  · refine read_numbers ops parse (.fin (1 / 20)) (sirSolve be 0 ys) ?_
    rw [hs, List.map_map]
    have := recorded_keys be 0 hl
    simp only [Function.comp_def]
    rw [this]
    decide
  · refine distance_nan ops (1 / 20) (sirSolve be 0 ys) _ ?_ (k := "Rec_2") ?_ ?_
    · intro p hp
      exact Option.isSome_iff_exists.1 ((Dict.get?_isSome_iff _ _).2 (List.mem_map.2 ⟨p, hp, rfl⟩))
    · rw [hs]
      obtain ⟨a, b, c, d, e, f, rfl⟩ := six hl
      simp [recorded]
    · rw [hs]
      obtain ⟨a, b, c, d, e, f, rfl⟩ := six hl
      have : (0 : ℝ) * a.i / 1000 = 0 := by simp
      show some (XR.fin ((0 : ℝ) * a.i / 1000)) = _
      rw [this]

example : (List.replicate 6 (sirStart : Sir ℝ)).length = 6 ∧
    ∀ x ∈ List.replicate 6 (sirStart : Sir ℝ), Reached (3 / 2 : ℝ) 0 x :=
  ⟨rfl, fun _ h => (List.eq_of_mem_replicate h) ▸ .start⟩

end SirTargets

/-! ### C156: counts of successes -/

section BetaBin

variable {K D : Type} [Field K] [LinearOrder K] [IsStrictOrderedRing K]

/-- C156 (the part that holds): when both observed counts are positive, every simulation has a finite distance of at
least 0, and it is 0 exactly when both counts are met. -/
theorem C156_partial (ops : DistOps D K) (parse : String → Result D) (d1 d2 x1 x2 : K) (h1 : 0 < d1) (h2 : 0 < d2)
    (sims : Dict String (XR K)) (hs1 : sims.get? "x1" = some (.fin x1)) (hs2 : sims.get? "x2" = some (.fin x2)) :
    ∃ data, betaBinTargets ops parse d1 d2 = .ok data ∧
      ∃ d : K, IsDistance ops data sims (.fin d) ∧ 0 ≤ d ∧ (d = 0 ↔ x1 = d1 ∧ x2 = d2) := by
  refine ⟨_, read_numbers ops parse (.fin (1 / 10)) [("x1", .fin d1), ("x2", .fin d2)] (by simp), ?_⟩
  obtain ⟨d, a, b, c⟩ := distance_numbers ops (e := (1 / 10 : K)) (by norm_num) [("x1", d1), ("x2", d2)]
    (by simp [h1, h2]) sims (by simp [hs1, hs2])
  refine ⟨d, a, b, c.trans ?_⟩
  simp [hs1, hs2]

example : ∃ data, betaBinTargets (⟨fun _ => .nan, fun _ => .nan, fun _ _ => .nan⟩ : DistOps Unit ℚ)
    (fun _ => .error .SyntaxError) 7 14 = .ok data := ⟨_, rfl⟩

/-- C156 fails for an observed count of 0: a simulation that meets both counts has the distance NaN. -/
theorem C156_refuted (ops : DistOps D K) (parse : String → Result D) (d2 : K) (sims : Dict String (XR K))
    (hs1 : sims.get? "x1" = some (.fin 0)) (hs2 : sims.get? "x2" = some (.fin d2)) :
    ∃ data, betaBinTargets ops parse 0 d2 = .ok data ∧ IsDistance ops data sims .nan := by
  refine ⟨_, read_numbers ops parse (.fin (1 / 10)) [("x1", .fin 0), ("x2", .fin d2)] (by simp), ?_⟩
  exact distance_nan ops (1 / 10) [("x1", .fin 0), ("x2", .fin d2)] sims (by simp [hs1, hs2]) (k := "x1") (by simp) hs1

/-- C156, the score of the older package: at most 0, and 0 exactly when both counts are met, whatever the data. -/
theorem C156_link (d1 d2 : K) (pars : Dict String K) (x1 x2 : K) (hx1 : pars.get? "x1" = some x1)
    (hx2 : pars.get? "x2" = some x2) :
    ∃ l : K, betaBinLink d1 d2 pars = .ok l ∧ l ≤ 0 ∧ (l = 0 ↔ x1 = d1 ∧ x2 = d2) := by
  refine ⟨-((x1 - d1) ^ 2 + (x2 - d2) ^ 2), by simp [betaBinLink, hx1, hx2]; rfl,
    by have := sq_nonneg (x1 - d1); have := sq_nonneg (x2 - d2); linarith, ?_⟩
  constructor
  · intro h
    have h1 := sq_nonneg (x1 - d1)
    have h2 := sq_nonneg (x2 - d2)
    have e1 : (x1 - d1) ^ 2 = 0 := by linarith
    have e2 : (x2 - d2) ^ 2 = 0 := by linarith
    exact ⟨sub_eq_zero.1 (pow_eq_zero_iff (two_ne_zero)|>.1 e1), sub_eq_zero.1 (pow_eq_zero_iff (two_ne_zero)|>.1 e2)⟩
  · rintro ⟨rfl, rfl⟩
    simp

example : betaBinLink (7 : ℚ) 14 [("x1", 5), ("x2", 15)] = .ok (-5) := by decide +kernel

end BetaBin

/-! ### C157: means of normal draws -/

section Normal2

variable {K D : Type} [Field K] [LinearOrder K] [IsStrictOrderedRing K]

theorem npMean_eq {xs : List K} (h : xs ≠ []) : npMean xs = .fin (xs.sum / xs.length) := by
  unfold npMean
  refine XR.fin_div_fin_of_ne _ ?_
  exact_mod_cast (List.length_pos_iff.2 h).ne'

/-- C157 (the part that holds): when both observed means are positive, every simulation has a finite distance of at
least 0, and it is 0 exactly when both means are met. -/
theorem C157_partial (ops : DistOps D K) (parse : String → Result D) (xs1 xs2 zs1 zs2 : List K)
    (hx1 : 0 < xs1.sum) (hx2 : 0 < xs2.sum) (hz1 : zs1 ≠ []) (hz2 : zs2 ≠ []) :
    ∃ data, normal2Targets ops parse xs1 xs2 = .ok data ∧
      ∃ d : K, IsDistance ops data (normal2Sims zs1 zs2) (.fin d) ∧ 0 ≤ d ∧
        (d = 0 ↔ zs1.sum / zs1.length = xs1.sum / xs1.length ∧ zs2.sum / zs2.length = xs2.sum / xs2.length) := by
  have n1 : xs1 ≠ [] := by rintro rfl; simp at hx1
  have n2 : xs2 ≠ [] := by rintro rfl; simp at hx2
  have l1 : (0 : K) < xs1.length := by exact_mod_cast List.length_pos_iff.2 n1
  have l2 : (0 : K) < xs2.length := by exact_mod_cast List.length_pos_iff.2 n2
  refine ⟨_, read_numbers ops parse (.fin (1 / 10)) [("x1", npMean xs1), ("x2", npMean xs2)] (by simp), ?_⟩
  obtain ⟨d, a, b, c⟩ := distance_numbers ops (e := (1 / 10 : K)) (by norm_num)
    [("x1", xs1.sum / xs1.length), ("x2", xs2.sum / xs2.length)]
    (by simp [div_pos hx1 l1, div_pos hx2 l2]) (normal2Sims zs1 zs2)
    (by simp [normal2Sims, npMean_eq hz1, npMean_eq hz2, Dict.get?_cons])
  simp only [npMean_eq n1, npMean_eq n2]
  refine ⟨d, a, b, c.trans ?_⟩
  simp [normal2Sims, npMean_eq hz1, npMean_eq hz2, Dict.get?_cons]

example : ∃ data, normal2Targets (⟨fun _ => .nan, fun _ => .nan, fun _ _ => .nan⟩ : DistOps Unit ℚ)
    (fun _ => .error .SyntaxError) [29, 31] [1, 2] = .ok data := ⟨_, rfl⟩

/-- C157 fails for a negative mean, as in `get_normal2([30, -2])`: the further the simulated mean is from the observed
one, the smaller the distance, without bound. -/
theorem C157_refuted (ops : DistOps D K) (parse : String → Result D) (xs1 xs2 : List K) (hx1 : 0 < xs1.sum)
    (hx2 : xs2.sum < 0) (b : K) :
    ∃ data, normal2Targets ops parse xs1 xs2 = .ok data ∧
      ∃ zs2, ∃ d : K, IsDistance ops data (normal2Sims xs1 zs2) (.fin d) ∧ d < b := by
  have n1 : xs1 ≠ [] := by rintro rfl; simp at hx1
  have n2 : xs2 ≠ [] := by rintro rfl; simp at hx2
  have l1 : (0 : K) < xs1.length := by exact_mod_cast List.length_pos_iff.2 n1
  have l2 : (0 : K) < xs2.length := by exact_mod_cast List.length_pos_iff.2 n2
  refine ⟨_, read_numbers ops parse (.fin (1 / 10)) [("x1", npMean xs1), ("x2", npMean xs2)] (by simp), ?_⟩
  obtain ⟨v1, hv1, e1⟩ : ∃ v : K, 0 < v ∧ npMean xs1 = .fin v := ⟨_, div_pos hx1 l1, npMean_eq n1⟩
  obtain ⟨v2, hv2, e2⟩ : ∃ v : K, v < 0 ∧ npMean xs2 = .fin v := ⟨_, div_neg_of_neg_of_pos hx2 l2, npMean_eq n2⟩
  set sd : K := -(1 / 10 * v2 / 2 / z95) with hsd
  have hz : (0 : K) < z95 := by unfold z95; norm_num
  have hsdpos : 0 < sd := by
    rw [hsd, neg_pos]
    exact div_neg_of_neg_of_pos (by linarith) hz
  -- the simulated mean lies so far off that the square over the spread exceeds the bound
  set s : K := v2 + (1 + |b| * sd) with hs
  have hzs : npMean [s] = .fin s := by rw [npMean_eq (by simp)]; simp
  have hs1 : (normal2Sims xs1 [s]).get? "x1" = some (.fin v1) := by simp [normal2Sims, e1, Dict.get?_cons]
  have hs2 : (normal2Sims xs1 [s]).get? "x2" = some (.fin s) := by simp [normal2Sims, hzs, Dict.get?_cons]
  obtain ⟨d1, hd1, -, hd10⟩ := Props.Targets.C59_error_partial ops "x1" v1 (1 / 10) (mul_pos (by norm_num) hv1)
    (normal2Sims xs1 [s]) v1 hs1
  have h1 : d1 = 0 := hd10.2 rfl
  have h2 : Target.distance ops (normal2Sims xs1 [s]) (.mkError "x2" (.fin v2) (.fin (1 / 10))) =
      .ok (.fin ((s - v2) * (s - v2) / (1 / 10 * v2 / 2 / z95))) := by
    have hne : (1 / 10 * v2 / 2 / z95 : K) ≠ 0 := by
      intro h
      rw [h, neg_zero] at hsd
      exact hsdpos.ne' hsd
    simp only [Target.distance, Target.mkError, hs2, XR.fin_mul_fin, XR.fin_div_fin_of_ne _ (two_ne_zero (α := K)),
      XR.fin_div_fin_of_ne _ hz.ne', XR.fin_sub_fin, XR.sq_fin, XR.fin_div_fin_of_ne _ hne]
  refine ⟨[s], d1 + (s - v2) * (s - v2) / (1 / 10 * v2 / 2 / z95), ⟨[.fin d1, .fin ((s - v2) * (s - v2) / (1 / 10 * v2 / 2 / z95))],
    ?_, ?_⟩, ?_⟩
  · rw [e1, e2]
    exact .cons hd1 (.cons h2 .nil)
  · simp only [List.sum_cons, List.sum_nil, add_zero, XR.fin_add_fin]
  · rw [h1, zero_add]
    have : 1 / 10 * v2 / 2 / z95 = -sd := by rw [hsd, neg_neg]
    rw [this, div_neg, neg_lt, lt_div_iff₀ hsdpos]
    have hb : -b ≤ |b| := neg_le_abs b
    have hb' : 0 ≤ |b| * sd := by positivity
    have e : s - v2 = 1 + |b| * sd := by rw [hs]; ring
    rw [e]
    nlinarith [mul_le_mul_of_nonneg_right hb hsdpos.le]

example : (0 : ℚ) < [29, 31].sum ∧ [(-3 : ℚ), -1].sum < 0 := by decide +kernel

end Normal2

section NormalLaw

open MeasureTheory ProbabilityTheory
open scoped NNReal

theorem pi_sum_law (n : ℕ) (mu : ℝ) (v : ℝ≥0) :
    (Measure.pi (fun _ : Fin n => gaussianReal mu v)).map (fun x => ∑ i, x i) = gaussianReal (n * mu) (n * v) := by
  have hind : iIndepFun (fun (i : Fin n) (x : Fin n → ℝ) => x i) (Measure.pi (fun _ : Fin n => gaussianReal mu v)) :=
    iIndepFun_pi (X := fun _ => id) (fun _ => aemeasurable_id)
  have hmap : ∀ i : Fin n, (Measure.pi (fun _ : Fin n => gaussianReal mu v)).map (fun x => x i) = gaussianReal mu v :=
    fun i => (measurePreserving_eval (fun _ : Fin n => gaussianReal mu v) i).map_eq
  have key : ∀ s : Finset (Fin n), (Measure.pi (fun _ : Fin n => gaussianReal mu v)).map (∑ i ∈ s, fun x => x i) =
      gaussianReal (s.card * mu) (s.card * v) := by
    intro s
    induction s using Finset.induction_on with
    | empty =>
      simp only [Finset.sum_empty, Finset.card_empty, Nat.cast_zero, zero_mul, gaussianReal_zero_var]
      show Measure.map (fun _ => (0 : ℝ)) _ = _
      rw [Measure.map_const]
      simp
    | insert a s ha ih =>
      rw [Finset.sum_insert ha, add_comm]
      rw [gaussianReal_add_gaussianReal_of_indepFun
        (iIndepFun.indepFun_finsetSum_of_notMem hind (fun i => measurable_pi_apply i) ha) ih (hmap a)]
      rw [Finset.card_insert_of_notMem ha]
      congr 1
      · push_cast; ring
      · push_cast; ring
  have := key Finset.univ
  rw [Finset.card_univ, Fintype.card_fin] at this
  rw [← this]
  congr 1
  ext x
  simp

/-- C157, the law of a simulated mean: of `n ≥ 1` independent normal draws it is normal with the same mean and the
`n`-th part of the variance. -/
theorem C157_law (n : ℕ) (hn : 0 < n) (mu : ℝ) (v : ℝ≥0) :
    ∃ m : (Fin n → ℝ) → ℝ, (∀ x, npMean (List.ofFn x) = .fin (m x)) ∧
      (Measure.pi (fun _ : Fin n => gaussianReal mu v)).map m = gaussianReal mu (v / n) := by
  refine ⟨fun x => (∑ i, x i) / n, fun x => ?_, ?_⟩
  · rw [npMean_eq (by
      intro h
      have := congrArg List.length h
      simp at this
      omega), List.sum_ofFn, List.length_ofFn]
  · have h0 : (n : ℝ) ≠ 0 := by exact_mod_cast hn.ne'
    have hc : (fun x : Fin n → ℝ => (∑ i, x i) / n) = (fun s : ℝ => s / n) ∘ (fun x => ∑ i, x i) := rfl
    rw [hc, ← Measure.map_map (by fun_prop) (by fun_prop), pi_sum_law, gaussianReal_map_div_const]
    congr 1
    · field_simp
    · ext
      push_cast
      field_simp

example : (0 : ℕ) < 10 := by norm_num

/-- C157, no draws: the mean is NaN. -/
theorem C157_empty : npMean ([] : List ℝ) = .nan := by
  simp [npMean, XR.fin_div_fin, XR.scaleInf]

end NormalLaw

/-! ### C158: the likelihood of two normal samples -/

section NormalTwo

open ProbabilityTheory

/-- The score of one observation is the logarithm of the normal density. -/
theorem C158_density (x mu : ℝ) : Real.exp (normLogpdf1 x mu) = gaussianPDFReal mu 1 x := by
  unfold normLogpdf1 gaussianPDFReal
  rw [Real.exp_sub, Real.exp_log (by positivity), div_eq_inv_mul]
  simp

theorem sum_logpdf (xs : List ℝ) (mu : ℝ) :
    (xs.map (normLogpdf1 · mu)).sum =
      (xs.map (normLogpdf1 · (xs.sum / xs.length))).sum - xs.length * (mu - xs.sum / xs.length) ^ 2 / 2 := by
  by_cases h : xs = []
  · subst h; simp
  have hl : (xs.length : ℝ) ≠ 0 := by exact_mod_cast (List.length_pos_iff.2 h).ne'
  have key : ∀ (l : List ℝ) (a : ℝ), (l.map (normLogpdf1 · mu)).sum - (l.map (normLogpdf1 · a)).sum =
      (mu - a) * (l.sum - l.length * a) - l.length * (mu - a) ^ 2 / 2 := by
    intro l a
    induction l with
    | nil => simp
    | cons x l ih =>
      simp only [List.map_cons, List.sum_cons, List.length_cons, Nat.cast_add, Nat.cast_one]
      unfold normLogpdf1 at ih ⊢
      linear_combination ih
  have := key xs (xs.sum / xs.length)
  rw [mul_div_cancel₀ _ hl, sub_self, mul_zero, zero_sub] at this
  linarith

/-- C158: the score of `NormalTwo` is the sum of the log densities, and among all pairs of means it is highest at the
two sample means and only there. -/
theorem C158 (xs1 xs2 : List ℝ) (h1 : xs1 ≠ []) (h2 : xs2 ≠ []) (pars : Dict String ℝ) (m1 m2 : ℝ)
    (hm1 : pars.get? "mu1" = some m1) (hm2 : pars.get? "mu2" = some m2) :
    ∃ l best : ℝ, normalTwoLink xs1 xs2 pars = .ok l ∧
      normalTwoLink xs1 xs2 [("mu1", xs1.sum / xs1.length), ("mu2", xs2.sum / xs2.length)] = .ok best ∧
      Real.exp l = (xs1.map (gaussianPDFReal m1 1)).prod * (xs2.map (gaussianPDFReal m2 1)).prod ∧
      l ≤ best ∧ (l = best ↔ m1 = xs1.sum / xs1.length ∧ m2 = xs2.sum / xs2.length) := by
  have hl1 : (0 : ℝ) < xs1.length := by exact_mod_cast List.length_pos_iff.2 h1
  have hl2 : (0 : ℝ) < xs2.length := by exact_mod_cast List.length_pos_iff.2 h2
  have hprod : ∀ (l : List ℝ) (m : ℝ), Real.exp (l.map (normLogpdf1 · m)).sum = (l.map (gaussianPDFReal m 1)).prod := by
    intro l m
    induction l with
    | nil => simp
    | cons x l ih => simp [Real.exp_add, C158_density, ih]
  refine ⟨(xs1.map (normLogpdf1 · m1)).sum + (xs2.map (normLogpdf1 · m2)).sum,
    (xs1.map (normLogpdf1 · (xs1.sum / xs1.length))).sum + (xs2.map (normLogpdf1 · (xs2.sum / xs2.length))).sum,
    by simp [normalTwoLink, hm1, hm2]; rfl, rfl, by rw [Real.exp_add, hprod, hprod], ?_⟩
  have e1 := sum_logpdf xs1 m1
  have e2 := sum_logpdf xs2 m2
  have q1 : 0 ≤ xs1.length * (m1 - xs1.sum / xs1.length) ^ 2 / 2 := by positivity
  have q2 : 0 ≤ xs2.length * (m2 - xs2.sum / xs2.length) ^ 2 / 2 := by positivity
  refine ⟨by linarith, fun h => ?_, ?_⟩
  · have z1 : xs1.length * (m1 - xs1.sum / xs1.length) ^ 2 / 2 = 0 := by linarith
    have z2 : xs2.length * (m2 - xs2.sum / xs2.length) ^ 2 / 2 = 0 := by linarith
    have f1 : (m1 - xs1.sum / xs1.length) ^ 2 = 0 := by
      rcases mul_eq_zero.1 (by linarith : (xs1.length : ℝ) * (m1 - xs1.sum / xs1.length) ^ 2 = 0) with h | h
      · exact absurd h hl1.ne'
      · exact h
    have f2 : (m2 - xs2.sum / xs2.length) ^ 2 = 0 := by
      rcases mul_eq_zero.1 (by linarith : (xs2.length : ℝ) * (m2 - xs2.sum / xs2.length) ^ 2 = 0) with h | h
      · exact absurd h hl2.ne'
      · exact h
    exact ⟨sub_eq_zero.1 (pow_eq_zero_iff two_ne_zero |>.1 f1), sub_eq_zero.1 (pow_eq_zero_iff two_ne_zero |>.1 f2)⟩
  · rintro ⟨rfl, rfl⟩
    rfl

example : [(29 : ℝ), 31] ≠ [] ∧ Dict.get? [("mu1", (30 : ℝ)), ("mu2", -2)] "mu2" = some (-2) :=
  ⟨by simp, by simp [Dict.get?_cons]⟩

end NormalTwo

end Props.Toys
