import Verif.Model.Hme
import Verif.Lemmas.Quantile
import Verif.Lemmas.Rand
import Verif.Props.Converter
import Mathlib.Logic.Relation
import Mathlib.Algebra.Order.Field.Rat
import Mathlib.Data.Rat.Floor

/-!
# Bayesian history matching (C68, C69, C70, C98, C99, C100)
-/

namespace Props.Hme
set_option linter.unusedSectionVars false
set_option synthInstance.maxSize 1024

open Py Model Model.Hme

variable {S N K D : Type} [DecidableEq N] [Field K] [LinearOrder K] [IsStrictOrderedRing K] [FloorSemiring K]

/-- Uniform numbers lie between 0 and 1 and come in the shape asked for. -/
structure Honest (env : HmeEnv S N K D) : Prop where
  lhs : ∀ p n s xss s', env.lhs p n s = (.ok xss, s') → ∀ us ∈ xss, us.length = p ∧ ∀ u ∈ us, 0 ≤ u ∧ u ≤ 1
  random : ∀ n p s, (env.random n p s).1.length = n ∧
    ∀ us ∈ (env.random n p s).1, us.length = p ∧ ∀ u ∈ us, 0 ≤ u ∧ u ≤ 1

/-- A point lies in a box, coordinate by coordinate. -/
def InBox (lower upper xs : List K) : Prop :=
  List.Forall₂ (· ≤ ·) lower xs ∧ List.Forall₂ (· ≤ ·) xs upper

theorem place_inBox {lower upper us : List K} (h : List.Forall₂ (· ≤ ·) lower upper) (hl : us.length = lower.length)
    (hu : ∀ u ∈ us, 0 ≤ u ∧ u ≤ 1) : InBox lower upper (place lower upper us) := by
  induction h generalizing us with
  | nil =>
    obtain rfl := List.length_eq_zero_iff.1 hl
    exact ⟨.nil, .nil⟩
  | @cons a b l l' hab _ ih =>
    cases us with
    | nil => simp at hl
    | cons u us =>
      obtain ⟨h1, h2⟩ := ih (us := us) (by simpa using hl) (fun v hv => hu v (by simp [hv]))
      obtain ⟨h3, h4⟩ := hu u (by simp)
      have h5 : 0 ≤ b - a := sub_nonneg.2 hab
      unfold place at h1 h2 ⊢
      simp only [List.zip_cons_cons, List.zipWith_cons_cons]
      refine ⟨.cons ?_ h1, .cons ?_ h2⟩
      · have := mul_nonneg h3 h5
        linarith
      · have := mul_le_mul_of_nonneg_right h4 h5
        linarith

theorem zipWith_min {lower upper a b : List K} (ha : InBox lower upper a) (hb : InBox lower upper b) :
    InBox lower upper (List.zipWith min a b) ∧ List.Forall₂ (· ≤ ·) (List.zipWith min a b) a ∧
      List.Forall₂ (· ≤ ·) (List.zipWith min a b) b := by
  obtain ⟨a1, a2⟩ := ha
  obtain ⟨b1, b2⟩ := hb
  induction a1 generalizing upper b with
  | nil =>
    cases a2
    cases b1
    exact ⟨⟨.nil, .nil⟩, .nil, .nil⟩
  | cons hab _ ih =>
    cases a2 with
    | cons c1 a2 =>
      cases b1 with
      | cons c2 b1 =>
        cases b2 with
        | cons c3 b2 =>
          obtain ⟨⟨h1, h2⟩, h3, h4⟩ := ih a2 b1 b2
          exact ⟨⟨.cons (le_min hab c2) h1, .cons ((min_le_left _ _).trans c1) h2⟩, .cons (min_le_left _ _) h3,
            .cons (min_le_right _ _) h4⟩

theorem zipWith_max {lower upper a b : List K} (ha : InBox lower upper a) (hb : InBox lower upper b) :
    InBox lower upper (List.zipWith max a b) ∧ List.Forall₂ (· ≤ ·) a (List.zipWith max a b) ∧
      List.Forall₂ (· ≤ ·) b (List.zipWith max a b) := by
  obtain ⟨a1, a2⟩ := ha
  obtain ⟨b1, b2⟩ := hb
  induction a1 generalizing upper b with
  | nil =>
    cases a2
    cases b1
    exact ⟨⟨.nil, .nil⟩, .nil, .nil⟩
  | cons hab _ ih =>
    cases a2 with
    | cons c1 a2 =>
      cases b1 with
      | cons c2 b1 =>
        cases b2 with
        | cons c3 b2 =>
          obtain ⟨⟨h1, h2⟩, h3, h4⟩ := ih a2 b1 b2
          exact ⟨⟨.cons (hab.trans (le_max_left _ _)) h1, .cons (max_le c1 c3) h2⟩, .cons (le_max_left _ _) h3,
            .cons (le_max_right _ _) h4⟩

theorem forall₂_refl (a : List K) : List.Forall₂ (· ≤ ·) a a := by
  induction a with
  | nil => exact .nil
  | cons x l ih => exact .cons (le_refl _) ih

theorem forall₂_trans {a b c : List K} (h : List.Forall₂ (· ≤ ·) a b) (h' : List.Forall₂ (· ≤ ·) b c) :
    List.Forall₂ (· ≤ ·) a c := by
  induction h generalizing c with
  | nil => exact h'
  | cons hab _ ih =>
    cases h' with
    | cons hbc h' => exact .cons (hab.trans hbc) (ih h')

theorem columns_min {lower upper : List K} {rows : List (List K)} (hr : ∀ r ∈ rows, InBox lower upper r) {lo : List K}
    (h : columns min rows = .ok lo) : InBox lower upper lo ∧ ∀ r ∈ rows, List.Forall₂ (· ≤ ·) lo r := by
  cases rows with
  | nil => cases h
  | cons x xs =>
    simp only [columns, Except.ok.injEq] at h
    subst h
    have hx := hr x (by simp)
    have hxs : ∀ r ∈ xs, InBox lower upper r := fun r h => hr r (by simp [h])
    have key : InBox lower upper (xs.foldl (List.zipWith min) x) ∧
        List.Forall₂ (· ≤ ·) (xs.foldl (List.zipWith min) x) x ∧
        ∀ r ∈ xs, List.Forall₂ (· ≤ ·) (xs.foldl (List.zipWith min) x) r := by
      clear hr
      induction xs generalizing x with
      | nil => exact ⟨hx, forall₂_refl x, by simp⟩
      | cons y ys ih =>
        obtain ⟨h1, h2, h3⟩ := zipWith_min hx (hxs y (by simp))
        obtain ⟨h4, h5, h6⟩ := ih (List.zipWith min x y) h1 (fun r hr => hxs r (by simp [hr]))
        refine ⟨h4, forall₂_trans h5 h2, ?_⟩
        intro r hr
        rcases List.mem_cons.1 hr with rfl | hr
        · exact forall₂_trans h5 h3
        · exact h6 r hr
    refine ⟨key.1, ?_⟩
    intro r hr'
    rcases List.mem_cons.1 hr' with rfl | hr'
    · exact key.2.1
    · exact key.2.2 r hr'

theorem columns_max {lower upper : List K} {rows : List (List K)} (hr : ∀ r ∈ rows, InBox lower upper r) {up : List K}
    (h : columns max rows = .ok up) : InBox lower upper up ∧ ∀ r ∈ rows, List.Forall₂ (· ≤ ·) r up := by
  cases rows with
  | nil => cases h
  | cons x xs =>
    simp only [columns, Except.ok.injEq] at h
    subst h
    have hx := hr x (by simp)
    have hxs : ∀ r ∈ xs, InBox lower upper r := fun r h => hr r (by simp [h])
    have key : InBox lower upper (xs.foldl (List.zipWith max) x) ∧
        List.Forall₂ (· ≤ ·) x (xs.foldl (List.zipWith max) x) ∧
        ∀ r ∈ xs, List.Forall₂ (· ≤ ·) r (xs.foldl (List.zipWith max) x) := by
      clear hr
      induction xs generalizing x with
      | nil => exact ⟨hx, forall₂_refl x, by simp⟩
      | cons y ys ih =>
        obtain ⟨h1, h2, h3⟩ := zipWith_max hx (hxs y (by simp))
        obtain ⟨h4, h5, h6⟩ := ih (List.zipWith max x y) h1 (fun r hr => hxs r (by simp [hr]))
        refine ⟨h4, forall₂_trans h2 h5, ?_⟩
        intro r hr
        rcases List.mem_cons.1 hr with rfl | hr
        · exact forall₂_trans h3 h5
        · exact h6 r hr
    refine ⟨key.1, ?_⟩
    intro r hr'
    rcases List.mem_cons.1 hr' with rfl | hr'
    · exact key.2.1
    · exact key.2.2 r hr'

theorem mapM_ok {A B : Type} {f : A → Result B} {as : List A} {bs : List B} (h : as.mapM f = .ok bs) :
    List.Forall₂ (fun a b => f a = .ok b) as bs := by
  induction as generalizing bs with
  | nil =>
    simp [pure, Except.pure] at h
    subst h
    exact .nil
  | cons a as ih =>
    rw [List.mapM_cons] at h
    cases ha : f a with
    | error e => simp [ha, bind, Except.bind] at h
    | ok b =>
      simp only [ha, bind, Except.bind] at h
      split at h
      · cases h
      · rename_i bs' h'
        simp only [pure, Except.pure, Except.ok.injEq] at h
        subst h
        exact .cons ha (ih h')

theorem emulateOne_xs {env : HmeEnv S N K D} {vm : XR K} {ems : List (N × (List K → XR K × XR K))} {xs : List K}
    {p : EmuPt N K} (h : emulateOne env vm ems xs = .ok p) : p.xs = xs := by
  unfold emulateOne at h
  simp only [bind, Except.bind] at h
  split at h
  · cases h
  · simp only [pure, Except.pure, Except.ok.injEq] at h
    subst h
    rfl

/-- The emulated points of a wave: `n_ems` of them, in the box of the wave. -/
theorem emulateAll_ok {env : HmeEnv S N K D} (hh : Honest env) {set : HmeSettings K} {st : HmeState N K}
    (hb : List.Forall₂ (· ≤ ·) st.lower st.upper) (hl : st.lower.length = set.nPars)
    {sims : List (Dict N (XR K) × List (XR K) × Dict N (XR K))} {s s' : S} {pts : List (EmuPt N K)}
    (h : emulateAll env set st sims s = some (.ok pts, s')) :
    pts.length = set.nEms ∧ ∀ p ∈ pts, InBox st.lower st.upper p.xs := by
  obtain ⟨ems, s1, -, h⟩ := Run.bind_ok.1 h
  obtain ⟨uss, s2, h2, h⟩ := Run.bind_ok.1 h
  obtain ⟨h, -⟩ := Run.ofResult_ok.1 h
  have h2 := Run.lift_ok.1 h2
  simp only [Prod.mk.injEq, Except.ok.injEq] at h2
  obtain ⟨r1, r2⟩ := hh.random set.nEms set.nPars s1
  rw [h2.1] at r1 r2
  have hf := mapM_ok h
  refine ⟨by rw [← hf.length_eq, List.length_map, r1], fun p hp => ?_⟩
  obtain ⟨i, hi, rfl⟩ := List.getElem_of_mem hp
  have hi' : i < (uss.map (place st.lower st.upper)).length := by rw [hf.length_eq]; exact hi
  have := (List.forall₂_iff_get.1 hf).2 i hi' hi
  simp only [List.get_eq_getElem] at this
  rw [emulateOne_xs this, List.getElem_map]
  obtain ⟨h3, h4⟩ := r2 _ (List.getElem_mem (by simpa using hi'))
  exact place_inBox hb (by rw [h3, hl]) h4

theorem aWave_ok {env : HmeEnv S N K D} {set : HmeSettings K} {st st' : HmeState N K} {s s' : S}
    (h : aWave env set st s = some (.ok st', s')) :
    ∃ sims emu s1 s2, simulateAll env set st s = some (.ok sims, s1) ∧
      emulateAll env set st sims s1 = some (.ok emu, s2) ∧
      keepPlausible set emu = .ok (st'.pts, st'.cutoff, st'.acc) ∧
      columns min (st'.pts.map (·.xs)) = .ok st'.lower ∧ columns max (st'.pts.map (·.xs)) = .ok st'.upper ∧
      st'.wave = st.wave + 1 := by
  unfold aWave at h
  obtain ⟨sims, s1, h1, h⟩ := Run.bind_ok.1 h
  obtain ⟨emu, s2, h2, h⟩ := Run.bind_ok.1 h
  obtain ⟨r, s3, h3, h⟩ := Run.bind_ok.1 h
  obtain ⟨mse, s4, h4, h⟩ := Run.bind_ok.1 h
  obtain ⟨lo, s5, h5, h⟩ := Run.bind_ok.1 h
  obtain ⟨up, s6, h6, h⟩ := Run.bind_ok.1 h
  obtain ⟨rfl, -⟩ := Run.pure_ok.1 h
  exact ⟨sims, emu, s1, s2, h1, h2, (Run.ofResult_ok.1 h3).1, (Run.ofResult_ok.1 h5).1, (Run.ofResult_ok.1 h6).1, rfl⟩

theorem keepPlausible_ok {set : HmeSettings K} {pts : List (EmuPt N K)} {r : List (EmuPt N K) × XR K × K}
    (h : keepPlausible set pts = .ok r) : ∃ q, quantile (pts.map (·.imp)) (.fin set.minAcc) = .ok q ∧
      r.2.1 = (if XR.lt set.cutoff q then q else set.cutoff) ∧
      r.1 = pts.filter (fun p => XR.lt p.imp r.2.1) ∧ r.2.2 = (r.1.length : K) / (pts.length : K) := by
  unfold keepPlausible at h
  simp only [bind, Except.bind] at h
  split at h
  · cases h
  · rename_i q hq
    simp only [pure, Except.pure, Except.ok.injEq] at h
    subst h
    exact ⟨q, hq, rfl, rfl, rfl⟩

/-- The states that a run goes through. -/
inductive Reached (env : HmeEnv S N K D) (set : HmeSettings K) : HmeState N K → Prop
  | init {nSims nEms : Int} {set0 : HmeSettings K} {st : HmeState N K} :
      initialise set.nPars nSims nEms set0 = .ok (set, st) → Reached env set st
  | wave {s s' : S} {st st' : HmeState N K} : Reached env set st → aWave env set st s = some (.ok st', s') →
      Reached env set st'

theorem initialise_ok {nPars : Nat} {nSims nEms : Int} {set0 set : HmeSettings K} {st : HmeState N K}
    (h : initialise nPars nSims nEms set0 = .ok (set, st)) :
    st.lower = List.replicate nPars 0 ∧ st.upper = List.replicate nPars 1 ∧ st.wave = 0 := by
  unfold initialise at h
  simp only [bind, Except.bind] at h
  split at h
  · cases h
  · simp only [pure, Except.pure, Except.ok.injEq, Prod.mk.injEq] at h
    obtain ⟨-, rfl⟩ := h
    exact ⟨rfl, rfl, rfl⟩

theorem replicate_le {n : Nat} {a b : K} (h : a ≤ b) :
    List.Forall₂ (· ≤ ·) (List.replicate n a) (List.replicate n b) := by
  induction n with
  | zero => exact .nil
  | succ n ih => exact .cons h ih

theorem wave_nested {env : HmeEnv S N K D} (hh : Honest env) {set : HmeSettings K} {st st' : HmeState N K}
    (hb : List.Forall₂ (· ≤ ·) st.lower st.upper) (hl : st.lower.length = set.nPars) {s s' : S}
    (h : aWave env set st s = some (.ok st', s')) :
    InBox st.lower st.upper st'.lower ∧ InBox st.lower st.upper st'.upper ∧
      List.Forall₂ (· ≤ ·) st'.lower st'.upper ∧
      (∀ p ∈ st'.pts, InBox st.lower st.upper p.xs ∧ InBox st'.lower st'.upper p.xs) := by
  obtain ⟨sims, emu, s1, s2, -, h2, h3, h4, h5, -⟩ := aWave_ok h
  obtain ⟨-, hbox⟩ := emulateAll_ok hh hb hl h2
  obtain ⟨q, -, -, hpts, -⟩ := keepPlausible_ok h3
  simp only at hpts
  have hsub : ∀ p ∈ st'.pts, InBox st.lower st.upper p.xs := by
    intro p hp
    rw [hpts] at hp
    exact hbox p (List.mem_filter.1 hp).1
  have hrows : ∀ r ∈ st'.pts.map (·.xs), InBox st.lower st.upper r := by
    intro r hr
    obtain ⟨p, hp, rfl⟩ := List.mem_map.1 hr
    exact hsub p hp
  obtain ⟨m1, m2⟩ := columns_min hrows h4
  obtain ⟨m3, m4⟩ := columns_max hrows h5
  refine ⟨m1, m3, ?_, ?_⟩
  · cases hp : st'.pts with
    | nil =>
      rw [hp] at h4
      cases h4
    | cons p l =>
      have hmem : p.xs ∈ st'.pts.map (·.xs) := by simp [hp]
      exact forall₂_trans (m2 _ hmem) (m4 _ hmem)
  · intro p hp
    have hmem : p.xs ∈ st'.pts.map (·.xs) := List.mem_map.2 ⟨p, hp, rfl⟩
    exact ⟨hsub p hp, m2 _ hmem, m4 _ hmem⟩

theorem Reached.box {env : HmeEnv S N K D} (hh : Honest env) {set : HmeSettings K} {st : HmeState N K}
    (h : Reached env set st) : List.Forall₂ (· ≤ ·) st.lower st.upper ∧ st.lower.length = set.nPars ∧
      InBox (List.replicate set.nPars 0) (List.replicate set.nPars 1) st.lower ∧
      InBox (List.replicate set.nPars 0) (List.replicate set.nPars 1) st.upper := by
  induction h with
  | init h =>
    obtain ⟨h1, h2, -⟩ := initialise_ok h
    rw [h1, h2]
    exact ⟨replicate_le zero_le_one, by simp, ⟨forall₂_refl _, replicate_le zero_le_one⟩,
      ⟨replicate_le zero_le_one, forall₂_refl _⟩⟩
  | wave _ h ih =>
    obtain ⟨i1, i2, i3, i4⟩ := ih
    obtain ⟨h1, h2, h3, -⟩ := wave_nested hh i1 i2 h
    exact ⟨h3, by rw [← h1.1.length_eq, i2], ⟨forall₂_trans i3.1 h1.1, forall₂_trans h1.2 i4.2⟩,
      ⟨forall₂_trans i3.1 h2.1, forall₂_trans h2.2 i4.2⟩⟩

/-- A model with one parameter, ten times the unit number, that is also its output; the emulator is perfect in the unit
number. -/
def exHme : HmeEnv Nat String ℚ Unit where
  doms := [("p", fun x => .fin (10 * x))]
  data := [("y", .mkError "y" (.fin 5) (.fin 1))]
  ops := ⟨fun _ => .fin 0, fun _ => .fin 1, fun _ _ => .fin 0⟩
  sqrt := id
  lhs := fun p n s => (.ok ((List.range n).map (fun i : Nat => List.replicate p (((i : ℚ) + 1) / (n + 1)))), s + 1)
  random := fun n p s => ((List.range n).map (fun i : Nat => List.replicate p (((i : ℚ) + 1) / (n + 1))), s + 1)
  simulate := fun pars s => (match pars.get? "p" with
    | some v => .ok [("y", v)]
    | none => .error .KeyError, s)
  train := fun _ _ _ s => (.ok (fun xs => (.fin (10 * xs.headD 0), .fin 0)), s)

/-- Settings to try things with. -/
def exSet : HmeSettings ℚ where
  nPars := 1
  nSims := 2
  nEms := 4
  maxWave := 3
  varModel := .fin 1
  cutoff := .fin (11 / 10)
  minAcc := 1 / 5

theorem exHme_honest : Honest exHme := by
  have key : ∀ n p : Nat, ∀ us ∈ (List.range n).map (fun i : Nat => List.replicate p (((i : ℚ) + 1) / (n + 1))),
      us.length = p ∧ ∀ u ∈ us, 0 ≤ u ∧ u ≤ 1 := by
    intro n p us h
    obtain ⟨i, hi, rfl⟩ := List.mem_map.1 h
    refine ⟨by simp, fun u hu => ?_⟩
    rw [List.eq_of_mem_replicate hu]
    have hi : (i : ℚ) < n := by exact_mod_cast List.mem_range.1 hi
    have h0 : (0 : ℚ) ≤ i := Nat.cast_nonneg i
    have h1 : (0 : ℚ) < (n : ℚ) + 1 := by linarith
    exact ⟨div_nonneg (by linarith) h1.le, (div_le_one h1).2 (by linarith)⟩
  constructor
  · intro p n s xss s' h us hus
    simp only [exHme, Prod.mk.injEq, Except.ok.injEq] at h
    rw [← h.1] at hus
    exact key n p us hus
  · intro n p s
    exact ⟨by simp [exHme], key n p⟩

/-- The state at the start and after one wave. -/
def exSt0 : HmeState String ℚ := ⟨[], [0], [1], 0, .pinf, .pinf, 1⟩
/-- The state after one wave. -/
def exSt1 : HmeState String ℚ :=
  ⟨[⟨[2 / 5], [("y", .fin 4)], [("y", .fin 0)], .fin (1 / (1 + (125 / 98) ^ 2))⟩,
    ⟨[3 / 5], [("y", .fin 6)], [("y", .fin 0)], .fin (1 / (1 + (125 / 98) ^ 2))⟩], [2 / 5], [3 / 5], 1, .fin 1,
    .fin (11 / 10), 1 / 2⟩

theorem exHme_init : initialise 1 2 4 exSet = .ok (exSet, exSt0) := by rfl
theorem exHme_wave : aWave exHme exSet exSt0 0 = some (.ok exSt1, 2) := by decide +kernel

example : Honest exHme ∧ Reached exHme exSet exSt0 ∧ aWave exHme exSet exSt0 0 = some (.ok exSt1, 2) :=
  ⟨exHme_honest, .init exHme_init, exHme_wave⟩

/-- **C68**: in every wave of every run the new bounds lie inside the old ones and inside the unit cube, the lower
bounds do not exceed the upper ones, and the points kept lie inside the bounds of their wave and define the new
ones. -/
theorem C68 {env : HmeEnv S N K D} (hh : Honest env) {set : HmeSettings K} {st st' : HmeState N K}
    (h : Reached env set st) {s s' : S} (hw : aWave env set st s = some (.ok st', s')) :
    List.Forall₂ (· ≤ ·) st.lower st'.lower ∧ List.Forall₂ (· ≤ ·) st'.lower st'.upper ∧
    List.Forall₂ (· ≤ ·) st'.upper st.upper ∧
    (∀ x ∈ st'.lower, 0 ≤ x ∧ x ≤ 1) ∧ (∀ x ∈ st'.upper, 0 ≤ x ∧ x ≤ 1) ∧
    (∀ p ∈ st'.pts, InBox st.lower st.upper p.xs ∧ InBox st'.lower st'.upper p.xs) := by
  obtain ⟨i1, i2, -, -⟩ := h.box hh
  obtain ⟨h1, h2, h3, h4⟩ := wave_nested hh i1 i2 hw
  obtain ⟨-, -, j3, j4⟩ := (Reached.wave h hw).box hh
  have unit : ∀ xs : List K, InBox (List.replicate set.nPars 0) (List.replicate set.nPars 1) xs →
      ∀ x ∈ xs, 0 ≤ x ∧ x ≤ 1 := by
    rintro xs ⟨a, b⟩ x hx
    obtain ⟨i, hi, rfl⟩ := List.getElem_of_mem hx
    have ha := (List.forall₂_iff_get.1 a).2 i (by rw [a.length_eq]; exact hi) hi
    have hb := (List.forall₂_iff_get.1 b).2 i hi (by rw [← b.length_eq]; exact hi)
    simp only [List.get_eq_getElem, List.getElem_replicate] at ha hb
    exact ⟨ha, hb⟩
  exact ⟨h1.1, h3, h2.2, unit _ j3, unit _ j4, h4⟩

/-- **C68**, the emulated points: all of them, kept or not, lie inside the bounds of their wave. -/
theorem C68_emulated {env : HmeEnv S N K D} (hh : Honest env) {set : HmeSettings K} {st : HmeState N K}
    (h : Reached env set st) {sims : List (Dict N (XR K) × List (XR K) × Dict N (XR K))} {s s' : S}
    {pts : List (EmuPt N K)} (he : emulateAll env set st sims s = some (.ok pts, s')) :
    pts.length = set.nEms ∧ ∀ p ∈ pts, InBox st.lower st.upper p.xs := by
  obtain ⟨i1, i2, -, -⟩ := h.box hh
  exact emulateAll_ok hh i1 i2 he

/-- A wave that completes. -/
def Step (env : HmeEnv S N K D) (set : HmeSettings K) (st st' : HmeState N K) : Prop :=
  ∃ s s', aWave env set st s = some (.ok st', s')

/-- **C68**, along a run. -/
theorem C68_run {env : HmeEnv S N K D} (hh : Honest env) {set : HmeSettings K} {st st' : HmeState N K}
    (h : Reached env set st) (hr : Relation.ReflTransGen (Step env set) st st') :
    List.Forall₂ (· ≤ ·) st.lower st'.lower ∧ List.Forall₂ (· ≤ ·) st'.upper st.upper := by
  have key : Reached env set st' ∧ List.Forall₂ (· ≤ ·) st.lower st'.lower ∧
      List.Forall₂ (· ≤ ·) st'.upper st.upper := by
    induction hr with
    | refl => exact ⟨h, forall₂_refl _, forall₂_refl _⟩
    | tail _ hs ih =>
      obtain ⟨s, s', hs⟩ := hs
      obtain ⟨h1, -, h3, -⟩ := C68 hh ih.1 hs
      exact ⟨.wave ih.1 hs, forall₂_trans ih.2.1 h1, forall₂_trans h3 ih.2.2⟩
  exact key.2

/-! ### C69: plausible points -/

/-- How far an output is from its target, in standard deviations - /repo/src/sims_pars/fit/hme/alg.py:36-39. -/
def offTarget (env : HmeEnv S N K D) (vm : XR K) (t : Target N K D) (y v : XR K) : XR K :=
  XR.abs (t.value - y) / env.sqrt (vm + t.varObs env.ops + v)

theorem npMax_fold (xs : List (XR K)) (a : XR K) :
    (xs.foldl (fun a b => if a.isNan then a else if b.isNan then b else if XR.lt a b then b else a) a) ∈ a :: xs ∧
    ((∃ x ∈ a :: xs, x = .nan) →
      xs.foldl (fun a b => if a.isNan then a else if b.isNan then b else if XR.lt a b then b else a) a = .nan) ∧
    ((∀ x ∈ a :: xs, x ≠ .nan) → ∀ x ∈ a :: xs,
      XR.le x (xs.foldl (fun a b => if a.isNan then a else if b.isNan then b else if XR.lt a b then b else a) a) = true) := by
  induction xs generalizing a with
  | nil =>
    refine ⟨by simp, fun ⟨x, hx, hn⟩ => by rw [List.mem_singleton.1 hx] at hn; exact hn, ?_⟩
    intro h x hx
    simp only [List.mem_singleton] at hx
    subst hx
    have := h x (by simp)
    cases x <;> simp_all [XR.le]
  | cons b xs ih =>
    rw [List.foldl_cons]
    have hstep : ∀ c, c = (if a.isNan then a else if b.isNan then b else if XR.lt a b then b else a) →
        (c = a ∨ c = b) ∧ ((a = .nan ∨ b = .nan) → c = .nan) ∧
        (a ≠ .nan → b ≠ .nan → c ≠ .nan ∧ XR.le a c = true ∧ XR.le b c = true) := by
      rintro c rfl
      cases a <;> cases b <;> simp [XR.isNan, XR.lt, XR.le] <;> split <;> simp_all [le_of_lt]
    obtain ⟨c1, c2, c3⟩ := hstep _ rfl
    generalize (if a.isNan then a else if b.isNan then b else if XR.lt a b then b else a) = c at c1 c2 c3 ⊢
    obtain ⟨i1, i2, i3⟩ := ih c
    refine ⟨?_, ?_, ?_⟩
    · rcases List.mem_cons.1 i1 with h | h
      · rw [h]
        rcases c1 with rfl | rfl <;> simp
      · simp [h]
    · rintro ⟨x, hx, rfl⟩
      apply i2
      rcases List.mem_cons.1 hx with h | hx
      · exact ⟨c, by simp, c2 (.inl h.symm)⟩
      · rcases List.mem_cons.1 hx with h | hx
        · exact ⟨c, by simp, c2 (.inr h.symm)⟩
        · exact ⟨_, by simp [hx], rfl⟩
    · intro hn x hx
      obtain ⟨d1, d2, d3⟩ := c3 (hn a (by simp)) (hn b (by simp))
      have i3 := i3 (by
        intro y hy
        rcases List.mem_cons.1 hy with rfl | hy
        · exact d1
        · exact hn y (by simp [hy]))
      have htr : ∀ p q r : XR K, XR.le p q = true → XR.le q r = true → XR.le p r = true := by
        intro p q r
        cases p <;> cases q <;> cases r <;> simp [XR.le]
        exact le_trans
      rcases List.mem_cons.1 hx with rfl | hx
      · exact htr _ _ _ d2 (i3 c (by simp))
      · rcases List.mem_cons.1 hx with rfl | hx
        · exact htr _ _ _ d3 (i3 c (by simp))
        · exact i3 x (by simp [hx])

/-- **C69**, the implausibility of an emulated point: it is the greatest, over all targets, of the distance between
target and emulated output in standard deviations, and NaN if one of these is. -/
theorem C69_implausibility {env : HmeEnv S N K D} {vm i : XR K} {ys vs : Dict N (XR K)}
    (h : implausibility env vm ys vs = .ok i) :
    (∀ kd ∈ env.data, ∃ y v, ys.get? kd.1 = some y ∧ vs.get? kd.1 = some v ∧
      (offTarget env vm kd.2 y v = .nan → i = .nan) ∧ (i ≠ .nan → XR.le (offTarget env vm kd.2 y v) i = true)) ∧
    (∃ kd ∈ env.data, ∃ y v, ys.get? kd.1 = some y ∧ vs.get? kd.1 = some v ∧ i = offTarget env vm kd.2 y v) := by
  unfold implausibility at h
  simp only [bind, Except.bind] at h
  split at h
  · cases h
  · rename_i ims hims
    have hf := mapM_ok hims
    have hf' : List.Forall₂ (fun kd x => ∃ y v, ys.get? kd.1 = some y ∧ vs.get? kd.1 = some v ∧
        x = offTarget env vm kd.2 y v) env.data ims := by
      refine hf.imp ?_
      intro kd x hx
      split at hx
      · rename_i y v hy hv
        rw [Except.ok.injEq] at hx
        exact ⟨y, v, hy, hv, hx.symm⟩
      · cases hx
    have hl : ∀ kd ∈ env.data, ∃ x ∈ ims, ∃ y v, ys.get? kd.1 = some y ∧ vs.get? kd.1 = some v ∧
        x = offTarget env vm kd.2 y v := by
      intro kd hkd
      clear hims hf h
      generalize env.data = data at hf' hkd
      induction hf' with
      | nil => simp at hkd
      | cons hab _ ih =>
        rcases List.mem_cons.1 hkd with rfl | hkd
        · exact ⟨_, by simp, hab⟩
        · obtain ⟨x, hx, hr⟩ := ih hkd
          exact ⟨x, by simp [hx], hr⟩
    have hr : ∀ x ∈ ims, ∃ kd ∈ env.data, ∃ y v, ys.get? kd.1 = some y ∧ vs.get? kd.1 = some v ∧
        x = offTarget env vm kd.2 y v := by
      intro x hx
      clear hims hf h hl
      generalize env.data = data at hf'
      induction hf' with
      | nil => simp at hx
      | cons hab _ ih =>
        rcases List.mem_cons.1 hx with rfl | hx
        · exact ⟨_, by simp, hab⟩
        · obtain ⟨kd, hkd, hr⟩ := ih hx
          exact ⟨kd, by simp [hkd], hr⟩
    cases ims with
    | nil => simp [npMax] at h
    | cons a ims =>
      simp only [npMax, Except.ok.injEq] at h
      obtain ⟨m1, m2, m3⟩ := npMax_fold ims a
      rw [h] at m1 m2 m3
      constructor
      · intro kd hkd
        obtain ⟨x, hx, y, v, hy, hv, rfl⟩ := hl kd hkd
        refine ⟨y, v, hy, hv, fun hn => m2 ⟨_, hx, hn⟩, fun hi => m3 ?_ _ hx⟩
        intro z hz hzn
        exact hi (m2 ⟨z, hz, hzn⟩)
      · exact hr i m1

example : implausibility exHme (.fin 1) [("y", .fin 2)] [("y", .fin 1)] =
    .ok (.fin (3 / (2 + (125 / 98) ^ 2))) := by decide +kernel

/-- **C69**, what holds: the points kept are exactly those with implausibility below the reported cut-off, which is
not below the configured one, and the reported acceptance is their share; and if the implausibilities are finite and
the cut-off is too, then at least a `min_acc` share of all but one point is kept, provided that the quantile is below
the configured cut-off or the implausibilities are distinct. -/
theorem C69_partial {set : HmeSettings K} {pts pls : List (EmuPt N K)} {co : XR K} {acc : K}
    (h : keepPlausible set pts = .ok (pls, co, acc)) :
    (∀ p, p ∈ pls ↔ p ∈ pts ∧ XR.lt p.imp co = true) ∧ pls.Sublist pts ∧
    (co = set.cutoff ∨ XR.lt set.cutoff co = true) ∧ acc = (pls.length : K) / (pts.length : K) ∧
    (∀ (is : List K) (c : K), pts.map (·.imp) = is.map XR.fin → set.cutoff = .fin c →
      (is.Nodup ∨ ∃ q, quantile (is.map XR.fin) (.fin set.minAcc) = .ok (.fin q) ∧ q < c) →
        set.minAcc * ((pts.length : K) - 1) ≤ (pls.length : K)) := by
  obtain ⟨q, hq, hco, hpls, hacc⟩ := keepPlausible_ok h
  simp only at hco hpls hacc
  refine ⟨?_, ?_, ?_, hacc, ?_⟩
  · intro p
    rw [hpls, List.mem_filter]
  · rw [hpls]
    exact List.filter_sublist
  · rw [hco]
    split
    · exact .inr ‹_›
    · exact .inl rfl
  · intro is c his hc hcase
    have hlen : pts.length = is.length := by
      have := congrArg List.length his
      simpa using this
    have hne : is ≠ [] := by
      rintro rfl
      rw [his] at hq
      unfold quantile at hq
      split at hq <;> simp at hq
    rw [his] at hq
    by_cases ha : 0 ≤ set.minAcc ∧ set.minAcc ≤ 1
    · obtain ⟨r, h1, -, -, h2, h3⟩ := Lemmas.quantile_fin is hne ha.1 ha.2
      rw [h1, Except.ok.injEq] at hq
      subst hq
      have hcount : (pls.length : K) = (is.countP (fun x => XR.lt (.fin x) co) : K) := by
        have : pls.length = is.countP (fun x => XR.lt (.fin x) co) := by
          rw [hpls, ← List.countP_eq_length_filter]
          have e1 : pts.countP (fun p => XR.lt p.imp co) = (pts.map (·.imp)).countP (fun x => XR.lt x co) := by
            rw [List.countP_map]
            rfl
          rw [e1, his, List.countP_map]
          rfl
        exact_mod_cast this
      have hmono : ∀ (p1 p2 : K → Bool), (∀ x, p1 x = true → p2 x = true) →
          (is.countP p1 : K) ≤ (is.countP p2 : K) := by
        intro p1 p2 hp
        have := List.countP_mono_left (l := is) (p := p1) (q := p2) (fun x _ => hp x)
        exact_mod_cast this
      rw [hcount, hlen]
      rcases hcase with hnd | ⟨q', hq', hlt⟩
      · refine (h3 hnd).trans (hmono _ _ ?_)
        intro x hx
        have hx : x < r := by simpa using hx
        rw [hco, hc]
        split
        · simpa using hx
        · rename_i hn
          have hn : r ≤ c := by simpa using hn
          simpa using lt_of_lt_of_le hx hn
      · rw [h1, Except.ok.injEq, XR.fin.injEq] at hq'
        subst hq'
        refine (le_of_lt h2).trans (hmono _ _ ?_)
        intro x hx
        have hx : x ≤ r := by simpa using hx
        have hn : ¬ XR.lt (.fin c) (.fin r) = true := by simpa using hlt.le
        rw [hco, hc, if_neg hn]
        simpa using lt_of_le_of_lt hx hlt
    · exfalso
      unfold quantile at hq
      have : (XR.le (.fin 0) (.fin set.minAcc) && XR.le (.fin set.minAcc) (.fin 1)) = false := by
        simpa [not_and_or, or_iff_not_imp_left] using ha
      rw [this] at hq
      simp at hq

/-- Settings to try things with. -/
def exSet3 : HmeSettings ℚ := { exSet with cutoff := .fin 3 }

/-- A point with a given implausibility. -/
def ptOf (i : ℚ) : EmuPt String ℚ := ⟨[], [], [], .fin i⟩

example : (keepPlausible exSet3 [ptOf 1, ptOf 7, ptOf 5, ptOf 2, ptOf 8, ptOf 9]).map (fun r => (r.1.length, r.2.1)) =
    .ok (2, .fin 3) ∧
    (keepPlausible exSet3 [ptOf 4, ptOf 7, ptOf 5, ptOf 6, ptOf 8, ptOf 9]).map (fun r => (r.1.length, r.2.1)) =
    .ok (1, .fin 5) ∧ [4, 7, 5, 6, 8, (9 : ℚ)].Nodup := by decide +kernel

/-- **C69** is false: of points that are all equally implausible none is kept. -/
theorem C69_refuted : keepPlausible exSet3 [ptOf 5, ptOf 5, ptOf 5] = .ok ([], .fin 5, 0) ∧
    ¬ ((exSet3.minAcc : ℚ) ≤ 0) := by
  constructor
  · decide +kernel
  · decide +kernel

/-- When no point is kept the wave fails. -/
theorem C69_empty {env : HmeEnv S N K D} {set : HmeSettings K} {st st' : HmeState N K} {s s' : S}
    (h : aWave env set st s = some (.ok st', s')) : st'.pts ≠ [] := by
  obtain ⟨sims, emu, s1, s2, -, -, -, h4, -⟩ := aWave_ok h
  intro h0
  rw [h0] at h4
  cases h4

/-! ### C70: sizes -/

/-- **C70**, what holds: `initialise` fails exactly when `n_sims` was given and `n_ems` was not; otherwise given sizes
are used as they are, and missing ones are ten times the number of parameters and a hundred times that. -/
theorem C70_partial (nPars : Nat) (nSims nEms : Int) :
    ((0 < nSims ∧ nEms ≤ 0) → sizes nPars nSims nEms = .error .UnboundLocalError) ∧
    (0 < nSims → 0 < nEms → sizes nPars nSims nEms = .ok (nSims, nEms)) ∧
    (nSims ≤ 0 → 0 < nEms → sizes nPars nSims nEms = .ok (nPars * 10, nEms)) ∧
    (nSims ≤ 0 → nEms ≤ 0 → sizes nPars nSims nEms = .ok (nPars * 10, nPars * 1000)) := by
  unfold sizes
  refine ⟨fun ⟨h1, h2⟩ => ?_, fun h1 h2 => ?_, fun h1 h2 => ?_, fun h1 h2 => ?_⟩
  · simp [h1.not_ge, h2]
  · simp [h1.not_ge, h2.not_ge]
  · simp [h1, h2.not_ge]
  · simp [h1, h2]
    omega

/-- **C70** is false. -/
theorem C70_refuted (set : HmeSettings K) :
    initialise (N := N) 2 50 0 set = .error .UnboundLocalError := by
  have := (C70_partial 2 50 0).1 (by omega)
  unfold initialise
  rw [this]
  rfl

/-- **C101**, what holds: with the sizes not given, or forgotten again, the sizes are those of the model at hand. -/
theorem C101_partial (nPars : Nat) (a b : Int) (ha : a ≤ 0) (hb : b ≤ 0) :
    sizes nPars a b = .ok (nPars * 10, nPars * 1000) := (C70_partial nPars a b).2.2.2 ha hb

/-- **C101** is false: the sizes found for one model (with parameters) are what every later model is fitted with. -/
theorem C101_refuted {p q : Nat} (hp : 0 < p) {a b : Int} (h : sizes p 0 0 = .ok (a, b)) :
    sizes q a b = .ok (p * 10, p * 1000) := by
  rw [(C70_partial p 0 0).2.2.2 le_rfl le_rfl, Except.ok.injEq, Prod.mk.injEq] at h
  obtain ⟨rfl, rfl⟩ := h
  exact (C70_partial q _ _).2.1 (by omega) (by omega)

example : sizes 2 0 0 = .ok (20, 2000) ∧ sizes 7 20 2000 = .ok (20, 2000) := ⟨rfl, rfl⟩

/-! ### C98: where the emulators are trained and where they are asked -/

theorem parsOf_get {doms : List (N × (K → XR K))} (hnd : (doms.map (·.1)).Nodup) {xs : List K}
    (hl : xs.length = doms.length) {i : Nat} {d : N × (K → XR K)} {x : K} (hd : doms[i]? = some d)
    (hx : xs[i]? = some x) : (parsOf doms xs).get? d.1 = some (d.2 x) := by
  have key : ∀ (l : List ((N × (K → XR K)) × K)) (acc : Dict N (XR K)), (l.map (·.1.1)).Nodup →
      (∀ p ∈ l, (l.foldl (fun d p => d.set p.1.1 (p.1.2 p.2)) acc).get? p.1.1 = some (p.1.2 p.2)) ∧
      ∀ n, n ∉ l.map (·.1.1) → (l.foldl (fun d p => d.set p.1.1 (p.1.2 p.2)) acc).get? n = acc.get? n := by
    intro l
    induction l with
    | nil => intro acc _; exact ⟨by simp, fun _ _ => rfl⟩
    | cons q l ih =>
      intro acc hn
      simp only [List.map_cons, List.nodup_cons] at hn
      obtain ⟨h1, h2⟩ := ih (acc.set q.1.1 (q.1.2 q.2)) hn.2
      constructor
      · intro p hp
        rcases List.mem_cons.1 hp with rfl | hp
        · rw [List.foldl_cons, h2 _ hn.1, Dict.get?_set_self]
        · exact h1 p hp
      · intro n hnn
        simp only [List.map_cons, List.mem_cons, not_or] at hnn
        rw [List.foldl_cons, h2 _ hnn.2, Dict.get?_set_ne _ _ (Ne.symm hnn.1)]
  have hz : (doms.zip xs).map (·.1.1) = doms.map (·.1) := by
    rw [show (fun p : (N × (K → XR K)) × K => p.1.1) = (·.1) ∘ Prod.fst from rfl, ← List.map_map,
      List.map_fst_zip (by rw [hl])]
  have hmem : (d, x) ∈ doms.zip xs := by
    rw [List.mem_iff_getElem?]
    exact ⟨i, by rw [List.getElem?_zip_eq_some]; exact ⟨hd, hx⟩⟩
  exact (key (doms.zip xs) [] (by rw [hz]; exact hnd)).1 (d, x) hmem

theorem flatXs_parsOf {doms : List (N × (K → XR K))} (hnd : (doms.map (·.1)).Nodup) {xs : List K}
    (hl : xs.length = doms.length) {vs : List (XR K)} (h : flatXs doms (parsOf doms xs) = .ok vs) :
    vs = List.zipWith (fun d x => d.2 x) doms xs := by
  have hf := mapM_ok h
  apply List.ext_getElem
  · rw [← hf.length_eq, List.length_zipWith, hl, min_self]
  · intro i h1 h2
    have hi : i < doms.length := by rw [hf.length_eq]; exact h1
    have := (List.forall₂_iff_get.1 hf).2 i hi h1
    simp only [List.get_eq_getElem] at this
    rw [parsOf_get hnd hl (List.getElem?_eq_getElem hi) (List.getElem?_eq_getElem (by rw [hl]; exact hi))] at this
    simp only [Except.ok.injEq] at this
    rw [← this, List.getElem_zipWith]

theorem simulateOne_ok {env : HmeEnv S N K D} {xs : List K} {r : Dict N (XR K) × List (XR K) × Dict N (XR K)}
    {s s' : S} (h : simulateOne env xs s = some (.ok r, s')) :
    r.1 = parsOf env.doms xs ∧ flatXs env.doms (parsOf env.doms xs) = .ok r.2.1 := by
  unfold simulateOne at h
  obtain ⟨sims, s1, -, h⟩ := Run.bind_ok.1 h
  obtain ⟨xs', s2, h2, h⟩ := Run.bind_ok.1 h
  obtain ⟨ys, s3, -, h⟩ := Run.bind_ok.1 h
  obtain ⟨rfl, -⟩ := Run.pure_ok.1 h
  exact ⟨rfl, (Run.ofResult_ok.1 h2).1⟩

/-- **C98**, what holds: the emulators are trained on the parameter values of points inside the bounds of the wave, and
asked at the unit-cube coordinates of the emulated points; so where the converters do not change a number, they
are asked in the coordinates in which they were trained. -/
theorem C98_partial {env : HmeEnv S N K D} (hh : Honest env) {set : HmeSettings K} {st : HmeState N K}
    (h : Reached env set st) (hn : env.doms.length = set.nPars) (hnd : (env.doms.map (·.1)).Nodup)
    {sims : List (Dict N (XR K) × List (XR K) × Dict N (XR K))} {s s' : S}
    (hs : simulateAll env set st s = some (.ok sims, s')) :
    (∃ xss : List (List K), (∀ xs ∈ xss, InBox st.lower st.upper xs) ∧
      sims.map (·.2.1) = xss.map (List.zipWith (fun d x => d.2 x) env.doms) ∧
      ((∀ d ∈ env.doms, ∀ x, d.2 x = .fin x) → sims.map (·.2.1) = xss.map (List.map XR.fin))) ∧
    (∀ (ems : List (N × (List K → XR K × XR K))) xs p, emulateOne env set.varModel ems xs = .ok p →
      p.ys = ems.map (fun kf => (kf.1, (kf.2 xs).1)) ∧ p.vs = ems.map (fun kf => (kf.1, (kf.2 xs).2))) := by
  obtain ⟨i1, i2, -, -⟩ := h.box hh
  constructor
  · unfold simulateAll at hs
    obtain ⟨uss, s1, h1, h2⟩ := Run.bind_ok.1 hs
    have hl := hh.lhs _ _ _ _ _ (Run.lift_ok.1 h1)
    have hf := Run.each_ok h2
    have hbox : ∀ xs ∈ uss.map (place st.lower st.upper), InBox st.lower st.upper xs := by
      intro xs hxs
      obtain ⟨us, hus, rfl⟩ := List.mem_map.1 hxs
      exact place_inBox i1 (by rw [(hl us hus).1, i2]) (hl us hus).2
    have hmap : sims.map (·.2.1) =
        (uss.map (place st.lower st.upper)).map (List.zipWith (fun d x => d.2 x) env.doms) := by
      generalize uss.map (place st.lower st.upper) = xss at hf hbox ⊢
      clear h2 h1 hs hl
      induction hf with
      | nil => rfl
      | @cons xs r _ _ hr _ ih =>
        obtain ⟨t, t', hr⟩ := hr
        have hb := hbox xs (by simp)
        rw [List.map_cons, List.map_cons, ih (fun y hy => hbox y (by simp [hy])),
          flatXs_parsOf hnd (by rw [← hb.1.length_eq, i2, hn]) (simulateOne_ok hr).2]
    refine ⟨_, hbox, hmap, ?_⟩
    intro hid
    rw [hmap]
    apply List.map_congr_left
    intro xs hxs
    have hb := hbox xs hxs
    apply List.ext_getElem
    · rw [List.length_zipWith, List.length_map, ← hb.1.length_eq, i2, hn, min_self]
    · intro i h1 h2
      rw [List.getElem_zipWith, List.getElem_map, hid _ (List.getElem_mem _)]
  · intro ems xs p hp
    unfold emulateOne at hp
    simp only [bind, Except.bind] at hp
    split at hp
    · cases hp
    · simp only [pure, Except.pure, Except.ok.injEq] at hp
      subst hp
      exact ⟨rfl, rfl⟩

example : Honest exHme ∧ Reached exHme exSet exSt0 ∧ exHme.doms.length = exSet.nPars ∧
    (exHme.doms.map (·.1)).Nodup ∧ simulateAll exHme exSet exSt0 0 =
      some (.ok [([("p", .fin (10 / 3))], [.fin (10 / 3)], [("y", .fin (10 / 3))]),
        ([("p", .fin (20 / 3))], [.fin (20 / 3)], [("y", .fin (20 / 3))])], 1) :=
  ⟨exHme_honest, .init exHme_init, rfl, by decide, by decide +kernel⟩

/-- The same model with an emulator that reproduces the outputs it was trained on and knows nothing else. -/
def memoHme : HmeEnv Nat String ℚ Unit :=
  { exHme with train := fun _ xss ys s => (.ok (fun xs =>
      match (xss.zip ys).find? (fun p => p.1 = xs.map XR.fin) with
      | some p => (p.2, .fin 0)
      | none => (.fin 0, .fin 1)), s) }

/-- **C98**, training: every output of a target has an emulator, in the order of the targets, and each is trained on
the parameter values of all simulated points with the simulated values of its output. -/
theorem C98_training {env : HmeEnv S N K D} {sims : List (Dict N (XR K) × List (XR K) × Dict N (XR K))}
    {ems : List (N × (List K → XR K × XR K))} {s s' : S} (h : trainAll env sims s = some (.ok ems, s')) :
    ems.map (·.1) = env.data.keys ∧ ∀ kf ∈ ems, ∃ ys t t', sims.map (fun p => p.2.2.get? kf.1) = ys.map some ∧
      env.train kf.1 (sims.map (·.2.1)) ys t = (.ok kf.2, t') := by
  unfold trainAll at h
  have hf := Run.each_ok h
  clear h
  generalize env.data.keys = ks at hf
  induction hf with
  | nil => simp
  | @cons k kf ks ems hab hrest ih =>
    obtain ⟨t, t', hab⟩ := hab
    obtain ⟨ys, t1, h1, h2⟩ := Run.bind_ok.1 hab
    obtain ⟨f, t2, h3, h4⟩ := Run.bind_ok.1 h2
    obtain ⟨rfl, -⟩ := Run.pure_ok.1 h4
    refine ⟨by simp [ih.1], ?_⟩
    intro kf hkf
    rcases List.mem_cons.1 hkf with rfl | hkf
    · have hm := mapM_ok (Run.ofResult_ok.1 h1).1
      refine ⟨ys, t1, t2, ?_, Run.lift_ok.1 h3⟩
      clear h1 h2 h3 h4 hab ih hrest
      induction hm with
      | nil => rfl
      | @cons p y _ _ hp _ ih =>
        simp only [List.map_cons]
        rw [ih]
        congr 1
        split at hp
        · rename_i y' hy
          rw [Except.ok.injEq] at hp
          rw [hy, hp]
        · cases hp
    · exact ih.2 kf hkf

example : ((trainAll memoHme [([], [.fin 1], [("y", .fin 4)])] 0).map
    (fun r => r.1.map (List.map (fun kf => (kf.1, (kf.2 [1]).1))))) = some (.ok [("y", .fin 4)]) := by decide +kernel

/-- Two simulations and two emulations, at the same points of the unit cube. -/
def memoSet : HmeSettings ℚ := { exSet with nEms := 2 }

/-- **C98** is false: asked at a point of the unit cube that was simulated, an emulator that reproduces its training
data does not find it: the simulated outputs are 10/3 and 20/3, the emulated ones 0 and 0. -/
theorem C98_refuted : ∃ sims pts,
    simulateAll memoHme memoSet exSt0 0 = some (.ok sims, 1) ∧ emulateAll memoHme memoSet exSt0 sims 1 = some (.ok pts, 2) ∧
    sims.map (·.1) = (pts.map (·.xs)).map (parsOf memoHme.doms) ∧
    sims.map (·.2.2) = [[("y", .fin (10 / 3))], [("y", .fin (20 / 3))]] ∧
    pts.map (·.ys) = [[("y", .fin 0)], [("y", .fin 0)]] :=
  ⟨[([("p", .fin (10 / 3))], [.fin (10 / 3)], [("y", .fin (10 / 3))]),
      ([("p", .fin (20 / 3))], [.fin (20 / 3)], [("y", .fin (20 / 3))])],
    [⟨[1 / 3], [("y", .fin 0)], [("y", .fin 1)], .fin (5 / (2 + (125 / 98) ^ 2))⟩,
      ⟨[2 / 3], [("y", .fin 0)], [("y", .fin 1)], .fin (5 / (2 + (125 / 98) ^ 2))⟩],
    by decide +kernel, by decide +kernel, by decide +kernel, by decide +kernel, by decide +kernel⟩

/-! ### C99: waves -/

theorem simulateOne_total (env : HmeEnv S N K D) (xs : List K) : Lemmas.Total (simulateOne env xs) :=
  (Lemmas.total_lift _).bind (fun _ => (Lemmas.total_ofResult _).bind (fun _ => (Lemmas.total_ofResult _).bind
    (fun _ => Lemmas.total_pure _)))

theorem aWave_total (env : HmeEnv S N K D) (set : HmeSettings K) (st : HmeState N K) :
    Lemmas.Total (aWave env set st) := by
  unfold aWave
  refine Lemmas.Total.bind ?_ (fun sims => Lemmas.Total.bind ?_ (fun emu => (Lemmas.total_ofResult _).bind (fun _ =>
    (Lemmas.total_ofResult _).bind (fun _ => (Lemmas.total_ofResult _).bind (fun _ =>
      (Lemmas.total_ofResult _).bind (fun _ => Lemmas.total_pure _))))))
  · exact (Lemmas.total_lift _).bind (fun _ => Lemmas.total_each (simulateOne_total env) _)
  · refine Lemmas.Total.bind ?_ (fun _ => (Lemmas.total_lift _).bind (fun _ => Lemmas.total_ofResult _))
    exact Lemmas.total_each (fun k => (Lemmas.total_ofResult _).bind (fun _ => (Lemmas.total_lift _).bind (fun _ =>
      Lemmas.total_pure _))) _

/-- **C99**: a run from a fresh state takes one wave and then more until their number is `max_wave`, and stops; when it
completes, the state has exactly that many waves and at least one plausible point. -/
theorem C99 (env : HmeEnv S N K D) (set : HmeSettings K) {st : HmeState N K} (h0 : st.wave = 0) (s : S) :
    update env set (max 1 set.maxWave.toNat) st s ≠ none ∧
    ∀ k st' s', update env set k st s = some (.ok st', s') → st'.wave = max 1 set.maxWave.toNat ∧ st'.pts ≠ [] := by
  constructor
  · have key : ∀ (k : Nat) (st : HmeState N K) s, 1 ≤ k → set.maxWave ≤ st.wave + k → update env set k st s ≠ none := by
      intro k
      induction k with
      | zero => intro st s h; omega
      | succ k ih =>
        intro st s _ hm
        rw [update, Run.bind_apply]
        rcases hs : aWave env set st s with _ | ⟨_ | st1, s1⟩
        · exact absurd hs (aWave_total env set st s)
        · simp
        · obtain ⟨-, -, -, -, -, -, -, -, -, hw⟩ := aWave_ok hs
          simp only
          split
          · simp [pure]
          · rename_i hc
            push_cast at hm
            apply ih
            · omega
            · omega
    exact key _ st s (by omega) (by omega)
  · have key : ∀ k (st : HmeState N K) s st' s', (set.maxWave ≤ st.wave → st.wave = 0) →
        update env set k st s = some (.ok st', s') → st'.wave = max 1 set.maxWave.toNat ∧ st'.pts ≠ [] := by
      intro k
      induction k with
      | zero => intro st s st' s' _ h; exact absurd h Run.more_ok
      | succ k ih =>
        intro st s st' s' hm h
        rw [update] at h
        obtain ⟨st1, s1, h1, h⟩ := Run.bind_ok.1 h
        obtain ⟨-, -, -, -, -, -, -, -, -, hw⟩ := aWave_ok h1
        split at h
        · rename_i hc
          obtain ⟨rfl, -⟩ := Run.pure_ok.1 h
          refine ⟨?_, C69_empty h1⟩
          omega
        · exact ih st1 s1 st' s' (fun hc => absurd hc ‹_›) h
    exact fun k st' s' h => key k st s st' s' (fun _ => h0) h

example : (update exHme exSet 3 exSt0 0).map (fun r => r.1.map (·.wave)) = some (.ok 3) := by decide +kernel

/-! ### C100: the posterior -/

/-- **C100**: with increasing converters, every parameter of every collected particle lies between the reported
bounds of the parameter; there are as many particles as asked for. -/
theorem C100 {env : HmeEnv S N K D} (hh : Honest env) {set : HmeSettings K} {st : HmeState N K}
    (h : Reached env set st) (hn : env.doms.length = set.nPars) (hnd : (env.doms.map (·.1)).Nodup)
    (hm : ∀ d ∈ env.doms, ∀ x y, 0 ≤ x → x ≤ y → y ≤ 1 → XR.le (d.2 x) (d.2 y) = true) {n : Nat} {s s' : S}
    {post : List (Dict N (XR K))} {bounds : List (N × XR K × XR K)}
    (hp : samplePosteriors env set (some st) n s = some (.ok (post, bounds), s')) :
    post.length = n ∧ bounds.map (·.1) = env.doms.map (·.1) ∧
    ∀ pars ∈ post, ∀ b ∈ bounds, ∃ v, pars.get? b.1 = some v ∧ XR.le b.2.1 v = true ∧ XR.le v b.2.2 = true := by
  obtain ⟨i1, i2, i3, i4⟩ := h.box hh
  unfold samplePosteriors at hp
  obtain ⟨uss, s1, h1, hp⟩ := Run.bind_ok.1 hp
  obtain ⟨sims, s2, h2, hp⟩ := Run.bind_ok.1 hp
  obtain ⟨hp, -⟩ := Run.pure_ok.1 hp
  simp only [Prod.mk.injEq] at hp
  obtain ⟨rfl, rfl⟩ := hp
  have h1 := Run.lift_ok.1 h1
  simp only [Prod.mk.injEq, Except.ok.injEq] at h1
  obtain ⟨r1, r2⟩ := hh.random n set.nPars s
  rw [h1.1] at r1 r2
  have hf := Run.each_ok h2
  have hu2 : st.upper.length = set.nPars := by rw [← i1.length_eq, i2]
  refine ⟨by rw [List.length_map, ← hf.length_eq, List.length_map, r1], ?_, ?_⟩
  · apply List.ext_getElem
    · simp [hn, i2, hu2]
    · intro i _ _
      simp
  · intro pars hpars b hb
    obtain ⟨r, hr, rfl⟩ := List.mem_map.1 hpars
    obtain ⟨j, hj, rfl⟩ := List.getElem_of_mem hr
    have hj' : j < (uss.map (place st.lower st.upper)).length := by rw [hf.length_eq]; exact hj
    obtain ⟨t, t', ht⟩ := (List.forall₂_iff_get.1 hf).2 j hj' hj
    simp only [List.get_eq_getElem] at ht
    rw [(simulateOne_ok ht).1]
    have hus := r2 _ (List.getElem_mem (by simpa using hj'))
    have hbox : InBox st.lower st.upper (uss.map (place st.lower st.upper))[j] := by
      rw [List.getElem_map]
      exact place_inBox i1 (by rw [hus.1, i2]) hus.2
    generalize (uss.map (place st.lower st.upper))[j] = xs at hbox
    obtain ⟨i, hi, rfl⟩ := List.getElem_of_mem hb
    have hi0 : i < set.nPars := by simpa [hn, i2, hu2] using hi
    have hx : i < xs.length := by rw [← hbox.1.length_eq, i2]; exact hi0
    have hd : i < env.doms.length := by rw [hn]; exact hi0
    have l1 := (List.forall₂_iff_get.1 hbox.1).2 i (by rw [i2]; exact hi0) hx
    have l2 := (List.forall₂_iff_get.1 hbox.2).2 i hx (by rw [hu2]; exact hi0)
    have l3 := (List.forall₂_iff_get.1 i3.1).2 i (by simpa using hi0) (by rw [i2]; exact hi0)
    have l4 := (List.forall₂_iff_get.1 i4.2).2 i (by rw [hu2]; exact hi0) (by simpa using hi0)
    simp only [List.get_eq_getElem, List.getElem_replicate] at l1 l2 l3 l4
    simp only [List.getElem_zipWith, List.getElem_zip]
    refine ⟨_, parsOf_get hnd (by rw [← hbox.1.length_eq, i2, hn]) (List.getElem?_eq_getElem hd)
      (List.getElem?_eq_getElem hx), ?_, ?_⟩
    · exact hm _ (List.getElem_mem _) _ _ l3 l1 (l2.trans l4)
    · exact hm _ (List.getElem_mem _) _ _ (l3.trans l1) l2 l4

example : Honest exHme ∧ Reached exHme exSet exSt1 ∧ (∀ d ∈ exHme.doms, ∀ x y, 0 ≤ x → x ≤ y → y ≤ 1 →
      XR.le (d.2 x) (d.2 y) = true) ∧
    samplePosteriors exHme exSet (some exSt1) 1 0 = some (.ok ([[("p", .fin 5)]], [("p", .fin 4, .fin 6)]), 1) := by
  refine ⟨exHme_honest, .wave (.init exHme_init) exHme_wave, ?_, by decide +kernel⟩
  intro d hd x y _ h _
  simp only [exHme, List.mem_singleton] at hd
  subst hd
  simpa using h

/-- The converters of the library are increasing, so **C100** applies to them. -/
theorem C100_converters {d : Dom N ℝ} (h : Converter.Proper d) {x y : ℝ} (h0 : 0 ≤ x) (hxy : x ≤ y) (h1 : y ≤ 1) :
    XR.le ((getConverter d).uniform2value (.fin x)) ((getConverter d).uniform2value (.fin y)) = true := by
  have ux : Converter.InUnit (.fin x) := (Converter.inUnit_iff _).2 ⟨x, rfl, h0, hxy.trans h1⟩
  have uy : Converter.InUnit (.fin y) := (Converter.inUnit_iff _).2 ⟨y, rfl, h0.trans hxy, h1⟩
  rcases hxy.lt_or_eq with hlt | rfl
  · exact XR.le_of_lt (Converter.C57_value h ux uy (by simpa using hlt))
  · obtain ⟨⟨hl, -⟩, -⟩ := Converter.C56_value h ux
    refine XR.le_refl ?_
    intro hn
    rw [hn] at hl
    cases hd : d.lower <;> rw [hd] at hl <;> simp [XR.le] at hl

end Props.Hme
