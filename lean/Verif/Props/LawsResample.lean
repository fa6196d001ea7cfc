import Verif.Lemmas.Generator
import Verif.Props.Resample
import Verif.Props.Laws
import Verif.Model.Smc
import Verif.Model.Ga
import Verif.Model.Tables
import Verif.Model.Prob

/-!
# The law of weighted choices: C203 - C206

The generator chooses fairly in the sense of `Spec.FairPick`.
-/

namespace Props.LawsResample

set_option linter.unusedSectionVars false

open Py Spec Model MeasureTheory

variable {S H P : Type} [MeasurableSpace S]

/-! ## Choosing among the elements of a list -/

/-- The indices of the elements in a set. -/
def at' (hs : List H) (A : Set H) : Set ℕ := {i | ∃ h ∈ A, hs[i]? = some h}

theorem mass_at (hs : List H) (p : List (XR ℝ)) (hl : hs.length = p.length) (A : Set H) :
    mass (indexed p) (at' hs A) = mass (hs.zip (p.map prob)) A := by
  induction hs generalizing p with
  | nil =>
    cases p with
    | nil => simp [indexed, mass_nil]
    | cons _ _ => cases hl
  | cons h hs ih =>
    cases p with
    | nil => cases hl
    | cons w p =>
      rw [indexed_cons, mass_cons, mass_map (· + 1), List.map_cons, List.zip_cons_cons, mass_cons,
        ← ih p (by simpa using hl)]
      congr 1
      congr 1
      simp [at']

theorem forall_at (hs : List H) (is : List ℕ) (As : List (Set H)) :
    List.Forall₂ (fun i A => i ∈ A) is (As.map (at' hs)) ↔
      ∃ out, select hs is = .ok out ∧ List.Forall₂ (fun h A => h ∈ A) out As := by
  rw [List.forall₂_map_right_iff]
  constructor
  · intro h
    induction h with
    | nil => exact ⟨[], rfl, .nil⟩
    | @cons i A is As h1 _ ih =>
      obtain ⟨out, h2, h3⟩ := ih
      obtain ⟨x, hx, hi⟩ := h1
      refine ⟨x :: out, ?_, .cons hx h3⟩
      rw [Props.Resample.select_ok, List.map_cons, List.map_cons, (Props.Resample.select_ok _ _ _).1 h2, hi]
  · rintro ⟨out, h1, h2⟩
    rw [Props.Resample.select_ok] at h1
    induction h2 generalizing is with
    | nil =>
      have : is = [] := by simpa using h1.symm
      subst this
      exact .nil
    | @cons x A out As hx _ ih =>
      cases is with
      | nil => simp at h1
      | cons i is =>
        simp only [List.map_cons, List.cons.injEq] at h1
        exact .cons ⟨x, hx, h1.1.symm⟩ (ih is h1.2)

theorem choose_law {μ : Measure S} {r : Rand S ℝ} (hr : FairPick μ r) {p : List (XR ℝ)} (hv : validProbs p = true)
    (hs : List H) (hl : hs.length = p.length) (As : List (Set H)) :
    Chance μ (fun s s' => ∃ is out, r.choice p As.length s = (.ok is, s') ∧ select hs is = .ok out ∧
      List.Forall₂ (fun h A => h ∈ A) out As) ((As.map (mass (hs.zip (p.map prob)))).prod) := by
  have h := hr p hv (As.map (at' hs))
  rw [List.map_map, List.length_map] at h
  have e : As.map (mass (indexed p) ∘ at' hs) = As.map (mass (hs.zip (p.map prob))) :=
    List.map_congr_left (fun A _ => mass_at hs p hl A)
  rw [e] at h
  refine h.congr (fun s s' => ?_)
  simp only [Rand.choice, hv, if_true]
  constructor
  · rintro ⟨is, h1, h2⟩
    obtain ⟨out, h3, h4⟩ := (forall_at hs _ As).1 h2
    exact ⟨is, out, congrArg (fun x => ((Except.ok x.1 : Result (List ℕ)), x.2)) h1, h3, h4⟩
  · rintro ⟨is, out, h1, h2, h3⟩
    simp only [Prod.mk.injEq, Except.ok.injEq] at h1
    exact ⟨is, Prod.ext h1.1 h1.2, (forall_at hs _ As).2 ⟨out, h2, h3⟩⟩

theorem mass_div (l : List (H × ENNReal)) (c : ENNReal) (A : Set H) :
    mass (l.map (fun x => (x.1, x.2 / c))) A = mass l A / c := by
  induction l with
  | nil => simp [mass_nil]
  | cons x l ih =>
    rw [List.map_cons, mass_cons, mass_cons, ih, ENNReal.add_div]
    congr 1
    split <;> simp

theorem mass_univ (hs : List H) (l : List ENNReal) (hl : hs.length = l.length) : mass (hs.zip l) Set.univ = l.sum := by
  induction hs generalizing l with
  | nil => cases l with
    | nil => simp [mass_nil]
    | cons _ _ => cases hl
  | cons h hs ih => cases l with
    | nil => cases hl
    | cons w l => rw [List.zip_cons_cons, mass_cons, ih l (by simpa using hl), List.sum_cons, if_pos (Set.mem_univ _)]

theorem sum_ofReal (ws : List ℝ) (h : ∀ w ∈ ws, 0 ≤ w) : (ws.map ENNReal.ofReal).sum = ENNReal.ofReal ws.sum := by
  induction ws with
  | nil => simp
  | cons a l ih =>
    rw [List.map_cons, List.sum_cons, List.sum_cons, ih (fun w hw => h w (by simp [hw])),
      ENNReal.ofReal_add (h a (by simp)) (List.sum_nonneg (fun w hw => h w (by simp [hw])))]

/-- Shares of a total are probabilities. -/
theorem share_valid {ws : List ℝ} (h : ∀ w ∈ ws, 0 ≤ w) (hs : 0 < ws.sum) :
    validProbs (ws.map (fun w => XR.fin (w / ws.sum))) = true := by
  simp only [validProbs, Bool.and_eq_true, List.all_eq_true, List.mem_map, decide_eq_true_eq]
  constructor
  · rintro x ⟨w, hw, rfl⟩
    exact ⟨by simpa [XR.le] using div_nonneg (h w hw) hs.le, rfl⟩
  · have e : ws.map (fun w => XR.fin (w / ws.sum)) = (ws.map (· / ws.sum)).map XR.fin := by rw [List.map_map]; rfl
    rw [e, Props.Resample.sum_fin]
    congr 1
    have : ws.map (· / ws.sum) = ws.map (fun w => w * (ws.sum)⁻¹) := by simp [div_eq_mul_inv]
    rw [this, List.sum_map_mul_right, List.map_id', mul_inv_cancel₀ hs.ne']

theorem share_mass (hs : List H) {ws : List ℝ} (hl : hs.length = ws.length) (h : ∀ w ∈ ws, 0 ≤ w) (h0 : 0 < ws.sum)
    (A : Set H) : mass (hs.zip ((ws.map (fun w => XR.fin (w / ws.sum))).map prob)) A =
      mass (hs.zip (ws.map ENNReal.ofReal)) A / mass (hs.zip (ws.map ENNReal.ofReal)) Set.univ := by
  rw [mass_univ _ _ (by simpa using hl), sum_ofReal ws h, ← mass_div]
  congr 1
  rw [List.map_map]
  generalize ws.sum = t at h0
  clear h hl
  induction hs generalizing ws with
  | nil => simp
  | cons x hs ih => cases ws with
    | nil => simp
    | cons w ws =>
      simp only [List.map_cons, List.zip_cons_cons, ih, Function.comp_apply, prob]
      rw [ENNReal.ofReal_div_of_pos h0]

theorem weights_law {μ : Measure S} {G : Type} {r : Rand S ℝ} (hr : FairPick μ r) {us : List ℝ} (h0 : ∀ u ∈ us, 0 ≤ u)
    (hpos : 0 < us.sum) (hs : List H) (hl : hs.length = us.length) (f : H → G) (As : List (Set G)) :
    Chance μ (fun s s' => ∃ is out, r.choice (us.map (fun u => XR.fin (u / us.sum))) As.length s = (.ok is, s') ∧
        select hs is = .ok out ∧ List.Forall₂ (fun h A => f h ∈ A) out As)
      ((As.map (fun A => mass ((hs.map f).zip (us.map ENNReal.ofReal)) A /
        mass ((hs.map f).zip (us.map ENNReal.ofReal)) Set.univ)).prod) := by
  have hlaw := choose_law hr (share_valid h0 hpos) hs (by simpa using hl) (As.map (fun A => f ⁻¹' A))
  have hz : ∀ A : Set G, mass (hs.zip (us.map ENNReal.ofReal)) (f ⁻¹' A) =
      mass ((hs.map f).zip (us.map ENNReal.ofReal)) A := by
    intro A
    rw [List.zip_map_left, ← mass_map]
    rfl
  have e : (As.map (fun A => f ⁻¹' A)).map (mass (hs.zip ((us.map (fun w => XR.fin (w / us.sum))).map prob))) =
      As.map (fun A => mass ((hs.map f).zip (us.map ENNReal.ofReal)) A /
        mass ((hs.map f).zip (us.map ENNReal.ofReal)) Set.univ) := by
    rw [List.map_map]
    refine List.map_congr_left (fun A _ => ?_)
    rw [Function.comp_apply, share_mass hs hl h0 hpos, hz, ← hz Set.univ]
    rfl
  rw [e] at hlaw
  refine hlaw.congr (fun s s' => ?_)
  simp only [List.length_map, List.forall₂_map_right_iff, Set.mem_preimage]

/-! ## C203 -/

/-- The weight of an entry of `resample`: what is not finite does not count. -/
noncomputable def weightOf (log : Bool) : XR ℝ → ENNReal
  | .fin w => ENNReal.ofReal (if log then Real.exp w else w)
  | _ => 0

theorem keep_mass (log : Bool) (wts : List (XR ℝ)) (hs : List H) (hl : hs.length = wts.length) (A : Set H) :
    mass (hs.zip (wts.map (weightOf log))) A = mass ((keepFinite wts hs).zip
      ((finite wts).map (fun w => ENNReal.ofReal (if log then Real.exp w else w)))) A := by
  induction hs generalizing wts with
  | nil => simp [keepFinite, mass_nil]
  | cons h hs ih => cases wts with
    | nil => cases hl
    | cons w wts =>
      have ih := ih wts (by simpa using hl)
      rw [List.map_cons, List.zip_cons_cons, mass_cons, ih]
      cases w with
      | fin w =>
        have e : keepFinite (.fin w :: wts) (h :: hs) = h :: keepFinite wts hs := rfl
        rw [e, finite, List.map_cons, List.zip_cons_cons, mass_cons]
        rfl
      | pinf =>
        have e : keepFinite (.pinf :: wts) (h :: hs) = keepFinite wts hs := rfl
        simp [e, finite, weightOf]
      | ninf =>
        have e : keepFinite (.ninf :: wts) (h :: hs) = keepFinite wts hs := rfl
        simp [e, finite, weightOf]
      | nan =>
        have e : keepFinite (.nan :: wts) (h :: hs) = keepFinite wts hs := rfl
        simp [e, finite, weightOf]

theorem keep_length (wts : List (XR ℝ)) (hs : List H) (hl : hs.length = wts.length) :
    (keepFinite wts hs).length = (finite wts).length := by
  induction hs generalizing wts with
  | nil => cases wts with
    | nil => rfl
    | cons _ _ => cases hl
  | cons h hs ih => cases wts with
    | nil => cases hl
    | cons w wts =>
      have ih := ih wts (by simpa using hl)
      cases w with
      | fin w => exact congrArg (· + 1) ih
      | _ => exact ih

theorem mem_finite (wts : List (XR ℝ)) (w : ℝ) : w ∈ finite wts ↔ XR.fin w ∈ wts := by
  induction wts with
  | nil => simp [finite]
  | cons x wts ih => cases x <;> simp [finite, ih]

/-- **C203**: `resample` draws independently, each time an element with its share of the total weight (of the
exponentials with `log`); elements whose weight is not finite are never drawn. -/
theorem C203 {μ : Measure S} {r : Rand S ℝ} (hr : FairPick μ r) (wts : List (XR ℝ)) (hs : List H)
    (hl : hs.length = wts.length) (log : Bool) (size : Option Int) (As : List (Set H))
    (hsz : (size = none ∧ As.length = wts.length) ∨ (size = some (As.length : Int) ∧ As ≠ []))
    (hfin : ∃ w, XR.fin w ∈ wts) (hw : log = false → (∀ w, XR.fin w ∈ wts → 0 ≤ w) ∧ ∃ w, XR.fin w ∈ wts ∧ w ≠ 0) :
    Chance μ (fun s s' => ∃ out ps e, resample r wts hs (none : Option (List P)) log size s = (.ok (out, ps, e), s') ∧
        List.Forall₂ (fun h A => h ∈ A) out As)
      ((As.map (fun A => mass (hs.zip (wts.map (weightOf log))) A /
        mass (hs.zip (wts.map (weightOf log))) Set.univ)).prod) := by
  have hsize : newSize wts size = As.length := by
    rcases hsz with ⟨rfl, h⟩ | ⟨rfl, h⟩
    · exact h.symm
    · have : As.length ≠ 0 := by simpa using h
      simp only [newSize]
      rw [if_neg (by exact_mod_cast this)]
      omega
  have hmem := mem_finite wts
  have hne : (finite wts).isEmpty = false := by
    obtain ⟨w, hw⟩ := hfin
    have := (hmem w).2 hw
    cases h : finite wts with
    | nil => rw [h] at this; cases this
    | cons _ _ => rfl
  -- the weights as they are added up
  have hu : ∃ us : List ℝ, us = (finite wts).map (fun w => if log then Real.exp w else w) ∧ (∀ u ∈ us, 0 ≤ u) ∧
      0 < us.sum := by
    refine ⟨_, rfl, ?_, ?_⟩
    · intro u hu
      obtain ⟨w, hw', rfl⟩ := List.mem_map.1 hu
      cases log with
      | true => exact (Real.exp_pos w).le
      | false => exact (hw rfl).1 w ((hmem w).1 hw')
    · have hn : ∀ u ∈ (finite wts).map (fun w => if log then Real.exp w else w), 0 ≤ u := by
        intro u hu
        obtain ⟨w, hw', rfl⟩ := List.mem_map.1 hu
        cases log with
        | true => exact (Real.exp_pos w).le
        | false => exact (hw rfl).1 w ((hmem w).1 hw')
      have hp : ∃ u ∈ (finite wts).map (fun w => if log then Real.exp w else w), 0 < u := by
        cases log with
        | true =>
          obtain ⟨w, hw'⟩ := hfin
          exact ⟨_, List.mem_map.2 ⟨w, (hmem w).2 hw', rfl⟩, Real.exp_pos w⟩
        | false =>
          obtain ⟨h1, w, hw', h2⟩ := hw rfl
          exact ⟨_, List.mem_map.2 ⟨w, (hmem w).2 hw', rfl⟩, lt_of_le_of_ne (h1 w hw') (Ne.symm h2)⟩
      obtain ⟨u, hu, h1⟩ := hp
      exact lt_of_lt_of_le h1 (List.single_le_sum hn u hu)
  obtain ⟨us, hus, h0, hpos⟩ := hu
  have hlen : (keepFinite wts hs).length = us.length := by rw [hus, List.length_map]; exact keep_length wts hs hl
  have hlaw := choose_law hr (share_valid h0 hpos) (keepFinite wts hs) (by simpa using hlen) As
  have hmass : ∀ A, mass ((keepFinite wts hs).zip ((us.map (fun w => XR.fin (w / us.sum))).map prob)) A =
      mass (hs.zip (wts.map (weightOf log))) A / mass (hs.zip (wts.map (weightOf log))) Set.univ := by
    intro A
    rw [share_mass _ hlen h0 hpos, keep_mass log wts hs hl, keep_mass log wts hs hl, hus, List.map_map]
    rfl
  rw [List.map_congr_left (fun A _ => hmass A)] at hlaw
  refine hlaw.congr (fun s s' => ?_)
  have hp : ∃ e, ∀ s, resample r wts hs (none : Option (List P)) log size s =
      match r.choice (us.map (fun w => XR.fin (w / us.sum))) As.length s with
      | (.error e, s') => (.error e, s')
      | (.ok sel, s') =>
        match select (keepFinite wts hs) sel with
        | .error e => (.error e, s')
        | .ok hs' => (.ok (hs', none, e), s') := by
    cases log with
    | true =>
      refine ⟨XR.fin (logsumexp (finite wts)) - xlog (.fin (As.length : ℝ)), fun s => ?_⟩
      have e : (finite wts).map (fun w => XR.fin (Real.exp (w - logsumexp (finite wts)))) =
          us.map (fun w => XR.fin (w / us.sum)) := by
        rw [hus, List.map_map]
        refine List.map_congr_left (fun w _ => ?_)
        simp only [Function.comp_apply, if_true, logsumexp] at hpos hus ⊢
        rw [Real.exp_sub, Real.exp_log (by rw [hus] at hpos; exact hpos)]
      unfold resample
      simp only [hne, Bool.false_eq_true, if_false, if_true, hsize, e, Option.map_none]
      rfl
    | false =>
      refine ⟨xlog (.fin us.sum) - xlog (.fin (As.length : ℝ)), fun s => ?_⟩
      have e0 : finite wts = us := by rw [hus]; simp
      have e : us.map (fun w => XR.fin w / XR.fin us.sum) = us.map (fun w => XR.fin (w / us.sum)) := by
        refine List.map_congr_left (fun w _ => ?_)
        exact if_neg hpos.ne'
      unfold resample
      simp only [Bool.false_eq_true, if_false, hsize, e0, e, Option.map_none]
      rw [e0] at hne
      simp only [hne, Bool.false_eq_true, if_false]
      rfl
  obtain ⟨e, hp⟩ := hp
  rw [hp s]
  constructor
  · rintro ⟨is, out, h1, h2, h3⟩
    rw [h1]
    simp only [h2]
    exact ⟨out, none, e, rfl, h3⟩
  · rintro ⟨out, ps, e', h1, h2⟩
    rcases hc : r.choice (us.map (fun w => XR.fin (w / us.sum))) As.length s with ⟨_ | is, m⟩
    · rw [hc] at h1; cases h1
    · rw [hc] at h1
      simp only at h1
      cases hsel : select (keepFinite wts hs) is with
      | error err => rw [hsel] at h1; cases h1
      | ok hs' =>
        rw [hsel] at h1
        cases h1
        exact ⟨is, out, rfl, hsel, h2⟩

/-- First "a" is drawn, then "b". -/
def aThenB : List (Set String) := [{"a"}, {"b"}]

example : Chance uniform01 (fun s s' => ∃ out ps e,
    resample rand01 [.fin 1, .fin 3, .pinf] ["a", "b", "c"] (none : Option (List Unit)) false (some 2) s =
      (.ok (out, ps, e), s') ∧ List.Forall₂ (fun h A => h ∈ A) out aThenB)
    ((aThenB.map (fun A => mass (["a", "b", "c"].zip ([.fin 1, .fin 3, .pinf].map (weightOf false))) A /
        mass (["a", "b", "c"].zip ([.fin 1, .fin 3, .pinf].map (weightOf false))) Set.univ)).prod) :=
  C203 fair01 [.fin 1, .fin 3, .pinf] ["a", "b", "c"] rfl false (some 2) aThenB (Or.inr ⟨rfl, by simp [aThenB]⟩)
    ⟨1, by simp⟩ (fun _ => ⟨by intro w hw; simp at hw; rcases hw with rfl | rfl <;> norm_num, 1, by simp, by norm_num⟩)

/-! ## C204 -/

section Smc
variable {Θ T Q : Type}

theorem positive_sum (ws : List ℝ) (h : ∃ w ∈ ws, 0 < w) : 0 < (ws.map (fun w => max w 0)).sum := by
  obtain ⟨w, hw, h0⟩ := h
  have h1 : ∀ u ∈ ws.map (fun w => max w 0), 0 ≤ u := by
    intro u hu
    obtain ⟨v, -, rfl⟩ := List.mem_map.1 hu
    exact le_max_right _ _
  exact lt_of_lt_of_le (lt_of_lt_of_le h0 (le_max_left w 0)) (List.single_le_sum h1 _ (List.mem_map.2 ⟨w, hw, rfl⟩))

theorem indWts_eq (ws : List ℝ) (h : ∃ w ∈ ws, 0 < w) :
    Smc.indWts (ws.map XR.fin) = (ws.map (fun w => max w 0)).map
      (fun u => XR.fin (u / (ws.map (fun w => max w 0)).sum)) := by
  have e : (ws.map XR.fin).map (fun w => if XR.lt (.fin 0) w then w else .fin 0) =
      (ws.map (fun w => max w 0)).map XR.fin := by
    rw [List.map_map, List.map_map]
    refine List.map_congr_left (fun w _ => ?_)
    simp only [Function.comp_apply, XR.lt, decide_eq_true_eq]
    split
    · rename_i h; rw [max_eq_left h.le]
    · rename_i h; rw [max_eq_right (not_lt.1 h)]
  unfold Smc.indWts Smc.normalise
  rw [e, Props.Resample.sum_fin, List.map_map]
  refine List.map_congr_left (fun w _ => ?_)
  exact if_neg (positive_sum ws h).ne'

theorem take_select (theta0 : List (Pt Θ)) (is : List ℕ) : Smc.takePts theta0 is = select theta0 is := by
  unfold Smc.takePts select
  congr 1
  funext i
  cases theta0[i]? <;> rfl

/-- **C204**: when `resample` of ABC-SMC draws anew, it draws independently, each time a particle with its share of the
total of the positive weights, and all get the same weight. -/
theorem C204 {μ : Measure S} (env : SmcEnv S Θ T Q ℝ) (hr : FairPick μ env.rng) (set : SmcSettings ℝ)
    (theta0 : List (Pt Θ)) (ws : List ℝ) (hl : theta0.length = ws.length) (thr : XR ℝ)
    (h3 : 2 < ws.countP (fun w => 0 < w)) (hthr : XR.lt (.fin 1) (thr * ((ws.map XR.fin).map XR.sq).sum) = true)
    (As : List (Set Θ)) (hA : As.length = set.nIter) :
    Chance μ (fun s s' => ∃ out, Smc.resample env set theta0 (ws.map XR.fin) thr s =
        some (.ok (List.replicate As.length (.fin (1 / (As.length : ℝ))), out), s') ∧
        List.Forall₂ (fun (p : Pt Θ) A => p.val ∈ A) out As)
      ((As.map (fun A => mass ((theta0.map Pt.val).zip (ws.map ENNReal.ofReal)) A /
        mass ((theta0.map Pt.val).zip (ws.map ENNReal.ofReal)) Set.univ)).prod) := by
  have hpos : ∃ w ∈ ws, 0 < w := by
    have : 0 < ws.countP (fun w => 0 < w) := by omega
    obtain ⟨w, hw, h⟩ := List.countP_pos_iff.1 this
    exact ⟨w, hw, by simpa using h⟩
  have h0 : ∀ u ∈ ws.map (fun w => max w 0), 0 ≤ u := by
    intro u hu
    obtain ⟨v, -, rfl⟩ := List.mem_map.1 hu
    exact le_max_right _ _
  have hm : (ws.map (fun w => max w 0)).map ENNReal.ofReal = ws.map ENNReal.ofReal := by
    rw [List.map_map]
    refine List.map_congr_left (fun w _ => ?_)
    rcases le_total w 0 with h | h
    · simp [max_eq_right h, ENNReal.ofReal_of_nonpos h]
    · simp [max_eq_left h]
  have hlaw := weights_law hr h0 (positive_sum ws hpos) theta0 (by simpa using hl) Pt.val As
  rw [hm] at hlaw
  refine hlaw.congr (fun s s' => ?_)
  have hc : ¬ (ws.map XR.fin).countP (fun w => XR.lt (.fin 0) w) ≤ 2 := by
    rw [List.countP_map]
    have : ws.countP ((fun w => XR.lt (.fin 0) w) ∘ XR.fin) = ws.countP (fun w => 0 < w) := rfl
    omega
  unfold Smc.resample
  rw [if_neg hc, if_pos hthr, indWts_eq ws hpos]
  constructor
  · rintro ⟨is, out, h1, h2, h4⟩
    refine ⟨out.map Pt.copy, ?_, ?_⟩
    · refine Run.bind_ok.2 ⟨is, s', Run.lift_ok.2 (by rw [← hA]; exact h1), ?_⟩
      refine Run.bind_ok.2 ⟨out, s', Run.ofResult_ok.2 ⟨(take_select _ _).trans h2, rfl⟩, ?_⟩
      rw [hA]
      rfl
    · rw [List.forall₂_map_left_iff]
      exact h4
  · rintro ⟨out, h1, h2⟩
    obtain ⟨is, m, h4, h5⟩ := Run.bind_ok.1 h1
    obtain ⟨th, m', h6, h7⟩ := Run.bind_ok.1 h5
    obtain ⟨h8, rfl⟩ := Run.ofResult_ok.1 h6
    obtain ⟨h9, rfl⟩ := Run.pure_ok.1 h7
    have h10 : out = th.map Pt.copy := (congrArg Prod.snd h9).symm
    rw [h10, List.forall₂_map_left_iff] at h2
    refine ⟨is, th, ?_, (take_select _ _).symm.trans h8, ?_⟩
    · rw [hA]; exact Run.lift_ok.1 h4
    · exact h2

/-- Particles are words; only the generator matters. -/
noncomputable def wordEnv : SmcEnv ℝ String Unit Unit ℝ where
  prior := fun s => (.ok "a", s)
  dist := fun _ => .fin 0
  flatten := fun _ s => (.ok (), s)
  rng := rand01
  priorFrom := fun _ s => (.ok "a", s)
  propose := fun _ x s => (.ok (some x), s)
  spread := fun _ _ s => (.ok (), s)

/-- "a" three times. -/
def threeAs : List (Set String) := [{"a"}, {"a"}, {"a"}]

example : Chance uniform01 (fun s s' => ∃ out, Smc.resample wordEnv ⟨3, false, 1, 1, 1, 1, 1⟩
      [⟨"a", true⟩, ⟨"b", true⟩, ⟨"c", true⟩] ([1 / 2, 1 / 4, 1 / 4].map XR.fin) (.fin 3) s =
        some (.ok (List.replicate threeAs.length (.fin (1 / (threeAs.length : ℝ))), out), s') ∧
      List.Forall₂ (fun (p : Pt String) A => p.val ∈ A) out threeAs)
    ((threeAs.map (fun A => mass ((([⟨"a", true⟩, ⟨"b", true⟩, ⟨"c", true⟩] : List (Pt String)).map Pt.val).zip
        ([1 / 2, 1 / 4, 1 / 4].map ENNReal.ofReal)) A /
      mass ((([⟨"a", true⟩, ⟨"b", true⟩, ⟨"c", true⟩] : List (Pt String)).map Pt.val).zip
        ([1 / 2, 1 / 4, 1 / 4].map ENNReal.ofReal)) Set.univ)).prod) := by
  refine C204 wordEnv fair01 _ _ _ rfl _ ?_ ?_ threeAs rfl
  · norm_num [List.countP_cons]
  · simp only [List.map_cons, List.map_nil, List.sum_cons, List.sum_nil, XR.sq]
    have e : (XR.fin 3 : XR ℝ) * (XR.fin (1 / 2) * XR.fin (1 / 2) + (XR.fin (1 / 4) * XR.fin (1 / 4) +
        (XR.fin (1 / 4) * XR.fin (1 / 4) + 0))) = XR.fin (9 / 8) := by
      have : (XR.fin 3 : XR ℝ) * (XR.fin (1 / 2) * XR.fin (1 / 2) + (XR.fin (1 / 4) * XR.fin (1 / 4) +
        (XR.fin (1 / 4) * XR.fin (1 / 4) + 0))) =
        XR.fin (3 * (1 / 2 * (1 / 2) + (1 / 4 * (1 / 4) + (1 / 4 * (1 / 4) + 0)))) := rfl
      rw [this]
      norm_num
    rw [e]
    simp only [XR.lt, decide_eq_true_eq]
    norm_num

end Smc

/-! ## C205 -/

section Ga
variable {N : Type}

/-- The exponential, zero for `-inf`. -/
noncomputable def expR : XR ℝ → ℝ
  | .fin x => Real.exp x
  | _ => 0

/-- **C205**: importance selection draws independently, each time a member with its share of the total of the
exponentials of the fitness, among those of finite likelihood. -/
theorem C205 {μ : Measure S} (env : GaEnv S N ℝ P) (hr : FairPick μ env.rng) (hsm : env.softmax = gaSoftmax)
    (isMap : Bool) (ps el : List P) (hel : el = ps.filter (fun p => (env.lik p).isFinite)) (h5 : 5 < el.length)
    (fit : P → XR ℝ) (hfit : fit = if isMap then env.post else env.lik)
    (hf : ∀ p ∈ el, fit p ≠ .nan ∧ fit p ≠ .pinf) (hx : ∃ p ∈ el, (fit p).isFinite = true)
    (As : List (Set P)) (hA : As.length = ps.length) :
    Chance μ (fun s s' => ∃ out, Ga.importance env isMap ps s = some (.ok out, s') ∧
        List.Forall₂ (fun p A => p ∈ A) out As)
      ((As.map (fun A => mass (el.map (fun p => (env.clone p, expX (fit p)))) A /
        mass (el.map (fun p => (env.clone p, expX (fit p)))) Set.univ)).prod) := by
  -- the exponentials
  obtain ⟨us, hus⟩ : ∃ us : List ℝ, us = (el.map fit).map expR := ⟨_, rfl⟩
  have h0 : ∀ u ∈ us, 0 ≤ u := by
    rw [hus]
    intro u hu
    obtain ⟨w, -, rfl⟩ := List.mem_map.1 hu
    cases w <;> simp [expR, Real.exp_nonneg]
  have hpos : 0 < us.sum := by
    obtain ⟨p, hp, hf'⟩ := hx
    have : 0 < expR (fit p) := by
      cases h : fit p with
      | fin w => simp [expR, Real.exp_pos]
      | _ => rw [h] at hf'; cases hf'
    refine lt_of_lt_of_le this (List.single_le_sum h0 _ ?_)
    rw [hus]
    exact List.mem_map.2 ⟨_, List.mem_map.2 ⟨p, hp, rfl⟩, rfl⟩
  have hlaw := weights_law hr h0 hpos el (by rw [hus]; simp) env.clone As
  have hz : (el.map env.clone).zip (us.map ENNReal.ofReal) = el.map (fun p => (env.clone p, expX (fit p))) := by
    rw [hus, List.map_map, List.map_map, List.zip_map']
    refine List.map_congr_left (fun p hp => ?_)
    have := hf p hp
    simp only [Function.comp_apply]
    congr 1
    cases h : fit p with
    | fin w => rfl
    | ninf => simp [expR, expX]
    | pinf => exact absurd h this.2
    | nan => exact absurd h this.1
  rw [hz] at hlaw
  refine hlaw.congr (fun s s' => ?_)
  have hfe : Ga.fitness env isMap = fit := by rw [hfit]; rfl
  have hg : gaSoftmax (el.map fit) = us.map (fun u => XR.fin (u / us.sum)) := by
    rw [hus]
    have hsum : ∀ l : List (XR ℝ), ((finite l).map Real.exp).sum = (l.map expR).sum := by
      intro l
      induction l with
      | nil => rfl
      | cons x l ih => cases x <;> simp [finite, expR, ih]
    have h1 : ((el.map fit).all (fun w => w.isFinite || decide (w = .ninf)) && (el.map fit).any (·.isFinite)) = true := by
      rw [Bool.and_eq_true, List.all_eq_true, List.any_eq_true]
      constructor
      · intro w hw
        obtain ⟨p, hp, rfl⟩ := List.mem_map.1 hw
        have := hf p hp
        cases h : fit p with
        | fin w => rfl
        | ninf => simp
        | pinf => exact absurd h this.2
        | nan => exact absurd h this.1
      · obtain ⟨p, hp, hf'⟩ := hx
        exact ⟨_, List.mem_map.2 ⟨p, hp, rfl⟩, hf'⟩
    unfold gaSoftmax
    rw [if_pos h1]
    conv_rhs => rw [List.map_map]
    refine List.map_congr_left (fun w _ => ?_)
    rw [hus] at hpos
    cases w with
    | fin x =>
      simp only [Function.comp_apply, logsumexp, hsum]
      rw [Real.exp_sub, Real.exp_log hpos]
      rfl
    | _ => simp [expR]
  have he : Ga.eligible env ps = el := hel.symm
  unfold Ga.importance
  simp only [hsm, hfe, he, hg, if_pos h5]
  constructor
  · rintro ⟨is, out, h1, h2, h3⟩
    rw [hA] at h1
    refine ⟨out.map env.clone, ?_, ?_⟩
    · refine Run.bind_ok.2 ⟨is, s', Run.lift_ok.2 h1, ?_⟩
      exact Run.bind_ok.2 ⟨out, s', Run.ofResult_ok.2 ⟨h2, rfl⟩, rfl⟩
    · rw [List.forall₂_map_left_iff]
      exact h3
  · rintro ⟨out, h1, h2⟩
    obtain ⟨is, m, h4, h6⟩ := Run.bind_ok.1 h1
    obtain ⟨sel, m', h7, h8⟩ := Run.bind_ok.1 h6
    obtain ⟨h9, rfl⟩ := Run.ofResult_ok.1 h7
    obtain ⟨rfl, rfl⟩ := Run.pure_ok.1 h8
    rw [List.forall₂_map_left_iff] at h2
    refine ⟨is, sel, ?_, h9, h2⟩
    rw [hA]
    exact Run.lift_ok.1 h4

/-- Members are numbers, and their likelihoods themselves. -/
noncomputable def numEnv : GaEnv ℝ Unit ℝ ℕ where
  domain := fun s => (.ok [], s)
  get := fun _ _ => none
  draw := fun s => (.ok 0, s)
  serve := fun _ s => (.ok 0, s)
  lik := fun n => .fin n
  post := fun n => .fin n
  clone := id
  rng := rand01
  binomial := fun _ _ s => (.ok [], s)
  normal := fun _ _ s => (.ok (.fin 0), s)
  distinct := fun _ _ s => (.ok [], s)
  std := fun _ => .fin 0
  iqr := fun _ => .fin 0
  fifth := fun _ => .fin 0
  softmax := gaSoftmax
  rnd := id
  eps := 0

/-- Always the sixth member. -/
def sixFives : List (Set ℕ) := List.replicate 6 {5}

example : Chance uniform01 (fun s s' => ∃ out, Ga.importance numEnv false [0, 1, 2, 3, 4, 5] s = some (.ok out, s') ∧
      List.Forall₂ (fun p A => p ∈ A) out sixFives)
    ((sixFives.map (fun A => mass ([0, 1, 2, 3, 4, 5].map (fun p => (numEnv.clone p, expX (numEnv.lik p)))) A /
      mass ([0, 1, 2, 3, 4, 5].map (fun p => (numEnv.clone p, expX (numEnv.lik p)))) Set.univ)).prod) :=
  C205 numEnv fair01 rfl false [0, 1, 2, 3, 4, 5] [0, 1, 2, 3, 4, 5] rfl (by decide) numEnv.lik rfl
    (fun p _ => ⟨by simp [numEnv], by simp [numEnv]⟩) ⟨0, by simp, rfl⟩ sixFives rfl

end Ga

/-! ## C206 -/

section Cat
variable {N : Type} [DecidableEq N]

/-- Weights as numpy holds them. -/
def asNumpy (kv : Dict N ℝ) : Dict N (XR ℝ) := kv.map (fun p => (p.1, .fin p.2))

theorem mass_key (kv : Dict N ℝ) (hwf : kv.WF) {k : N} {w : ℝ} (h : kv.get? k = some w) :
    mass ((kv.map Prod.fst).zip ((kv.map Prod.snd).map ENNReal.ofReal)) {k} = ENNReal.ofReal w := by
  induction kv with
  | nil => cases h
  | cons p kv ih =>
    obtain ⟨a, b⟩ := p
    have hwf' : (a :: Dict.keys kv).Nodup := hwf
    rw [List.nodup_cons] at hwf'
    rw [List.map_cons, List.map_cons, List.map_cons, List.zip_cons_cons, mass_cons]
    by_cases ha : a = k
    · subst ha
      have hb : b = w := by simpa [Dict.get?] using h
      have h0 : mass ((kv.map Prod.fst).zip ((kv.map Prod.snd).map ENNReal.ofReal)) {a} = 0 := by
        have : ∀ l : List (N × ENNReal), (∀ x ∈ l, x.1 ≠ a) → mass l {a} = 0 := by
          intro l
          induction l with
          | nil => intro _; exact mass_nil _
          | cons x l ih =>
            intro hx
            rw [mass_cons, ih (fun y hy => hx y (by simp [hy])), if_neg (by rw [Set.mem_singleton_iff]; exact hx x (by simp)), add_zero]
        refine this _ (fun x hx => ?_)
        rintro rfl
        exact hwf'.1 (List.of_mem_zip hx).1
      rw [h0, if_pos (Set.mem_singleton _), hb, add_zero]
    · rw [if_neg (by rw [Set.mem_singleton_iff]; exact ha), zero_add]
      refine ih hwf'.2 ?_
      simpa [Dict.get?, ha] using h

/-- **C206** (draws): a category is drawn with its share of the total weight. -/
theorem C206_draws {μ : Measure S} {r : Rand S ℝ} (hr : FairPick μ r)
    (hsize : ∀ p n s, validProbs p = true → (r.pick p n s).1.length = n) {kv : Dict N ℝ} (hwf : kv.WF)
    (h0 : ∀ p ∈ kv, 0 ≤ p.2) (hpos : 0 < (kv.map Prod.snd).sum) {k : N} {w : ℝ} (hk : kv.get? k = some w) :
    Chance μ (fun s s' => catSample r (asNumpy kv) s = (.ok k, s')) (ENNReal.ofReal (w / (kv.map Prod.snd).sum)) := by
  have hn : ∀ u ∈ kv.map Prod.snd, 0 ≤ u := by
    intro u hu
    obtain ⟨p, hp, rfl⟩ := List.mem_map.1 hu
    exact h0 p hp
  have hlaw := weights_law hr hn hpos kv (by simp) Prod.fst [{k}]
  have hp : catProbs (asNumpy kv) = (kv.map Prod.snd).map (fun u => XR.fin (u / (kv.map Prod.snd).sum)) := by
    unfold catProbs asNumpy
    have e : (kv.map (fun p => (p.1, XR.fin p.2))).map Prod.snd = (kv.map Prod.snd).map XR.fin := by
      rw [List.map_map, List.map_map]; rfl
    simp only [e]
    rw [Props.Resample.sum_fin, List.map_map]
    refine List.map_congr_left (fun w _ => ?_)
    exact if_neg hpos.ne'
  have hm : mass ((kv.map Prod.fst).zip ((kv.map Prod.snd).map ENNReal.ofReal)) {k} /
      mass ((kv.map Prod.fst).zip ((kv.map Prod.snd).map ENNReal.ofReal)) Set.univ =
      ENNReal.ofReal (w / (kv.map Prod.snd).sum) := by
    rw [mass_key kv hwf hk, mass_univ _ _ (by simp), sum_ofReal _ hn, ENNReal.ofReal_div_of_pos hpos]
  simp only [List.map_cons, List.map_nil, List.prod_cons, List.prod_nil, mul_one, hm] at hlaw
  refine hlaw.congr (fun s s' => ?_)
  unfold catSample
  rw [hp]
  have hget : ∀ i : ℕ, (asNumpy kv)[i]? = (kv[i]?).map (fun p => (p.1, XR.fin p.2)) := by
    intro i; unfold asNumpy; exact List.getElem?_map
  constructor
  · rintro ⟨is, out, h1, h2, h3⟩
    have h1' : r.choice ((kv.map Prod.snd).map (fun u => XR.fin (u / (kv.map Prod.snd).sum))) 1 s = (.ok is, s') := h1
    rw [h1']
    rw [Props.Resample.select_ok] at h2
    cases h3 with
    | cons h4 h5 =>
      rename_i x l
      cases h5
      cases is with
      | nil => simp at h2
      | cons i is =>
        simp only [List.map_cons, List.cons.injEq] at h2
        simp only [hget, ← h2.1, Option.map_some]
        rw [← (show x.1 = k from h4)]
  · intro h
    rcases hc : r.choice ((kv.map Prod.snd).map (fun u => XR.fin (u / (kv.map Prod.snd).sum))) 1 s with ⟨_ | is, m⟩
    · rw [hc] at h; cases h
    · rw [hc] at h
      cases is with
      | nil => cases h
      | cons i is =>
        simp only [hget] at h
        cases hi : kv[i]? with
        | none => rw [hi] at h; cases h
        | some x =>
          rw [hi] at h
          simp only [Option.map_some, Prod.mk.injEq, Except.ok.injEq] at h
          obtain ⟨rfl, rfl⟩ := h
          have hv : validProbs ((kv.map Prod.snd).map (fun u => XR.fin (u / (kv.map Prod.snd).sum))) = true :=
            share_valid hn hpos
          have hlen := hsize _ 1 s hv
          simp only [Rand.choice, hv, if_true, Prod.mk.injEq, Except.ok.injEq] at hc
          have hc1 : (r.pick ((kv.map Prod.snd).map (fun u => XR.fin (u / (kv.map Prod.snd).sum))) 1 s).1 = i :: is := hc.1
          rw [hc1] at hlen
          have : is = [] := by simpa using hlen
          subst this
          refine ⟨[i], [x], ?_, ?_, .cons rfl .nil⟩
          · rfl
          · rw [Props.Resample.select_ok, List.map_cons, List.map_cons, hi]
            rfl

/-- **C206** (transitions): the next state is drawn with its share of the row of the current one. -/
theorem C206_next {μ : Measure S} {r : Rand S ℝ} (hr : FairPick μ r)
    (hsize : ∀ p n s, validProbs p = true → (r.pick p n s).1.length = n) (m : Transitions N ℝ) {kv : Dict N ℝ}
    (hwf : kv.WF) (h0 : ∀ p ∈ kv, 0 ≤ p.2) (hpos : 0 < (kv.map Prod.snd).sum) {c k : N} {w : ℝ}
    (hc : m.table.get? c = some (asNumpy kv)) (hk : kv.get? k = some w) :
    Chance μ (fun s s' => m.next r c s = (.ok k, s')) (ENNReal.ofReal (w / (kv.map Prod.snd).sum)) := by
  refine (C206_draws hr hsize hwf h0 hpos hk).congr (fun s s' => ?_)
  simp only [Transitions.next, hc]

/-- The distribution object of categories with the given weights. -/
noncomputable def catDist (r : Rand S ℝ) (kv : Dict N ℝ) : Dist N S (XR ℝ) := ⟨catSample r (asNumpy kv), Cat.logpdf kv⟩

/-- **C206** (partial): when the weights sum to one, the log density of a category is the log of the chance that it is
drawn. -/
theorem C206_partial {μ : Measure S} {r : Rand S ℝ} (hr : FairPick μ r)
    (hsize : ∀ p n s, validProbs p = true → (r.pick p n s).1.length = n) {kv : Dict N ℝ} (hwf : kv.WF)
    (h0 : ∀ p ∈ kv, 0 ≤ p.2) (h1 : (kv.map Prod.snd).sum = 1) : Props.Laws.Fair μ (catDist r kv) := by
  intro k
  constructor
  · intro l hl
    simp only [catDist, Cat.logpdf] at hl
    cases hk : kv.get? k with
    | none => rw [hk] at hl; cases hl
    | some w =>
      rw [hk] at hl
      cases hl
      have h := C206_draws hr hsize hwf h0 (by rw [h1]; norm_num) hk
      rw [h1, div_one] at h
      have hw : 0 ≤ w := h0 (k, w) (Dict.mem_of_get? hk)
      have e : expX (npLog w) = ENNReal.ofReal w := by
        unfold npLog
        split
        · rename_i hp
          simp only [expX, Real.exp_log hp]
        · rename_i hp
          have : w = 0 := le_antisymm (not_lt.1 hp) hw
          simp [this, expX]
      rw [e]
      exact h
  · intro hl
    simp only [catDist, Cat.logpdf] at hl
    cases hk : kv.get? k with
    | none => rw [hk] at hl; cases hl
    | some w => rw [hk] at hl; cases hl

theorem rand01_size (p : List (XR ℝ)) (n : Nat) (s : ℝ) : (rand01.pick p n s).1.length = n := by
  simp only [rand01]
  generalize p.map toReal = ps
  induction n generalizing s with
  | zero => rfl
  | succ n ih => simp [pickMany, ih]

/-- **C206** (refuted): categories of weights 1 and 1 are drawn with probability 1/2, but their log density is that of
a certain event. -/
theorem C206_refuted : ∃ (kv : Dict String ℝ) (l : XR ℝ), kv.WF ∧ (∀ p ∈ kv, 0 < p.2) ∧ Cat.logpdf kv "a" = .ok l ∧
    Chance uniform01 (fun s s' => catSample rand01 (asNumpy kv) s = (.ok "a", s')) (ENNReal.ofReal (1 / 2)) ∧
    expX l = 1 := by
  have hs : ((([("a", (1 : ℝ)), ("b", 1)] : Dict String ℝ)).map Prod.snd).sum = 2 := by norm_num
  refine ⟨[("a", 1), ("b", 1)], npLog 1, by simp [Dict.WF, Dict.keys], by simp, rfl, ?_, ?_⟩
  · have h := C206_draws (kv := [("a", (1 : ℝ)), ("b", 1)]) fair01 (fun p n s _ => rand01_size p n s) (by simp [Dict.WF, Dict.keys])
      (by simp) (by rw [hs]; norm_num) (k := "a") (w := 1) rfl
    rw [hs] at h
    exact h
  · simp [npLog, expX]

example : Chance uniform01 (fun s s' => (⟨[("a", asNumpy [("a", 1), ("b", 3)])]⟩ : Transitions String ℝ).next rand01 "a" s =
    (.ok "b", s')) (ENNReal.ofReal (3 / ([("a", (1 : ℝ)), ("b", 3)].map Prod.snd).sum)) :=
  C206_next fair01 (fun p n s _ => rand01_size p n s) _ (kv := [("a", 1), ("b", 3)]) (by simp [Dict.WF, Dict.keys])
    (by simp) (by norm_num) (by rfl) rfl

example : Props.Laws.Fair uniform01 (catDist rand01 [("a", 1 / 4), ("b", 3 / 4)]) :=
  C206_partial fair01 (fun p n s _ => rand01_size p n s) (by simp [Dict.WF, Dict.keys]) (by norm_num) (by norm_num)

/-- **C206** (constants, refuted): a constant is never another value, but the log density of another value is `+inf`. -/
theorem C206_const_refuted : ∃ (k v : ℕ), ¬ Props.Laws.Fair uniform01 (Const.dist k : Dist ℕ ℝ (XR ℝ)) ∧
    (∀ s, ((Const.dist k : Dist ℕ ℝ (XR ℝ)).sample s).1 ≠ .ok v) ∧
    (Const.dist k : Dist ℕ ℝ (XR ℝ)).logpdf v = .ok .pinf := by
  refine ⟨0, 1, fun h => ?_, fun s h => ?_, rfl⟩
  swap
  · simp [Const.dist, Const.sample] at h
  have h1 := ((h 1).1 .pinf rfl Set.univ MeasurableSet.univ).2
  have h2 : {s : ℝ | ∃ s' ∈ Set.univ, (Const.dist 0 : Dist ℕ ℝ (XR ℝ)).sample s = (.ok 1, s')} = ∅ := by
    ext s
    simp only [Set.mem_ofPred_eq, Set.mem_empty_iff_false, iff_false]
    rintro ⟨s', -, h⟩
    cases h
  rw [h2, measure_empty, measure_univ, mul_one] at h1
  simp [expX] at h1

end Cat

end Props.LawsResample
