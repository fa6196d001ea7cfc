import Verif.Lemmas.Rand
import Verif.Model.Resample
import Mathlib.Tactic.Linarith
import Mathlib.Tactic.NormNum
import Mathlib.Analysis.SpecialFunctions.Log.Basic
import Mathlib.Algebra.Order.BigOperators.Group.List

/-!
# Resampling (C67, C105)
-/

namespace Props.Resample
set_option linter.unusedSectionVars false

open Py Lemmas Model

variable {S H P : Type}

theorem keepFinite_map {A B : Type} (f : A → B) (wts : List (XR ℝ)) (l : List A) :
    keepFinite wts (l.map f) = (keepFinite wts l).map f := by
  induction wts generalizing l with
  | nil => simp [keepFinite]
  | cons w wts ih =>
    cases l with
    | nil => simp [keepFinite]
    | cons a l =>
      have := ih l
      unfold keepFinite at this ⊢
      by_cases hw : w.isFinite = true <;> simp [hw, this]

theorem map_finite (wts : List (XR ℝ)) : (finite wts).map XR.fin = keepFinite wts wts := by
  induction wts with
  | nil => rfl
  | cons w wts ih =>
    unfold keepFinite at ih ⊢
    cases w <;> simp [finite, ih, XR.isFinite]

/-- The positions of the finite weights. -/
def positions (wts : List (XR ℝ)) : List Nat := keepFinite wts (List.range wts.length)

theorem keepFinite_positions (wts : List (XR ℝ)) (hs : List H) (h : hs.length = wts.length) :
    (keepFinite wts hs).map some = (positions wts).map (hs[·]?) := by
  unfold positions
  rw [← keepFinite_map, ← keepFinite_map]
  congr 1
  apply List.ext_getElem?
  intro i
  rw [List.getElem?_map, List.getElem?_map]
  by_cases hi : i < wts.length
  · rw [List.getElem?_range hi]
    simp [List.getElem?_eq_getElem (h ▸ hi : i < hs.length)]
  · rw [List.getElem?_eq_none (by omega : hs.length ≤ i),
      List.getElem?_eq_none (by simpa using hi : (List.range wts.length).length ≤ i)]
    rfl

theorem length_positions (wts : List (XR ℝ)) : (positions wts).length = (finite wts).length := by
  have := congrArg List.length (keepFinite_positions wts wts rfl)
  rw [← map_finite] at this
  simpa using this.symm

theorem positions_weight (wts : List (XR ℝ)) (j i : Nat) (h : (positions wts)[j]? = some i) :
    ∃ w, (finite wts)[j]? = some w ∧ wts[i]? = some (.fin w) := by
  have := congrArg (fun l => l[j]?) (keepFinite_positions wts wts rfl)
  rw [← map_finite] at this
  simp only [List.map_map, List.getElem?_map, h, Option.map_some] at this
  cases hw : (finite wts)[j]? with
  | none => simp [hw] at this
  | some w =>
    simp only [hw, Option.map_some, Option.some.injEq, Function.comp] at this
    exact ⟨w, rfl, this.symm⟩

theorem select_ok (hs : List H) (sel : List Nat) (hs' : List H) :
    select hs sel = .ok hs' ↔ hs'.map some = sel.map (hs[·]?) := by
  induction sel generalizing hs' with
  | nil =>
    simp only [select, List.mapM_nil, pure, Except.pure, Except.ok.injEq, List.map_nil, List.map_eq_nil_iff]
    exact eq_comm
  | cons i sel ih =>
    unfold select at ih ⊢
    rw [List.mapM_cons]
    cases hi : hs[i]? with
    | none =>
      simp only [bind, Except.bind, reduceCtorEq, List.map_cons, hi, false_iff]
      intro h
      cases hs' <;> simp at h
    | some a =>
      simp only [bind, Except.bind, List.map_cons, hi]
      constructor
      · intro h
        split at h
        · cases h
        · rename_i l hl
          simp only [pure, Except.pure, Except.ok.injEq] at h
          subst h
          rw [List.map_cons, (ih l).1 hl]
      · intro h
        cases hs' with
        | nil => simp at h
        | cons b l =>
          simp only [List.map_cons, List.cons.injEq, Option.some.injEq] at h
          rw [(ih l).2 h.2, h.1]
          rfl

/-- Selecting among the kept entries is selecting among all entries. -/
theorem select_keep (wts : List (XR ℝ)) (hs : List H) (h : hs.length = wts.length) (sel : List Nat) (hs' : List H)
    (hsel : ∀ j ∈ sel, j < (positions wts).length) (h' : select (keepFinite wts hs) sel = .ok hs') :
    hs'.map some = (sel.map (fun j => (positions wts).getD j 0)).map (hs[·]?) := by
  rw [(select_ok _ _ _).1 h', List.map_map]
  apply List.map_congr_left
  intro j hj
  have h1 := congrArg (fun l => l[j]?) (keepFinite_positions wts hs h)
  have hlt := hsel j hj
  simp only [List.getElem?_map, List.getElem?_eq_getElem hlt, Option.map_some] at h1
  simp only [Function.comp, List.getD_eq_getElem?_getD, List.getElem?_eq_getElem hlt, Option.getD_some]
  cases hk : (keepFinite wts hs)[j]? with
  | none => simp [hk] at h1
  | some a =>
    simp only [hk, Option.map_some, Option.some.injEq] at h1
    rw [← h1]

theorem sum_fin (ps : List ℝ) : (ps.map XR.fin).sum = XR.fin ps.sum := by
  induction ps with
  | nil => rfl
  | cons a l ih => rw [List.map_cons, List.sum_cons, ih, List.sum_cons]; rfl

theorem choice_valid {r : Rand S ℝ} (hr : r.Honest) {p : List (XR ℝ)} (hv : validProbs p = true) (n : Nat) (s : S) :
    ∃ sel s1, r.choice p n s = (.ok sel, s1) ∧ ∀ i ∈ sel, ∃ w, p[i]? = some w ∧ XR.lt (.fin 0) w = true :=
  ⟨_, _, by unfold Rand.choice; simp only [hv, if_true]; rfl, hr.support p n s hv⟩

/-- **C67**: whenever `resample` returns, either no weight was finite and everything comes back as it was given, or
the result consists of the entries at some list of positions: the requested number of them (as many as there were
weights when no size is given, one for a negative size), the same positions for hypotheses and parameters, each of
finite weight - and of non-zero weight unless weights are logarithms. -/
theorem C67 (r : Rand S ℝ) (hr : r.Honest) (wts : List (XR ℝ)) (hs : List H) (hlen : hs.length = wts.length)
    (pars : Option (List P)) (plen : ∀ ps, pars = some ps → ps.length = wts.length) (log : Bool) (size : Option Int)
    (s s' : S) (hs' : List H) (pars' : Option (List P)) (lse : XR ℝ)
    (h : resample r wts hs pars log size s = (.ok (hs', pars', lse), s')) :
    ((∀ w : ℝ, XR.fin w ∉ wts) → hs' = hs ∧ (pars' = pars ∨ pars = some [] ∧ pars' = none) ∧ lse = .pinf ∧ s' = s) ∧
    ((∃ w : ℝ, XR.fin w ∈ wts) → ∃ idx : List Nat,
      (∀ n, (size = none ∨ size = some 0) → n = wts.length → idx.length = n) ∧
      (∀ n : Nat, size = some (n : Int) → n ≠ 0 → idx.length = n) ∧
      (∀ n : Int, size = some n → n < 0 → idx.length = 1) ∧
      hs'.map some = idx.map (hs[·]?) ∧
      (∀ ps, pars = some ps → ∃ ps', pars' = some ps' ∧ ps'.map some = idx.map (ps[·]?)) ∧
      (pars = none → pars' = none) ∧
      ∀ i ∈ idx, ∃ w, wts[i]? = some (.fin w) ∧ (log = false → w ≠ 0)) := by
  have hfin : ∀ w : ℝ, w ∈ finite wts ↔ XR.fin w ∈ wts := by
    intro w
    clear h hlen plen
    induction wts with
    | nil => simp [finite]
    | cons v wts ih => cases v <;> simp [finite, ih]
  unfold resample at h
  simp only at h
  by_cases he : (finite wts).isEmpty = true
  · simp only [he, if_true, Prod.mk.injEq, Except.ok.injEq] at h
    obtain ⟨⟨rfl, rfl, rfl⟩, rfl⟩ := h
    have he' : finite wts = [] := by simpa using he
    constructor
    · intro _
      refine ⟨rfl, ?_, ?_, rfl⟩
      · rcases pars with _ | _ | _ <;> simp
      · simp [xlog, npLog]
    · rintro ⟨w, hw⟩
      have := (hfin w).2 hw
      simp [he'] at this
  · have he' : finite wts ≠ [] := by simpa using he
    constructor
    · intro hno
      obtain ⟨w, l, hw⟩ := List.exists_cons_of_ne_nil he'
      exact absurd ((hfin w).1 (by simp [hw])) (hno w)
    · rintro ⟨w0, hw0⟩
      simp only [he, Bool.false_eq_true, if_false] at h
      generalize hlp : (if log = true then
        (XR.fin (logsumexp (finite wts)),
          (finite wts).map (fun w => XR.fin (Real.exp (w - logsumexp (finite wts)))))
        else (xlog (.fin (finite wts).sum), (finite wts).map (fun w => XR.fin w / XR.fin (finite wts).sum))) = lp at h
      have hplen : lp.2.length = (finite wts).length := by
        rw [← hlp]
        split <;> simp
      have hpz : ∀ (j : Nat) (w : ℝ), log = false → (finite wts)[j]? = some w → w = 0 → ∀ x, lp.2[j]? = some x →
          XR.lt (.fin 0) x = false := by
        intro j w hl hj hw x hx
        rw [← hlp] at hx
        simp only [hl, Bool.false_eq_true, if_false, List.getElem?_map, hj, Option.map_some, Option.some.injEq] at hx
        rw [← hx, hw, XR.fin_div_fin]
        split <;> simp [XR.lt, XR.scaleInf]
      generalize hch : r.choice lp.2 (newSize wts size) s = ch at h
      obtain ⟨res, s1⟩ := ch
      cases res with
      | error e => simp at h
      | ok sel =>
        have hc : (r.pick lp.2 (newSize wts size) s).1 = sel ∧ validProbs lp.2 = true := by
          unfold Rand.choice at hch
          split at hch
          · rename_i hv
            simp only [Prod.mk.injEq, Except.ok.injEq] at hch
            exact ⟨hch.1, hv⟩
          · simp at hch
        obtain ⟨hsel, hv⟩ := hc
        have hsize := hr.size lp.2 (newSize wts size) s hv
        have hsupp := hr.support lp.2 (newSize wts size) s hv
        rw [hsel] at hsize hsupp
        have hlt : ∀ j ∈ sel, j < (positions wts).length := by
          intro j hj
          obtain ⟨w, hw, -⟩ := hsupp j hj
          rw [length_positions, ← hplen]
          exact (List.getElem?_eq_some_iff.1 hw).1
        simp only at h
        cases hsh : select (keepFinite wts hs) sel with
        | error e => simp [hsh] at h
        | ok hs1 =>
          simp only [hsh] at h
          refine ⟨sel.map (fun j => (positions wts).getD j 0), ?_, ?_, ?_, ?_, ?_, ?_, ?_⟩
          · rintro n (rfl | rfl) rfl <;> simp [hsize, newSize]
          · rintro n rfl hn
            simp only [List.length_map, hsize, newSize, Nat.cast_eq_zero, hn, if_false]
            omega
          · rintro n rfl hn
            simp only [List.length_map, hsize, newSize, hn.ne, if_false]
            omega
          · have : hs' = hs1 := by
              revert h
              rcases pars with _ | _ | ⟨p0, ps⟩
              · simp +contextual [eq_comm]
              · simp +contextual [eq_comm]
              · simp only [Option.map_some]
                cases hk : keepFinite wts (p0 :: ps) with
                | nil => simp +contextual [eq_comm]
                | cons q qs => cases hq : select (q :: qs) sel <;> simp +contextual [hq, eq_comm]
            rw [this]
            exact select_keep wts hs hlen sel hs1 hlt hsh
          · rintro ps rfl
            cases ps with
            | nil =>
              have := plen [] rfl
              cases wts with
              | nil => simp at hw0
              | cons => simp at this
            | cons p0 ps =>
              simp only [Option.map_some] at h
              cases hk : keepFinite wts (p0 :: ps) with
              | nil =>
                have h1 := congrArg List.length (keepFinite_positions wts (p0 :: ps) (plen _ rfl))
                simp only [List.length_map, length_positions, hk, List.length_nil] at h1
                exact absurd (List.length_eq_zero_iff.1 h1.symm) he'
              | cons q qs =>
                rw [hk] at h
                cases hsp : select (q :: qs) sel with
                | error e => simp [hsp] at h
                | ok ps1 =>
                  simp only [hsp, Prod.mk.injEq, Except.ok.injEq] at h
                  obtain ⟨⟨-, rfl, -⟩, -⟩ := h
                  exact ⟨ps1, rfl, select_keep wts (p0 :: ps) (plen _ rfl) sel ps1 hlt (by rw [hk]; exact hsp)⟩
          · rintro rfl
            simp only [Option.map_none, Prod.mk.injEq, Except.ok.injEq] at h
            exact h.1.2.1.symm
          · intro i hi
            obtain ⟨j, hj, rfl⟩ := List.mem_map.1 hi
            have hjl := hlt j hj
            have hg : (positions wts)[j]? = some ((positions wts).getD j 0) := by
              rw [List.getD_eq_getElem?_getD, List.getElem?_eq_getElem hjl]
              rfl
            obtain ⟨w, hw, hw'⟩ := positions_weight wts j _ hg
            refine ⟨w, hw', ?_⟩
            intro hl hz
            obtain ⟨x, hx, hpos⟩ := hsupp j hj
            have := hpz j w hl hw hz x hx
            rw [this] at hpos
            cases hpos

/-- C67, no failure: with logarithmic weights, at least one of them finite, `resample` always returns. -/
theorem C67_total (r : Rand S ℝ) (hr : r.Honest) (wts : List (XR ℝ)) (hs : List H) (hlen : hs.length = wts.length)
    (pars : Option (List P)) (plen : ∀ ps, pars = some ps → ps.length = wts.length) (size : Option Int) (s : S) :
    ∃ res s', resample r wts hs pars true size s = (.ok res, s') := by
  unfold resample
  simp only
  by_cases he : (finite wts).isEmpty = true
  · simp [he]
  · simp only [he, Bool.false_eq_true, if_false, if_true]
    have he' : finite wts ≠ [] := by simpa using he
    have hpos : 0 < ((finite wts).map Real.exp).sum := by
      apply List.sum_pos
      · intro x hx
        obtain ⟨w, -, rfl⟩ := List.mem_map.1 hx
        exact Real.exp_pos w
      · simpa using he'
    have hv : validProbs ((finite wts).map (fun w => XR.fin (Real.exp (w - logsumexp (finite wts))))) = true := by
      unfold validProbs
      simp only [List.all_map, Bool.and_eq_true, List.all_eq_true, Function.comp, decide_eq_true_eq]
      refine ⟨fun w _ => ⟨by simp [Real.exp_nonneg], rfl⟩, ?_⟩
      have : (finite wts).map (fun w => XR.fin (Real.exp (w - logsumexp (finite wts)))) =
          ((finite wts).map (fun w => Real.exp w * (Real.exp (logsumexp (finite wts)))⁻¹)).map XR.fin := by
        rw [List.map_map]
        apply List.map_congr_left
        intro w _
        simp only [Function.comp]
        rw [Real.exp_sub, div_eq_mul_inv]
      rw [this, sum_fin, List.sum_map_mul_right, logsumexp, Real.exp_log hpos, mul_inv_cancel₀ hpos.ne']
    obtain ⟨sel, s1, hc, hsupp⟩ := choice_valid hr hv (newSize wts size) s
    simp only [hc]
    have hsl : ∀ {A : Type} (l : List A), l.length = wts.length → ∃ l', select (keepFinite wts l) sel = .ok l' := by
      intro A l hl
      have hll : (keepFinite wts l).length = (finite wts).length := by
        have := congrArg List.length (keepFinite_positions wts l hl)
        simp only [List.length_map] at this
        rw [this, length_positions]
      clear hv hc
      induction sel with
      | nil => exact ⟨[], rfl⟩
      | cons j sel ih =>
        obtain ⟨l', hl'⟩ := ih (fun i hi => hsupp i (by simp [hi]))
        obtain ⟨w, hw, -⟩ := hsupp j (by simp)
        have hj : j < (keepFinite wts l).length := by
          have := (List.getElem?_eq_some_iff.1 hw).1
          simp at this
          omega
        refine ⟨(keepFinite wts l)[j] :: l', ?_⟩
        unfold select at hl' ⊢
        rw [List.mapM_cons, List.getElem?_eq_getElem hj]
        simp only [bind, Except.bind, hl']
        rfl
    obtain ⟨hs1, h1⟩ := hsl hs hlen
    rcases pars with _ | _ | ⟨p0, ps⟩
    · exact ⟨_, _, by simp only [h1]; rfl⟩
    · exact ⟨_, _, by simp only [h1]; rfl⟩
    · obtain ⟨ps1, h2⟩ := hsl (p0 :: ps) (plen _ rfl)
      cases hk : keepFinite wts (p0 :: ps) with
      | nil => exact ⟨_, _, by simp only [h1, hk, Option.map_some]; rfl⟩
      | cons q qs =>
        rw [hk] at h2
        exact ⟨_, _, by simp only [h1, hk, h2, Option.map_some]; rfl⟩

/-- Two of three weights are finite; the hypotheses of both theorems hold. -/
example : ∃ hs' ps' lse s', resample (firstRand : Rand Nat ℝ) [.ninf, .fin 0, .fin 1] ["a", "b", "c"] (some [1, 2, 3]) true (some 5) 0 =
      (.ok (hs', ps', lse), s') ∧ hs'.length = 5 ∧ ∀ h ∈ hs', h ≠ "a" := by
  obtain ⟨⟨hs', ps', lse⟩, s', h⟩ := C67_total (firstRand : Rand Nat ℝ) firstRand_honest [.ninf, .fin 0, .fin 1] ["a", "b", "c"] rfl
    (some [1, 2, 3]) (by rintro ps hps; cases hps; rfl) (some 5) 0
  refine ⟨hs', ps', lse, s', h, ?_⟩
  obtain ⟨-, h2⟩ := C67 (firstRand : Rand Nat ℝ) firstRand_honest [.ninf, .fin 0, .fin 1] ["a", "b", "c"] rfl (some [1, 2, 3])
    (by rintro ps hps; cases hps; rfl) _ _ _ _ _ _ _ h
  obtain ⟨idx, -, hn, -, hh, -, -, hw⟩ := h2 ⟨0, by simp⟩
  have hl := congrArg List.length hh
  simp only [List.length_map] at hl
  refine ⟨by rw [hl]; exact hn 5 rfl (by decide), ?_⟩
  rintro x hx rfl
  have : some "a" ∈ idx.map (["a", "b", "c"][·]?) := by
    rw [← hh]
    exact List.mem_map.2 ⟨_, hx, rfl⟩
  obtain ⟨i, hi, hia⟩ := List.mem_map.1 this
  obtain ⟨w, hw, -⟩ := hw i hi
  match i with
  | 0 => simp at hw
  | 1 => simp at hia
  | 2 => simp at hia
  | n + 3 => simp at hia

/-! ### C105: the evidence -/

/-- The weight that a log weight stands for. -/
noncomputable def weight : XR ℝ → ℝ
  | .fin x => Real.exp x
  | _ => 0

theorem weight_sum (wts : List (XR ℝ)) : (wts.map weight).sum = ((finite wts).map Real.exp).sum := by
  induction wts with
  | nil => rfl
  | cons w wts ih => cases w <;> simp [finite, weight, ih]

/-- **C105**, what holds: for log weights that are finite or `-inf`, not all the latter, the last result is the log of
the mean weight, provided that no size was given or the size is the number of weights; for another size it is the log
of the total weight divided by that size. -/
theorem C105_partial (r : Rand S ℝ) (wts : List (XR ℝ)) (hs : List H) (pars : Option (List P))
    (hfin : ∃ w : ℝ, XR.fin w ∈ wts) (size : Option Int)
    (s s' : S) (hs' : List H) (pars' : Option (List P)) (lse : XR ℝ)
    (h : resample r wts hs pars true size s = (.ok (hs', pars', lse), s')) :
    ∃ e : ℝ, lse = .fin e ∧
      ((size = none ∨ size = some 0 ∨ size = some (wts.length : Int)) →
        Real.exp e = (wts.map weight).sum / wts.length) ∧
      (∀ n : Nat, 0 < n → size = some (n : Int) → Real.exp e = (wts.map weight).sum / n) := by
  obtain ⟨w0, hw0⟩ := hfin
  have he' : finite wts ≠ [] := by
    have : w0 ∈ finite wts := by
      clear h
      induction wts with
      | nil => simp at hw0
      | cons v wts ih =>
        rcases List.mem_cons.1 hw0 with rfl | hw1
        · simp [finite]
        · have := ih hw1
          cases v <;> simp [finite, this]
    exact List.ne_nil_of_mem this
  have hlen : 0 < wts.length := List.length_pos_of_mem hw0
  have hpos : 0 < ((finite wts).map Real.exp).sum := by
    apply List.sum_pos
    · intro x hx
      obtain ⟨w, -, rfl⟩ := List.mem_map.1 hx
      exact Real.exp_pos w
    · simpa using he'
  have hm : 0 < newSize wts size := by
    unfold newSize
    split
    · exact hlen
    · split
      · exact hlen
      · omega
  have hmr : (0 : ℝ) < (newSize wts size : ℝ) := by exact_mod_cast hm
  have hl : lse = XR.fin (logsumexp (finite wts)) - xlog (.fin (newSize wts size)) := by
    unfold resample at h
    simp only at h
    have he : (finite wts).isEmpty = false := by simpa using he'
    simp only [he, Bool.false_eq_true, if_false, if_true] at h
    split at h
    · cases h
    · split at h
      · cases h
      · split at h
        · simp only [Prod.mk.injEq, Except.ok.injEq] at h
          exact h.1.2.2.symm
        · simp only [Prod.mk.injEq, Except.ok.injEq] at h
          exact h.1.2.2.symm
        · split at h
          · cases h
          · simp only [Prod.mk.injEq, Except.ok.injEq] at h
            exact h.1.2.2.symm
  have hx : xlog (.fin (newSize wts size : ℝ)) = .fin (Real.log (newSize wts size)) := by
    simp [xlog, npLog, hmr]
  rw [hx, XR.fin_sub_fin] at hl
  have hexp : Real.exp (logsumexp (finite wts) - Real.log (newSize wts size)) =
      (wts.map weight).sum / (newSize wts size) := by
    rw [Real.exp_sub, Real.exp_log hmr, logsumexp, Real.exp_log hpos, weight_sum]
  refine ⟨_, hl, ?_, ?_⟩
  · intro hsz
    rw [hexp]
    congr 2
    rcases hsz with rfl | rfl | rfl
    · rfl
    · rfl
    · have h0 : ¬ ((wts.length : Int) = 0) := by omega
      simp only [newSize, h0, if_false]
      omega
  · rintro n hn rfl
    rw [hexp]
    congr 2
    have h0 : ¬ ((n : Int) = 0) := by omega
    simp only [newSize, h0, if_false]
    omega

/-- The weights are zero, one and one: their mean is 2/3. -/
example : ∃ (e : ℝ) (hs' : List String) (s' : Nat),
    resample (firstRand : Rand Nat ℝ) [.ninf, .fin 0, .fin 0] ["a", "b", "c"] (none : Option (List Nat)) true none 0 =
      (.ok (hs', none, .fin e), s') ∧ Real.exp e = 2 / 3 := by
  obtain ⟨⟨hs', ps', lse⟩, s', h⟩ := C67_total (firstRand : Rand Nat ℝ) firstRand_honest [.ninf, .fin 0, .fin 0]
    ["a", "b", "c"] rfl (none : Option (List Nat)) (by simp) none 0
  obtain ⟨e, rfl, he, -⟩ := C105_partial (firstRand : Rand Nat ℝ) [.ninf, .fin 0, .fin 0] ["a", "b", "c"] none
    ⟨0, by simp⟩ none _ _ _ _ _ h
  obtain ⟨-, h2⟩ := C67 (firstRand : Rand Nat ℝ) firstRand_honest [.ninf, .fin 0, .fin 0] ["a", "b", "c"] rfl
    (none : Option (List Nat)) (by simp) _ _ _ _ _ _ _ h
  obtain ⟨-, -, -, -, -, -, hn, -⟩ := h2 ⟨0, by simp⟩
  have hn := hn rfl
  subst hn
  refine ⟨e, hs', s', h, ?_⟩
  rw [he (.inl rfl)]
  simp [weight]
  norm_num

/-- **C105** fails when every weight is impossible: the log of the mean weight, zero, is reported as `+inf`. -/
theorem C105_refuted (r : Rand S ℝ) (s : S) : ∃ hs', resample r [.ninf, .ninf] ["a", "b"] (none : Option (List P)) true
    none s = (.ok (hs', none, .pinf), s) ∧ (([.ninf, .ninf] : List (XR ℝ)).map weight).sum / 2 = 0 := by
  refine ⟨["a", "b"], ?_, by simp [weight]⟩
  simp [resample, finite, xlog, npLog]

/-- **C105** fails when another number of hypotheses is asked for: of two weights of one the mean is one, but its log is
reported as minus the log of two when four are drawn. -/
theorem C105_size_refuted : ∃ (e : ℝ) (hs' : List String) (ps' : Option (List Nat)) (s' : Nat),
    resample (firstRand : Rand Nat ℝ) [.fin 0, .fin 0] ["a", "b"] none true (some 4) 0 =
      (.ok (hs', ps', .fin e), s') ∧ Real.exp e = 1 / 2 ∧ (([.fin 0, .fin 0] : List (XR ℝ)).map weight).sum / 2 = 1 := by
  obtain ⟨⟨hs', ps', lse⟩, s', h⟩ := C67_total (firstRand : Rand Nat ℝ) firstRand_honest [.fin 0, .fin 0]
    ["a", "b"] rfl (none : Option (List Nat)) (by simp) (some 4) 0
  obtain ⟨e, rfl, -, he⟩ := C105_partial (firstRand : Rand Nat ℝ) [.fin 0, .fin 0] ["a", "b"] none
    ⟨0, by simp⟩ (some 4) _ _ _ _ _ h
  refine ⟨e, hs', ps', s', h, ?_, ?_⟩
  · rw [he 4 (by norm_num) rfl]
    simp [weight]
    norm_num
  · simp [weight]

end Props.Resample
