import Verif.Props.Resample
import Verif.Props.Spread
import Verif.Props.Cpt
import Verif.Props.Failures

/-!
# What is raised for what is missing: entries, parents' values, columns, distributions (C187-C189)
-/

namespace Props.Lookups
set_option linter.unusedSectionVars false

open Py Model Lemmas

/-! ## C187: resampling lists that do not match the weights -/

section Resampling

variable {S H P : Type}

theorem mem_finite (wts : List (XR ℝ)) (w : ℝ) : w ∈ finite wts ↔ XR.fin w ∈ wts := by
  induction wts with
  | nil => simp [finite]
  | cons v wts ih => cases v <;> simp [finite, ih]

theorem select_error {hs : List H} {sel : List Nat} {e : Err} (h : select hs sel = .error e) :
    e = .IndexError ∧ ∃ i ∈ sel, hs.length ≤ i := by
  induction sel with
  | nil => cases h
  | cons i sel ih =>
    unfold select at h ih
    rw [List.mapM_cons] at h
    cases hi : hs[i]? with
    | none =>
      simp only [hi, bind, Except.bind, Except.error.injEq] at h
      exact ⟨h.symm, i, by simp, by simpa using hi⟩
    | some a =>
      simp only [hi, bind, Except.bind] at h
      split at h
      · rename_i e1 h1
        simp only [Except.error.injEq] at h
        subst h
        obtain ⟨rfl, j, hj, hl⟩ := ih h1
        exact ⟨rfl, j, by simp [hj], hl⟩
      · cases h

theorem select_short {hs : List H} {sel : List Nat} (h : ∃ i ∈ sel, hs.length ≤ i) :
    select hs sel = .error .IndexError := by
  cases hc : select hs sel with
  | error e => rw [(select_error hc).1]
  | ok l =>
    have := (Resample.select_ok _ _ _).1 hc
    obtain ⟨i, hi, hl⟩ := h
    have hm : hs[i]? ∈ l.map some := by
      rw [this]
      exact List.mem_map.2 ⟨i, hi, rfl⟩
    rw [List.getElem?_eq_none hl] at hm
    simp at hm

theorem keep_length {hs : List H} {wts : List (XR ℝ)} (h : wts.length ≤ hs.length) :
    (keepFinite wts hs).length = (finite wts).length := by
  induction wts generalizing hs with
  | nil => simp [keepFinite, finite]
  | cons w wts ih =>
    cases hs with
    | nil => simp at h
    | cons a hs =>
      have := ih (hs := hs) (by simpa using h)
      cases w <;> simp_all [keepFinite, finite, XR.isFinite]

theorem keep_take {hs : List H} (wts : List (XR ℝ)) : keepFinite wts (hs.take wts.length) = keepFinite wts hs := by
  induction wts generalizing hs with
  | nil => simp [keepFinite]
  | cons w wts ih =>
    cases hs with
    | nil => rfl
    | cons a hs =>
      have := ih (hs := hs)
      cases w <;> simp_all [keepFinite, XR.isFinite]

/-- The probabilities with which `resample` draws. -/
noncomputable def probs (log : Bool) (ws : List ℝ) : List (XR ℝ) :=
  if log then ws.map (fun w => XR.fin (Real.exp (w - logsumexp ws))) else ws.map (fun w => XR.fin w / XR.fin ws.sum)

theorem probs_log {ws : List ℝ} (hw : ws ≠ []) : validProbs (probs true ws) = true := by
  have hpos : 0 < (ws.map Real.exp).sum := by
    apply List.sum_pos
    · intro x hx
      obtain ⟨w, -, rfl⟩ := List.mem_map.1 hx
      exact Real.exp_pos w
    · simpa using hw
  unfold validProbs probs
  simp only [if_true, List.all_map, Bool.and_eq_true, List.all_eq_true, Function.comp, decide_eq_true_eq]
  refine ⟨fun w _ => ⟨by simp [Real.exp_nonneg], rfl⟩, ?_⟩
  have : ws.map (fun w => XR.fin (Real.exp (w - logsumexp ws))) =
      (ws.map (fun w => Real.exp w * (Real.exp (logsumexp ws))⁻¹)).map XR.fin := by
    rw [List.map_map]
    apply List.map_congr_left
    intro w _
    simp only [Function.comp]
    rw [Real.exp_sub, div_eq_mul_inv]
  rw [this, Resample.sum_fin, List.sum_map_mul_right, logsumexp, Real.exp_log hpos, mul_inv_cancel₀ hpos.ne']

theorem probs_plain {ws : List ℝ} (h0 : ∀ w ∈ ws, 0 ≤ w) (h1 : ∃ w ∈ ws, w ≠ 0) : validProbs (probs false ws) = true := by
  have hpos : 0 < ws.sum := by
    obtain ⟨w, hw, hne⟩ := h1
    exact lt_of_lt_of_le (lt_of_le_of_ne (h0 w hw) (Ne.symm hne)) (List.single_le_sum h0 w hw)
  unfold validProbs probs
  have e : ws.map (fun w => XR.fin w / XR.fin ws.sum) = (ws.map (fun w => w * ws.sum⁻¹)).map XR.fin := by
    rw [List.map_map]
    apply List.map_congr_left
    intro w _
    rw [XR.fin_div_fin, if_neg hpos.ne', Function.comp, div_eq_mul_inv]
  simp only [Bool.false_eq_true, if_false]
  rw [e]
  simp only [List.all_map, Bool.and_eq_true, List.all_eq_true, Function.comp, decide_eq_true_eq]
  refine ⟨fun w hw => ⟨by simpa using mul_nonneg (h0 w hw) (inv_nonneg.2 hpos.le), rfl⟩, ?_⟩
  rw [Resample.sum_fin, List.sum_map_mul_right, List.map_id', mul_inv_cancel₀ hpos.ne']

theorem length_probs (log : Bool) (ws : List ℝ) : (probs log ws).length = ws.length := by
  unfold probs
  split <;> simp

/-- What `resample` does once a weight is finite. -/
theorem resample_eq (r : Rand S ℝ) {wts : List (XR ℝ)} (hw : finite wts ≠ []) (hs : List H) (pars : Option (List P))
    (log : Bool) (size : Option Int) (s : S) : ∃ lse : XR ℝ, resample r wts hs pars log size s =
      match r.choice (probs log (finite wts)) (newSize wts size) s with
      | (.error e, s') => (.error e, s')
      | (.ok sel, s') =>
        match select (keepFinite wts hs) sel with
        | .error e => (.error e, s')
        | .ok hs' =>
          match pars.map (keepFinite wts) with
          | none => (.ok (hs', none, lse), s')
          | some [] => (.ok (hs', none, lse), s')
          | some (p :: ps) =>
            match select (p :: ps) sel with
            | .error e => (.error e, s')
            | .ok ps' => (.ok (hs', some ps', lse), s') := by
  have he : ¬ (finite wts).isEmpty = true := by simpa using hw
  unfold resample probs
  simp only [he, if_false, Bool.false_eq_true]
  cases log with
  | true =>
    refine ⟨.fin (logsumexp (finite wts)) - xlog (.fin (newSize wts size)), ?_⟩
    simp only [if_true]
    generalize r.choice _ (newSize wts size) s = c
    obtain ⟨_ | sel, s1⟩ := c
    · rfl
    · simp only
      cases select (keepFinite wts hs) sel with
      | error => rfl
      | ok hs1 =>
        rcases pars with _ | _ | ⟨p, ps⟩
        · rfl
        · simp [keepFinite]
        · simp only [Option.map_some]
          cases keepFinite wts (p :: ps) with
          | nil => rfl
          | cons q qs => cases hq : select (q :: qs) sel <;> simp only [hq]
  | false =>
    refine ⟨xlog (.fin (finite wts).sum) - xlog (.fin (newSize wts size)), ?_⟩
    simp only [Bool.false_eq_true, if_false]
    generalize r.choice _ (newSize wts size) s = c
    obtain ⟨_ | sel, s1⟩ := c
    · rfl
    · simp only
      cases select (keepFinite wts hs) sel with
      | error => rfl
      | ok hs1 =>
        rcases pars with _ | _ | ⟨p, ps⟩
        · rfl
        · simp [keepFinite]
        · simp only [Option.map_some]
          cases keepFinite wts (p :: ps) with
          | nil => rfl
          | cons q qs => cases hq : select (q :: qs) sel <;> simp only [hq]

/-- **C187** (why `resample` fails): with ValueError for plain weights of which one is negative or all finite ones are
zero, with IndexError for hypotheses or parameters that are fewer than the weights - in the case of parameters only
when one of them has a finite weight - and in no other way. -/
theorem C187 {r : Rand S ℝ} (hr : r.Honest) {wts : List (XR ℝ)} {hs : List H} {pars : Option (List P)} {log : Bool}
    {size : Option Int} {s s' : S} {e : Err} (h : resample r wts hs pars log size s = (.error e, s')) :
    e = .ValueError ∧ log = false ∧ ((∃ w : ℝ, XR.fin w ∈ wts ∧ w < 0) ∨ ∀ w : ℝ, XR.fin w ∈ wts → w = 0) ∨
    e = .IndexError ∧ (hs.length < wts.length ∨ ∃ ps, pars = some ps ∧ ps ≠ [] ∧
      (∃ (i : Nat) (w : ℝ), wts[i]? = some (.fin w) ∧ i < ps.length) ∧ ps.length < wts.length) := by
  by_cases hw : finite wts = []
  · unfold resample at h
    simp [hw] at h
  · obtain ⟨lse, he⟩ := resample_eq r hw hs pars log size s
    rw [he] at h
    by_cases hv : validProbs (probs log (finite wts)) = true
    · right
      obtain ⟨sel, s1, hc, hsupp⟩ := Resample.choice_valid hr hv (newSize wts size) s
      rw [hc] at h
      simp only at h
      have hlt : ∀ i ∈ sel, i < (finite wts).length := by
        intro i hi
        obtain ⟨w, hw, -⟩ := hsupp i hi
        rw [← length_probs log]
        exact (List.getElem?_eq_some_iff.1 hw).1
      have short : ∀ {A : Type} {l : List A} {e1 : Err}, select (keepFinite wts l) sel = .error e1 →
          e1 = .IndexError ∧ l.length < wts.length := by
        intro A l e1 h1
        obtain ⟨h2, i, hi, h3⟩ := select_error h1
        refine ⟨h2, ?_⟩
        by_contra hl
        rw [keep_length (by omega)] at h3
        have := hlt i hi
        omega
      split at h
      · rename_i e1 h1
        simp only [Prod.mk.injEq, Except.error.injEq] at h
        obtain ⟨rfl, -⟩ := h
        exact ⟨(short h1).1, .inl (short h1).2⟩
      · split at h
        · simp at h
        · simp at h
        · rename_i q qs hq
          split at h
          · rename_i e1 h1
            simp only [Prod.mk.injEq, Except.error.injEq] at h
            obtain ⟨rfl, -⟩ := h
            cases pars with
            | none => simp at hq
            | some ps =>
              simp only [Option.map_some, Option.some.injEq] at hq
              rw [← hq] at h1
              refine ⟨(short h1).1, .inr ⟨ps, rfl, ?_, ?_, (short h1).2⟩⟩
              · rintro rfl
                simp [keepFinite] at hq
              · have hm : q ∈ keepFinite wts ps := by simp [hq]
                obtain ⟨⟨a, w⟩, ha, rfl⟩ := List.mem_map.1 hm
                obtain ⟨hz, hfw⟩ := List.mem_filter.1 ha
                obtain ⟨i, hi⟩ := List.mem_iff_getElem?.1 hz
                obtain ⟨h3, h4⟩ := List.getElem?_zip_eq_some.1 hi
                cases w with
                | fin x => exact ⟨i, x, h4, (List.getElem?_eq_some_iff.1 h3).1⟩
                | _ => simp [XR.isFinite] at hfw
          · simp at h
    · left
      have hc : r.choice (probs log (finite wts)) (newSize wts size) s = (.error .ValueError, s) := by
        unfold Rand.choice
        rw [if_neg hv]
      rw [hc] at h
      simp only [Prod.mk.injEq, Except.error.injEq] at h
      refine ⟨h.1.symm, ?_⟩
      cases log with
      | true => exact absurd (probs_log hw) hv
      | false =>
        refine ⟨rfl, ?_⟩
        by_contra hcon
        push Not at hcon
        obtain ⟨h1, w, h2, h3⟩ := hcon
        exact hv (probs_plain (fun w hw => h1 w ((mem_finite _ _).1 hw)) ⟨w, (mem_finite _ _).2 h2, h3⟩)

/-- When every finite weight is beyond the end of a list, nothing of it is kept. -/
theorem keep_none {wts : List (XR ℝ)} {hs : List H}
    (hb : ∀ (i : Nat) (w : ℝ), wts[i]? = some (.fin w) → hs.length ≤ i) : keepFinite wts hs = [] := by
  induction wts generalizing hs with
  | nil => simp [keepFinite]
  | cons w wts ih =>
    cases hs with
    | nil => rfl
    | cons a hs =>
      have h1 := ih (hs := hs) (fun i x hx => by have := hb (i + 1) x (by simpa using hx); simpa using this)
      cases w with
      | fin x => have := hb 0 x rfl; simp at this
      | _ => exact h1

/-- **C187** (too few): when every finite weight is beyond the end of the hypotheses, `resample` raises IndexError. -/
theorem C187_few {r : Rand S ℝ} (hr : r.Honest) {wts : List (XR ℝ)} (hf : ∃ w : ℝ, XR.fin w ∈ wts) (hs : List H)
    (pars : Option (List P)) (hb : ∀ (i : Nat) (w : ℝ), wts[i]? = some (.fin w) → hs.length ≤ i)
    (size : Option Int) (s : S) : (resample r wts hs pars true size s).1 = .error .IndexError := by
  have hw : finite wts ≠ [] := by
    obtain ⟨w, hw⟩ := hf
    intro h
    have := (mem_finite wts w).2 hw
    simp [h] at this
  obtain ⟨lse, he⟩ := resample_eq r hw hs pars true size s
  have hv := probs_log hw
  have hk : keepFinite wts hs = [] := keep_none hb
  have hsize := hr.size _ (newSize wts size) s hv
  obtain ⟨sel, s1, hc, -⟩ := Resample.choice_valid hr hv (newSize wts size) s
  have hn : sel ≠ [] := by
    intro h
    unfold Rand.choice at hc
    rw [if_pos hv] at hc
    simp only [Prod.mk.injEq, Except.ok.injEq] at hc
    rw [hc.1, h] at hsize
    have hl : 0 < wts.length := by
      obtain ⟨w, hw⟩ := hf
      exact List.length_pos_of_mem hw
    unfold newSize at hsize
    split at hsize
    · simp at hsize; omega
    · split at hsize
      · simp at hsize; omega
      · simp only [List.length_nil] at hsize; omega
  rw [he, hc]
  simp only [hk]
  obtain ⟨i, l, rfl⟩ := List.exists_cons_of_ne_nil hn
  rw [select_short ⟨i, by simp, by simp⟩]

/-- **C187** (parameters lost): when every finite weight is beyond the end of the parameters there is no exception; the
result is the one without parameters. -/
theorem C187_lost (r : Rand S ℝ) {wts : List (XR ℝ)} (hf : ∃ w : ℝ, XR.fin w ∈ wts) (hs : List H) (ps : List P)
    (hb : ∀ (i : Nat) (w : ℝ), wts[i]? = some (.fin w) → ps.length ≤ i) (log : Bool) (size : Option Int) (s : S) :
    resample r wts hs (some ps) log size s = resample r wts hs none log size s := by
  have hw : (finite wts).isEmpty = false := by
    obtain ⟨w, hw⟩ := hf
    have := (mem_finite wts w).2 hw
    cases h : finite wts with
    | nil => simp [h] at this
    | cons => rfl
  have hk : keepFinite wts ps = [] := keep_none hb
  unfold resample
  simp only [hw, Bool.false_eq_true, if_false]
  cases ps with
  | nil => rfl
  | cons p ps => simp only [Option.map_some, Option.map_none, hk]

/-- **C187** (too many): hypotheses beyond the last weight are left out without an exception, once a weight is finite. -/
theorem C187_many (r : Rand S ℝ) {wts : List (XR ℝ)} (hf : ∃ w : ℝ, XR.fin w ∈ wts) (hs more : List H)
    (hl : hs.length = wts.length) (log : Bool) (size : Option Int) (s : S) :
    resample r wts (hs ++ more) (none : Option (List P)) log size s = resample r wts hs none log size s := by
  have hk : keepFinite wts (hs ++ more) = keepFinite wts hs := by
    rw [← keep_take (hs := hs ++ more), ← hl, List.take_left' rfl]
  have hw : (finite wts).isEmpty = false := by
    obtain ⟨w, hw⟩ := hf
    have := (mem_finite wts w).2 hw
    cases h : finite wts with
    | nil => simp [h] at this
    | cons => rfl
  unfold resample
  simp only [hw, hk, Bool.false_eq_true, if_false]

/-- Three weights and one hypothesis; two plain weights of opposite sign. -/
example : (resample (firstRand : Rand Nat ℝ) [.ninf, .fin 0, .fin 1] ["a"] (none : Option (List Nat)) true none 0).1 =
      .error .IndexError ∧
    resample (firstRand : Rand Nat ℝ) [.ninf, .fin 0] (["a", "b"] ++ ["c"]) (none : Option (List Nat)) true none 0 =
      resample firstRand [.ninf, .fin 0] ["a", "b"] none true none 0 ∧
    (resample (firstRand : Rand Nat ℝ) [.fin (-1), .fin 1] ["a", "b"] (none : Option (List Nat)) false none 0).1 =
      .error .ValueError ∧
    resample (firstRand : Rand Nat ℝ) [.ninf, .fin 0] ["a", "b"] (some [7]) true none 0 =
      resample firstRand [.ninf, .fin 0] ["a", "b"] none true none 0 := by
  refine ⟨C187_few firstRand_honest ⟨0, by simp⟩ _ _ ?_ _ _, ?_, ?_, ?_⟩
  · intro i w h
    match i, h with
    | 0, h => simp at h
    | i + 1, _ => simp
  · exact C187_many (hs := ["a", "b"]) (wts := [.ninf, .fin 0]) _ ⟨0, by simp⟩ _ rfl _ _ _
  · have hv : validProbs (probs false (finite [.fin (-1), .fin 1])) = false := by
      simp [probs, finite, validProbs, XR.fin_div_fin, XR.scaleInf, XR.isFinite]
    obtain ⟨lse, he⟩ := resample_eq (firstRand : Rand Nat ℝ) (wts := [.fin (-1), .fin 1]) (by simp [finite]) ["a", "b"]
      (none : Option (List Nat)) false none 0
    rw [he]
    unfold Rand.choice
    rw [hv]
    rfl
  · refine C187_lost _ ⟨0, by simp⟩ _ _ ?_ _ _ _
    intro i w h
    match i, h with
    | 0, h => simp at h
    | i + 1, _ => simp

end Resampling

/-! ## C188: values of a parent, columns of a table -/

section Names

variable {N V S K I : Type} [DecidableEq N] [DecidableEq I] [Field K] [LinearOrder K]

theorem sizes_keys (normal : K → S → K × S) (l : List (N × K)) (s : S) :
    (Spread.sizes normal l s).1.map Prod.fst = l.map Prod.fst := by
  induction l generalizing s with
  | nil => rfl
  | cons p l ih => simp [Spread.sizes, ih]

/-- **C188** (proposals): when every value can be added to, a mutation fails exactly when the parent lacks a parameter
that has a step size, and then with KeyError. -/
theorem C188_mutate {ops : NumOps V K} (hp : ∀ v z, ∃ w, ops.plus v z = .ok w) (normal : K → S → K × S) (p0 : Dict N V)
    (tau : Dict N K) (s : S) :
    ((∃ k ∈ tau.keys, p0.get? k = none) → (Spread.mutate ops normal p0 tau s).1 = .error .KeyError) ∧
    ((∀ k ∈ tau.keys, ∃ v, p0.get? k = some v) → ∃ p1, (Spread.mutate ops normal p0 tau s).1 = .ok p1 ∧ p1.keys = tau.keys) := by
  unfold Spread.mutate
  simp only
  have hk := sizes_keys normal tau s
  have hks : tau.keys = (Spread.sizes normal tau s).1.map Prod.fst := hk.symm
  rw [hks]
  clear hks hk
  generalize (Spread.sizes normal tau s).1 = zs
  constructor
  · rintro ⟨k, hk, hn⟩
    obtain ⟨⟨k, z⟩, hz, rfl⟩ := List.mem_map.1 hk
    refine Failures.mapM_keyError (fun x _ => ?_) ⟨_, hz, by simp only at hn; simp only [hn]⟩
    cases p0.get? x.1 with
    | none => exact .inl rfl
    | some v =>
      obtain ⟨w, hw⟩ := hp v x.2
      exact .inr ⟨(x.1, w), by simp only [hw]; rfl⟩
  · induction zs with
    | nil => exact fun _ => ⟨[], rfl, rfl⟩
    | cons x zs ih =>
      intro h
      obtain ⟨p1, h1, h2⟩ := ih (fun k hk => h k (by simp at hk ⊢; tauto))
      obtain ⟨v, hv⟩ := h x.1 (by simp)
      obtain ⟨w, hw⟩ := hp v x.2
      refine ⟨(x.1, w) :: p1, ?_, ?_⟩
      · rw [List.mapM_cons, h1]
        simp only [hv, hw]
        rfl
      · simp only [Dict.keys, List.map_cons] at h2 ⊢
        rw [h2]

/-- **C188** (tables): a conditional probability table is refused exactly when a row lacks one of the columns, with
KeyError. -/
theorem C188_table (mat : List (CptRow I K)) (ix : List I) :
    ((∃ r ∈ mat, ∃ x ∈ ix, r.cols.get? x = none) → Cpt.new mat ix = .error .KeyError) ∧
    ((∀ r ∈ mat, ∀ x ∈ ix, ∃ v, r.cols.get? x = some v) → ∃ t, Cpt.new mat ix = .ok t ∧ t.indices = ix) := by
  have hbad : ∀ r : CptRow I K, (∃ x ∈ ix, r.cols.get? x = none) → r.values ix = .error .KeyError := by
    intro r h
    rw [← Failures.mapM_missing h]
    unfold CptRow.values
    congr 1
    funext x
    cases r.cols.get? x <;> rfl
  have hgood : ∀ r : CptRow I K, (∀ x ∈ ix, ∃ v, r.cols.get? x = some v) → ∃ vs, r.values ix = .ok vs := by
    intro r h
    cases hv : r.values ix with
    | ok vs => exact ⟨vs, rfl⟩
    | error e =>
      exfalso
      clear hbad
      unfold CptRow.values at hv
      induction ix generalizing e with
      | nil => cases hv
      | cons x ix ih =>
        obtain ⟨v, hx⟩ := h x (by simp)
        rw [List.mapM_cons] at hv
        simp only [hx, bind, Except.bind] at hv
        split at hv
        · rename_i e1 h1
          exact ih (fun y hy => h y (by simp [hy])) e1 h1
        · cases hv
  constructor
  · rintro ⟨r, hr, h⟩
    unfold Cpt.new
    simp only
    rw [Failures.mapM_keyError (xs := mat) (fun r _ => ?_) ⟨r, hr, by rw [hbad r h]; rfl⟩]
    · rfl
    · by_cases hc : ∃ x ∈ ix, r.cols.get? x = none
      · rw [hbad r hc]
        exact .inl rfl
      · obtain ⟨vs, hvs⟩ := hgood r (fun x hx => by
          cases hg : r.cols.get? x with
          | none => exact absurd ⟨x, hx, hg⟩ hc
          | some v => exact ⟨v, rfl⟩)
        rw [hvs]
        exact .inr ⟨_, rfl⟩
  · intro h
    unfold Cpt.new
    simp only
    generalize (mat.map (fun r => XR.fin r.p)).sum = total
    have : ∃ keyed, mat.mapM (fun r => do
        let vs ← r.values ix
        return (joinColon vs, XR.fin r.p / total, ix.zip vs)) = .ok keyed := by
      induction mat with
      | nil => exact ⟨[], rfl⟩
      | cons r mat ih =>
        obtain ⟨vs, hvs⟩ := hgood r (h r (by simp))
        obtain ⟨keyed, hk⟩ := ih (fun r hr => h r (by simp [hr]))
        exact ⟨_, by rw [List.mapM_cons, hvs]; simp only [bind, Except.bind, pure, Except.pure] at hk ⊢; rw [hk]⟩
    obtain ⟨keyed, hk⟩ := this
    rw [hk]
    exact ⟨_, rfl, rfl⟩

example : (Spread.mutate ⟨fun v => .ok v, fun v z => .ok (v + z)⟩ (fun sd (s : Nat) => (sd, s + 1)) [("x", (1 : ℚ))]
      [("x", 1), ("y", 2)] 0).1 = .error .KeyError ∧
    (Spread.mutate ⟨fun v => .ok v, fun v z => .ok (v + z)⟩ (fun sd (s : Nat) => (sd, s + 1)) [("x", (1 : ℚ)), ("y", 5)]
      [("y", 2)] 0).1 = .ok [("y", 7)] ∧
    Cpt.new [Cpt.ab "u" "v" 1, ⟨[("a", "u".toList)], 2⟩] ["a", "b"] = .error .KeyError := by
  refine ⟨rfl, by decide +kernel, (C188_table _ _).1 ⟨_, List.mem_cons_of_mem _ List.mem_cons_self, "b", by simp, rfl⟩⟩

end Names

/-! ## C189: likelihoods -/

section Likelihoods

variable {N V C O S K D : Type} [DecidableEq N] [Field K] [LinearOrder K]

theorem sum_dist {ops : DistOps D K} {ys : Dict N (XR K)} {ts : List (Target N K D)}
    (hv : ∀ t ∈ ts, ∃ y, ys.get? t.name = some y) (hd : ∀ t ∈ ts, ∃ n v d, t = .dist n v d) (acc : XR K) :
    ∃ l, DataModel.sumTargets (Target.likelihood ops ys) ts acc = .ok l ∧
      DataModel.sumTargets (Target.distance ops ys) ts (-acc) = .ok (-l) := by
  induction ts generalizing acc with
  | nil => exact ⟨acc, rfl, rfl⟩
  | cons t ts ih =>
    obtain ⟨n, v, d, rfl⟩ := hd t (by simp)
    obtain ⟨y, hy⟩ := hv (.dist n v d) (by simp)
    simp only [Target.name] at hy
    obtain ⟨l, h1, h2⟩ := ih (fun t ht => hv t (by simp [ht])) (fun t ht => hd t (by simp [ht])) (acc + ops.logp d y)
    refine ⟨l, ?_, ?_⟩
    · simp only [DataModel.sumTargets, Target.likelihood, hy]
      exact h1
    · simp only [DataModel.sumTargets, Target.distance, Target.likelihood, hy, bind, Except.bind, pure, Except.pure]
      rw [← h2]
      congr 1
      cases acc <;> cases ops.logp d y <;> simp [Neg.neg, XR.neg, XR.add_def, XR.add, add_comm]

theorem sum_point {ops : DistOps D K} {ys : Dict N (XR K)} {ts : List (Target N K D)}
    (hv : ∀ t ∈ ts, ∃ y, ys.get? t.name = some y) (hd : ∃ t ∈ ts, ∀ n v d, t ≠ .dist n v d) (acc : XR K) :
    DataModel.sumTargets (Target.likelihood ops ys) ts acc = .error .AttributeError := by
  induction ts generalizing acc with
  | nil => obtain ⟨t, ht, -⟩ := hd; cases ht
  | cons t ts ih =>
    cases t with
    | dist n v d =>
      obtain ⟨y, hy⟩ := hv (.dist n v d) (by simp)
      simp only [Target.name] at hy
      simp only [DataModel.sumTargets, Target.likelihood, hy]
      refine ih (fun t ht => hv t (by simp [ht])) ?_ _
      obtain ⟨t, ht, hne⟩ := hd
      rcases List.mem_cons.1 ht with rfl | ht
      · exact absurd rfl (hne n v d)
      · exact ⟨t, ht, hne⟩
    | _ => rfl

/-- **C189**: a particle with its outputs has a likelihood when all targets are distributions, and it is minus the
distance; when one target is a number or a range, asking for it raises AttributeError and leaves the particle as it was. -/
theorem C189 (env : FitEnv N V C O S K D) (m : DataModel N V C O K D) {p : Particle N V K} {ys : Dict N (XR K)}
    (hn : p.notes.get? "log_lik" = none) (hd : p.notes.get? "distance" = none) (hy : p.notes.get? "Ys" = some (.ys ys))
    (hv : ∀ t ∈ m.data.map Prod.snd, ∃ y, ys.get? t.name = some y) (s : S) :
    ((∀ t ∈ m.data.map Prod.snd, ∃ n v d, t = .dist n v d) → ∃ l,
      m.calcLikelihood env p s = (p.setNote "log_lik" (.num l), s, .ok (.num l)) ∧
      m.calcDistance env p s = (p.setNote "distance" (.num (-l)), s, .ok (.num (-l)))) ∧
    ((∃ t ∈ m.data.map Prod.snd, ∀ n v d, t ≠ .dist n v d) → m.calcLikelihood env p s = (p, s, .error .AttributeError)) := by
  have hl : m.lookupYs env p s = (p, s, .ok (.ys ys)) := by
    unfold DataModel.lookupYs
    rw [hy]
  constructor
  · intro h
    obtain ⟨l, h1, h2⟩ := sum_dist (ops := env.ops) hv h 0
    refine ⟨l, ?_, ?_⟩
    · unfold DataModel.calcLikelihood DataModel.calcNote
      rw [hn, hl]
      simp only [h1]
    · unfold DataModel.calcDistance DataModel.calcNote
      rw [hd, hl]
      have e : (-(0 : XR K)) = 0 := by
        rw [XR.zero_def]
        exact congrArg XR.fin neg_zero
      rw [e] at h2
      simp only [h2]
  · intro h
    unfold DataModel.calcLikelihood DataModel.calcNote
    rw [hn, hl]
    simp only [sum_point (ops := env.ops) hv h 0]

/-- The particle of `FitBase` after `flatten`, with a distribution and with a range among the targets. -/
example : (({ FitBase.exModel with data := [("b", .mkDist FitBase.exEnv.ops "b" ())] }).calcLikelihood FitBase.exEnv
      (FitBase.exParticle.setNote "Ys" (.ys [("a", .fin 11), ("b", .fin 5)])) 5).2.2 = .ok (.num (.fin 5)) ∧
    (FitBase.exModel.calcLikelihood FitBase.exEnv
      (FitBase.exParticle.setNote "Ys" (.ys [("a", .fin 11), ("b", .fin 5)])) 5).2.2 = .error .AttributeError := by
  decide +kernel

end Likelihoods

end Props.Lookups
