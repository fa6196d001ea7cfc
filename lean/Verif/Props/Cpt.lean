import Verif.Lemmas.Tables
import Mathlib.Tactic.Ring

/-!
# Properties of probability tables (C123-C125)
-/

namespace Props.Cpt

open Py Model Lemmas.Tables

set_option linter.unusedSectionVars false

variable {I K : Type} [DecidableEq I] [Field K] [LinearOrder K] [IsStrictOrderedRing K]

/-- The row has the combination `c` in the columns `ix`. -/
def Has (ix : List I) (c : List (List Char)) (r : CptRow I K) : Prop := ix.map r.cols.get? = c.map some

instance (ix : List I) (c : List (List Char)) (r : CptRow I K) : Decidable (Has ix c r) :=
  inferInstanceAs (Decidable (_ = _))

/-- The weight of all rows. -/
def total (mat : List (CptRow I K)) : K := (mat.map CptRow.p).sum

/-- The weight of the rows that have the combination `c` in the columns `ix`. -/
def weight (mat : List (CptRow I K)) (ix : List I) (c : List (List Char)) : K := total (mat.filter (fun r => decide (Has ix c r)))

/-- No value contains a colon. -/
def Plain (c : List (List Char)) : Prop := ∀ v ∈ c, ':' ∉ v

instance (c : List (List Char)) : Decidable (Plain c) := inferInstanceAs (Decidable (∀ _ ∈ _, _))

/-- The combination of a row. -/
def comb (ix : List I) (r : CptRow I K) : List (List Char) := ix.map (fun x => (r.cols.get? x).getD [])

/-- Every row has a value without colon in every one of the columns `ix`. -/
def Tidy (mat : List (CptRow I K)) (ix : List I) : Prop := ∀ r ∈ mat, ∃ c, Has ix c r ∧ Plain c

theorem has_comb {ix : List I} {c : List (List Char)} {r : CptRow I K} (h : Has ix c r) : c = comb ix r := by
  unfold Has at h
  unfold comb
  induction ix generalizing c with
  | nil =>
    cases c with
    | nil => rfl
    | cons => simp at h
  | cons x ix ih =>
    cases c with
    | nil => simp at h
    | cons v c =>
      simp only [List.map_cons, List.cons.injEq] at h
      rw [List.map_cons, h.1, ← ih h.2]
      rfl

theorem values_of_has {ix : List I} {c : List (List Char)} {r : CptRow I K} (h : Has ix c r) : r.values ix = .ok c := by
  unfold Has at h
  unfold CptRow.values
  induction ix generalizing c with
  | nil =>
    cases c with
    | nil => rfl
    | cons => simp at h
  | cons x ix ih =>
    cases c with
    | nil => simp at h
    | cons v c =>
      simp only [List.map_cons, List.cons.injEq] at h
      rw [List.mapM_cons, h.1, ih h.2]
      rfl

theorem has_of_values {ix : List I} {c : List (List Char)} {r : CptRow I K} (h : r.values ix = .ok c) : Has ix c r := by
  replace h := mapM_inv h
  unfold Has
  induction h with
  | nil => rfl
  | @cons x v ix c h1 _ ih =>
    rw [List.map_cons, List.map_cons, ih]
    cases hx : r.cols.get? x with
    | none => rw [hx] at h1; cases h1
    | some w => rw [hx] at h1; cases h1; rfl

theorem length_of_has {ix : List I} {c : List (List Char)} {r : CptRow I K} (h : Has ix c r) : c.length = ix.length := by
  have := congrArg List.length h
  simpa using this.symm

theorem total_cons (r : CptRow I K) (mat : List (CptRow I K)) : total (r :: mat) = r.p + total mat := by
  simp [total]

/-- The table of rows with distinct combinations. -/
theorem new_of (mat : List (CptRow I K)) (ix : List I) (f : CptRow I K → List (List Char))
    (hv : ∀ r ∈ mat, Has ix (f r) r) (hp : ∀ r ∈ mat, Plain (f r)) (hn : (mat.map f).Nodup) (ht : total mat ≠ 0) :
    ∃ t, Cpt.new mat ix = .ok t ∧ t.source = mat ∧ t.indices = ix ∧
      (∀ r ∈ mat, t.prob (joinColon (f r)) = some (.fin (r.p / total mat)) ∧
        t.groups.get? (joinColon (f r)) = some (ix.zip (f r))) ∧
      (∀ key, (∀ r ∈ mat, joinColon (f r) ≠ key) → t.prob key = none ∧ t.groups.get? key = none) ∧
      t.invGroups = mat.map (fun r => (joinColon (f r), XR.fin (r.p / total mat))) := by
  have hsum : (mat.map (fun r => XR.fin r.p)).sum = XR.fin (total mat) := by
    rw [total, ← sum_fin, List.map_map]
    rfl
  have hkeys : (mat.map (fun r => joinColon (f r))).Nodup := by
    have : mat.map (fun r => joinColon (f r)) = (mat.map f).map joinColon := by simp
    rw [this]
    apply List.Nodup.map_on _ hn
    intro a ha b hb hab
    obtain ⟨ra, hra, rfl⟩ := List.mem_map.1 ha
    obtain ⟨rb, hrb, rfl⟩ := List.mem_map.1 hb
    exact joinColon_inj (by rw [length_of_has (hv ra hra), length_of_has (hv rb hrb)]) (hp ra hra) (hp rb hrb) hab
  have hmapM : mat.mapM (fun r => do
      let vs ← r.values ix
      return (joinColon vs, XR.fin r.p / (mat.map (fun r : CptRow I K => XR.fin r.p)).sum, ix.zip vs)) =
      .ok (mat.map (fun r => (joinColon (f r), XR.fin (r.p / total mat), ix.zip (f r)))) := by
    apply mapM_of
    intro r hr
    rw [values_of_has (hv r hr), hsum, XR.fin_div_fin_of_ne _ ht]
    rfl
  have hI : (mat.map (fun r => (joinColon (f r), XR.fin (r.p / total mat), ix.zip (f r)))).foldl
      (fun (d : Dict (List Char) (XR K)) k => d.set k.1 k.2.1) [] =
      mat.map (fun r => (joinColon (f r), XR.fin (r.p / total mat))) := by
    rw [List.foldl_map]
    rw [foldl_set_nodup (fun r => joinColon (f r)) (fun r => XR.fin (r.p / total mat)) mat [] (by simpa using hkeys)]
    rfl
  have hG : (mat.map (fun r => (joinColon (f r), XR.fin (r.p / total mat), ix.zip (f r)))).foldl
      (fun (d : Dict (List Char) (Dict I (List Char))) k => d.set k.1 k.2.2) [] =
      mat.map (fun r => (joinColon (f r), ix.zip (f r))) := by
    rw [List.foldl_map]
    rw [foldl_set_nodup (fun r => joinColon (f r)) (fun r => ix.zip (f r)) mat [] (by simpa using hkeys)]
    rfl
  have hone : ((mat.map (fun r => (joinColon (f r), XR.fin (r.p / total mat)))).map Prod.snd).sum = XR.fin 1 := by
    have : (mat.map (fun r => (joinColon (f r), XR.fin (r.p / total mat)))).map Prod.snd =
        ((mat.map CptRow.p).map (· / total mat)).map XR.fin := by simp
    rw [this, sum_fin, sum_div]
    show XR.fin (total mat / total mat) = _
    rw [div_self ht]
  refine ⟨⟨ix, mat, mat.map (fun r => (joinColon (f r), XR.fin (r.p / total mat))),
    mat.map (fun r => (joinColon (f r), ix.zip (f r)))⟩, ?_, rfl, rfl, ?_, ?_, rfl⟩
  · unfold Cpt.new
    simp only
    rw [hmapM]
    show Except.ok _ = _
    rw [hI, hG]
  · intro r hr
    constructor
    · unfold Cpt.prob
      simp only
      rw [hone, get?_map (fun r => joinColon (f r)) (fun r => XR.fin (r.p / total mat)) mat hkeys hr, Option.map_some,
        XR.fin_div_fin_of_ne _ one_ne_zero, div_one]
    · exact get?_map (fun r => joinColon (f r)) (fun r => ix.zip (f r)) mat hkeys hr
  · intro key hkey
    constructor
    · unfold Cpt.prob
      simp only
      rw [get?_map_none (fun r => joinColon (f r)) (fun r => XR.fin (r.p / total mat)) mat hkey]
      rfl
    · exact get?_map_none (fun r => joinColon (f r)) (fun r => ix.zip (f r)) mat hkey

theorem weight_of_mem {mat : List (CptRow I K)} {ix : List I} (f : CptRow I K → List (List Char))
    (hv : ∀ r ∈ mat, Has ix (f r) r) (hn : (mat.map f).Nodup) {r : CptRow I K} (hr : r ∈ mat) :
    weight mat ix (f r) = r.p := by
  have h0 : ∀ (l : List (CptRow I K)) (c : List (List Char)), (∀ r ∈ l, Has ix (f r) r) → c ∉ l.map f →
      weight l ix c = 0 := by
    intro l c hl hc
    unfold weight
    rw [List.filter_eq_nil_iff.2]
    · rfl
    · intro a ha hh
      refine hc (List.mem_map.2 ⟨a, ha, ?_⟩)
      rw [has_comb (hl a ha), has_comb (of_decide_eq_true hh)]
  induction mat with
  | nil => simp at hr
  | cons a mat ih =>
    rw [List.map_cons, List.nodup_cons] at hn
    have hv' : ∀ r ∈ mat, Has ix (f r) r := fun r hr => hv r (by simp [hr])
    by_cases hra : f r = f a
    · rcases List.mem_cons.1 hr with rfl | hr
      · have := h0 mat (f r) hv' hn.1
        unfold weight at this ⊢
        rw [List.filter_cons_of_pos (by simpa using hv r (by simp)), total_cons, this, add_zero]
      · exact absurd (List.mem_map.2 ⟨r, hr, hra⟩) hn.1
    · have hr' : r ∈ mat := by
        rcases List.mem_cons.1 hr with rfl | hr
        · exact absurd rfl hra
        · exact hr
      have := ih hv' hn.2 hr'
      unfold weight at this ⊢
      rw [List.filter_cons_of_neg, this]
      intro hh
      apply hra
      rw [has_comb (of_decide_eq_true hh), ← has_comb (hv a (by simp))]

theorem weight_of_not_mem {mat : List (CptRow I K)} {ix : List I} {c : List (List Char)}
    (h : ∀ r ∈ mat, ¬ Has ix c r) : weight mat ix c = 0 := by
  unfold weight
  rw [List.filter_eq_nil_iff.2]
  · rfl
  · intro a ha hh
    exact h a ha (of_decide_eq_true hh)

theorem tidy_comb {mat : List (CptRow I K)} {ix : List I} (h : Tidy mat ix) :
    (∀ r ∈ mat, Has ix (comb ix r) r) ∧ ∀ r ∈ mat, Plain (comb ix r) := by
  constructor <;> intro r hr <;> obtain ⟨c, h1, h2⟩ := h r hr <;> rw [← has_comb h1]
  · exact h1
  · exact h2

/-- What the table gives a combination: its probability as the sampler has it, none counting as zero. -/
def given (t : Cpt I K) (c : List (List Char)) : XR K := (t.prob (joinColon c)).getD (.fin 0)

theorem given_of (mat : List (CptRow I K)) (ix : List I) (ht : Tidy mat ix)
    (hn : (mat.map (comb ix)).Nodup) (h0 : total mat ≠ 0) :
    ∃ t, Cpt.new mat ix = .ok t ∧ t.source = mat ∧ t.indices = ix ∧
      (∀ c, c.length = ix.length → Plain c → given t c = .fin (weight mat ix c / total mat)) ∧
      ∀ r ∈ mat, ∀ c, Has ix c r → t.groups.get? (joinColon c) = some (ix.zip c) := by
  obtain ⟨hv, hp⟩ := tidy_comb ht
  obtain ⟨t, h1, h2, h3, h4, h5, -⟩ := new_of mat ix (comb ix) hv hp hn h0
  refine ⟨t, h1, h2, h3, ?_, ?_⟩
  · intro c hl hc
    unfold given
    by_cases hm : ∃ r ∈ mat, Has ix c r
    · obtain ⟨r, hr, hc'⟩ := hm
      rw [has_comb hc', (h4 r hr).1, weight_of_mem (comb ix) hv hn hr]
      rfl
    · push Not at hm
      rw [(h5 (joinColon c) _).1, weight_of_not_mem hm, zero_div]
      · rfl
      · intro r hr he
        have := joinColon_inj (by rw [length_of_has (hv r hr), hl]) (hp r hr) hc he
        exact hm r hr (this ▸ hv r hr)
  · intro r hr c hc
    rw [has_comb hc]
    exact (h4 r hr).2

/-- A row of columns `a` and `b`. -/
def ab (a b : String) (p : ℚ) : CptRow String ℚ := ⟨[("a", a.toList), ("b", b.toList)], p⟩

/-- **C123** is false: of two rows with the same combination only the last one counts, and two different combinations
are one to the table when their values contain colons. -/
theorem C123_refuted :
    (∃ (mat : List (CptRow String ℚ)) (ix : List String) (t : Model.Cpt String ℚ) (c : List (List Char)),
      Tidy mat ix ∧ Cpt.new mat ix = .ok t ∧ weight mat ix c / total mat = 3 / 4 ∧ given t c = .fin (1 / 2)) ∧
    ∃ (mat : List (CptRow String ℚ)) (ix : List String) (t : Model.Cpt String ℚ) (c : List (List Char)),
      (mat.map (comb ix)).Nodup ∧ Cpt.new mat ix = .ok t ∧ weight mat ix c / total mat = 1 / 4 ∧ given t c = .fin 1 := by
  constructor
  · refine ⟨[ab "x" "u" 2, ab "x" "u" 1, ab "y" "u" 1], ["a"], _, ["x".toList], ?_, rfl, by decide +kernel,
      by decide +kernel⟩
    intro r hr
    simp only [List.mem_cons, List.not_mem_nil, or_false] at hr
    rcases hr with rfl | rfl | rfl
    · exact ⟨["x".toList], by decide +kernel, by decide +kernel⟩
    · exact ⟨["x".toList], by decide +kernel, by decide +kernel⟩
    · exact ⟨["y".toList], by decide +kernel, by decide +kernel⟩
  · exact ⟨[ab "x:y" "z" 1, ab "x" "y:z" 3], ["a", "b"], _, ["x:y".toList, "z".toList], by decide +kernel, rfl,
      by decide +kernel, by decide +kernel⟩

/-- **C123**, for rows of distinct combinations of values without colons: every combination has its share of the weight,
and a combination that is drawn is given back column by column.  Missing: repeated combinations and values that contain
colons. -/
theorem C123_partial (mat : List (CptRow I K)) (ix : List I) (ht : Tidy mat ix)
    (hn : (mat.map (comb ix)).Nodup) (h0 : total mat ≠ 0) :
    ∃ t, Cpt.new mat ix = .ok t ∧
      (∀ c, c.length = ix.length → Plain c → given t c = .fin (weight mat ix c / total mat)) ∧
      ∀ r ∈ mat, ∀ c, Has ix c r → t.groups.get? (joinColon c) = some (ix.zip c) := by
  obtain ⟨t, h1, -, -, h4, h5⟩ := given_of mat ix ht hn h0
  exact ⟨t, h1, h4, h5⟩

/-- Three rows of two columns. -/
def rows3 : List (CptRow String ℚ) := [ab "x" "u" 1, ab "x" "w" 2, ab "y" "u" 5]

theorem tidy_rows3 : Tidy rows3 ["a", "b"] := by
  intro r hr
  simp only [rows3, List.mem_cons, List.not_mem_nil, or_false] at hr
  rcases hr with rfl | rfl | rfl
  · exact ⟨["x".toList, "u".toList], by decide +kernel, by decide +kernel⟩
  · exact ⟨["x".toList, "w".toList], by decide +kernel, by decide +kernel⟩
  · exact ⟨["y".toList, "u".toList], by decide +kernel, by decide +kernel⟩

example : Tidy rows3 ["a", "b"] ∧ (rows3.map (comb ["a", "b"])).Nodup ∧ total rows3 ≠ 0 ∧
    weight rows3 ["a", "b"] ["x".toList, "w".toList] / total rows3 = 1 / 4 :=
  ⟨tidy_rows3, by decide +kernel, by decide +kernel, by decide +kernel⟩

/-! ### Marginal tables -/

section Sums
variable {κ : Type} [DecidableEq κ]

/-- The loop that adds up the weights of equal keys. -/
def addUp (l : List (κ × K)) (d : Dict κ K) : Dict κ K :=
  l.foldl (fun d k => d.set k.1 (((d.get? k.1).getD 0) + k.2)) d

theorem addUp_get (l : List (κ × K)) (d : Dict κ K) (x : κ) :
    ((addUp l d).get? x).getD 0 = (d.get? x).getD 0 + ((l.filter (fun k => k.1 = x)).map Prod.snd).sum := by
  induction l generalizing d with
  | nil => simp [addUp]
  | cons k l ih =>
    unfold addUp at ih ⊢
    rw [List.foldl_cons, ih, Dict.get?_set]
    by_cases h : k.1 = x
    · subst h
      rw [List.filter_cons_of_pos (by simp)]
      simp [add_assoc]
    · rw [List.filter_cons_of_neg (by simpa using h), if_neg h]

theorem addUp_wf (l : List (κ × K)) (d : Dict κ K) (h : d.WF) : (addUp l d).WF := by
  induction l generalizing d with
  | nil => exact h
  | cons k l ih => exact ih _ (h.set _ _)

theorem set_sum (d : Dict κ K) (x : κ) (v : K) :
    ((d.set x ((d.get? x).getD 0 + v)).map Prod.snd).sum = (d.map Prod.snd).sum + v := by
  induction d with
  | nil => simp [Dict.set]
  | cons p d ih =>
    obtain ⟨k, w⟩ := p
    by_cases h : k = x
    · simp only [Dict.set, Dict.get?_cons, h, if_true, List.map_cons, List.sum_cons, Option.getD_some]
      ring
    · simp [Dict.set, Dict.get?_cons, h, ih, add_assoc]

theorem addUp_sum (l : List (κ × K)) (d : Dict κ K) :
    ((addUp l d).map Prod.snd).sum = (d.map Prod.snd).sum + (l.map Prod.snd).sum := by
  induction l generalizing d with
  | nil => simp [addUp]
  | cons k l ih =>
    unfold addUp at ih ⊢
    rw [List.foldl_cons, ih, set_sum, List.map_cons, List.sum_cons, add_assoc]

theorem addUp_keys (l : List (κ × K)) (d : Dict κ K) (x : κ) (h : x ∈ (addUp l d).keys) :
    x ∈ d.keys ∨ x ∈ l.map Prod.fst := by
  induction l generalizing d with
  | nil => exact Or.inl h
  | cons k l ih =>
    rcases ih _ h with h | h
    · rcases (Dict.mem_keys_set _ _ _ _).1 h with h | h
      · exact Or.inr (by simp [h])
      · exact Or.inl h
    · exact Or.inr (List.mem_cons_of_mem _ h)

end Sums

theorem tidy_subset {mat : List (CptRow I K)} {ix ix' : List I} (h : Tidy mat ix) (hs : ∀ x ∈ ix', x ∈ ix) :
    Tidy mat ix' := by
  intro r hr
  obtain ⟨c, hc, hp⟩ := h r hr
  have hsome : ∀ x ∈ ix, ∃ v, r.cols.get? x = some v ∧ ':' ∉ v := by
    intro x hx
    have hm : r.cols.get? x ∈ c.map some := by
      rw [← show ix.map r.cols.get? = c.map some from hc]
      exact List.mem_map.2 ⟨x, hx, rfl⟩
    obtain ⟨v, hv, he⟩ := List.mem_map.1 hm
    exact ⟨v, he.symm, hp v hv⟩
  refine ⟨comb ix' r, ?_, ?_⟩
  · unfold Has comb
    rw [List.map_map]
    apply List.map_congr_left
    intro x hx
    obtain ⟨v, hv, -⟩ := hsome x (hs x hx)
    simp [hv]
  · intro v hv
    obtain ⟨x, hx, rfl⟩ := List.mem_map.1 hv
    obtain ⟨w, hw, hc⟩ := hsome x (hs x hx)
    rw [hw]
    exact hc

/-- **C124** is false: values that contain colons are confused in the marginal table as well. -/
theorem C124_refuted :
    ∃ (mat : List (CptRow String ℚ)) (ix : List String) (t t' : Model.Cpt String ℚ) (c : List (List Char)),
      Cpt.new mat ix = .ok t ∧ t.marginalise "n" = .ok t' ∧ c.length = 2 ∧
      weight mat ["a", "b"] c / total mat = 1 / 4 ∧ given t' c = .fin 1 :=
  ⟨[⟨[("a", "x:y".toList), ("b", "z".toList), ("n", "1".toList)], 1⟩,
    ⟨[("a", "x".toList), ("b", "y:z".toList), ("n", "2".toList)], 3⟩], ["a", "b", "n"], _, _,
    ["x:y".toList, "z".toList], rfl, rfl, by decide +kernel, by decide +kernel, by decide +kernel⟩

/-- A table knows its rows and its columns. -/
theorem source_of {mat : List (CptRow I K)} {ix : List I} {t : Cpt I K} (hnew : Cpt.new mat ix = .ok t) :
    t.source = mat ∧ t.indices = ix := by
  unfold Cpt.new at hnew
  simp only at hnew
  generalize mat.mapM (fun r => do
    let vs ← r.values ix
    return (joinColon vs, XR.fin r.p / (mat.map (fun r : CptRow I K => XR.fin r.p)).sum, ix.zip vs)) = k at hnew
  cases k with
  | error e => cases hnew
  | ok k => cases hnew; exact ⟨rfl, rfl⟩

/-- The rows of the marginal table. -/
theorem grouped (mat : List (CptRow I K)) (ix : List I) (index : I) (t : Cpt I K) (hnew : Cpt.new mat ix = .ok t)
    (ht : Tidy mat ix) (hix : ix.Nodup) (hx : ∃ x ∈ ix, x ≠ index) :
    ∃ df, t.marginalise index = Cpt.new df (ix.filter (· ≠ index)) ∧ Tidy df (ix.filter (· ≠ index)) ∧
      (df.map (comb (ix.filter (· ≠ index)))).Nodup ∧ total df = total mat ∧
      ∀ c, weight df (ix.filter (· ≠ index)) c = weight mat (ix.filter (· ≠ index)) c := by
  have hsrc := source_of hnew
  obtain ⟨x0, hx0, hne⟩ := hx
  have hnil : ix.filter (· ≠ index) ≠ [] := by
    intro h
    rw [List.filter_eq_nil_iff] at h
    exact h x0 hx0 (by simpa using hne)
  have hnd : (ix.filter (· ≠ index)).Nodup := hix.filter _
  have htidy : Tidy mat (ix.filter (· ≠ index)) := tidy_subset ht (fun x hx => (List.mem_filter.1 hx).1)
  unfold Cpt.marginalise
  simp only [hsrc.1, hsrc.2]
  generalize ix.filter (· ≠ index) = ix' at *
  rw [if_neg hnil]
  obtain ⟨hv, hp⟩ := tidy_comb htidy
  set d := addUp (mat.map (fun r => (comb ix' r, r.p))) [] with hd
  have hdget : ∀ c, (d.get? c).getD 0 = weight mat ix' c := by
    intro c
    rw [hd, addUp_get, Dict.get?_nil, Option.getD_none, zero_add, List.filter_map, List.map_map]
    unfold weight total
    congr 1
    have : mat.filter ((fun k : List (List Char) × K => decide (k.1 = c)) ∘ fun r => (comb ix' r, r.p)) =
        mat.filter (fun r => decide (Has ix' c r)) := by
      apply List.filter_congr
      intro r hr
      simp only [Function.comp, decide_eq_decide]
      exact ⟨fun h => h ▸ hv r hr, fun h => (has_comb h).symm⟩
    rw [this]
    rfl
  have hdwf : d.WF := addUp_wf _ _ Dict.wf_nil
  have hdsum : (d.map Prod.snd).sum = total mat := by
    rw [hd, addUp_sum]
    simp [total, Function.comp_def]
  have hdkeys : ∀ k ∈ d, k.1.length = ix'.length ∧ Plain k.1 := by
    intro k hk
    rcases addUp_keys _ _ _ (Dict.mem_keys_of_mem (show (k.1, k.2) ∈ d from hk)) with h | h
    · simp at h
    · rw [List.map_map] at h
      obtain ⟨r, hr, h⟩ := List.mem_map.1 h
      rw [← h]
      exact ⟨length_of_has (hv r hr), hp r hr⟩
  have hg : Cpt.groupRows mat ix' = .ok (d.map (fun k => (⟨ix'.zip k.1, k.2⟩ : CptRow I K))) := by
    unfold Cpt.groupRows
    rw [mapM_of _ (fun r => (comb ix' r, r.p)) mat]
    · rfl
    · intro r hr
      rw [values_of_has (hv r hr)]
      rfl
  have hhas : ∀ k ∈ d, Has ix' k.1 (⟨ix'.zip k.1, k.2⟩ : CptRow I K) := fun k hk =>
    get?_zip hnd (hdkeys k hk).1
  have hcomb : (d.map (fun k => (⟨ix'.zip k.1, k.2⟩ : CptRow I K))).map (comb ix') = d.keys := by
    rw [List.map_map]
    apply List.map_congr_left
    intro k hk
    exact (has_comb (hhas k hk)).symm
  have htot : total (d.map (fun k => (⟨ix'.zip k.1, k.2⟩ : CptRow I K))) = total mat := by
    rw [← hdsum, total, List.map_map]
    rfl
  refine ⟨d.map (fun k => (⟨ix'.zip k.1, k.2⟩ : CptRow I K)), by rw [hg]; rfl, ?_, ?_, htot, ?_⟩
  · intro r hr
    obtain ⟨k, hk, rfl⟩ := List.mem_map.1 hr
    exact ⟨k.1, hhas k hk, (hdkeys k hk).2⟩
  · rw [hcomb]; exact hdwf
  · intro c
    cases hm : d.get? c with
    | none =>
      rw [weight_of_not_mem, ← hdget, hm]
      · rfl
      · intro r hr hh
        obtain ⟨k, hk, rfl⟩ := List.mem_map.1 hr
        have : c = k.1 := (has_comb hh).trans (has_comb (hhas k hk)).symm
        rw [Dict.get?_eq_none_iff] at hm
        exact hm (this ▸ Dict.mem_keys_of_mem (show (k.1, k.2) ∈ d from hk))
    | some v =>
      have hk := Dict.mem_of_get? hm
      have hw := weight_of_mem (mat := d.map (fun k => (⟨ix'.zip k.1, k.2⟩ : CptRow I K))) (comb ix')
        (by
          intro r hr
          obtain ⟨k, hk, rfl⟩ := List.mem_map.1 hr
          rw [← has_comb (hhas k hk)]
          exact hhas k hk)
        (by rw [hcomb]; exact hdwf) (List.mem_map.2 ⟨_, hk, rfl⟩)
      rw [← has_comb (hhas _ hk)] at hw
      rw [hw, ← hdget, hm]
      rfl

/-- **C124**, for values without colons: the marginal table gives every combination of the remaining columns the weight
of all the source's rows that have it, whether or not rows are repeated; summing out the only column is refused.
Missing: values that contain colons. -/
theorem C124_partial (mat : List (CptRow I K)) (ix : List I) (index : I) (t : Cpt I K) (hnew : Cpt.new mat ix = .ok t)
    (ht : Tidy mat ix) (hix : ix.Nodup) (h0 : total mat ≠ 0) :
    ((∃ x ∈ ix, x ≠ index) → ∃ t', t.marginalise index = .ok t' ∧
      ∀ c, c.length = (ix.filter (· ≠ index)).length → Plain c →
        given t' c = .fin (weight mat (ix.filter (· ≠ index)) c / total mat)) ∧
    ((∀ x ∈ ix, x = index) → t.marginalise index = .error .ValueError) := by
  refine ⟨fun hx => ?_, ?_⟩
  · obtain ⟨df, h1, h2, h3, h4, h5⟩ := grouped mat ix index t hnew ht hix hx
    obtain ⟨t', h6, -, -, h7, -⟩ := given_of df _ h2 h3 (by rw [h4]; exact h0)
    exact ⟨t', h1.trans h6, fun c hl hc => by rw [h7 c hl hc, h4, h5]⟩
  · intro hall
    have : ix.filter (· ≠ index) = [] := by
      rw [List.filter_eq_nil_iff]
      intro x hx
      simpa using hall x hx
    unfold Cpt.marginalise
    simp only [(source_of hnew).2, this, if_true]
    rfl

example : ∃ t t', Cpt.new rows3 ["a", "b"] = .ok t ∧ t.marginalise "b" = .ok t' ∧
    given t' ["x".toList] = .fin (3 / 8) ∧ (∃ x ∈ ["a", "b"], x ≠ "b") ∧ ["a", "b"].Nodup :=
  ⟨_, _, rfl, rfl, by decide +kernel, by decide +kernel, by decide +kernel⟩

/-! ### Conditional tables -/

/-- The row agrees with all that is asked for. -/
def Agrees (kwargs : Dict I (List Char)) (r : CptRow I K) : Prop :=
  ∀ k ∈ kwargs.keys, r.cols.get? k = kwargs.get? k

instance (kwargs : Dict I (List Char)) (r : CptRow I K) : Decidable (Agrees kwargs r) :=
  inferInstanceAs (Decidable (∀ _ ∈ _, _))

/-- **C125** is false: a keyword that names a column which is not one of the table's indices is ignored, although the
column is in the source. -/
theorem C125_refuted :
    ∃ (mat : List (CptRow String ℚ)) (t t' : Model.Cpt String ℚ) (kwargs : Dict String (List Char))
      (c : List (List Char)),
      Tidy mat ["a"] ∧ (mat.map (comb ["a"])).Nodup ∧ Cpt.new mat ["a"] = .ok t ∧ t.condition kwargs = .ok t' ∧
      weight (mat.filter (fun r => decide (Agrees kwargs r))) ["a"] c / total (mat.filter (fun r => decide (Agrees kwargs r))) = 1 ∧
      given t' c = .fin (1 / 4) := by
  refine ⟨[ab "x" "u" 1, ab "y" "w" 3], _, _, [("b", "u".toList)], ["x".toList], ?_, by decide +kernel, rfl, rfl,
    by decide +kernel, by decide +kernel⟩
  intro r hr
  simp only [List.mem_cons, List.not_mem_nil, or_false] at hr
  rcases hr with rfl | rfl
  · exact ⟨["x".toList], by decide +kernel, by decide +kernel⟩
  · exact ⟨["y".toList], by decide +kernel, by decide +kernel⟩

theorem foldl_filter {A B : Type} (q : B → A → Bool) (ks : List B) (l : List A) :
    ks.foldl (fun m k => m.filter (q k)) l = l.filter (fun a => ks.all (fun k => q k a)) := by
  induction ks generalizing l with
  | nil => simp
  | cons k ks ih =>
    rw [List.foldl_cons, ih, List.filter_filter]
    apply List.filter_congr
    intro a _
    simp [Bool.and_comm]

/-- The rows of the conditional table. -/
theorem conditioned (mat : List (CptRow I K)) (ix : List I) (kwargs : Dict I (List Char)) (t : Cpt I K)
    (hnew : Cpt.new mat ix = .ok t) (ht : Tidy mat ix) (hn : (mat.map (comb ix)).Nodup)
    (hk : ∀ k ∈ kwargs.keys, k ∈ ix) :
    ∃ df, t.condition kwargs = Cpt.new df (ix.filter (· ∉ kwargs.keys)) ∧ Tidy df (ix.filter (· ∉ kwargs.keys)) ∧
      (df.map (comb (ix.filter (· ∉ kwargs.keys)))).Nodup ∧
      total df = total (mat.filter (fun r => decide (Agrees kwargs r))) ∧
      ∀ c, weight df (ix.filter (· ∉ kwargs.keys)) c =
        weight (mat.filter (fun r => decide (Agrees kwargs r))) (ix.filter (· ∉ kwargs.keys)) c := by
  have hsrc := source_of hnew
  set ixC := ix.filter (fun x => (kwargs.get? x).isSome) with hixC
  have hmem : ∀ x, x ∈ ix → (x ∈ ixC ↔ x ∈ kwargs.keys) := by
    intro x hx
    rw [hixC, List.mem_filter, ← Dict.get?_isSome_iff]
    simp [hx]
  have hnewix : ix.filter (fun x => decide (x ∉ ixC)) = ix.filter (· ∉ kwargs.keys) := by
    apply List.filter_congr
    intro x hx
    simp [hmem x hx]
  have hmat : ixC.foldl (fun m k => m.filter (fun r => decide (r.cols.get? k = kwargs.get? k))) mat =
      mat.filter (fun r => decide (Agrees kwargs r)) := by
    rw [foldl_filter (fun k (r : CptRow I K) => decide (r.cols.get? k = kwargs.get? k))]
    apply List.filter_congr
    intro r hr
    rw [Bool.eq_iff_iff]
    rw [List.all_eq_true, decide_eq_true_eq]
    simp only [decide_eq_true_eq]
    unfold Agrees
    constructor
    · intro h k hk'
      exact h k ((hmem k (hk k hk')).2 hk')
    · intro h k hk'
      have := (List.mem_filter.1 hk').1
      exact h k ((hmem k this).1 hk')
  unfold Cpt.condition
  simp only [hsrc.1, hsrc.2]
  rw [← hixC, hmat, hnewix]
  set ix' := ix.filter (· ∉ kwargs.keys) with hix'
  set mat' := mat.filter (fun r => decide (Agrees kwargs r)) with hmat'
  set drop : CptRow I K → CptRow I K := fun r => ⟨r.cols.filter (fun c => decide (c.1 ∉ ixC)), r.p⟩ with hdrop
  have hget : ∀ (r : CptRow I K) x, x ∈ ix' → (drop r).cols.get? x = r.cols.get? x := by
    intro r x hx
    have hx' := List.mem_filter.1 hx
    have : x ∉ ixC := by
      rw [hmem x hx'.1]
      simpa using hx'.2
    have h := Dict.get?_filterItems_key r.cols (fun k => decide (k ∉ ixC)) x
    rw [if_pos (by simpa using this)] at h
    exact h
  have hhas : ∀ (r : CptRow I K) c, Has ix' c (drop r) ↔ Has ix' c r := by
    intro r c
    unfold Has
    rw [List.map_congr_left (hget r)]
  have hcomb : ∀ r : CptRow I K, comb ix' (drop r) = comb ix' r := by
    intro r
    unfold comb
    apply List.map_congr_left
    intro x hx
    rw [hget r x hx]
  have htot : ∀ l : List (CptRow I K), total (l.map drop) = total l := by
    intro l
    simp [total, hdrop, Function.comp_def]
  have hw : ∀ c, weight (mat'.map drop) ix' c = weight mat' ix' c := by
    intro c
    unfold weight
    rw [List.filter_map, htot]
    congr 1
    apply List.filter_congr
    intro r _
    simp only [Function.comp, decide_eq_decide]
    exact hhas r c
  have ht' : Tidy (mat'.map drop) ix' := by
    intro r hr
    obtain ⟨r, hr', rfl⟩ := List.mem_map.1 hr
    obtain ⟨c, h1, h2⟩ := tidy_subset ht (fun x hx => (List.mem_filter.1 hx).1) r (List.mem_filter.1 hr').1
    exact ⟨c, (hhas r c).2 h1, h2⟩
  have hn' : ((mat'.map drop).map (comb ix')).Nodup := by
    rw [List.map_map, show comb ix' ∘ drop = comb ix' from funext hcomb]
    have hinj : ∀ a ∈ mat', ∀ b ∈ mat', comb ix' a = comb ix' b → comb ix a = comb ix b := by
      intro a ha b hb hab
      unfold comb at hab ⊢
      apply List.map_congr_left
      intro x hx
      by_cases hx' : x ∈ kwargs.keys
      · have h1 := of_decide_eq_true (List.mem_filter.1 ha).2 x hx'
        have h2 := of_decide_eq_true (List.mem_filter.1 hb).2 x hx'
        rw [h1, h2]
      · exact List.map_inj_left.1 hab x (List.mem_filter.2 ⟨hx, by simpa using hx'⟩)
    have hsub : (mat'.map (comb ix)).Nodup := hn.sublist (List.filter_sublist.map _)
    unfold List.Nodup at hsub ⊢
    rw [List.pairwise_map] at hsub ⊢
    refine hsub.imp_of_mem ?_
    intro a b ha hb hab h
    exact hab (hinj a ha b hb h)
  exact ⟨mat'.map drop, rfl, ht', hn', htot _, hw⟩

/-- **C125**, for distinct combinations without colons and keywords that name indices: the conditional table gives every
combination of the other columns its share of the weight of the rows that agree with the keywords.  Missing: keywords
that name other columns, which are ignored. -/
theorem C125_partial (mat : List (CptRow I K)) (ix : List I) (kwargs : Dict I (List Char)) (t : Cpt I K)
    (hnew : Cpt.new mat ix = .ok t) (ht : Tidy mat ix) (hn : (mat.map (comb ix)).Nodup)
    (hk : ∀ k ∈ kwargs.keys, k ∈ ix) (h0 : total (mat.filter (fun r => decide (Agrees kwargs r))) ≠ 0) :
    ∃ t', t.condition kwargs = .ok t' ∧
      ∀ c, c.length = (ix.filter (· ∉ kwargs.keys)).length → Plain c →
        given t' c = .fin (weight (mat.filter (fun r => decide (Agrees kwargs r))) (ix.filter (· ∉ kwargs.keys)) c /
          total (mat.filter (fun r => decide (Agrees kwargs r)))) := by
  obtain ⟨df, h1, h2, h3, h4, h5⟩ := conditioned mat ix kwargs t hnew ht hn hk
  obtain ⟨t', h6, -, -, h7, -⟩ := given_of df _ h2 h3 (by rw [h4]; exact h0)
  exact ⟨t', h1.trans h6, fun c hl hc => by rw [h7 c hl hc, h4, h5]⟩

example : ∃ t t', Cpt.new rows3 ["a", "b"] = .ok t ∧ t.condition [("b", "u".toList)] = .ok t' ∧
    given t' ["y".toList] = .fin (5 / 6) ∧ total (rows3.filter (fun r => decide (Agrees [("b", "u".toList)] r))) ≠ 0 :=
  ⟨_, _, rfl, rfl, by decide +kernel, by decide +kernel⟩

end Props.Cpt
