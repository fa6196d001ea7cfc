import Verif.Props.LawsResample
import Verif.Props.Cpt
import Verif.Props.TimeSeries
import Mathlib.Data.Matrix.Mul
import Mathlib.LinearAlgebra.Matrix.Notation

/-!
# The laws of probability tables and of Markov chains: C233 - C235

The generator chooses fairly in the sense of `Spec.FairPick`.
-/

namespace Props.LawsTable

set_option linter.unusedSectionVars false

open Py Spec Model MeasureTheory Props.Cpt Props.LawsResample

variable {S : Type} [MeasurableSpace S]

/-! ## Probability tables -/

section Cpt
variable {I : Type} [DecidableEq I]

theorem zip_inj {A B : Type} {as : List A} {bs cs : List B} (h1 : bs.length = as.length) (h2 : cs.length = as.length)
    (h : as.zip bs = as.zip cs) : bs = cs := by
  have := congrArg (List.map Prod.snd) h
  rwa [List.map_snd_zip (by omega), List.map_snd_zip (by omega)] at this

theorem call_law {μ : Measure S} {r : Rand S ℝ} (hr : FairPick μ r)
    (hsize : ∀ p n s, validProbs p = true → (r.pick p n s).1.length = n) {mat : List (CptRow I ℝ)} {ix : List I}
    (ht : Tidy mat ix) (hn : (mat.map (comb ix)).Nodup) (hp : ∀ q ∈ mat, 0 ≤ q.p) (h0 : 0 < total mat) :
    ∃ t, Cpt.new mat ix = .ok t ∧ ∀ c, c.length = ix.length → Plain c →
      Chance μ (fun s s' => t.call r s = (.ok (ix.zip c), s')) (ENNReal.ofReal (weight mat ix c / total mat)) := by
  obtain ⟨hv, hpl⟩ := tidy_comb ht
  obtain ⟨t, h1, -, -, h4, h5, h6⟩ := new_of mat ix (comb ix) hv hpl hn h0.ne'
  refine ⟨t, h1, fun c hl hc => ?_⟩
  set kv : Dict (List Char) ℝ := mat.map (fun q => (joinColon (comb ix q), q.p / total mat)) with hkv
  have hinv : t.invGroups = asNumpy kv := by
    rw [h6, hkv, asNumpy, List.map_map]
    rfl
  have hkeys : (mat.map (fun r => joinColon (comb ix r))).Nodup := by
    have : mat.map (fun r => joinColon (comb ix r)) = (mat.map (comb ix)).map joinColon := by simp
    rw [this]
    apply List.Nodup.map_on _ hn
    intro a ha b hb hab
    obtain ⟨ra, hra, rfl⟩ := List.mem_map.1 ha
    obtain ⟨rb, hrb, rfl⟩ := List.mem_map.1 hb
    exact Lemmas.Tables.joinColon_inj (by rw [length_of_has (hv ra hra), length_of_has (hv rb hrb)]) (hpl ra hra)
      (hpl rb hrb) hab
  have hgroup : ∀ key, t.groups.get? key = some (ix.zip c) ↔ key = joinColon c ∧ ∃ q ∈ mat, Has ix c q := by
    intro key
    constructor
    · intro hg
      by_cases hm : ∃ q ∈ mat, joinColon (comb ix q) = key
      · obtain ⟨q, hq, rfl⟩ := hm
        rw [(h4 q hq).2] at hg
        have := zip_inj (length_of_has (hv q hq)) hl (Option.some.inj hg)
        exact ⟨by rw [this], q, hq, this ▸ hv q hq⟩
      · push Not at hm
        rw [(h5 key hm).2] at hg
        cases hg
    · rintro ⟨rfl, q, hq, hh⟩
      rw [has_comb hh]
      exact (h4 q hq).2
  by_cases hm : ∃ q ∈ mat, Has ix c q
  · obtain ⟨q, hq, hh⟩ := hm
    have hk : kv.get? (joinColon c) = some (q.p / total mat) := by
      rw [has_comb hh, hkv]
      exact Lemmas.Tables.get?_map (fun r => joinColon (comb ix r)) (fun r => r.p / total mat) mat hkeys hq
    have hsum : (kv.map Prod.snd).sum = 1 := by
      rw [hkv, List.map_map]
      have : mat.map (Prod.snd ∘ fun q : CptRow I ℝ => (joinColon (comb ix q), q.p / total mat)) =
          (mat.map CptRow.p).map (· / total mat) := by simp
      rw [this, Lemmas.Tables.sum_div]
      exact div_self h0.ne'
    have hwf : kv.WF := by
      show (kv.map Prod.fst).Nodup
      rw [hkv, List.map_map]
      exact hkeys
    have h := C206_draws hr hsize hwf (by
      intro p hp'
      obtain ⟨q, hq, rfl⟩ := List.mem_map.1 hp'
      exact div_nonneg (hp q hq) h0.le) (by rw [hsum]; exact one_pos) hk
    rw [hsum, div_one] at h
    rw [has_comb hh, weight_of_mem (comb ix) hv hn hq, ← has_comb hh]
    refine h.congr (fun s s' => ?_)
    unfold Model.Cpt.call
    rw [hinv]
    rcases catSample r (asNumpy kv) s with ⟨_ | key, m⟩
    · simp
    · simp only
      constructor
      · intro he
        cases he
        rw [(hgroup _).2 ⟨rfl, q, hq, hh⟩]
      · intro he
        cases hg : t.groups.get? key with
        | none => rw [hg] at he; cases he
        | some g =>
          rw [hg] at he
          simp only [Prod.mk.injEq, Except.ok.injEq] at he
          rw [((hgroup key).1 (he.1 ▸ hg)).1, he.2]
  · rw [weight_of_not_mem (by push Not at hm; exact hm), zero_div, ENNReal.ofReal_zero]
    refine Chance.never (fun s s' he => ?_)
    unfold Model.Cpt.call at he
    rcases hcs : catSample r t.invGroups s with ⟨_ | key, m⟩ <;> rw [hcs] at he
    · cases he
    · simp only at he
      cases hg : t.groups.get? key with
      | none => rw [hg] at he; cases he
      | some g =>
        rw [hg] at he
        simp only [Prod.mk.injEq, Except.ok.injEq] at he
        exact hm ((hgroup key).1 (he.1 ▸ hg)).2

theorem weight_nonneg {mat : List (CptRow I ℝ)} (hp : ∀ q ∈ mat, 0 ≤ q.p) (ix : List I) (c : List (List Char)) :
    0 ≤ weight mat ix c := by
  refine List.sum_nonneg (fun x hx => ?_)
  obtain ⟨q, hq, rfl⟩ := List.mem_map.1 hx
  exact hp q (List.mem_filter.1 hq).1

theorem nonneg_of {mat df : List (CptRow I ℝ)} {ix : List I} (hp : ∀ q ∈ mat, 0 ≤ q.p) (ht : Tidy df ix)
    (hn : (df.map (comb ix)).Nodup) (hw : ∀ c, weight df ix c = weight mat ix c) : ∀ q ∈ df, 0 ≤ q.p := by
  intro q hq
  rw [← weight_of_mem (comb ix) (tidy_comb ht).1 hn hq, hw]
  exact weight_nonneg hp ix _

/-- **C233**: a table over distinct combinations without colons draws a combination with its share of the weight. -/
theorem C233 {μ : Measure S} {r : Rand S ℝ} (hr : FairPick μ r)
    (hsize : ∀ p n s, validProbs p = true → (r.pick p n s).1.length = n) {mat : List (CptRow I ℝ)} {ix : List I}
    {t : Model.Cpt I ℝ} (hnew : Cpt.new mat ix = .ok t)
    (ht : Tidy mat ix) (hn : (mat.map (comb ix)).Nodup) (hp : ∀ q ∈ mat, 0 ≤ q.p) (h0 : 0 < total mat)
    {c : List (List Char)} (hl : c.length = ix.length) (hc : Plain c) :
    Chance μ (fun s s' => t.call r s = (.ok (ix.zip c), s')) (ENNReal.ofReal (weight mat ix c / total mat)) := by
  obtain ⟨t', h1, h2⟩ := call_law hr hsize ht hn hp h0
  rw [hnew] at h1
  cases h1
  exact h2 c hl hc

/-- **C233** (marginals): what `marginalise` gives draws a combination of the other columns with the chance that the
table draws it together with any value of the column summed out; repeated combinations count together. -/
theorem C233_marginal {μ : Measure S} {r : Rand S ℝ} (hr : FairPick μ r)
    (hsize : ∀ p n s, validProbs p = true → (r.pick p n s).1.length = n) {mat : List (CptRow I ℝ)} {ix : List I}
    {t : Model.Cpt I ℝ} (hnew : Cpt.new mat ix = .ok t) {index : I} (hx : ∃ x ∈ ix, x ≠ index) (hix : ix.Nodup)
    (ht : Tidy mat ix) (hp : ∀ q ∈ mat, 0 ≤ q.p) (h0 : 0 < total mat) :
    ∃ t', t.marginalise index = .ok t' ∧ ∀ c, c.length = (ix.filter (· ≠ index)).length → Plain c →
      Chance μ (fun s s' => t'.call r s = (.ok ((ix.filter (· ≠ index)).zip c), s'))
        (ENNReal.ofReal (weight mat (ix.filter (· ≠ index)) c / total mat)) := by
  obtain ⟨df, h1, h2, h3, h4, h5⟩ := grouped mat ix index t hnew ht hix hx
  obtain ⟨t', h6, h7⟩ := call_law hr hsize h2 h3 (nonneg_of hp h2 h3 h5) (by rw [h4]; exact h0)
  refine ⟨t', h1.trans h6, fun c hl hc => ?_⟩
  have := h7 c hl hc
  rwa [h4, h5] at this

/-- **C233** (conditions): what `condition` gives draws a combination of the other columns with its conditional
probability: its share of the weight of the rows that agree with the keywords. -/
theorem C233_condition {μ : Measure S} {r : Rand S ℝ} (hr : FairPick μ r)
    (hsize : ∀ p n s, validProbs p = true → (r.pick p n s).1.length = n) {mat : List (CptRow I ℝ)} {ix : List I}
    {t : Model.Cpt I ℝ} (hnew : Cpt.new mat ix = .ok t) {kwargs : Dict I (List Char)}
    (hk : ∀ k ∈ kwargs.keys, k ∈ ix) (ht : Tidy mat ix) (hn : (mat.map (comb ix)).Nodup) (hp : ∀ q ∈ mat, 0 ≤ q.p)
    (h0 : 0 < total (mat.filter (fun q => decide (Agrees kwargs q)))) :
    ∃ t', t.condition kwargs = .ok t' ∧ ∀ c, c.length = (ix.filter (· ∉ kwargs.keys)).length → Plain c →
      Chance μ (fun s s' => t'.call r s = (.ok ((ix.filter (· ∉ kwargs.keys)).zip c), s'))
        (ENNReal.ofReal (weight (mat.filter (fun q => decide (Agrees kwargs q))) (ix.filter (· ∉ kwargs.keys)) c /
          total (mat.filter (fun q => decide (Agrees kwargs q))))) := by
  obtain ⟨df, h1, h2, h3, h4, h5⟩ := conditioned mat ix kwargs t hnew ht hn hk
  obtain ⟨t', h6, h7⟩ := call_law hr hsize h2 h3
    (nonneg_of (fun q hq => hp q (List.mem_filter.1 hq).1) h2 h3 h5) (by rw [h4]; exact h0)
  refine ⟨t', h1.trans h6, fun c hl hc => ?_⟩
  have := h7 c hl hc
  rwa [h4, h5] at this

/-- A row of columns `a` and `b`. -/
def abR (a b : String) (p : ℝ) : CptRow String ℝ := ⟨[("a", a.toList), ("b", b.toList)], p⟩

/-- Three rows of two columns. -/
def rowsR : List (CptRow String ℝ) := [abR "x" "u" 1, abR "x" "w" 2, abR "y" "u" 5]

theorem tidy_rowsR : Tidy rowsR ["a", "b"] := by
  intro r hr
  simp only [rowsR, List.mem_cons, List.not_mem_nil, or_false] at hr
  rcases hr with rfl | rfl | rfl
  · exact ⟨["x".toList, "u".toList], rfl, by decide +kernel⟩
  · exact ⟨["x".toList, "w".toList], rfl, by decide +kernel⟩
  · exact ⟨["y".toList, "u".toList], rfl, by decide +kernel⟩

theorem nodup_rowsR : (rowsR.map (comb ["a", "b"])).Nodup := by
  show ([["x".toList, "u".toList], ["x".toList, "w".toList], ["y".toList, "u".toList]] : List (List (List Char))).Nodup
  decide +kernel

theorem nonneg_rowsR : ∀ q ∈ rowsR, 0 ≤ q.p := by
  intro r hr
  simp only [rowsR, List.mem_cons, List.not_mem_nil, or_false] at hr
  rcases hr with rfl | rfl | rfl <;> norm_num [abR]

theorem total_rowsR : total rowsR = 8 := by norm_num [total, rowsR, abR]

/-- `x` and `w` are drawn together in a quarter of the draws. -/
example : ∃ t, Cpt.new rowsR ["a", "b"] = .ok t ∧
    Chance uniform01 (fun s s' => t.call rand01 s = (.ok [("a", "x".toList), ("b", "w".toList)], s'))
      (ENNReal.ofReal (1 / 4)) := by
  obtain ⟨t, h1, h2⟩ := call_law fair01 (fun p n s _ => rand01_size p n s) tidy_rowsR nodup_rowsR nonneg_rowsR
    (by rw [total_rowsR]; norm_num)
  refine ⟨t, h1, ?_⟩
  have h := h2 ["x".toList, "w".toList] rfl (by decide +kernel)
  have e : weight rowsR ["a", "b"] ["x".toList, "w".toList] = 2 :=
    weight_of_mem (comb ["a", "b"]) (tidy_comb tidy_rowsR).1 nodup_rowsR (r := abR "x" "w" 2) (by simp [rowsR])
  rw [e, total_rowsR] at h
  norm_num at h ⊢
  exact h

/-- `x` alone is drawn in three of eight draws from the marginal table. -/
example : ∃ t t', Cpt.new rowsR ["a", "b"] = .ok t ∧ t.marginalise "b" = .ok t' ∧
    Chance uniform01 (fun s s' => t'.call rand01 s = (.ok [("a", "x".toList)], s')) (ENNReal.ofReal (3 / 8)) := by
  have h0 : 0 < total rowsR := by rw [total_rowsR]; norm_num
  obtain ⟨t, h1, -⟩ := call_law fair01 (fun p n s _ => rand01_size p n s) tidy_rowsR nodup_rowsR nonneg_rowsR h0
  obtain ⟨t', h2, h3⟩ := C233_marginal fair01 (fun p n s _ => rand01_size p n s) h1 (index := "b") ⟨"a", by simp, by decide⟩
    (by decide) tidy_rowsR nonneg_rowsR h0
  refine ⟨t, t', h1, h2, ?_⟩
  have h := h3 ["x".toList] rfl (by decide +kernel)
  have e : weight rowsR (["a", "b"].filter (· ≠ "b")) ["x".toList] = 3 := by
    show total [abR "x" "u" 1, abR "x" "w" 2] = 3
    norm_num [total, abR]
  rw [e, total_rowsR] at h
  exact h

/-- Given `u`, the other column is `y` in five of six draws. -/
example : ∃ t t', Cpt.new rowsR ["a", "b"] = .ok t ∧ t.condition [("b", "u".toList)] = .ok t' ∧
    Chance uniform01 (fun s s' => t'.call rand01 s = (.ok [("a", "y".toList)], s')) (ENNReal.ofReal (5 / 6)) := by
  have h0 : 0 < total rowsR := by rw [total_rowsR]; norm_num
  have e1 : total (rowsR.filter (fun q => decide (Agrees [("b", "u".toList)] q))) = 6 := by
    show total [abR "x" "u" 1, abR "y" "u" 5] = 6
    norm_num [total, abR]
  obtain ⟨t, h1, -⟩ := call_law fair01 (fun p n s _ => rand01_size p n s) tidy_rowsR nodup_rowsR nonneg_rowsR h0
  obtain ⟨t', h2, h3⟩ := C233_condition fair01 (fun p n s _ => rand01_size p n s) h1 (kwargs := [("b", "u".toList)])
    (by decide +kernel) tidy_rowsR nodup_rowsR nonneg_rowsR (by rw [e1]; norm_num)
  refine ⟨t, t', h1, h2, ?_⟩
  have h := h3 ["y".toList] rfl (by decide +kernel)
  have e : weight (rowsR.filter (fun q => decide (Agrees [("b", "u".toList)] q)))
      (["a", "b"].filter (· ∉ Dict.keys [("b", "u".toList)])) ["y".toList] = 5 := by
    show total [abR "y" "u" 5] = 5
    norm_num [total, abR]
  rw [e, e1] at h
  exact h

end Cpt

/-! ## Tables that change with time -/

/-- **C234**: a series of tables draws a category with its share of the weight in the table of the nearest time. -/
theorem C234 {N : Type} [DecidableEq N] {μ : Measure S} {r : Rand S ℝ} (hr : FairPick μ r)
    (hsize : ∀ p n s, validProbs p = true → (r.pick p n s).1.length = n) {rows : List (ℝ × Dict N ℝ)} (hne : rows ≠ [])
    (hd : rows.Pairwise (fun a b => a.1 < b.1))
    (hw : ∀ q ∈ rows, q.2.WF ∧ (∀ p ∈ q.2, 0 ≤ p.2) ∧ 0 < (q.2.map Prod.snd).sum) (t : ℝ) :
    ∃ q, Props.TimeSeries.Nearest rows t q ∧ ∀ k w, q.2.get? k = some w →
      Chance μ (fun s s' => ptCall r (rows.map (fun q => (q.1, asNumpy q.2))) t s = (.ok k, s'))
        (ENNReal.ofReal (w / (q.2.map Prod.snd).sum)) := by
  obtain ⟨q, hq, h⟩ := Props.TimeSeries.ptCall_eq r rows hne hd t
  refine ⟨q, hq, fun k w hk => ?_⟩
  obtain ⟨h1, h2, h3⟩ := hw q hq.1
  exact (C206_draws hr hsize h1 h2 h3 hk).congr (fun s s' => by
    have := h s
    unfold Props.Tables.numbers at this
    unfold asNumpy
    rw [this])

/-- Shares of women and men in two years. -/
def census : List (ℝ × Dict String ℝ) := [(2000, [("f", 1), ("m", 1)]), (2010, [("f", 1), ("m", 2)])]

example : ∃ q, Props.TimeSeries.Nearest census 2030 q ∧ ∀ k w, q.2.get? k = some w →
    Chance uniform01 (fun s s' => ptCall rand01 (census.map (fun q => (q.1, asNumpy q.2))) 2030 s = (.ok k, s'))
      (ENNReal.ofReal (w / (q.2.map Prod.snd).sum)) := by
  refine C234 fair01 (fun p n s _ => rand01_size p n s) (by simp [census]) (by simp [census]; norm_num) ?_ 2030
  intro q hq
  simp only [census, List.mem_cons, List.not_mem_nil, or_false] at hq
  rcases hq with rfl | rfl
  · refine ⟨show ["f", "m"].Nodup by decide, ?_, ?_⟩ <;> norm_num
  · refine ⟨show ["f", "m"].Nodup by decide, ?_, ?_⟩ <;> norm_num

/-! ## Markov chains -/

section Chain
variable {N : Type} [DecidableEq N]

/-- The states that `x = m(x)`, repeated from `c` on, visits. -/
def Visits (r : Rand S ℝ) (m : Transitions N ℝ) : N → List N → S → S → Prop
  | _, [], s, s' => s = s'
  | c, k :: ks, s, s' => ∃ s1, m.next r c s = (.ok k, s1) ∧ Visits r m k ks s1 s'

/-- The share of `k` in the row of `c`. -/
noncomputable def share (w : N → Dict N ℝ) (c k : N) : ENNReal :=
  ENNReal.ofReal (((w c).get? k).getD 0 / ((w c).map Prod.snd).sum)

/-- Every state of `N` has its row of non-negative weights, not all zero. -/
def Rows (m : Transitions N ℝ) (w : N → Dict N ℝ) : Prop :=
  ∀ c, m.table.get? c = some (asNumpy (w c)) ∧ (w c).WF ∧ (∀ p ∈ w c, 0 ≤ p.2) ∧ 0 < ((w c).map Prod.snd).sum

theorem next_law {μ : Measure S} {r : Rand S ℝ} (hr : FairPick μ r)
    (hsize : ∀ p n s, validProbs p = true → (r.pick p n s).1.length = n) {m : Transitions N ℝ} {w : N → Dict N ℝ}
    (hm : Rows m w) (c k : N) : Chance μ (fun s s' => m.next r c s = (.ok k, s')) (share w c k) := by
  obtain ⟨h1, h2, h3, h4⟩ := hm c
  cases hk : (w c).get? k with
  | some v =>
    have := C206_next hr hsize m h2 h3 h4 h1 hk
    unfold share
    rwa [hk]
  | none =>
    unfold share
    rw [hk, Option.getD_none, zero_div, ENNReal.ofReal_zero]
    refine Chance.never (fun s s' h => ?_)
    simp only [Transitions.next, h1, catSample] at h
    rcases hch : r.choice (catProbs (asNumpy (w c))) 1 s with ⟨_ | is, s1⟩ <;> rw [hch] at h
    · cases h
    · cases is with
      | nil => cases h
      | cons i is =>
        simp only at h
        cases hi : (asNumpy (w c))[i]? with
        | none => rw [hi] at h; cases h
        | some p =>
          rw [hi] at h
          simp only [Prod.mk.injEq, Except.ok.injEq] at h
          have hmem := List.mem_of_getElem? hi
          obtain ⟨q, hq, rfl⟩ := List.mem_map.1 hmem
          rw [Dict.get?_eq_none_iff] at hk
          exact hk (h.1 ▸ Dict.mem_keys_of_mem (show (q.1, q.2) ∈ w c from hq))

/-- The product of the shares along a path. -/
noncomputable def along (w : N → Dict N ℝ) : N → List N → ENNReal
  | _, [] => 1
  | c, k :: ks => share w c k * along w k ks

/-- **C235**: repeated calls of a transition matrix visit given states with the product of the shares of each in the row of
the one before. -/
theorem C235 {μ : Measure S} {r : Rand S ℝ} (hr : FairPick μ r)
    (hsize : ∀ p n s, validProbs p = true → (r.pick p n s).1.length = n) {m : Transitions N ℝ} {w : N → Dict N ℝ}
    (hm : Rows m w) (c : N) (ks : List N) : Chance μ (Visits r m c ks) (along w c ks) := by
  induction ks generalizing c with
  | nil => exact Chance.refl
  | cons k ks ih => exact (next_law hr hsize hm c k).comp (ih k)

theorem next_fun {r : Rand S ℝ} {m : Transitions N ℝ} {c k k' : N} {s s1 s2 : S} (h1 : m.next r c s = (.ok k, s1))
    (h2 : m.next r c s = (.ok k', s2)) : k = k' := by
  rw [h1] at h2
  cases h2
  rfl

/-- The state after `n` calls. -/
def Reaches (r : Rand S ℝ) (m : Transitions N ℝ) (n : ℕ) (c k : N) (s s' : S) : Prop :=
  ∃ ks : List N, ks.length = n ∧ (c :: ks).getLast (by simp) = k ∧ Visits r m c ks s s'

theorem Chance.finset {ι : Type} [DecidableEq ι] {μ : Measure S} {E : ι → S → S → Prop} {p : ι → ENNReal}
    (h : ∀ i, Chance μ (E i) (p i)) (hd : ∀ i j s a b, E i s a → E j s b → i = j) (F : Finset ι) :
    Chance μ (fun s s' => ∃ i ∈ F, E i s s') (∑ i ∈ F, p i) := by
  induction F using Finset.induction_on with
  | empty =>
    simp only [Finset.sum_empty]
    exact Chance.never (by simp)
  | @insert i F hi ih =>
    rw [Finset.sum_insert hi]
    refine ((h i).or ih ?_).congr (fun s s' => by simp)
    rintro s a b h1 ⟨j, hj, h2⟩
    exact hi (hd i j s a b h1 h2 ▸ hj)

/-- **C235** (powers): after `n` calls the state is `k` with the probability in the `n`-th power of the matrix of shares. -/
theorem C235_power [Fintype N] {μ : Measure S} {r : Rand S ℝ} (hr : FairPick μ r)
    (hsize : ∀ p n s, validProbs p = true → (r.pick p n s).1.length = n) {m : Transitions N ℝ} {w : N → Dict N ℝ}
    (hm : Rows m w) (n : ℕ) (c k : N) :
    Chance μ (Reaches r m n c k) ((Matrix.of (share w) ^ n) c k) := by
  induction n generalizing c with
  | zero =>
    rw [pow_zero, Matrix.one_apply]
    split
    · rename_i h
      refine Chance.refl.congr (fun s s' => ?_)
      constructor
      · rintro rfl; exact ⟨[], rfl, h, rfl⟩
      · rintro ⟨ks, h1, -, h3⟩
        obtain rfl := List.eq_nil_of_length_eq_zero h1
        exact h3
    · rename_i h
      refine Chance.never ?_
      rintro s s' ⟨ks, h1, h2, -⟩
      obtain rfl := List.eq_nil_of_length_eq_zero h1
      exact h h2
  | succ n ih =>
    rw [pow_succ', Matrix.mul_apply]
    refine (Chance.finset (fun j => (next_law hr hsize hm c j).comp (ih j)) ?_ Finset.univ).congr (fun s s' => ?_)
    · rintro i j s a b ⟨m1, h1, -⟩ ⟨m2, h2, -⟩
      exact next_fun h1 h2
    · constructor
      · rintro ⟨j, -, s1, h1, ks, h2, h3, h4⟩
        exact ⟨j :: ks, by simp [h2], by rw [List.getLast_cons (by simp)]; exact h3, s1, h1, h4⟩
      · rintro ⟨ks, h1, h2, h3⟩
        cases ks with
        | nil => cases h1
        | cons j ks =>
          obtain ⟨s1, h4, h5⟩ := h3
          refine ⟨j, Finset.mem_univ _, s1, h4, ks, by simpa using h1, ?_, h5⟩
          rwa [List.getLast_cons (by simp)] at h2

/-- The weather: `true` is wet. -/
def climate : Bool → Dict Bool ℝ
  | true => [(true, 1), (false, 3)]
  | false => [(true, 1), (false, 1)]

/-- Its matrix. -/
def weather : Transitions Bool ℝ := ⟨[(true, asNumpy (climate true)), (false, asNumpy (climate false))]⟩

theorem weather_rows : Rows weather climate := by
  intro c
  cases c
  · refine ⟨rfl, show [true, false].Nodup by decide, ?_, ?_⟩ <;> norm_num [climate]
  · refine ⟨rfl, show [true, false].Nodup by decide, ?_, ?_⟩ <;> norm_num [climate]

/-- After a wet day, the day after tomorrow is wet with probability 1/4 · 1/4 + 3/4 · 1/2 = 7/16. -/
example : Chance uniform01 (Reaches rand01 weather 2 true true) (ENNReal.ofReal (7 / 16)) := by
  have h := C235_power fair01 (fun p n s _ => rand01_size p n s) weather_rows 2 true true
  have e : (Matrix.of (share climate) ^ 2) true true = ENNReal.ofReal (7 / 16) := by
    rw [pow_two, Matrix.mul_apply, Fintype.sum_bool]
    simp only [Matrix.of_apply, share, climate, Dict.get?_cons, if_true]
    simp only [if_false, reduceCtorEq, Option.getD_some, List.map_cons, List.map_nil, List.sum_cons,
      List.sum_nil]
    rw [← ENNReal.ofReal_mul (by norm_num), ← ENNReal.ofReal_mul (by norm_num), ← ENNReal.ofReal_add (by norm_num) (by norm_num)]
    norm_num
  rwa [e] at h

end Chain

end Props.LawsTable
