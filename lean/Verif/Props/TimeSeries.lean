import Verif.Props.Tables
import Mathlib.Algebra.Order.Group.Abs
import Mathlib.Analysis.SpecialFunctions.Log.Basic

/-!
# Properties of time series (C126-C129)
-/

namespace Props.TimeSeries

open Py Model Lemmas Lemmas.Tables Props.Tables

set_option linter.unusedSectionVars false

variable {A K : Type} [Field K] [LinearOrder K] [IsStrictOrderedRing K]

/-- No row is closer in time to `t` than `r`, and of the closest ones none is earlier. -/
def Nearest (rows : List (K × A)) (t : K) (r : K × A) : Prop :=
  r ∈ rows ∧ ∀ q ∈ rows, |t - r.1| ≤ |t - q.1| ∧ (|t - q.1| = |t - r.1| → r.1 ≤ q.1)

/-- The relation that scipy sorts by. -/
def Before (a b : K × A) : Prop := a.1 ≤ b.1

instance : DecidableRel (Before (K := K) (A := A)) := fun a b => inferInstanceAs (Decidable (a.1 ≤ b.1))
instance : Std.Total (Before (K := K) (A := A)) := ⟨fun a b => le_total a.1 b.1⟩
instance : IsTrans (K × A) Before := ⟨fun _ _ _ h h' => le_trans (α := K) h h'⟩

theorem abs_le_of_mid {lo p t : K} (hlo : lo ≤ p) (h : (lo + p) / 2 < t) :
    |t - p| ≤ |t - lo| ∧ (|t - lo| = |t - p| → p = lo) := by
  have h1 : 0 ≤ t - lo := by linarith
  rw [abs_of_nonneg h1]
  rcases le_total 0 (t - p) with h2 | h2
  · rw [abs_of_nonneg h2]
    exact ⟨by linarith, fun h => by linarith⟩
  · rw [abs_of_nonpos h2]
    exact ⟨by linarith, fun h => by linarith⟩

theorem abs_le_of_before_mid {lo q t : K} (hlo : lo ≤ q) (h : t ≤ (lo + q) / 2) : |t - lo| ≤ |t - q| := by
  refine le_trans ?_ (neg_le_abs (t - q))
  rw [abs_le]
  constructor <;> linarith

theorem nearestFrom_spec (t : K) (lo : K × A) (rest : List (K × A)) (h : (lo :: rest).Pairwise Before) :
    ∃ r, Nearest (lo :: rest) t r ∧ nearestFrom t lo rest = r.2 := by
  induction rest generalizing lo with
  | nil =>
    refine ⟨lo, ⟨by simp, ?_⟩, rfl⟩
    intro q hq
    rw [List.mem_singleton.1 hq]
    exact ⟨le_refl _, fun _ => le_refl _⟩
  | cons p rest ih =>
    rw [List.pairwise_cons] at h
    have hlop : lo.1 ≤ p.1 := h.1 p (by simp)
    unfold nearestFrom
    by_cases hm : (lo.1 + p.1) / 2 < t
    · rw [if_pos hm]
      obtain ⟨r, ⟨hr, hn⟩, he⟩ := ih p h.2
      refine ⟨r, ⟨by simp only [List.mem_cons] at hr ⊢; tauto, ?_⟩, he⟩
      intro q hq
      rcases List.mem_cons.1 hq with rfl | hq
      · obtain ⟨h1, h2⟩ := abs_le_of_mid hlop hm
        obtain ⟨h3, h4⟩ := hn p (by simp)
        refine ⟨le_trans h3 h1, fun heq => ?_⟩
        have h5 : |t - q.1| = |t - p.1| := le_antisymm (heq ▸ h3) h1
        have h6 := h2 h5
        rw [← h6]
        exact h4 (by rw [← h5, heq])
      · exact hn q hq
    · rw [if_neg hm]
      push Not at hm
      refine ⟨lo, ⟨by simp, ?_⟩, rfl⟩
      intro q hq
      rcases List.mem_cons.1 hq with rfl | hq'
      · exact ⟨le_refl _, fun _ => le_refl _⟩
      · have hlq : lo.1 ≤ q.1 := h.1 q hq'
        have hpq : p.1 ≤ q.1 := by
          rcases List.mem_cons.1 hq' with rfl | hq''
          · exact le_refl _
          · exact (List.pairwise_cons.1 h.2).1 q hq''
        exact ⟨abs_le_of_before_mid hlq (by linarith), fun _ => hlq⟩

theorem nearest_of_below {rows : List (K × A)} {t : K} {r : K × A} (hr : r ∈ rows) (hmin : ∀ q ∈ rows, r.1 ≤ q.1)
    (ht : t ≤ r.1) : Nearest rows t r := by
  refine ⟨hr, fun q hq => ?_⟩
  have := hmin q hq
  rw [abs_of_nonpos (by linarith), abs_of_nonpos (by linarith)]
  exact ⟨by linarith, fun _ => this⟩

theorem nearest_above {rows : List (K × A)} {t : K} {r : K × A} (hr : r ∈ rows) (hmax : ∀ q ∈ rows, q.1 ≤ r.1)
    (ht : r.1 ≤ t) : Nearest rows t r := by
  refine ⟨hr, fun q hq => ?_⟩
  have := hmax q hq
  rw [abs_of_nonneg (by linarith), abs_of_nonneg (by linarith)]
  exact ⟨by linarith, fun h => by linarith⟩

/-- **C126** is false: outside the recorded times the value is that of the first or the last row of the table, which need
not be the earliest or the latest one. -/
theorem C126_refuted :
    ∃ (rows : List (ℚ × String)) (t : ℚ) (v : String), nearestLine rows t = .ok v ∧
      ∀ r, Nearest rows t r → r.2 ≠ v := by
  refine ⟨[(2, "late"), (1, "early")], 0, "late", by decide +kernel, ?_⟩
  rintro r ⟨hr, hn⟩
  simp only [List.mem_cons, List.not_mem_nil, or_false] at hr
  rcases hr with rfl | rfl
  · have := (hn (1, "early") (by simp)).1
    norm_num at this
  · decide

/-- **C126**, between the earliest and the latest recorded time, and everywhere when the rows are in order of time: a
series gives the value of a recorded time that is closest to the one asked for, the earlier one halfway between two.
Missing: times outside the range of rows that are not in order. -/
theorem C126_partial (rows : List (K × A)) (hne : rows ≠ []) (t : K)
    (h : ((∃ r ∈ rows, r.1 ≤ t) ∧ ∃ r ∈ rows, t ≤ r.1) ∨ rows.Pairwise (fun a b => a.1 ≤ b.1)) :
    ∃ r, Nearest rows t r ∧ nearestLine rows t = .ok r.2 := by
  have hmem : ∀ r, r ∈ rows.insertionSort (fun a b => a.1 ≤ b.1) ↔ r ∈ rows := fun r => List.mem_insertionSort _
  have hsort : (rows.insertionSort (fun a b => a.1 ≤ b.1)).Pairwise Before :=
    List.pairwise_insertionSort (Before (K := K) (A := A)) rows
  have hsorted : rows.Pairwise (fun a b => a.1 ≤ b.1) → rows.insertionSort (fun a b => a.1 ≤ b.1) = rows :=
    fun h => List.Pairwise.insertionSort_eq h
  cases rows with
  | nil => exact absurd rfl hne
  | cons first rows =>
    unfold nearestLine
    rw [List.getLast?_eq_some_getLast (List.cons_ne_nil first rows)]
    generalize hs : (first :: rows).insertionSort (fun a b => a.1 ≤ b.1) = srt at hmem hsort hsorted
    cases srt with
    | nil =>
      have := (hmem first).2 (by simp)
      simp at this
    | cons lo rest =>
      have hlo : ∀ q ∈ first :: rows, lo.1 ≤ q.1 := by
        intro q hq
        rcases List.mem_cons.1 ((hmem q).2 hq) with rfl | hq
        · exact le_refl _
        · exact (List.pairwise_cons.1 hsort).1 q hq
      have hhi : ∀ q ∈ first :: rows, q.1 ≤ ((lo :: rest).getLast (by simp)).1 := by
        intro q hq
        have hq := (hmem q).2 hq
        rw [← List.dropLast_append_getLast (List.cons_ne_nil lo rest)] at hq hsort
        rcases List.mem_append.1 hq with hq | hq
        · exact (List.pairwise_append.1 hsort).2.2 q hq _ (by simp)
        · rw [List.mem_singleton.1 hq]
      simp only
      by_cases h1 : t < lo.1
      · rw [if_pos h1]
        rcases h with ⟨⟨r, hr, hrt⟩, -⟩ | h
        · exact absurd (lt_of_lt_of_le h1 (hlo r hr)) (not_lt.2 hrt)
        · have := hsorted h
          rw [List.cons.injEq] at this
          refine ⟨first, nearest_of_below (by simp) ?_ ?_, rfl⟩
          · intro q hq
            rw [← this.1]
            exact hlo q hq
          · rw [← this.1]
            exact h1.le
      · rw [if_neg h1]
        by_cases h2 : ((lo :: rest).getLast (by simp)).1 < t
        · rw [if_pos h2]
          rcases h with ⟨-, r, hr, hrt⟩ | h
          · exact absurd (lt_of_le_of_lt (hhi r hr) h2) (not_lt.2 hrt)
          · have := hsorted h
            refine ⟨_, nearest_above (List.getLast_mem (List.cons_ne_nil first rows)) ?_ ?_, rfl⟩
            · intro q hq
              have := hhi q hq
              simpa [hsorted h] using this
            · have := h2.le
              simpa [hsorted h] using this
        · rw [if_neg h2]
          obtain ⟨r, ⟨hr, hn⟩, he⟩ := nearestFrom_spec t lo rest hsort
          exact ⟨r, ⟨(hmem r).1 hr, fun q hq => hn q ((hmem q).2 hq)⟩, by rw [he]⟩

example : nearestLine [((1 : ℚ), "a"), (3, "b"), (4, "c")] 2 = .ok "a" ∧
    nearestLine [((1 : ℚ), "a"), (3, "b"), (4, "c")] (9 / 4) = .ok "b" ∧
    nearestLine [((1 : ℚ), "a"), (3, "b"), (4, "c")] 7 = .ok "c" ∧
    [((1 : ℚ), "a"), (3, "b"), (4, "c")].Pairwise (fun a b => a.1 ≤ b.1) := by decide +kernel

/-! ### Several columns -/

theorem nearestFrom_map {B : Type} (f : A → B) (t : K) (lo : K × A) (rest : List (K × A)) :
    nearestFrom t (lo.1, f lo.2) (rest.map (fun r => (r.1, f r.2))) = f (nearestFrom t lo rest) := by
  induction rest generalizing lo with
  | nil => rfl
  | cons p rest ih =>
    rw [List.map_cons, nearestFrom, nearestFrom]
    split
    · exact ih p
    · rfl

theorem nearestLine_map {B : Type} (f : A → B) (rows : List (K × A)) (t : K) :
    nearestLine (rows.map (fun r => (r.1, f r.2))) t = (nearestLine rows t).map f := by
  have hs : (rows.map (fun r => (r.1, f r.2))).insertionSort (fun a b => a.1 ≤ b.1) =
      (rows.insertionSort (fun a b => a.1 ≤ b.1)).map (fun r => (r.1, f r.2)) :=
    (List.map_insertionSort (r := fun a b : K × A => a.1 ≤ b.1) (s := fun a b : K × B => a.1 ≤ b.1)
      (fun r => (r.1, f r.2)) rows (fun a _ b _ => Iff.rfl)).symm
  cases rows with
  | nil => rfl
  | cons first rows =>
    unfold nearestLine
    rw [hs, List.getLast?_eq_some_getLast (List.cons_ne_nil first rows), List.map_cons,
      List.getLast?_eq_some_getLast (List.cons_ne_nil _ _)]
    generalize (first :: rows).insertionSort (fun a b => a.1 ≤ b.1) = srt
    cases srt with
    | nil => rfl
    | cons lo rest =>
      have hlast : (((lo :: rest).map (fun r => (r.1, f r.2))).getLast (by simp)).1 =
          ((lo :: rest).getLast (by simp)).1 := by
        rw [List.getLast_map]
      have hlast' : (((first.1, f first.2) :: rows.map (fun r => (r.1, f r.2))).getLast (by simp)).2 =
          f ((first :: rows).getLast (by simp)).2 := by
        have := List.getLast_map (f := fun r : K × A => (r.1, f r.2)) (l := first :: rows) (by simp)
        simp only [List.map_cons] at this
        rw [this]
      simp only [List.map_cons] at hlast ⊢
      rw [hlast, hlast']
      split_ifs
      · rfl
      · rfl
      · rw [nearestFrom_map]
        rfl

/-- **C127**: a series of vectors reads all the columns that are asked for, and no other, off one and the same row. -/
theorem C127 {I : Type} [DecidableEq I] (rows : List (K × (I → A))) (hne : rows ≠ []) (xs : List I) (t : K) :
    ∃ r ∈ rows, ∃ d, vectorAt rows xs t = .ok d ∧ (∀ x ∈ xs, d.get? x = some (r.2 x)) ∧ ∀ x ∉ xs, d.get? x = none := by
  obtain ⟨r, hr, hl⟩ : ∃ r ∈ rows, nearestLine rows t = .ok r.2 := by
    have hmem : ∀ r, r ∈ rows.insertionSort (fun a b => a.1 ≤ b.1) ↔ r ∈ rows := fun r => List.mem_insertionSort _
    have hsort : (rows.insertionSort (fun a b => a.1 ≤ b.1)).Pairwise Before :=
      List.pairwise_insertionSort (Before (K := K) (A := I → A)) rows
    cases rows with
    | nil => exact absurd rfl hne
    | cons first rows =>
      unfold nearestLine
      rw [List.getLast?_eq_some_getLast (List.cons_ne_nil first rows)]
      generalize hs : (first :: rows).insertionSort (fun a b => a.1 ≤ b.1) = srt at hmem hsort
      cases srt with
      | nil =>
        have := (hmem first).2 (by simp)
        simp at this
      | cons lo rest =>
        simp only
        split_ifs
        · exact ⟨first, by simp, rfl⟩
        · exact ⟨_, List.getLast_mem (List.cons_ne_nil first rows), rfl⟩
        · obtain ⟨r, ⟨hr, -⟩, he⟩ := nearestFrom_spec t lo rest hsort
          exact ⟨r, (hmem r).1 hr, by rw [he]⟩
  refine ⟨r, hr, xs.foldl (fun d x => d.set x (r.2 x)) [], ?_, ?_, ?_⟩
  · unfold vectorAt
    rw [mapM_of _ (fun x => (x, r.2 x)) xs]
    · show Except.ok _ = _
      rw [List.foldl_map]
    · intro x _
      rw [nearestLine_map (fun v : I → A => v x), hl]
      rfl
  · intro x hx
    have := foldl_set_get? (fun x : I => x) (fun x => r.2 x) xs [] x
    rw [this]
    cases hf : xs.reverse.find? (fun a => decide (a = x)) with
    | none =>
      rw [List.find?_eq_none] at hf
      exact absurd (decide_eq_true rfl) (hf x (List.mem_reverse.2 hx))
    | some y =>
      have := List.find?_some hf
      rw [of_decide_eq_true this]
      rfl
  · intro x hx
    have := foldl_set_get? (fun x : I => x) (fun x => r.2 x) xs [] x
    rw [this, List.find?_eq_none.2]
    · rfl
    · intro y hy
      simp only [decide_eq_true_eq]
      rintro rfl
      exact hx (List.mem_reverse.1 hy)

example : vectorAt [((1 : ℚ), fun b : Bool => if b then 5 else 6), (3, fun b => if b then 7 else 8)] [true, false] 4 =
    .ok [(true, 7), (false, 8)] := by decide +kernel

/-! ### Probabilities that change with time -/

/-- What is drawn at a time. -/
theorem ptCall_eq {N S : Type} [DecidableEq N] (r : Rand S K) (rows : List (K × Dict N K)) (hne : rows ≠ [])
    (hd : rows.Pairwise (fun a b => a.1 < b.1)) (t : K) :
    ∃ q, Nearest rows t q ∧
      ∀ s, ptCall r (rows.map (fun q => (q.1, numbers q.2))) t s = catSample r (numbers q.2) s := by
  obtain ⟨q, hq, hl⟩ := C126_partial (rows.map (fun q => (q.1, q))) (by simpa using hne) t (Or.inr (by
    rw [List.pairwise_map]
    exact hd.imp le_of_lt))
  obtain ⟨hq1, hq2⟩ := hq
  obtain ⟨q, hqm, rfl⟩ := List.mem_map.1 hq1
  have hnear : Nearest rows t q := ⟨hqm, fun p hp => hq2 (p.1, p) (List.mem_map.2 ⟨p, hp, rfl⟩)⟩
  refine ⟨q, hnear, ?_⟩
  have hline : nearestLine ((rows.map (fun q => (q.1, numbers q.2))).map (fun r => (r.1, r.1))) t = .ok q.1 := by
    have := nearestLine_map (fun q : K × Dict N K => q.1) (rows.map (fun q => (q.1, q))) t
    rw [hl, List.map_map] at this
    rw [List.map_map]
    exact this
  have htab : (ptTable (rows.map (fun q => (q.1, numbers q.2)))).get? q.1 = some (numbers q.2) := by
    unfold ptTable
    rw [List.foldl_map, foldl_set_nodup (fun q : K × Dict N K => q.1) (fun q => numbers q.2) rows []]
    · have hnd : (rows.map (fun q => q.1)).Nodup := by
        unfold List.Nodup
        rw [List.pairwise_map]
        exact hd.imp ne_of_lt
      exact get?_map (fun q : K × Dict N K => q.1) (fun q => numbers q.2) rows hnd hqm
    · simp only [Dict.keys_nil, List.nil_append]
      unfold List.Nodup
      rw [List.pairwise_map]
      exact hd.imp ne_of_lt
  intro s
  unfold ptCall
  rw [hline]
  simp only
  rw [htab]

/-- **C128**: a series of probability tables over distinct times in order draws from the table of the nearest time, and
only categories of positive weight. -/
theorem C128 {N S : Type} [DecidableEq N] {r : Rand S K} (hr : r.Honest) (rows : List (K × Dict N K)) (hne : rows ≠ [])
    (hd : rows.Pairwise (fun a b => a.1 < b.1)) (hw : ∀ q ∈ rows, (∀ p ∈ q.2, 0 ≤ p.2) ∧ 0 < (q.2.map Prod.snd).sum)
    (t : K) (s : S) :
    ∃ q, Nearest rows t q ∧
      ∃ b w s', ptCall r (rows.map (fun q => (q.1, numbers q.2))) t s = (.ok b, s') ∧ (b, w) ∈ q.2 ∧ 0 < w := by
  obtain ⟨q, hq, h⟩ := ptCall_eq r rows hne hd t
  refine ⟨q, hq, ?_⟩
  rw [h s]
  exact catSample_ok hr q.2 (hw q hq.1).1 (hw q hq.1).2 s

example : ptCall firstRand ([((2000 : ℚ), [("f", (1 : ℚ)), ("m", 1)]), (2010, [("f", 0), ("m", 2)])].map
    (fun q => (q.1, numbers q.2))) 2030 0 = (.ok "m", 1) := by decide +kernel

/-! ### Mortality rates -/

/-- **C129**: for a known age the rate of the Lee-Carter model is positive, and its logarithm is the age's own level plus
its own slope times the index of the nearest time; an unknown age is refused. -/
theorem C129 {N : Type} [DecidableEq N] (times : List (ℝ × ℝ)) (hne : times ≠ [])
    (ho : times.Pairwise (fun a b => a.1 ≤ b.1)) (ages : List (AgeRow N)) (hn : (ages.map AgeRow.age).Nodup) (t : ℝ) :
    ∃ k, Nearest times t k ∧
      (∀ g ∈ ages, ∃ q, lcRate times ages t g.age = .ok q ∧ 0 < q ∧ Real.log q = g.alpha + k.2 * g.beta) ∧
      (∀ a ∉ ages.map AgeRow.age, lcRate times ages t a = .error .KeyError) ∧
      ∃ d, lcRates times ages t = .ok d ∧ d.keys = ages.map AgeRow.age ∧
        ∀ a q, d.get? a = some q → lcRate times ages t a = .ok q := by
  obtain ⟨k, hk, hl⟩ := C126_partial times hne t (Or.inr ho)
  have hal : ages.foldl (fun (d : Dict N ℝ) r => d.set r.age r.alpha) [] = ages.map (fun g => (g.age, g.alpha)) := by
    rw [foldl_set_nodup (fun g : AgeRow N => g.age) (fun g => g.alpha) ages [] (by simpa using hn)]
    rfl
  have hbe : ages.foldl (fun (d : Dict N ℝ) r => d.set r.age r.beta) [] = ages.map (fun g => (g.age, g.beta)) := by
    rw [foldl_set_nodup (fun g : AgeRow N => g.age) (fun g => g.beta) ages [] (by simpa using hn)]
    rfl
  have hrate : ∀ g ∈ ages, lcRate times ages t g.age = .ok (Real.exp (g.alpha + k.2 * g.beta)) := by
    intro g hg
    unfold lcRate
    simp only [hal, hbe]
    rw [get?_map (fun g : AgeRow N => g.age) (fun g => g.alpha) ages hn hg,
      get?_map (fun g : AgeRow N => g.age) (fun g => g.beta) ages hn hg, hl]
    rfl
  refine ⟨k, hk, ?_, ?_, ?_⟩
  · intro g hg
    exact ⟨_, hrate g hg, Real.exp_pos _, Real.log_exp _⟩
  · intro a ha
    unfold lcRate
    simp only [hal, hbe]
    rw [get?_map_none (fun g : AgeRow N => g.age) (fun g => g.alpha) ages
      (fun g hg he => ha (List.mem_map.2 ⟨g, hg, he⟩))]
  · refine ⟨ages.map (fun g => (g.age, Real.exp (g.alpha + k.2 * g.beta))), ?_, by simp [Dict.keys], ?_⟩
    · unfold lcRates
      have : (ages.map AgeRow.age).mapM (fun a => do return (a, ← lcRate times ages t a)) =
          .ok (ages.map (fun g => (g.age, Real.exp (g.alpha + k.2 * g.beta)))) := by
        rw [List.mapM_map]
        apply mapM_of
        intro g hg
        show (do return (g.age, ← lcRate times ages t g.age)) = _
        rw [hrate g hg]
        rfl
      rw [this]
      show Except.ok _ = _
      rw [List.foldl_map,
        foldl_set_nodup (fun g : AgeRow N => g.age) (fun g => Real.exp (g.alpha + k.2 * g.beta)) ages []
          (by simpa using hn)]
      rfl
    · intro a q hq
      have := Dict.mem_of_get? hq
      obtain ⟨g, hg, he⟩ := List.mem_map.1 this
      rw [Prod.mk.injEq] at he
      rw [← he.1, ← he.2]
      exact hrate g hg

example : ([(2000, 1), (2010, -1)] : List (ℝ × ℝ)).Pairwise (fun a b => a.1 ≤ b.1) ∧
    (([⟨"0-4", -3, 1 / 2⟩, ⟨"5+", -5, 1⟩] : List (AgeRow String)).map AgeRow.age).Nodup := by
  constructor
  · simp
    norm_num
  · decide

end Props.TimeSeries
