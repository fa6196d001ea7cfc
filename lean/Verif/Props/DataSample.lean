import Verif.Model.DataSample
import Verif.Props.LawsTable

/-!
# Samples from a data set: C255
-/

namespace Props.DataSample

set_option linter.unusedSectionVars false

open Py Spec Model MeasureTheory Props.Cpt Props.LawsResample Props.LawsTable

section General
variable {A S : Type}

/-- The values of the list come from calls one after the other, the first made in `s`, the last leaving `s'`. -/
def InTurn (call : S → Result A × S) (as : List A) (s s' : S) : Prop :=
  ∃ σ : Nat → S, σ 0 = s ∧ σ as.length = s' ∧ ∀ i a, as[i]? = some a → call (σ i) = (.ok a, σ (i + 1))

theorem inTurn_nil {call : S → Result A × S} {s s' : S} : InTurn call [] s s' ↔ s = s' := by
  constructor
  · rintro ⟨σ, rfl, rfl, -⟩
    rfl
  · rintro rfl
    exact ⟨fun _ => s, rfl, rfl, by simp⟩

theorem inTurn_cons {call : S → Result A × S} {a : A} {as : List A} {s s' : S} :
    InTurn call (a :: as) s s' ↔ ∃ m, call s = (.ok a, m) ∧ InTurn call as m s' := by
  constructor
  · rintro ⟨σ, rfl, rfl, h⟩
    refine ⟨σ 1, h 0 a rfl, fun i => σ (i + 1), rfl, rfl, fun i b hb => h (i + 1) b (by simpa using hb)⟩
  · rintro ⟨m, h1, σ, rfl, rfl, h⟩
    refine ⟨fun i => match i with | 0 => s | i + 1 => σ i, rfl, rfl, fun i b hb => ?_⟩
    cases i with
    | zero =>
      simp only [List.getElem?_cons_zero, Option.some.injEq] at hb
      exact hb ▸ h1
    | succ i => exact h i b (by simpa using hb)

theorem calls_ok {call : S → Result A × S} {n : Nat} {s s' : S} {as : List A} :
    dataCalls call n s = (.ok as, s') ↔ as.length = n ∧ InTurn call as s s' := by
  induction n generalizing s as with
  | zero =>
    rw [dataCalls, List.length_eq_zero_iff]
    constructor
    · intro h
      cases h
      exact ⟨rfl, inTurn_nil.2 rfl⟩
    · rintro ⟨rfl, h⟩
      rw [inTurn_nil.1 h]
  | succ n ih =>
    rw [dataCalls]
    cases as with
    | nil =>
      simp only [List.length_nil]
      constructor
      · intro h
        rcases hc : call s with ⟨_ | a, m⟩ <;> rw [hc] at h
        · cases h
        · simp only at h
          rcases hd : dataCalls call n m with ⟨_ | bs, m'⟩ <;> rw [hd] at h <;> cases h
      · rintro ⟨h, -⟩
        omega
    | cons b bs =>
      rw [inTurn_cons]
      simp only [List.length_cons, Nat.add_right_cancel_iff]
      constructor
      · intro h
        rcases hc : call s with ⟨_ | a, m⟩ <;> rw [hc] at h
        · cases h
        · simp only at h
          rcases hd : dataCalls call n m with ⟨_ | cs, m'⟩ <;> rw [hd] at h
          · cases h
          · cases h
            exact ⟨(ih.1 hd).1, m, rfl, (ih.1 hd).2⟩
      · rintro ⟨hl, m, hc, ht⟩
        rw [hc]
        simp only
        rw [ih.2 ⟨hl, ht⟩]

theorem calls_error {call : S → Result A × S} {n : Nat} {s s' : S} {e : Err} :
    dataCalls call n s = (.error e, s') ↔
      ∃ as m, as.length < n ∧ InTurn call as s m ∧ call m = (.error e, s') := by
  induction n generalizing s with
  | zero => simp [dataCalls]
  | succ n ih =>
    rw [dataCalls]
    constructor
    · intro h
      rcases hc : call s with ⟨e' | a, m⟩ <;> rw [hc] at h
      · cases h
        exact ⟨[], s, by simp, inTurn_nil.2 rfl, hc⟩
      · simp only at h
        rcases hd : dataCalls call n m with ⟨e' | cs, m'⟩ <;> rw [hd] at h
        · cases h
          obtain ⟨as, k, h1, h2, h3⟩ := ih.1 hd
          exact ⟨a :: as, k, by simpa using h1, inTurn_cons.2 ⟨m, hc, h2⟩, h3⟩
        · cases h
    · rintro ⟨as, k, h1, h2, h3⟩
      cases as with
      | nil =>
        rw [inTurn_nil.1 h2, h3]
      | cons a as =>
        obtain ⟨m, hc, ht⟩ := inTurn_cons.1 h2
        rw [hc]
        simp only
        rw [ih.2 ⟨as, k, by simpa using h1, ht, h3⟩]

/-- **C255**: asked for one value `sample` returns the value of one call; asked for any other number it returns a list,
which has as many values as were asked for (none for a negative number), from calls one after the other; it raises what
the first failing call raises. -/
theorem C255 (call : S → Result A × S) (n : Int) (s s' : S) :
    (∀ a, dataSample call n s = (.ok (.one a), s') ↔ n = 1 ∧ call s = (.ok a, s')) ∧
    (∀ as, dataSample call n s = (.ok (.many as), s') ↔
      n ≠ 1 ∧ (as.length : Int) = max n 0 ∧ InTurn call as s s') ∧
    (∀ e, dataSample call n s = (.error e, s') ↔
      ∃ as m, (as.length : Int) < n ∧ InTurn call as s m ∧ call m = (.error e, s')) := by
  unfold dataSample
  by_cases hn : n = 1
  · subst hn
    rw [if_pos rfl]
    refine ⟨fun a => ?_, fun as => ?_, fun e => ?_⟩
    · rcases call s with ⟨e' | b, m⟩ <;> simp
    · rcases call s with ⟨e' | b, m⟩ <;> simp
    · constructor
      · intro h
        rcases hc : call s with ⟨e' | b, m⟩ <;> rw [hc] at h
        · cases h
          exact ⟨[], s, by simp, inTurn_nil.2 rfl, hc⟩
        · cases h
      · rintro ⟨as, m, h1, h2, h3⟩
        have : as = [] := List.length_eq_zero_iff.1 (by omega)
        subst this
        rw [inTurn_nil.1 h2, h3]
  · rw [if_neg hn]
    refine ⟨fun a => ?_, fun as => ?_, fun e => ?_⟩
    · rcases dataCalls call n.toNat s with ⟨e' | b, m⟩ <;> simp [hn]
    · have h := calls_ok (call := call) (n := n.toNat) (s := s) (s' := s') (as := as)
      have e : as.length = n.toNat ↔ (as.length : Int) = max n 0 := by omega
      rw [← e, ← h]
      rcases dataCalls call n.toNat s with ⟨e' | b, m⟩ <;> simp [hn]
    · have h := calls_error (call := call) (n := n.toNat) (s := s) (s' := s') (e := e)
      have e2 : ∀ as : List A, as.length < n.toNat ↔ (as.length : Int) < n := fun as => by omega
      simp only [e2] at h
      rw [← h]
      rcases dataCalls call n.toNat s with ⟨e' | b, m⟩ <;> simp

/-- A source of the numbers below three. -/
def below3 (s : Nat) : Result Nat × Nat := if s < 3 then (.ok s, s + 1) else (.error .ValueError, s)

example : dataSample below3 1 0 = (.ok (.one 0), 1) := by decide +kernel
example : dataSample below3 3 0 = (.ok (.many [0, 1, 2]), 3) := by decide +kernel
example : dataSample below3 (-2) 0 = (.ok (.many []), 0) := by decide +kernel
example : dataSample below3 4 0 = (.error .ValueError, 3) := by decide +kernel

end General

section Law
variable {I S : Type} [DecidableEq I] [MeasurableSpace S]

/-- **C255** (law): several combinations sampled from a probability table are independent, each drawn with its share of
the weight. -/
theorem C255_law {μ : Measure S} {r : Rand S ℝ} (hr : FairPick μ r)
    (hsize : ∀ p n s, validProbs p = true → (r.pick p n s).1.length = n) {mat : List (CptRow I ℝ)} {ix : List I}
    {t : Model.Cpt I ℝ} (hnew : Cpt.new mat ix = .ok t)
    (ht : Tidy mat ix) (hn : (mat.map (comb ix)).Nodup) (hp : ∀ q ∈ mat, 0 ≤ q.p) (h0 : 0 < total mat)
    (cs : List (List (List Char))) (hcs : ∀ c ∈ cs, c.length = ix.length ∧ Plain c) (hone : cs.length ≠ 1) :
    Chance μ (fun s s' => dataSample (t.call r) cs.length s = (.ok (.many (cs.map (ix.zip ·))), s'))
      ((cs.map (fun c => ENNReal.ofReal (weight mat ix c / total mat))).prod) := by
  have key : Chance μ (InTurn (t.call r) (cs.map (ix.zip ·)))
      ((cs.map (fun c => ENNReal.ofReal (weight mat ix c / total mat))).prod) := by
    clear hone
    induction cs with
    | nil => exact Chance.refl.congr (fun s s' => inTurn_nil.symm)
    | cons c cs ih =>
      have h1 := C233 hr hsize hnew ht hn hp h0 (hcs c (by simp)).1 (hcs c (by simp)).2
      have h2 := ih (fun d hd => hcs d (by simp [hd]))
      rw [List.map_cons, List.map_cons, List.prod_cons]
      exact (h1.comp h2).congr (fun s s' => inTurn_cons.symm)
  refine key.congr (fun s s' => ?_)
  rw [(C255 (t.call r) cs.length s s').2.1]
  constructor
  · intro h
    exact ⟨by omega, by simp, h⟩
  · intro h
    exact h.2.2

/-- Two rows of the table of `LawsTable` in order, `x w` and `x w` again: one in sixteen. -/
example : ∃ t, Cpt.new rowsR ["a", "b"] = .ok t ∧
    Chance uniform01 (fun s s' => dataSample (t.call rand01) 2 s =
      (.ok (.many [[("a", "x".toList), ("b", "w".toList)], [("a", "x".toList), ("b", "w".toList)]]), s'))
      (ENNReal.ofReal (1 / 4) * ENNReal.ofReal (1 / 4)) := by
  have h0 : 0 < total rowsR := by rw [total_rowsR]; norm_num
  obtain ⟨t, h1, -⟩ := call_law fair01 (fun p n s _ => rand01_size p n s) tidy_rowsR nodup_rowsR nonneg_rowsR h0
  refine ⟨t, h1, ?_⟩
  have h := C255_law fair01 (fun p n s _ => rand01_size p n s) h1 tidy_rowsR nodup_rowsR nonneg_rowsR h0
    [["x".toList, "w".toList], ["x".toList, "w".toList]] (by
      intro c hc
      have : c = ["x".toList, "w".toList] := by simpa using hc
      subst this
      exact ⟨rfl, by decide +kernel⟩) (by decide)
  have e : weight rowsR ["a", "b"] ["x".toList, "w".toList] = 2 :=
    weight_of_mem (comb ["a", "b"]) (tidy_comb tidy_rowsR).1 nodup_rowsR (r := abR "x" "w" 2) (by simp [rowsR])
  simp only [List.map_cons, List.map_nil, List.prod_cons, List.prod_nil, mul_one, e, total_rowsR] at h
  norm_num at h ⊢
  exact h

end Law

end Props.DataSample
