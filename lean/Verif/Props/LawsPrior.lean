import Verif.Props.LawsDraw
import Verif.Props.LawsGa

/-!
# The law of the number of tries of a draw, and of what `PriorSampling` collects: C215
-/

namespace Props.LawsDraw

open Py Spec Model Model.Draw MeasureTheory ProbabilityTheory Props.Draw

variable {S N P K : Type} [DecidableEq N] [Field K] [LinearOrder K] [MeasurableSpace S] [MeasurableSpace P]

/-- Drawing on after `i` failures: the `k`-th try from there is the first that has a finite likelihood. -/
theorem loop_tries {μ : Measure S} {Q : Measure P} [IsProbabilityMeasure Q] {o : Objective P N K S}
    (hQ : Draws μ (fun s p s' => ∃ l, Try o s l p s') Q) (hm : MeasurableSet (Good o)) {A : Set P} (hA : MeasurableSet A)
    (k : ℕ) : ∀ i left, i + k < 20 → k < left →
    Chance μ (fun s s' => ∃ p, drawLoop o left i s = some (.ok (p, i + k + 1), s') ∧ p ∈ A)
      (Q (Good o)ᶜ ^ k * Q (A ∩ Good o)) := by
  induction k with
  | zero =>
    intro i left hi hl
    obtain ⟨left, rfl⟩ : ∃ l, left = l + 1 := ⟨left - 1, by omega⟩
    rw [pow_zero, one_mul]
    refine (hQ _ (hA.inter hm)).congr (fun s s' => ?_)
    have hi' : ¬ (i + 1 > 20) := by omega
    constructor
    · rintro ⟨q, h1, ht⟩
      refine ⟨q, loop_iff.2 ⟨q, s', ht, ?_⟩, h1.1⟩
      rw [if_neg hi', if_neg (by rw [Bool.not_eq_true, isInf_good]; exact h1.2)]
      exact ⟨rfl, rfl⟩
    · rintro ⟨p, h1, h3⟩
      obtain ⟨q, m, ht, h2⟩ := loop_iff.1 h1
      rw [if_neg hi'] at h2
      by_cases hg : q ∈ Good o
      · rw [if_neg (by rw [Bool.not_eq_true, isInf_good]; exact hg)] at h2
        obtain ⟨h4, rfl⟩ := h2
        obtain ⟨rfl, -⟩ := Prod.mk.inj h4
        exact ⟨p, ⟨h3, hg⟩, ht⟩
      · rw [if_pos (by rw [← Bool.not_eq_false, isInf_good]; exact hg)] at h2
        obtain ⟨n, _, _, _, _, _, h4, _⟩ := drawLoop_ok h2 (by omega)
        omega
  | succ k ih =>
    intro i left hi hl
    obtain ⟨left, rfl⟩ : ∃ l, left = l + 1 := ⟨left - 1, by omega⟩
    have hi' : ¬ (i + 1 > 20) := by omega
    have ih := ih (i + 1) left (by omega) (by omega)
    rw [show i + 1 + k + 1 = i + (k + 1) + 1 by omega] at ih
    rw [pow_succ', mul_assoc]
    refine ((hQ _ hm.compl).comp ih).congr (fun s s' => ?_)
    constructor
    · rintro ⟨m, ⟨q, h1, ht⟩, p, h2, h3⟩
      refine ⟨p, loop_iff.2 ⟨q, m, ht, ?_⟩, h3⟩
      rw [if_neg hi', if_pos (by rw [← Bool.not_eq_false, isInf_good]; exact h1)]
      exact h2
    · rintro ⟨p, h1, h3⟩
      obtain ⟨q, m, ht, h2⟩ := loop_iff.1 h1
      rw [if_neg hi'] at h2
      by_cases hg : q ∈ Good o
      · rw [if_neg (by rw [Bool.not_eq_true, isInf_good]; exact hg)] at h2
        have := (Prod.mk.inj h2.1).2
        omega
      · rw [if_pos (by rw [← Bool.not_eq_false, isInf_good]; exact hg)] at h2
        exact ⟨m, ⟨q, hg, ht⟩, p, h2, h3⟩

/-- **C215** (tries): a draw reports the number of tries that it made; this number and the particle have the law of
independent draws from the prior that are repeated until one has a finite likelihood, for at most twenty draws. -/
theorem C215_tries {μ : Measure S} {Q : Measure P} [IsProbabilityMeasure Q] {o : Objective P N K S}
    (hQ : Draws μ (fun s p s' => ∃ l, Try o s l p s') Q) (hm : MeasurableSet (Good o)) {A : Set P} (hA : MeasurableSet A)
    {k : ℕ} (hk : k < 20) :
    Chance μ (fun s s' => ∃ p, draw o s = some (.ok (p, k + 1), s') ∧ p ∈ A) (Q (Good o)ᶜ ^ k * Q (A ∩ Good o)) := by
  have h := loop_tries hQ hm hA k 0 21 (by omega) (by omega)
  simp only [Nat.zero_add] at h
  exact h

open Classical in
/-- **C215** (collect): what `PriorSampling` collects, when it does not run in parallel, are independent draws; it counts one
evaluation for each of them. -/
theorem C215_collect {μ : Measure S} {Q : Measure P} [IsProbabilityMeasure Q] {o : Objective P N K S}
    (hQ : Draws μ (fun s p s' => ∃ l, Try o s l p s') Q) (hm : MeasurableSet (Good o)) (As : List (Set P))
    (hA : ∀ A ∈ As, MeasurableSet A) :
    Chance μ (fun s s' => ∃ c, collect o false As.length s = some (.ok c, s') ∧ c.nEval = As.length ∧
        List.Forall₂ (fun p A => p ∈ A) c.samples As)
      ((As.map (fun A => (1 - Q (Good o)ᶜ ^ 20) * Q[|Good o] A +
        Q (Good o)ᶜ ^ 20 * (if o.dead ∈ A then 1 else 0))).prod) := by
  have h := Props.LawsGa.times_chance (x := draw o) (μ := μ)
    (q := fun B : Set (P × ℕ) => (1 - Q (Good o)ᶜ ^ 20) * Q[|Good o] ((·, 0) ⁻¹' B) +
      Q (Good o)ᶜ ^ 20 * (if o.dead ∈ ((·, 0) ⁻¹' B : Set P) then 1 else 0))
    (As.map (fun A => A ×ˢ (Set.univ : Set ℕ))) (by
      intro B hB
      obtain ⟨A, hA', rfl⟩ := List.mem_map.1 hB
      have e : ((·, 0) ⁻¹' (A ×ˢ (Set.univ : Set ℕ)) : Set P) = A := by ext p; simp
      rw [e]
      refine (C212 hQ hm (hA A hA')).congr (fun s s' => ?_)
      constructor
      · rintro ⟨p, j, h1, h2⟩; exact ⟨(p, j), ⟨h2, trivial⟩, h1⟩
      · rintro ⟨⟨p, j⟩, h2, h1⟩; exact ⟨p, j, h1, h2.1⟩)
  have e : (As.map (fun A => A ×ˢ (Set.univ : Set ℕ))).map (fun B : Set (P × ℕ) =>
      (1 - Q (Good o)ᶜ ^ 20) * Q[|Good o] ((·, 0) ⁻¹' B) +
      Q (Good o)ᶜ ^ 20 * (if o.dead ∈ ((·, 0) ⁻¹' B : Set P) then 1 else 0)) = As.map (fun A =>
        (1 - Q (Good o)ᶜ ^ 20) * Q[|Good o] A + Q (Good o)ᶜ ^ 20 * (if o.dead ∈ A then 1 else 0)) := by
    rw [List.map_map]
    refine List.map_congr_left (fun A _ => ?_)
    have e : ((·, 0) ⁻¹' (A ×ˢ (Set.univ : Set ℕ)) : Set P) = A := by ext p; simp
    simp only [Function.comp_apply]
    rw [e]
  rw [e] at h
  refine h.congr (fun s s' => ?_)
  have hf : ∀ (as : List (P × ℕ)), List.Forall₂ (fun a A => a ∈ A) as (As.map (fun A => A ×ˢ (Set.univ : Set ℕ))) ↔
      List.Forall₂ (fun p A => p ∈ A) (as.map Prod.fst) As := by
    intro as
    rw [List.forall₂_map_right_iff, List.forall₂_map_left_iff]
    simp
  simp only [List.length_map, hf]
  constructor
  · rintro ⟨as, h1, h2⟩
    exact ⟨_, Run.bind_ok.2 ⟨as, s', h1, Run.pure_ok.2 ⟨rfl, rfl⟩⟩, rfl, h2⟩
  · rintro ⟨c, h1, -, h2⟩
    obtain ⟨as, m, h3, h4⟩ := Run.bind_ok.1 h1
    obtain ⟨rfl, rfl⟩ := Run.pure_ok.1 h4
    exact ⟨as, h3, h2⟩

/-- The third coin is the first to show the side of positive likelihood with one eighth. -/
example : Chance uniform01 (fun s s' => ∃ p, draw coinObj s = some (.ok (p, 3), s') ∧ p ∈ ({some true} : Set (Option Bool)))
    ((1 / 2) ^ 2 * (1 / 2)) := by
  have hb : coinQ (Good coinObj)ᶜ = 1 / 2 := by
    rw [coin_good]
    simp [coinQ]
  have hg : coinQ ({some true} ∩ Good coinObj) = 1 / 2 := by
    rw [coin_good]
    simp [coinQ]
  have h := C215_tries coin_law (o := coinObj) trivial (A := {some true}) trivial (k := 2) (by norm_num)
  rwa [hb, hg] at h

/-- Both of two particles collected are empty with the square of the probability for one. -/
example : Chance uniform01 (fun s s' => ∃ c, collect coinObj false 2 s = some (.ok c, s') ∧ c.nEval = 2 ∧
    List.Forall₂ (fun p A => p ∈ A) c.samples ([{none}, {none}] : List (Set (Option Bool)))) ((1 / 2) ^ 20 * (1 / 2) ^ 20) := by
  classical
  have hb : coinQ (Good coinObj)ᶜ = 1 / 2 := by
    rw [coin_good]
    simp [coinQ]
  have h := C215_collect coin_law (o := coinObj) trivial [{none}, {none}] (fun _ _ => trivial)
  have hn : coinQ[|Good coinObj] {none} = 0 := by
    rw [cond_apply (show MeasurableSet (Good coinObj) from trivial), coin_good]
    simp [coinQ]
  rw [hb, List.map_cons, List.map_cons, List.map_nil, hn] at h
  simpa [coinObj] using h

end Props.LawsDraw
