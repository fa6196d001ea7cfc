import Verif.Props.LawsResample
import Verif.Props.LawsDraw
import Verif.Props.Ga

/-!
# The laws of the shuffle crossover and of the first population of the genetic algorithm: C211, C212
-/

namespace Props.LawsGa

open Py Spec Model Model.Ga MeasureTheory Props.Ga

variable {S N P : Type} [DecidableEq N] [MeasurableSpace S]

/-- Uniform numbers lie below one half with probability one half. -/
structure Halves (μ : Measure S) (r : Rand S ℝ) : Prop where
  below : Chance μ (fun s s' => (r.random s).1 < 1 / 2 ∧ (r.random s).2 = s') (1 / 2)
  above : Chance μ (fun s s' => ¬ (r.random s).1 < 1 / 2 ∧ (r.random s).2 = s') (1 / 2)

theorem shuffleOne_iff {env : GaEnv S N ℝ P} {p1 p2 : P} {n : N} {x y : XR ℝ} (h1 : env.get p1 n = some x)
    (h2 : env.get p2 n = some y) {l l' : Dict N (XR ℝ) × Dict N (XR ℝ)} {s s' : S} :
    shuffleOne env p1 p2 n l s = some (.ok l', s') ↔
      ((env.rng.random s).1 < 1 / 2 ∧ (env.rng.random s).2 = s') ∧ l' = (l.1.set n y, l.2.set n x) ∨
      (¬ (env.rng.random s).1 < 1 / 2 ∧ (env.rng.random s).2 = s') ∧ l' = (l.1.set n x, l.2.set n y) := by
  have e1 : item env p1 n = .ok x := by simp [item, h1]
  have e2 : item env p2 n = .ok y := by simp [item, h2]
  have e : shuffleOne env p1 p2 n l s = some (.ok (if (env.rng.random s).1 < 1 / 2 then (l.1.set n y, l.2.set n x)
      else (l.1.set n x, l.2.set n y)), (env.rng.random s).2) := by
    unfold shuffleOne
    rw [Run.bind_apply]
    simp only [Run.lift]
    by_cases hu : (env.rng.random s).1 < 1 / 2
    · rw [if_pos hu, if_pos hu, e1, e2]; rfl
    · rw [if_neg hu, if_neg hu, e1, e2]; rfl
  rw [e]
  by_cases hu : (env.rng.random s).1 < 1 / 2
  · simp only [if_pos hu, hu, not_true, false_and, or_false, true_and, Option.some.injEq, Prod.mk.injEq (_ : Result _),
      Except.ok.injEq]
    exact ⟨fun h => ⟨h.2, h.1.symm⟩, fun h => ⟨h.2.symm, h.1⟩⟩
  · simp only [if_neg hu, hu, not_false_iff, false_and, false_or, true_and, Option.some.injEq, Prod.mk.injEq (_ : Result _),
      Except.ok.injEq]
    exact ⟨fun h => ⟨h.2, h.1.symm⟩, fun h => ⟨h.2.symm, h.1⟩⟩

open Classical in
theorem shuffle_law {μ : Measure S} {env : GaEnv S N ℝ P} (hr : Halves μ env.rng) {p1 p2 : P} {x y : N → XR ℝ}
    (A : N → Set (XR ℝ × XR ℝ)) (ds : List (GaDom N ℝ)) (hn : (ds.map (·.name)).Nodup)
    (h1 : ∀ d ∈ ds, env.get p1 d.name = some (x d.name)) (h2 : ∀ d ∈ ds, env.get p2 d.name = some (y d.name))
    (l : Dict N (XR ℝ) × Dict N (XR ℝ)) :
    Chance μ (fun s s' => ∃ c, shuffle env p1 p2 l ds s = some (.ok c, s') ∧
        ∀ d ∈ ds, ∃ a b, c.1.get? d.name = some a ∧ c.2.get? d.name = some b ∧ (a, b) ∈ A d.name)
      ((ds.map (fun d => (if (y d.name, x d.name) ∈ A d.name then 1 / 2 else 0) +
        (if (x d.name, y d.name) ∈ A d.name then 1 / 2 else 0))).prod) := by
  induction ds generalizing l with
  | nil =>
    refine Chance.refl.congr (fun s s' => ?_)
    constructor
    · rintro rfl; exact ⟨l, rfl, by simp⟩
    · rintro ⟨c, h, -⟩
      exact (Run.pure_ok.1 h).2
  | cons d ds ih =>
    rw [List.map_cons, List.nodup_cons] at hn
    rw [List.map_cons, List.prod_cons, add_mul]
    have hrest : ∀ l' : Dict N (XR ℝ) × Dict N (XR ℝ), _ := fun l' =>
      ih hn.2 (fun e he => h1 e (by simp [he])) (fun e he => h2 e (by simp [he])) l'
    -- one outcome of the draw
    have hone : ∀ (E : S → S → Prop) (u v : XR ℝ), Chance μ E (1 / 2) → Chance μ (fun s s' => ∃ m, E s m ∧
        ∃ c, shuffle env p1 p2 (l.1.set d.name u, l.2.set d.name v) ds m = some (.ok c, s') ∧
          ∀ e ∈ d :: ds, ∃ a b, c.1.get? e.name = some a ∧ c.2.get? e.name = some b ∧ (a, b) ∈ A e.name)
        ((if (u, v) ∈ A d.name then 1 / 2 else 0) * (ds.map (fun d => (if (y d.name, x d.name) ∈ A d.name then 1 / 2 else 0) +
          (if (x d.name, y d.name) ∈ A d.name then 1 / 2 else 0))).prod) := by
      intro E u v hE
      have hd : ∀ {c : Dict N (XR ℝ) × Dict N (XR ℝ)} {m s' : S},
          shuffle env p1 p2 (l.1.set d.name u, l.2.set d.name v) ds m = some (.ok c, s') →
          c.1.get? d.name = some u ∧ c.2.get? d.name = some v := by
        intro c m s' hc
        obtain ⟨j1, j2⟩ := (shuffle_ok hc).2.2 d.name hn.1
        rw [j1, j2]
        exact ⟨Dict.get?_set_self .., Dict.get?_set_self ..⟩
      by_cases hA : (u, v) ∈ A d.name
      · rw [if_pos hA]
        refine (hE.comp (hrest _)).congr (fun s s' => exists_congr (fun m => and_congr_right (fun _ =>
          exists_congr (fun c => and_congr_right (fun hc => ?_)))))
        rw [List.forall_mem_cons]
        exact ⟨fun h => ⟨⟨u, v, (hd hc).1, (hd hc).2, hA⟩, h⟩, fun h => h.2⟩
      · rw [if_neg hA, zero_mul]
        refine Chance.never (fun s s' => ?_)
        rintro ⟨m, -, c, hc, h⟩
        obtain ⟨a, b, e1, e2, h3⟩ := h d (by simp)
        rw [(hd hc).1] at e1
        rw [(hd hc).2] at e2
        obtain rfl := Option.some.inj e1
        obtain rfl := Option.some.inj e2
        exact hA h3
    refine ((hone _ _ _ hr.below).or (hone _ _ _ hr.above) ?_).congr (fun s s' => ?_)
    · rintro s m m' ⟨k, ⟨h3, -⟩, -⟩ ⟨k', ⟨h4, -⟩, -⟩
      exact h4 h3
    · have hs : ∀ {l' : Dict N (XR ℝ) × Dict N (XR ℝ)} {m : S}, _ := fun {l'} {m} =>
        shuffleOne_iff (h1 d (by simp)) (h2 d (by simp)) (l := l) (l' := l') (s := s) (s' := m)
      constructor
      · rintro (⟨m, h3, c, h4, h5⟩ | ⟨m, h3, c, h4, h5⟩)
        · exact ⟨c, Run.bind_ok.2 ⟨_, m, hs.2 (.inl ⟨h3, rfl⟩), h4⟩, h5⟩
        · exact ⟨c, Run.bind_ok.2 ⟨_, m, hs.2 (.inr ⟨h3, rfl⟩), h4⟩, h5⟩
      · rintro ⟨c, h3, h5⟩
        obtain ⟨l', m, h4, h6⟩ := Run.bind_ok.1 h3
        rcases hs.1 h4 with ⟨h7, rfl⟩ | ⟨h7, rfl⟩
        · exact .inl ⟨m, h7, c, h6, h5⟩
        · exact .inr ⟨m, h7, c, h6, h5⟩

open Classical in
/-- **C211**: `ShuffleCrossover` exchanges every gene with probability one half, independently of the others. -/
theorem C211 {μ : Measure S} {env : GaEnv S N ℝ P} (hr : Halves μ env.rng) {ds : List (GaDom N ℝ)}
    (hd : ∀ s, (env.domain s).1 = .ok ds) (hd' : Chance μ (fun s s' => (env.domain s).2 = s') 1) (hn : (ds.map (·.name)).Nodup) {p1 p2 : P}
    {x y : N → XR ℝ} (h1 : ∀ d ∈ ds, env.get p1 d.name = some (x d.name))
    (h2 : ∀ d ∈ ds, env.get p2 d.name = some (y d.name)) (A : N → Set (XR ℝ × XR ℝ)) :
    Chance μ (fun s s' => ∃ c, shuffleCross env p1 p2 s = some (.ok c, s') ∧
        ∀ d ∈ ds, ∃ a b, c.1.get? d.name = some a ∧ c.2.get? d.name = some b ∧ (a, b) ∈ A d.name)
      ((ds.map (fun d => (if (y d.name, x d.name) ∈ A d.name then 1 / 2 else 0) +
        (if (x d.name, y d.name) ∈ A d.name then 1 / 2 else 0))).prod) := by
  have h := hd'.comp (shuffle_law hr A ds hn h1 h2 ([], []))
  rw [one_mul] at h
  refine h.congr (fun s s' => ?_)
  constructor
  · rintro ⟨m, h3, c, h4, h5⟩
    exact ⟨c, Run.bind_ok.2 ⟨ds, m, Run.lift_ok.2 (Prod.ext (hd s) h3), h4⟩, h5⟩
  · rintro ⟨c, h3, h5⟩
    obtain ⟨es, m, h6, h7⟩ := Run.bind_ok.1 h3
    have h6 := Run.lift_ok.1 h6
    have h8 := hd s
    rw [h6] at h8
    obtain rfl := Except.ok.inj h8
    exact ⟨m, by rw [h6], c, h7, h5⟩

/-- Two genes; the uniform numbers are 0 and 1/2. -/
noncomputable def twoEnv : GaEnv ℝ Bool ℝ (ℕ × ℕ) where
  domain := fun s => (.ok [⟨false, .fin 0, .fin 9⟩, ⟨true, .fin 0, .fin 9⟩], s)
  get := fun p n => some (.fin (if n then p.2 else p.1))
  draw := fun s => (.ok (if (coin (1 / 2) s).1 then (1, 1) else (2, 2)), (coin (1 / 2) s).2)
  serve := fun _ s => (.ok (0, 0), s)
  lik := fun p => .fin p.1
  post := fun p => .fin p.1
  clone := id
  rng := { random := fun s => (if (coin (1 / 2) s).1 then 0 else 1 / 2, (coin (1 / 2) s).2), pick := rand01.pick }
  binomial := fun _ _ s => (.ok [], s)
  normal := fun _ _ s => (.ok (.fin 0), s)
  distinct := fun _ _ s => (.ok [], s)
  std := fun _ => .fin 0
  iqr := fun _ => .fin 0
  fifth := fun _ => .fin 0
  softmax := gaSoftmax
  rnd := id
  eps := 0

theorem two_halves : Halves uniform01 twoEnv.rng := by
  have e : ENNReal.ofReal (1 / 2) = 1 / 2 := by rw [ENNReal.ofReal_div_of_pos (by norm_num)]; simp
  constructor
  · have h := coin_true (p := 1 / 2) (by norm_num) (by norm_num)
    rw [e] at h
    refine h.congr (fun s s' => ?_)
    simp only [twoEnv, coin]
    split <;> simp
  · have h := coin_false (p := 1 / 2) (by norm_num) (by norm_num)
    rw [show (1 - 1 / 2 : ℝ) = 1 / 2 by norm_num, e] at h
    refine h.congr (fun s s' => ?_)
    simp only [twoEnv, coin]
    split <;> simp

/-- The children of (1, 2) and (3, 4) are (3, 2) and (1, 4) with one quarter. -/
example : Chance uniform01 (fun s s' => ∃ c, shuffleCross twoEnv (1, 2) (3, 4) s = some (.ok c, s') ∧
    ∀ d ∈ [(⟨false, .fin 0, .fin 9⟩ : GaDom Bool ℝ), ⟨true, .fin 0, .fin 9⟩], ∃ a b, c.1.get? d.name = some a ∧
      c.2.get? d.name = some b ∧ (a, b) ∈ (if d.name then {(.fin 2, .fin 4)} else {(.fin 3, .fin 1)} :
        Set (XR ℝ × XR ℝ))) (1 / 2 * (1 / 2)) := by
  classical
  have h := C211 two_halves (ds := [⟨false, .fin 0, .fin 9⟩, ⟨true, .fin 0, .fin 9⟩]) (fun _ => rfl)
    (Chance.refl.congr (fun s s' => Iff.rfl)) (by decide) (p1 := (1, 2)) (p2 := (3, 4))
    (x := fun n => .fin (if n then (2 : ℕ) else (1 : ℕ))) (y := fun n => .fin (if n then (4 : ℕ) else (3 : ℕ)))
    (fun d _ => rfl) (fun d _ => rfl)
    (fun n => if n then {(.fin 2, .fin 4)} else {(.fin 3, .fin 1)})
  simpa using h

theorem times_chance {α : Type} {μ : Measure S} {q : Set α → ENNReal} {x : Run S α} (As : List (Set α))
    (hQ : ∀ A ∈ As, Chance μ (fun s s' => ∃ a ∈ A, x s = some (.ok a, s')) (q A)) :
    Chance μ (fun s s' => ∃ as, Run.times As.length x s = some (.ok as, s') ∧ List.Forall₂ (fun a A => a ∈ A) as As)
      ((As.map q).prod) := by
  induction As with
  | nil =>
    refine Chance.refl.congr (fun s s' => ?_)
    constructor
    · rintro rfl; exact ⟨[], rfl, .nil⟩
    · rintro ⟨as, h, -⟩
      exact (Run.pure_ok.1 h).2
  | cons A As ih =>
    rw [List.map_cons, List.prod_cons]
    refine ((hQ A (by simp)).comp (ih (fun B hB => hQ B (by simp [hB])))).congr (fun s s' => ?_)
    constructor
    · rintro ⟨m, ⟨a, h1, h2⟩, as, h3, h4⟩
      exact ⟨a :: as, Run.bind_ok.2 ⟨a, m, h2, Run.bind_ok.2 ⟨as, s', h3, rfl⟩⟩, .cons h1 h4⟩
    · rintro ⟨bs, h1, h2⟩
      obtain ⟨a, m, h3, h4⟩ := Run.bind_ok.1 h1
      obtain ⟨as, m', h5, h6⟩ := Run.bind_ok.1 h4
      obtain ⟨rfl, rfl⟩ := Run.pure_ok.1 h6
      cases h2 with
      | cons h7 h8 => exact ⟨m, ⟨a, h7, h3⟩, as, h5, h8⟩

/-- **C213**: the first population of the genetic algorithm is an independent sample from the law of `draw`. -/
theorem C213 {μ : Measure S} [MeasurableSpace P] {Q : Measure P} {env : GaEnv S N ℝ P}
    (hQ : Draws μ (fun s p s' => env.draw s = (.ok p, s')) Q) (set : Settings ℝ) (old : Dict N (XR ℝ))
    (As : List (Set P)) (hA : ∀ A ∈ As, MeasurableSet A) (hl : As.length = set.nCollect) (hn : As ≠ []) :
    Chance μ (fun s s' => ∃ st, Model.Ga.initialise env set old s = some (.ok st, s') ∧
        List.Forall₂ (fun p A => p ∈ A) st.ps As) ((As.map (fun A => Q A)).prod) := by
  have h := times_chance (x := Run.lift env.draw) (q := fun A => Q A) (μ := μ) As (fun A h => (hQ A (hA A h)).congr
    (fun s s' => by simp only [Run.lift_ok]))
  refine h.congr (fun s s' => ?_)
  unfold Model.Ga.initialise
  rw [← hl]
  constructor
  · rintro ⟨as, h1, h2⟩
    cases as with
    | nil => cases h2; exact absurd rfl hn
    | cons a as =>
      exact ⟨_, Run.bind_ok.2 ⟨a :: as, s', h1, Run.ofResult_ok.2 ⟨rfl, rfl⟩⟩, h2⟩
  · rintro ⟨st, h1, h2⟩
    obtain ⟨as, m, h3, h4⟩ := Run.bind_ok.1 h1
    obtain ⟨h5, rfl⟩ := Run.ofResult_ok.1 h4
    refine ⟨as, h3, ?_⟩
    unfold findElitism at h5
    cases as with
    | nil => cases h5
    | cons a as => cases h5; exact h2

/-- A population of two is (1, 1) and (2, 2), in this order, with one quarter. -/
example (set : Settings ℝ) (h : set.nCollect = 2) :
    Chance uniform01 (fun s s' => ∃ st, Model.Ga.initialise twoEnv set [] s = some (.ok st, s') ∧
      List.Forall₂ (fun p A => p ∈ A) st.ps ([{(1, 1)}, {(2, 2)}] : List (Set (ℕ × ℕ)))) (2⁻¹ * 2⁻¹) := by
  have hd : Draws uniform01 (fun s p s' => twoEnv.draw s = (.ok p, s'))
      ((1 / 2 : ENNReal) • Measure.dirac (1, 1) + (1 / 2 : ENNReal) • Measure.dirac (2, 2)) := by
    intro A hA
    refine (Props.LawsDraw.coin_draws (1, 1) (2, 2) A hA).congr (fun s s' => exists_congr (fun p =>
      and_congr_right (fun _ => ?_)))
    simp [twoEnv]
  have h := C213 hd set [] [{(1, 1)}, {(2, 2)}] (fun A _ => MeasurableSet.of_discrete) h.symm (by simp)
  simpa using h

end Props.LawsGa
