import Verif.Props.LawsSmc

/-!
# The law of the first particles of ABC-SMC: C210
-/

namespace Props.LawsSmc

set_option linter.unusedSectionVars false

open Py Spec Model MeasureTheory Props.LawsAbc ProbabilityTheory

variable {S Θ T P K : Type} [Field K] [LinearOrder K] [FloorSemiring K] [MeasurableSpace S] [MeasurableSpace Θ]

theorem init_ends {env : SmcEnv S Θ T P K} {set : SmcSettings K} (hn : set.nIter ≠ 0) {s s' : S} {st : SmcState Θ K} :
    Ends (fun f => Smc.initialise env set f none) s st s' ↔
      ∃ rs, Ends (fun f => Run.times set.nIter (sampleFin env.toSimEnv f 0)) s rs s' ∧
        st = ⟨Smc.uniformWts set.nIter, rs.map (fun x => ⟨x.2.1, true⟩), 0, 0, Smc.essOf (Smc.uniformWts set.nIter), 1,
          .pinf, .fin ((set.nIter : K) * set.pThres), (rs.map (·.2.2)).sum⟩ := by
  constructor
  · rintro ⟨f, h⟩
    obtain ⟨rs, m, h1, h2⟩ := Run.bind_ok.1 h
    rw [if_neg hn] at h2
    obtain ⟨rfl, rfl⟩ := Run.pure_ok.1 h2
    exact ⟨rs, ⟨f, h1⟩, rfl⟩
  · rintro ⟨rs, ⟨f, h1⟩, rfl⟩
    refine ⟨f, Run.bind_ok.2 ⟨rs, s', h1, ?_⟩⟩
    rw [if_neg hn]
    rfl

/-- **C210**: without parents, `initialise` takes independent draws from the prior conditioned on a finite distance, all
with the same weight. -/
theorem C210 {μ : Measure S} {P' : Measure Θ} [IsProbabilityMeasure P'] (env : SmcEnv S Θ T P K) {set : SmcSettings K}
    (hP : Draws μ (fun s x s' => env.prior s = (.ok x, s')) P')
    (hm : MeasurableSet {x | (env.dist x).isInf = false}) (As : List (Set Θ)) (hA : ∀ A ∈ As, MeasurableSet A)
    (hlen : As.length = set.nIter) (hn : As ≠ []) :
    Chance μ (fun s s' => ∃ st, Ends (fun f => Smc.initialise env set f none) s st s' ∧
        List.Forall₂ (fun p A => p.val ∈ A) st.pts As ∧
        st.wts = List.replicate As.length (.fin (1 / (As.length : K))))
      ((As.map (fun A => P'[|{x | (env.dist x).isInf = false}] A)).prod) := by
  have h := times_law ((fin_rejects env.toSimEnv).mono 0) ((fin_rejects env.toSimEnv).law hP hm) As hA
  have hne : set.nIter ≠ 0 := by
    rw [← hlen]
    exact fun h => hn (List.length_eq_zero_iff.1 h)
  refine h.congr (fun s s' => ?_)
  constructor
  · rintro ⟨rs, h1, h2⟩
    refine ⟨_, (init_ends hne).2 ⟨rs, by rw [← hlen]; exact h1, rfl⟩, ?_, by rw [hlen]; rfl⟩
    rw [List.forall₂_map_left_iff]
    exact h2
  · rintro ⟨st, h1, h2, -⟩
    obtain ⟨rs, h3, rfl⟩ := (init_ends hne).1 h1
    refine ⟨rs, by rw [hlen]; exact h3, ?_⟩
    rw [List.forall₂_map_left_iff] at h2
    exact h2

/-- **C210** (end): when a prior draw has a finite distance with positive probability, `initialise` ends with probability
one. -/
theorem C210_ends {μ : Measure S} {P' : Measure Θ} [IsProbabilityMeasure P'] (env : SmcEnv S Θ T P K) {set : SmcSettings K}
    (hP : Draws μ (fun s x s' => env.prior s = (.ok x, s')) P')
    (hm : MeasurableSet {x | (env.dist x).isInf = false}) (h0 : P' {x | (env.dist x).isInf = false} ≠ 0)
    (hn : set.nIter ≠ 0) :
    μ {s | ∃ st s', Ends (fun f => Smc.initialise env set f none) s st s'} = μ Set.univ := by
  have := cond_isProbabilityMeasure h0
  have h := (C210 env hP hm (set := set) (List.replicate set.nIter Set.univ)
    (fun A hA => by rw [List.eq_of_mem_replicate hA]; exact MeasurableSet.univ) (by simp)
    (by simpa using hn) _ MeasurableSet.univ).2
  rw [List.map_replicate, List.prod_replicate, measure_univ, one_pow, one_mul] at h
  rw [← h]
  congr 1
  ext s
  constructor
  · rintro ⟨st, s', h1⟩
    obtain ⟨rs, h3, rfl⟩ := (init_ends hn).1 h1
    refine ⟨s', trivial, _, h1, ?_, by simp [Smc.uniformWts]⟩
    have hl : rs.length = set.nIter := by
      obtain ⟨f, h3⟩ := h3
      exact (Run.times_ok h3).1
    rw [List.forall₂_map_left_iff, ← hl]
    clear h1 h3 hl
    induction rs with
    | nil => exact .nil
    | cons r rs ih => exact .cons trivial ih
  · rintro ⟨s', -, st, h1, -, -⟩; exact ⟨st, s', h1⟩

/-- Three points with equal chances, of which the last has an infinite distance. -/
noncomputable def gap : SmcEnv ℝ ℕ Unit Unit ℝ :=
  { walk third steps with dist := fun x => if x = 2 then .pinf else .fin 0 }

/-- Two particles: each of the first two points is drawn with one half. -/
example : Chance uniform01 (fun s s' => ∃ st,
      Ends (fun f => Smc.initialise gap ⟨2, false, 1 / 2, 1 / 2, 10, 10, 0⟩ f none) s st s' ∧
        List.Forall₂ (fun p A => p.val ∈ A) st.pts ([{0}, {1}] : List (Set ℕ)) ∧
        st.wts = List.replicate 2 (.fin (1 / ((2 : ℕ) : ℝ)))) (1 / 4) := by
  have : IsProbabilityMeasure third.law := ⟨by
    have h := (walk_proposes (w := third) (q := fun _ => third) (fun _ => third_ok) 0).all
    simpa [third] using h⟩
  have hd : Draws uniform01 (fun s x s' => gap.prior s = (.ok x, s')) third.law := by
    intro A _
    have h := Row.chance third_ok A
    rw [show ENNReal.ofReal third.d = 0 by simp [third], Set.indicator_zero, add_zero] at h
    refine h.congr (fun s s' => ?_)
    simp [walk, gap]
  have hs : {x | (gap.dist x).isInf = false} = ({0, 1} ∪ {x | 2 < x} : Set ℕ) := by
    ext x
    by_cases hx : x = 2
    · subst hx; simp [gap, XR.isInf]
    · simp only [gap, hx, if_false, Set.mem_ofPred_eq, Set.mem_union, Set.mem_insert_iff, Set.mem_singleton_iff, XR.isInf]
      simp; omega
  have h := C210 gap (set := ⟨2, false, 1 / 2, 1 / 2, 10, 10, 0⟩) hd MeasurableSet.of_discrete [{0}, {1}]
    (fun A _ => MeasurableSet.of_discrete) rfl (by simp)
  have hw : third.law {x | (gap.dist x).isInf = false} = ENNReal.ofReal (2 / 3) := by
    rw [hs, show (2 / 3 : ℝ) = 1 / 3 + 1 / 3 by norm_num, ENNReal.ofReal_add (by norm_num) (by norm_num)]
    simp [Row.law, third]
  have hz : ∀ y ∈ ({0, 1} : Set ℕ), third.law[|{x | (gap.dist x).isInf = false}] {y} = ENNReal.ofReal (1 / 2) := by
    intro y hy
    rw [cond_apply MeasurableSet.of_discrete, hw, Set.inter_eq_right.2 (by rw [hs]; simpa using Or.inl hy)]
    have : third.law {y} = ENNReal.ofReal (1 / 3) := by
      rcases hy with rfl | rfl <;> simp [Row.law, third]
    rw [this, ← ENNReal.ofReal_inv_of_pos (by norm_num), ← ENNReal.ofReal_mul (by norm_num)]
    norm_num
  rw [List.map_cons, List.map_cons, hz 0 (by simp), hz 1 (by simp)] at h
  simp only [List.map_nil, List.prod_cons, List.prod_nil, mul_one] at h
  rw [← ENNReal.ofReal_mul (by norm_num)] at h
  rw [show (1 / 4 : ENNReal) = ENNReal.ofReal (1 / 2 * (1 / 2)) by
    rw [show (1 / 2 * (1 / 2) : ℝ) = 1 / 4 by norm_num, ENNReal.ofReal_div_of_pos (by norm_num)]; simp]
  exact h

end Props.LawsSmc
