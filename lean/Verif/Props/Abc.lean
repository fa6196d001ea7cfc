import Verif.Model.Abc
import Verif.Lemmas.Quantile
import Mathlib.Algebra.Order.Field.Rat
import Mathlib.Data.Rat.Floor
import Mathlib.Tactic.Linarith
import Mathlib.Tactic.NormNum

/-!
# ABC rejection (C60, C61, C93, C106)
-/

namespace Props.Abc
set_option linter.unusedSectionVars false

open Py Model Model.Abc

variable {S Θ K : Type} [Field K] [LinearOrder K] [IsStrictOrderedRing K] [FloorSemiring K]

/-- What the loop of `sample_fin` returns: a particle with its distance, which is not infinite. -/
theorem sampleFin_ok (env : SimEnv S Θ K) {fuel n : Nat} {s s' : S} {di : XR K} {sim : Θ} {n' : Nat}
    (h : sampleFin env fuel n s = some (.ok (di, sim, n'), s')) :
    di = env.dist sim ∧ di.isInf = false ∧ n < n' := by
  induction fuel generalizing n s with
  | zero => exact absurd h Run.more_ok
  | succ fuel ih =>
    obtain ⟨x, s1, -, h⟩ := Run.bind_ok.1 h
    split at h
    · obtain ⟨h1, h2, h3⟩ := ih h
      exact ⟨h1, h2, by omega⟩
    · rename_i hi
      obtain ⟨h1, -⟩ := Run.pure_ok.1 h
      simp only [Prod.mk.injEq] at h1
      obtain ⟨rfl, rfl, rfl⟩ := h1
      exact ⟨rfl, by simpa using hi, by omega⟩

theorem sampleEssLoop_ok (env : SimEnv S Θ K) (eps : XR K) {fuel n : Nat} {s s' : S} {di : XR K} {sim : Θ} {n' : Nat}
    (h : sampleEssLoop env eps fuel n s = some (.ok (di, sim, n'), s')) :
    di = env.dist sim ∧ XR.lt eps di = false ∧ n < n' := by
  induction fuel generalizing n s with
  | zero => exact absurd h Run.more_ok
  | succ fuel ih =>
    obtain ⟨x, s1, -, h⟩ := Run.bind_ok.1 h
    split at h
    · obtain ⟨h1, h2, h3⟩ := ih h
      exact ⟨h1, h2, by omega⟩
    · rename_i hi
      obtain ⟨h1, -⟩ := Run.pure_ok.1 h
      simp only [Prod.mk.injEq] at h1
      obtain ⟨rfl, rfl, rfl⟩ := h1
      exact ⟨rfl, by simpa using hi, by omega⟩

theorem sampleEss_ok (env : SimEnv S Θ K) (eps : XR K) {fuel : Nat} {s s' : S} {di : XR K} {sim : Θ} {n : Nat}
    (h : sampleEss env eps fuel s = some (.ok (di, sim, n), s')) :
    XR.lt eps .pinf = true ∧ di = env.dist sim ∧ XR.lt eps di = false ∧ 0 < n := by
  unfold sampleEss at h
  split at h
  · rename_i he
    obtain ⟨h1, h2, h3⟩ := sampleEssLoop_ok env eps h
    exact ⟨he, h1, h2, h3⟩
  · exact absurd h Run.fail_ok

/-- **C60**, what holds: if no distance is NaN, every particle that the (parallel) sampler returns is within the
tolerance, exactly as many are returned as asked for, `ESS` is that number, and `Acceptance` is that number divided
by the number of simulations, in (0, 1]. -/
theorem C60_partial (env : SimEnv S Θ K) (hnan : ∀ x, env.dist x ≠ .nan) (fuel : Nat) (parallel : Bool)
    (state : Option (XR K)) (n : Nat) (s s' : S) (post : Post Θ K)
    (h : samplePosteriors env fuel parallel state n s = some (.ok post, s')) :
    state = some post.eps ∧ post.particles.length = n ∧ post.ess = n ∧
      (∀ x ∈ post.particles, XR.le (env.dist x) post.eps = true) ∧
      ∃ nEval : Nat, post.acceptance = (n : K) / (nEval : K) ∧ 0 < post.acceptance ∧ post.acceptance ≤ 1 ∧
        n ≤ nEval := by
  unfold samplePosteriors at h
  cases state with
  | none => exact absurd h Run.fail_ok
  | some eps =>
    simp only at h
    obtain ⟨⟨pts, ne⟩, s1, h1, h2⟩ := Run.bind_ok.1 h
    simp only at h2
    split at h2
    · exact absurd h2 Run.fail_ok
    · rename_i hpar
      obtain ⟨us, s2, -, h3⟩ := Run.bind_ok.1 h2
      split at h3
      · exact absurd h3 Run.fail_ok
      · rename_i hne
        obtain ⟨rfl, -⟩ := Run.pure_ok.1 h3
        cases parallel with
        | false =>
          -- the serial branch returns only an empty list, and then divides by zero
          exfalso
          have hp : pts = [] := by simpa using hpar
          simp only [collect, Bool.false_eq_true, if_false] at h1
          have key : ∀ k l m t t' r, collectSerial env eps fuel k l m t = some (.ok r, t') →
              r.1.length = l.length + k ∧ (k = 0 → r.2 = m) := by
            intro k
            induction k with
            | zero =>
              intro l m t t' r hr
              obtain ⟨rfl, -⟩ := Run.pure_ok.1 hr
              simp
            | succ k ih =>
              intro l m t t' r hr
              obtain ⟨x, t1, -, hr⟩ := Run.bind_ok.1 hr
              obtain ⟨h4, -⟩ := ih _ _ _ _ _ hr
              refine ⟨?_, by simp⟩
              rw [h4, List.length_append, List.length_singleton]
              omega
          obtain ⟨h4, h5⟩ := key _ _ _ _ _ _ h1
          simp only [hp, List.length_nil, zero_add] at h4
          exact hne (h5 h4.symm)
        | true =>
          simp only [collect, if_true] at h1
          obtain ⟨samples, s3, h4, h5⟩ := Run.bind_ok.1 h1
          obtain ⟨h5, -⟩ := Run.pure_ok.1 h5
          simp only [Prod.mk.injEq] at h5
          obtain ⟨rfl, rfl⟩ := h5
          obtain ⟨hlen, hall⟩ := Run.times_ok h4
          have hsum : samples.length ≤ (samples.map (·.2.2)).sum := by
            clear h4 h1 h2 h3 h hpar hne hlen h5
            induction samples with
            | nil => simp
            | cons a l ih =>
              obtain ⟨t, t', ht⟩ := hall a (by simp)
              have hpos := (sampleEss_ok env eps ht).2.2.2
              have := ih (fun b hb => hall b (by simp [hb]))
              simp only [List.length_cons, List.map_cons, List.sum_cons]
              have h9 : 1 ≤ a.2.2 := hpos
              rw [Nat.add_comm]
              exact Nat.add_le_add h9 this
          have hnpos : 0 < n := by
            rcases Nat.eq_zero_or_pos n with h0 | h0
            · subst h0
              have : samples = [] := List.length_eq_zero_iff.1 hlen
              simp [this] at hne
            · exact h0
          refine ⟨rfl, by simpa using hlen, rfl, ?_, _, rfl, ?_, ?_, hlen ▸ hsum⟩
          · intro x hx
            obtain ⟨a, ha, rfl⟩ := List.mem_map.1 hx
            obtain ⟨t, t', ht⟩ := hall a ha
            obtain ⟨he, h6, h7, -⟩ := sampleEss_ok env eps ht
            rw [h6] at h7
            exact XR.le_of_not_lt (by rintro rfl; simp [XR.lt] at he) (hnan _) h7
          · exact div_pos (by exact_mod_cast hnpos) (by exact_mod_cast Nat.pos_of_ne_zero hne)
          · rw [div_le_one (by exact_mod_cast Nat.pos_of_ne_zero hne)]
            exact_mod_cast hlen ▸ hsum

/-! ### Concrete models -/

/-- A model whose particles are numbers read from a counter; the distance is the particle itself. -/
def exSim : SimEnv Nat Nat ℚ where
  prior := fun s => (.ok (s % 5), s + 1)
  dist := fun x => if x = 4 then .pinf else .fin x
  flatten := fun _ s => (.ok (), s)

/-- The same, with distance NaN. -/
def nanSim : SimEnv Nat Nat ℚ := { exSim with dist := fun _ => .nan }

example : (∀ x, exSim.dist x ≠ .nan) ∧
    (samplePosteriors exSim 10 true (some (.fin 1)) 3 2).map (·.1.map (·.particles)) = some (.ok [0, 1, 0]) := by
  refine ⟨fun x => ?_, by decide +kernel⟩
  simp only [exSim]
  split <;> simp

/-- **C60** fails for NaN distances: `di > eps` is false for them, so they are accepted. -/
theorem C60_refuted : ∃ post s', samplePosteriors nanSim 10 true (some (.fin 1)) 3 2 = some (.ok post, s') ∧
    ∀ x ∈ post.particles, XR.le (nanSim.dist x) post.eps = false :=
  ⟨_, _, rfl, fun _ _ => rfl⟩

/-! ### C61: execution modes -/

/-- **C61**, what holds: both modes compute the same tolerance from the same draws. -/
theorem C61_partial (env : SimEnv S Θ K) (fuel nTest : Nat) (pTest : XR K) (s : S) :
    initialise env fuel true nTest pTest s = initialise env fuel false nTest pTest s := by
  -- one particle
  have one : ∀ fuel n m t, (serialOne env fuel (n + m) t) =
      (sampleFin env fuel m t).map (fun r => (r.1.map (fun x => (x.1, n + x.2.2)), r.2)) := by
    intro fuel
    induction fuel with
    | zero => intro n m t; rfl
    | succ fuel ih =>
      intro n m t
      unfold serialOne sampleFin
      rw [Run.bind_apply, Run.bind_apply]
      simp only [Run.lift]
      rcases env.prior t with ⟨_ | sim, t'⟩
      · rfl
      · simp only
        split
        · rw [Nat.add_assoc, ih]
        · rfl
  -- all particles
  have all : ∀ k n dis t, serialAll env fuel k n dis t =
      (Run.times k (sampleFin env fuel 0) t).map
        (fun r => (r.1.map (fun xs => (dis ++ xs.map (·.1), n + (xs.map (·.2.2)).sum)), r.2)) := by
    intro k
    induction k with
    | zero =>
      intro n dis t
      simp [serialAll, Run.times, Run.pure_apply, Except.map]
    | succ k ih =>
      intro n dis t
      unfold serialAll Run.times
      rw [Run.bind_apply, Run.bind_apply]
      have := one fuel n 0 t
      rw [Nat.add_zero] at this
      rw [this]
      rcases sampleFin env fuel 0 t with _ | ⟨_ | ⟨di, sim, ne⟩, t'⟩
      · rfl
      · rfl
      · simp only [Option.map_some, Except.map]
        rw [ih, Run.bind_apply]
        rcases Run.times k (sampleFin env fuel 0) t' with _ | ⟨_ | xs, t''⟩
        · rfl
        · rfl
        · simp [Run.pure_apply, Except.map, Nat.add_assoc]
  have hbr : parallelAll env fuel nTest s = serialAll env fuel nTest 0 [] s := by
    rw [all, parallelAll, Run.bind_apply]
    rcases Run.times nTest (sampleFin env fuel 0) s with _ | ⟨_ | xs, t⟩
    · rfl
    · rfl
    · simp [Run.pure_apply, Except.map]
  unfold initialise
  rw [Run.bind_apply, Run.bind_apply]
  simp only [testRuns, if_true, Bool.false_eq_true, if_false, hbr]

/-- Both modes collect the same particles from the same draws, up to the point where the serial mode fails. -/
theorem C61_collect (env : SimEnv S Θ K) (eps : XR K) (fuel n : Nat) (s : S) :
    collectParallel env eps fuel n s = collectSerial env eps fuel n [] 0 s := by
  have all : ∀ k l m t, collectSerial env eps fuel k l m t =
      (Run.times k (sampleEss env eps fuel) t).map
        (fun r => (r.1.map (fun xs => (l ++ xs.map (·.2.1), m + (xs.map (·.2.2)).sum)), r.2)) := by
    intro k
    induction k with
    | zero =>
      intro l m t
      simp [collectSerial, Run.times, Run.pure_apply, Except.map]
    | succ k ih =>
      intro l m t
      unfold collectSerial Run.times
      rw [Run.bind_apply, Run.bind_apply]
      rcases sampleEss env eps fuel t with _ | ⟨_ | ⟨di, sim, ne⟩, t'⟩
      · rfl
      · rfl
      · simp only
        rw [ih, Run.bind_apply]
        rcases Run.times k (sampleEss env eps fuel) t' with _ | ⟨_ | xs, t''⟩
        · rfl
        · rfl
        · simp [Run.pure_apply, Except.map, Nat.add_assoc]
  rw [all, collectParallel, Run.bind_apply]
  rcases Run.times n (sampleEss env eps fuel) s with _ | ⟨_ | xs, t⟩
  · rfl
  · rfl
  · simp [Run.pure_apply, Except.map]

/-- **C61** fails for the posterior, for every model: the serial mode never returns a set of particles. -/
theorem C61_refuted (env : SimEnv S Θ K) (fuel : Nat) (state : Option (XR K)) (n : Nat) (s s' : S) (post : Post Θ K) :
    samplePosteriors env fuel false state n s ≠ some (.ok post, s') := by
  intro h
  unfold samplePosteriors at h
  cases state with
  | none => exact absurd h Run.fail_ok
  | some eps =>
    obtain ⟨⟨pts, ne⟩, s1, h1, h2⟩ := Run.bind_ok.1 h
    simp only at h2
    split at h2
    · exact absurd h2 Run.fail_ok
    · rename_i hp
      have hp : pts = [] := by simpa using hp
      obtain ⟨us, s2, -, h3⟩ := Run.bind_ok.1 h2
      split at h3
      · exact absurd h3 Run.fail_ok
      · rename_i hne
        simp only [collect, Bool.false_eq_true, if_false] at h1
        rw [← C61_collect] at h1
        obtain ⟨samples, s3, -, h5⟩ := Run.bind_ok.1 h1
        obtain ⟨h5, -⟩ := Run.pure_ok.1 h5
        simp only [Prod.mk.injEq] at h5
        rw [hp, List.map_eq_nil_iff] at h5
        rw [h5.1] at h5
        exact hne (by simpa using h5.2.symm)

/-- Where the parallel mode returns three particles, the serial mode raises AttributeError. -/
example : (samplePosteriors exSim 10 false (some (.fin 1)) 3 2).map (·.1.map (·.particles)) =
    some (.error .AttributeError) := by decide +kernel

/-! ### C93: the tolerance -/

/-- **C93**, what holds: if no distance is NaN and `0 <= p_test <= 1`, a successful `initialise` gives a finite
tolerance, the test runs had finite distances, more than the fraction `p_test` of all but one of them lie within the
tolerance, and then sampling never fails with an unbound variable (unless the model raises that error itself). -/
theorem C93_partial (env : SimEnv S Θ K) (hnan : ∀ x, env.dist x ≠ .nan) (fuel : Nat) (parallel : Bool) (nTest : Nat)
    (p : K) (s s' : S) (eps : XR K) (h : initialise env fuel parallel nTest (.fin p) s = some (.ok eps, s')) :
    ∃ (e : K) (pts : List Θ), eps = .fin e ∧ pts.length = nTest ∧ (∀ x ∈ pts, ∃ d, env.dist x = .fin d) ∧
      p * ((nTest : K) - 1) < (pts.countP (fun x => XR.le (env.dist x) eps) : K) ∧
      ((∀ t t', env.prior t ≠ (.error .UnboundLocalError, t')) →
        ∀ fuel' t t', sampleEss env eps fuel' t ≠ some (.error .UnboundLocalError, t')) := by
  have hpar : ∃ dis ne s1, parallelAll env fuel nTest s = some (.ok (dis, ne), s1) ∧ quantile dis (.fin p) = .ok eps := by
    have h' : initialise env fuel true nTest (.fin p) s = some (.ok eps, s') := by
      cases parallel
      · rw [C61_partial]; exact h
      · exact h
    unfold initialise at h'
    obtain ⟨⟨dis, ne⟩, s1, h1, h2⟩ := Run.bind_ok.1 h'
    obtain ⟨e, s2, h3, h4⟩ := Run.bind_ok.1 h2
    obtain ⟨h3, -⟩ := Run.ofResult_ok.1 h3
    split at h4
    · exact absurd h4 Run.fail_ok
    · obtain ⟨rfl, -⟩ := Run.pure_ok.1 h4
      exact ⟨dis, ne, s1, h1, h3⟩
  obtain ⟨dis, ne, s1, h1, hq⟩ := hpar
  obtain ⟨samples, s2, h2, h3⟩ := Run.bind_ok.1 h1
  obtain ⟨h3, -⟩ := Run.pure_ok.1 h3
  simp only [Prod.mk.injEq] at h3
  obtain ⟨rfl, rfl⟩ := h3
  obtain ⟨hlen, hall⟩ := Run.times_ok h2
  have hfin : ∃ ds : List K, samples.map (·.1) = ds.map XR.fin ∧
      (samples.map (·.2.1)).map env.dist = ds.map XR.fin := by
    clear h2 h1 hq hlen h3
    induction samples with
    | nil => exact ⟨[], rfl, rfl⟩
    | cons a l ih =>
      obtain ⟨ds, hds, hds'⟩ := ih (fun b hb => hall b (by simp [hb]))
      obtain ⟨t, t', ht⟩ := hall a (by simp)
      obtain ⟨h4, h5, -⟩ := sampleFin_ok env ht
      have hn := hnan a.2.1
      rw [← h4] at hn
      cases ha : a.1 with
      | fin d => exact ⟨d :: ds, by simp [ha, hds], by simp [← h4, ha, ← hds']⟩
      | pinf => rw [ha] at h5; cases h5
      | ninf => rw [ha] at h5; cases h5
      | nan => exact absurd ha hn
  obtain ⟨ds, hds, hds'⟩ := hfin
  rw [hds] at hq
  have hne : ds ≠ [] := by
    rintro rfl
    unfold quantile at hq
    split at hq <;> simp at hq
  have hp : 0 ≤ p ∧ p ≤ 1 := by
    unfold quantile at hq
    by_contra hc
    have : (XR.le (.fin 0) (.fin p) && XR.le (.fin p) (.fin 1)) = false := by
      simpa [not_and_or, or_iff_not_imp_left] using hc
    rw [this] at hq
    simp at hq
  obtain ⟨e, he, -, -, hc, -⟩ := Lemmas.quantile_fin ds hne hp.1 hp.2
  rw [he, Except.ok.injEq] at hq
  have hl : ds.length = nTest := by
    have := congrArg List.length hds
    simp only [List.length_map] at this
    omega
  refine ⟨e, samples.map (·.2.1), hq.symm, by simpa using hlen, ?_, ?_, ?_⟩
  · intro x hx
    have : env.dist x ∈ ds.map XR.fin := by
      rw [← hds']
      exact List.mem_map.2 ⟨x, hx, rfl⟩
    obtain ⟨d, -, hd⟩ := List.mem_map.1 this
    exact ⟨d, hd.symm⟩
  · have hcount : (samples.map (·.2.1)).countP (fun x => XR.le (env.dist x) eps) =
        ds.countP (fun d => decide (d ≤ e)) := by
      have h8 : (samples.map (·.2.1)).countP (fun x => XR.le (env.dist x) eps) =
          ((samples.map (·.2.1)).map env.dist).countP (fun x => XR.le x eps) := by
        rw [List.countP_map (f := env.dist)]
        rfl
      rw [h8, hds', List.countP_map, ← hq]
      congr 1
    rw [hcount]
    exact hl ▸ hc
  intro h7 fuel' t t' h6
  unfold sampleEss at h6
  rw [← hq] at h6
  simp only [XR.lt] at h6
  have key : ∀ fuel n t t', sampleEssLoop env (.fin e) fuel n t ≠ some (.error .UnboundLocalError, t') := by
    intro fuel
    induction fuel with
    | zero => intro n t t' h; cases h
    | succ fuel ih =>
      intro n t t' h
      unfold sampleEssLoop at h
      rw [Run.bind_apply] at h
      simp only [Run.lift] at h
      rcases hpr : env.prior t with ⟨er | sim, t1⟩
      · simp only [hpr, Option.some.injEq, Prod.mk.injEq, Except.error.injEq] at h
        exact h7 t t1 (h.1 ▸ hpr)
      · simp only [hpr] at h
        split at h
        · exact ih _ _ _ h
        · rw [Run.pure_apply] at h
          simp at h
  exact key _ _ _ _ h6

/-- The hypotheses are met, in both modes. -/
example : (initialise exSim 10 true 4 (.fin (1 / 2)) 0).map (·.1) = some (.ok (.fin (3 / 2))) ∧
    (initialise exSim 10 false 4 (.fin (1 / 2)) 0).map (·.1) = some (.ok (.fin (3 / 2))) := by
  constructor <;> decide +kernel

/-- **C93** fails for NaN distances: the tolerance becomes NaN, the loop of `sample_ess` is never entered and the
particle it returns is unbound. -/
theorem C93_refuted : (initialise nanSim 10 true 4 (.fin (1 / 2)) 0).map (·.1) = some (.ok .nan) ∧
    ∀ fuel n, (samplePosteriors nanSim fuel true (some .nan) (n + 1) 0).map (·.1.map (·.particles)) =
      some (.error .UnboundLocalError) := by
  refine ⟨by decide +kernel, fun fuel n => ?_⟩
  simp only [samplePosteriors, collect, if_true, collectParallel, Run.times, Run.bind_apply, sampleEss, XR.lt,
    Bool.false_eq_true, if_false, Run.fail, Option.map_some, Except.map]

/-! ### C106: the reported acceptance -/

/-- `count` counts the simulations that have been run. -/
structure Counts (env : SimEnv S Θ K) (count : S → Nat) : Prop where
  prior : ∀ s, count (env.prior s).2 = count s + 1
  flatten : ∀ x s, count (env.flatten x s).2 = count s

theorem sampleFin_count {env : SimEnv S Θ K} {count : S → Nat} (hc : Counts env count) {fuel n : Nat} {s s' : S}
    {r : XR K × Θ × Nat} (h : sampleFin env fuel n s = some (.ok r, s')) : r.2.2 + count s = n + count s' := by
  induction fuel generalizing n s with
  | zero => exact absurd h Run.more_ok
  | succ fuel ih =>
    obtain ⟨x, s1, h1, h⟩ := Run.bind_ok.1 h
    have hs : s1 = (env.prior s).2 := by rw [Run.lift_ok.1 h1]
    have := hc.prior s
    rw [← hs] at this
    split at h
    · have := ih h
      omega
    · obtain ⟨rfl, rfl⟩ := Run.pure_ok.1 h
      simp only
      omega

theorem sampleEssLoop_count {env : SimEnv S Θ K} {count : S → Nat} (hc : Counts env count) {eps : XR K} {fuel n : Nat}
    {s s' : S} {r : XR K × Θ × Nat} (h : sampleEssLoop env eps fuel n s = some (.ok r, s')) :
    r.2.2 + count s = n + count s' := by
  induction fuel generalizing n s with
  | zero => exact absurd h Run.more_ok
  | succ fuel ih =>
    obtain ⟨x, s1, h1, h⟩ := Run.bind_ok.1 h
    have hs : s1 = (env.prior s).2 := by rw [Run.lift_ok.1 h1]
    have := hc.prior s
    rw [← hs] at this
    split at h
    · have := ih h
      omega
    · obtain ⟨rfl, rfl⟩ := Run.pure_ok.1 h
      simp only
      omega

theorem sampleEss_count {env : SimEnv S Θ K} {count : S → Nat} (hc : Counts env count) {eps : XR K} {fuel : Nat}
    {s s' : S} {r : XR K × Θ × Nat} (h : sampleEss env eps fuel s = some (.ok r, s')) :
    r.2.2 + count s = count s' := by
  unfold sampleEss at h
  split at h
  · have := sampleEssLoop_count hc h
    omega
  · exact absurd h Run.fail_ok

theorem times_count {count : S → Nat} {x : Run S (XR K × Θ × Nat)}
    (hx : ∀ s s' r, x s = some (.ok r, s') → r.2.2 + count s = count s') {n : Nat} {s s' : S}
    {rs : List (XR K × Θ × Nat)} (h : Run.times n x s = some (.ok rs, s')) :
    (rs.map (·.2.2)).sum + count s = count s' := by
  induction n generalizing s rs with
  | zero =>
    obtain ⟨rfl, rfl⟩ := Run.pure_ok.1 h
    simp
  | succ n ih =>
    obtain ⟨a, s1, h1, h2⟩ := Run.bind_ok.1 h
    obtain ⟨as, s2, h3, h4⟩ := Run.bind_ok.1 h2
    obtain ⟨rfl, rfl⟩ := Run.pure_ok.1 h4
    have := hx _ _ _ h1
    have := ih h3
    rw [List.map_cons, List.sum_cons]
    omega

/-- **C106**: the acceptance reported with a posterior is the number of particles returned divided by the number of
simulations that were run for it. -/
theorem C106 (env : SimEnv S Θ K) (count : S → Nat) (hc : Counts env count) (fuel : Nat) (parallel : Bool)
    (state : Option (XR K)) (n : Nat) (s s' : S) (post : Post Θ K)
    (h : samplePosteriors env fuel parallel state n s = some (.ok post, s')) :
    count s < count s' ∧
    post.acceptance = (post.particles.length : K) / ((count s' - count s : Nat) : K) := by
  unfold samplePosteriors at h
  cases state with
  | none => exact absurd h Run.fail_ok
  | some eps =>
    simp only at h
    obtain ⟨⟨pts, ne⟩, s1, h1, h2⟩ := Run.bind_ok.1 h
    simp only at h2
    have key : pts.length = n ∧ ne + count s = count s1 := by
      cases parallel with
      | true =>
        simp only [collect, if_true, collectParallel] at h1
        obtain ⟨rs, s3, h3, h4⟩ := Run.bind_ok.1 h1
        obtain ⟨h5, rfl⟩ := Run.pure_ok.1 h4
        simp only [Prod.mk.injEq] at h5
        obtain ⟨rfl, rfl⟩ := h5
        exact ⟨by rw [List.length_map, (Run.times_ok h3).1],
          times_count (fun _ _ _ hr => sampleEss_count hc hr) h3⟩
      | false =>
        simp only [collect, Bool.false_eq_true, if_false] at h1
        have key : ∀ k l m t t' r, collectSerial env eps fuel k l m t = some (.ok r, t') →
            r.1.length = l.length + k ∧ r.2 + count t = m + count t' := by
          intro k
          induction k with
          | zero =>
            intro l m t t' r hr
            obtain ⟨rfl, rfl⟩ := Run.pure_ok.1 hr
            simp
          | succ k ih =>
            intro l m t t' r hr
            obtain ⟨⟨di, sim, ne⟩, t1, h3, hr⟩ := Run.bind_ok.1 hr
            have : ne + count t = count t1 := sampleEss_count hc h3
            obtain ⟨h4, h5⟩ := ih _ _ _ _ _ hr
            rw [List.length_append, List.length_singleton] at h4
            refine ⟨by omega, ?_⟩
            omega
        obtain ⟨h4, h5⟩ := key _ _ _ _ _ _ h1
        simp only [List.length_nil] at h4 h5
        constructor <;> omega
    split at h2
    · exact absurd h2 Run.fail_ok
    · rename_i hpar
      obtain ⟨us, s2, h3, h4⟩ := Run.bind_ok.1 h2
      have hfl : count s2 = count s1 := by
        clear h2 h4 key h1 hpar h
        induction pts generalizing s1 us with
        | nil =>
          obtain ⟨-, rfl⟩ := Run.pure_ok.1 h3
          rfl
        | cons p pts ih =>
          obtain ⟨u, t1, h5, h6⟩ := Run.bind_ok.1 h3
          obtain ⟨us', t2, h7, h8⟩ := Run.bind_ok.1 h6
          obtain ⟨-, rfl⟩ := Run.pure_ok.1 h8
          rw [ih t1 us' h7]
          have := hc.flatten p s1
          rw [Run.lift_ok.1 h5] at this
          exact this
      split at h4
      · exact absurd h4 Run.fail_ok
      · rename_i hne
        obtain ⟨rfl, rfl⟩ := Run.pure_ok.1 h4
        refine ⟨by omega, ?_⟩
        simp only
        rw [key.1, show count s2 - count s = ne by omega]

/-- In the example the random state counts the simulations. -/
example : Counts exSim id ∧ (samplePosteriors exSim 10 true (some (.fin 1)) 3 2).map (·.1.map (·.particles)) =
    some (.ok [0, 1, 0]) :=
  ⟨⟨fun _ => rfl, fun _ _ => rfl⟩, by decide +kernel⟩

end Props.Abc
