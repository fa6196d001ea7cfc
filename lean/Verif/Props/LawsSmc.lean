import Verif.Props.LawsAbc
import Verif.Props.LawsMinimal
import Verif.Lemmas.Generator
import Verif.Model.Smc
import Mathlib.MeasureTheory.Integral.Lebesgue.Add

/-!
# The law of the moves of ABC-SMC: C208
-/

namespace Props.LawsSmc

set_option linter.unusedSectionVars false

open Py Spec Model MeasureTheory Props.LawsAbc

variable {S Θ T P K : Type} [Field K] [LinearOrder K] [FloorSemiring K] [MeasurableSpace S] [MeasurableSpace Θ]

/-- The laws of the proposals from a particle: `Q` of what is proposed, `r` the chance that a proposal is refused. -/
structure Proposes (μ : Measure S) (env : SmcEnv S Θ T P K) (tau : T) (x : Θ) (Q : Measure Θ) (r : ENNReal) : Prop where
  some : ∀ A, MeasurableSet A → Chance μ (fun s s' => ∃ y ∈ A, env.propose tau x s = (.ok (some y), s')) (Q A)
  none : Chance μ (fun s s' => env.propose tau x s = (.ok none, s')) r
  all : Q Set.univ + r = 1

/-- After `k` refusals, `y` is proposed. -/
def After (env : SmcEnv S Θ T P K) (tau : T) (x : Θ) : Nat → S → Θ → S → Prop
  | 0, s, y, s' => env.propose tau x s = (.ok (some y), s')
  | k + 1, s, y, s' => ∃ m, env.propose tau x s = (.ok none, m) ∧ After env tau x k m y s'

theorem After.unique {env : SmcEnv S Θ T P K} {tau : T} {x : Θ} {j k : Nat} {s : S} {y y' : Θ} {m m' : S}
    (h1 : After env tau x j s y m) (h2 : After env tau x k s y' m') : j = k ∧ y = y' ∧ m = m' := by
  induction j generalizing k s with
  | zero =>
    cases k with
    | zero =>
      simp only [After] at h1 h2
      rw [h1] at h2
      simp only [Prod.mk.injEq, Except.ok.injEq, Option.some.injEq] at h2
      exact ⟨rfl, h2⟩
    | succ k =>
      obtain ⟨n, h3, -⟩ := h2
      simp only [After] at h1
      rw [h1] at h3
      simp at h3
  | succ j ih =>
    obtain ⟨n, h3, h4⟩ := h1
    cases k with
    | zero =>
      simp only [After] at h2
      rw [h2] at h3
      simp at h3
    | succ k =>
      obtain ⟨n', h5, h6⟩ := h2
      rw [h3] at h5
      simp only [Prod.mk.injEq, true_and] at h5
      subst h5
      obtain ⟨rfl, h7⟩ := ih h4 h6
      exact ⟨rfl, h7⟩

theorem after_law {μ : Measure S} {env : SmcEnv S Θ T P K} {tau : T} {x : Θ} {Q : Measure Θ} {r : ENNReal}
    (h : Proposes μ env tau x Q r) : Draws μ (fun s y s' => ∃ k, After env tau x k s y s') ((1 - r)⁻¹ • Q) := by
  intro A hA
  have h1 : ∀ k, Chance μ (fun s s' => ∃ y ∈ A, After env tau x k s y s') (r ^ k * Q A) := by
    intro k
    induction k with
    | zero => rw [pow_zero, one_mul]; exact h.some A hA
    | succ k ih =>
      rw [pow_succ', mul_assoc]
      refine (h.none.comp ih).congr (fun s s' => ?_)
      constructor
      · rintro ⟨m, h1, y, h2, h3⟩; exact ⟨y, h2, m, h1, h3⟩
      · rintro ⟨y, h2, m, h1, h3⟩; exact ⟨m, h1, y, h2, h3⟩
  have h2 := Chance.exists h1 (by
    rintro j k s m m' ⟨y, -, h1⟩ ⟨y', -, h2⟩
    exact (h1.unique h2).1)
  rw [ENNReal.tsum_mul_right, ENNReal.tsum_geometric] at h2
  rw [Measure.smul_apply, smul_eq_mul]
  refine h2.congr (fun s s' => ?_)
  constructor
  · rintro ⟨k, y, h1, h2⟩; exact ⟨y, h1, k, h2⟩
  · rintro ⟨y, h1, k, h2⟩; exact ⟨k, y, h1, h2⟩

/-- What becomes of a mutation at the next evaluation. -/
theorem mutation_unfold {env : SmcEnv S Θ T P K} {parallel : Bool} {tau : T} {pt : Pt Θ}
    (hc : (parallel || !pt.cached) = true) {n : Nat} {s s' : S} {d : XR K × Pt Θ × Nat} :
    Ends (fun f => Smc.sampleMutation env parallel tau pt f n) s d s' ↔
      ∃ k y m, After env tau pt.val k s y m ∧ n < 20 ∧
        (((env.dist y).isInf = false ∧ d = (env.dist y, ⟨y, true⟩, n + 1) ∧ s' = m) ∨
          ((env.dist y).isInf = true ∧ Ends (fun f => Smc.sampleMutation env parallel tau pt f (n + 1)) m d s')) := by
  have hstep : ∀ f s, Smc.sampleMutation env parallel tau pt (f + 1) n s = match env.propose tau pt.val s with
      | (.error e, s') => some (.error e, s')
      | (.ok none, s') => Smc.sampleMutation env parallel tau pt f n s'
      | (.ok (some y), s') => if 20 < n + 1 then some (.error .KeyError, s')
        else if (env.dist y).isInf then Smc.sampleMutation env parallel tau pt f (n + 1) s'
        else some (.ok (env.dist y, ⟨y, true⟩, n + 1), s') := by
    intro f s
    rcases h : env.propose tau pt.val s with ⟨_ | _ | y, m⟩
    · simp only [Smc.sampleMutation, Run.bind_apply, Run.lift, h]
    · simp only [Smc.sampleMutation, Run.bind_apply, Run.lift, h]
    · simp only [Smc.sampleMutation, Run.bind_apply, Run.lift, h]
      by_cases h20 : 20 < n + 1
      · rw [if_pos h20, if_pos h20, if_pos hc]; rfl
      · rw [if_neg h20, if_neg h20]
        split <;> rfl
  constructor
  · rintro ⟨f, h⟩
    induction f generalizing s with
    | zero => cases h
    | succ f ih =>
      simp only [hstep] at h
      rcases hp : env.propose tau pt.val s with ⟨_ | _ | y, m⟩
      · rw [hp] at h; cases h
      · rw [hp] at h
        obtain ⟨k, y, m', h1, h2⟩ := ih h
        exact ⟨k + 1, y, m', ⟨m, hp, h1⟩, h2⟩
      · rw [hp] at h
        simp only at h
        by_cases h20 : 20 < n + 1
        · rw [if_pos h20] at h; cases h
        · rw [if_neg h20] at h
          refine ⟨0, y, m, hp, by omega, ?_⟩
          split at h
          · rename_i hi
            exact Or.inr ⟨hi, f, h⟩
          · rename_i hi
            cases h
            exact Or.inl ⟨by simpa using hi, rfl, rfl⟩
  · rintro ⟨k, y, m, h1, h2, h3⟩
    have h20 : ¬ 20 < n + 1 := by omega
    induction k generalizing s with
    | zero =>
      simp only [After] at h1
      rcases h3 with ⟨h4, rfl, rfl⟩ | ⟨h4, f, h5⟩
      · exact ⟨1, by simp only [hstep, h1, if_neg h20, h4]; rfl⟩
      · exact ⟨f + 1, by simp only [hstep, h1, if_neg h20, h4, if_true]; exact h5⟩
    | succ k ih =>
      obtain ⟨m', h4, h5⟩ := h1
      obtain ⟨f, hf⟩ := ih h5
      exact ⟨f + 1, by simp only [hstep, h4]; exact hf⟩

theorem mutation_mono (env : SmcEnv S Θ T P K) (parallel : Bool) (tau : T) (pt : Pt Θ) (n : Nat) :
    Mono (fun f => Smc.sampleMutation env parallel tau pt f n) := by
  intro fuel
  induction fuel generalizing n with
  | zero => intro s r h; cases h
  | succ f ih =>
    intro s r h d
    have e : f + 1 + d = (f + d) + 1 := by omega
    simp only at h ⊢
    rw [e]
    simp only [Smc.sampleMutation, Run.bind_apply, Run.lift] at h ⊢
    rcases hp : env.propose tau pt.val s with ⟨_ | _ | y, m⟩
    · rw [hp] at h; exact h
    · rw [hp] at h
      exact ih n m r h d
    · rw [hp] at h
      simp only at h ⊢
      split
      · rename_i h20
        rw [if_pos h20] at h
        exact h
      · rename_i h20
        rw [if_neg h20] at h
        split
        · rename_i hi
          rw [if_pos hi] at h
          exact ih (n + 1) m r h d
        · rename_i hi
          rw [if_neg hi] at h
          exact h

/-- The law of the first of `k` draws from `κ` that is not in the bad set, if there is one. -/
noncomputable def mutLaw (κ : Measure Θ) (bad : Set Θ) (k : Nat) : Measure Θ :=
  (∑ i ∈ Finset.range k, κ bad ^ i) • κ.restrict badᶜ

/-- **C208** (proposals): `sample_mutation` returns a proposal of finite distance, drawn from the law of the proposals
that are not refused; each infinite distance, up to 20, makes it draw again. -/
theorem C208_mutation {μ : Measure S} {env : SmcEnv S Θ T P K} {parallel : Bool} {tau : T} {pt : Pt Θ}
    (hc : (parallel || !pt.cached) = true) {Q : Measure Θ} {r : ENNReal} (h : Proposes μ env tau pt.val Q r)
    (hm : MeasurableSet {y | (env.dist y).isInf = true}) :
    Draws μ (fun s y s' => ∃ d c n, Ends (fun f => Smc.sampleMutation env parallel tau pt f 0) s (d, ⟨y, c⟩, n) s')
      (mutLaw ((1 - r)⁻¹ • Q) {y | (env.dist y).isInf = true} 20) := by
  have hlaw := after_law h
  have hgen : ∀ k n, n + k = 20 → ∀ A, MeasurableSet A → Chance μ (fun s s' => ∃ y ∈ A, ∃ d c n',
      Ends (fun f => Smc.sampleMutation env parallel tau pt f n) s (d, ⟨y, c⟩, n') s')
      ((∑ i ∈ Finset.range k, ((1 - r)⁻¹ • Q) {y | (env.dist y).isInf = true} ^ i) *
        ((1 - r)⁻¹ • Q) (A ∩ {y | (env.dist y).isInf = true}ᶜ)) := by
    intro k
    induction k with
    | zero =>
      intro n hn A hA
      simp only [Finset.range_zero, Finset.sum_empty, zero_mul]
      refine Chance.never (fun s s' => ?_)
      rintro ⟨y, -, d, c, n', h1⟩
      obtain ⟨_, _, _, -, h2, -⟩ := (mutation_unfold hc).1 h1
      omega
    | succ k ih =>
      intro n hn A hA
      have h1 := hlaw _ (hA.inter hm.compl)
      have h2 := (hlaw _ hm).comp (ih (n + 1) (by omega) A hA)
      have h3 := h1.or h2 (by
        rintro s m m' ⟨y, hy, k, h4⟩ ⟨m1, ⟨y', hy', k', h5⟩, -⟩
        obtain ⟨-, rfl, -⟩ := h4.unique h5
        exact hy.2 hy')
      have e : (∑ i ∈ Finset.range (k + 1), ((1 - r)⁻¹ • Q) {y | (env.dist y).isInf = true} ^ i) *
          ((1 - r)⁻¹ • Q) (A ∩ {y | (env.dist y).isInf = true}ᶜ) =
          ((1 - r)⁻¹ • Q) (A ∩ {y | (env.dist y).isInf = true}ᶜ) + ((1 - r)⁻¹ • Q) {y | (env.dist y).isInf = true} *
          ((∑ i ∈ Finset.range k, ((1 - r)⁻¹ • Q) {y | (env.dist y).isInf = true} ^ i) *
            ((1 - r)⁻¹ • Q) (A ∩ {y | (env.dist y).isInf = true}ᶜ)) := by
        rw [Finset.sum_range_succ', pow_zero, add_mul, one_mul, add_comm, ← mul_assoc, Finset.mul_sum]
        simp only [pow_succ']
      rw [e]
      refine h3.congr (fun s s' => ?_)
      constructor
      · rintro (⟨y, hy, j, h4⟩ | ⟨m, ⟨y, hy, j, h4⟩, z, hz, d, c, n', h5⟩)
        · refine ⟨y, hy.1, env.dist y, true, n + 1, (mutation_unfold hc).2 ⟨j, y, s', h4, by omega, Or.inl ⟨?_, rfl, rfl⟩⟩⟩
          have := hy.2
          simpa using this
        · exact ⟨z, hz, d, c, n', (mutation_unfold hc).2 ⟨j, y, m, h4, by omega, Or.inr ⟨hy, h5⟩⟩⟩
      · rintro ⟨z, hz, d, c, n', h5⟩
        obtain ⟨j, y, m, h4, -, ⟨h6, h7, rfl⟩ | ⟨h6, h7⟩⟩ := (mutation_unfold hc).1 h5
        · cases h7
          refine Or.inl ⟨z, ⟨hz, ?_⟩, j, h4⟩
          simp [h6]
        · exact Or.inr ⟨m, ⟨y, h6, j, h4⟩, z, hz, d, c, n', h7⟩
  intro A hA
  rw [mutLaw, Measure.smul_apply, Measure.restrict_apply hA, smul_eq_mul]
  exact hgen 20 0 rfl A hA

theorem each_mono {α β : Type} {x : Nat → α → Run S β} (hx : ∀ a, Mono (fun f => x f a)) (l : List α) :
    Mono (fun f => Run.each (x f) l) := by
  induction l with
  | nil => exact Mono.const _
  | cons a l ih => exact (hx a).bind (fun b => ih.bind (fun bs => Mono.const _))

theorem each_law {α β γ : Type} {μ : Measure S} {x : Nat → α → Run S β} (hx : ∀ a, Mono (fun f => x f a))
    (L : List (α × γ)) (R : β → α × γ → Prop) (p : α × γ → ENNReal)
    (h : ∀ a ∈ L, Chance μ (fun s s' => ∃ b, Ends (fun f => x f a.1) s b s' ∧ R b a) (p a)) :
    Chance μ (fun s s' => ∃ bs, Ends (fun f => Run.each (x f) (L.map (·.1))) s bs s' ∧ List.Forall₂ R bs L)
      ((L.map p).prod) := by
  induction L with
  | nil =>
    refine Chance.refl.congr (fun s s' => ?_)
    constructor
    · rintro rfl; exact ⟨[], ⟨0, rfl⟩, .nil⟩
    · rintro ⟨bs, ⟨f, h1⟩, -⟩
      exact (Run.pure_ok.1 h1).2
  | cons a L ih =>
    have h1 := (h a (by simp)).comp (ih (fun b hb => h b (by simp [hb])))
    have e : ((a :: L).map p).prod = p a * (L.map p).prod := by rw [List.map_cons, List.prod_cons]
    rw [e]
    refine h1.congr (fun s s' => ?_)
    have hm : ∀ b, Mono (fun f => (do let bs ← Run.each (x f) (L.map (·.1)); return b :: bs : Run S (List β))) :=
      fun b => (each_mono hx _).bind (fun bs => Mono.const _)
    have key : ∀ bs, Ends (fun f => Run.each (x f) ((a :: L).map (·.1))) s bs s' ↔
        ∃ b m, Ends (fun f => x f a.1) s b m ∧ ∃ bs', Ends (fun f => Run.each (x f) (L.map (·.1))) m bs' s' ∧
          bs = b :: bs' := by
      intro bs
      rw [show (fun f => Run.each (x f) ((a :: L).map (·.1))) =
        (fun f => x f a.1 >>= fun b => (do let bs ← Run.each (x f) (L.map (·.1)); return b :: bs : Run S (List β)))
        from rfl, ends_bind (hx a.1) hm]
      constructor
      · rintro ⟨b, m, h2, h3⟩
        obtain ⟨bs', m', h4, f, h5⟩ := (ends_bind (g := fun _ bs => (pure (b :: bs) : Run S (List β))) (each_mono hx _) (fun bs => Mono.const _)).1 h3
        obtain ⟨rfl, rfl⟩ := Run.pure_ok.1 h5
        exact ⟨b, m, h2, bs', h4, rfl⟩
      · rintro ⟨b, m, h2, bs', h4, rfl⟩
        exact ⟨b, m, h2, (ends_bind (g := fun _ bs => (pure (b :: bs) : Run S (List β))) (each_mono hx _) (fun bs => Mono.const _)).2 ⟨bs', s', h4, 0, rfl⟩⟩
    constructor
    · rintro ⟨m, ⟨b, h2, h3⟩, bs', h4, h5⟩
      exact ⟨b :: bs', (key _).2 ⟨b, m, h2, bs', h4, rfl⟩, .cons h3 h5⟩
    · rintro ⟨bs, h2, h3⟩
      obtain ⟨b, m, h4, bs', h5, rfl⟩ := (key _).1 h2
      cases h3 with
      | cons h6 h7 => exact ⟨m, ⟨b, h4, h6⟩, bs', h5, h7⟩

theorem accept_pts (env : SmcEnv S Θ T P K) (h01 : ∀ s, 0 ≤ (env.rng.random s).1 ∧ (env.rng.random s).1 < 1)
    (eps1 : XR K) (l : List (Pt Θ × Pt Θ)) (s : S) :
    (Smc.acceptLoop env eps1 l s).1.1 = l.map (fun a => if XR.lt (env.dist a.2.val) eps1 then a.2 else a.1) := by
  induction l generalizing s with
  | nil => rfl
  | cons a l ih =>
    obtain ⟨old, new⟩ := a
    have h2 := h01 s
    have h3 := ih (env.rng.random s).2
    simp only [Smc.acceptLoop, List.map_cons]
    by_cases h : XR.lt (env.dist new.val) eps1 = true
    · rw [if_pos h, if_pos h, if_pos h2.2, ← h3]
    · rw [if_neg h, if_neg h, if_neg (not_lt.2 h2.1), ← h3]

/-- The state after `n` uniform numbers. -/
def ticks (env : SmcEnv S Θ T P K) : Nat → S → S
  | 0, s => s
  | n + 1, s => ticks env n (env.rng.random s).2

theorem accept_state (env : SmcEnv S Θ T P K) (eps1 : XR K) (l : List (Pt Θ × Pt Θ)) (s : S) :
    (Smc.acceptLoop env eps1 l s).2 = ticks env l.length s := by
  induction l generalizing s with
  | nil => rfl
  | cons a l ih =>
    obtain ⟨old, new⟩ := a
    have h2 := ih (env.rng.random s).2
    simp only [Smc.acceptLoop, List.length_cons, ticks]
    rw [← h2]
    split <;> split <;> rfl

theorem ticks_chance {μ : Measure S} (env : SmcEnv S Θ T P K)
    (hr : Chance μ (fun s s' => (env.rng.random s).2 = s') 1) (n : Nat) :
    Chance μ (fun s s' => ticks env n s = s') 1 := by
  induction n with
  | zero => exact Chance.refl
  | succ n ih =>
    have h1 := hr.comp ih
    rw [one_mul] at h1
    refine h1.congr (fun s s' => ?_)
    simp [ticks]

theorem mcmc_ends {env : SmcEnv S Θ T P K} {set : SmcSettings K} {wts : List (XR K)} {eps1 : XR K} {tau : T}
    {theta1 : List (Pt Θ)} (hlen : theta1.length = set.nIter)
    (hτ : ∀ s, (env.spread (theta1.map Pt.val) wts s).1 = .ok tau) {s s' : S} {pts : List (Pt Θ)} :
    (∃ ess acc n, Ends (fun f => Smc.mcmcProposal env set f theta1 wts eps1) s (pts, ess, acc, n) s') ↔
      ∃ bs m, Ends (fun f => Run.each (fun pt => Smc.sampleMutation env set.parallel tau pt f 0) theta1)
        (env.spread (theta1.map Pt.val) wts s).2 bs m ∧
        (Smc.acceptLoop env eps1 (theta1.zip (bs.map (·.2.1))) m).1.1 = pts ∧
        (Smc.acceptLoop env eps1 (theta1.zip (bs.map (·.2.1))) m).2 = s' := by
  have hs : env.spread (theta1.map Pt.val) wts s = (.ok tau, (env.spread (theta1.map Pt.val) wts s).2) := by
    rw [← hτ s]
  constructor
  · rintro ⟨ess, acc, n, f, h⟩
    simp only [Smc.mcmcProposal, hlen, ne_eq, not_true_eq_false, if_false] at h
    obtain ⟨tau', m1, h1, h2⟩ := Run.bind_ok.1 h
    have h3 : env.spread (theta1.map Pt.val) wts s = (.ok tau', m1) := by simpa [Run.lift] using h1
    rw [hs] at h3
    simp only [Prod.mk.injEq, Except.ok.injEq] at h3
    obtain ⟨rfl, rfl⟩ := h3
    obtain ⟨bs, m, h4, h5⟩ := Run.bind_ok.1 h2
    obtain ⟨q, m', h6, h7⟩ := Run.bind_ok.1 h5
    obtain ⟨h8, rfl⟩ := Run.pure_ok.1 h7
    simp only [Run.lift, Option.some.injEq, Prod.mk.injEq, Except.ok.injEq] at h6
    obtain ⟨rfl, rfl⟩ := h6
    simp only [Prod.mk.injEq] at h8
    exact ⟨bs, m, ⟨f, h4⟩, h8.1, rfl⟩
  · rintro ⟨bs, m, ⟨f, h4⟩, rfl, rfl⟩
    refine ⟨Smc.essOf wts, ((Smc.acceptLoop env eps1 (theta1.zip (bs.map (·.2.1))) m).1.2 : K) / (set.nIter : K),
      (bs.map (·.2.2)).sum, f, ?_⟩
    simp only [Smc.mcmcProposal, hlen, ne_eq, not_true_eq_false, if_false]
    refine Run.bind_ok.2 ⟨tau, _, by simp only [Run.lift]; rw [hs], Run.bind_ok.2 ⟨bs, m, h4, Run.bind_ok.2 ⟨_, _, rfl, rfl⟩⟩⟩

/-- The law of a particle after a move from `x`: a proposal below the tolerance replaces it, and otherwise it stays. -/
noncomputable def moveLaw (κ : Measure Θ) (close : Set Θ) (x : Θ) (A : Set Θ) : ENNReal :=
  κ (A ∩ close) + Set.indicator A (fun _ => κ closeᶜ) x

/-- **C208** (moves): given the population, `mcmc_proposal` moves the particles independently: each draws a proposal
that is not refused and of finite distance, takes it if its distance is below the tolerance, and stays otherwise. -/
theorem C208_law {μ : Measure S} {env : SmcEnv S Θ T P K} {set : SmcSettings K} {wts : List (XR K)} {eps1 : XR K}
    {tau : T} (Q : Θ → Measure Θ) (r : Θ → ENNReal) (L : List (Pt Θ × Set Θ)) (hlen : L.length = set.nIter)
    (hc : ∀ a ∈ L, (set.parallel || !a.1.cached) = true)
    (hτ : ∀ s, (env.spread (L.map (·.1.val)) wts s).1 = .ok tau)
    (hτ' : Chance μ (fun s s' => (env.spread (L.map (·.1.val)) wts s).2 = s') 1)
    (hq : ∀ a ∈ L, Proposes μ env tau a.1.val (Q a.1.val) (r a.1.val))
    (hm : MeasurableSet {y | (env.dist y).isInf = true}) (hc' : MeasurableSet {y | XR.lt (env.dist y) eps1 = true})
    (hA : ∀ a ∈ L, MeasurableSet a.2) (h01 : ∀ s, 0 ≤ (env.rng.random s).1 ∧ (env.rng.random s).1 < 1)
    (hr : Chance μ (fun s s' => (env.rng.random s).2 = s') 1) :
    Chance μ (fun s s' => ∃ pts ess acc n, Ends (fun f => Smc.mcmcProposal env set f (L.map (·.1)) wts eps1) s
        (pts, ess, acc, n) s' ∧ List.Forall₂ (fun p a => p.val ∈ a.2) pts L)
      ((L.map (fun a => moveLaw (mutLaw ((1 - r a.1.val)⁻¹ • Q a.1.val) {y | (env.dist y).isInf = true} 20)
        {y | XR.lt (env.dist y) eps1 = true} a.1.val a.2)).prod) := by
  -- what a mutation must give for its particle to end in the set
  let R : XR K × Pt Θ × Nat → Pt Θ × Set Θ → Prop := fun b a =>
    (if XR.lt (env.dist b.2.1.val) eps1 then b.2.1 else a.1).val ∈ a.2
  have h1 : ∀ a ∈ L, Chance μ (fun s s' => ∃ b, Ends (fun f => Smc.sampleMutation env set.parallel tau a.1 f 0) s b s' ∧
      R b a) (moveLaw (mutLaw ((1 - r a.1.val)⁻¹ • Q a.1.val) {y | (env.dist y).isInf = true} 20)
        {y | XR.lt (env.dist y) eps1 = true} a.1.val a.2) := by
    intro a ha
    have hd := C208_mutation (hc a ha) (hq a ha) hm
    have h2 := hd _ ((hA a ha).inter hc')
    have hin : ∀ s s', (∃ b, Ends (fun f => Smc.sampleMutation env set.parallel tau a.1 f 0) s b s' ∧ R b a) ↔
        (∃ y ∈ a.2 ∩ {y | XR.lt (env.dist y) eps1 = true}, ∃ d c n,
          Ends (fun f => Smc.sampleMutation env set.parallel tau a.1 f 0) s (d, ⟨y, c⟩, n) s') ∨
        (a.1.val ∈ a.2 ∧ ∃ y ∈ {y | XR.lt (env.dist y) eps1 = true}ᶜ, ∃ d c n,
          Ends (fun f => Smc.sampleMutation env set.parallel tau a.1 f 0) s (d, ⟨y, c⟩, n) s') := by
      intro s s'
      constructor
      · rintro ⟨⟨d, ⟨y, c⟩, n⟩, h3, h4⟩
        by_cases h5 : XR.lt (env.dist y) eps1 = true
        · simp only [R, h5, if_true] at h4
          exact Or.inl ⟨y, ⟨h4, h5⟩, d, c, n, h3⟩
        · simp only [R, h5] at h4
          exact Or.inr ⟨h4, y, h5, d, c, n, h3⟩
      · rintro (⟨y, h4, d, c, n, h3⟩ | ⟨h5, y, h4, d, c, n, h3⟩)
        · refine ⟨_, h3, ?_⟩
          have h6 : XR.lt (env.dist y) eps1 = true := h4.2
          simp only [R, h6, if_true]
          exact h4.1
        · refine ⟨_, h3, ?_⟩
          have h6 : ¬ XR.lt (env.dist y) eps1 = true := h4
          simp only [R, h6]
          exact h5
    by_cases hx : a.1.val ∈ a.2
    · have h3 := h2.or (hd _ hc'.compl) (by
        rintro s m m' ⟨y, hy, d, c, n, h4⟩ ⟨y', hy', d', c', n', h5⟩
        have h6 := (mutation_mono env set.parallel tau a.1 0).ends h4 h5
        simp only [Prod.mk.injEq, Pt.mk.injEq] at h6
        obtain ⟨⟨-, ⟨rfl, -⟩, -⟩, -⟩ := h6
        exact hy' hy.2)
      rw [moveLaw, Set.indicator_of_mem hx]
      refine h3.congr (fun s s' => ?_)
      rw [hin]
      simp only [hx, true_and]
    · rw [moveLaw, Set.indicator_of_notMem hx, add_zero]
      refine h2.congr (fun s s' => ?_)
      rw [hin]
      simp only [hx, false_and, or_false]
  have h2 := each_law (mutation_mono env set.parallel tau · 0) L R _ h1
  have h3 := hτ'.comp (h2.comp (ticks_chance env hr L.length))
  rw [one_mul, mul_one] at h3
  have e : (L.map (·.1)).map Pt.val = L.map (·.1.val) := by rw [List.map_map]; rfl
  refine h3.congr (fun s s' => ?_)
  have hR : ∀ bs : List (XR K × Pt Θ × Nat), List.Forall₂ R bs L ↔ bs.length = L.length ∧
      List.Forall₂ (fun p a => p.val ∈ a.2) (((L.map (·.1)).zip (bs.map (·.2.1))).map
        (fun a => if XR.lt (env.dist a.2.val) eps1 then a.2 else a.1)) L := by
    intro bs
    clear hlen hc hτ hτ' hq hA h1 h2 h3 e
    induction L generalizing bs with
    | nil => cases bs <;> simp
    | cons a L ih =>
      cases bs with
      | nil => simp
      | cons b bs =>
        simp only [List.map_cons, List.zip_cons_cons, List.forall₂_cons, List.length_cons, add_left_inj, ih bs, R]
        tauto
  constructor
  · rintro ⟨m, rfl, m', ⟨bs, h4, h5⟩, rfl⟩
    have h6 := (hR bs).1 h5
    obtain ⟨ess, acc, n, h7⟩ := (mcmc_ends (eps1 := eps1) (theta1 := L.map (·.1)) (set := set) (by simpa using hlen) (by rw [e]; exact hτ)).2
      ⟨bs, m', by rw [e]; exact h4, rfl, rfl⟩
    refine ⟨(Smc.acceptLoop env eps1 ((L.map (·.1)).zip (bs.map (·.2.1))) m').1.1, ess, acc, n, ?_, ?_⟩
    · rw [accept_state] at h7
      simpa [h6.1] using h7
    · rw [accept_pts env h01]
      exact h6.2
  · rintro ⟨pts, ess, acc, n, h4, h5⟩
    obtain ⟨bs, m, h6, rfl, rfl⟩ := (mcmc_ends (eps1 := eps1) (theta1 := L.map (·.1)) (set := set) (by simpa using hlen)
      (by rw [e]; exact hτ)).1 ⟨ess, acc, n, h4⟩
    rw [e] at h6
    have hl : bs.length = L.length := by
      obtain ⟨f, h7⟩ := h6
      have := (Run.each_ok h7).length_eq
      simpa using this.symm
    refine ⟨_, rfl, m, ⟨bs, h6, (hR bs).2 ⟨hl, ?_⟩⟩, ?_⟩
    · rw [accept_pts env h01] at h5
      exact h5
    · rw [accept_state]
      simp [hl]

/-! ## What the moves leave as it is -/

theorem mutLaw_finite {κ : Measure Θ} {bad : Set Θ} (h : bad = ∅) (k : Nat) : mutLaw κ bad (k + 1) = κ := by
  subst h
  rw [mutLaw, measure_empty, Finset.sum_range_succ']
  simp

/-- **C208** (what the moves leave as it is): when the proposals are reversible for a measure `P`, the moves leave `P`
invariant, restricted to the particles below the tolerance, if it is weighted with the chances that a proposal from
there is not refused. -/
theorem C208_actual {P' : Measure Θ} {dist : Θ → XR K} {eps1 : XR K} {Q : Θ → Measure Θ} {r : Θ → ENNReal}
    (hQ : ∀ B, MeasurableSet B → Measurable (fun x => Q x B)) (hall : ∀ x, Q x Set.univ + r x = 1) (hr : ∀ x, r x ≠ 1)
    (hrev : ∀ A B, MeasurableSet A → MeasurableSet B → ∫⁻ x in A, Q x B ∂P' = ∫⁻ x in B, Q x A ∂P')
    (hfin : ∀ y, (dist y).isInf = false) (hc : MeasurableSet {y | XR.lt (dist y) eps1 = true}) {A : Set Θ}
    (hA : MeasurableSet A) :
    ∫⁻ x in {y | XR.lt (dist y) eps1 = true}, (1 - r x) *
        moveLaw (mutLaw ((1 - r x)⁻¹ • Q x) {y | (dist y).isInf = true} 20) {y | XR.lt (dist y) eps1 = true} x A ∂P' =
      ∫⁻ x in A ∩ {y | XR.lt (dist y) eps1 = true}, (1 - r x) ∂P' := by
  have hbad : {y | (dist y).isInf = true} = ∅ := by
    ext y
    simp [hfin y]
  generalize {y | XR.lt (dist y) eps1 = true} = close at hc ⊢
  have hle : ∀ x, r x ≤ 1 := fun x => by rw [← hall x]; exact le_add_self
  have h0 : ∀ x, 1 - r x ≠ 0 := fun x h => hr x (le_antisymm (hle x) (tsub_eq_zero_iff_le.1 h))
  have ht : ∀ x, 1 - r x ≠ ⊤ := fun x => ne_top_of_le_ne_top ENNReal.one_ne_top tsub_le_self
  have hu : ∀ x, Q x Set.univ = 1 - r x := fun x =>
    ENNReal.eq_sub_of_add_eq (ne_top_of_le_ne_top ENNReal.one_ne_top (hle x)) (hall x)
  have hint : ∀ x, (1 - r x) * moveLaw (mutLaw ((1 - r x)⁻¹ • Q x) {y | (dist y).isInf = true} 20) close x A =
      Q x (A ∩ close) + A.indicator (fun x => Q x closeᶜ) x := by
    intro x
    rw [mutLaw_finite hbad, moveLaw, mul_add]
    congr 1
    · rw [Measure.smul_apply, smul_eq_mul, ← mul_assoc, ENNReal.mul_inv_cancel (h0 x) (ht x), one_mul]
    · by_cases hx : x ∈ A
      · rw [Set.indicator_of_mem hx, Set.indicator_of_mem hx, Measure.smul_apply, smul_eq_mul, ← mul_assoc,
          ENNReal.mul_inv_cancel (h0 x) (ht x), one_mul]
      · rw [Set.indicator_of_notMem hx, Set.indicator_of_notMem hx, mul_zero]
  simp only [hint]
  rw [lintegral_add_left (hQ _ (hA.inter hc)), lintegral_indicator hA, Measure.restrict_restrict hA,
    hrev _ _ hc (hA.inter hc), ← lintegral_add_left (hQ _ hc)]
  refine lintegral_congr (fun x => ?_)
  rw [measure_add_measure_compl hc, hu]

/-- **C208** (partial): the moves leave the prior below the tolerance as it is when no proposal is refused, the
proposals are reversible for the prior, and distances are finite. -/
theorem C208_partial {P' : Measure Θ} {dist : Θ → XR K} {eps1 : XR K} {Q : Θ → Measure Θ}
    (hQ : ∀ B, MeasurableSet B → Measurable (fun x => Q x B)) (hall : ∀ x, Q x Set.univ = 1)
    (hrev : ∀ A B, MeasurableSet A → MeasurableSet B → ∫⁻ x in A, Q x B ∂P' = ∫⁻ x in B, Q x A ∂P')
    (hfin : ∀ y, (dist y).isInf = false) (hc : MeasurableSet {y | XR.lt (dist y) eps1 = true}) {A : Set Θ}
    (hA : MeasurableSet A) :
    ∫⁻ x in {y | XR.lt (dist y) eps1 = true},
        moveLaw (mutLaw ((1 - 0 : ENNReal)⁻¹ • Q x) {y | (dist y).isInf = true} 20) {y | XR.lt (dist y) eps1 = true} x A ∂P' =
      P' (A ∩ {y | XR.lt (dist y) eps1 = true}) := by
  have h := C208_actual (r := fun _ => 0) hQ (fun x => by rw [hall, add_zero]) (fun x => by simp) hrev hfin hc hA
  simp only [tsub_zero, one_mul, lintegral_const, Measure.restrict_apply MeasurableSet.univ, Set.univ_inter] at h ⊢
  exact h

/-! ## A walk on three points -/

/-- Weights of the three points, and the chance of a refusal. -/
structure Row where
  a : ℝ
  b : ℝ
  c : ℝ
  d : ℝ

/-- The weights are probabilities. -/
structure Row.Ok (w : Row) : Prop where
  a : 0 ≤ w.a
  b : 0 ≤ w.b
  c : 0 ≤ w.c
  d : 0 ≤ w.d
  sum : w.a + (w.b + (w.c + w.d)) = 1

/-- The law on the three points. -/
noncomputable def Row.law (w : Row) : Measure ℕ :=
  ENNReal.ofReal w.a • Measure.dirac 0 + ENNReal.ofReal w.b • Measure.dirac 1 + ENNReal.ofReal w.c • Measure.dirac 2

/-- A number from 0 to 3. -/
noncomputable def Row.pick (w : Row) (s : ℝ) : ℕ × ℝ := pickOne [w.a, w.b, w.c, w.d] 0 s

/-- A study of three points, all at distance 0, where the prior and the proposals are drawn with given chances. -/
noncomputable def walk (w : Row) (q : ℕ → Row) : SmcEnv ℝ ℕ Unit Unit ℝ where
  prior := fun s => (.ok (w.pick s).1, (w.pick s).2)
  dist := fun _ => .fin 0
  flatten := fun _ s => (.ok (), s)
  rng := { random := fun s => (0, s), pick := rand01.pick }
  priorFrom := fun _ s => (.ok (w.pick s).1, (w.pick s).2)
  propose := fun _ x s => (.ok (if ((q x).pick s).1 < 3 then some ((q x).pick s).1 else none), ((q x).pick s).2)
  spread := fun _ _ s => (.ok (), s)

theorem Row.chance {w : Row} (h : w.Ok) (A : Set ℕ) : Chance uniform01 (fun s s' => (w.pick s).1 ∈ A ∧ (w.pick s).2 = s')
    (w.law A + Set.indicator A (fun _ => ENNReal.ofReal w.d) 3) := by
  have h1 := pickOne_chance (ps := [w.a, w.b, w.c, w.d]) (by simp [h.a, h.b, h.c, h.d])
    (by simpa using h.sum) A
  have e : w.law A + Set.indicator A (fun _ => ENNReal.ofReal w.d) 3 =
      mass (indexed ([w.a, w.b, w.c, w.d].map XR.fin)) A := by
    classical
    simp only [Row.law, mass, indexed, Measure.add_apply, Measure.smul_apply, smul_eq_mul,
      Measure.dirac_apply, Set.indicator_apply, prob, List.length_map, List.length_cons, List.length_nil, List.map_cons,
      List.map_nil, List.range, List.range.loop, List.zip_cons_cons, List.zip_nil_right, List.sum_cons, List.sum_nil,
      Pi.one_apply, mul_ite, mul_one, mul_zero, add_zero, zero_add, Nat.reduceAdd]
    ring
  rw [e]
  exact h1

theorem walk_proposes {w : Row} {q : ℕ → Row} (hq : ∀ x, (q x).Ok) (x : ℕ) :
    Proposes uniform01 (walk w q) () x (q x).law (ENNReal.ofReal (q x).d) where
  some := by
    intro A _
    have h := Row.chance (hq x) (A ∩ Set.Iio 3)
    have e : (q x).law (A ∩ Set.Iio 3) = (q x).law A := by
      classical
      simp [Row.law, Set.indicator_apply]
    rw [e, Set.indicator_of_notMem (by simp), add_zero] at h
    refine h.congr (fun s s' => ?_)
    simp only [walk, Set.mem_inter_iff, Set.mem_Iio, Prod.mk.injEq, Except.ok.injEq]
    constructor
    · rintro ⟨⟨h1, h2⟩, h3⟩
      exact ⟨_, h1, if_pos h2, h3⟩
    · rintro ⟨y, h1, h2, h3⟩
      split at h2
      · cases h2
        exact ⟨⟨h1, by assumption⟩, h3⟩
      · cases h2
  none := by
    have h := Row.chance (hq x) (Set.Ici 3)
    have e : (q x).law (Set.Ici 3) = 0 := by
      simp [Row.law]
    rw [e, Set.indicator_of_mem (by simp), zero_add] at h
    refine h.congr (fun s s' => ?_)
    simp only [walk, Set.mem_Ici, Prod.mk.injEq, Except.ok.injEq]
    constructor
    · rintro ⟨h1, h2⟩
      exact ⟨if_neg (by omega), h2⟩
    · rintro ⟨h1, h2⟩
      refine ⟨?_, h2⟩
      by_contra h3
      rw [if_pos (by omega)] at h1
      cases h1
  all := by
    have h := hq x
    rw [Row.law]
    simp only [Measure.add_apply, Measure.smul_apply, measure_univ, smul_eq_mul, mul_one]
    rw [← ENNReal.ofReal_add h.a h.b, ← ENNReal.ofReal_add (add_nonneg h.a h.b) h.c,
      ← ENNReal.ofReal_add (add_nonneg (add_nonneg h.a h.b) h.c) h.d]
    have := h.sum
    rw [show (q x).a + (q x).b + (q x).c + (q x).d = 1 by linarith, ENNReal.ofReal_one]

/-- The settings of a run with one particle. -/
noncomputable def one : SmcSettings ℝ := ⟨1, false, 1 / 2, 1 / 2, 10, 10, 0⟩

/-- The event: the prior draws a particle, and a move takes it to `y`. -/
def Lands (env : SmcEnv ℝ ℕ Unit Unit ℝ) (y : ℕ) (s s' : ℝ) : Prop :=
  ∃ x m, env.prior s = (.ok x, m) ∧ ∃ pts ess acc n,
    Ends (fun f => Smc.mcmcProposal env one f [⟨x, false⟩] (Smc.uniformWts 1) (.fin 1)) m (pts, ess, acc, n) s' ∧
      pts.map Pt.val = [y]

theorem walk_lands {w : Row} {q : ℕ → Row} (hw : w.Ok) (hd : w.d = 0) (hq : ∀ x, (q x).Ok) (y : ℕ) :
    Chance uniform01 (Lands (walk w q) y) (∑ x ∈ Finset.range 3,
      w.law {x} * ((1 - ENNReal.ofReal (q x).d)⁻¹ * (q x).law {y})) := by
  have hmove : ∀ x, Chance uniform01 (fun s s' => ∃ pts ess acc n,
      Ends (fun f => Smc.mcmcProposal (walk w q) one f [⟨x, false⟩] (Smc.uniformWts 1) (.fin 1)) s (pts, ess, acc, n) s' ∧
        pts.map Pt.val = [y]) ((1 - ENNReal.ofReal (q x).d)⁻¹ * (q x).law {y}) := by
    intro x
    have h := C208_law (env := walk w q) (set := one) (wts := Smc.uniformWts 1) (eps1 := .fin 1) (tau := ())
      (fun x => (q x).law) (fun x => ENNReal.ofReal (q x).d) [(⟨x, false⟩, {y})] rfl (by simp [one])
      (fun s => rfl) Chance.refl (fun a _ => walk_proposes hq a.1.val) MeasurableSet.of_discrete MeasurableSet.of_discrete
      (fun a _ => MeasurableSet.of_discrete) (fun s => ⟨le_rfl, zero_lt_one⟩) Chance.refl
    have hbad : {z : ℕ | ((walk w q).dist z).isInf = true} = ∅ := by
      ext z; simp [walk, XR.isInf]
    have hclose : {z : ℕ | XR.lt ((walk w q).dist z) (.fin 1) = true} = Set.univ := by
      ext z; simp [walk, XR.lt]
    rw [hbad, hclose] at h
    simp only [List.map_cons, List.map_nil, List.prod_cons, List.prod_nil, mul_one, mutLaw_finite rfl, moveLaw,
      Set.inter_univ, Set.compl_univ, measure_empty, Set.indicator_zero, add_zero, Measure.smul_apply, smul_eq_mul] at h
    refine h.congr (fun s s' => ?_)
    constructor
    · rintro ⟨pts, ess, acc, n, h1, h2⟩
      refine ⟨pts, ess, acc, n, h1, ?_⟩
      cases h2 with
      | cons h3 h4 => cases h4; rw [List.map_cons, List.map_nil]; exact congrArg (fun z => [z]) h3
    · rintro ⟨pts, ess, acc, n, h1, h2⟩
      refine ⟨pts, ess, acc, n, h1, ?_⟩
      obtain ⟨p, rfl, h3⟩ : ∃ p, pts = [p] ∧ p.val = y := by
        rcases pts with _ | ⟨p, _ | _⟩
        · simp at h2
        · exact ⟨p, rfl, by simpa using h2⟩
        · simp at h2
      exact .cons h3 .nil
  have hpr : ∀ x, Chance uniform01 (fun s s' => (walk w q).prior s = (.ok x, s')) (w.law {x}) := by
    intro x
    have h := Row.chance hw {x}
    rw [hd, ENNReal.ofReal_zero, Set.indicator_zero, add_zero] at h
    refine h.congr (fun s s' => ?_)
    simp [walk]
  have h := Props.Laws.chance_exists (fun x => (hpr x).comp (hmove x)) (by
    rintro j k s m m' ⟨m1, h1, -⟩ ⟨m2, h2, -⟩
    rw [h1] at h2
    simp only [Prod.mk.injEq, Except.ok.injEq] at h2
    exact h2.1)
  rw [tsum_eq_sum (s := Finset.range 3)] at h
  · exact h
  · intro x hx
    have : w.law {x} = 0 := by
      simp only [Finset.mem_range, not_lt] at hx
      simp only [Row.law, Measure.add_apply, Measure.smul_apply, smul_eq_mul, Measure.dirac_apply]
      rw [Set.indicator_of_notMem, Set.indicator_of_notMem, Set.indicator_of_notMem] <;> simp <;> omega
    rw [this, zero_mul]

theorem Row.point (w : Row) (y : ℕ) :
    w.law {y} = ENNReal.ofReal (if y = 0 then w.a else if y = 1 then w.b else if y = 2 then w.c else 0) := by
  simp only [Row.law, Measure.add_apply, Measure.smul_apply, smul_eq_mul, Measure.dirac_apply, Set.indicator_apply,
    Set.mem_singleton_iff, Pi.one_apply]
  rcases y with _ | _ | _ | y
  · simp
  · simp
  · simp
  · simp

theorem Row.integral (w : Row) (A : Set ℕ) (f : ℕ → ENNReal) : ∫⁻ x in A, f x ∂w.law =
    ENNReal.ofReal w.a * (Set.indicator A 1 0 * f 0) + ENNReal.ofReal w.b * (Set.indicator A 1 1 * f 1) +
      ENNReal.ofReal w.c * (Set.indicator A 1 2 * f 2) := by
  classical
  rw [← lintegral_indicator MeasurableSet.of_discrete, Row.law, lintegral_add_measure, lintegral_add_measure,
    lintegral_smul_measure, lintegral_smul_measure, lintegral_smul_measure, lintegral_dirac, lintegral_dirac,
    lintegral_dirac]
  simp only [smul_eq_mul, Set.indicator_apply, Pi.one_apply, ite_mul, one_mul, zero_mul]

/-- The same chances for all three points. -/
noncomputable def third : Row := ⟨1 / 3, 1 / 3, 1 / 3, 0⟩

/-- Half of the chance on the first point. -/
noncomputable def half : Row := ⟨1 / 2, 1 / 4, 1 / 4, 0⟩

/-- Steps up or down by one, refused when they leave the three points. -/
noncomputable def steps (x : ℕ) : Row := if x = 1 then ⟨1 / 2, 0, 1 / 2, 0⟩ else ⟨0, 1 / 2, 0, 1 / 2⟩

theorem third_ok : third.Ok := by constructor <;> norm_num [third]
theorem half_ok : half.Ok := by constructor <;> norm_num [half]
theorem steps_ok (x : ℕ) : (steps x).Ok := by
  unfold steps
  split <;> constructor <;> norm_num

/-- **C208** (refuted): the moves do not leave the prior as it is, although the proposals are symmetric and everything is
below the tolerance.  First, when proposals outside the prior are drawn again: from the same chances of three points,
steps up or down by one take two thirds to the middle.  Second, when none is refused: a point of prior chance one half
is left with one third. -/
theorem C208_refuted :
    (∃ (w : Row) (q : ℕ → Row), w.Ok ∧ (∀ x, (q x).Ok) ∧
      (∀ x < 3, ∀ y < 3, (q x).law {y} = (q y).law {x}) ∧ (∀ x < 3, ∀ y < 3, w.law {x} = w.law {y}) ∧
      w.law {1} = 1 / 3 ∧ Chance uniform01 (Lands (walk w q) 1) (2 / 3)) ∧
    (∃ (w : Row) (q : ℕ → Row), w.Ok ∧ (∀ x, (q x).Ok ∧ (q x).d = 0) ∧
      (∀ x < 3, ∀ y < 3, (q x).law {y} = (q y).law {x}) ∧
      w.law {0} = 1 / 2 ∧ Chance uniform01 (Lands (walk w q) 0) (1 / 3)) := by
  have hinv : ∀ d : ℝ, 0 ≤ d → d < 1 → (1 - ENNReal.ofReal d)⁻¹ = ENNReal.ofReal (1 - d)⁻¹ := by
    intro d h0 h1
    rw [ENNReal.ofReal_inv_of_pos (by linarith), ENNReal.ofReal_sub _ h0, ENNReal.ofReal_one]
  have hdiv : ∀ n : ℕ, ENNReal.ofReal (n / 3) = n / 3 := by
    intro n
    rw [ENNReal.ofReal_div_of_pos (by norm_num)]; simp
  have h2 : 2 * ENNReal.ofReal (1 / 2) = 1 := by
    rw [show (2 : ENNReal) = ENNReal.ofReal 2 by simp, ← ENNReal.ofReal_mul (by norm_num)]
    norm_num
  constructor
  · refine ⟨third, steps, third_ok, steps_ok, ?_, ?_, ?_, ?_⟩
    · intro x hx y hy
      rw [Row.point, Row.point]
      interval_cases x <;> interval_cases y <;> simp [steps]
    · intro x hx y hy
      rw [Row.point, Row.point]
      interval_cases x <;> interval_cases y <;> simp [third]
    · rw [Row.point]; simp [third]
    · have h := walk_lands third_ok rfl steps_ok 1
      have e : (∑ x ∈ Finset.range 3, third.law {x} *
          ((1 - ENNReal.ofReal (steps x).d)⁻¹ * (steps x).law {1})) = 2 / 3 := by
        simp only [Finset.sum_range_succ, Finset.sum_range_zero, Row.point]
        rw [hinv _ (steps_ok 0).d (by norm_num [steps]), hinv _ (steps_ok 1).d (by norm_num [steps]),
          hinv _ (steps_ok 2).d (by norm_num [steps])]
        simp only [third, steps]
        norm_num
        rw [h2, mul_one, ← ENNReal.ofReal_add (by norm_num) (by norm_num),
          show (1 / 3 + 1 / 3 : ℝ) = (2 : ℕ) / 3 by norm_num, hdiv]
        norm_num
      rw [e] at h
      exact h
  · refine ⟨half, fun _ => third, half_ok, fun x => ⟨third_ok, rfl⟩, ?_, ?_, ?_⟩
    · intro x hx y hy
      rw [Row.point, Row.point]
      interval_cases x <;> interval_cases y <;> simp [third]
    · rw [Row.point]; simp [half]
    · have h := walk_lands (q := fun _ => third) half_ok rfl (fun _ => third_ok) 0
      have e : (∑ x ∈ Finset.range 3, half.law {x} *
          ((1 - ENNReal.ofReal third.d)⁻¹ * third.law {0})) = 1 / 3 := by
        simp only [Finset.sum_range_succ, Finset.sum_range_zero, Row.point]
        rw [hinv _ third_ok.d (by norm_num [third])]
        simp only [third, half]
        norm_num
        rw [← add_mul, ← add_mul]
        rw [← ENNReal.ofReal_add (by norm_num) (by norm_num), ← ENNReal.ofReal_add (by norm_num) (by norm_num),
          ← ENNReal.ofReal_mul (by norm_num), show ((1 / 2 + 1 / 4 + 1 / 4) * (1 / 3) : ℝ) = (1 : ℕ) / 3 by norm_num, hdiv]
        norm_num
      rw [e] at h
      exact h

/-- The steps are reversible for equal chances, so the moves leave the weights 1/2, 1, 1/2 as they are. -/
example (A : Set ℕ) : ∫⁻ x in {y | XR.lt ((walk third steps).dist y) (.fin 1) = true},
      (1 - ENNReal.ofReal (steps x).d) * moveLaw (mutLaw ((1 - ENNReal.ofReal (steps x).d)⁻¹ • (steps x).law)
        {y | ((walk third steps).dist y).isInf = true} 20) {y | XR.lt ((walk third steps).dist y) (.fin 1) = true} x A
        ∂third.law =
    ∫⁻ x in A ∩ {y | XR.lt ((walk third steps).dist y) (.fin 1) = true}, (1 - ENNReal.ofReal (steps x).d) ∂third.law := by
  refine C208_actual (fun B _ => measurable_of_countable _) (fun x => (walk_proposes (w := third) steps_ok x).all)
    (fun x => ?_) (fun A B _ _ => ?_) (fun y => rfl) MeasurableSet.of_discrete MeasurableSet.of_discrete
  · unfold steps
    split <;> simp
  · rw [Row.integral, Row.integral]
    have h0 : ∀ B, (steps 0).law B = ENNReal.ofReal (1 / 2) * Set.indicator B 1 1 := by intro B; simp [Row.law, steps]
    have h1 : ∀ B, (steps 1).law B =
        ENNReal.ofReal (1 / 2) * Set.indicator B 1 0 + ENNReal.ofReal (1 / 2) * Set.indicator B 1 2 := by
      intro B; simp [Row.law, steps]
    have h2 : ∀ B, (steps 2).law B = ENNReal.ofReal (1 / 2) * Set.indicator B 1 1 := by intro B; simp [Row.law, steps]
    rw [h0, h1, h2, h0, h1, h2]
    simp only [third]
    ring

/-- Independent proposals from the prior itself are reversible. -/
example (A : Set ℕ) : ∫⁻ x in {y | XR.lt ((walk half (fun _ => half)).dist y) (.fin 1) = true},
      moveLaw (mutLaw ((1 - 0 : ENNReal)⁻¹ • half.law) {y | ((walk half (fun _ => half)).dist y).isInf = true} 20)
        {y | XR.lt ((walk half (fun _ => half)).dist y) (.fin 1) = true} x A ∂half.law =
    half.law (A ∩ {y | XR.lt ((walk half (fun _ => half)).dist y) (.fin 1) = true}) := by
  refine C208_partial (Q := fun _ => half.law) (fun B _ => measurable_const) (fun x => ?_) (fun A B _ _ => ?_)
    (fun y => rfl) MeasurableSet.of_discrete MeasurableSet.of_discrete
  · have h := (walk_proposes (w := half) (q := fun _ => half) (fun _ => half_ok) 0).all
    simpa [half] using h
  · simp only [lintegral_const, Measure.restrict_apply MeasurableSet.univ, Set.univ_inter]
    exact mul_comm _ _

end Props.LawsSmc
