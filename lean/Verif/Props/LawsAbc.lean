import Verif.Lemmas.Chance
import Verif.Model.Abc
import Mathlib.Probability.ConditionalProbability

/-!
# The law of what rejection ABC accepts: C201, C202

The prior draws from the law `P` in the sense of `Spec.Draws`: independently of the state it leaves behind.  Particles
may be continuous.
-/

namespace Props.LawsAbc

set_option linter.unusedSectionVars false

open Py Spec Model MeasureTheory ProbabilityTheory

variable {S Θ K : Type} [Field K] [LinearOrder K] [FloorSemiring K] [MeasurableSpace S] [MeasurableSpace Θ]

/-- The program ends with `a` in the state `s'` for some amount of fuel. -/
def Ends {α : Type} (x : Nat → Run S α) (s : S) (a : α) (s' : S) : Prop := ∃ fuel, x fuel s = some (.ok a, s')

/-- More fuel does not change what has ended. -/
def Mono {α : Type} (x : Nat → Run S α) : Prop := ∀ fuel s r, x fuel s = some r → ∀ d, x (fuel + d) s = some r

theorem Mono.ends {α : Type} {x : Nat → Run S α} (h : Mono x) {s : S} {a b : α} {m m' : S} (h1 : Ends x s a m)
    (h2 : Ends x s b m') : a = b ∧ m = m' := by
  obtain ⟨f, h1⟩ := h1
  obtain ⟨g, h2⟩ := h2
  have h3 := h f s _ h1 g
  have h4 := h g s _ h2 f
  rw [Nat.add_comm, h3] at h4
  simpa using h4

theorem Mono.bind {α β : Type} {x : Nat → Run S α} {g : Nat → α → Run S β} (h : Mono x)
    (hg : ∀ a, Mono (fun f => g f a)) : Mono (fun f => x f >>= g f) := by
  intro fuel s r h1 d
  simp only [Run.bind_apply] at h1 ⊢
  rcases hx : x fuel s with _ | ⟨_ | a, s1⟩
  · rw [hx] at h1; cases h1
  · rw [hx] at h1
    rw [h fuel s _ hx d]
    exact h1
  · rw [hx] at h1
    rw [h fuel s _ hx d]
    exact hg a fuel s1 r h1 d

theorem Mono.const {α : Type} (x : Run S α) : Mono (fun _ => x) := fun _ _ _ h _ => h

theorem ends_bind {α β : Type} {x : Nat → Run S α} {g : Nat → α → Run S β} (h : Mono x)
    (hg : ∀ a, Mono (fun f => g f a)) {s s' : S} {b : β} :
    Ends (fun f => x f >>= g f) s b s' ↔ ∃ a m, Ends x s a m ∧ Ends (fun f => g f a) m b s' := by
  constructor
  · rintro ⟨f, h1⟩
    obtain ⟨a, m, h2, h3⟩ := Run.bind_ok.1 h1
    exact ⟨a, m, ⟨f, h2⟩, ⟨f, h3⟩⟩
  · rintro ⟨a, m, ⟨f, h2⟩, ⟨f', h3⟩⟩
    refine ⟨f + f', Run.bind_ok.2 ⟨a, m, h f s _ h2 f', ?_⟩⟩
    have := hg a f' m _ h3 f
    rw [Nat.add_comm] at this
    exact this

/-! ## A loop that draws until a draw is not bad -/

/-- The loop: draws until a draw is not bad, counting the draws. -/
structure Rejects (prior : S → Result Θ × S) (dist : Θ → XR K) (bad : Θ → Bool)
    (L : Nat → Nat → Run S (XR K × Θ × Nat)) : Prop where
  zero : ∀ n s, L 0 n s = none
  succ : ∀ f n s, L (f + 1) n s = match prior s with
    | (.error e, s') => some (.error e, s')
    | (.ok x, s') => if bad x then L f (n + 1) s' else some (.ok (dist x, x, n + 1), s')

section Loop
variable {prior : S → Result Θ × S} {dist : Θ → XR K} {bad : Θ → Bool} {L : Nat → Nat → Run S (XR K × Θ × Nat)}

theorem Rejects.mono (hL : Rejects prior dist bad L) (n : Nat) : Mono (fun f => L f n) := by
  intro fuel
  induction fuel generalizing n with
  | zero => intro s r h; simp only [hL.zero] at h; cases h
  | succ f ih =>
    intro s r h d
    have e : f + 1 + d = (f + d) + 1 := by omega
    simp only at h ⊢
    rw [e, hL.succ]
    rw [hL.succ] at h
    rcases hp : prior s with ⟨_ | x, s1⟩
    · rw [hp] at h; exact h
    · rw [hp] at h
      simp only at h ⊢
      split
      · rename_i hb
        rw [if_pos hb] at h
        exact ih (n + 1) s1 r h d
      · rename_i hb
        rw [if_neg hb] at h
        exact h

theorem Rejects.result (hL : Rejects prior dist bad L) {n : Nat} {s s' : S} {di : XR K} {x : Θ} {k : Nat}
    (h : Ends (fun f => L f n) s (di, x, k) s') : n < k ∧ di = dist x ∧ bad x = false := by
  obtain ⟨f, h⟩ := h
  induction f generalizing n s with
  | zero => simp only [hL.zero] at h; cases h
  | succ f ih =>
    simp only [hL.succ] at h
    rcases hp : prior s with ⟨_ | y, s1⟩
    · rw [hp] at h; cases h
    · rw [hp] at h
      simp only at h
      split at h
      · have := ih h
        exact ⟨by omega, this.2⟩
      · rename_i hb
        cases h
        exact ⟨by omega, rfl, by simpa using hb⟩

theorem Rejects.unfold (hL : Rejects prior dist bad L) {n : Nat} {s s' : S} {r : XR K × Θ × Nat} :
    Ends (fun f => L f n) s r s' ↔ (∃ x, prior s = (.ok x, s') ∧ bad x = false ∧ r = (dist x, x, n + 1)) ∨
      ∃ x m, prior s = (.ok x, m) ∧ bad x = true ∧ Ends (fun f => L f (n + 1)) m r s' := by
  constructor
  · rintro ⟨f, h⟩
    cases f with
    | zero => simp only [hL.zero] at h; cases h
    | succ f =>
      simp only [hL.succ] at h
      rcases hp : prior s with ⟨_ | y, s1⟩
      · rw [hp] at h; cases h
      · rw [hp] at h
        simp only at h
        split at h
        · rename_i hb
          exact Or.inr ⟨y, s1, rfl, hb, f, h⟩
        · rename_i hb
          cases h
          exact Or.inl ⟨y, rfl, by simpa using hb, rfl⟩
  · rintro (⟨x, h1, h2, rfl⟩ | ⟨x, m, h1, h2, f, h3⟩)
    · exact ⟨1, by simp [hL.succ, h1, h2]⟩
    · exact ⟨f + 1, by simp only [hL.succ, h1, h2, if_true]; exact h3⟩

theorem Rejects.count {μ : Measure S} {P : Measure Θ} (hL : Rejects prior dist bad L)
    (hP : Draws μ (fun s x s' => prior s = (.ok x, s')) P) (hb : MeasurableSet {x | bad x = false}) {A : Set Θ}
    (hA : MeasurableSet A) (k n : Nat) :
    Chance μ (fun s s' => ∃ di, ∃ x ∈ A, Ends (fun f => L f n) s (di, x, n + k + 1) s')
      (P {x | bad x = true} ^ k * P (A ∩ {x | bad x = false})) := by
  induction k generalizing n with
  | zero =>
    rw [pow_zero, one_mul]
    refine (hP _ (hA.inter hb)).congr (fun s s' => ?_)
    constructor
    · rintro ⟨x, ⟨h1, h2⟩, h3⟩
      exact ⟨dist x, x, h1, hL.unfold.2 (Or.inl ⟨x, h3, h2, rfl⟩)⟩
    · rintro ⟨di, x, h1, h2⟩
      rcases hL.unfold.1 h2 with ⟨y, h3, h4, h5⟩ | ⟨y, m, -, -, h5⟩
      · cases h5
        exact ⟨x, ⟨h1, h4⟩, h3⟩
      · have := (hL.result h5).1
        omega
  | succ k ih =>
    have hc : MeasurableSet {x | bad x = true} := by
      have : {x | bad x = true} = {x | bad x = false}ᶜ := by ext x; simp
      rw [this]; exact hb.compl
    rw [pow_succ', mul_assoc]
    refine ((hP _ hc).comp (ih (n + 1))).congr (fun s s' => ?_)
    have e : n + (k + 1) + 1 = n + 1 + k + 1 := by omega
    constructor
    · rintro ⟨m, ⟨x, h1, h2⟩, di, y, h3, h4⟩
      exact ⟨di, y, h3, hL.unfold.2 (Or.inr ⟨x, m, h2, h1, by rw [e]; exact h4⟩)⟩
    · rintro ⟨di, y, h3, h4⟩
      rcases hL.unfold.1 h4 with ⟨z, -, -, h5⟩ | ⟨z, m, h5, h6, h7⟩
      · cases h5
      · exact ⟨m, ⟨z, h6, h5⟩, di, y, h3, by rw [e] at h7; exact h7⟩

theorem Rejects.law {μ : Measure S} {P : Measure Θ} [IsProbabilityMeasure P] (hL : Rejects prior dist bad L)
    (hP : Draws μ (fun s x s' => prior s = (.ok x, s')) P) (hb : MeasurableSet {x | bad x = false}) :
    Draws μ (fun s x s' => ∃ di k, Ends (fun f => L f 0) s (di, x, k) s') (P[|{x | bad x = false}]) := by
  intro A hA
  have h := Chance.exists (fun k => hL.count hP hb hA k 0) (by
    rintro j k s m m' ⟨di, x, -, h1⟩ ⟨di', x', -, h2⟩
    have := ((hL.mono 0).ends h1 h2).1
    simp only [Prod.mk.injEq] at this
    omega)
  have e : ∑' k, P {x | bad x = true} ^ k * P (A ∩ {x | bad x = false}) = P[|{x | bad x = false}] A := by
    have hc : {x | bad x = true} = {x | bad x = false}ᶜ := by ext x; simp
    rw [ENNReal.tsum_mul_right, ENNReal.tsum_geometric, cond_apply hb, hc, ← prob_compl_eq_one_sub hb.compl, compl_compl,
      Set.inter_comm]
  rw [← e]
  refine h.congr (fun s s' => ?_)
  constructor
  · rintro ⟨k, di, x, h1, h2⟩; exact ⟨x, h1, di, _, h2⟩
  · rintro ⟨x, h1, di, k, h2⟩
    have := (hL.result h2).1
    refine ⟨k - 1, di, x, h1, ?_⟩
    have e : 0 + (k - 1) + 1 = k := by omega
    rw [e]; exact h2

end Loop

theorem fin_rejects (env : SimEnv S Θ K) : Rejects env.prior env.dist (fun x => (env.dist x).isInf) (sampleFin env) where
  zero := fun _ _ => rfl
  succ := by
    intro f n s
    rcases h : env.prior s with ⟨_ | x, s1⟩
    · simp only [sampleFin, Run.bind_apply, Run.lift, h]
    · simp only [sampleFin, Run.bind_apply, Run.lift, h]
      split <;> rfl

theorem ess_rejects (env : SimEnv S Θ K) (eps : XR K) :
    Rejects env.prior env.dist (fun x => XR.lt eps (env.dist x)) (sampleEssLoop env eps) where
  zero := fun _ _ => rfl
  succ := by
    intro f n s
    rcases h : env.prior s with ⟨_ | x, s1⟩
    · simp only [sampleEssLoop, Run.bind_apply, Run.lift, h]
    · simp only [sampleEssLoop, Run.bind_apply, Run.lift, h]
      split <;> rfl

theorem ess_eq (env : SimEnv S Θ K) {eps : XR K} (he : XR.lt eps .pinf = true) :
    sampleEss env eps = fun f => sampleEssLoop env eps f 0 := by
  funext f
  simp [sampleEss, he]

/-! ## C201 -/

/-- **C201**: `sample_ess` draws from the prior conditioned on a distance within the tolerance, independently of what it
leaves for later draws. -/
theorem C201 {μ : Measure S} {P : Measure Θ} [IsProbabilityMeasure P] (env : SimEnv S Θ K) {eps : XR K}
    (he : XR.lt eps .pinf = true) (hP : Draws μ (fun s x s' => env.prior s = (.ok x, s')) P)
    (hm : MeasurableSet {x | XR.lt eps (env.dist x) = false}) :
    Draws μ (fun s x s' => ∃ di n, Ends (sampleEss env eps) s (di, x, n) s')
      (P[|{x | XR.lt eps (env.dist x) = false}]) := by
  rw [ess_eq env he]
  exact (ess_rejects env eps).law hP hm

/-- **C201** (evaluations): the number of simulations until one is accepted is geometric, and independent of the
particle that is accepted. -/
theorem C201_count {μ : Measure S} {P : Measure Θ} (env : SimEnv S Θ K) {eps : XR K}
    (he : XR.lt eps .pinf = true) (hP : Draws μ (fun s x s' => env.prior s = (.ok x, s')) P)
    (hm : MeasurableSet {x | XR.lt eps (env.dist x) = false}) {A : Set Θ} (hA : MeasurableSet A) (k : Nat) :
    Chance μ (fun s s' => ∃ di, ∃ x ∈ A, Ends (sampleEss env eps) s (di, x, k + 1) s')
      (P {x | XR.lt eps (env.dist x) = true} ^ k * P (A ∩ {x | XR.lt eps (env.dist x) = false})) := by
  rw [ess_eq env he]
  have := (ess_rejects env eps).count hP hm hA k 0
  rwa [Nat.zero_add] at this

/-- **C201** (end): when a prior draw is within the tolerance with positive probability, `sample_ess` ends with
probability one. -/
theorem C201_ends {μ : Measure S} {P : Measure Θ} [IsProbabilityMeasure P] (env : SimEnv S Θ K) {eps : XR K}
    (he : XR.lt eps .pinf = true) (hP : Draws μ (fun s x s' => env.prior s = (.ok x, s')) P)
    (hm : MeasurableSet {x | XR.lt eps (env.dist x) = false}) (h0 : P {x | XR.lt eps (env.dist x) = false} ≠ 0) :
    μ {s | ∃ r s', Ends (sampleEss env eps) s r s'} = μ Set.univ := by
  have := cond_isProbabilityMeasure h0
  have h := (C201 env he hP hm _ MeasurableSet.univ _ MeasurableSet.univ).2
  rw [measure_univ, one_mul] at h
  rw [← h]
  congr 1
  ext s
  constructor
  · rintro ⟨⟨di, x, n⟩, s', h⟩; exact ⟨s', trivial, x, trivial, di, n, h⟩
  · rintro ⟨s', -, x, -, di, n, h⟩; exact ⟨(di, x, n), s', h⟩

/-! An example: a coin that is within the tolerance when it shows `true`, with probability 1/4. -/

/-- The prior draws a coin; the distance is 0 for `true`, 1 for `false`. -/
noncomputable def coinEnv : SimEnv ℝ Bool ℝ where
  prior := fun s => (.ok (coin (1 / 4) s).1, (coin (1 / 4) s).2)
  dist := fun b => .fin (if b then 0 else 1)
  flatten := fun _ s => (.ok (), s)

/-- The law of the coin. -/
noncomputable def coinLaw : Measure Bool :=
  ENNReal.ofReal (1 / 4) • Measure.dirac true + ENNReal.ofReal (3 / 4) • Measure.dirac false

instance : IsProbabilityMeasure coinLaw where
  measure_univ := by
    simp only [coinLaw, Measure.coe_add, Measure.coe_smul, Pi.add_apply, Pi.smul_apply, measure_univ, smul_eq_mul, mul_one]
    rw [← ENNReal.ofReal_add (by norm_num) (by norm_num)]
    norm_num

theorem coin_draws : Draws uniform01 (fun s x s' => coinEnv.prior s = (.ok x, s')) coinLaw := by
  intro A _
  have h1 := coin_true (p := 1 / 4) (by norm_num) (by norm_num)
  have h2 := coin_false (p := 1 / 4) (by norm_num) (by norm_num)
  have e : (1 : ℝ) - 1 / 4 = 3 / 4 := by norm_num
  rw [e] at h2
  have hd : ∀ (b : Bool) (p : ENNReal), Chance uniform01 (fun s s' => coin (1 / 4) s = (b, s')) p →
      Chance uniform01 (fun s s' => b ∈ A ∧ coin (1 / 4) s = (b, s')) (p * Measure.dirac b A) := by
    intro b p h
    by_cases hb : b ∈ A
    · simp only [hb, true_and, Measure.dirac_apply, Set.indicator_of_mem, Pi.one_apply, mul_one]
      exact h
    · simp only [hb, false_and, Measure.dirac_apply, not_false_eq_true, Set.indicator_of_notMem, mul_zero]
      exact Chance.never (fun _ _ h => h)
  have h := (hd true _ h1).or (hd false _ h2) (by
    rintro s m m' ⟨-, h3⟩ ⟨-, h4⟩
    rw [h3] at h4
    cases h4)
  refine h.congr (fun s s' => ?_)
  rcases hc : coin (1 / 4) s with ⟨b, m⟩
  simp only [coinEnv, hc, Prod.mk.injEq, Except.ok.injEq]
  constructor
  · rintro (⟨h3, rfl, rfl⟩ | ⟨h3, rfl, rfl⟩)
    · exact ⟨_, h3, rfl, rfl⟩
    · exact ⟨_, h3, rfl, rfl⟩
  · rintro ⟨x, h3, rfl, rfl⟩
    cases b
    · exact Or.inr ⟨h3, rfl, rfl⟩
    · exact Or.inl ⟨h3, rfl, rfl⟩

theorem coin_acc : {x | XR.lt (.fin (1 / 2)) (coinEnv.dist x) = false} = {true} := by
  ext b
  cases b
  · simp only [Set.mem_ofPred_eq, coinEnv, XR.lt]; norm_num
  · simp only [Set.mem_ofPred_eq, coinEnv, XR.lt]; norm_num

example : Draws uniform01 (fun s x s' => ∃ di n, Ends (sampleEss coinEnv (.fin (1 / 2))) s (di, x, n) s')
    (coinLaw[|{x | XR.lt (.fin (1 / 2)) (coinEnv.dist x) = false}]) :=
  C201 coinEnv rfl coin_draws (by rw [coin_acc]; exact MeasurableSet.of_discrete)

theorem coin_pos : coinLaw {x | XR.lt (.fin (1 / 2)) (coinEnv.dist x) = false} ≠ 0 := by
  rw [coin_acc]
  simp [coinLaw]

example : uniform01 {s | ∃ r s', Ends (sampleEss coinEnv (.fin (1 / 2))) s r s'} = 1 :=
  (C201_ends coinEnv rfl coin_draws (by rw [coin_acc]; exact MeasurableSet.of_discrete) coin_pos).trans measure_univ

example (k : Nat) : Chance uniform01
    (fun s s' => ∃ di, ∃ x ∈ Set.univ, Ends (sampleEss coinEnv (.fin (1 / 2))) s (di, x, k + 1) s')
    (coinLaw {x | XR.lt (.fin (1 / 2)) (coinEnv.dist x) = true} ^ k *
      coinLaw (Set.univ ∩ {x | XR.lt (.fin (1 / 2)) (coinEnv.dist x) = false})) :=
  C201_count coinEnv rfl coin_draws (by rw [coin_acc]; exact MeasurableSet.of_discrete) MeasurableSet.univ k

/-! ## C202 -/

theorem ess_mono (env : SimEnv S Θ K) (eps : XR K) : Mono (sampleEss env eps) := by
  unfold sampleEss
  split
  · exact (ess_rejects env eps).mono 0
  · exact Mono.const _

theorem times_mono {α : Type} {x : Nat → Run S α} (h : Mono x) (n : Nat) : Mono (fun f => Run.times n (x f)) := by
  induction n with
  | zero => exact Mono.const _
  | succ n ih => exact h.bind (fun a => ih.bind (fun _ => Mono.const _))

theorem times_law {μ : Measure S} {P : Measure Θ} {x : Nat → Run S (XR K × Θ × Nat)} (hx : Mono x)
    (hP : Draws μ (fun s y s' => ∃ di n, Ends x s (di, y, n) s') P) (As : List (Set Θ))
    (hA : ∀ A ∈ As, MeasurableSet A) :
    Chance μ (fun s s' => ∃ rs, Ends (fun f => Run.times As.length (x f)) s rs s' ∧
      List.Forall₂ (fun r A => r.2.1 ∈ A) rs As) ((As.map (fun A => P A)).prod) := by
  induction As with
  | nil =>
    refine Chance.refl.congr (fun s s' => ?_)
    constructor
    · rintro rfl; exact ⟨[], ⟨0, rfl⟩, .nil⟩
    · rintro ⟨rs, ⟨f, h⟩, -⟩
      exact (Run.pure_ok.1 h).2
  | cons A As ih =>
    rw [List.map_cons, List.prod_cons]
    refine ((hP A (hA A (by simp))).comp (ih (fun B hB => hA B (by simp [hB])))).congr (fun s s' => ?_)
    have hm := times_mono hx As.length
    have hu : ∀ rs, Ends (fun f => Run.times (A :: As).length (x f)) s rs s' ↔ ∃ r m, Ends x s r m ∧
        ∃ rs', Ends (fun f => Run.times As.length (x f)) m rs' s' ∧ rs = r :: rs' := by
      intro rs
      have := ends_bind (s := s) (s' := s') (b := rs) (g := fun f a => do
        let as ← Run.times As.length (x f)
        return a :: as) hx (fun a => hm.bind (fun _ => Mono.const _))
      refine this.trans ?_
      refine exists_congr (fun r => exists_congr (fun m => and_congr_right (fun _ => ?_)))
      refine (ends_bind (g := fun _ as => (pure (r :: as) : Run S _)) hm (fun as => Mono.const _)).trans ?_
      constructor
      · rintro ⟨as, m', h1, f, h2⟩
        obtain ⟨rfl, rfl⟩ := Run.pure_ok.1 h2
        exact ⟨as, h1, rfl⟩
      · rintro ⟨as, h1, rfl⟩
        exact ⟨as, s', h1, 0, rfl⟩
    constructor
    · rintro ⟨m, ⟨y, h1, di, n, h2⟩, rs, h3, h4⟩
      exact ⟨(di, y, n) :: rs, (hu _).2 ⟨_, m, h2, rs, h3, rfl⟩, .cons h1 h4⟩
    · rintro ⟨rs, h1, h2⟩
      obtain ⟨r, m, h3, rs', h4, rfl⟩ := (hu _).1 h1
      cases h2 with
      | cons h5 h6 => exact ⟨m, ⟨r.2.1, h5, r.1, r.2.2, h3⟩, rs', h4, h6⟩

theorem serial_eq (env : SimEnv S Θ K) (eps : XR K) (fuel n : Nat) (post : List Θ) (k : Nat) :
    Abc.collectSerial env eps fuel n post k = (do
      let samples ← Run.times n (sampleEss env eps fuel)
      return (post ++ samples.map (·.2.1), k + (samples.map (·.2.2)).sum)) := by
  induction n generalizing post k with
  | zero =>
    funext s
    simp [Abc.collectSerial, Run.times, Run.bind_apply, Run.pure_apply]
  | succ n ih =>
    funext s
    simp only [Abc.collectSerial, Run.times, Run.bind_apply]
    rcases sampleEss env eps fuel s with _ | ⟨_ | ⟨di, x, ne⟩, s1⟩
    · rfl
    · rfl
    · simp only [ih, Run.bind_apply]
      rcases Run.times n (sampleEss env eps fuel) s1 with _ | ⟨_ | rs, s2⟩
      · rfl
      · rfl
      · simp [Run.pure_apply, Nat.add_assoc]

theorem collect_eq (env : SimEnv S Θ K) (eps : XR K) (fuel : Nat) (parallel : Bool) (n : Nat) :
    Abc.collect env eps fuel parallel n = (do
      let samples ← Run.times n (sampleEss env eps fuel)
      return (samples.map (·.2.1), (samples.map (·.2.2)).sum)) := by
  unfold Abc.collect
  cases parallel with
  | true => rfl
  | false =>
    simp only [Bool.false_eq_true, if_false, serial_eq]
    funext s
    simp only [Run.bind_apply]
    rcases Run.times n (sampleEss env eps fuel) s with _ | ⟨_ | rs, s2⟩
    · rfl
    · rfl
    · simp [Run.pure_apply]

/-- **C202**: the particles that either branch of `sample_posteriors` collects are independent draws from the prior
conditioned on a distance within the tolerance. -/
theorem C202 {μ : Measure S} {P : Measure Θ} [IsProbabilityMeasure P] (env : SimEnv S Θ K) {eps : XR K}
    (he : XR.lt eps .pinf = true) (hP : Draws μ (fun s x s' => env.prior s = (.ok x, s')) P)
    (hm : MeasurableSet {x | XR.lt eps (env.dist x) = false}) (parallel : Bool) (As : List (Set Θ))
    (hA : ∀ A ∈ As, MeasurableSet A) :
    Chance μ (fun s s' => ∃ post n, Ends (fun f => Abc.collect env eps f parallel As.length) s (post, n) s' ∧
      List.Forall₂ (fun x A => x ∈ A) post As)
      ((As.map (fun A => P[|{x | XR.lt eps (env.dist x) = false}] A)).prod) := by
  refine (times_law (ess_mono env eps) (C201 env he hP hm) As hA).congr (fun s s' => ?_)
  simp only [collect_eq]
  constructor
  · rintro ⟨rs, ⟨f, h1⟩, h2⟩
    refine ⟨rs.map (·.2.1), (rs.map (·.2.2)).sum, ⟨f, Run.bind_ok.2 ⟨rs, s', h1, rfl⟩⟩, ?_⟩
    rw [List.forall₂_map_left_iff]
    exact h2
  · rintro ⟨post, n, ⟨f, h1⟩, h2⟩
    obtain ⟨rs, m, h3, h4⟩ := Run.bind_ok.1 h1
    obtain ⟨h5, rfl⟩ := Run.pure_ok.1 h4
    cases h5
    rw [List.forall₂_map_left_iff] at h2
    exact ⟨rs, ⟨f, h3⟩, h2⟩

theorem serialOne_eq (env : SimEnv S Θ K) (fuel n : Nat) :
    Abc.serialOne env fuel n = (do
      let r ← sampleFin env fuel 0
      return (r.1, n + r.2.2)) := by
  have key : ∀ fuel n k, Abc.serialOne env fuel (n + k) = (do
      let r ← sampleFin env fuel k
      return (r.1, n + r.2.2)) := by
    intro fuel
    induction fuel with
    | zero => intro n k; rfl
    | succ f ih =>
      intro n k
      funext s
      rw [Run.bind_apply, (fin_rejects env).succ]
      simp only [Abc.serialOne, Run.bind_apply, Run.lift]
      rcases env.prior s with ⟨_ | x, s1⟩
      · rfl
      · simp only
        by_cases hb : (env.dist x).isInf = true
        · rw [if_pos hb, if_pos hb]
          have := congrFun (ih n (k + 1)) s1
          rw [Run.bind_apply] at this
          exact this
        · rw [if_neg hb, if_neg hb]
          rfl
  exact key fuel n 0

theorem serialAll_eq (env : SimEnv S Θ K) (fuel k n : Nat) (dis : List (XR K)) :
    Abc.serialAll env fuel k n dis = (do
      let samples ← Run.times k (sampleFin env fuel 0)
      return (dis ++ samples.map (·.1), n + (samples.map (·.2.2)).sum)) := by
  induction k generalizing dis n with
  | zero =>
    funext s
    simp [Abc.serialAll, Run.times, Run.bind_apply, Run.pure_apply]
  | succ k ih =>
    funext s
    simp only [Abc.serialAll, Run.times, Run.bind_apply, serialOne_eq]
    rcases sampleFin env fuel 0 s with _ | ⟨_ | ⟨di, x, ne⟩, s1⟩
    · rfl
    · rfl
    · simp only [Run.pure_apply, ih, Run.bind_apply]
      rcases Run.times k (sampleFin env fuel 0) s1 with _ | ⟨_ | rs, s2⟩
      · rfl
      · rfl
      · simp [Nat.add_assoc]

theorem testRuns_eq (env : SimEnv S Θ K) (fuel : Nat) (parallel : Bool) (n : Nat) :
    Abc.testRuns env fuel parallel n = (do
      let samples ← Run.times n (sampleFin env fuel 0)
      return (samples.map (·.1), (samples.map (·.2.2)).sum)) := by
  unfold Abc.testRuns
  cases parallel with
  | true => rfl
  | false =>
    simp only [Bool.false_eq_true, if_false, serialAll_eq]
    funext s
    simp only [Run.bind_apply]
    rcases Run.times n (sampleFin env fuel 0) s with _ | ⟨_ | rs, s2⟩
    · rfl
    · rfl
    · simp [Run.pure_apply]

theorem times_forall {α : Type} {x : Run S α} {n : Nat} {s s' : S} {as : List α}
    (h : Run.times n x s = some (.ok as, s')) {p : α → Prop} (hp : ∀ a t t', x t = some (.ok a, t') → p a) :
    ∀ a ∈ as, p a := by
  intro a ha
  obtain ⟨t, t', h⟩ := (Run.times_ok h).2 a ha
  exact hp a t t' h

theorem forall₂_imp_mem {α β : Type} {R Q : α → β → Prop} {as : List α} {bs : List β} (h : List.Forall₂ R as bs)
    (hi : ∀ a ∈ as, ∀ b, R a b → Q a b) : List.Forall₂ Q as bs := by
  induction h with
  | nil => exact .nil
  | cons h1 _ ih => exact .cons (hi _ (by simp) _ h1) (ih (fun a ha => hi a (by simp [ha])))

/-- **C202** (test runs): the finite distances of the test runs are independent draws of the distance, conditioned on
being finite. -/
theorem C202_test {μ : Measure S} {P : Measure Θ} [IsProbabilityMeasure P] (env : SimEnv S Θ K)
    (hP : Draws μ (fun s x s' => env.prior s = (.ok x, s')) P)
    (hm : MeasurableSet {x | (env.dist x).isInf = false}) (parallel : Bool) (Ds : List (Set (XR K)))
    (hA : ∀ D ∈ Ds, MeasurableSet (env.dist ⁻¹' D)) :
    Chance μ (fun s s' => ∃ dis n, Ends (fun f => Abc.testRuns env f parallel Ds.length) s (dis, n) s' ∧
      List.Forall₂ (fun d D => d ∈ D) dis Ds)
      ((Ds.map (fun D => P[|{x | (env.dist x).isInf = false}] (env.dist ⁻¹' D))).prod) := by
  have h := times_law ((fin_rejects env).mono 0) ((fin_rejects env).law hP hm) (Ds.map (env.dist ⁻¹' ·)) (by
    intro A hA'
    obtain ⟨D, hD, rfl⟩ := List.mem_map.1 hA'
    exact hA D hD)
  rw [List.map_map] at h
  refine h.congr (fun s s' => ?_)
  simp only [testRuns_eq, List.length_map, List.forall₂_map_right_iff]
  have hd : ∀ f rs, Run.times Ds.length (sampleFin env f 0) s = some (.ok rs, s') → ∀ r ∈ rs, r.1 = env.dist r.2.1 := by
    intro f rs h
    refine times_forall h (fun r t t' hr => ?_)
    exact ((fin_rejects env).result (n := 0) (di := r.1) (x := r.2.1) (k := r.2.2) ⟨f, hr⟩).2.1
  constructor
  · rintro ⟨rs, ⟨f, h1⟩, h2⟩
    refine ⟨rs.map (·.1), (rs.map (·.2.2)).sum, ⟨f, Run.bind_ok.2 ⟨rs, s', h1, rfl⟩⟩, ?_⟩
    rw [List.forall₂_map_left_iff]
    refine forall₂_imp_mem h2 (fun r hr D h => ?_)
    rw [hd f rs h1 r hr]
    exact h
  · rintro ⟨post, n, ⟨f, h1⟩, h2⟩
    obtain ⟨rs, m, h3, h4⟩ := Run.bind_ok.1 h1
    obtain ⟨h5, rfl⟩ := Run.pure_ok.1 h4
    cases h5
    rw [List.forall₂_map_left_iff] at h2
    refine ⟨rs, ⟨f, h3⟩, forall₂_imp_mem h2 (fun r hr D h => ?_)⟩
    rw [hd f rs h3 r hr] at h
    exact h

example : Chance uniform01 (fun s s' => ∃ post n,
    Ends (fun f => Abc.collect coinEnv (.fin (1 / 2)) f true [{true}, Set.univ].length) s (post, n) s' ∧
      List.Forall₂ (fun x A => x ∈ A) post [{true}, Set.univ])
      (([{true}, Set.univ].map (fun A => coinLaw[|{x | XR.lt (.fin (1 / 2)) (coinEnv.dist x) = false}] A)).prod) :=
  C202 coinEnv rfl coin_draws (by rw [coin_acc]; exact MeasurableSet.of_discrete) true [{true}, Set.univ]
    (fun _ _ => MeasurableSet.of_discrete)

/-- One distance is 0, the next is 1. -/
def twoDists : List (Set (XR ℝ)) := [{.fin 0}, {.fin 1}]

example : Chance uniform01 (fun s s' => ∃ dis n,
    Ends (fun f => Abc.testRuns coinEnv f false twoDists.length) s (dis, n) s' ∧
      List.Forall₂ (fun d D => d ∈ D) dis twoDists)
      ((twoDists.map (fun D => coinLaw[|{x | (coinEnv.dist x).isInf = false}] (coinEnv.dist ⁻¹' D))).prod) :=
  C202_test coinEnv coin_draws MeasurableSet.of_discrete false _ (fun _ _ => MeasurableSet.of_discrete)

end Props.LawsAbc
