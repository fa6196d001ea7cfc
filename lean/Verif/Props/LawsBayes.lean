import Verif.Props.Laws
import Verif.Props.LawsStart
import Verif.Props.LawsMinimal
import Verif.Props.Assembled

/-!
# The law of the posterior of a data model: C220

Rejection ABC on a data model whose network has countably many outcomes, from the distributions of the nodes to the
particles collected.
-/

namespace Props.LawsBayes

set_option linter.unusedSectionVars false

open Py Spec Model MeasureTheory Props.LawsAbc Props.Laws Props.Sampling Props.Assembled

section Loop

variable {S Θ K : Type} [Field K] [LinearOrder K] [FloorSemiring K] [MeasurableSpace S] [MeasurableSpace Θ]
variable {prior : S → Result Θ × S} {dist : Θ → XR K} {bad : Θ → Bool} {L : Nat → Nat → Run S (XR K × Θ × Nat)}

/-- Repeating until something is not bad, in terms of the chances of one try. -/
theorem Rejects.chance {μ : Measure S} (hL : Rejects prior dist bad L) (good : Θ → Prop) {a b : ENNReal}
    (ha : Chance μ (fun s s' => ∃ x, prior s = (.ok x, s') ∧ bad x = false ∧ good x) a)
    (hb : Chance μ (fun s s' => ∃ x, prior s = (.ok x, s') ∧ bad x = true) b) :
    Chance μ (fun s s' => ∃ r, Ends (fun f => L f 0) s r s' ∧ good r.2.1) (a / (1 - b)) := by
  have hcount : ∀ k n, Chance μ (fun s s' => ∃ di x, good x ∧ Ends (fun f => L f n) s (di, x, n + k + 1) s')
      (b ^ k * a) := by
    intro k
    induction k with
    | zero =>
      intro n
      rw [pow_zero, one_mul]
      refine ha.congr (fun s s' => ?_)
      constructor
      · rintro ⟨x, h1, h2, h3⟩
        exact ⟨dist x, x, h3, hL.unfold.2 (Or.inl ⟨x, h1, h2, rfl⟩)⟩
      · rintro ⟨di, x, h1, h2⟩
        rcases hL.unfold.1 h2 with ⟨y, h3, h4, h5⟩ | ⟨y, m, -, -, h5⟩
        · cases h5
          exact ⟨x, h3, h4, h1⟩
        · have := (hL.result h5).1
          omega
    | succ k ih =>
      intro n
      rw [pow_succ', mul_assoc]
      refine (hb.comp (ih (n + 1))).congr (fun s s' => ?_)
      have e : n + (k + 1) + 1 = n + 1 + k + 1 := by omega
      constructor
      · rintro ⟨m, ⟨x, h1, h2⟩, di, y, h3, h4⟩
        exact ⟨di, y, h3, hL.unfold.2 (Or.inr ⟨x, m, h1, h2, by rw [e]; exact h4⟩)⟩
      · rintro ⟨di, y, h3, h4⟩
        rcases hL.unfold.1 h4 with ⟨z, -, -, h5⟩ | ⟨z, m, h5, h6, h7⟩
        · cases h5
        · exact ⟨m, ⟨z, h5, h6⟩, di, y, h3, by rw [e] at h7; exact h7⟩
  have h := Chance.exists (fun k => hcount k 0) (by
    rintro j k s m m' ⟨di, x, -, h1⟩ ⟨di', x', -, h2⟩
    have := ((hL.mono 0).ends h1 h2).1
    simp only [Prod.mk.injEq] at this
    omega)
  rw [ENNReal.tsum_mul_right, ENNReal.tsum_geometric, mul_comm, ← div_eq_mul_inv] at h
  refine h.congr (fun s s' => ?_)
  constructor
  · rintro ⟨k, di, x, h1, h2⟩; exact ⟨_, h2, h1⟩
  · rintro ⟨⟨di, x, k⟩, h2, h1⟩
    have := (hL.result h2).1
    refine ⟨k - 1, di, x, h1, ?_⟩
    have e : 0 + (k - 1) + 1 = k := by omega
    rw [e]; exact h2

/-- Doing the same several times, in terms of the chances of doing it once. -/
theorem times_chance {ι α : Type} {μ : Measure S} {x : Nat → Run S α} (hx : Mono x) (R : α → ι → Prop) (p : ι → ENNReal)
    (h : ∀ i, Chance μ (fun s s' => ∃ a, Ends x s a s' ∧ R a i) (p i)) (is : List ι) :
    Chance μ (fun s s' => ∃ rs, Ends (fun f => Run.times is.length (x f)) s rs s' ∧ List.Forall₂ R rs is)
      ((is.map p).prod) := by
  induction is with
  | nil =>
    refine Chance.refl.congr (fun s s' => ?_)
    constructor
    · rintro rfl; exact ⟨[], ⟨0, rfl⟩, .nil⟩
    · rintro ⟨rs, ⟨f, h⟩, -⟩
      exact (Run.pure_ok.1 h).2
  | cons i is ih =>
    rw [List.map_cons, List.prod_cons]
    refine ((h i).comp ih).congr (fun s s' => ?_)
    have hm := times_mono hx is.length
    have hu : ∀ rs, Ends (fun f => Run.times (i :: is).length (x f)) s rs s' ↔ ∃ r m, Ends x s r m ∧
        ∃ rs', Ends (fun f => Run.times is.length (x f)) m rs' s' ∧ rs = r :: rs' := by
      intro rs
      have := ends_bind (s := s) (s' := s') (b := rs) (g := fun f a => do
        let as ← Run.times is.length (x f)
        return a :: as) hx (fun a => hm.bind (fun _ => Mono.const _))
      refine this.trans ?_
      refine exists_congr (fun r => exists_congr (fun m => and_congr_right (fun _ => ?_)))
      refine (ends_bind (g := fun _ as => (pure (r :: as) : Run S _)) hm (fun as => Mono.const _)).trans ?_
      constructor
      · rintro ⟨as, m', h1, f, h2⟩
        obtain ⟨rfl, rfl⟩ := Run.pure_ok.1 h2
        exact ⟨as, h1, rfl⟩
      · rintro ⟨as, h1, rfl⟩
        exact ⟨as, s', h1, 0, rfl⟩
    constructor
    · rintro ⟨m, ⟨a, h1, h2⟩, rs, h3, h4⟩
      exact ⟨a :: rs, (hu _).2 ⟨_, m, h1, rs, h3, rfl⟩, .cons h2 h4⟩
    · rintro ⟨rs, h1, h2⟩
      obtain ⟨r, m, h3, rs', h4, rfl⟩ := (hu _).1 h1
      cases h2 with
      | cons h5 h6 => exact ⟨m, ⟨r, h3, h5⟩, rs', h4, h6⟩

end Loop

section Order

variable {N V C O S L : Type} [DecidableEq N]

theorem dict_eq {a b : Dict N V} (ha : a.WF) (hk : a.keys = b.keys) (h : ∀ x, a.get? x = b.get? x) : a = b := by
  induction a generalizing b with
  | nil =>
    cases b with
    | nil => rfl
    | cons _ _ => simp [Dict.keys] at hk
  | cons p a ih =>
    obtain ⟨k, v⟩ := p
    cases b with
    | nil => simp [Dict.keys] at hk
    | cons q b =>
      obtain ⟨k', w⟩ := q
      simp only [Dict.keys, List.map_cons, List.cons.injEq] at hk
      obtain ⟨rfl, hk⟩ := hk
      simp only [Dict.WF, Dict.keys, List.map_cons, List.nodup_cons] at ha
      have h1 := h k
      rw [Dict.get?_cons, Dict.get?_cons, if_pos rfl, if_pos rfl] at h1
      cases h1
      congr 1
      refine ih ha.2 hk (fun x => ?_)
      by_cases hx : x = k
      · subst hx
        rw [(Dict.get?_eq_none_iff _ _).2 ha.1, (Dict.get?_eq_none_iff _ _).2 (by
          have := ha.1
          rw [hk] at this
          exact this)]
      · have h2 := h x
        rw [Dict.get?_cons, Dict.get?_cons, if_neg (Ne.symm hx), if_neg (Ne.symm hx)] at h2
        exact h2

/-- The order of the entries does not depend on what is drawn. -/
theorem sampleLoop_order (sem : Sem N V C O S L) (bn : BN N V C O) (sel : N → Bool) (xs : List N) {a b r q : Dict N V}
    {s s' t t' : S} (hk : a.keys = b.keys) (h1 : sampleLoop sem bn sel xs a s = (.ok r, s'))
    (h2 : sampleLoop sem bn sel xs b t = (.ok q, t')) : r.keys = q.keys := by
  induction xs generalizing a b s t with
  | nil =>
    simp only [sampleLoop, Prod.mk.injEq, Except.ok.injEq] at h1 h2
    rw [← h1.1, ← h2.1]
    exact hk
  | cons x xs ih =>
    simp only [sampleLoop] at h1 h2
    rw [hk] at h1
    split at h1
    · rename_i hx
      rw [if_pos hx] at h2
      split at h1
      · cases h1
      · rename_i l hl
        simp only [hl] at h2
        split at h1
        · cases h1
        · split at h2
          · cases h2
          · refine ih ?_ h1 h2
            rw [Dict.keys_set, Dict.keys_set, hk]
    · rename_i hx
      rw [if_neg hx] at h2
      exact ih hk h1 h2

theorem sample_same (sem : Sem N V C O S L) (bn : BN N V C O) {cond r q : Dict N V} (hc : cond.WF) {s s' t t' : S}
    (h1 : sample sem bn cond s = (.ok r, s')) (h2 : sample sem bn cond t = (.ok q, t'))
    (h : ∀ x, r.get? x = q.get? x) : r = q := by
  unfold sample at h1 h2
  split at h1
  · cases h1
  · rename_i exo he
    simp only [he] at h2
    split at h1
    · cases h1
    · rename_i hx
      rw [if_neg hx] at h2
      split at h1
      · cases h1
      · rename_i od ho
        simp only [ho] at h2
        exact dict_eq ((sampleLoop_ok sem bn _ _ h1).2.2.1 hc) (sampleLoop_order sem bn _ od rfl h1 h2) h

end Order

variable {N V C O S D ι : Type} [DecidableEq N] [MeasurableSpace S]

/-- The parameters of a particle are a given assignment. -/
def Has (r : Dict N V) (pt : Particle N V ℝ) : Prop := ∀ x, (Study.locus pt).get? x = r.get? x

/-- All outcomes of the network of a study with the log probabilities that `evaluate_nodes` reports, and for each the
chance `q` that a simulation gives an accepted distance. -/
structure Prior (μ : Measure S) (u : Study N V C O S ℝ D) (accept : XR ℝ → Bool) (r : ι → Dict N V) (lp : ι → XR ℝ)
    (q : ι → ENNReal) : Prop where
  fair : ∀ i x n f ps d, u.model.bn.loci.get? x = some (.dist n f ps) →
    getDistribution u.env.sem f (r i).get? = .ok d → Fair μ d
  supplied : ∀ x, Exogenous u.model.bn x → x ∈ u.model.exo.keys
  free : ∀ x ∈ u.model.exo.keys, ¬ u.model.bn.Rv x
  outcome : ∀ i, Outcome u.env.sem u.model.bn u.model.exo (r i)
  logProb : ∀ i, evaluateNodes u.env.sem u.model.bn (r i) = .ok (lp i)
  different : ∀ i j, (∀ x, (r i).get? x = (r j).get? x) → i = j
  all : ∀ s s' r', sample u.env.sem u.model.bn u.model.exo s = (.ok r', s') → ∃ i, ∀ x, r'.get? x = (r i).get? x
  total : ∑' i, expX (lp i) = 1
  le_one : ∀ i, q i ≤ 1
  near : ∀ i ch, (∀ x, ch.locus.get? x = (r i).get? x) → ch.logProb = lp i →
    Chance μ (fun s s' => ∃ pt, u.run ch s = (.ok pt, s') ∧ accept (Study.distance pt) = true) (q i)
  far : ∀ i ch, (∀ x, ch.locus.get? x = (r i).get? x) → ch.logProb = lp i →
    Chance μ (fun s s' => ∃ pt, u.run ch s = (.ok pt, s') ∧ accept (Study.distance pt) = false) (1 - q i)

theorem samplePrior_eq (u : Study N V C O S ℝ D) :
    u.model.samplePrior u.env = sampleChromosome u.env.sem u.model.bn u.model.exo := rfl

/-- One try: an assignment is drawn, and something of known chance happens in its simulation. -/
theorem try_chance {μ : Measure S} [IsProbabilityMeasure μ] {u : Study N V C O S ℝ D} (hu : Sound u) {accept : XR ℝ → Bool} {r : ι → Dict N V}
    {lp : ι → XR ℝ} {q : ι → ENNReal} (hp : Prior μ u accept r lp q) (i : ι) (b : Bool) {c : ENNReal}
    (hc : ∀ ch, (∀ x, ch.locus.get? x = (r i).get? x) → ch.logProb = lp i →
      Chance μ (fun s s' => ∃ pt, u.run ch s = (.ok pt, s') ∧ accept (Study.distance pt) = b) c) :
    Chance μ (fun s s' => ∃ pt, u.prior s = (.ok pt, s') ∧ accept (Study.distance pt) = b ∧ Has (r i) pt)
      (expX (lp i) * c) := by
  have h1 := C199_chromosome u.env.sem hu.closed hu.ready hu.exo hu.noShadow hp.supplied hp.free (hp.fair i)
    (hp.outcome i) (hp.logProb i)
  by_cases hex : ∃ s s' ch, sampleChromosome u.env.sem u.model.bn u.model.exo s = (.ok ch, s') ∧
      (∀ x, ch.locus.get? x = (r i).get? x) ∧ ch.logProb = lp i
  · obtain ⟨s0, s0', ch, h2, h3, h4⟩ := hex
    refine (h1.comp (hc ch h3 h4)).congr (fun s s' => ?_)
    have huniq : ∀ {s s' : S} {ch' : Chromosome N V ℝ},
        sampleChromosome u.env.sem u.model.bn u.model.exo s = (.ok ch', s') →
        (∀ x, ch'.locus.get? x = (r i).get? x) → ch' = ch := by
      intro s s' ch' h5 h6
      obtain ⟨r1, k1, k2, k3⟩ := (C27_chromosome _ _ _ _ _ _).1 h5
      obtain ⟨r2, l1, l2, l3⟩ := (C27_chromosome _ _ _ _ _ _).1 h2
      have h7 : r1 = r2 := sample_same u.env.sem u.model.bn hu.exo k1 l1 (fun x => by
        rw [← k2, ← l2, h6, h3])
      subst h7
      rw [k3] at l3
      cases ch; cases ch'
      simp only [Except.ok.injEq] at l3 k2 l2
      subst k2 l2 l3
      rfl
    constructor
    · rintro ⟨m, ⟨ch', h5, h6, -⟩, pt, h7, h8⟩
      have h9 := huniq h5 h6
      subst h9
      refine ⟨pt, ?_, h8, ?_⟩
      · unfold Study.prior
        rw [samplePrior_eq, h5]
        exact h7
      · have h10 := (run_ok h7).1
        intro x
        rw [Study.locus, h10]
        exact h3 x
    · rintro ⟨pt, h5, h6, h7⟩
      unfold Study.prior at h5
      rw [samplePrior_eq] at h5
      split at h5
      · cases h5
      · rename_i ch' m h8
        have h10 := (run_ok h5).1
        have h11 : ∀ x, ch'.locus.get? x = (r i).get? x := by
          intro x
          have := h7 x
          rw [Study.locus, h10] at this
          exact this
        have h9 := huniq h8 h11
        subst h9
        exact ⟨m, ⟨_, h8, h11, h4⟩, pt, h5, h6⟩
  · have h0 : ∀ s s', ¬ ∃ ch, sampleChromosome u.env.sem u.model.bn u.model.exo s = (.ok ch, s') ∧
        (∀ x, ch.locus.get? x = (r i).get? x) ∧ ch.logProb = lp i := by
      rintro s s' ⟨ch, h2⟩
      exact hex ⟨s, s', ch, h2⟩
    have h2 : expX (lp i) = 0 := chance_unique h1 (Chance.never h0)
    rw [h2, zero_mul]
    refine Chance.never ?_
    rintro s s' ⟨pt, h5, -, h7⟩
    unfold Study.prior at h5
    rw [samplePrior_eq] at h5
    split at h5
    · cases h5
    · rename_i ch m h8
      have h10 := (run_ok h5).1
      have h11 : ∀ x, ch.locus.get? x = (r i).get? x := by
        intro x
        have := h7 x
        rw [Study.locus, h10] at this
        exact this
      obtain ⟨r1, k1, k2, k3⟩ := (C27_chromosome _ _ _ _ _ _).1 h8
      refine hex ⟨s, m, ch, h8, h11, ?_⟩
      have hwf : r1.WF := by
        obtain ⟨od, -, heq⟩ := sample_supplied u.env.sem hu.ready hp.supplied
        rw [heq s] at k1
        exact (sampleLoop_ok u.env.sem u.model.bn _ _ k1).2.2.1 hu.exo
      have h12 := (C26_order u.env.sem u.model.bn hwf (hp.outcome i).wf (fun x => by rw [← k2]; exact h11 x) _).1 k3
      rw [hp.logProb i] at h12
      exact (Except.ok.inj h12).symm

/-- A try is refused with the chance that its simulation is, averaged over the assignments. -/
theorem refused_chance {μ : Measure S} [IsProbabilityMeasure μ] [Countable ι] {u : Study N V C O S ℝ D} (hu : Sound u)
    {accept : XR ℝ → Bool} {r : ι → Dict N V} {lp : ι → XR ℝ} {q : ι → ENNReal} (hp : Prior μ u accept r lp q) :
    Chance μ (fun s s' => ∃ pt, u.prior s = (.ok pt, s') ∧ accept (Study.distance pt) = false)
      (1 - ∑' i, expX (lp i) * q i) := by
  have h := chance_exists (fun i => try_chance hu hp i false (hp.far i)) (by
    rintro j k s m m' ⟨pt, h1, -, h2⟩ ⟨pt', h3, -, h4⟩
    rw [h1] at h3
    cases h3
    exact hp.different j k (fun x => by rw [← h2 x, h4 x]))
  have e : ∑' i, expX (lp i) * (1 - q i) = 1 - ∑' i, expX (lp i) * q i := by
    have h1 : ∑' i, expX (lp i) * (1 - q i) + ∑' i, expX (lp i) * q i = 1 := by
      rw [← ENNReal.tsum_add]
      conv_rhs => rw [← hp.total]
      refine tsum_congr (fun i => ?_)
      rw [← mul_add, tsub_add_cancel_of_le (hp.le_one i), mul_one]
    refine ENNReal.eq_sub_of_add_eq ?_ h1
    intro h2
    rw [h2] at h1
    simp at h1
  rw [e] at h
  refine h.congr (fun s s' => ?_)
  constructor
  · rintro ⟨i, pt, h1, h2, -⟩; exact ⟨pt, h1, h2⟩
  · rintro ⟨pt, h1, h2⟩
    have hall : ∃ i, Has (r i) pt := by
      unfold Study.prior at h1
      rw [samplePrior_eq] at h1
      split at h1
      · cases h1
      · rename_i ch m h8
        have h10 := (run_ok h1).1
        obtain ⟨r1, k1, k2, -⟩ := (C27_chromosome _ _ _ _ _ _).1 h8
        obtain ⟨i, hi⟩ := hp.all _ _ _ k1
        refine ⟨i, fun x => ?_⟩
        rw [Study.locus, h10, ← hi x, ← k2]
    obtain ⟨i, h3⟩ := hall
    exact ⟨i, pt, h1, h2, h3⟩

/-- **C220**: the particles that rejection ABC collects on a data model are independent, and each has the parameters of an
outcome with a probability in proportion to that of the outcome, which `evaluate_nodes` reports, times the chance that
its simulation is within the tolerance. -/
theorem C220 {μ : Measure S} [IsProbabilityMeasure μ] [Countable ι] {u : Study N V C O S ℝ D} (hu : Sound u) {eps : XR ℝ}
    (he : XR.lt eps .pinf = true) {r : ι → Dict N V} {lp : ι → XR ℝ} {q : ι → ENNReal}
    (hp : Prior μ u (fun d => !XR.lt eps d) r lp q) (parallel : Bool) (is : List ι) :
    Chance μ (fun s s' => ∃ post n, Ends (fun f => Abc.collect u.smcEnv.toSimEnv eps f parallel is.length) s (post, n) s' ∧
        List.Forall₂ (fun pt i => Has (r i) pt) post is)
      ((is.map (fun i => expX (lp i) * q i / ∑' j, expX (lp j) * q j)).prod) := by
  letI : MeasurableSpace (Particle N V ℝ) := ⊤
  have hle : ∑' j, expX (lp j) * q j ≤ 1 := by
    rw [← hp.total]
    exact ENNReal.tsum_le_tsum (fun i => mul_le_of_le_one_right' (hp.le_one i))
  have h1 : ∀ i, Chance μ (fun s s' => ∃ a, Ends (sampleEss u.smcEnv.toSimEnv eps) s a s' ∧ Has (r i) a.2.1)
      (expX (lp i) * q i / ∑' j, expX (lp j) * q j) := by
    intro i
    have h2 := try_chance hu hp i true (hp.near i)
    have h3 := refused_chance hu hp
    have h4 := Rejects.chance (ess_rejects u.smcEnv.toSimEnv eps) (Has (r i)) (a := expX (lp i) * q i)
      (h2.congr (fun s s' => by simp only [Bool.not_eq_true']; rfl))
      (h3.congr (fun s s' => by simp only [Bool.not_eq_false']; rfl))
    rw [ENNReal.sub_sub_cancel ENNReal.one_ne_top hle, ← ess_eq u.smcEnv.toSimEnv he] at h4
    exact h4
  refine (times_chance (ess_mono u.smcEnv.toSimEnv eps) (fun a i => Has (r i) a.2.1) _ h1 is).congr (fun s s' => ?_)
  simp only [collect_eq]
  constructor
  · rintro ⟨rs, ⟨f, h1⟩, h2⟩
    refine ⟨rs.map (·.2.1), (rs.map (·.2.2)).sum, ⟨f, Run.bind_ok.2 ⟨rs, s', h1, rfl⟩⟩, ?_⟩
    rw [List.forall₂_map_left_iff]
    exact h2
  · rintro ⟨post, n, ⟨f, h1⟩, h2⟩
    obtain ⟨rs, m, h3, h4⟩ := Run.bind_ok.1 h1
    obtain ⟨h5, rfl⟩ := Run.pure_ok.1 h4
    cases h5
    rw [List.forall₂_map_left_iff] at h2
    exact ⟨rs, ⟨f, h3⟩, h2⟩

/-- **C220** (ABC-SMC): so are the first particles of ABC-SMC, with the chance that the distance is finite. -/
theorem C220_first {μ : Measure S} [IsProbabilityMeasure μ] [Countable ι] {u : Study N V C O S ℝ D} (hu : Sound u)
    {set : SmcSettings ℝ} {r : ι → Dict N V} {lp : ι → XR ℝ} {q : ι → ENNReal}
    (hp : Prior μ u (fun d => !d.isInf) r lp q) (is : List ι) (hlen : is.length = set.nIter) (hn : is ≠ []) :
    Chance μ (fun s s' => ∃ st, Ends (fun f => Smc.initialise u.smcEnv set f none) s st s' ∧
        List.Forall₂ (fun pt i => Has (r i) pt.val) st.pts is)
      ((is.map (fun i => expX (lp i) * q i / ∑' j, expX (lp j) * q j)).prod) := by
  letI : MeasurableSpace (Particle N V ℝ) := ⊤
  have hne : set.nIter ≠ 0 := by
    rw [← hlen]
    exact fun h => hn (List.length_eq_zero_iff.1 h)
  have hle : ∑' j, expX (lp j) * q j ≤ 1 := by
    rw [← hp.total]
    exact ENNReal.tsum_le_tsum (fun i => mul_le_of_le_one_right' (hp.le_one i))
  have h1 : ∀ i, Chance μ (fun s s' => ∃ a, Ends (fun f => sampleFin u.smcEnv.toSimEnv f 0) s a s' ∧ Has (r i) a.2.1)
      (expX (lp i) * q i / ∑' j, expX (lp j) * q j) := by
    intro i
    have h2 := try_chance hu hp i true (hp.near i)
    have h3 := refused_chance hu hp
    have h4 := Rejects.chance (fin_rejects u.smcEnv.toSimEnv) (Has (r i)) (a := expX (lp i) * q i)
      (h2.congr (fun s s' => by simp only [Bool.not_eq_true']; rfl))
      (h3.congr (fun s s' => by simp only [Bool.not_eq_false']; rfl))
    rw [ENNReal.sub_sub_cancel ENNReal.one_ne_top hle] at h4
    exact h4
  refine (times_chance ((fin_rejects u.smcEnv.toSimEnv).mono 0) (fun a i => Has (r i) a.2.1) _ h1 is).congr
    (fun s s' => ?_)
  constructor
  · rintro ⟨rs, h1, h2⟩
    refine ⟨_, (Props.LawsSmc.init_ends hne).2 ⟨rs, by rw [← hlen]; exact h1, rfl⟩, ?_⟩
    rw [List.forall₂_map_left_iff]
    exact h2
  · rintro ⟨st, h1, h2⟩
    obtain ⟨rs, h3, rfl⟩ := (Props.LawsSmc.init_ends hne).1 h1
    rw [List.forall₂_map_left_iff] at h2
    exact ⟨rs, by rw [hlen]; exact h3, h2⟩

/-! ### An example: two coins, the second of which is observed -/

/-- Choices for the example: the first index of positive probability. -/
noncomputable def realRand : Rand ℝ ℝ where
  random := fun s => (1 / 2, s)
  pick := fun p n s => (List.replicate n (p.findIdx (fun w => XR.lt (.fin 0) w)), s)

theorem realRand_honest : realRand.Honest where
  random := fun s => ⟨by norm_num [realRand], by norm_num [realRand]⟩
  size := fun p n s _ => by simp [realRand]
  support := by
    intro p n s hv i hi
    obtain ⟨w, hw, hpos⟩ := Lemmas.exists_pos_of_valid p hv
    have hlt : p.findIdx (fun w => XR.lt (.fin 0) w) < p.length := List.findIdx_lt_length.2 ⟨w, hw, hpos⟩
    simp only [realRand, List.mem_replicate] at hi
    rw [hi.2]
    exact ⟨_, List.getElem?_eq_getElem hlt, List.findIdx_getElem⟩

/-- A study of two coins, whose simulation reports the side of the second one. -/
noncomputable def coinStudy : Study String Toy.TV Toy.TC Unit ℝ ℝ Unit where
  env := {
    sem := coinSem
    ops := ⟨fun _ => 0, fun _ => .fin 1, fun _ x => x⟩
    isFloat := fun _ => true
    support := fun _ => .ok (.ninf, .pinf, 0, .fin 1) }
  model := { data := [("y", .pointError "y" (.fin 1) (.fin 1) (.fin 1))], bn := coinBN, exo := [], free := ["a"] }
  simulate := fun ch s => match ch.locus.get? "b" with
    | some (.num n) => (.ok [("y", .fin (n : ℝ))], s)
    | _ => (.error .KeyError, s)
  isNone := fun _ => false
  ops := ⟨fun _ => .error .TypeError, fun _ _ => .error .TypeError⟩
  normal := fun sd s => (sd, s)
  sqrt := id
  rng := realRand

theorem coinStudy_sound : Sound coinStudy where
  closed := fun _ => rfl
  ready := coinBuilt
  exo := by
    show (Dict.keys ([] : Dict String Toy.TV)).Nodup
    exact List.nodup_nil
  noShadow := coin_shadow (Or.inl rfl)
  rng := realRand_honest

/-- A side as a number. -/
def side : Bool → Int
  | true => 1
  | false => 0

/-- The outcomes of the two coins. -/
def coinOut (i : Bool × Bool) : Dict String Toy.TV := sides (side i.1) (side i.2)

/-- Their log probabilities. -/
noncomputable def coinLp : Bool × Bool → XR ℝ
  | (true, true) => .fin (Real.log ((2 : Int) / 4) + (Real.log ((3 : Int) / 4) + 0))
  | (true, false) => .fin (Real.log ((2 : Int) / 4) + (Real.log (1 - (3 : Int) / 4) + 0))
  | (false, true) => .fin (Real.log (1 - (2 : Int) / 4) + (Real.log ((1 : Int) / 4) + 0))
  | (false, false) => .fin (Real.log (1 - (2 : Int) / 4) + (Real.log (1 - (1 : Int) / 4) + 0))

theorem coinLp_eval (i : Bool × Bool) : evaluateNodes coinSem coinBN (coinOut i) = .ok (coinLp i) := by
  obtain ⟨a, b⟩ := i
  cases a <;> cases b <;> rfl

theorem coinLp_exp (i : Bool × Bool) : expX (coinLp i) = ENNReal.ofReal (if i.1 = i.2 then 3 / 8 else 1 / 8) := by
  obtain ⟨a, b⟩ := i
  cases a <;> cases b <;> simp only [coinLp, expX] <;> congr 1 <;> rw [add_zero, Real.exp_add, Real.exp_log (by norm_num),
    Real.exp_log (by norm_num)] <;> norm_num

theorem coin_second {s s' : ℝ} {r : Dict String Toy.TV} (h : sample coinSem coinBN [] s = (.ok r, s')) :
    r.get? "b" = some (.num 0) ∨ r.get? "b" = some (.num 1) := by
  obtain ⟨od, ht, heq⟩ := sample_supplied coinSem coinBuilt (cond := []) (fun x h => absurd h (coin_exo x))
  rw [heq s] at h
  obtain ⟨-, -, -, h4⟩ := sampleLoop_ok coinSem coinBN _ _ h
  have hb : "b" ∈ od := by
    rw [ht.complete]
    have e : coinBN.dag.nodes = ["a", "b"] := rfl
    rw [e]; simp
  obtain ⟨pre, suf, e⟩ := List.append_of_mem hb
  have hp : "b" ∉ pre := by
    have := ht.nodup
    rw [e, List.nodup_append] at this
    exact fun hh => this.2.2 "b" hh "b" (by simp) rfl
  obtain ⟨ρ, s1, s2, v, hr, hv, -⟩ := h4 pre "b" suf e hp rfl (by simp [Dict.keys])
  rw [hv]
  obtain ⟨l, hl, hr⟩ := hr
  rcases coin_loci hl with ⟨h, -⟩ | ⟨-, rfl⟩
  · exact absurd h (by decide)
  · simp only [Loci.render] at hr
    cases hg : getDistribution coinSem (Toy.app "bern" [] [("q", Toy.plus (Toy.int 1)
        (Toy.plus (Toy.var "a") (Toy.var "a")))]) ρ.get? with
    | error e => rw [hg] at hr; cases hr
    | ok d =>
      obtain ⟨k, rfl⟩ := coin_bern hg
      rw [hg] at hr
      simp only [bern, Prod.mk.injEq, Except.ok.injEq] at hr
      rw [← hr.1]
      split
      · exact Or.inr rfl
      · exact Or.inl rfl

theorem coin_all {s s' : ℝ} {r : Dict String Toy.TV} (h : sample coinSem coinBN [] s = (.ok r, s')) :
    ∃ i, ∀ x, r.get? x = (coinOut i).get? x := by
  obtain ⟨h1, h2⟩ := coin_sides h
  have h3 := coin_second h
  rcases h2 with h2 | h2 <;> rcases h3 with h3 | h3
  · exact ⟨(false, false), (sides_iff h1).2 ⟨h2, h3⟩⟩
  · exact ⟨(false, true), (sides_iff h1).2 ⟨h2, h3⟩⟩
  · exact ⟨(true, false), (sides_iff h1).2 ⟨h2, h3⟩⟩
  · exact ⟨(true, true), (sides_iff h1).2 ⟨h2, h3⟩⟩

theorem coin_bit (b : Bool) : side b = 0 ∨ side b = 1 := by cases b <;> simp [side]

theorem coin_different (i j : Bool × Bool) (h : ∀ x, (coinOut i).get? x = (coinOut j).get? x) : i = j := by
  have h1 : some (Toy.TV.num (side i.1)) = some (Toy.TV.num (side j.1)) := h "a"
  have h2 : some (Toy.TV.num (side i.2)) = some (Toy.TV.num (side j.2)) := h "b"
  obtain ⟨a, b⟩ := i
  obtain ⟨c, d⟩ := j
  cases a <;> cases b <;> cases c <;> cases d <;> simp_all [side]

theorem coin_total : ∑' i, expX (coinLp i) = 1 := by
  simp only [coinLp_exp, tsum_fintype, Fintype.sum_prod_type, Fintype.sum_bool]
  simp only [Bool.false_eq_true, Bool.true_eq_false, if_true, if_false]
  rw [← ENNReal.ofReal_add (by norm_num) (by norm_num), ← ENNReal.ofReal_add (by norm_num) (by norm_num),
    ← ENNReal.ofReal_add (by norm_num) (by norm_num)]
  norm_num

/-- A draw from the prior always succeeds. -/
theorem coin_drawn : Chance uniform01 (fun s s' => ∃ ch, sampleChromosome coinSem coinBN [] s =
    (.ok ch, s') ∧ True) 1 := by
  have h := chance_exists (fun i : Bool × Bool => C199_chromosome (μ := uniform01) coinSem (fun _ => rfl) coinBuilt coinStudy_sound.exo
    (coin_shadow (Or.inl rfl)) (fun x h => absurd h (coin_exo x)) (fun x hx => by cases hx)
    (coin_fair (side i.1) (side i.2) (coin_bit i.1))
    (coin_outcome _ _ (by intro x hx; cases hx) (by intro x v hx; cases hx)) (coinLp_eval i)) (by
      rintro i j s m m' ⟨ch, h1, h2, -⟩ ⟨ch', h3, h4, -⟩
      rw [h1] at h3
      cases h3
      exact coin_different i j (fun x => (h2 x).symm.trans (h4 x)))
  rw [coin_total] at h
  refine h.congr (fun s s' => ?_)
  constructor
  · rintro ⟨i, ch, h1, -⟩; exact ⟨ch, h1, trivial⟩
  · rintro ⟨ch, h1, -⟩
    obtain ⟨r1, k1, k2, k3⟩ := (C27_chromosome _ _ _ _ _ _).1 h1
    obtain ⟨i, hi⟩ := coin_all k1
    have hwf : r1.WF := by
      obtain ⟨od, -, heq⟩ := sample_supplied coinSem coinBuilt (cond := []) (fun x h => absurd h (coin_exo x))
      rw [heq s] at k1
      exact (sampleLoop_ok coinSem coinBN _ _ k1).2.2.1 coinStudy_sound.exo
    have h12 := (C26_order coinSem coinBN hwf
      (coin_outcome (side i.1) (side i.2) (cond := []) (by intro x hx; cases hx) (by intro x v hx; cases hx)).wf hi _).1 k3
    rw [show evaluateNodes coinSem coinBN (sides (side i.1) (side i.2)) = _ from coinLp_eval i] at h12
    exact ⟨i, ch, h1, by rw [k2]; exact hi, (Except.ok.inj h12).symm⟩

theorem coin_roots : coinBN.rvRoots = .ok (some ["a"]) := by decide +kernel

/-- The simulation measures how far the second coin is from 1; for its distance, `Domain` makes a draw from the prior. -/
theorem coin_run {i : Bool × Bool} {ch : Chromosome String Toy.TV ℝ} (h : ∀ x, ch.locus.get? x = (coinOut i).get? x)
    (s s' : ℝ) (p : Particle String Toy.TV ℝ → Prop) :
    (∃ pt, coinStudy.run ch s = (.ok pt, s') ∧ p pt) ↔ (∃ c, sampleChromosome coinSem coinBN [] s = (.ok c, s') ∧ True) ∧
      p ⟨.chrom ch, [("y", .fin (side i.2 : ℝ))], [("Xs", .xs [.num (side i.1)]), ("Ys", .ys [("y", .fin (side i.2 : ℝ))]),
        ("distance", .num (0 + (XR.fin (side i.2 : ℝ) - .fin 1).sq / .fin 1))]⟩ := by
  have h1 : coinStudy.simulate ch s = (.ok [("y", .fin (side i.2 : ℝ))], s) := by
    have hb : ch.locus.get? "b" = some (.num (side i.2)) := h "b"
    simp only [coinStudy, hb]
  have ha : (Pars.chrom ch).get? "a" = some (.num (side i.1)) := h "a"
  unfold Study.run
  rw [h1]
  cases hc : sampleChromosome coinSem coinBN [] s with
  | mk r s1 =>
    cases r with
    | error e =>
      have : coinStudy.model.calcDistance coinStudy.env (.new (.chrom ch) [("y", .fin (side i.2 : ℝ))]) s =
          (.new (.chrom ch) [("y", .fin (side i.2 : ℝ))], s1, .error e) := by
        unfold DataModel.calcDistance DataModel.calcNote DataModel.lookupYs DataModel.flatten DataModel.domain
        rw [samplePrior_eq, show sampleChromosome coinStudy.env.sem coinStudy.model.bn coinStudy.model.exo s = _ from hc]
        rfl
      simp only [this]
      simp
    | ok c =>
      have hd : coinStudy.model.domain coinStudy.env s = (.ok [⟨"a", .ninf, .pinf, 0, .fin 1⟩], s1) := by
        unfold DataModel.domain
        rw [samplePrior_eq, show sampleChromosome coinStudy.env.sem coinStudy.model.bn coinStudy.model.exo s = _ from hc]
        have hr : coinStudy.model.bn.rvRoots = .ok (some ["a"]) := coin_roots
        have hd : coinStudy.model.domainOf coinStudy.env c "a" = .ok ⟨"a", .ninf, .pinf, 0, .fin 1⟩ := by
          have h2 : coinStudy.model.bn.get "a" = .ok (.dist "a" (Toy.app "bern" [] [("q", Toy.int 2)]) []) := rfl
          have h3 : getDistribution coinStudy.env.sem (Toy.app "bern" [] [("q", Toy.int 2)]) c.locus.get? = .ok (bern 2) := by
            obtain ⟨r1, k1, k2, -⟩ := (C27_chromosome _ _ _ _ _ _).1 hc
            obtain ⟨j, hj⟩ := coin_all k1
            rw [show c.locus.get? = (coinOut j).get? from funext (fun x => by rw [k2, hj])]
            rfl
          unfold DataModel.domainOf
          rw [h2]
          simp only [bind, Except.bind, h3]
          rfl
        simp only [hr, List.mapM_cons, List.mapM_nil, hd]
        rfl
      have : coinStudy.model.calcDistance coinStudy.env (.new (.chrom ch) [("y", .fin (side i.2 : ℝ))]) s =
          (⟨.chrom ch, [("y", .fin (side i.2 : ℝ))], [("Xs", .xs [.num (side i.1)]), ("Ys", .ys [("y", .fin (side i.2 : ℝ))]),
            ("distance", .num (0 + (XR.fin (side i.2 : ℝ) - .fin 1).sq / .fin 1))]⟩, s1,
            .ok (.num (0 + (XR.fin (side i.2 : ℝ) - .fin 1).sq / .fin 1))) := by
        unfold DataModel.calcDistance DataModel.calcNote DataModel.lookupYs DataModel.flatten
        rw [hd]
        simp only [List.mapM_cons, List.mapM_nil, Particle.new]
        rw [ha]
        rfl
      simp only [this]
      simp only [Prod.mk.injEq, Except.ok.injEq]
      constructor
      · rintro ⟨pt, ⟨rfl, rfl⟩, h2⟩; exact ⟨⟨c, ⟨rfl, rfl⟩, trivial⟩, h2⟩
      · rintro ⟨⟨c', ⟨rfl, rfl⟩, -⟩, h2⟩; exact ⟨_, ⟨rfl, rfl⟩, h2⟩

theorem coin_distance (i : Bool × Bool) :
    (0 + (XR.fin (side i.2 : ℝ) - .fin 1).sq / .fin 1 : XR ℝ) = .fin (if i.2 then 0 else 1) := by
  obtain ⟨a, b⟩ := i
  cases b <;> simp [side, XR.sq, XR.fin_div_fin]

theorem coin_prior {accept : XR ℝ → Bool} {q : Bool → Bool} (hq : ∀ b, accept (.fin (if b then 0 else 1)) = q b) :
    Prior uniform01 coinStudy accept coinOut coinLp (fun i => if q i.2 then 1 else 0) where
  fair := fun i => coin_fair _ _ (coin_bit i.1)
  supplied := fun x h => absurd h (coin_exo x)
  free := fun x hx => by cases hx
  outcome := fun i => coin_outcome _ _ (by intro x hx; cases hx) (by intro x v hx; cases hx)
  logProb := coinLp_eval
  different := coin_different
  all := fun s s' r' h => coin_all h
  total := coin_total
  le_one := fun i => by split <;> simp
  near := by
    intro i ch h1 h2
    have e : ∀ s s', (∃ pt, coinStudy.run ch s = (.ok pt, s') ∧ accept (Study.distance pt) = true) ↔
        (∃ c, sampleChromosome coinSem coinBN [] s = (.ok c, s') ∧ True) ∧ q i.2 = true := by
      intro s s'
      rw [coin_run h1 s s' (fun pt => accept (Study.distance pt) = true), ← hq, ← coin_distance]
      rfl
    cases hi : q i.2 with
    | true =>
      rw [if_pos rfl]
      refine coin_drawn.congr (fun s s' => ?_)
      rw [e, hi]; simp
    | false =>
      rw [if_neg (by simp)]
      refine Chance.never (fun s s' h => ?_)
      have := ((e s s').1 h).2
      rw [hi] at this
      cases this
  far := by
    intro i ch h1 h2
    have e : ∀ s s', (∃ pt, coinStudy.run ch s = (.ok pt, s') ∧ accept (Study.distance pt) = false) ↔
        (∃ c, sampleChromosome coinSem coinBN [] s = (.ok c, s') ∧ True) ∧ q i.2 = false := by
      intro s s'
      rw [coin_run h1 s s' (fun pt => accept (Study.distance pt) = false), ← hq, ← coin_distance]
      rfl
    cases hi : q i.2 with
    | true =>
      rw [if_pos rfl, tsub_self]
      refine Chance.never (fun s s' h => ?_)
      have := ((e s s').1 h).2
      rw [hi] at this
      cases this
    | false =>
      rw [if_neg (by simp), tsub_zero]
      refine coin_drawn.congr (fun s s' => ?_)
      rw [e, hi]; simp

/-- Of two coins of which the second has been seen to show 1, the first shows 1 with probability 3/4. -/
example : Chance uniform01 (fun s s' => ∃ post n, Ends (fun f =>
      Abc.collect coinStudy.smcEnv.toSimEnv (.fin (1 / 2)) f true 2) s (post, n) s' ∧
      List.Forall₂ (fun pt i => Has (coinOut i) pt) post [(true, true), (false, true)])
    (ENNReal.ofReal (3 / 4) * ENNReal.ofReal (1 / 4)) := by
  have h := C220 coinStudy_sound (eps := .fin (1 / 2)) rfl (coin_prior (accept := fun d => !XR.lt (.fin (1 / 2)) d)
    (q := fun b => b) (by intro b; cases b <;> norm_num [XR.lt])) true [(true, true), (false, true)]
  refine cast ?_ h
  congr 1
  simp only [coinLp_exp, tsum_fintype, Fintype.sum_prod_type, Fintype.sum_bool, List.map_cons, List.map_nil,
    List.prod_cons, List.prod_nil]
  simp only [Bool.false_eq_true, Bool.true_eq_false, if_true, if_false, mul_one, mul_zero, add_zero]
  rw [← ENNReal.ofReal_add (by norm_num) (by norm_num), ← ENNReal.ofReal_div_of_pos (by norm_num),
    ← ENNReal.ofReal_div_of_pos (by norm_num)]
  norm_num

/-- The first particles of ABC-SMC, whose distances are all finite, have the prior law. -/
example : Chance uniform01 (fun s s' => ∃ st, Ends (fun f => Smc.initialise coinStudy.smcEnv
      { nIter := 1, parallel := false, alpha := 9 / 10, pThres := 6 / 10, maxRound := 2, maxStay := 3, minAcc := 1 / 10 }
      f none) s st s' ∧ List.Forall₂ (fun pt i => Has (coinOut i) pt.val) st.pts [(true, false)])
    (ENNReal.ofReal (1 / 8)) := by
  have h := C220_first coinStudy_sound (set := ⟨1, false, 9 / 10, 6 / 10, 2, 3, 1 / 10⟩) (coin_prior (accept := fun d => !d.isInf)
    (q := fun _ => true) (by intro b; rfl)) [(true, false)] rfl (by simp)
  refine cast ?_ h
  congr 1
  simp only [if_true, mul_one, List.map_cons, List.map_nil, List.prod_cons, List.prod_nil]
  rw [coin_total, coinLp_exp, div_one]
  simp

end Props.LawsBayes
