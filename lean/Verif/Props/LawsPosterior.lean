import Verif.Props.LawsBayes
import Verif.Props.LawsDensity

/-!
# The law of the posterior of a data model with continuous parameters: C244

Rejection ABC on a data model whose random variables have densities, from the distributions of the nodes to the particles
collected.
-/

namespace Props.LawsPosterior

set_option linter.unusedSectionVars false

open Py Spec Model MeasureTheory Props.LawsAbc Props.Laws Props.Sampling Props.Assembled Props.LawsBayes Props.LawsDensity

variable {N V C O S D ι : Type} [DecidableEq N] [MeasurableSpace V] [MeasurableSpace S]

/-- The assignments of the network of a study with the log densities that `evaluate_nodes` reports, and for each that is
possible the chance `q` that a simulation gives an accepted distance. -/
structure Prior (μ : Measure S) (ν : N → Measure V) (u : Study N V C O S ℝ D) (accept : XR ℝ → Bool)
    (r : (N → V) → Dict N V) (lp : (N → V) → XR ℝ) (q : (N → V) → ENNReal) (drawn : Finset N) (φ : N → V) : Prop where
  family : Family μ ν u.env.sem u.model.bn u.model.exo r
  supplied : ∀ x, Exogenous u.model.bn x → x ∈ u.model.exo.keys
  free : ∀ x ∈ u.model.exo.keys, ¬ u.model.bn.Rv x
  vars : ∀ x, x ∈ drawn ↔ u.model.bn.Rv x
  logProb : ∀ ψ, evaluateNodes u.env.sem u.model.bn (r ψ) = .ok (lp ψ)
  order : ∀ ψ s s' r', sample u.env.sem u.model.bn u.model.exo s = (.ok r', s') → r'.keys = (r ψ).keys
  total : (∫⋯∫⁻_drawn, (fun ψ => expX (lp ψ)) ∂ν) φ = 1
  le_one : ∀ ψ, q ψ ≤ 1
  measurable_q : Measurable q
  near : ∀ ψ, expX (lp ψ) ≠ 0 → Chance μ (fun s s' => ∃ pt, u.run ⟨r ψ, lp ψ⟩ s = (.ok pt, s') ∧ accept (Study.distance pt) = true) (q ψ)
  far : ∀ ψ, expX (lp ψ) ≠ 0 → Chance μ (fun s s' => ∃ pt, u.run ⟨r ψ, lp ψ⟩ s = (.ok pt, s') ∧ accept (Study.distance pt) = false)
    (1 - q ψ)
  runs : ∀ b B, MeasurableSet B → MeasurableSet {p : (N → V) × S | ∃ pt s', s' ∈ B ∧
    u.run ⟨r p.1, lp p.1⟩ p.2 = (.ok pt, s') ∧ accept (Study.distance pt) = b}

section Try

variable {μ : Measure S} [IsProbabilityMeasure μ] {ν : N → Measure V} [∀ x, SigmaFinite (ν x)] {u : Study N V C O S ℝ D}
  {accept : XR ℝ → Bool} {r : (N → V) → Dict N V} {lp : (N → V) → XR ℝ} {q : (N → V) → ENNReal} {drawn : Finset N}
  {φ : N → V}

theorem Prior.drawn' (hp : Prior μ ν u accept r lp q drawn φ) (x : N) :
    x ∈ drawn ↔ u.model.bn.Rv x ∧ x ∉ u.model.exo.keys :=
  (hp.vars x).trans ⟨fun h => ⟨h, fun hx => hp.free x hx h⟩, fun h => h.1⟩

theorem Prior.prod (hu : Sound u) (hp : Prior μ ν u accept r lp q drawn φ) (ψ : N → V) :
    ∏ x ∈ drawn, nodeDens u.env.sem u.model.bn x (r ψ) = expX (lp ψ) :=
  prod_eq_expX hu.ready (hp.family.outcome ψ) hp.free hp.drawn' (hp.logProb ψ)

theorem Prior.measurable (hu : Sound u) (hp : Prior μ ν u accept r lp q drawn φ) : Measurable (fun ψ => expX (lp ψ)) := by
  have e : (fun ψ => expX (lp ψ)) = fun ψ => ∏ x ∈ drawn, nodeDens u.env.sem u.model.bn x (r ψ) :=
    funext (fun ψ => (hp.prod hu ψ).symm)
  rw [e]
  exact Finset.measurable_fun_prod _ (fun x hx => hp.family.density x ((hp.drawn' x).1 hx).1 ((hp.drawn' x).1 hx).2)

/-- One try: an assignment is drawn, and something of known chance happens in its simulation. -/
theorem try_density (hu : Sound u) (hp : Prior μ ν u accept r lp q drawn φ) (b : Bool) {c : (N → V) → ENNReal}
    (hcm : Measurable c) (hc : ∀ ψ, expX (lp ψ) ≠ 0 → Chance μ (fun s s' => ∃ pt, u.run ⟨r ψ, lp ψ⟩ s = (.ok pt, s') ∧ accept (Study.distance pt) = b) (c ψ))
    {E : Set (N → Option V)} (hE : MeasurableSet {ψ | (r ψ).get? ∈ E}) :
    Chance μ (fun s s' => ∃ pt, u.prior s = (.ok pt, s') ∧ accept (Study.distance pt) = b ∧ (Study.locus pt).get? ∈ E)
      ((∫⋯∫⁻_drawn, (fun ψ => expX (lp ψ) * ({ψ | (r ψ).get? ∈ E}.indicator 1 ψ * c ψ)) ∂ν) φ) := by
  intro B hB
  have hH : MeasurableSet ({p : (N → V) × S | (r p.1).get? ∈ E} ∩ {p : (N → V) × S | ∃ pt s', s' ∈ B ∧
      u.run ⟨r p.1, lp p.1⟩ p.2 = (.ok pt, s') ∧ accept (Study.distance pt) = b}) :=
    (measurable_fst hE).inter (hp.runs b B hB)
  obtain ⟨h1, h2, h3⟩ := C243_joint u.env.sem hu.closed hu.ready hu.noShadow hp.supplied hp.family hp.drawn' hH φ
  have hset : {s | ∃ s' ∈ B, ∃ pt, u.prior s = (.ok pt, s') ∧ accept (Study.distance pt) = b ∧
      (Study.locus pt).get? ∈ E} = {s | ∃ ψ r' s', (∀ y, y ∉ drawn → ψ y = φ y) ∧
        sample u.env.sem u.model.bn u.model.exo s = (.ok r', s') ∧ r'.get? = (r ψ).get? ∧
        (ψ, s') ∈ ({p : (N → V) × S | (r p.1).get? ∈ E} ∩ {p : (N → V) × S | ∃ pt s', s' ∈ B ∧
          u.run ⟨r p.1, lp p.1⟩ p.2 = (.ok pt, s') ∧ accept (Study.distance pt) = b})} := by
    ext s
    constructor
    · rintro ⟨s', k1, pt, k2, k3, k4⟩
      unfold Study.prior at k2
      rw [samplePrior_eq] at k2
      split at k2
      · cases k2
      · rename_i ch m k5
        obtain ⟨r', k6, k7, k8⟩ := (C27_chromosome _ _ _ _ _ _).1 k5
        obtain ⟨ψ, k9, k10⟩ := h3 s r' m k6
        have k11 : r' = r ψ := (dict_eq (hp.family.outcome ψ).wf (hp.order ψ _ _ _ k6).symm
          (fun x => (congrFun k10 x).symm)).symm
        have k12 : ch = ⟨r ψ, lp ψ⟩ := by
          rw [k11, hp.logProb] at k8
          cases ch
          simp only [Except.ok.injEq] at k7 k8
          rw [k7, k11, k8]
        rw [k12] at k2
        refine ⟨ψ, r', m, k9, k6, k10, ?_, pt, s', k1, k2, k3⟩
        have k13 := (run_ok k2).1
        rw [Study.locus, k13] at k4
        exact k4
    · rintro ⟨ψ, r', m, -, k6, k10, k4, pt, s', k1, k2, k3⟩
      have k11 : r' = r ψ := (dict_eq (hp.family.outcome ψ).wf (hp.order ψ _ _ _ k6).symm
        (fun x => (congrFun k10 x).symm)).symm
      have k5 : sampleChromosome u.env.sem u.model.bn u.model.exo s = (.ok ⟨r ψ, lp ψ⟩, m) :=
        (C27_chromosome _ _ _ _ _ _).2 ⟨r', k6, k11.symm, by rw [k11]; exact hp.logProb ψ⟩
      refine ⟨s', k1, pt, ?_, k3, ?_⟩
      · unfold Study.prior
        rw [samplePrior_eq, k5]
        exact k2
      · have k13 := (run_ok k2).1
        rw [Study.locus, k13]
        exact k4
  rw [hset]
  refine ⟨h1, h2.trans ?_⟩
  have hm : Measurable (fun ψ => expX (lp ψ) * ({ψ | (r ψ).get? ∈ E}.indicator 1 ψ * c ψ)) :=
    (hp.measurable hu).mul ((measurable_one.indicator hE).mul hcm)
  rw [← lmarginal_mul_const drawn hm]
  congr 1
  congr 1
  funext ψ
  rw [hp.prod hu, mul_assoc]
  by_cases hz : expX (lp ψ) = 0
  · rw [hz, zero_mul, zero_mul]
  congr 1
  by_cases hψ : (r ψ).get? ∈ E
  · have h4 := (hc ψ hz B hB).2
    simp only [Set.mem_inter_iff, Set.mem_ofPred_eq, hψ, true_and, Set.indicator, if_true, Pi.one_apply, one_mul]
    rw [← h4]
    congr 1
    ext s
    constructor
    · rintro ⟨pt, s', k1, k2, k3⟩; exact ⟨s', k1, pt, k2, k3⟩
    · rintro ⟨s', k1, pt, k2, k3⟩; exact ⟨pt, s', k1, k2, k3⟩
  · simp [hψ]

theorem lmarginal_add (s : Finset N) (f : (N → V) → ENNReal) {g : (N → V) → ENNReal} (hg : Measurable g) (φ : N → V) :
    (∫⋯∫⁻_s, (fun ψ => f ψ + g ψ) ∂ν) φ = (∫⋯∫⁻_s, f ∂ν) φ + (∫⋯∫⁻_s, g ∂ν) φ := by
  unfold lmarginal
  exact lintegral_add_right _ (hg.comp measurable_updateFinset)

/-- A try is refused with the chance that its simulation is, averaged over the assignments. -/
theorem refused_density (hu : Sound u) (hp : Prior μ ν u accept r lp q drawn φ) :
    Chance μ (fun s s' => ∃ pt, u.prior s = (.ok pt, s') ∧ accept (Study.distance pt) = false)
      (1 - (∫⋯∫⁻_drawn, (fun ψ => expX (lp ψ) * q ψ) ∂ν) φ) := by
  have h := try_density hu hp false (c := fun ψ => 1 - q ψ) (measurable_const.sub hp.measurable_q) hp.far (E := Set.univ) (by simp)
  have hq := hp.measurable_q
  have hf := hp.measurable hu
  have e : (∫⋯∫⁻_drawn, (fun ψ => expX (lp ψ) * ({ψ | (r ψ).get? ∈ Set.univ}.indicator 1 ψ * (1 - q ψ))) ∂ν) φ =
      1 - (∫⋯∫⁻_drawn, (fun ψ => expX (lp ψ) * q ψ) ∂ν) φ := by
    have h1 : (∫⋯∫⁻_drawn, (fun ψ => expX (lp ψ) * ({ψ | (r ψ).get? ∈ Set.univ}.indicator 1 ψ * (1 - q ψ))) ∂ν) φ +
        (∫⋯∫⁻_drawn, (fun ψ => expX (lp ψ) * q ψ) ∂ν) φ = 1 := by
      refine (lmarginal_add _ _ (g := fun ψ => expX (lp ψ) * q ψ) (hf.mul hq) φ).symm.trans ?_
      refine Eq.trans ?_ hp.total
      congr 1
      congr 1
      funext ψ
      simp only [Set.mem_univ, Set.ofPred_true, Set.indicator_univ, Pi.one_apply, one_mul]
      rw [← mul_add, tsub_add_cancel_of_le (hp.le_one _), mul_one]
    refine ENNReal.eq_sub_of_add_eq ?_ h1
    intro h2
    rw [h2] at h1
    simp at h1
  rw [e] at h
  exact h.congr (fun s s' => by simp)

theorem Prior.le (hp : Prior μ ν u accept r lp q drawn φ) :
    (∫⋯∫⁻_drawn, (fun ψ => expX (lp ψ) * q ψ) ∂ν) φ ≤ 1 := by
  rw [← hp.total]
  exact lmarginal_mono (fun ψ => mul_le_of_le_one_right' (hp.le_one ψ)) φ

end Try

/-- **C244**: the particles that rejection ABC collects on a data model with continuous parameters are independent, and the
parameters of each have a density in proportion to that which `evaluate_nodes` reports times the chance that a simulation
with them is within the tolerance. -/
theorem C244 {μ : Measure S} [IsProbabilityMeasure μ] {ν : N → Measure V} [∀ x, SigmaFinite (ν x)]
    {u : Study N V C O S ℝ D} (hu : Sound u) {eps : XR ℝ} (he : XR.lt eps .pinf = true) {r : (N → V) → Dict N V}
    {lp : (N → V) → XR ℝ} {q : (N → V) → ENNReal} {drawn : Finset N} {φ : N → V}
    (hp : Prior μ ν u (fun d => !XR.lt eps d) r lp q drawn φ) (E : ι → Set (N → Option V))
    (hE : ∀ i, MeasurableSet {ψ | (r ψ).get? ∈ E i}) (parallel : Bool) (is : List ι) :
    Chance μ (fun s s' => ∃ post n, Ends (fun f => Abc.collect u.smcEnv.toSimEnv eps f parallel is.length) s (post, n) s' ∧
        List.Forall₂ (fun pt i => (Study.locus pt).get? ∈ E i) post is)
      ((is.map (fun i => (∫⋯∫⁻_drawn, (fun ψ => expX (lp ψ) * ({ψ | (r ψ).get? ∈ E i}.indicator 1 ψ * q ψ)) ∂ν) φ /
        (∫⋯∫⁻_drawn, (fun ψ => expX (lp ψ) * q ψ) ∂ν) φ)).prod) := by
  letI : MeasurableSpace (Particle N V ℝ) := ⊤
  have h1 : ∀ i, Chance μ (fun s s' => ∃ a, Ends (sampleEss u.smcEnv.toSimEnv eps) s a s' ∧
      (Study.locus a.2.1).get? ∈ E i)
      ((∫⋯∫⁻_drawn, (fun ψ => expX (lp ψ) * ({ψ | (r ψ).get? ∈ E i}.indicator 1 ψ * q ψ)) ∂ν) φ /
        (∫⋯∫⁻_drawn, (fun ψ => expX (lp ψ) * q ψ) ∂ν) φ) := by
    intro i
    have h2 := try_density hu hp true hp.measurable_q hp.near (hE i)
    have h3 := refused_density hu hp
    have h4 := Rejects.chance (ess_rejects u.smcEnv.toSimEnv eps) (fun pt => (Study.locus pt).get? ∈ E i)
      (h2.congr (fun s s' => by simp only [Bool.not_eq_true']; rfl))
      (h3.congr (fun s s' => by simp only [Bool.not_eq_false']; rfl))
    rw [ENNReal.sub_sub_cancel ENNReal.one_ne_top hp.le, ← ess_eq u.smcEnv.toSimEnv he] at h4
    exact h4
  refine (times_chance (ess_mono u.smcEnv.toSimEnv eps) (fun a i => (Study.locus a.2.1).get? ∈ E i) _ h1 is).congr
    (fun s s' => ?_)
  simp only [collect_eq]
  constructor
  · rintro ⟨rs, ⟨f, h1⟩, h2⟩
    refine ⟨rs.map (·.2.1), (rs.map (·.2.2)).sum, ⟨f, Run.bind_ok.2 ⟨rs, s', h1, rfl⟩⟩, ?_⟩
    rw [List.forall₂_map_left_iff]
    exact h2
  · rintro ⟨post, n, ⟨f, h1⟩, h2⟩
    obtain ⟨rs, m, h3, h4⟩ := Run.bind_ok.1 h1
    obtain ⟨h5, rfl⟩ := Run.pure_ok.1 h4
    cases h5
    rw [List.forall₂_map_left_iff] at h2
    exact ⟨rs, ⟨f, h3⟩, h2⟩

/-- **C244** (ABC-SMC): so are the first particles of ABC-SMC, with the chance that the distance is finite. -/
theorem C244_first {μ : Measure S} [IsProbabilityMeasure μ] {ν : N → Measure V} [∀ x, SigmaFinite (ν x)]
    {u : Study N V C O S ℝ D} (hu : Sound u) {set : SmcSettings ℝ} {r : (N → V) → Dict N V}
    {lp : (N → V) → XR ℝ} {q : (N → V) → ENNReal} {drawn : Finset N} {φ : N → V}
    (hp : Prior μ ν u (fun d => !d.isInf) r lp q drawn φ) (E : ι → Set (N → Option V))
    (hE : ∀ i, MeasurableSet {ψ | (r ψ).get? ∈ E i}) (is : List ι) (hlen : is.length = set.nIter) (hn : is ≠ []) :
    Chance μ (fun s s' => ∃ st, Ends (fun f => Smc.initialise u.smcEnv set f none) s st s' ∧
        List.Forall₂ (fun pt i => (Study.locus pt.val).get? ∈ E i) st.pts is)
      ((is.map (fun i => (∫⋯∫⁻_drawn, (fun ψ => expX (lp ψ) * ({ψ | (r ψ).get? ∈ E i}.indicator 1 ψ * q ψ)) ∂ν) φ /
        (∫⋯∫⁻_drawn, (fun ψ => expX (lp ψ) * q ψ) ∂ν) φ)).prod) := by
  letI : MeasurableSpace (Particle N V ℝ) := ⊤
  have hne : set.nIter ≠ 0 := by
    rw [← hlen]
    exact fun h => hn (List.length_eq_zero_iff.1 h)
  have h1 : ∀ i, Chance μ (fun s s' => ∃ a, Ends (fun f => sampleFin u.smcEnv.toSimEnv f 0) s a s' ∧
      (Study.locus a.2.1).get? ∈ E i)
      ((∫⋯∫⁻_drawn, (fun ψ => expX (lp ψ) * ({ψ | (r ψ).get? ∈ E i}.indicator 1 ψ * q ψ)) ∂ν) φ /
        (∫⋯∫⁻_drawn, (fun ψ => expX (lp ψ) * q ψ) ∂ν) φ) := by
    intro i
    have h2 := try_density hu hp true hp.measurable_q hp.near (hE i)
    have h3 := refused_density hu hp
    have h4 := Rejects.chance (fin_rejects u.smcEnv.toSimEnv) (fun pt => (Study.locus pt).get? ∈ E i)
      (h2.congr (fun s s' => by simp only [Bool.not_eq_true']; rfl))
      (h3.congr (fun s s' => by simp only [Bool.not_eq_false']; rfl))
    rw [ENNReal.sub_sub_cancel ENNReal.one_ne_top hp.le] at h4
    exact h4
  refine (times_chance ((fin_rejects u.smcEnv.toSimEnv).mono 0) (fun a i => (Study.locus a.2.1).get? ∈ E i) _ h1 is).congr
    (fun s s' => ?_)
  constructor
  · rintro ⟨rs, h1, h2⟩
    refine ⟨_, (Props.LawsSmc.init_ends hne).2 ⟨rs, by rw [← hlen]; exact h1, rfl⟩, ?_⟩
    rw [List.forall₂_map_left_iff]
    exact h2
  · rintro ⟨st, h1, h2⟩
    obtain ⟨rs, h3, rfl⟩ := (Props.LawsSmc.init_ends hne).1 h1
    rw [List.forall₂_map_left_iff] at h2
    exact ⟨rs, by rw [hlen]; exact h3, h2⟩

/-! ### An example: a mean and a measurement that is observed -/

/-- Choices for the example: the first index of positive probability. -/
noncomputable def streamRand : Rand (ℕ → ℝ) ℝ where
  random := fun s => (1 / 2, s)
  pick := fun p n s => (List.replicate n (p.findIdx (fun w => XR.lt (.fin 0) w)), s)

theorem streamRand_honest : streamRand.Honest where
  random := fun s => ⟨by norm_num [streamRand], by norm_num [streamRand]⟩
  size := fun p n s _ => by simp [streamRand]
  support := by
    intro p n s hv i hi
    obtain ⟨w, hw, hpos⟩ := Lemmas.exists_pos_of_valid p hv
    have hlt : p.findIdx (fun w => XR.lt (.fin 0) w) < p.length := List.findIdx_lt_length.2 ⟨w, hw, hpos⟩
    simp only [streamRand, List.mem_replicate] at hi
    rw [hi.2]
    exact ⟨_, List.getElem?_eq_getElem hlt, List.findIdx_getElem⟩

/-- A study of the mean and the measurement, whose simulation reports the measurement; 1 was observed. -/
noncomputable def normStudy : Study String ℝ ℝ Unit (ℕ → ℝ) ℝ Unit where
  env := {
    sem := normSem
    ops := ⟨fun _ => 0, fun _ => .fin 1, fun _ x => x⟩
    isFloat := fun _ => true
    support := fun _ => .ok (.ninf, .pinf, 0, .fin 1) }
  model := { data := [("y", .pointError "y" (.fin 1) (.fin 1) (.fin 1))], bn := normBN, exo := [], free := ["mu"] }
  simulate := fun ch s => match ch.locus.get? "x" with
    | some n => (.ok [("y", .fin n)], s)
    | none => (.error .KeyError, s)
  isNone := fun _ => false
  ops := ⟨fun _ => .error .TypeError, fun _ _ => .error .TypeError⟩
  normal := fun sd s => (sd, s)
  sqrt := id
  rng := streamRand

theorem normStudy_sound : Sound normStudy where
  closed := fun _ => rfl
  ready := normBuilt
  exo := by
    show (Dict.keys ([] : Dict String ℝ)).Nodup
    exact List.nodup_nil
  noShadow := noShadow_of_check (by rfl)
  rng := streamRand_honest

theorem norm_sample (s : ℕ → ℝ) : sample normSem normBN [] s =
    (.ok (normAssign (fun x => if x = "mu" then 0 + 0 + s 0 else
      0 + 0 + s 0 + (0 + 0 + s 0 + 0) + 0 + tail s 0)), tail (tail s)) := rfl

theorem norm_run (ψ : String → ℝ) (s : ℕ → ℝ) : normStudy.run ⟨normAssign ψ, normLp ψ⟩ s =
    (.ok ⟨.chrom ⟨normAssign ψ, normLp ψ⟩, [("y", .fin (ψ "x"))], [("Xs", .xs [ψ "mu"]), ("Ys", .ys [("y", .fin (ψ "x"))]),
        ("distance", .num (0 + (XR.fin (ψ "x") - .fin 1).sq / .fin 1))]⟩, tail (tail s)) := rfl

theorem tail_keeps : stream.map tail = stream := by
  have h := congrArg (Measure.map Prod.snd) stream_split
  rw [Measure.map_map measurable_snd ((measurable_pi_apply 0).prodMk measurable_tail)] at h
  have e : (Prod.snd ∘ fun s : ℕ → ℝ => (s 0, tail s)) = tail := rfl
  rw [e, Measure.map_snd_prod] at h
  rw [h]
  simp

theorem tails_keep {B : Set (ℕ → ℝ)} (hB : MeasurableSet B) : stream {s | tail (tail s) ∈ B} = stream B := by
  have h1 : stream (tail ⁻¹' (tail ⁻¹' B)) = stream (tail ⁻¹' B) := by
    conv_rhs => rw [← tail_keeps]
    rw [Measure.map_apply measurable_tail (measurable_tail hB)]
  have h2 : stream (tail ⁻¹' B) = stream B := by
    conv_rhs => rw [← tail_keeps]
    rw [Measure.map_apply measurable_tail hB]
  exact h1.trans h2

theorem norm_distance (x : ℝ) : (0 + (XR.fin x - .fin 1).sq / .fin 1 : XR ℝ) = .fin ((x - 1) * (x - 1)) := by
  simp [XR.sq, XR.fin_div_fin]

/-- The measurement is close enough to what was observed. -/
noncomputable def close (acc : XR ℝ → Bool) (ψ : String → ℝ) : ENNReal :=
  if acc (.fin ((ψ "x" - 1) * (ψ "x" - 1))) = true then 1 else 0

theorem norm_runs (acc : XR ℝ → Bool) (ψ : String → ℝ) (b : Bool) (s s' : ℕ → ℝ) :
    (∃ pt, normStudy.run ⟨normAssign ψ, normLp ψ⟩ s = (.ok pt, s') ∧ acc (Study.distance pt) = b) ↔
      tail (tail s) = s' ∧ acc (.fin ((ψ "x" - 1) * (ψ "x" - 1))) = b := by
  rw [norm_run, ← norm_distance]
  constructor
  · rintro ⟨pt, h1, h2⟩
    simp only [Prod.mk.injEq, Except.ok.injEq] at h1
    obtain ⟨rfl, rfl⟩ := h1
    exact ⟨rfl, h2⟩
  · rintro ⟨rfl, h⟩
    exact ⟨_, rfl, h⟩

theorem norm_chance (acc : XR ℝ → Bool) (ψ : String → ℝ) (b : Bool) :
    Chance stream (fun s s' => ∃ pt, normStudy.run ⟨normAssign ψ, normLp ψ⟩ s = (.ok pt, s') ∧
      acc (Study.distance pt) = b) (if acc (.fin ((ψ "x" - 1) * (ψ "x" - 1))) = b then 1 else 0) := by
  intro B hB
  have hset : {s | ∃ s' ∈ B, ∃ pt, normStudy.run ⟨normAssign ψ, normLp ψ⟩ s = (.ok pt, s') ∧
      acc (Study.distance pt) = b} =
      {s | tail (tail s) ∈ B ∧ acc (.fin ((ψ "x" - 1) * (ψ "x" - 1))) = b} := by
    ext s
    simp only [norm_runs, Set.mem_ofPred_eq]
    constructor
    · rintro ⟨s', h1, rfl, h2⟩; exact ⟨h1, h2⟩
    · rintro ⟨h1, h2⟩; exact ⟨_, h1, rfl, h2⟩
  rw [hset]
  by_cases hb : acc (.fin ((ψ "x" - 1) * (ψ "x" - 1))) = b
  · simp only [hb, and_true, if_true, one_mul]
    exact ⟨(measurable_tail.comp measurable_tail) hB, tails_keep hB⟩
  · simp [hb]

theorem norm_total (φ : String → ℝ) :
    (∫⋯∫⁻_{"mu", "x"}, (fun ψ : String → ℝ => expX (normLp ψ)) ∂(fun _ => volume)) φ = 1 := by
  have e : ∀ ψ, expX (normLp ψ) = ProbabilityTheory.gaussianPDF 0 1 (ψ "mu") *
      ProbabilityTheory.gaussianPDF (ψ "mu" + ψ "mu") 1 (ψ "x") := by
    intro ψ
    simp only [normLp, expX, add_zero, zero_add, ProbabilityTheory.gaussianPDF]
    rw [Real.exp_add, Real.exp_log (ProbabilityTheory.gaussianPDFReal_pos _ _ _ one_ne_zero),
      Real.exp_log (ProbabilityTheory.gaussianPDFReal_pos _ _ _ one_ne_zero),
      ENNReal.ofReal_mul (ProbabilityTheory.gaussianPDFReal_nonneg _ _ _)]
  have hm : Measurable (fun ψ : String → ℝ => expX (normLp ψ)) := by
    have hpdf : Measurable (fun p : ℝ × ℝ => ProbabilityTheory.gaussianPDF p.1 1 p.2) := by
      unfold ProbabilityTheory.gaussianPDF ProbabilityTheory.gaussianPDFReal
      fun_prop
    simp only [e]
    have h1 : Measurable (fun ψ : String → ℝ => ψ "mu") := measurable_pi_apply _
    have h2 : Measurable (fun ψ : String → ℝ => ψ "x") := measurable_pi_apply _
    exact ((ProbabilityTheory.measurable_gaussianPDF 0 1).comp h1).mul (Measurable.comp
      (g := fun p : ℝ × ℝ => ProbabilityTheory.gaussianPDF p.1 1 p.2)
      (f := fun ψ : String → ℝ => (ψ "mu" + ψ "mu", ψ "x")) hpdf ((h1.add h1).prodMk h2))
  rw [lmarginal_insert _ hm (by decide)]
  simp only [lmarginal_singleton, e]
  have h1 : ∀ a b : ℝ, Function.update (Function.update φ "mu" a) "x" b "mu" = a := by intro a b; simp
  have h2 : ∀ a b : ℝ, Function.update (Function.update φ "mu" a) "x" b "x" = b := by intro a b; simp
  simp only [h1, h2]
  have h3 : ∀ a : ℝ, ∫⁻ b, ProbabilityTheory.gaussianPDF 0 1 a * ProbabilityTheory.gaussianPDF (a + a) 1 b =
      ProbabilityTheory.gaussianPDF 0 1 a := by
    intro a
    rw [lintegral_const_mul _ (ProbabilityTheory.measurable_gaussianPDF _ _),
      ProbabilityTheory.lintegral_gaussianPDF_eq_one _ one_ne_zero, mul_one]
  simp only [h3]
  exact ProbabilityTheory.lintegral_gaussianPDF_eq_one _ one_ne_zero

theorem norm_prior {acc : XR ℝ → Bool} (hacc : MeasurableSet {x : ℝ | acc (.fin ((x - 1) * (x - 1))) = true})
    (φ : String → ℝ) : Prior stream (fun _ => volume) normStudy acc normAssign normLp (close acc) {"mu", "x"} φ where
  family := norm_family
  supplied := fun x h => absurd h (norm_exo x)
  free := fun x hx => by cases hx
  vars := norm_rv
  logProb := norm_eval
  order := by
    intro ψ s s' r' h
    have h := (norm_sample s).symm.trans h
    simp only [Prod.mk.injEq, Except.ok.injEq] at h
    rw [← h.1]
    rfl
  total := norm_total φ
  le_one := fun ψ => by unfold close; split <;> simp
  measurable_q := by
    have h1 : Measurable (fun ψ : String → ℝ => ψ "x") := measurable_pi_apply "x"
    have h2 : Measurable (fun x : ℝ => if acc (.fin ((x - 1) * (x - 1))) = true then (1 : ENNReal) else 0) :=
      Measurable.ite hacc measurable_const measurable_const
    exact h2.comp h1
  near := fun ψ _ => norm_chance acc ψ true
  far := fun ψ _ => by
    have h := norm_chance acc ψ false
    unfold close
    split <;> rename_i hh <;> simpa [hh] using h
  runs := by
    intro b B hB
    have hset : {p : (String → ℝ) × (ℕ → ℝ) | ∃ pt s', s' ∈ B ∧
        normStudy.run ⟨normAssign p.1, normLp p.1⟩ p.2 = (.ok pt, s') ∧ acc (Study.distance pt) = b} =
        {p | tail (tail p.2) ∈ B} ∩ {p | acc (.fin ((p.1 "x" - 1) * (p.1 "x" - 1))) = b} := by
      ext p
      constructor
      · rintro ⟨pt, s', h1, h2, h3⟩
        obtain ⟨rfl, h4⟩ := (norm_runs acc p.1 b p.2 s').1 ⟨pt, h2, h3⟩
        exact ⟨h1, h4⟩
      · rintro ⟨h1, h2⟩
        obtain ⟨pt, h3, h4⟩ := (norm_runs acc p.1 b p.2 _).2 ⟨rfl, h2⟩
        exact ⟨pt, _, h1, h3, h4⟩
    rw [hset]
    refine MeasurableSet.inter (((measurable_tail.comp measurable_tail).comp measurable_snd) hB) ?_
    have hx : Measurable (fun p : (String → ℝ) × (ℕ → ℝ) => p.1 "x") := (measurable_pi_apply "x").comp measurable_fst
    have hle : MeasurableSet {p : (String → ℝ) × (ℕ → ℝ) | acc (.fin ((p.1 "x" - 1) * (p.1 "x" - 1))) = true} :=
      hx hacc
    cases b with
    | true => exact hle
    | false =>
      have h2 := hle.compl
      simpa [Set.compl_def] using h2

theorem within_measurable : MeasurableSet {x : ℝ | (!XR.lt (.fin 1) (.fin ((x - 1) * (x - 1)))) = true} := by
  have h : {x : ℝ | (!XR.lt (.fin 1) (.fin ((x - 1) * (x - 1)))) = true} = {x : ℝ | (x - 1) * (x - 1) ≤ 1} := by
    ext x
    simp [XR.lt]
  rw [h]
  exact measurableSet_le (by fun_prop) measurable_const

example : Chance stream (fun s s' => ∃ post n,
      Ends (fun f => Abc.collect normStudy.smcEnv.toSimEnv (.fin 1) f false 2) s (post, n) s' ∧
        List.Forall₂ (fun pt (_ : Unit) => (Study.locus pt).get? ∈ below) post [(), ()])
    (([(), ()].map (fun _ => (∫⋯∫⁻_{"mu", "x"}, (fun ψ : String → ℝ => expX (normLp ψ) *
        ({ψ | (normAssign ψ).get? ∈ below}.indicator 1 ψ * close (fun d => !XR.lt (.fin 1) d) ψ))
          ∂(fun _ => volume)) (fun _ => 0) /
      (∫⋯∫⁻_{"mu", "x"}, (fun ψ : String → ℝ => expX (normLp ψ) * close (fun d => !XR.lt (.fin 1) d) ψ)
          ∂(fun _ => volume)) (fun _ => 0))).prod) :=
  C244 normStudy_sound rfl (norm_prior within_measurable (fun _ => 0)) (fun _ : Unit => below)
    (fun _ => below_measurable) false [(), ()]

-- every distance is a number, so the first particles are as the prior: `x ≤ mu` three times
example {set : SmcSettings ℝ} (h3 : set.nIter = 3) :
    Chance stream (fun s s' => ∃ st, Ends (fun f => Smc.initialise normStudy.smcEnv set f none) s st s' ∧
        List.Forall₂ (fun pt (_ : Unit) => (Study.locus pt.val).get? ∈ below) st.pts [(), (), ()])
      (([(), (), ()].map (fun _ => (∫⋯∫⁻_{"mu", "x"}, (fun ψ : String → ℝ => expX (normLp ψ) *
        {ψ | ψ "x" ≤ ψ "mu"}.indicator 1 ψ) ∂(fun _ => volume)) (fun _ => 0))).prod) := by
  have h := C244_first normStudy_sound (set := set) (norm_prior (acc := fun d => !d.isInf) (by simp [XR.isInf])
    (fun _ => 0)) (fun _ : Unit => below) (fun _ => below_measurable) [(), (), ()] (by simp [h3]) (by simp)
  have e : close (fun d : XR ℝ => !d.isInf) = fun _ => 1 := by
    funext ψ
    simp [close, XR.isInf]
  simp only [e, mul_one, norm_total, div_one, below_iff] at h
  exact h

end Props.LawsPosterior
