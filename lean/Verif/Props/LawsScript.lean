import Verif.Props.LawsToy
import Verif.Lemmas.Quantile

/-!
# The whole script of rejection ABC on the example `BetaBin`: C246

Test runs, the tolerance read off them, and the particles collected with it, as one experiment.
-/

namespace Props.LawsScript

set_option linter.unusedSectionVars false

open Py Spec Model MeasureTheory Props.LawsAbc Props.Laws Props.Sampling Props.BN Props.Assembled Props.LawsDensity
  Props.LawsPosterior Props.LawsToy Props.LawsBayes ProbabilityTheory

/-! ## The tolerance -/

/-- The `p`-quantile of some numbers, by interpolation between the two nearest in order. -/
noncomputable def level (p : ℝ) (gs : List ℝ) : ℝ :=
  let s := gs.insertionSort (· ≤ ·)
  let v := p * (s.length - 1)
  s.getD ⌊v⌋₊ 0 + (s.getD (⌊v⌋₊ + 1) 0 - s.getD ⌊v⌋₊ 0) * (v - ⌊v⌋₊)

theorem quantile_level {p : ℝ} (h0 : 0 ≤ p) (h1 : p ≤ 1) {gs : List ℝ} (hne : gs ≠ []) :
    quantile (gs.map .fin) (.fin p) = .ok (.fin (level p gs)) := by
  have hsort : (gs.map XR.fin).insertionSort (fun x y => XR.le x y = true) = (gs.insertionSort (· ≤ ·)).map XR.fin := by
    rw [List.map_insertionSort (· ≤ ·) (fun x y => XR.le x y = true)]
    intro a _ b _
    simp
  set s := gs.insertionSort (· ≤ ·) with hs
  have hpos : 0 < s.length := by
    rw [(List.perm_insertionSort _ gs).length_eq]
    exact List.length_pos_iff.2 hne
  have hnan : (gs.map XR.fin).any XR.isNan = false := by
    rw [List.any_eq_false]
    intro x hx
    obtain ⟨a, -, rfl⟩ := List.mem_map.1 hx
    simp [XR.isNan]
  have hemp : (gs.map XR.fin).isEmpty = false := by simp [hne]
  have hval : (!(XR.le (.fin 0) (.fin p) && XR.le (.fin p) (.fin 1))) = false := by simp [h0, h1]
  have hq : quantile (gs.map XR.fin) (.fin p) =
      if (s.length : ℝ) - 1 ≤ p * ((s.length : ℝ) - 1) then
        .ok ((s.map XR.fin).getD (s.length - 1) .nan)
      else .ok (lerp ((s.map XR.fin).getD ⌊p * ((s.length : ℝ) - 1)⌋₊ .nan)
        ((s.map XR.fin).getD (⌊p * ((s.length : ℝ) - 1)⌋₊ + 1) .nan)
        (.fin (p * ((s.length : ℝ) - 1) - ⌊p * ((s.length : ℝ) - 1)⌋₊))) := by
    unfold quantile
    rw [hval, hemp, hnan, hsort]
    simp only [Bool.false_eq_true, if_false, List.length_map]
  have hget : ∀ i, i < s.length → (s.map XR.fin).getD i .nan = .fin (s.getD i 0) := by
    intro i hi
    rw [List.getD_eq_getElem?_getD, List.getElem?_map, List.getElem?_eq_getElem hi, List.getD_eq_getElem?_getD,
      List.getElem?_eq_getElem hi]
    rfl
  have hone : (1 : ℝ) ≤ s.length := by exact_mod_cast hpos
  have hv0 : 0 ≤ p * ((s.length : ℝ) - 1) := mul_nonneg h0 (by linarith)
  have hlev : level p gs = s.getD ⌊p * ((s.length : ℝ) - 1)⌋₊ 0 + (s.getD (⌊p * ((s.length : ℝ) - 1)⌋₊ + 1) 0 -
      s.getD ⌊p * ((s.length : ℝ) - 1)⌋₊ 0) * (p * ((s.length : ℝ) - 1) - ⌊p * ((s.length : ℝ) - 1)⌋₊) := rfl
  rw [hq, hlev]
  by_cases hc : (s.length : ℝ) - 1 ≤ p * ((s.length : ℝ) - 1)
  · have hle : p * ((s.length : ℝ) - 1) = ((s.length - 1 : ℕ) : ℝ) := by
      rw [Nat.cast_sub hpos, Nat.cast_one]
      nlinarith
    rw [if_pos hc, hle, Nat.floor_natCast, sub_self, mul_zero, add_zero, hget _ (by omega)]
  · rw [if_neg hc]
    push Not at hc
    have hile := Nat.floor_le hv0
    have hi1 : ⌊p * ((s.length : ℝ) - 1)⌋₊ + 1 < s.length := by
      have : (⌊p * ((s.length : ℝ) - 1)⌋₊ : ℝ) + 1 < (s.length : ℝ) := by linarith
      exact_mod_cast this
    rw [hget _ (by omega), hget _ hi1, Lemmas.lerp_fin]

/-! ## The script -/

section Any

variable {S Θ K : Type} [Field K] [LinearOrder K] [FloorSemiring K] [MeasurableSpace S] [MeasurableSpace Θ]

theorem Rejects.drawn {prior : S → Result Θ × S} {dist : Θ → XR K} {bad : Θ → Bool}
    {L : Nat → Nat → Run S (XR K × Θ × Nat)} (hL : Rejects prior dist bad L) {n : Nat} {s s' : S} {r : XR K × Θ × Nat}
    (h : Ends (fun f => L f n) s r s') : ∃ t t', prior t = (.ok r.2.1, t') := by
  obtain ⟨f, h⟩ := h
  induction f generalizing n s with
  | zero => simp only [hL.zero] at h; cases h
  | succ f ih =>
    simp only [hL.succ] at h
    rcases hp : prior s with ⟨_ | y, s1⟩
    · rw [hp] at h; cases h
    · rw [hp] at h
      simp only at h
      split at h
      · exact ih h
      · cases h
        exact ⟨s, _, hp⟩

theorem script_iff (env : SimEnv S Θ K) (nTest : Nat) (p : XR K) (n : Nat) (s s' : S) (post : Abc.Post Θ K) :
    Ends (fun f => (do
      let eps ← Abc.initialise env f true nTest p
      Abc.samplePosteriors env f true (some eps) n : Run S (Abc.Post Θ K))) s post s' ↔
    ∃ rs eps m, Ends (fun f => Run.times nTest (sampleFin env f 0)) s rs m ∧
      quantile (rs.map (·.1)) p = .ok eps ∧ (rs.map (·.2.2)).sum ≠ 0 ∧
      ∃ ps k m', Ends (fun f => Abc.collect env eps f true n) m (ps, k) m' ∧
        (∃ us, Run.each (fun pt => .lift (env.flatten pt)) ps m' = some (.ok us, s')) ∧
        k ≠ 0 ∧ post = ⟨ps, eps, (n : K) / (k : K), n⟩ := by
  have hm1 : Mono (fun f => Run.times nTest (sampleFin env f 0)) := times_mono ((fin_rejects env).mono 0) nTest
  have hm2 : ∀ eps, Mono (fun f => Abc.collect env eps f true n) := by
    intro eps
    simp only [collect_eq]
    exact (times_mono (ess_mono env eps) n).bind (fun _ => Mono.const _)
  constructor
  · rintro ⟨f, h⟩
    obtain ⟨eps, m, h1, h2⟩ := Run.bind_ok.1 h
    unfold Abc.initialise at h1
    rw [testRuns_eq] at h1
    obtain ⟨⟨dis, nE⟩, t, h3, h4⟩ := Run.bind_ok.1 h1
    obtain ⟨rs, t', h5, h6⟩ := Run.bind_ok.1 h3
    obtain ⟨e1, rfl⟩ := Run.pure_ok.1 h6
    cases e1
    obtain ⟨e, t2, h7, h8⟩ := Run.bind_ok.1 h4
    obtain ⟨h9, rfl⟩ := Run.ofResult_ok.1 h7
    split at h8
    · cases h8
    · rename_i hne
      obtain ⟨rfl, rfl⟩ := Run.pure_ok.1 h8
      unfold Abc.samplePosteriors at h2
      obtain ⟨⟨ps, k⟩, m', h10, h11⟩ := Run.bind_ok.1 h2
      simp only [Bool.not_true, Bool.false_eq_true, false_and, if_false] at h11
      obtain ⟨us, m2, h12, h13⟩ := Run.bind_ok.1 h11
      split at h13
      · cases h13
      · rename_i hk
        obtain ⟨h14, rfl⟩ := Run.pure_ok.1 h13
        exact ⟨rs, e, _, ⟨f, h5⟩, h9, hne, ps, k, m', ⟨f, h10⟩, ⟨us, h12⟩, hk, h14.symm⟩
  · rintro ⟨rs, eps, m, ⟨f1, h1⟩, h2, h3, ps, k, m', ⟨f2, h4⟩, ⟨us, h5⟩, h6, rfl⟩
    refine ⟨f1 + f2, ?_⟩
    have h1' := hm1 f1 s _ h1 f2
    have h4' := hm2 eps f2 m _ h4 f1
    rw [Nat.add_comm] at h4'
    refine Run.bind_ok.2 ⟨eps, m, ?_, ?_⟩
    · unfold Abc.initialise
      rw [testRuns_eq]
      refine Run.bind_ok.2 ⟨(rs.map (·.1), (rs.map (·.2.2)).sum), m, Run.bind_ok.2 ⟨rs, m, h1', rfl⟩, ?_⟩
      refine Run.bind_ok.2 ⟨eps, m, Run.ofResult_ok.2 ⟨h2, rfl⟩, ?_⟩
      rw [if_neg h3]
      rfl
    · unfold Abc.samplePosteriors
      refine Run.bind_ok.2 ⟨(ps, k), m', h4', ?_⟩
      simp only [Bool.not_true, Bool.false_eq_true, false_and, if_false]
      refine Run.bind_ok.2 ⟨us, s', h5, ?_⟩
      rw [if_neg h6]
      rfl

theorem each_flat (env : SimEnv S Θ K) {step : S → S} {l : List Θ} (h : ∀ x ∈ l, ∀ t, env.flatten x t = (.ok (), step t)) (t : S) :
    ∃ us, Run.each (fun pt => .lift (env.flatten pt)) l t = some (.ok us, step^[l.length] t) := by
  induction l generalizing t with
  | nil => exact ⟨[], rfl⟩
  | cons x l ih =>
    obtain ⟨us, e⟩ := ih (fun y hy => h y (by simp [hy])) (step t)
    refine ⟨() :: us, Run.bind_ok.2 ⟨(), step t, ?_, Run.bind_ok.2 ⟨us, _, e, rfl⟩⟩⟩
    simp only [Run.lift, h x (by simp)]

theorem iterate_chance {μ : Measure S} [IsProbabilityMeasure μ] {step : S → S} (h : Chance μ (fun s s' => step s = s') 1)
    (n : Nat) : Chance μ (fun s s' => step^[n] s = s') 1 := by
  induction n with
  | zero => exact Chance.refl.congr (fun s s' => Iff.rfl)
  | succ n ih =>
    have := h.comp ih
    rw [mul_one] at this
    refine this.congr (fun s s' => ?_)
    rw [Function.iterate_succ_apply]
    constructor
    · rintro ⟨m, rfl, e⟩; exact e
    · intro e; exact ⟨_, rfl, e⟩

end Any

variable {S D ι : Type} [MeasurableSpace S]
variable {μ : Measure S} {tools : Study String ℝ ℝ Unit S ℝ D} {F : S → ℝ × S} {G : ℕ → ℝ × S → ℝ × S} {d1 d2 : ℝ}

theorem data_eq {parse : String → Result D} {data : Dict String (Target String ℝ D)}
    (hd : betaBinTargets tools.env.ops parse d1 d2 = .ok data) : data = targets d1 d2 := by
  have h := Props.Toys.read_numbers tools.env.ops parse (.fin (1 / 10)) [("x1", .fin d1), ("x2", .fin d2)] (by simp)
  have h' := hd.symm.trans h
  cases h'
  rfl

theorem sound (hi : Ideal μ tools.env F G) (hr : tools.rng.Honest) : Sound (betaBinStudy tools (targets d1 d2)) :=
  { closed := hi.closed
    ready := net_ready
    exo := show (Dict.keys ([] : Dict String ℝ)).Nodup from List.nodup_nil
    noShadow := noShadow_of_check (by rfl)
    rng := hr }

local instance : MeasurableSpace (Particle String ℝ ℝ) := ⊤

/-- What is known of a particle from the prior. -/
theorem prior_facts (hi : Ideal μ tools.env F G) (h1 : d1 ≠ 0) (h2 : d2 ≠ 0) {t t' : S} {pt : Particle String ℝ ℝ}
    (h : (betaBinStudy tools (targets d1 d2)).prior t = (.ok pt, t')) :
    (∃ k ∈ pairs, Study.distance pt = .fin (gap d1 d2 ((k.1 : ℝ), (k.2 : ℝ)))) ∧
      ∀ t, (betaBinStudy tools (targets d1 d2)).smcEnv.flatten pt t = (.ok (), (F (F t).2).2) := by
  unfold Study.prior at h
  have hs : (betaBinStudy tools (targets d1 d2)).model.samplePrior (betaBinStudy tools (targets d1 d2)).env t = _ :=
    prior_eq hi (targets d1 d2) t
  rw [hs] at h
  have h : (betaBinStudy tools (targets d1 d2)).run ⟨assign (fun x => if x = "p1" then (F t).1 else (F (F t).2).1),
    logProb (fun x => if x = "p1" then (F t).1 else (F (F t).2).1)⟩ (F (F t).2).2 = (.ok pt, t') := h
  have hψ : Unit2 (fun x => if x = "p1" then (F t).1 else (F (F t).2).1) := by
    by_contra hn
    exact run_refused hi hn _ _ _ h
  obtain ⟨pt', a, b, c⟩ := run_eq hi h1 h2 hψ (F (F t).2).2
  rw [a] at h
  simp only [Prod.mk.injEq, Except.ok.injEq] at h
  obtain ⟨rfl, -⟩ := h
  constructor
  · obtain ⟨k, hk, e⟩ := counts_mem hi hψ (F (F t).2).2
    exact ⟨k, hk, by rw [b, e]⟩
  · intro u
    obtain ⟨p', e⟩ := c u
    have e' : (betaBinStudy tools (targets d1 d2)).model.flatten (betaBinStudy tools (targets d1 d2)).env pt' u = _ := e
    simp only [Study.smcEnv, e']

/-- The chance of a distance is the share of the pairs of counts that have it. -/
theorem dist_chance (hi : Ideal μ tools.env F G) (hr : tools.rng.Honest) [IsProbabilityMeasure μ] (h1 : d1 ≠ 0) (h2 : d2 ≠ 0)
    (g : ℝ) : Chance μ (fun s s' => ∃ r, Ends (fun f => sampleFin (betaBinStudy tools (targets d1 d2)).smcEnv.toSimEnv f 0) s r s' ∧
      r.1 = .fin g) (((pairs.filter (fun k => gap d1 d2 ((k.1 : ℝ), (k.2 : ℝ)) = g)).card : ENNReal) * 231⁻¹) := by
  have hcard : ∀ acc, (∫⋯∫⁻_{"p1", "p2"}, (fun ψ => expX (logProb ψ) * accChance d1 d2 acc ψ) ∂(fun _ => volume)) (fun _ => 0) =
      ((accepted d1 d2 acc true).card : ENNReal) * 231⁻¹ := by
    intro acc
    have a2 := accepted_integral d1 d2 acc MeasurableSet.univ (fun _ => 0)
    simp only [Set.mem_univ, Set.ofPred_true, Set.indicator_univ, Pi.one_apply, one_mul] at a2
    have a3 : ∑ k ∈ accepted d1 d2 acc true, betas k Set.univ = (accepted d1 d2 acc true).card := by
      rw [Finset.sum_congr rfl (fun k hk => by
        have := betas_prob (Finset.mem_filter.1 hk).1
        exact measure_univ (μ := betas k))]
      simp
    rw [a2, a3, mul_comm]
    congr 1
    rw [← ENNReal.mul_inv (by simp) (by simp)]
    norm_num
  have hu := sound (d1 := d1) (d2 := d2) hi hr
  have ha := try_density hu (prior hi h1 h2 (fun d => decide (d = .fin g)) (fun _ => 0)) true
    (prior hi h1 h2 (fun d => decide (d = .fin g)) (fun _ => 0)).measurable_q
    (prior hi h1 h2 (fun d => decide (d = .fin g)) (fun _ => 0)).near (E := Set.univ) (by simp)
  simp only [Set.mem_univ, Set.ofPred_true, Set.indicator_univ, Pi.one_apply, one_mul, and_true, hcard] at ha
  have hb := refused_density hu (prior hi h1 h2 (fun d => !d.isInf) (fun _ => 0))
  rw [hcard] at hb
  have hall : accepted d1 d2 (fun d => !d.isInf) true = pairs := by
    unfold accepted
    exact Finset.filter_true_of_mem (fun k _ => rfl)
  have hp : pairs.card = 231 := rfl
  rw [hall, hp] at hb
  have e0 : (1 : ENNReal) - ((231 : ℕ) : ENNReal) * 231⁻¹ = 0 := by
    rw [Nat.cast_ofNat, ENNReal.mul_inv_cancel (by simp) (by simp), tsub_self]
  rw [e0] at hb
  have key := Props.LawsBayes.Rejects.chance (fin_rejects (betaBinStudy tools (targets d1 d2)).smcEnv.toSimEnv)
    (fun x => Study.distance x = .fin g) (a := _) (b := 0) (ha.congr (fun s s' => ?_)) (hb.congr (fun s s' => ?_))
  · have e1 : accepted d1 d2 (fun d => decide (d = .fin g)) true = pairs.filter (fun k => gap d1 d2 ((k.1 : ℝ), (k.2 : ℝ)) = g) := by
      unfold accepted
      exact Finset.filter_congr (fun k _ => by simp)
    rw [tsub_zero, div_one, e1] at key
    refine key.congr (fun s s' => ?_)
    constructor
    · rintro ⟨⟨di, x, n⟩, h3, h4⟩
      refine ⟨_, h3, ?_⟩
      have := ((fin_rejects _).result h3).2.1
      exact this.trans h4
    · rintro ⟨⟨di, x, n⟩, h3, h4⟩
      refine ⟨_, h3, ?_⟩
      have := ((fin_rejects _).result h3).2.1
      exact this.symm.trans h4
  · constructor
    · rintro ⟨pt, h3, h4⟩
      have h4 := of_decide_eq_true h4
      exact ⟨pt, h3, by show (Study.distance pt).isInf = false; rw [h4]; rfl, h4⟩
    · rintro ⟨pt, h3, -, h4⟩
      exact ⟨pt, h3, by simpa using h4⟩
  · constructor
    · rintro ⟨pt, h3, h4⟩
      exact ⟨pt, h3, by show (Study.distance pt).isInf = true; simpa using h4⟩
    · rintro ⟨pt, h3, h4⟩
      have h4 : (Study.distance pt).isInf = true := h4
      exact ⟨pt, h3, by rw [h4]; rfl⟩

/-- What is known of the test runs. -/
theorem tested (hi : Ideal μ tools.env F G) (h1 : d1 ≠ 0) (h2 : d2 ≠ 0) {nTest : ℕ} (hn : 0 < nTest) {s m : S}
    {rs : List (XR ℝ × Particle String ℝ ℝ × ℕ)}
    (h : Ends (fun f => Run.times nTest (sampleFin (betaBinStudy tools (targets d1 d2)).smcEnv.toSimEnv f 0)) s rs m) :
    rs.length = nTest ∧ (∀ r ∈ rs, ∃ k ∈ pairs, r.1 = .fin (gap d1 d2 ((k.1 : ℝ), (k.2 : ℝ)))) ∧
      (rs.map (·.2.2)).sum ≠ 0 := by
  obtain ⟨f, h⟩ := h
  have hl := (Run.times_ok h).1
  have h3 := times_forall h (p := fun r => 0 < r.2.2 ∧ ∃ k ∈ pairs, r.1 = .fin (gap d1 d2 ((k.1 : ℝ), (k.2 : ℝ)))) (fun r t t' h => by
    have h3 := (fin_rejects _).result (n := 0) (di := r.1) (x := r.2.1) (k := r.2.2) ⟨f, h⟩
    obtain ⟨t, t', h4⟩ := Rejects.drawn (fin_rejects _) (n := 0) ⟨f, h⟩
    obtain ⟨k, hk, e⟩ := (prior_facts hi h1 h2 h4).1
    exact ⟨h3.1, k, hk, h3.2.1.trans e⟩)
  refine ⟨hl, fun r hr => (h3 r hr).2, ?_⟩
  obtain ⟨r, hr'⟩ := List.exists_mem_of_length_pos (by omega : 0 < rs.length)
  have h4 : r.2.2 ≤ (rs.map (·.2.2)).sum := List.single_le_sum (by simp) _ (List.mem_map_of_mem hr')
  have := (h3 r hr').1
  omega

/-- What is known of the particles collected. -/
theorem collected (hi : Ideal μ tools.env F G) (h1 : d1 ≠ 0) (h2 : d2 ≠ 0) {e : ℝ} {is : List ι} (his : is ≠ []) {m m' : S}
    {post : List (Particle String ℝ ℝ)} {n : ℕ} {R : Particle String ℝ ℝ → ι → Prop}
    (h : Ends (fun f => Abc.collect (betaBinStudy tools (targets d1 d2)).smcEnv.toSimEnv (.fin e) f true is.length) m (post, n) m')
    (hR : List.Forall₂ R post is) : n ≠ 0 ∧ ∃ us, Run.each (fun pt => .lift
      ((betaBinStudy tools (targets d1 d2)).smcEnv.flatten pt)) post m' = some (.ok us, (fun t => (F (F t).2).2)^[is.length] m') := by
  have hpl : post.length = is.length := hR.length_eq
  obtain ⟨f, h⟩ := h
  simp only [collect_eq] at h
  obtain ⟨ps, m2, e6, e7⟩ := Run.bind_ok.1 h
  obtain ⟨e8, -⟩ := Run.pure_ok.1 e7
  simp only [Prod.mk.injEq] at e8
  obtain ⟨e8, e9⟩ := e8
  have hps := times_forall e6 (p := fun r => 0 < r.2.2 ∧ ∃ t t', (betaBinStudy tools (targets d1 d2)).prior t = (.ok r.2.1, t')) (fun r t t' h => by
    rw [ess_eq _ (eps := .fin e) rfl] at h
    exact ⟨((ess_rejects _ _).result (n := 0) (di := r.1) (x := r.2.1) (k := r.2.2) ⟨f, h⟩).1,
      Rejects.drawn (ess_rejects _ _) (n := 0) ⟨f, h⟩⟩)
  constructor
  · have hpos : 0 < ps.length := by
      have := congrArg List.length e8
      simp only [List.length_map] at this
      have := List.length_pos_iff.2 his
      omega
    obtain ⟨r, hr'⟩ := List.exists_mem_of_length_pos hpos
    have h3 := (hps r hr').1
    have h4 : r.2.2 ≤ (ps.map (·.2.2)).sum := List.single_le_sum (by simp) _ (List.mem_map_of_mem hr')
    omega
  · rw [← hpl]
    refine each_flat (betaBinStudy tools (targets d1 d2)).smcEnv.toSimEnv ?_ m'
    intro x hx
    rw [← e8] at hx
    obtain ⟨r, hr', rfl⟩ := List.mem_map.1 hx
    obtain ⟨t, t', h⟩ := (hps r hr').2
    exact (prior_facts hi h1 h2 h).2

theorem fins {l : List (XR ℝ)} {P : ℝ → Prop} (h : ∀ x ∈ l, ∃ g, P g ∧ x = .fin g) :
    ∃ gs : List ℝ, l = gs.map .fin ∧ ∀ g ∈ gs, P g := by
  induction l with
  | nil => exact ⟨[], rfl, by simp⟩
  | cons x l ih =>
    obtain ⟨gs, rfl, h2⟩ := ih (fun y hy => h y (by simp [hy]))
    obtain ⟨g, h3, rfl⟩ := h x (by simp)
    exact ⟨g :: gs, rfl, by simpa using ⟨h3, h2⟩⟩

/-! ## The property -/

/-- The chance that the parameters of a particle lie in a set, when the tolerance is `e`. -/
noncomputable def mixture (d1 d2 e : ℝ) (A : Set (ℝ × ℝ)) : ENNReal :=
  (∑ k ∈ Within d1 d2 e, ((betaMeasure (k.1 + 1) (10 - k.1 + 1)).prod (betaMeasure (k.2 + 1) (20 - k.2 + 1))) A) /
    (Within d1 d2 e).card

/-- **C246**: the script of rejection ABC on `BetaBin` - `nTest` test runs, the `p`-quantile of their distances as the
tolerance, then as many particles as there are sets.  The test runs draw `nTest` pairs of counts independently and
uniformly; given these, the particles are independent and each has the mixture of beta distributions that belongs to the
tolerance. -/
theorem C246 [IsProbabilityMeasure μ] (hi : Ideal μ tools.env F G) (hr : tools.rng.Honest) {parse : String → Result D}
    (h1 : d1 ≠ 0) (h2 : d2 ≠ 0) {data : Dict String (Target String ℝ D)}
    (hd : betaBinTargets tools.env.ops parse d1 d2 = .ok data) {nTest : ℕ} (hn : 0 < nTest) {p : ℝ} (hp0 : 0 ≤ p) (hp1 : p ≤ 1)
    {A : ι → Set (ℝ × ℝ)} (hA : ∀ i, MeasurableSet (A i)) {is : List ι} (his : is ≠ []) :
    Chance μ (fun s s' => ∃ post, Ends (fun f => (betaBinStudy tools data).abc f true nTest (.fin p) is.length) s post s' ∧
        List.Forall₂ (fun pt i => ∃ a b, (Study.locus pt).get? "p1" = some a ∧ (Study.locus pt).get? "p2" = some b ∧
          (a, b) ∈ A i) post.particles is)
      ((∑ ks ∈ Fintype.piFinset (fun _ : Fin nTest => Finset.range 11 ×ˢ Finset.range 21),
        (is.map (fun i => mixture d1 d2 (level p (List.ofFn (fun j => gap d1 d2 (((ks j).1 : ℝ), ((ks j).2 : ℝ))))) (A i))).prod) /
        231 ^ nTest) := by
  classical
  have hdata := data_eq hd
  subst hdata
  set env := (betaBinStudy tools (targets d1 d2)).smcEnv.toSimEnv with henv
  have hstep : Chance μ (fun s s' => (F (F s).2).2 = s') 1 := by
    have h3 := flat_step hi
    have := h3.comp h3
    rw [mul_one] at this
    refine this.congr (fun s s' => ?_)
    constructor
    · rintro ⟨m, rfl, e⟩; exact e
    · intro e; exact ⟨_, rfl, e⟩
  -- the chance of given distances in the test runs, and of the particles after them
  have hT : ∀ ds : Fin nTest → ℝ, Chance μ (fun s s' => ∃ m, (∃ rs, Ends (fun f => Run.times nTest (sampleFin env f 0)) s rs m ∧
      List.Forall₂ (fun r g => r.1 = .fin g) rs (List.ofFn ds)) ∧
      ∃ m', (∃ post n, Ends (fun f => Abc.collect env (.fin (level p (List.ofFn ds))) f true is.length) m (post, n) m' ∧
        List.Forall₂ (fun pt i => ∃ a b, (Study.locus pt).get? "p1" = some a ∧ (Study.locus pt).get? "p2" = some b ∧
          (a, b) ∈ A i) post is) ∧ (fun t => (F (F t).2).2)^[is.length] m' = s')
      ((∏ j, (((pairs.filter (fun k => gap d1 d2 ((k.1 : ℝ), (k.2 : ℝ)) = ds j)).card : ENNReal) * 231⁻¹)) *
        (is.map (fun i => mixture d1 d2 (level p (List.ofFn ds)) (A i))).prod) := by
    intro ds
    have t1 := times_chance (ι := ℝ) ((fin_rejects env).mono 0) (fun r g => r.1 = .fin g) _ (dist_chance hi hr h1 h2) (List.ofFn ds)
    rw [List.length_ofFn, List.map_ofFn, List.prod_ofFn] at t1
    have t2 := C245 hi hr h1 h2 hd (level p (List.ofFn ds)) hA true is
    have t3 := iterate_chance hstep is.length
    have t4 := t1.comp (t2.comp t3)
    rw [mul_one] at t4
    exact t4
  have hS := Props.LawsTable.Chance.finset hT ?_ (Fintype.piFinset (fun _ : Fin nTest =>
    pairs.image (fun k : ℕ × ℕ => gap d1 d2 ((k.1 : ℝ), (k.2 : ℝ)))))
  · have hsum : ∑ ds ∈ Fintype.piFinset (fun _ : Fin nTest => pairs.image (fun k : ℕ × ℕ => gap d1 d2 ((k.1 : ℝ), (k.2 : ℝ)))),
        (∏ j, (((pairs.filter (fun k => gap d1 d2 ((k.1 : ℝ), (k.2 : ℝ)) = ds j)).card : ENNReal) * 231⁻¹)) *
        (is.map (fun i => mixture d1 d2 (level p (List.ofFn ds)) (A i))).prod =
        (∑ ks ∈ Fintype.piFinset (fun _ : Fin nTest => Finset.range 11 ×ˢ Finset.range 21),
        (is.map (fun i => mixture d1 d2 (level p (List.ofFn (fun j => gap d1 d2 (((ks j).1 : ℝ), ((ks j).2 : ℝ))))) (A i))).prod) /
        231 ^ nTest := by
      have hmaps : ∀ ks ∈ Fintype.piFinset (fun _ : Fin nTest => Finset.range 11 ×ˢ Finset.range 21),
          (fun j => gap d1 d2 (((ks j).1 : ℝ), ((ks j).2 : ℝ))) ∈ Fintype.piFinset (fun _ : Fin nTest =>
            pairs.image (fun k : ℕ × ℕ => gap d1 d2 ((k.1 : ℝ), (k.2 : ℝ)))) := by
        intro ks hks
        rw [Fintype.mem_piFinset] at hks ⊢
        intro j
        exact Finset.mem_image_of_mem _ (hks j)
      rw [← Finset.sum_fiberwise_of_maps_to hmaps, div_eq_mul_inv, Finset.sum_mul]
      refine Finset.sum_congr rfl (fun ds _ => ?_)
      have hc : ∀ ks ∈ (Fintype.piFinset (fun _ : Fin nTest => Finset.range 11 ×ˢ Finset.range 21)).filter
          (fun ks => (fun j => gap d1 d2 (((ks j).1 : ℝ), ((ks j).2 : ℝ))) = ds),
          (is.map (fun i => mixture d1 d2 (level p (List.ofFn (fun j => gap d1 d2 (((ks j).1 : ℝ), ((ks j).2 : ℝ))))) (A i))).prod =
          (is.map (fun i => mixture d1 d2 (level p (List.ofFn ds)) (A i))).prod := by
        intro ks hks
        rw [(Finset.mem_filter.1 hks).2]
      rw [Finset.sum_congr rfl hc, Finset.sum_const, nsmul_eq_mul]
      have hf : (Fintype.piFinset (fun _ : Fin nTest => Finset.range 11 ×ˢ Finset.range 21)).filter
          (fun ks => (fun j => gap d1 d2 (((ks j).1 : ℝ), ((ks j).2 : ℝ))) = ds) =
          Fintype.piFinset (fun j => pairs.filter (fun k => gap d1 d2 ((k.1 : ℝ), (k.2 : ℝ)) = ds j)) := by
        ext ks
        rw [Finset.mem_filter, Fintype.mem_piFinset, Fintype.mem_piFinset, funext_iff]
        constructor
        · rintro ⟨a, b⟩ j
          exact Finset.mem_filter.2 ⟨a j, b j⟩
        · intro a
          exact ⟨fun j => (Finset.mem_filter.1 (a j)).1, fun j => (Finset.mem_filter.1 (a j)).2⟩
      rw [hf, Fintype.card_piFinset, Nat.cast_prod, Finset.prod_mul_distrib, Finset.prod_const, Finset.card_univ, Fintype.card_fin,
        ENNReal.inv_pow]
      ring
    rw [hsum] at hS
    refine hS.congr (fun s s' => ?_)
    constructor
    · rintro ⟨ds, -, m, ⟨rs, e1, e2⟩, m', ⟨post, n, e3, e4⟩, e5⟩
      have hrs : rs.map (·.1) = (List.ofFn ds).map XR.fin := by
        have := (List.forall₂_map_left_iff.2 (List.forall₂_map_right_iff.2 e2) :
          List.Forall₂ (· = ·) (rs.map (·.1)) ((List.ofFn ds).map XR.fin))
        rwa [List.forall₂_eq_eq_eq] at this
      have hne : (List.ofFn ds) ≠ [] := by
        intro h
        have := congrArg List.length h
        rw [List.length_ofFn] at this
        simp at this
        omega
      have hev := (tested hi h1 h2 hn e1).2.2
      obtain ⟨hn0, us, hus⟩ := collected hi h1 h2 his e3 e4
      rw [e5] at hus
      refine ⟨_, (script_iff env nTest (.fin p) is.length s s' _).2 ⟨rs, _, m, e1, ?_, hev, post, n, m', e3, ⟨us, hus⟩, hn0, rfl⟩, e4⟩
      · rw [hrs]
        exact quantile_level hp0 hp1 hne
    · rintro ⟨post, e1, e2⟩
      obtain ⟨rs, eps, m, e3, e4, e5, ps, k, m', e6, ⟨us, e7⟩, e8, rfl⟩ := (script_iff env nTest (.fin p) is.length s s' post).1 e1
      have hc := tested hi h1 h2 hn e3
      obtain ⟨gs, hgs, hv⟩ := fins (l := rs.map (·.1)) (P := fun g => g ∈ pairs.image (fun k : ℕ × ℕ => gap d1 d2 ((k.1 : ℝ), (k.2 : ℝ))))
        (by
          intro x hx
          obtain ⟨r, hr', rfl⟩ := List.mem_map.1 hx
          obtain ⟨k, hk, e⟩ := hc.2.1 r hr'
          exact ⟨_, Finset.mem_image_of_mem _ hk, e⟩)
      have hgl : gs.length = nTest := by
        have := congrArg List.length hgs
        rw [List.length_map, List.length_map, hc.1] at this
        exact this.symm
      obtain ⟨ds, rfl⟩ : ∃ ds : Fin nTest → ℝ, gs = List.ofFn ds := by
        subst hgl
        exact ⟨gs.get, (List.ofFn_get gs).symm⟩
      have hne : (List.ofFn ds) ≠ [] := by
        intro h
        have := congrArg List.length h
        rw [List.length_ofFn] at this
        simp at this
        omega
      rw [hgs, quantile_level hp0 hp1 hne] at e4
      cases e4
      obtain ⟨-, us', hus⟩ := collected hi h1 h2 his e6 e2
      rw [hus] at e7
      simp only [Option.some.injEq, Prod.mk.injEq] at e7
      refine ⟨ds, Fintype.mem_piFinset.2 (fun j => hv _ (by simp)), m, ⟨rs, e3, ?_⟩, m', ⟨ps, k, e6, e2⟩, e7.2⟩
      have : List.Forall₂ (· = ·) (rs.map (·.1)) ((List.ofFn ds).map XR.fin) := by
        rw [List.forall₂_eq_eq_eq]
        exact hgs
      rw [List.forall₂_map_left_iff, List.forall₂_map_right_iff] at this
      exact this
  · rintro ds ds' s a b ⟨m, ⟨rs, e1, e2⟩, -⟩ ⟨m', ⟨rs', e3, e4⟩, -⟩
    have hm1 : Mono (fun f => Run.times nTest (sampleFin env f 0)) := times_mono ((fin_rejects env).mono 0) nTest
    obtain ⟨rfl, -⟩ := hm1.ends e1 e3
    have hrs : ∀ ds : Fin nTest → ℝ, List.Forall₂ (fun r g => r.1 = XR.fin g) rs (List.ofFn ds) →
        rs.map (·.1) = (List.ofFn ds).map XR.fin := by
      intro ds h
      have := (List.forall₂_map_left_iff.2 (List.forall₂_map_right_iff.2 h) :
        List.Forall₂ (· = ·) (rs.map (·.1)) ((List.ofFn ds).map XR.fin))
      rwa [List.forall₂_eq_eq_eq] at this
    have h := (hrs ds e2).symm.trans (hrs ds' e4)
    have h' := (List.map_injective_iff.2 (fun a b h => by cases h; rfl)) h
    exact List.ofFn_injective h'

theorem within_level {nTest : ℕ} (hn : 0 < nTest) {p : ℝ} (hp0 : 0 ≤ p) (hp1 : p ≤ 1) {ks : Fin nTest → ℕ × ℕ}
    (hk : ∀ j, ks j ∈ pairs) :
    (Within d1 d2 (level p (List.ofFn (fun j => gap d1 d2 (((ks j).1 : ℝ), ((ks j).2 : ℝ)))))).card ≠ 0 := by
  have hne : List.ofFn (fun j => gap d1 d2 (((ks j).1 : ℝ), ((ks j).2 : ℝ))) ≠ [] := by
    intro h
    have := congrArg List.length h
    rw [List.length_ofFn] at this
    simp at this
    omega
  obtain ⟨r, e, ⟨a, ha, hle⟩, -⟩ := Lemmas.quantile_fin _ hne hp0 hp1
  rw [quantile_level hp0 hp1 hne] at e
  simp only [Except.ok.injEq, XR.fin.injEq] at e
  obtain ⟨j, rfl⟩ := (List.mem_ofFn' _ _).1 ha
  refine Finset.card_ne_zero_of_mem (a := ks j) (Finset.mem_filter.2 ⟨hk j, ?_⟩)
  rw [e]
  exact hle

/-- **C246** (end): the script ends with probability one. -/
theorem C246_ends [IsProbabilityMeasure μ] (hi : Ideal μ tools.env F G) (hr : tools.rng.Honest) {parse : String → Result D}
    (h1 : d1 ≠ 0) (h2 : d2 ≠ 0) {data : Dict String (Target String ℝ D)}
    (hd : betaBinTargets tools.env.ops parse d1 d2 = .ok data) {nTest : ℕ} (hn : 0 < nTest) {p : ℝ} (hp0 : 0 ≤ p) (hp1 : p ≤ 1)
    {n : ℕ} (h0 : 0 < n) :
    μ {s | ∃ post s', Ends (fun f => (betaBinStudy tools data).abc f true nTest (.fin p) n) s post s' ∧
      post.particles.length = n} = 1 := by
  have key := (C246 (ι := Unit) hi hr h1 h2 hd hn hp0 hp1 (A := fun _ => Set.univ) (fun _ => MeasurableSet.univ)
    (is := List.replicate n ()) (by simp; omega) Set.univ MeasurableSet.univ).2
  have hmix : ∀ ks ∈ Fintype.piFinset (fun _ : Fin nTest => Finset.range 11 ×ˢ Finset.range 21),
      ((List.replicate n ()).map (fun _ => mixture d1 d2 (level p (List.ofFn (fun j => gap d1 d2 (((ks j).1 : ℝ), ((ks j).2 : ℝ)))))
        Set.univ)).prod = 1 := by
    intro ks hks
    rw [Fintype.mem_piFinset] at hks
    have hw := within_level (d1 := d1) (d2 := d2) hn hp0 hp1 hks
    have : mixture d1 d2 (level p (List.ofFn (fun j => gap d1 d2 (((ks j).1 : ℝ), ((ks j).2 : ℝ))))) Set.univ = 1 := by
      unfold mixture
      rw [Finset.sum_congr rfl (fun k hk => by
        have := betas_prob (Finset.mem_filter.1 hk).1
        exact (measure_univ (μ := betas k) : betas k Set.univ = 1))]
      rw [Finset.sum_const, nsmul_eq_mul, mul_one]
      exact ENNReal.div_self (by exact_mod_cast hw) (by simp)
    rw [this]
    simp
  rw [Finset.sum_congr rfl hmix, Finset.sum_const, Fintype.card_piFinset, Finset.prod_const, Finset.card_univ, Fintype.card_fin,
    nsmul_eq_mul, mul_one, Finset.card_product, Finset.card_range, Finset.card_range] at key
  have e : (((11 * 21) ^ nTest : ℕ) : ENNReal) / 231 ^ nTest = 1 := by
    push_cast
    exact ENNReal.div_self (by positivity) (by simp)
  rw [e, measure_univ, one_mul] at key
  refine le_antisymm prob_le_one ?_
  rw [← key]
  refine measure_mono ?_
  rintro s ⟨s', -, post, a, b⟩
  rw [List.length_replicate] at a
  exact ⟨post, s', a, by simpa using b.length_eq⟩

/-! The example of C245, two test runs and their median. -/

example : Chance ustream (fun s s' => ∃ post, Ends (fun f => (betaBinStudy uTools (targets 5 10)).abc f true 2 (.fin (1 / 2)) 3)
      s post s' ∧ List.Forall₂ (fun pt i => ∃ a b, (Study.locus pt).get? "p1" = some a ∧
        (Study.locus pt).get? "p2" = some b ∧ (a, b) ∈ Set.Iic i ×ˢ Set.univ) post.particles [(1 / 2 : ℝ), 1, 1 / 3])
    ((∑ ks ∈ Fintype.piFinset (fun _ : Fin 2 => Finset.range 11 ×ˢ Finset.range 21),
      ([(1 / 2 : ℝ), 1, 1 / 3].map (fun i => mixture 5 10 (level (1 / 2) (List.ofFn (fun j =>
        gap 5 10 (((ks j).1 : ℝ), ((ks j).2 : ℝ))))) (Set.Iic i ×ˢ Set.univ))).prod) / 231 ^ 2) :=
  C246 (d1 := 5) (d2 := 10) uIdeal streamRand_honest (parse := fun _ => .error .SyntaxError) (by norm_num) (by norm_num)
    (by rfl) (nTest := 2) two_pos (p := 1 / 2) (by norm_num) (by norm_num) (A := fun i : ℝ => Set.Iic i ×ˢ Set.univ)
    (fun i => measurableSet_Iic.prod MeasurableSet.univ) (is := [1 / 2, 1, 1 / 3]) (by simp)

example : ustream {s | ∃ post s', Ends (fun f => (betaBinStudy uTools (targets 5 10)).abc f true 2 (.fin (1 / 2)) 3) s post s' ∧
    post.particles.length = 3} = 1 :=
  C246_ends (d1 := 5) (d2 := 10) uIdeal streamRand_honest (parse := fun _ => .error .SyntaxError) (by norm_num) (by norm_num)
    (by rfl) (nTest := 2) two_pos (p := 1 / 2) (by norm_num) (by norm_num) (n := 3) three_pos

end Props.LawsScript
