import Verif.Props.LawsToy

/-!
# The posterior of the example `EpiSIR`: C251

The simulation is an integration, which is deterministic: the posterior is the prior where the simulated epidemic is close
to the observed one.
-/

namespace Props.LawsSir

set_option linter.unusedSectionVars false

open Py Spec Model MeasureTheory Props.LawsAbc Props.Laws Props.Sampling Props.BN Props.Assembled Props.LawsDensity
  Props.LawsPosterior ProbabilityTheory

variable {S D ι : Type} [MeasurableSpace S]

/-- The bounds of the two parameters. -/
def Bounds (lo hi : ℝ) : Prop := (lo = 1 / 10 ∧ hi = 1) ∨ (lo = 1 ∧ hi = 20)

theorem Bounds.lt {lo hi : ℝ} (h : Bounds lo hi) : lo < hi := by
  rcases h with ⟨rfl, rfl⟩ | ⟨rfl, rfl⟩ <;> norm_num

/-- `unif(lo, hi)`, with the names of its arguments. -/
def unifOn (lo hi : ℝ) : Expr String ℝ Unit := .call "unif" .nil (Kws.ofList [("min", .const lo), ("max", .const hi)])

/-- What is needed of the generator and of the distributions `unif(0.1, 1)` and `unif(1, 20)`: they are drawn by `F` and
report the uniform densities. -/
structure Ideal (μ : Measure S) (env : FitEnv String ℝ ℝ Unit S ℝ D) (F : ℝ → ℝ → S → ℝ × S) : Prop where
  closed : ∀ c, (env.sem.reparse c).names = []
  unif : ∀ lo hi, Bounds lo hi → ∀ g : String → Option ℝ, g "unif" = none →
    ∃ d, getDistribution env.sem (unifOn lo hi) g = .ok d ∧ (∀ s, d.sample s = (.ok (F lo hi s).1, (F lo hi s).2)) ∧
      (∀ v, d.logpdf v = .ok (if lo ≤ v ∧ v ≤ hi then .fin (-Real.log (hi - lo)) else .ninf)) ∧ ∃ b, env.support d = .ok b
  measurable : ∀ lo hi, Bounds lo hi → Measurable (F lo hi)
  uniform : ∀ lo hi, Bounds lo hi → μ.map (F lo hi) =
    ((ENNReal.ofReal (hi - lo))⁻¹ • volume.restrict (Set.Icc lo hi)).prod μ

/-! ## The network of the prior -/

theorem net_ready : Ready (sirNet : BN String ℝ ℝ Unit) :=
  ⟨_, _, (((Built.empty "SIR").step _ rfl).step _ rfl), Or.inr ⟨"f", rfl⟩⟩

theorem net_loci : (sirNet : BN String ℝ ℝ Unit).loci = [("gamma", .dist "gamma" (unifOn (1 / 10) 1) []),
    ("beta", .dist "beta" (unifOn 1 20) [])] := rfl

theorem loci_cases {x : String} {l : Loci String ℝ ℝ Unit} (h : sirNet.loci.get? x = some l) :
    (x = "gamma" ∧ l = .dist "gamma" (unifOn (1 / 10) 1) []) ∨ (x = "beta" ∧ l = .dist "beta" (unifOn 1 20) []) := by
  have h1 := Dict.mem_of_get? h
  rw [net_loci] at h1
  simpa using h1

/-- The assignments. -/
def assign (ψ : String → ℝ) : Dict String ℝ := [("gamma", ψ "gamma"), ("beta", ψ "beta")]

/-- The log density of a uniform distribution. -/
noncomputable def lp (lo hi v : ℝ) : XR ℝ := if lo ≤ v ∧ v ≤ hi then .fin (-Real.log (hi - lo)) else .ninf

/-- The log density of an assignment. -/
noncomputable def logProb (ψ : String → ℝ) : XR ℝ := lp (1 / 10) 1 (ψ "gamma") + (lp 1 20 (ψ "beta") + 0)

theorem expX_lp {lo hi : ℝ} (h : lo < hi) (v : ℝ) :
    expX (lp lo hi v) = (ENNReal.ofReal (hi - lo))⁻¹ * (Set.Icc lo hi).indicator 1 v := by
  unfold lp
  have h' : 0 < hi - lo := by linarith
  by_cases hv : lo ≤ v ∧ v ≤ hi
  · rw [if_pos hv, Set.indicator_of_mem (by exact hv), Pi.one_apply, mul_one, ← ENNReal.ofReal_inv_of_pos h']
    simp [expX, Real.exp_neg, Real.exp_log h']
  · rw [if_neg hv, Set.indicator_of_notMem (by exact hv), mul_zero]
    rfl

/-- The density of the prior. -/
noncomputable def level : ENNReal := (ENNReal.ofReal (1 - 1 / 10))⁻¹ * (ENNReal.ofReal (20 - 1))⁻¹

theorem level_ne : level ≠ 0 ∧ level ≠ ⊤ := by
  unfold level
  refine ⟨mul_ne_zero (by simp) (by simp), ENNReal.mul_ne_top ?_ ?_⟩
  · rw [ENNReal.inv_ne_top]; norm_num
  · rw [ENNReal.inv_ne_top]; norm_num

/-- The rates that the prior allows. -/
def Box : Set (ℝ × ℝ) := Set.Icc (1 / 10) 1 ×ˢ Set.Icc 1 20

theorem expX_logProb (ψ : String → ℝ) : expX (logProb ψ) = level * Box.indicator 1 (ψ "gamma", ψ "beta") := by
  have h1 : (1 / 10 : ℝ) < 1 := by norm_num
  have h2 : (1 : ℝ) < 20 := by norm_num
  simp only [logProb, expX_add, expX_lp h1, expX_lp h2, expX_zero, mul_one, level, Box]
  rw [show (Set.Icc (1 / 10 : ℝ) 1 ×ˢ Set.Icc (1 : ℝ) 20).indicator (1 : ℝ × ℝ → ENNReal) (ψ "gamma", ψ "beta") =
    (Set.Icc (1 / 10 : ℝ) 1).indicator 1 (ψ "gamma") * (Set.Icc (1 : ℝ) 20).indicator 1 (ψ "beta") from ?_]
  · ring
  · by_cases h1 : ψ "gamma" ∈ Set.Icc (1 / 10 : ℝ) 1 <;> by_cases h2 : ψ "beta" ∈ Set.Icc (1 : ℝ) 20 <;>
      simp only [Set.indicator_apply, Set.mem_prod, h1, h2, and_self, and_false, false_and, if_true, if_false,
        Pi.one_apply, mul_one, mul_zero, zero_mul]

theorem logProb_nan (ψ : String → ℝ) : (logProb ψ).isNan = false := by
  unfold logProb lp
  split <;> split <;> rfl

section Net

variable {μ : Measure S} {env : FitEnv String ℝ ℝ Unit S ℝ D} {F : ℝ → ℝ → S → ℝ × S}

theorem bg : Bounds (1 / 10) 1 := Or.inl ⟨rfl, rfl⟩

theorem bb : Bounds 1 20 := Or.inr ⟨rfl, rfl⟩

/-- The removal rate that is drawn, and the state after. -/
noncomputable abbrev dg (F : ℝ → ℝ → S → ℝ × S) (s : S) : ℝ × S := F (1 / 10) 1 s

/-- The transmission rate that is drawn, and the state after. -/
noncomputable abbrev db (F : ℝ → ℝ → S → ℝ × S) (s : S) : ℝ × S := F 1 20 (F (1 / 10) 1 s).2

theorem net_sample (hi : Ideal μ env F) (s : S) : sample env.sem sirNet [] s =
    (.ok (assign (fun x => if x = "gamma" then (dg F s).1 else (db F s).1)), (db F s).2) := by
  obtain ⟨d1, a1, b1, -⟩ := hi.unif _ _ bg (Dict.get? []) rfl
  obtain ⟨d2, a2, b2, -⟩ := hi.unif _ _ bb (Dict.get? [("gamma", (dg F s).1)]) rfl
  have h : sample env.sem sirNet [] s =
      sampleLoop env.sem sirNet (fun _ => true) ["gamma", "beta"] [] s := rfl
  have g1 : (sirNet : BN String ℝ ℝ Unit).get "gamma" = .ok (.dist "gamma" (unifOn (1 / 10) 1) []) := rfl
  have g2 : (sirNet : BN String ℝ ℝ Unit).get "beta" = .ok (.dist "beta" (unifOn 1 20) []) := rfl
  have k1 : Loci.render env.sem (.dist "gamma" (unifOn (1 / 10) 1) []) (Dict.get? []) s =
      (.ok (dg F s).1, (dg F s).2) := by
    simp only [Loci.render, a1, b1]
  have k2 : Loci.render env.sem (.dist "beta" (unifOn 1 20) []) (Dict.get? [("gamma", (dg F s).1)]) (dg F s).2 =
      (.ok (db F s).1, (db F s).2) := by
    simp only [Loci.render, a2, b2]
  have m1 : ("gamma" : String) ∉ Dict.keys ([] : Dict String ℝ) := by simp [Dict.keys]
  have e1 : Dict.set ([] : Dict String ℝ) "gamma" (dg F s).1 = [("gamma", (dg F s).1)] := rfl
  have m2 : ("beta" : String) ∉ Dict.keys [("gamma", (dg F s).1)] := by simp [Dict.keys]
  have e2 : Dict.set [("gamma", (dg F s).1)] "beta" (db F s).1 = [("gamma", (dg F s).1), ("beta", (db F s).1)] := rfl
  rw [h]
  simp only [sampleLoop, m1, m2, g1, g2, k1, k2, e1, e2, not_false_eq_true, decide_true, Bool.and_self, if_true]
  rfl

theorem net_eval (hi : Ideal μ env F) (ψ : String → ℝ) :
    evaluateNodes env.sem sirNet (assign ψ) = .ok (logProb ψ) := by
  obtain ⟨d1, a1, -, b1, -⟩ := hi.unif _ _ bg (assign ψ).get? rfl
  obtain ⟨d2, a2, -, b2, -⟩ := hi.unif _ _ bb (assign ψ).get? rfl
  have g1 : (sirNet : BN String ℝ ℝ Unit).get "gamma" = .ok (.dist "gamma" (unifOn (1 / 10) 1) []) := rfl
  have g2 : (sirNet : BN String ℝ ℝ Unit).get "beta" = .ok (.dist "beta" (unifOn 1 20) []) := rfl
  have v1 : (assign ψ).get? "gamma" = some (ψ "gamma") := rfl
  have v2 : (assign ψ).get? "beta" = some (ψ "beta") := rfl
  have k1 : Loci.evaluate env.sem (.dist "gamma" (unifOn (1 / 10) 1) []) (assign ψ).get? = .ok (lp (1 / 10) 1 (ψ "gamma")) := by
    simp only [Loci.evaluate, a1, v1]
    have e : (do let d ← (Except.ok d1 : Result _); d.logpdf (ψ "gamma")) = Except.ok (lp (1 / 10) 1 (ψ "gamma")) := b1 _
    rw [e]
  have k2 : Loci.evaluate env.sem (.dist "beta" (unifOn 1 20) []) (assign ψ).get? = .ok (lp 1 20 (ψ "beta")) := by
    simp only [Loci.evaluate, a2, v2]
    have e : (do let d ← (Except.ok d2 : Result _); d.logpdf (ψ "beta")) = Except.ok (lp 1 20 (ψ "beta")) := b2 _
    rw [e]
  have hk : (assign ψ).keys.filter (· ∈ (sirNet : BN String ℝ ℝ Unit).dag.nodes) = ["gamma", "beta"] := rfl
  have hm : (["gamma", "beta"] : List String).mapM (fun k => do
      Loci.evaluate env.sem (← (sirNet : BN String ℝ ℝ Unit).get k) (assign ψ).get?) =
      (.ok [lp (1 / 10) 1 (ψ "gamma"), lp 1 20 (ψ "beta")] : Result (List (XR ℝ))) := by
    simp only [List.mapM_cons, List.mapM_nil, g1, g2]
    show (do
      let a ← Loci.evaluate env.sem (.dist "gamma" (unifOn (1 / 10) 1) []) (assign ψ).get?
      let b ← (do
        let a ← Loci.evaluate env.sem (.dist "beta" (unifOn 1 20) []) (assign ψ).get?
        let b ← (pure [] : Result (List (XR ℝ)))
        pure (a :: b))
      pure (a :: b) : Result (List (XR ℝ))) = _
    rw [k1, k2]
    rfl
  unfold evaluateNodes
  rw [hk, hm]
  show Except.ok (if ([lp (1 / 10) 1 (ψ "gamma"), lp 1 20 (ψ "beta")] : List (XR ℝ)).sum.isNan then XR.ninf else _) = _
  have : ([lp (1 / 10) 1 (ψ "gamma"), lp 1 20 (ψ "beta")] : List (XR ℝ)).sum = logProb ψ := rfl
  rw [this, logProb_nan]
  rfl

theorem unif_fair (hi : Ideal μ env F) [SFinite μ] {lo up : ℝ} (hb : Bounds lo up) {g : String → Option ℝ}
    (hn : g "unif" = none) {d : Dist ℝ S (XR ℝ)} (h : getDistribution env.sem (unifOn lo up) g = .ok d) :
    FairDensity μ volume d ∧ (∀ s, d.sample s = (.ok (F lo up s).1, (F lo up s).2)) ∧ ∀ v, dens d v = expX (lp lo up v) := by
  obtain ⟨d', a, b, c, -⟩ := hi.unif _ _ hb g hn
  rw [a] at h
  cases h
  have hd : ∀ v, dens d v = expX (lp lo up v) := by
    intro v
    simp only [dens, c]
    rfl
  refine ⟨?_, b, hd⟩
  intro H hH
  have e : {s | ∃ v s', d.sample s = (.ok v, s') ∧ (v, s') ∈ H} = F lo up ⁻¹' H := by
    ext s
    simp only [b, Set.mem_ofPred_eq, Set.mem_preimage]
    constructor
    · rintro ⟨v, s', h1, h2⟩
      simp only [Prod.mk.injEq, Except.ok.injEq] at h1
      obtain ⟨rfl, rfl⟩ := h1
      exact h2
    · intro h1
      exact ⟨_, _, rfl, h1⟩
  rw [e, ← Measure.map_apply (hi.measurable _ _ hb) hH, hi.uniform _ _ hb, Measure.prod_apply hH, lintegral_smul_measure,
    ← lintegral_indicator measurableSet_Icc, smul_eq_mul,
    ← lintegral_const_mul _ ((measurable_measure_prodMk_left hH).indicator measurableSet_Icc)]
  refine lintegral_congr (fun v => ?_)
  rw [hd, expX_lp hb.lt, mul_assoc]
  congr 1
  by_cases hv : v ∈ Set.Icc lo up
  · rw [Set.indicator_of_mem hv, Set.indicator_of_mem hv, Pi.one_apply, one_mul]
    rfl
  · rw [Set.indicator_of_notMem hv, Set.indicator_of_notMem hv, zero_mul]

theorem measurable_lp {lo up : ℝ} (hb : Bounds lo up) : Measurable (fun v => expX (lp lo up v)) := by
  simp only [expX_lp hb.lt]
  exact (measurable_one.indicator measurableSet_Icc).const_mul _

theorem net_dens (hi : Ideal μ env F) [SFinite μ] (ψ : String → ℝ) :
    nodeDens env.sem sirNet "gamma" (assign ψ) = expX (lp (1 / 10) 1 (ψ "gamma")) ∧
    nodeDens env.sem sirNet "beta" (assign ψ) = expX (lp 1 20 (ψ "beta")) := by
  obtain ⟨d1, a1, -⟩ := hi.unif _ _ bg (assign ψ).get? rfl
  obtain ⟨d2, a2, -⟩ := hi.unif _ _ bb (assign ψ).get? rfl
  have h1 := (unif_fair hi bg rfl a1).2.2
  have h2 := (unif_fair hi bb rfl a2).2.2
  constructor
  · have g1 : (sirNet : BN String ℝ ℝ Unit).loci.get? "gamma" = some (.dist "gamma" (unifOn (1 / 10) 1) []) := rfl
    have v1 : (assign ψ).get? "gamma" = some (ψ "gamma") := rfl
    simp only [nodeDens, g1, a1, v1, h1]
  · have g1 : (sirNet : BN String ℝ ℝ Unit).loci.get? "beta" = some (.dist "beta" (unifOn 1 20) []) := rfl
    have v1 : (assign ψ).get? "beta" = some (ψ "beta") := rfl
    simp only [nodeDens, g1, a2, v1, h2]

theorem net_family (hi : Ideal μ env F) [SFinite μ] :
    Family μ (fun _ => volume) env.sem sirNet [] assign where
  outcome := fun ψ => {
    wf := show ["gamma", "beta"].Nodup by decide
    keys := by
      intro x
      have e : (sirNet : BN String ℝ ℝ Unit).dag.nodes = ["gamma", "beta"] := rfl
      have e' : Dict.keys (assign ψ) = ["gamma", "beta"] := rfl
      rw [e, e']
      simp [Dict.keys]
    given := by intro x v h; cases h
    fixed := by
      intro x l hl _ hd
      rcases loci_cases hl with ⟨-, rfl⟩ | ⟨-, rfl⟩ <;> cases hd }
  drawn := by
    rintro φ x ⟨l, hl, hd⟩ -
    rcases loci_cases hl with ⟨rfl, rfl⟩ | ⟨rfl, rfl⟩ <;> rfl
  fair := by
    intro φ x n f ps d hl _ hd
    rcases loci_cases hl with ⟨rfl, h⟩ | ⟨rfl, h⟩ <;> cases h
    · exact (unif_fair hi bg rfl hd).1
    · exact (unif_fair hi bb rfl hd).1
  draws := by
    intro x n f ps hl _ H hH
    have key : ∀ {lo up : ℝ}, Bounds lo up → MeasurableSet {p : (String → ℝ) × S | ∃ d v s',
        getDistribution env.sem (unifOn lo up) (assign p.1).get? = .ok d ∧
        d.sample p.2 = (.ok v, s') ∧ (Function.update p.1 x v, s') ∈ H} := by
      intro lo up hb
      have e : {p : (String → ℝ) × S | ∃ d v s', getDistribution env.sem (unifOn lo up) (assign p.1).get? = .ok d ∧
          d.sample p.2 = (.ok v, s') ∧ (Function.update p.1 x v, s') ∈ H} =
          (fun p : (String → ℝ) × S => (Function.update p.1 x (F lo up p.2).1, (F lo up p.2).2)) ⁻¹' H := by
        ext p
        constructor
        · rintro ⟨d, v, s', h1, h2, h3⟩
          rw [(unif_fair hi hb rfl h1).2.1] at h2
          cases h2
          exact h3
        · intro h
          obtain ⟨d, a, b, -⟩ := hi.unif _ _ hb (assign p.1).get? rfl
          exact ⟨d, _, _, a, b _, h⟩
      rw [e]
      have hF := (hi.measurable _ _ hb).comp (measurable_snd : Measurable (Prod.snd : (String → ℝ) × S → S))
      refine Measurable.prodMk ?_ (measurable_snd.comp hF) hH
      exact measurable_update'.comp (measurable_fst.prodMk (measurable_fst.comp hF))
    rcases loci_cases hl with ⟨rfl, h⟩ | ⟨rfl, h⟩ <;> cases h
    · exact key bg
    · exact key bb
  density := by
    rintro x ⟨l, hl, hd⟩ -
    rcases loci_cases hl with ⟨rfl, rfl⟩ | ⟨rfl, rfl⟩
    · simp only [(net_dens hi _).1]
      exact (measurable_lp bg).comp (measurable_pi_apply "gamma")
    · simp only [(net_dens hi _).2]
      exact (measurable_lp bb).comp (measurable_pi_apply "beta")

theorem net_exo (x : String) : ¬ Exogenous (sirNet : BN String ℝ ℝ Unit) x := by
  rintro ⟨n, h⟩
  rcases loci_cases h with ⟨-, h⟩ | ⟨-, h⟩ <;> cases h

theorem net_rv (x : String) : x ∈ ({"gamma", "beta"} : Finset String) ↔ (sirNet : BN String ℝ ℝ Unit).Rv x := by
  constructor
  · intro h
    rcases Finset.mem_insert.1 h with rfl | h
    · exact ⟨_, rfl, rfl⟩
    · rw [Finset.mem_singleton.1 h]
      exact ⟨_, rfl, rfl⟩
  · rintro ⟨l, hl, hd⟩
    rcases loci_cases hl with ⟨rfl, rfl⟩ | ⟨rfl, rfl⟩ <;> simp

end Net

/-! ## A simulation -/

/-- The states that the integration answers with. -/
def states (Y : ℝ → ℝ → Fin 6 → Sir ℝ) (be ga : ℝ) : List (Sir ℝ) := List.ofFn (Y be ga)

/-- The squared difference from an observation, relative to it. -/
noncomputable def off (o x : ℝ) : ℝ := (x - o) ^ 2 / o

/-- The distance of the epidemic with states `y` and rates `be`, `ga` from the observed one, with states `y0` and rates
`be0`, `ga0`. -/
noncomputable def gap (be0 ga0 : ℝ) (y0 : Fin 6 → Sir ℝ) (be ga : ℝ) (y : Fin 6 → Sir ℝ) : ℝ :=
  392 / 5 * ∑ j, (off (be0 * (y0 j).s * (y0 j).i / 1000000) (be * (y j).s * (y j).i / 1000000) +
    off ((y0 j).i / 1000) ((y j).i / 1000) + off (ga0 * (y0 j).i / 1000) (ga * (y j).i / 1000))

/-- The targets of observed numbers. -/
noncomputable def targets (obs : List (String × ℝ)) : Dict String (Target String ℝ D) :=
  obs.map (fun p => (p.1, .mkError p.1 (.fin p.2) (.fin (1 / 20))))

/-- The simulated numbers. -/
def sims (l : List (String × ℝ)) : Dict String (XR ℝ) := l.map (fun p => (p.1, .fin p.2))

theorem mapM_ok {α β : Type} {f : α → Result (α × β)} {l : List (α × β)} (h : ∀ p ∈ l, f p.1 = .ok p) :
    (l.map Prod.fst).mapM f = .ok l := by
  induction l with
  | nil => rfl
  | cons p l ih =>
    rw [List.map_cons, List.mapM_cons, h p (by simp), ih (fun q hq => h q (by simp [hq]))]
    rfl

theorem off_eq {o : ℝ} (ho : o ≠ 0) (x : ℝ) :
    ((XR.fin x - .fin o).sq / (.fin (1 / 20) * .fin o / .fin 2 / .fin z95) : XR ℝ) = .fin (392 / 5 * off o x) := by
  have hz : (z95 : ℝ) ≠ 0 := by norm_num [z95]
  have e1 : (1 / 20 : ℝ) * o / 2 / z95 ≠ 0 := by positivity
  have f : ∀ a b : ℝ, b ≠ 0 → (XR.fin a / XR.fin b : XR ℝ) = .fin (a / b) := fun a b hb => by rw [XR.fin_div_fin, if_neg hb]
  have g : ∀ a b : ℝ, (XR.fin a * XR.fin b : XR ℝ) = .fin (a * b) := fun a b => rfl
  have k : ∀ a b : ℝ, (XR.fin a - XR.fin b : XR ℝ) = .fin (a - b) := fun a b => by simp
  have l : ∀ a : ℝ, (XR.fin a : XR ℝ).sq = .fin (a * a) := fun a => by simp [XR.sq]
  rw [g, f _ 2 two_ne_zero, f _ z95 hz, k, l, f _ _ e1]
  congr 1
  unfold off
  norm_num [z95]
  field_simp
  ring

theorem sum_eq (ops : DistOps D ℝ) (ys : Dict String (XR ℝ)) {obs sim : List (String × ℝ)}
    (h : List.Forall₂ (fun o x => o.1 = x.1 ∧ o.2 ≠ 0 ∧ ys.get? x.1 = some (.fin x.2)) obs sim) (a : ℝ) :
    DataModel.sumTargets (Target.distance ops ys) ((targets obs).map Prod.snd) (.fin a) =
      .ok (.fin (a + ((obs.zip sim).map (fun p => 392 / 5 * off p.1.2 p.2.2)).sum)) := by
  induction h generalizing a with
  | nil => simp [targets, DataModel.sumTargets]
  | @cons o x obs sim hx hr ih =>
    obtain ⟨h1, h2, h3⟩ := hx
    have e : Target.distance ops ys (.mkError o.1 (.fin o.2) (.fin (1 / 20))) = .ok (.fin (392 / 5 * off o.2 x.2)) := by
      simp only [Target.distance, Target.mkError, h1, h3, off_eq h2]
    have e2 : (.fin a + .fin (392 / 5 * off o.2 x.2) : XR ℝ) = .fin (a + 392 / 5 * off o.2 x.2) := rfl
    have ih' := ih (a + 392 / 5 * off o.2 x.2)
    simp only [targets, List.map_cons, DataModel.sumTargets, e] at ih' ⊢
    show DataModel.sumTargets _ _ (XR.fin a + XR.fin (392 / 5 * off o.2 x.2)) = _
    rw [e2, ih']
    simp only [List.zip_cons_cons, List.map_cons, List.sum_cons, add_assoc]

section Run

variable {μ : Measure S} {env : FitEnv String ℝ ℝ Unit S ℝ D} {F : ℝ → ℝ → S → ℝ × S}
  {tools : Study String ℝ ℝ Unit S ℝ D} {Y : ℝ → ℝ → Fin 6 → Sir ℝ} {be0 ga0 : ℝ} {y0 : Fin 6 → Sir ℝ}

theorem prior_eq (hi : Ideal μ env F) (tg : Dict String (Target String ℝ D)) (s : S) :
    (sirModel tg).samplePrior env s = (.ok ⟨assign (fun x => if x = "gamma" then (dg F s).1 else (db F s).1),
      logProb (fun x => if x = "gamma" then (dg F s).1 else (db F s).1)⟩, (db F s).2) := by
  unfold DataModel.samplePrior
  have h1 : sample env.sem (sirModel (D := D) tg).bn (sirModel (D := D) (O := Unit) tg).exo s = _ := net_sample hi s
  rw [h1]
  have h2 : evaluateNodes env.sem (sirModel (D := D) (O := Unit) tg).bn
    (assign (fun x => if x = "gamma" then (dg F s).1 else (db F s).1)) = _ := net_eval hi _
  simp only [h2]
  rfl

theorem domain_ok (hi : Ideal μ env F) (tg : Dict String (Target String ℝ D)) (s : S) :
    ∃ a b : Dom String ℝ, a.name = "gamma" ∧ b.name = "beta" ∧
      (sirModel tg).domain env s = (.ok [a, b], (db F s).2) := by
  have hs := prior_eq hi tg s
  have h1 : ∀ ψ, ∃ a : Dom String ℝ, a.name = "gamma" ∧
      (sirModel tg).domainOf env ⟨assign ψ, logProb ψ⟩ "gamma" = .ok a := by
    intro ψ
    obtain ⟨d, a, -, -, b, hb⟩ := hi.unif _ _ bg (assign ψ).get? rfl
    refine ⟨⟨"gamma", b.1, b.2.1, b.2.2.1, b.2.2.2⟩, rfl, ?_⟩
    show (do
      let d ← getDistribution env.sem (unifOn (1 / 10) 1) (assign ψ).get?
      let (lo, up, mean, std) ← env.support d
      return (⟨"gamma", lo, up, mean, std⟩ : Dom String ℝ)) = _
    rw [a]
    show (do
      let (lo, up, mean, std) ← env.support d
      return (⟨"gamma", lo, up, mean, std⟩ : Dom String ℝ)) = _
    rw [hb]
    rfl
  have h2 : ∀ ψ, ∃ a : Dom String ℝ, a.name = "beta" ∧
      (sirModel tg).domainOf env ⟨assign ψ, logProb ψ⟩ "beta" = .ok a := by
    intro ψ
    obtain ⟨d, a, -, -, b, hb⟩ := hi.unif _ _ bb (assign ψ).get? rfl
    refine ⟨⟨"beta", b.1, b.2.1, b.2.2.1, b.2.2.2⟩, rfl, ?_⟩
    show (do
      let d ← getDistribution env.sem (unifOn 1 20) (assign ψ).get?
      let (lo, up, mean, std) ← env.support d
      return (⟨"beta", lo, up, mean, std⟩ : Dom String ℝ)) = _
    rw [a]
    show (do
      let (lo, up, mean, std) ← env.support d
      return (⟨"beta", lo, up, mean, std⟩ : Dom String ℝ)) = _
    rw [hb]
    rfl
  obtain ⟨a, ha, h1⟩ := h1 (fun x => if x = "gamma" then (dg F s).1 else (db F s).1)
  obtain ⟨b, hb, h2⟩ := h2 (fun x => if x = "gamma" then (dg F s).1 else (db F s).1)
  refine ⟨a, b, ha, hb, ?_⟩
  unfold DataModel.domain
  rw [hs]
  have hr : (sirModel (D := D) (O := Unit) tg).bn.rvRoots = .ok (some ["gamma", "beta"]) := rfl
  rw [hr]
  simp only [List.mapM_cons, List.mapM_nil, h1, h2]
  rfl

/-- The numbers of an epidemic. -/
noncomputable def numbers (Y : ℝ → ℝ → Fin 6 → Sir ℝ) (be ga : ℝ) : List (String × ℝ) := Props.Toys.recorded be ga (states Y be ga)

/-- What is needed of the integration: nobody is lost. -/
def Closed (Y : ℝ → ℝ → Fin 6 → Sir ℝ) : Prop := ∀ be ga j, (Y be ga j).total = 1000

theorem states_total (hY : Closed Y) (be ga : ℝ) : ∀ y ∈ states Y be ga, y.total = 1000 := by
  intro y hy
  obtain ⟨j, rfl⟩ := (List.mem_ofFn' _ _).1 hy
  exact hY be ga j

theorem solve_eq (hY : Closed Y) (be ga : ℝ) : sirSolve be ga (states Y be ga) = sims (numbers Y be ga) :=
  Props.Toys.solve_eq be ga (by simp [states]) (states_total hY be ga)

theorem numbers_keys (Y : ℝ → ℝ → Fin 6 → Sir ℝ) (be ga : ℝ) : (numbers Y be ga).map Prod.fst =
    ["Inc_2", "Prev_2", "Rec_2", "Inc_3", "Prev_3", "Rec_3", "Inc_4", "Prev_4", "Rec_4", "Inc_5", "Prev_5", "Rec_5",
      "Inc_6", "Prev_6", "Rec_6", "Inc_7", "Prev_7", "Rec_7"] :=
  Props.Toys.recorded_keys be ga (by simp [states])

/-- The observed rates and groups are not zero. -/
def Seen (be0 ga0 : ℝ) (y0 : Fin 6 → Sir ℝ) : Prop := be0 ≠ 0 ∧ ga0 ≠ 0 ∧ ∀ j, (y0 j).s ≠ 0 ∧ (y0 j).i ≠ 0

theorem sims_wf (Y : ℝ → ℝ → Fin 6 → Sir ℝ) (be ga : ℝ) : Dict.WF (sims (numbers Y be ga)) := by
  have : (sims (numbers Y be ga)).map Prod.fst = (numbers Y be ga).map Prod.fst := by
    simp only [sims, List.map_map, Function.comp_def]
  unfold Dict.WF Dict.keys
  rw [this, numbers_keys]
  decide

theorem gap_eq (Y : ℝ → ℝ → Fin 6 → Sir ℝ) (be0 ga0 be ga : ℝ) :
    (((numbers Y be0 ga0).zip (numbers Y be ga)).map (fun p => 392 / 5 * off p.1.2 p.2.2)).sum =
      gap be0 ga0 (Y be0 ga0) be ga (Y be ga) := by
  simp [numbers, Props.Toys.recorded, states, List.ofFn_succ, gap, Fin.sum_univ_six]
  ring

theorem pairs_ok (hs : Seen be0 ga0 (Y be0 ga0)) (be ga : ℝ) :
    List.Forall₂ (fun o x : String × ℝ => o.1 = x.1 ∧ o.2 ≠ 0 ∧ (sims (numbers Y be ga)).get? x.1 = some (.fin x.2))
      (numbers Y be0 ga0) (numbers Y be ga) := by
  have hm : ∀ x ∈ numbers Y be ga, (sims (numbers Y be ga)).get? x.1 = some (.fin x.2) := fun x hx =>
    Dict.get?_of_mem (sims_wf Y be ga) (List.mem_map.2 ⟨x, hx, rfl⟩)
  have hk : (numbers Y be0 ga0).map Prod.fst = (numbers Y be ga).map Prod.fst := by rw [numbers_keys, numbers_keys]
  have ho : ∀ o ∈ numbers Y be0 ga0, o.2 ≠ 0 := by
    intro o ho
    simp only [numbers, Props.Toys.recorded, List.mem_flatMap] at ho
    obtain ⟨ky, hky, ho⟩ := ho
    obtain ⟨j, hj⟩ := (List.mem_ofFn' _ _).1 (List.of_mem_zip hky).2
    obtain ⟨a, b, c⟩ := hs
    have c1 := (c j).1
    have c2 := (c j).2
    rw [hj] at c1 c2
    simp only [List.mem_cons, List.not_mem_nil, or_false] at ho
    rcases ho with rfl | rfl | rfl <;> simp [a, b, c1, c2]
  generalize sims (numbers Y be ga) = d at hm
  revert hk hm ho
  generalize numbers Y be0 ga0 = l
  generalize numbers Y be ga = l'
  intro hk ho hm
  induction l generalizing l' with
  | nil =>
    cases l' with
    | nil => exact .nil
    | cons _ _ => cases hk
  | cons o l ih =>
    cases l' with
    | nil => cases hk
    | cons x l' =>
      simp only [List.map_cons, List.cons.injEq] at hk
      exact .cons ⟨hk.1, ho o (by simp), hm x (by simp)⟩ (ih _ hk.2 (fun y hy => ho y (by simp [hy]))
        (fun y hy => hm y (by simp [hy])))

theorem run_eq (hi : Ideal μ tools.env F) (hY : Closed Y) (hs : Seen be0 ga0 (Y be0 ga0)) (ψ : String → ℝ) (s : S) :
    ∃ pt, (sirStudy tools (states Y) (targets (numbers Y be0 ga0))).run ⟨assign ψ, logProb ψ⟩ s = (.ok pt, (db F s).2) ∧
      Study.distance pt = .fin (gap be0 ga0 (Y be0 ga0) (ψ "beta") (ψ "gamma") (Y (ψ "beta") (ψ "gamma"))) := by
  obtain ⟨a, b, ha, hb, hdom⟩ := domain_ok hi (targets (numbers Y be0 ga0)) s
  have hsim : (sirStudy tools (states Y) (targets (numbers Y be0 ga0))).simulate ⟨assign ψ, logProb ψ⟩ s =
      (.ok (sims (numbers Y (ψ "beta") (ψ "gamma"))), s) := by
    show (Except.ok (sirSolve (ψ "beta") (ψ "gamma") (states Y (ψ "beta") (ψ "gamma"))), s) = _
    rw [solve_eq hY]
  have hk : (sirModel (O := Unit) (targets (D := D) (numbers Y be0 ga0))).data.keys =
      (sims (numbers Y (ψ "beta") (ψ "gamma"))).map Prod.fst := by
    show (targets (numbers Y be0 ga0)).map Prod.fst = _
    simp only [targets, sims, List.map_map, Function.comp_def]
    exact (numbers_keys Y _ _).trans (numbers_keys Y _ _).symm
  have hw := sims_wf Y (ψ "beta") (ψ "gamma")
  have hsum := sum_eq tools.env.ops (sims (numbers Y (ψ "beta") (ψ "gamma"))) (pairs_ok hs (ψ "beta") (ψ "gamma")) 0
  rw [gap_eq, zero_add] at hsum
  generalize sims (numbers Y (ψ "beta") (ψ "gamma")) = ys at hsim hk hw hsum
  generalize gap be0 ga0 (Y be0 ga0) (ψ "beta") (ψ "gamma") (Y (ψ "beta") (ψ "gamma")) = g at hsum ⊢
  generalize targets (D := D) (numbers Y be0 ga0) = tg at hsim hk hsum hdom ⊢
  have hfl : (sirModel tg).flatten tools.env (.new (.chrom ⟨assign ψ, logProb ψ⟩) ys) s =
      (⟨.chrom ⟨assign ψ, logProb ψ⟩, ys, [("Xs", .xs [ψ "gamma", ψ "beta"]), ("Ys", .ys ys)]⟩, (db F s).2, .ok ()) := by
    unfold DataModel.flatten
    rw [hdom]
    simp only [List.mapM_cons, List.mapM_nil, ha, hb]
    rw [hk, mapM_ok (l := ys)]
    · rfl
    · rintro ⟨k, v⟩ hp
      have h2 : (Particle.new (.chrom ⟨assign ψ, logProb ψ⟩) ys : Particle String ℝ ℝ).sims.get? k = some v :=
        Dict.get?_of_mem hw hp
      simp only [h2]
  refine ⟨⟨.chrom ⟨assign ψ, logProb ψ⟩, ys, [("Xs", .xs [ψ "gamma", ψ "beta"]), ("Ys", .ys ys),
    ("distance", .num (.fin g))]⟩, ?_, rfl⟩
  have hcalc : (sirModel tg).calcDistance tools.env (.new (.chrom ⟨assign ψ, logProb ψ⟩) ys) s =
      (⟨.chrom ⟨assign ψ, logProb ψ⟩, ys, [("Xs", .xs [ψ "gamma", ψ "beta"]), ("Ys", .ys ys),
        ("distance", .num (.fin g))]⟩, (db F s).2, .ok (.num (.fin g))) := by
    have hl : (sirModel tg).lookupYs tools.env (.new (.chrom ⟨assign ψ, logProb ψ⟩) ys) s =
        (⟨.chrom ⟨assign ψ, logProb ψ⟩, ys, [("Xs", .xs [ψ "gamma", ψ "beta"]), ("Ys", .ys ys)]⟩, (db F s).2,
          .ok (.ys ys)) := by
      unfold DataModel.lookupYs
      simp only [Particle.new]
      have := hfl
      simp only [Particle.new] at this
      rw [this]
      rfl
    unfold DataModel.calcDistance DataModel.calcNote
    rw [hl]
    have hsum' : DataModel.sumTargets (Target.distance tools.env.ops ys)
        ((sirModel (O := Unit) tg).data.map Prod.snd) 0 = .ok (.fin g) := hsum
    simp only [hsum']
    rfl
  unfold Study.run
  simp only [hsim]
  have hcalc' := hcalc
  change (sirStudy tools (states Y) tg).model.calcDistance (sirStudy tools (states Y) tg).env _ _ = _ at hcalc'
  simp only [hcalc']

end Run

/-! ## The law of the prior and of the accepted particles -/

section Law

variable {μ : Measure S} {env : FitEnv String ℝ ℝ Unit S ℝ D} {F : ℝ → ℝ → S → ℝ × S}
  {tools : Study String ℝ ℝ Unit S ℝ D} {Y : ℝ → ℝ → Fin 6 → Sir ℝ} {be0 ga0 : ℝ}

theorem unif_step (hi : Ideal μ env F) [IsProbabilityMeasure μ] {lo up : ℝ} (hb : Bounds lo up) :
    Chance μ (fun s s' => (F lo up s).2 = s') 1 := by
  intro B hB
  have e : {s | ∃ s' ∈ B, (F lo up s).2 = s'} = F lo up ⁻¹' (Set.univ ×ˢ B) := by
    ext s
    simp
  have hp : 0 < up - lo := sub_pos.2 hb.lt
  rw [e]
  refine ⟨hi.measurable _ _ hb (MeasurableSet.univ.prod hB), ?_⟩
  rw [← Measure.map_apply (hi.measurable _ _ hb) (MeasurableSet.univ.prod hB), hi.uniform _ _ hb, Measure.prod_prod,
    Measure.smul_apply, Measure.restrict_apply_univ, Real.volume_Icc, smul_eq_mul,
    ENNReal.inv_mul_cancel (by simpa using hp) ENNReal.ofReal_ne_top]

theorem both_step (hi : Ideal μ env F) [IsProbabilityMeasure μ] : Chance μ (fun s s' => (db F s).2 = s') 1 := by
  have h := (unif_step hi bg).comp (unif_step hi bb)
  rw [mul_one] at h
  refine h.congr (fun s s' => ?_)
  constructor
  · rintro ⟨m, rfl, rfl⟩
    rfl
  · rintro rfl
    exact ⟨_, rfl, rfl⟩

/-- The distance of the epidemic with these rates (removal, transmission). -/
noncomputable def dist (Y : ℝ → ℝ → Fin 6 → Sir ℝ) (be0 ga0 : ℝ) (z : ℝ × ℝ) : ℝ :=
  gap be0 ga0 (Y be0 ga0) z.2 z.1 (Y z.2 z.1)

/-- The rates whose epidemic is accepted. -/
def Acc (Y : ℝ → ℝ → Fin 6 → Sir ℝ) (be0 ga0 : ℝ) (acc : XR ℝ → Bool) : Set (ℝ × ℝ) :=
  {z | acc (.fin (dist Y be0 ga0 z)) = true}

/-- The chance that rates are accepted, which is 0 or 1. -/
noncomputable def chance (Y : ℝ → ℝ → Fin 6 → Sir ℝ) (be0 ga0 : ℝ) (acc : XR ℝ → Bool) (ψ : String → ℝ) : ENNReal :=
  (Acc Y be0 ga0 acc).indicator 1 (ψ "gamma", ψ "beta")

theorem run_iff (hi : Ideal μ tools.env F) (hY : Closed Y) (hs : Seen be0 ga0 (Y be0 ga0)) (acc : XR ℝ → Bool) (b : Bool)
    (ψ : String → ℝ) (s s' : S) :
    (∃ pt, (sirStudy tools (states Y) (targets (numbers Y be0 ga0))).run ⟨assign ψ, logProb ψ⟩ s = (.ok pt, s') ∧
      acc (Study.distance pt) = b) ↔ acc (.fin (dist Y be0 ga0 (ψ "gamma", ψ "beta"))) = b ∧ (db F s).2 = s' := by
  obtain ⟨pt, a, c⟩ := run_eq hi hY hs ψ s
  rw [a]
  constructor
  · rintro ⟨pt', e1, e2⟩
    simp only [Prod.mk.injEq, Except.ok.injEq] at e1
    obtain ⟨rfl, rfl⟩ := e1
    rw [c] at e2
    exact ⟨e2, rfl⟩
  · rintro ⟨e1, rfl⟩
    exact ⟨pt, rfl, by rw [c]; exact e1⟩

theorem run_chance (hi : Ideal μ tools.env F) [IsProbabilityMeasure μ] (hY : Closed Y) (hs : Seen be0 ga0 (Y be0 ga0))
    (acc : XR ℝ → Bool) (b : Bool) (ψ : String → ℝ) :
    Chance μ (fun s s' => ∃ pt, (sirStudy tools (states Y) (targets (numbers Y be0 ga0))).run ⟨assign ψ, logProb ψ⟩ s =
      (.ok pt, s') ∧ acc (Study.distance pt) = b)
      (if acc (.fin (dist Y be0 ga0 (ψ "gamma", ψ "beta"))) = b then 1 else 0) := by
  split
  · rename_i h
    refine (both_step hi).congr (fun s s' => ?_)
    rw [run_iff hi hY hs acc b ψ s s']
    exact ⟨fun e => ⟨h, e⟩, fun e => e.2⟩
  · rename_i h
    refine Chance.never (fun s s' e => h ?_)
    exact ((run_iff hi hY hs acc b ψ s s').1 e).1

theorem measurableSet_box : MeasurableSet Box := measurableSet_Icc.prod measurableSet_Icc

theorem marginal_pair {H : ℝ × ℝ → ENNReal} (hH : Measurable H) (φ : String → ℝ) :
    (∫⋯∫⁻_{"gamma", "beta"}, (fun ψ : String → ℝ => H (ψ "gamma", ψ "beta")) ∂(fun _ => volume)) φ = ∫⁻ z, H z := by
  have h1 : Measurable (fun ψ : String → ℝ => ψ "gamma") := measurable_pi_apply _
  have h2 : Measurable (fun ψ : String → ℝ => ψ "beta") := measurable_pi_apply _
  have hm : Measurable (fun ψ : String → ℝ => H (ψ "gamma", ψ "beta")) := hH.comp (h1.prodMk h2)
  rw [lmarginal_insert _ hm (by decide)]
  simp only [lmarginal_singleton]
  have e1 : ∀ a b : ℝ, Function.update (Function.update φ "gamma" a) "beta" b "gamma" = a := by intro a b; simp
  have e2 : ∀ a b : ℝ, Function.update (Function.update φ "gamma" a) "beta" b "beta" = b := by intro a b; simp
  simp only [e1, e2]
  exact (lintegral_prod _ hH.aemeasurable).symm

/-- The prior mass of a set of rates. -/
theorem box_integral {A : Set (ℝ × ℝ)} (hA : MeasurableSet A) (φ : String → ℝ) :
    (∫⋯∫⁻_{"gamma", "beta"}, (fun ψ : String → ℝ => expX (logProb ψ) * A.indicator 1 (ψ "gamma", ψ "beta"))
      ∂(fun _ => volume)) φ = level * volume (Box ∩ A) := by
  have e : ∀ ψ : String → ℝ, expX (logProb ψ) * A.indicator 1 (ψ "gamma", ψ "beta") =
      level * (Box ∩ A).indicator 1 (ψ "gamma", ψ "beta") := by
    intro ψ
    rw [expX_logProb, Set.inter_indicator_one, Pi.mul_apply, mul_assoc]
  have hm := measurableSet_box.inter hA
  simp only [e]
  rw [marginal_pair (H := fun z => level * (Box ∩ A).indicator 1 z) ((measurable_one.indicator hm).const_mul _),
    lintegral_const_mul _ (measurable_one.indicator hm), lintegral_indicator_one hm]

theorem box_volume : volume Box = ENNReal.ofReal (1 - 1 / 10) * ENNReal.ofReal (20 - 1) := by
  rw [Box, Measure.volume_eq_prod, Measure.prod_prod, Real.volume_Icc, Real.volume_Icc]

theorem level_box : level * volume Box = 1 := by
  have h1 : ENNReal.ofReal (1 - 1 / 10) ≠ 0 := by norm_num
  have h2 : ENNReal.ofReal (20 - 1) ≠ 0 := by norm_num
  rw [box_volume, level, mul_mul_mul_comm, ENNReal.inv_mul_cancel h1 ENNReal.ofReal_ne_top,
    ENNReal.inv_mul_cancel h2 ENNReal.ofReal_ne_top, mul_one]

theorem net_total (φ : String → ℝ) :
    (∫⋯∫⁻_{"gamma", "beta"}, (fun ψ : String → ℝ => expX (logProb ψ)) ∂(fun _ => volume)) φ = 1 := by
  have h := box_integral MeasurableSet.univ φ
  simpa only [Set.indicator_univ, Pi.one_apply, mul_one, Set.inter_univ, level_box] using h

theorem measurable_rates : Measurable (fun ψ : String → ℝ => (ψ "gamma", ψ "beta")) :=
  (measurable_pi_apply "gamma").prodMk (measurable_pi_apply "beta")

theorem prior (hi : Ideal μ tools.env F) [IsProbabilityMeasure μ] (hY : Closed Y) (hs : Seen be0 ga0 (Y be0 ga0))
    {acc : XR ℝ → Bool} (hacc : MeasurableSet (Acc Y be0 ga0 acc)) (φ : String → ℝ) :
    Prior μ (fun _ => volume) (sirStudy tools (states Y) (targets (numbers Y be0 ga0))) acc assign logProb
      (chance Y be0 ga0 acc) {"gamma", "beta"} φ where
  family := net_family hi
  supplied := fun x h => absurd h (net_exo x)
  free := fun x hx => by cases hx
  vars := net_rv
  logProb := net_eval hi
  order := by
    intro ψ s s' r' h
    have h := (net_sample hi s).symm.trans h
    simp only [Prod.mk.injEq, Except.ok.injEq] at h
    rw [← h.1]
    rfl
  total := net_total φ
  le_one := fun ψ => Set.indicator_apply_le' (fun _ => le_rfl) (fun _ => zero_le)
  measurable_q := (measurable_one.indicator hacc).comp measurable_rates
  near := by
    intro ψ _
    have h := run_chance hi hY hs acc true ψ
    have e : chance Y be0 ga0 acc ψ = if acc (.fin (dist Y be0 ga0 (ψ "gamma", ψ "beta"))) = true then 1 else 0 := by
      unfold chance
      by_cases hz : (ψ "gamma", ψ "beta") ∈ Acc Y be0 ga0 acc
      · rw [Set.indicator_of_mem hz, if_pos (by exact hz)]
        rfl
      · rw [Set.indicator_of_notMem hz, if_neg (by exact hz)]
    rw [e]
    exact h
  far := by
    intro ψ _
    have h := run_chance hi hY hs acc false ψ
    have e : 1 - chance Y be0 ga0 acc ψ = if acc (.fin (dist Y be0 ga0 (ψ "gamma", ψ "beta"))) = false then 1 else 0 := by
      unfold chance
      by_cases hz : (ψ "gamma", ψ "beta") ∈ Acc Y be0 ga0 acc
      · rw [Set.indicator_of_mem hz, if_neg (by
          have : acc (.fin (dist Y be0 ga0 (ψ "gamma", ψ "beta"))) = true := hz
          simp [this])]
        simp
      · rw [Set.indicator_of_notMem hz, if_pos (by
          have : ¬ acc (.fin (dist Y be0 ga0 (ψ "gamma", ψ "beta"))) = true := hz
          simpa using this)]
        simp
    rw [e]
    exact h
  runs := by
    intro b B hB
    have hset : {p : (String → ℝ) × S | ∃ pt s', s' ∈ B ∧ (sirStudy tools (states Y) (targets (numbers Y be0 ga0))).run
        ⟨assign p.1, logProb p.1⟩ p.2 = (.ok pt, s') ∧ acc (Study.distance pt) = b} =
        {p | acc (.fin (dist Y be0 ga0 (p.1 "gamma", p.1 "beta"))) = b} ∩ {p | (db F p.2).2 ∈ B} := by
      ext p
      simp only [Set.mem_inter_iff, Set.mem_ofPred_eq]
      constructor
      · rintro ⟨pt, s', hs', e1, e2⟩
        obtain ⟨e3, rfl⟩ := (run_iff hi hY hs acc b p.1 p.2 s').1 ⟨pt, e1, e2⟩
        exact ⟨e3, hs'⟩
      · rintro ⟨e3, hs'⟩
        obtain ⟨pt, e5, e6⟩ := (run_iff hi hY hs acc b p.1 p.2 _).2 ⟨e3, rfl⟩
        exact ⟨pt, _, hs', e5, e6⟩
    rw [hset]
    have hr : Measurable (fun p : (String → ℝ) × S => (p.1 "gamma", p.1 "beta")) := measurable_rates.comp measurable_fst
    refine MeasurableSet.inter ?_ ?_
    · cases b with
      | true => exact hr hacc
      | false =>
        have e : {p : (String → ℝ) × S | acc (.fin (dist Y be0 ga0 (p.1 "gamma", p.1 "beta"))) = false} =
            (fun p : (String → ℝ) × S => (p.1 "gamma", p.1 "beta")) ⁻¹' (Acc Y be0 ga0 acc)ᶜ := by
          ext p
          simp [Acc]
        rw [e]
        exact hr hacc.compl
    · exact (measurable_snd.comp ((hi.measurable _ _ bb).comp (measurable_snd.comp ((hi.measurable _ _ bg).comp
        measurable_snd)))) hB

end Law

theorem set_eq (A : ι → Set (ℝ × ℝ)) (i : ι) : {ψ : String → ℝ | (assign ψ).get? ∈ {g : String → Option ℝ |
    ∃ a b, g "gamma" = some a ∧ g "beta" = some b ∧ (a, b) ∈ A i}} = {ψ | (ψ "gamma", ψ "beta") ∈ A i} := by
  ext ψ
  constructor
  · rintro ⟨a, b, e1, e2, e3⟩
    cases e1
    cases e2
    exact e3
  · intro h
    exact ⟨_, _, rfl, rfl, h⟩

theorem quotient {A C : Set (ℝ × ℝ)} (hA : MeasurableSet A) (hC : MeasurableSet C) (φ : String → ℝ) :
    (∫⋯∫⁻_{"gamma", "beta"}, (fun ψ : String → ℝ => expX (logProb ψ) * ({ψ : String → ℝ | (ψ "gamma", ψ "beta") ∈ A}.indicator 1 ψ *
      C.indicator 1 (ψ "gamma", ψ "beta"))) ∂(fun _ => volume)) φ /
    (∫⋯∫⁻_{"gamma", "beta"}, (fun ψ : String → ℝ => expX (logProb ψ) * C.indicator 1 (ψ "gamma", ψ "beta"))
      ∂(fun _ => volume)) φ = volume (Box ∩ C ∩ A) / volume (Box ∩ C) := by
  have e : ∀ ψ : String → ℝ, ({ψ : String → ℝ | (ψ "gamma", ψ "beta") ∈ A}.indicator 1 ψ * C.indicator 1 (ψ "gamma", ψ "beta")
      : ENNReal) = (C ∩ A).indicator 1 (ψ "gamma", ψ "beta") := by
    intro ψ
    rw [Set.inter_indicator_one, Pi.mul_apply, mul_comm]
    rfl
  simp only [e]
  rw [box_integral (hC.inter hA), box_integral hC, ENNReal.mul_div_mul_left _ _ level_ne.1 level_ne.2, Set.inter_assoc]

theorem measurable_dist {Y : ℝ → ℝ → Fin 6 → Sir ℝ} (hm : ∀ j, Measurable (fun p : ℝ × ℝ => (Y p.1 p.2 j).s) ∧
    Measurable (fun p : ℝ × ℝ => (Y p.1 p.2 j).i)) (be0 ga0 : ℝ) : Measurable (dist Y be0 ga0) := by
  have hS : ∀ j, Measurable (fun z : ℝ × ℝ => (Y z.2 z.1 j).s) := fun j => (hm j).1.comp measurable_swap
  have hI : ∀ j, Measurable (fun z : ℝ × ℝ => (Y z.2 z.1 j).i) := fun j => (hm j).2.comp measurable_swap
  unfold dist gap off
  refine (Finset.measurable_fun_sum _ (fun j _ => ?_)).const_mul _
  have h1 := hS j
  have h2 := hI j
  fun_prop

theorem sound {tools : Study String ℝ ℝ Unit S ℝ D} {F : ℝ → ℝ → S → ℝ × S} {μ : Measure S} (hi : Ideal μ tools.env F)
    (hr : tools.rng.Honest) (ivp : ℝ → ℝ → List (Sir ℝ)) (tg : Dict String (Target String ℝ D)) :
    Sound (sirStudy tools ivp tg) :=
  { closed := hi.closed
    ready := net_ready
    exo := show (Dict.keys ([] : Dict String ℝ)).Nodup from List.nodup_nil
    noShadow := noShadow_of_check (by rfl)
    rng := hr }

theorem data_eq {ops : DistOps D ℝ} {parse : String → Result D} {Y : ℝ → ℝ → Fin 6 → Sir ℝ} (hY : Closed Y) {be0 ga0 : ℝ}
    {data : Dict String (Target String ℝ D)} (hd : sirTargets ops parse be0 ga0 (List.ofFn (Y be0 ga0)) = .ok data) :
    data = targets (numbers Y be0 ga0) := by
  have h := Props.Toys.read_numbers ops parse (.fin (1 / 20)) (sims (numbers Y be0 ga0)) (by
    simp only [sims, List.map_map, Function.comp_def]
    have := numbers_keys Y be0 ga0
    rw [this]
    decide)
  unfold sirTargets at hd
  have e : sirSolve be0 ga0 (List.ofFn (Y be0 ga0)) = sims (numbers Y be0 ga0) := solve_eq hY be0 ga0
  rw [e] at hd
  have h' := hd.symm.trans h
  cases h'
  simp only [sims, targets, List.map_map, Function.comp_def]

/-! ## The property -/

/-- **C251**: the particles that rejection ABC collects for `EpiSIR` are independent, and the rates of each are uniform on
those rates of the prior whose epidemic is within the threshold of the observed one. -/
theorem C251 {μ : Measure S} [IsProbabilityMeasure μ] {tools : Study String ℝ ℝ Unit S ℝ D} {F : ℝ → ℝ → S → ℝ × S}
    (hi : Ideal μ tools.env F) (hr : tools.rng.Honest) {Y : ℝ → ℝ → Fin 6 → Sir ℝ} (hY : ∀ be ga j, (Y be ga j).total = 1000)
    (hm : ∀ j, Measurable (fun p : ℝ × ℝ => (Y p.1 p.2 j).s) ∧ Measurable (fun p : ℝ × ℝ => (Y p.1 p.2 j).i))
    {parse : String → Result D} {be0 ga0 : ℝ} (hbe : be0 ≠ 0) (hga : ga0 ≠ 0)
    (h0 : ∀ j, (Y be0 ga0 j).s ≠ 0 ∧ (Y be0 ga0 j).i ≠ 0) {data : Dict String (Target String ℝ D)}
    (hd : sirTargets tools.env.ops parse be0 ga0 (List.ofFn (Y be0 ga0)) = .ok data) (e : ℝ) {A : ι → Set (ℝ × ℝ)}
    (hA : ∀ i, MeasurableSet (A i)) (parallel : Bool) (is : List ι) :
    Chance μ (fun s s' => ∃ post n, Ends (fun f => Abc.collect (sirStudy tools (fun be ga => List.ofFn (Y be ga))
        data).smcEnv.toSimEnv (.fin e) f parallel is.length) s (post, n) s' ∧
        List.Forall₂ (fun pt i => ∃ ga be, (Study.locus pt).get? "gamma" = some ga ∧
          (Study.locus pt).get? "beta" = some be ∧ (ga, be) ∈ A i) post is)
      ((is.map (fun i =>
        volume ((Set.Icc (1 / 10) 1 ×ˢ Set.Icc 1 20) ∩ {z : ℝ × ℝ | gap be0 ga0 (Y be0 ga0) z.2 z.1 (Y z.2 z.1) ≤ e} ∩ A i) /
        volume ((Set.Icc (1 / 10) 1 ×ˢ Set.Icc 1 20) ∩ {z : ℝ × ℝ | gap be0 ga0 (Y be0 ga0) z.2 z.1 (Y z.2 z.1) ≤ e}))).prod) := by
  cases data_eq hY hd
  have hacc : Acc Y be0 ga0 (fun d => !XR.lt (.fin e) d) = {z : ℝ × ℝ | gap be0 ga0 (Y be0 ga0) z.2 z.1 (Y z.2 z.1) ≤ e} := by
    ext z
    show (!XR.lt (.fin e) (.fin (dist Y be0 ga0 z))) = true ↔ dist Y be0 ga0 z ≤ e
    simp only [XR.lt, Bool.not_eq_true', decide_eq_false_iff_not, not_lt]
  have hC : MeasurableSet {z : ℝ × ℝ | gap be0 ga0 (Y be0 ga0) z.2 z.1 (Y z.2 z.1) ≤ e} :=
    measurableSet_le (measurable_dist hm be0 ga0) measurable_const
  have key := C244 (sound hi hr (states Y) (targets (numbers Y be0 ga0))) (eps := .fin e) rfl
    (prior hi hY ⟨hbe, hga, h0⟩ (acc := fun d => !XR.lt (.fin e) d) (by rw [hacc]; exact hC) (fun _ => 0))
    (fun i => {g | ∃ a b, g "gamma" = some a ∧ g "beta" = some b ∧ (a, b) ∈ A i}) ?_ parallel is
  · have hq : ∀ i, (∫⋯∫⁻_{"gamma", "beta"}, (fun ψ => expX (logProb ψ) * ({ψ : String → ℝ | (assign ψ).get? ∈
        {g : String → Option ℝ | ∃ a b, g "gamma" = some a ∧ g "beta" = some b ∧ (a, b) ∈ A i}}.indicator 1 ψ *
        chance Y be0 ga0 (fun d => !XR.lt (.fin e) d) ψ)) ∂(fun _ => volume)) (fun _ => 0) /
        (∫⋯∫⁻_{"gamma", "beta"}, (fun ψ => expX (logProb ψ) * chance Y be0 ga0 (fun d => !XR.lt (.fin e) d) ψ)
          ∂(fun _ => volume)) (fun _ => 0) =
        volume (Box ∩ {z : ℝ × ℝ | gap be0 ga0 (Y be0 ga0) z.2 z.1 (Y z.2 z.1) ≤ e} ∩ A i) /
        volume (Box ∩ {z : ℝ × ℝ | gap be0 ga0 (Y be0 ga0) z.2 z.1 (Y z.2 z.1) ≤ e}) := by
      intro i
      rw [set_eq]
      unfold chance
      rw [hacc]
      exact quotient (hA i) hC (fun _ => 0)
    simp only [hq] at key
    exact key
  · intro i
    rw [set_eq A i]
    exact measurable_rates (hA i)

/-- **C251** (termination): when the epidemic is continuous in the rates, the observed rates are inside the rectangle of the
prior, and the tolerance is positive, rejection ABC ends with probability one on `EpiSIR`, with the number of particles asked
for, and every particle has rates of the rectangle within the threshold. -/
theorem C251_ends {μ : Measure S} [IsProbabilityMeasure μ] {tools : Study String ℝ ℝ Unit S ℝ D} {F : ℝ → ℝ → S → ℝ × S}
    (hi : Ideal μ tools.env F) (hr : tools.rng.Honest) {Y : ℝ → ℝ → Fin 6 → Sir ℝ} (hY : ∀ be ga j, (Y be ga j).total = 1000)
    (hc : ∀ j, Continuous (fun p : ℝ × ℝ => (Y p.1 p.2 j).s) ∧ Continuous (fun p : ℝ × ℝ => (Y p.1 p.2 j).i))
    {parse : String → Result D} {be0 ga0 : ℝ} (hbe : 1 < be0 ∧ be0 < 20) (hga : 1 / 10 < ga0 ∧ ga0 < 1)
    (h0 : ∀ j, (Y be0 ga0 j).s ≠ 0 ∧ (Y be0 ga0 j).i ≠ 0) {data : Dict String (Target String ℝ D)}
    (hd : sirTargets tools.env.ops parse be0 ga0 (List.ofFn (Y be0 ga0)) = .ok data) {e : ℝ} (he : 0 < e)
    (parallel : Bool) (m : ℕ) :
    Chance μ (fun s s' => ∃ post n, Ends (fun f => Abc.collect (sirStudy tools (fun be ga => List.ofFn (Y be ga))
        data).smcEnv.toSimEnv (.fin e) f parallel m) s (post, n) s' ∧ post.length = m ∧
        ∀ pt ∈ post, ∃ ga be, (Study.locus pt).get? "gamma" = some ga ∧ (Study.locus pt).get? "beta" = some be ∧
          (1 / 10 ≤ ga ∧ ga ≤ 1) ∧ (1 ≤ be ∧ be ≤ 20) ∧ gap be0 ga0 (Y be0 ga0) be ga (Y be ga) ≤ e) 1 := by
  have hm : ∀ j, Measurable (fun p : ℝ × ℝ => (Y p.1 p.2 j).s) ∧ Measurable (fun p : ℝ × ℝ => (Y p.1 p.2 j).i) :=
    fun j => ⟨(hc j).1.measurable, (hc j).2.measurable⟩
  have hg : Continuous (fun z : ℝ × ℝ => gap be0 ga0 (Y be0 ga0) z.2 z.1 (Y z.2 z.1)) := by
    have hs : ∀ j, Continuous (fun z : ℝ × ℝ => (Y z.2 z.1 j).s) := fun j => (hc j).1.comp continuous_swap
    have hi : ∀ j, Continuous (fun z : ℝ × ℝ => (Y z.2 z.1 j).i) := fun j => (hc j).2.comp continuous_swap
    unfold gap off
    refine continuous_const.mul (continuous_finsetSum _ (fun j _ => ?_))
    have := hs j
    have := hi j
    fun_prop
  have hC : MeasurableSet {z : ℝ × ℝ | gap be0 ga0 (Y be0 ga0) z.2 z.1 (Y z.2 z.1) ≤ e} :=
    measurableSet_le hg.measurable measurable_const
  have hB : MeasurableSet (Box ∩ {z : ℝ × ℝ | gap be0 ga0 (Y be0 ga0) z.2 z.1 (Y z.2 z.1) ≤ e}) :=
    (measurableSet_Icc.prod measurableSet_Icc).inter hC
  have key := C251 hi hr hY hm (by linarith [hbe.1]) (by linarith [hga.1]) h0 hd e
    (A := fun _ : Unit => Box ∩ {z : ℝ × ℝ | gap be0 ga0 (Y be0 ga0) z.2 z.1 (Y z.2 z.1) ≤ e}) (fun _ => hB) parallel
    (List.replicate m ())
  have hpos : volume (Box ∩ {z : ℝ × ℝ | gap be0 ga0 (Y be0 ga0) z.2 z.1 (Y z.2 z.1) ≤ e}) ≠ 0 := by
    have ho : IsOpen ((Set.Ioo (1 / 10) 1 ×ˢ Set.Ioo 1 20) ∩ {z : ℝ × ℝ | gap be0 ga0 (Y be0 ga0) z.2 z.1 (Y z.2 z.1) < e}) :=
      (isOpen_Ioo.prod isOpen_Ioo).inter (isOpen_lt hg continuous_const)
    have hne : ((Set.Ioo (1 / 10) 1 ×ˢ Set.Ioo 1 20) ∩
        {z : ℝ × ℝ | gap be0 ga0 (Y be0 ga0) z.2 z.1 (Y z.2 z.1) < e}).Nonempty := by
      refine ⟨(ga0, be0), ⟨⟨hga.1, hga.2⟩, hbe.1, hbe.2⟩, ?_⟩
      rw [Set.mem_ofPred_eq]
      simpa [gap, off] using he
    have hs : (Set.Ioo (1 / 10) 1 ×ˢ Set.Ioo 1 20) ∩ {z : ℝ × ℝ | gap be0 ga0 (Y be0 ga0) z.2 z.1 (Y z.2 z.1) < e} ⊆
        Box ∩ {z : ℝ × ℝ | gap be0 ga0 (Y be0 ga0) z.2 z.1 (Y z.2 z.1) ≤ e} := by
      rintro z ⟨⟨a, b⟩, c⟩
      rw [Set.mem_ofPred_eq] at c
      exact ⟨⟨⟨a.1.le, a.2.le⟩, b.1.le, b.2.le⟩, c.le⟩
    exact (lt_of_lt_of_le (ho.measure_pos volume hne) (measure_mono hs)).ne'
  have hfin : volume (Box ∩ {z : ℝ × ℝ | gap be0 ga0 (Y be0 ga0) z.2 z.1 (Y z.2 z.1) ≤ e}) ≠ ⊤ := by
    refine ne_top_of_le_ne_top ?_ (measure_mono Set.inter_subset_left)
    rw [box_volume]
    exact ENNReal.mul_ne_top ENNReal.ofReal_ne_top ENNReal.ofReal_ne_top
  have hq : volume ((Set.Icc (1 / 10) 1 ×ˢ Set.Icc 1 20) ∩ {z : ℝ × ℝ | gap be0 ga0 (Y be0 ga0) z.2 z.1 (Y z.2 z.1) ≤ e} ∩
      (Box ∩ {z : ℝ × ℝ | gap be0 ga0 (Y be0 ga0) z.2 z.1 (Y z.2 z.1) ≤ e})) /
      volume ((Set.Icc (1 / 10) 1 ×ˢ Set.Icc 1 20) ∩ {z : ℝ × ℝ | gap be0 ga0 (Y be0 ga0) z.2 z.1 (Y z.2 z.1) ≤ e}) = 1 := by
    change volume ((Box ∩ _) ∩ (Box ∩ _)) / volume (Box ∩ _) = 1
    rw [Set.inter_self, ENNReal.div_self hpos hfin]
  simp only [hq, List.map_const', List.prod_replicate, one_pow, List.length_replicate] at key
  refine key.congr (fun s s' => ?_)
  refine exists_congr (fun post => exists_congr (fun k => and_congr_right (fun _ => ?_)))
  rw [List.forall₂_iff_get]
  constructor
  · rintro ⟨hl, h⟩
    have hl' : post.length = m := by simpa using hl
    refine ⟨hl', fun pt hpt => ?_⟩
    obtain ⟨i, hi', rfl⟩ := List.mem_iff_getElem.1 hpt
    obtain ⟨ga, be, e1, e2, ⟨⟨a, b⟩, c⟩⟩ := h i hi' (by simpa using hl' ▸ hi')
    exact ⟨ga, be, e1, e2, a, b, c⟩
  · rintro ⟨hl, h⟩
    refine ⟨by simpa using hl, fun i h1 _ => ?_⟩
    obtain ⟨ga, be, e1, e2, a, b, c⟩ := h _ (List.getElem_mem h1)
    exact ⟨ga, be, e1, e2, ⟨⟨a, b⟩, c⟩⟩

/-- **C251** (before the first adaptation): the particles that ABC-SMC begins with for `EpiSIR` are independent, and the
rates of each are uniform on the rectangle of the prior. -/
theorem C251_first {μ : Measure S} [IsProbabilityMeasure μ] {tools : Study String ℝ ℝ Unit S ℝ D} {F : ℝ → ℝ → S → ℝ × S}
    (hi : Ideal μ tools.env F) (hr : tools.rng.Honest) {Y : ℝ → ℝ → Fin 6 → Sir ℝ} (hY : ∀ be ga j, (Y be ga j).total = 1000)
    {parse : String → Result D} {be0 ga0 : ℝ} (hbe : be0 ≠ 0) (hga : ga0 ≠ 0)
    (h0 : ∀ j, (Y be0 ga0 j).s ≠ 0 ∧ (Y be0 ga0 j).i ≠ 0) {data : Dict String (Target String ℝ D)}
    (hd : sirTargets tools.env.ops parse be0 ga0 (List.ofFn (Y be0 ga0)) = .ok data) {set : SmcSettings ℝ}
    {A : ι → Set (ℝ × ℝ)} (hA : ∀ i, MeasurableSet (A i)) (is : List ι) (hlen : is.length = set.nIter) (hn : is ≠ []) :
    Chance μ (fun s s' => ∃ st, Ends (fun f => Smc.initialise (sirStudy tools (fun be ga => List.ofFn (Y be ga))
        data).smcEnv set f none) s st s' ∧
        List.Forall₂ (fun pt i => ∃ ga be, (Study.locus pt.val).get? "gamma" = some ga ∧
          (Study.locus pt.val).get? "beta" = some be ∧ (ga, be) ∈ A i) st.pts is)
      ((is.map (fun i => volume ((Set.Icc (1 / 10) 1 ×ˢ Set.Icc 1 20) ∩ A i) / ENNReal.ofReal (9 / 10 * 19))).prod) := by
  cases data_eq hY hd
  have hacc : Acc Y be0 ga0 (fun d => !d.isInf) = Set.univ := by
    ext z
    simp [Acc, XR.isInf]
  have key := C244_first (sound hi hr (states Y) (targets (numbers Y be0 ga0))) (set := set)
    (prior hi hY ⟨hbe, hga, h0⟩ (acc := fun d => !d.isInf) (by rw [hacc]; exact MeasurableSet.univ) (fun _ => 0))
    (fun i => {g | ∃ a b, g "gamma" = some a ∧ g "beta" = some b ∧ (a, b) ∈ A i}) ?_ is hlen hn
  · have hq : ∀ i, (∫⋯∫⁻_{"gamma", "beta"}, (fun ψ => expX (logProb ψ) * ({ψ : String → ℝ | (assign ψ).get? ∈
        {g : String → Option ℝ | ∃ a b, g "gamma" = some a ∧ g "beta" = some b ∧ (a, b) ∈ A i}}.indicator 1 ψ *
        chance Y be0 ga0 (fun d => !d.isInf) ψ)) ∂(fun _ => volume)) (fun _ => 0) /
        (∫⋯∫⁻_{"gamma", "beta"}, (fun ψ => expX (logProb ψ) * chance Y be0 ga0 (fun d => !d.isInf) ψ)
          ∂(fun _ => volume)) (fun _ => 0) =
        volume ((Set.Icc (1 / 10) 1 ×ˢ Set.Icc 1 20) ∩ A i) / ENNReal.ofReal (9 / 10 * 19) := by
      intro i
      rw [set_eq]
      unfold chance
      rw [hacc, quotient (hA i) MeasurableSet.univ (fun _ => 0), Set.inter_univ, box_volume,
        ← ENNReal.ofReal_mul (by norm_num), Box]
      norm_num
    simp only [hq] at key
    exact key
  · intro i
    rw [set_eq A i]
    exact measurable_rates (hA i)

/-! ## An example: a stream of uniform numbers -/

open Props.LawsToy (ustream)

/-- A uniform number between two bounds, and the rest of the stream. -/
noncomputable def scaled (lo hi : ℝ) (s : ℕ → ℝ) : ℝ × (ℕ → ℝ) := (lo + (hi - lo) * s 0, tail s)

/-- A uniform distribution, which takes a number from the stream. -/
noncomputable def unifDist (lo hi : ℝ) : Dist ℝ (ℕ → ℝ) (XR ℝ) where
  sample := fun s => (.ok (scaled lo hi s).1, (scaled lo hi s).2)
  logpdf := fun v => .ok (if lo ≤ v ∧ v ≤ hi then .fin (-Real.log (hi - lo)) else .ninf)

/-- A description is known by its lower bound. -/
def describe : List (String × Result ℝ) → Result ℝ
  | [("min", .ok a), ("max", .ok _)] => .ok a
  | _ => .error .TypeError

/-- Numbers and uniform variables. -/
noncomputable def uSem : Sem String ℝ ℝ Unit (ℕ → ℝ) (XR ℝ) where
  const := id
  op := fun _ _ => .error .TypeError
  call := fun _ _ ks => describe ks
  math := fun _ => none
  creators := fun f => if f = "unif" then some 0 else none
  create := fun m => .ok (if m = 1 then unifDist 1 20 else unifDist (1 / 10) 1)
  schema := fun f => if f = "unif" then some [("min", none), ("max", none)] else none
  reparse := .const
  reload := .ok

/-- What the example supplies besides the model. -/
noncomputable def uTools : Study String ℝ ℝ Unit (ℕ → ℝ) ℝ Unit where
  env := {
    sem := uSem
    ops := ⟨fun _ => 0, fun _ => .fin 1, fun _ x => x⟩
    isFloat := fun _ => true
    support := fun _ => .ok (.fin 0, .fin 1, .fin (1 / 2), .fin 1) }
  model := sirModel []
  simulate := fun _ s => (.ok [], s)
  isNone := fun _ => false
  ops := ⟨fun _ => .error .TypeError, fun _ _ => .error .TypeError⟩
  normal := fun sd s => (sd, s)
  sqrt := id
  rng := streamRand

theorem uUnif {lo hi : ℝ} (hb : Bounds lo hi) {g : String → Option ℝ} (hn : g "unif" = none) :
    getDistribution uSem (unifOn lo hi) g = .ok (unifDist lo hi) := by
  have h1 : parseDistribution uSem (unifOn lo hi) g = .ok (unifDist lo hi) := by
    have e : getBlueprint uSem (unifOn lo hi) g = .ok lo := by
      have hc : completeDef uSem (unifOn lo hi) = .ok (unifOn lo hi) := by
        simp [completeDef, unifOn, Kws.ofList, Expr.size, Args.size, Kws.size, firstCall, uSem, Kws.toList, Args.toList]
      unfold getBlueprint
      rw [hc]
      show (unifOn lo hi).eval uSem uSem.creators g = _
      simp [unifOn, Kws.ofList, Expr.eval, Kws.eval, lookup, hn, uSem, describe]
    unfold parseDistribution
    rw [e]
    show Except.ok (if lo = 1 then unifDist 1 20 else unifDist (1 / 10) 1) = _
    rcases hb with ⟨rfl, rfl⟩ | ⟨rfl, rfl⟩
    · rw [if_neg (by norm_num)]
    · rw [if_pos rfl]
  unfold getDistribution
  rw [h1]

theorem scaled_uniform {lo hi : ℝ} (h : lo < hi) : ustream.map (scaled lo hi) =
    ((ENNReal.ofReal (hi - lo))⁻¹ • volume.restrict (Set.Icc lo hi)).prod ustream := by
  have hc : 0 < hi - lo := sub_pos.2 h
  have hf : Measurable (fun x : ℝ => lo + (hi - lo) * x) := (measurable_id.const_mul _).const_add _
  have h1 : scaled lo hi = Prod.map (fun x : ℝ => lo + (hi - lo) * x) id ∘ Props.LawsToy.next := rfl
  have hpre : (fun x : ℝ => lo + (hi - lo) * x) ⁻¹' Set.Icc lo hi = Set.Icc 0 1 := by
    ext x
    simp only [Set.mem_preimage, Set.mem_Icc]
    constructor
    · rintro ⟨a, b⟩
      exact ⟨by nlinarith, by nlinarith⟩
    · rintro ⟨a, b⟩
      exact ⟨by nlinarith, by nlinarith⟩
  have h2 : (volume : Measure ℝ).map (fun x : ℝ => lo + (hi - lo) * x) = (ENNReal.ofReal (hi - lo))⁻¹ • volume := by
    have e : (fun x : ℝ => lo + (hi - lo) * x) = (fun x => lo + x) ∘ (fun x => (hi - lo) * x) := rfl
    rw [e, ← Measure.map_map (measurable_const_add lo) (measurable_const_mul (hi - lo)), Real.map_volume_mul_left hc.ne',
      Measure.map_smul, map_add_left_eq_self, abs_of_pos (inv_pos.2 hc), ENNReal.ofReal_inv_of_pos hc]
  have h3 : (volume.restrict (Set.Icc (0 : ℝ) 1)).map (fun x : ℝ => lo + (hi - lo) * x) =
      (ENNReal.ofReal (hi - lo))⁻¹ • volume.restrict (Set.Icc lo hi) := by
    rw [← hpre, ← Measure.restrict_map hf measurableSet_Icc, h2, Measure.restrict_smul]
  rw [h1, ← Measure.map_map (hf.prodMap measurable_id) Props.LawsToy.measurable_next, Props.LawsToy.next_uniform,
    ← Measure.map_prod_map _ _ hf measurable_id, h3, Measure.map_id]

theorem measurable_scaled (lo hi : ℝ) : Measurable (scaled lo hi) :=
  (((measurable_pi_apply 0).const_mul _).const_add _).prodMk measurable_tail

theorem uIdeal : Ideal ustream uTools.env scaled where
  closed := fun _ => rfl
  unif := fun lo hi hb g hn => ⟨unifDist lo hi, uUnif hb hn, fun s => rfl, fun v => rfl, _, rfl⟩
  measurable := fun lo hi _ => measurable_scaled lo hi
  uniform := fun lo hi hb => scaled_uniform hb.lt

/-- A crude integration: one step of Euler's method to each evaluation time. -/
noncomputable def euler (be ga : ℝ) (j : Fin 6) : Sir ℝ :=
  ⟨990 - (j + 2) * (99 / 10 * be), 10 + (j + 2) * (99 / 10 * be - 10 * ga), (j + 2) * (10 * ga)⟩

theorem euler_total (be ga : ℝ) (j : Fin 6) : (euler be ga j).total = 1000 := by
  simp only [euler, Sir.total]
  ring

theorem euler_seen (j : Fin 6) : (euler (3 / 2) (1 / 5) j).s ≠ 0 ∧ (euler (3 / 2) (1 / 5) j).i ≠ 0 := by
  have h : ((j : ℕ) : ℝ) ≤ 5 := by exact_mod_cast Nat.lt_succ_iff.1 j.2
  have h' : (0 : ℝ) ≤ ((j : ℕ) : ℝ) := Nat.cast_nonneg _
  simp only [euler]
  constructor
  · intro e; nlinarith
  · intro e; nlinarith

example {data : Dict String (Target String ℝ Unit)}
    (hd : sirTargets uTools.env.ops (fun _ => .error .SyntaxError) (3 / 2) (1 / 5) (List.ofFn (euler (3 / 2) (1 / 5))) = .ok data) :
    Chance ustream (fun s s' => ∃ post n, Ends (fun f => Abc.collect (sirStudy uTools (fun be ga => List.ofFn (euler be ga))
        data).smcEnv.toSimEnv (.fin 1) f false 2) s (post, n) s' ∧
        List.Forall₂ (fun pt i => ∃ ga be, (Study.locus pt).get? "gamma" = some ga ∧
          (Study.locus pt).get? "beta" = some be ∧ (ga, be) ∈ Set.Iic i ×ˢ Set.univ) post [(1 / 5 : ℝ), 1])
      ([(1 / 5 : ℝ), 1].map (fun i =>
        volume ((Set.Icc (1 / 10) 1 ×ˢ Set.Icc 1 20) ∩ {z : ℝ × ℝ | gap (3 / 2) (1 / 5) (euler (3 / 2) (1 / 5)) z.2 z.1
          (euler z.2 z.1) ≤ 1} ∩ Set.Iic i ×ˢ Set.univ) /
        volume ((Set.Icc (1 / 10) 1 ×ˢ Set.Icc 1 20) ∩ {z : ℝ × ℝ | gap (3 / 2) (1 / 5) (euler (3 / 2) (1 / 5)) z.2 z.1
          (euler z.2 z.1) ≤ 1}))).prod :=
  C251 uIdeal streamRand_honest euler_total (fun j => by simp only [euler]; constructor <;> fun_prop) (by norm_num)
    (by norm_num) euler_seen hd 1 (A := fun i => Set.Iic i ×ˢ Set.univ) (fun i => measurableSet_Iic.prod MeasurableSet.univ)
    false [1 / 5, 1]

/-- Ten particles at a tolerance of 1/10. -/
example {data : Dict String (Target String ℝ Unit)}
    (hd : sirTargets uTools.env.ops (fun _ => .error .SyntaxError) (3 / 2) (1 / 5) (List.ofFn (euler (3 / 2) (1 / 5))) = .ok data) :
    Chance ustream (fun s s' => ∃ post n, Ends (fun f => Abc.collect (sirStudy uTools (fun be ga => List.ofFn (euler be ga))
        data).smcEnv.toSimEnv (.fin (1 / 10)) f true 10) s (post, n) s' ∧ post.length = 10 ∧
        ∀ pt ∈ post, ∃ ga be, (Study.locus pt).get? "gamma" = some ga ∧ (Study.locus pt).get? "beta" = some be ∧
          (1 / 10 ≤ ga ∧ ga ≤ 1) ∧ (1 ≤ be ∧ be ≤ 20) ∧
          gap (3 / 2) (1 / 5) (euler (3 / 2) (1 / 5)) be ga (euler be ga) ≤ 1 / 10) 1 :=
  C251_ends uIdeal streamRand_honest euler_total (fun j => by simp only [euler]; constructor <;> fun_prop) (by norm_num)
    (by norm_num) euler_seen hd (by norm_num) true 10

/-- There are such data. -/
example : ∃ data, sirTargets uTools.env.ops (fun _ => .error .SyntaxError) (3 / 2) (1 / 5) (List.ofFn (euler (3 / 2) (1 / 5))) =
    .ok data := ⟨_, rfl⟩

example {data : Dict String (Target String ℝ Unit)} {set : SmcSettings ℝ} (h2 : set.nIter = 2)
    (hd : sirTargets uTools.env.ops (fun _ => .error .SyntaxError) (3 / 2) (1 / 5) (List.ofFn (euler (3 / 2) (1 / 5))) = .ok data) :
    Chance ustream (fun s s' => ∃ st, Ends (fun f => Smc.initialise (sirStudy uTools (fun be ga => List.ofFn (euler be ga))
        data).smcEnv set f none) s st s' ∧
        List.Forall₂ (fun pt i => ∃ ga be, (Study.locus pt.val).get? "gamma" = some ga ∧
          (Study.locus pt.val).get? "beta" = some be ∧ (ga, be) ∈ Set.Iic i ×ˢ Set.univ) st.pts [(1 / 5 : ℝ), 1])
      ([(1 / 5 : ℝ), 1].map (fun i => volume ((Set.Icc (1 / 10) 1 ×ˢ Set.Icc (1 : ℝ) 20) ∩ Set.Iic i ×ˢ Set.univ) /
        ENNReal.ofReal (9 / 10 * 19))).prod :=
  C251_first (set := set) uIdeal streamRand_honest euler_total (by norm_num) (by norm_num) euler_seen hd
    (A := fun i => Set.Iic i ×ˢ Set.univ) (fun i => measurableSet_Iic.prod MeasurableSet.univ) [1 / 5, 1] (by simp [h2]) (by simp)

end Props.LawsSir
