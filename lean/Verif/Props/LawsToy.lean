import Verif.Model.ToyNets
import Verif.Props.LawsPosterior
import Verif.Props.LawsTable
import Verif.Props.Toys
import Mathlib.Probability.Distributions.Beta

/-!
# The posterior of the example `BetaBin`: C245

From the scripts of the example to the particles of rejection ABC: uniform priors, binomial counts, and the beta
distributions they lead to.
-/

namespace Props.LawsToy

set_option linter.unusedSectionVars false

open Py Spec Model MeasureTheory Props.LawsAbc Props.Laws Props.Sampling Props.BN Props.Assembled Props.LawsDensity
  Props.LawsPosterior ProbabilityTheory

variable {S D ι : Type} [MeasurableSpace S]

/-- The binomial probabilities. -/
noncomputable def binomPmf (n k : ℕ) (p : ℝ) : ENNReal := ENNReal.ofReal (n.choose k * p ^ k * (1 - p) ^ (n - k))

/-- `beta(al, be)`, with the names of its arguments. -/
def betaOf : Expr String ℝ Unit := .call "beta" .nil (Kws.ofList [("shape1", .name "al"), ("shape2", .name "be")])

/-- `binom(n, x)`, with the names of its arguments. -/
def binomOf (n : ℝ) (x : String) : Expr String ℝ Unit :=
  .call "binom" .nil (Kws.ofList [("size", .const n), ("prob", .name x)])

/-- What is needed of the generator and of the distributions `beta(1, 1)`, `binom(10, p)` and `binom(20, p)`: the first
has the density 1 on the unit interval and is drawn by `F`; the others are drawn by `G`, with binomial probabilities, and
are refused when `p` is no probability. -/
structure Ideal (μ : Measure S) (env : FitEnv String ℝ ℝ Unit S ℝ D) (F : S → ℝ × S) (G : ℕ → ℝ × S → ℝ × S) : Prop where
  closed : ∀ c, (env.sem.reparse c).names = []
  flat : ∀ g : String → Option ℝ, g "beta" = none → g "al" = some 1 → g "be" = some 1 →
    ∃ d, getDistribution env.sem betaOf g = .ok d ∧ (∀ s, d.sample s = (.ok (F s).1, (F s).2)) ∧
      (∀ v, d.logpdf v = .ok (if 0 ≤ v ∧ v ≤ 1 then .fin 0 else .ninf)) ∧ ∃ b, env.support d = .ok b
  bin : ∀ n : ℕ, n = 10 ∨ n = 20 → ∀ (g : String → Option ℝ) x p, g "binom" = none → g x = some p → 0 ≤ p → p ≤ 1 →
    ∃ d, getDistribution env.sem (binomOf n x) g = .ok d ∧ ∀ s, d.sample s = (.ok (G n (p, s)).1, (G n (p, s)).2)
  refuse : ∀ n : ℕ, n = 10 ∨ n = 20 → ∀ (g : String → Option ℝ) x p, g "binom" = none → g x = some p → ¬ (0 ≤ p ∧ p ≤ 1) →
    ∃ e, getDistribution env.sem (binomOf n x) g = .error e
  measurable_flat : Measurable F
  measurable_bin : ∀ n, Measurable (G n)
  uniform : μ.map F = (volume.restrict (Set.Icc 0 1)).prod μ
  whole : ∀ n p s, 0 ≤ p → p ≤ 1 → ∃ k ≤ n, (G n (p, s)).1 = (k : ℕ)
  binomial : ∀ n p, 0 ≤ p → p ≤ 1 → ∀ k ≤ n,
    Chance μ (fun s s' => (G n (p, s)).1 = (k : ℕ) ∧ (G n (p, s)).2 = s') (binomPmf n k p)

/-! ## The network of the prior -/

theorem net_ready : Ready (betaBinNet : BN String ℝ ℝ Unit) :=
  ⟨_, _, (((((Built.empty "BetaBin").step _ rfl).step _ rfl).step _ rfl).step _ rfl), Or.inr ⟨"f", rfl⟩⟩

theorem net_loci : (betaBinNet : BN String ℝ ℝ Unit).loci = [("al", .value "al" 1), ("be", .value "be" 1),
    ("p1", .dist "p1" betaOf ["al", "be"]), ("p2", .dist "p2" betaOf ["al", "be"])] := rfl

theorem loci_cases {x : String} {l : Loci String ℝ ℝ Unit} (h : betaBinNet.loci.get? x = some l) :
    (x = "al" ∧ l = .value "al" 1) ∨ (x = "be" ∧ l = .value "be" 1) ∨
      (x = "p1" ∧ l = .dist "p1" betaOf ["al", "be"]) ∨ (x = "p2" ∧ l = .dist "p2" betaOf ["al", "be"]) := by
  have h1 := Dict.mem_of_get? h
  rw [net_loci] at h1
  simpa using h1

/-- The assignments. -/
def assign (ψ : String → ℝ) : Dict String ℝ := [("al", 1), ("be", 1), ("p1", ψ "p1"), ("p2", ψ "p2")]

/-- Both parameters are probabilities. -/
def Unit2 (ψ : String → ℝ) : Prop := (0 ≤ ψ "p1" ∧ ψ "p1" ≤ 1) ∧ 0 ≤ ψ "p2" ∧ ψ "p2" ≤ 1

/-- The log density of the uniform distribution. -/
noncomputable def lpUnit (v : ℝ) : XR ℝ := if 0 ≤ v ∧ v ≤ 1 then .fin 0 else .ninf

/-- The log density of an assignment. -/
noncomputable def logProb (ψ : String → ℝ) : XR ℝ := 0 + (0 + (lpUnit (ψ "p1") + (lpUnit (ψ "p2") + 0)))

theorem expX_lpUnit (v : ℝ) : expX (lpUnit v) = (Set.Icc (0 : ℝ) 1).indicator 1 v := by
  unfold lpUnit
  by_cases h : 0 ≤ v ∧ v ≤ 1
  · rw [if_pos h, Set.indicator_of_mem (by exact h)]
    simp [expX]
  · rw [if_neg h, Set.indicator_of_notMem (by exact h)]
    rfl

theorem expX_logProb (ψ : String → ℝ) : expX (logProb ψ) =
    (Set.Icc (0 : ℝ) 1).indicator 1 (ψ "p1") * (Set.Icc (0 : ℝ) 1).indicator 1 (ψ "p2") := by
  simp only [logProb, expX_add, expX_lpUnit, expX_zero, one_mul, mul_one]

theorem unit2_of {ψ : String → ℝ} (h : expX (logProb ψ) ≠ 0) : Unit2 ψ := by
  rw [expX_logProb] at h
  have h1 := left_ne_zero_of_mul h
  have h2 := right_ne_zero_of_mul h
  have k1 : ψ "p1" ∈ Set.Icc (0 : ℝ) 1 := Set.mem_of_indicator_ne_zero h1
  have k2 : ψ "p2" ∈ Set.Icc (0 : ℝ) 1 := Set.mem_of_indicator_ne_zero h2
  exact ⟨k1, k2⟩

theorem lpUnit_nan (v : ℝ) : (lpUnit v).isNan = false ∧ lpUnit v ≠ .pinf := by
  unfold lpUnit
  split <;> simp [XR.isNan]

theorem logProb_nan (ψ : String → ℝ) : (logProb ψ).isNan = false := by
  unfold logProb lpUnit
  split <;> split <;> rfl

section Net

variable {μ : Measure S} {env : FitEnv String ℝ ℝ Unit S ℝ D} {F : S → ℝ × S} {G : ℕ → ℝ × S → ℝ × S}

theorem net_sample (hi : Ideal μ env F G) (s : S) : sample env.sem betaBinNet [] s =
    (.ok (assign (fun x => if x = "p1" then (F s).1 else (F (F s).2).1)), (F (F s).2).2) := by
  obtain ⟨d1, a1, b1, -⟩ := hi.flat (Dict.get? [("al", 1), ("be", 1)]) rfl rfl rfl
  obtain ⟨d2, a2, b2, -⟩ := hi.flat (Dict.get? [("al", 1), ("be", 1), ("p1", (F s).1)]) rfl rfl rfl
  have h : sample env.sem betaBinNet [] s =
      sampleLoop env.sem betaBinNet (fun _ => true) ["p1", "p2"] [("al", 1), ("be", 1)] s := rfl
  have g1 : (betaBinNet : BN String ℝ ℝ Unit).get "p1" = .ok (.dist "p1" betaOf ["al", "be"]) := rfl
  have g2 : (betaBinNet : BN String ℝ ℝ Unit).get "p2" = .ok (.dist "p2" betaOf ["al", "be"]) := rfl
  have k1 : Loci.render env.sem (.dist "p1" betaOf ["al", "be"]) (Dict.get? [("al", 1), ("be", 1)]) s =
      (.ok (F s).1, (F s).2) := by
    simp only [Loci.render, a1, b1]
  have k2 : Loci.render env.sem (.dist "p2" betaOf ["al", "be"]) (Dict.get? [("al", 1), ("be", 1), ("p1", (F s).1)]) (F s).2 =
      (.ok (F (F s).2).1, (F (F s).2).2) := by
    simp only [Loci.render, a2, b2]
  have m1 : ("p1" : String) ∉ Dict.keys [("al", (1 : ℝ)), ("be", 1)] := by simp [Dict.keys]
  have e1 : Dict.set [("al", (1 : ℝ)), ("be", 1)] "p1" (F s).1 = [("al", 1), ("be", 1), ("p1", (F s).1)] := rfl
  have m2 : ("p2" : String) ∉ Dict.keys [("al", (1 : ℝ)), ("be", 1), ("p1", (F s).1)] := by simp [Dict.keys]
  have e2 : Dict.set [("al", (1 : ℝ)), ("be", 1), ("p1", (F s).1)] "p2" (F (F s).2).1 =
      [("al", 1), ("be", 1), ("p1", (F s).1), ("p2", (F (F s).2).1)] := rfl
  rw [h]
  simp only [sampleLoop, m1, m2, g1, g2, k1, k2, e1, e2, not_false_eq_true, decide_true, Bool.and_self, if_true]
  rfl

theorem net_eval (hi : Ideal μ env F G) (ψ : String → ℝ) :
    evaluateNodes env.sem betaBinNet (assign ψ) = .ok (logProb ψ) := by
  obtain ⟨d, a, -, b, -⟩ := hi.flat (assign ψ).get? rfl rfl rfl
  have g1 : (betaBinNet : BN String ℝ ℝ Unit).get "p1" = .ok (.dist "p1" betaOf ["al", "be"]) := rfl
  have g2 : (betaBinNet : BN String ℝ ℝ Unit).get "p2" = .ok (.dist "p2" betaOf ["al", "be"]) := rfl
  have v1 : (assign ψ).get? "p1" = some (ψ "p1") := rfl
  have v2 : (assign ψ).get? "p2" = some (ψ "p2") := rfl
  have k1 : Loci.evaluate env.sem (.dist "p1" betaOf ["al", "be"]) (assign ψ).get? = .ok (lpUnit (ψ "p1")) := by
    simp only [Loci.evaluate, a, v1]
    have e : (do let d ← (Except.ok d : Result _); d.logpdf (ψ "p1")) = Except.ok (lpUnit (ψ "p1")) := b _
    rw [e]
  have k2 : Loci.evaluate env.sem (.dist "p2" betaOf ["al", "be"]) (assign ψ).get? = .ok (lpUnit (ψ "p2")) := by
    simp only [Loci.evaluate, a, v2]
    have e : (do let d ← (Except.ok d : Result _); d.logpdf (ψ "p2")) = Except.ok (lpUnit (ψ "p2")) := b _
    rw [e]
  have hk : (assign ψ).keys.filter (· ∈ (betaBinNet : BN String ℝ ℝ Unit).dag.nodes) = ["al", "be", "p1", "p2"] := rfl
  have ga : (betaBinNet : BN String ℝ ℝ Unit).get "al" = .ok (.value "al" 1) := rfl
  have gb : (betaBinNet : BN String ℝ ℝ Unit).get "be" = .ok (.value "be" 1) := rfl
  have hm : (["al", "be", "p1", "p2"] : List String).mapM (fun k => do
      Loci.evaluate env.sem (← (betaBinNet : BN String ℝ ℝ Unit).get k) (assign ψ).get?) =
      (.ok [0, 0, lpUnit (ψ "p1"), lpUnit (ψ "p2")] : Result (List (XR ℝ))) := by
    simp only [List.mapM_cons, List.mapM_nil, ga, gb, g1, g2]
    show (do
      let a ← Loci.evaluate env.sem (.value "al" 1) (assign ψ).get?
      let b ← (do
        let a ← Loci.evaluate env.sem (.value "be" 1) (assign ψ).get?
        let b ← (do
          let a ← Loci.evaluate env.sem (.dist "p1" betaOf ["al", "be"]) (assign ψ).get?
          let b ← (do
            let a ← Loci.evaluate env.sem (.dist "p2" betaOf ["al", "be"]) (assign ψ).get?
            let b ← (pure [] : Result (List (XR ℝ)))
            pure (a :: b))
          pure (a :: b))
        pure (a :: b))
      pure (a :: b) : Result (List (XR ℝ))) = _
    rw [k1, k2]
    rfl
  unfold evaluateNodes
  rw [hk, hm]
  show Except.ok (if ([0, 0, lpUnit (ψ "p1"), lpUnit (ψ "p2")] : List (XR ℝ)).sum.isNan then XR.ninf else _) = _
  have : ([0, 0, lpUnit (ψ "p1"), lpUnit (ψ "p2")] : List (XR ℝ)).sum = logProb ψ := rfl
  rw [this, logProb_nan]
  rfl

theorem flat_fair (hi : Ideal μ env F G) [SFinite μ] {g : String → Option ℝ} (hn : g "beta" = none) (ha : g "al" = some 1) (hb : g "be" = some 1)
    {d : Dist ℝ S (XR ℝ)} (h : getDistribution env.sem betaOf g = .ok d) :
    FairDensity μ volume d ∧ (∀ s, d.sample s = (.ok (F s).1, (F s).2)) ∧ ∀ v, dens d v = expX (lpUnit v) := by
  obtain ⟨d', a, b, c, -⟩ := hi.flat g hn ha hb
  rw [a] at h
  cases h
  have hd : ∀ v, dens d v = expX (lpUnit v) := by
    intro v
    simp only [dens, c]
    rfl
  refine ⟨?_, b, hd⟩
  intro H hH
  have e : {s | ∃ v s', d.sample s = (.ok v, s') ∧ (v, s') ∈ H} = F ⁻¹' H := by
    ext s
    simp only [b, Set.mem_ofPred_eq, Set.mem_preimage]
    constructor
    · rintro ⟨v, s', h1, h2⟩
      simp only [Prod.mk.injEq, Except.ok.injEq] at h1
      obtain ⟨rfl, rfl⟩ := h1
      exact h2
    · intro h1
      exact ⟨_, _, rfl, h1⟩
  rw [e, ← Measure.map_apply hi.measurable_flat hH, hi.uniform, Measure.prod_apply hH,
    ← lintegral_indicator measurableSet_Icc]
  refine lintegral_congr (fun v => ?_)
  rw [hd, expX_lpUnit]
  by_cases hv : v ∈ Set.Icc (0 : ℝ) 1
  · rw [Set.indicator_of_mem hv, Set.indicator_of_mem hv, Pi.one_apply, one_mul]
    rfl
  · rw [Set.indicator_of_notMem hv, Set.indicator_of_notMem hv, zero_mul]

theorem measurable_lp : Measurable (fun v => expX (lpUnit v)) := by
  simp only [expX_lpUnit]
  exact measurable_one.indicator measurableSet_Icc

theorem net_dens (hi : Ideal μ env F G) [SFinite μ] {x : String} (hx : x = "p1" ∨ x = "p2") (ψ : String → ℝ) :
    nodeDens env.sem betaBinNet x (assign ψ) = expX (lpUnit (ψ x)) := by
  obtain ⟨d, a, -, b, -⟩ := hi.flat (assign ψ).get? rfl rfl rfl
  have hd := (flat_fair hi rfl rfl rfl a).2.2
  rcases hx with rfl | rfl
  · have g1 : (betaBinNet : BN String ℝ ℝ Unit).loci.get? "p1" = some (.dist "p1" betaOf ["al", "be"]) := rfl
    have v1 : (assign ψ).get? "p1" = some (ψ "p1") := rfl
    simp only [nodeDens, g1, a, v1, hd]
  · have g1 : (betaBinNet : BN String ℝ ℝ Unit).loci.get? "p2" = some (.dist "p2" betaOf ["al", "be"]) := rfl
    have v1 : (assign ψ).get? "p2" = some (ψ "p2") := rfl
    simp only [nodeDens, g1, a, v1, hd]

theorem net_family (hi : Ideal μ env F G) [SFinite μ] :
    Family μ (fun _ => volume) env.sem betaBinNet [] assign where
  outcome := fun ψ => {
    wf := show ["al", "be", "p1", "p2"].Nodup by decide
    keys := by
      intro x
      have e : (betaBinNet : BN String ℝ ℝ Unit).dag.nodes = ["al", "be", "p1", "p2"] := rfl
      have e' : Dict.keys (assign ψ) = ["al", "be", "p1", "p2"] := rfl
      rw [e, e']
      simp [Dict.keys]
    given := by intro x v h; cases h
    fixed := by
      intro x l hl _ hd
      rcases loci_cases hl with ⟨rfl, rfl⟩ | ⟨rfl, rfl⟩ | ⟨-, rfl⟩ | ⟨-, rfl⟩
      · exact ⟨_, rfl, fun s => rfl⟩
      · exact ⟨_, rfl, fun s => rfl⟩
      · cases hd
      · cases hd }
  drawn := by
    rintro φ x ⟨l, hl, hd⟩ -
    rcases loci_cases hl with ⟨rfl, rfl⟩ | ⟨rfl, rfl⟩ | ⟨rfl, rfl⟩ | ⟨rfl, rfl⟩
    · cases hd
    · cases hd
    · rfl
    · rfl
  fair := by
    intro φ x n f ps d hl _ hd
    rcases loci_cases hl with ⟨rfl, h⟩ | ⟨rfl, h⟩ | ⟨rfl, h⟩ | ⟨rfl, h⟩
    · cases h
    · cases h
    · cases h
      exact (flat_fair hi rfl rfl rfl hd).1
    · cases h
      exact (flat_fair hi rfl rfl rfl hd).1
  draws := by
    intro x n f ps hl _ H hH
    have key : MeasurableSet {p : (String → ℝ) × S | ∃ d v s', getDistribution env.sem betaOf (assign p.1).get? = .ok d ∧
        d.sample p.2 = (.ok v, s') ∧ (Function.update p.1 x v, s') ∈ H} := by
      have e : {p : (String → ℝ) × S | ∃ d v s', getDistribution env.sem betaOf (assign p.1).get? = .ok d ∧
          d.sample p.2 = (.ok v, s') ∧ (Function.update p.1 x v, s') ∈ H} =
          (fun p : (String → ℝ) × S => (Function.update p.1 x (F p.2).1, (F p.2).2)) ⁻¹' H := by
        ext p
        constructor
        · rintro ⟨d, v, s', h1, h2, h3⟩
          rw [(flat_fair hi rfl rfl rfl h1).2.1] at h2
          cases h2
          exact h3
        · intro h
          obtain ⟨d, a, b, -⟩ := hi.flat (assign p.1).get? rfl rfl rfl
          exact ⟨d, _, _, a, b _, h⟩
      rw [e]
      have hF := hi.measurable_flat.comp (measurable_snd : Measurable (Prod.snd : (String → ℝ) × S → S))
      refine Measurable.prodMk ?_ (measurable_snd.comp hF) hH
      exact measurable_update'.comp (measurable_fst.prodMk (measurable_fst.comp hF))
    rcases loci_cases hl with ⟨rfl, h⟩ | ⟨rfl, h⟩ | ⟨rfl, h⟩ | ⟨rfl, h⟩ <;> cases h
    · exact key
    · exact key
  density := by
    rintro x ⟨l, hl, hd⟩ -
    have hx : x = "p1" ∨ x = "p2" := by
      rcases loci_cases hl with ⟨rfl, rfl⟩ | ⟨rfl, rfl⟩ | ⟨rfl, rfl⟩ | ⟨rfl, rfl⟩
      · cases hd
      · cases hd
      · exact Or.inl rfl
      · exact Or.inr rfl
    simp only [net_dens hi hx]
    exact measurable_lp.comp (measurable_pi_apply x)

theorem net_exo (x : String) : ¬ Exogenous (betaBinNet : BN String ℝ ℝ Unit) x := by
  rintro ⟨n, h⟩
  rcases loci_cases h with ⟨-, h⟩ | ⟨-, h⟩ | ⟨-, h⟩ | ⟨-, h⟩ <;> cases h

theorem net_rv (x : String) : x ∈ ({"p1", "p2"} : Finset String) ↔ (betaBinNet : BN String ℝ ℝ Unit).Rv x := by
  constructor
  · intro h
    rcases Finset.mem_insert.1 h with rfl | h
    · exact ⟨_, rfl, rfl⟩
    · rw [Finset.mem_singleton.1 h]
      exact ⟨_, rfl, rfl⟩
  · rintro ⟨l, hl, hd⟩
    rcases loci_cases hl with ⟨rfl, rfl⟩ | ⟨rfl, rfl⟩ | ⟨rfl, rfl⟩ | ⟨rfl, rfl⟩
    · cases hd
    · cases hd
    · simp
    · simp

/-! ## The simulation -/

/-- The state after the two counts were drawn. -/
def after (G : ℕ → ℝ × S → ℝ × S) (ψ : String → ℝ) (s : S) : S := (G 20 (ψ "p2", (G 10 (ψ "p1", s)).2)).2

/-- The two counts. -/
def counts (G : ℕ → ℝ × S → ℝ × S) (ψ : String → ℝ) (s : S) : ℝ × ℝ :=
  ((G 10 (ψ "p1", s)).1, (G 20 (ψ "p2", (G 10 (ψ "p1", s)).2)).1)

theorem data_loop (sem : Sem String ℝ ℝ Unit S (XR ℝ)) (ψ : String → ℝ) (s : S) :
    sample sem betaBinData (assign ψ) s =
      sampleLoop sem betaBinData (fun _ => true) ["x1", "x2"] (assign ψ) s := rfl

theorem get_x1 : (betaBinData : BN String ℝ ℝ Unit).get "x1" = .ok (.dist "x1" (binomOf 10 "p1") ["p1"]) := rfl

theorem get_x2 : (betaBinData : BN String ℝ ℝ Unit).get "x2" = .ok (.dist "x2" (binomOf 20 "p2") ["p2"]) := rfl

theorem bin10 (hi : Ideal μ env F G) {g : String → Option ℝ} {x : String} {p : ℝ} (hn : g "binom" = none) (hg : g x = some p) (n : String) (ps : List String)
    (s : S) : (0 ≤ p ∧ p ≤ 1 → Loci.render env.sem (.dist n (binomOf 10 x) ps) g s = (.ok (G 10 (p, s)).1, (G 10 (p, s)).2)) ∧
      (¬ (0 ≤ p ∧ p ≤ 1) → ∃ e, Loci.render env.sem (.dist n (binomOf 10 x) ps) g s = (.error e, s)) := by
  constructor
  · rintro ⟨h0, h1⟩
    obtain ⟨d, a, b⟩ := hi.bin 10 (Or.inl rfl) g x p hn hg h0 h1
    rw [Nat.cast_ofNat] at a
    simp only [Loci.render, a, b]
  · intro h
    obtain ⟨e, a⟩ := hi.refuse 10 (Or.inl rfl) g x p hn hg h
    rw [Nat.cast_ofNat] at a
    exact ⟨e, by simp only [Loci.render, a]⟩

theorem bin20 (hi : Ideal μ env F G) {g : String → Option ℝ} {x : String} {p : ℝ} (hn : g "binom" = none) (hg : g x = some p) (n : String) (ps : List String)
    (s : S) : (0 ≤ p ∧ p ≤ 1 → Loci.render env.sem (.dist n (binomOf 20 x) ps) g s = (.ok (G 20 (p, s)).1, (G 20 (p, s)).2)) ∧
      (¬ (0 ≤ p ∧ p ≤ 1) → ∃ e, Loci.render env.sem (.dist n (binomOf 20 x) ps) g s = (.error e, s)) := by
  constructor
  · rintro ⟨h0, h1⟩
    obtain ⟨d, a, b⟩ := hi.bin 20 (Or.inr rfl) g x p hn hg h0 h1
    rw [Nat.cast_ofNat] at a
    simp only [Loci.render, a, b]
  · intro h
    obtain ⟨e, a⟩ := hi.refuse 20 (Or.inr rfl) g x p hn hg h
    rw [Nat.cast_ofNat] at a
    exact ⟨e, by simp only [Loci.render, a]⟩

theorem data_sample (hi : Ideal μ env F G) {ψ : String → ℝ} (hψ : Unit2 ψ) (s : S) :
    sample env.sem betaBinData (assign ψ) s =
      (.ok (assign ψ ++ [("x1", (counts G ψ s).1), ("x2", (counts G ψ s).2)]), after G ψ s) := by
  have k1 := (bin10 hi (g := (assign ψ).get?) (x := "p1") (p := ψ "p1") rfl rfl "x1" ["p1"] s).1 hψ.1
  have k2 := (bin20 hi (g := Dict.get? (assign ψ ++ [("x1", (G 10 (ψ "p1", s)).1)])) (x := "p2") (p := ψ "p2") rfl rfl "x2"
    ["p2"] (G 10 (ψ "p1", s)).2).1 hψ.2
  have m1 : ("x1" : String) ∉ Dict.keys (assign ψ) := by simp [assign, Dict.keys]
  have e1 : Dict.set (assign ψ) "x1" (G 10 (ψ "p1", s)).1 = assign ψ ++ [("x1", (G 10 (ψ "p1", s)).1)] := rfl
  have m2 : ("x2" : String) ∉ Dict.keys (assign ψ ++ [("x1", (G 10 (ψ "p1", s)).1)]) := by simp [assign, Dict.keys]
  rw [data_loop]
  simp only [sampleLoop, m1, m2, get_x1, get_x2, k1, k2, e1, not_false_eq_true, decide_true, Bool.and_self, if_true]
  rfl

theorem data_refused (hi : Ideal μ env F G) {ψ : String → ℝ} (hψ : ¬ Unit2 ψ) (s : S) :
    ∃ e s', sample env.sem betaBinData (assign ψ) s = (.error e, s') := by
  have m1 : ("x1" : String) ∉ Dict.keys (assign ψ) := by simp [assign, Dict.keys]
  rw [data_loop]
  by_cases h1 : 0 ≤ ψ "p1" ∧ ψ "p1" ≤ 1
  · have h2 : ¬ (0 ≤ ψ "p2" ∧ ψ "p2" ≤ 1) := fun h => hψ ⟨h1, h⟩
    have k1 := (bin10 hi (g := (assign ψ).get?) (x := "p1") (p := ψ "p1") rfl rfl "x1" ["p1"] s).1 h1
    obtain ⟨e, k2⟩ := (bin20 hi (g := Dict.get? (assign ψ ++ [("x1", (G 10 (ψ "p1", s)).1)])) (x := "p2") (p := ψ "p2") rfl rfl "x2"
      ["p2"] (G 10 (ψ "p1", s)).2).2 h2
    have e1 : Dict.set (assign ψ) "x1" (G 10 (ψ "p1", s)).1 = assign ψ ++ [("x1", (G 10 (ψ "p1", s)).1)] := rfl
    have m2 : ("x2" : String) ∉ Dict.keys (assign ψ ++ [("x1", (G 10 (ψ "p1", s)).1)]) := by simp [assign, Dict.keys]
    refine ⟨e, (G 10 (ψ "p1", s)).2, ?_⟩
    simp only [sampleLoop, m1, m2, get_x1, get_x2, k1, k2, e1, not_false_eq_true, decide_true, Bool.and_self, if_true]
  · obtain ⟨e, k1⟩ := (bin10 hi (g := (assign ψ).get?) (x := "p1") (p := ψ "p1") rfl rfl "x1" ["p1"] s).2 h1
    refine ⟨e, s, ?_⟩
    simp only [sampleLoop, m1, get_x1, k1, not_false_eq_true, decide_true, Bool.and_self, if_true]

/-- The targets of `BetaBin((d1, d2))`. -/
noncomputable def targets (d1 d2 : ℝ) : Dict String (Target String ℝ D) :=
  [("x1", .mkError "x1" (.fin d1) (.fin (1 / 10))), ("x2", .mkError "x2" (.fin d2) (.fin (1 / 10)))]

/-- The distance of two counts from those observed. -/
noncomputable def gap (d1 d2 : ℝ) (x : ℝ × ℝ) : ℝ := 196 / 5 * ((x.1 - d1) ^ 2 / d1 + (x.2 - d2) ^ 2 / d2)

theorem gap_eq {d1 d2 : ℝ} (h1 : d1 ≠ 0) (h2 : d2 ≠ 0) (x : ℝ × ℝ) :
    (0 + (XR.fin x.1 - .fin d1).sq / (.fin (1 / 10) * .fin d1 / .fin 2 / .fin z95) +
      (XR.fin x.2 - .fin d2).sq / (.fin (1 / 10) * .fin d2 / .fin 2 / .fin z95) : XR ℝ) = .fin (gap d1 d2 x) := by
  have hz : (z95 : ℝ) ≠ 0 := by norm_num [z95]
  have e1 : (1 / 10 : ℝ) * d1 / 2 / z95 ≠ 0 := by positivity
  have e2 : (1 / 10 : ℝ) * d2 / 2 / z95 ≠ 0 := by positivity
  have f : ∀ a b : ℝ, b ≠ 0 → (XR.fin a / XR.fin b : XR ℝ) = .fin (a / b) := fun a b hb => by rw [XR.fin_div_fin, if_neg hb]
  have g : ∀ a b : ℝ, (XR.fin a * XR.fin b : XR ℝ) = .fin (a * b) := fun a b => rfl
  have k : ∀ a b : ℝ, (XR.fin a - XR.fin b : XR ℝ) = .fin (a - b) := fun a b => by simp
  have l : ∀ a : ℝ, (XR.fin a : XR ℝ).sq = .fin (a * a) := fun a => by simp [XR.sq]
  have m : ∀ a b : ℝ, (XR.fin a + XR.fin b : XR ℝ) = .fin (a + b) := fun a b => by simp
  rw [g, g, f _ 2 two_ne_zero, f _ 2 two_ne_zero, f _ z95 hz, f _ z95 hz, k, k, l, l, f _ _ e1, f _ _ e2, zero_add, m]
  congr 1
  unfold gap
  norm_num [z95]
  field_simp
  ring

variable {tools : Study String ℝ ℝ Unit S ℝ D}

theorem prior_eq (hi : Ideal μ env F G) (tg : Dict String (Target String ℝ D)) (s : S) :
    (betaBinModel tg).samplePrior env s = (.ok ⟨assign (fun x => if x = "p1" then (F s).1 else (F (F s).2).1),
      logProb (fun x => if x = "p1" then (F s).1 else (F (F s).2).1)⟩, (F (F s).2).2) := by
  unfold DataModel.samplePrior
  have h1 : sample env.sem (betaBinModel (D := D) tg).bn (betaBinModel (D := D) (O := Unit) tg).exo s = _ := net_sample hi s
  rw [h1]
  have h2 : evaluateNodes env.sem (betaBinModel (D := D) (O := Unit) tg).bn
    (assign (fun x => if x = "p1" then (F s).1 else (F (F s).2).1)) = _ := net_eval hi _
  simp only [h2]
  rfl

theorem domain_ok (hi : Ideal μ env F G) (tg : Dict String (Target String ℝ D)) (s : S) :
    ∃ a b : Dom String ℝ, a.name = "p1" ∧ b.name = "p2" ∧
      (betaBinModel tg).domain env s = (.ok [a, b], (F (F s).2).2) := by
  have hs := prior_eq hi tg s
  have hd : ∀ ψ, ∃ b : XR ℝ × XR ℝ × XR ℝ × XR ℝ, ∀ x, x = "p1" ∨ x = "p2" → (betaBinModel tg).domainOf env ⟨assign ψ, logProb ψ⟩ x =
      .ok ⟨x, b.1, b.2.1, b.2.2.1, b.2.2.2⟩ := by
    intro ψ
    obtain ⟨d, a, -, -, b, hb⟩ := hi.flat (assign ψ).get? rfl rfl rfl
    refine ⟨b, ?_⟩
    rintro x (rfl | rfl)
    · show (do
        let d ← getDistribution env.sem betaOf (assign ψ).get?
        let (lo, up, mean, std) ← env.support d
        return (⟨"p1", lo, up, mean, std⟩ : Dom String ℝ)) = _
      rw [a]
      show (do
        let (lo, up, mean, std) ← env.support d
        return (⟨"p1", lo, up, mean, std⟩ : Dom String ℝ)) = _
      rw [hb]
      rfl
    · show (do
        let d ← getDistribution env.sem betaOf (assign ψ).get?
        let (lo, up, mean, std) ← env.support d
        return (⟨"p2", lo, up, mean, std⟩ : Dom String ℝ)) = _
      rw [a]
      show (do
        let (lo, up, mean, std) ← env.support d
        return (⟨"p2", lo, up, mean, std⟩ : Dom String ℝ)) = _
      rw [hb]
      rfl
  obtain ⟨b, hb⟩ := hd (fun x => if x = "p1" then (F s).1 else (F (F s).2).1)
  refine ⟨⟨"p1", b.1, b.2.1, b.2.2.1, b.2.2.2⟩, ⟨"p2", b.1, b.2.1, b.2.2.1, b.2.2.2⟩, rfl, rfl, ?_⟩
  unfold DataModel.domain
  rw [hs]
  have hr : (betaBinModel (D := D) (O := Unit) tg).bn.rvRoots = .ok (some ["p1", "p2"]) := rfl
  rw [hr]
  simp only [List.mapM_cons, List.mapM_nil, hb _ (Or.inl rfl), hb _ (Or.inr rfl)]
  rfl

theorem run_eq (hi : Ideal μ tools.env F G) {d1 d2 : ℝ} (h1 : d1 ≠ 0) (h2 : d2 ≠ 0) {ψ : String → ℝ} (hψ : Unit2 ψ) (s : S) :
    ∃ pt, (betaBinStudy tools (targets d1 d2)).run ⟨assign ψ, logProb ψ⟩ s = (.ok pt, (F (F (after G ψ s)).2).2) ∧
      Study.distance pt = .fin (gap d1 d2 (counts G ψ s)) ∧
      ∀ t, ∃ p', (betaBinModel (targets d1 d2)).flatten tools.env pt t = (p', (F (F t).2).2, .ok ()) := by
  obtain ⟨a, b, ha, hb, hdom⟩ := domain_ok hi (targets d1 d2) (after G ψ s)
  have hsim : (betaBinStudy tools (targets d1 d2)).simulate ⟨assign ψ, logProb ψ⟩ s =
      (.ok ((assign ψ ++ [("x1", (counts G ψ s).1), ("x2", (counts G ψ s).2)]).map (fun kv => (kv.1, .fin kv.2))),
        after G ψ s) := by
    show betaBinSimulate tools.env.sem ⟨assign ψ, logProb ψ⟩ s = _
    unfold betaBinSimulate
    rw [data_sample hi hψ]
  refine ⟨⟨.chrom ⟨assign ψ, logProb ψ⟩, ((assign ψ ++ [("x1", (counts G ψ s).1), ("x2", (counts G ψ s).2)]).map
      (fun kv => (kv.1, .fin kv.2))), [("Xs", .xs [ψ "p1", ψ "p2"]),
      ("Ys", .ys [("x1", .fin (counts G ψ s).1), ("x2", .fin (counts G ψ s).2)]),
      ("distance", .num (.fin (gap d1 d2 (counts G ψ s))))]⟩, ?_, rfl, ?_⟩
  swap
  · intro t
    obtain ⟨a, b, ha, hb, hdom⟩ := domain_ok hi (targets d1 d2) t
    unfold DataModel.flatten
    rw [hdom]
    simp only [List.mapM_cons, List.mapM_nil, ha, hb]
    exact ⟨_, rfl⟩
  unfold Study.run
  simp only [hsim]
  have hfl : (betaBinModel (targets d1 d2)).flatten tools.env
      (.new (.chrom ⟨assign ψ, logProb ψ⟩) ((assign ψ ++ [("x1", (counts G ψ s).1), ("x2", (counts G ψ s).2)]).map
        (fun kv => (kv.1, .fin kv.2)))) (after G ψ s) =
      (⟨.chrom ⟨assign ψ, logProb ψ⟩, ((assign ψ ++ [("x1", (counts G ψ s).1), ("x2", (counts G ψ s).2)]).map
        (fun kv => (kv.1, .fin kv.2))), [("Xs", .xs [ψ "p1", ψ "p2"]),
        ("Ys", .ys [("x1", .fin (counts G ψ s).1), ("x2", .fin (counts G ψ s).2)])]⟩,
        (F (F (after G ψ s)).2).2, .ok ()) := by
    unfold DataModel.flatten
    rw [hdom]
    simp only [List.mapM_cons, List.mapM_nil, ha, hb]
    rfl
  have hcalc : (betaBinModel (targets d1 d2)).calcDistance tools.env
      (.new (.chrom ⟨assign ψ, logProb ψ⟩) ((assign ψ ++ [("x1", (counts G ψ s).1), ("x2", (counts G ψ s).2)]).map
        (fun kv => (kv.1, .fin kv.2)))) (after G ψ s) =
      (⟨.chrom ⟨assign ψ, logProb ψ⟩, ((assign ψ ++ [("x1", (counts G ψ s).1), ("x2", (counts G ψ s).2)]).map
        (fun kv => (kv.1, .fin kv.2))), [("Xs", .xs [ψ "p1", ψ "p2"]),
        ("Ys", .ys [("x1", .fin (counts G ψ s).1), ("x2", .fin (counts G ψ s).2)]),
        ("distance", .num (.fin (gap d1 d2 (counts G ψ s))))]⟩,
        (F (F (after G ψ s)).2).2, .ok (.num (.fin (gap d1 d2 (counts G ψ s))))) := by
    have hl : (betaBinModel (targets d1 d2)).lookupYs tools.env
        (.new (.chrom ⟨assign ψ, logProb ψ⟩) ((assign ψ ++ [("x1", (counts G ψ s).1), ("x2", (counts G ψ s).2)]).map
          (fun kv => (kv.1, .fin kv.2)))) (after G ψ s) =
        (⟨.chrom ⟨assign ψ, logProb ψ⟩, ((assign ψ ++ [("x1", (counts G ψ s).1), ("x2", (counts G ψ s).2)]).map
          (fun kv => (kv.1, .fin kv.2))), [("Xs", .xs [ψ "p1", ψ "p2"]),
          ("Ys", .ys [("x1", .fin (counts G ψ s).1), ("x2", .fin (counts G ψ s).2)])]⟩,
          (F (F (after G ψ s)).2).2, .ok (.ys [("x1", .fin (counts G ψ s).1), ("x2", .fin (counts G ψ s).2)])) := by
      unfold DataModel.lookupYs
      simp only [Particle.new]
      have := hfl
      simp only [Particle.new] at this
      rw [this]
      rfl
    unfold DataModel.calcDistance DataModel.calcNote
    rw [hl]
    have hsum : DataModel.sumTargets (Target.distance tools.env.ops [("x1", .fin (counts G ψ s).1), ("x2", .fin (counts G ψ s).2)])
        ((betaBinModel (O := Unit) (targets (D := D) d1 d2)).data.map Prod.snd) 0 = .ok (.fin (gap d1 d2 (counts G ψ s))) := by
      rw [← gap_eq h1 h2]
      rfl
    simp only [hsum]
    rfl
  have hcalc' := hcalc
  change (betaBinStudy tools (targets d1 d2)).model.calcDistance (betaBinStudy tools (targets d1 d2)).env _ _ = _ at hcalc'
  simp only [hcalc']

theorem run_refused (hi : Ideal μ tools.env F G) {d1 d2 : ℝ} {ψ : String → ℝ} (hψ : ¬ Unit2 ψ) (s : S) :
    ∀ pt s', (betaBinStudy tools (targets d1 d2)).run ⟨assign ψ, logProb ψ⟩ s ≠ (.ok pt, s') := by
  intro pt s' h
  obtain ⟨e, s1, k⟩ := data_refused hi hψ s
  have hsim : (betaBinStudy tools (targets d1 d2)).simulate ⟨assign ψ, logProb ψ⟩ s = (.error e, s1) := by
    show betaBinSimulate tools.env.sem ⟨assign ψ, logProb ψ⟩ s = _
    unfold betaBinSimulate
    rw [k]
  unfold Study.run at h
  rw [hsim] at h
  cases h

/-! ## The chances of the counts -/

theorem measurable_binomPmf (n k : ℕ) : Measurable (binomPmf n k) := by
  unfold binomPmf
  fun_prop

theorem binomPmf_sum (n : ℕ) {p : ℝ} (h0 : 0 ≤ p) (h1 : p ≤ 1) : ∑ k ∈ Finset.range (n + 1), binomPmf n k p = 1 := by
  unfold binomPmf
  have h2 : 0 ≤ 1 - p := by linarith
  rw [← ENNReal.ofReal_sum_of_nonneg (fun k _ => by positivity)]
  have h3 := add_pow p (1 - p) n
  rw [add_sub_cancel, one_pow] at h3
  rw [ENNReal.ofReal_eq_one]
  exact (Finset.sum_congr rfl (fun k _ => by ring)).trans h3.symm

theorem flat_step (hi : Ideal μ env F G) [IsProbabilityMeasure μ] : Chance μ (fun s s' => (F s).2 = s') 1 := by
  intro B hB
  have e : {s | ∃ s' ∈ B, (F s).2 = s'} = F ⁻¹' (Set.univ ×ˢ B) := by
    ext s
    simp
  rw [e]
  refine ⟨hi.measurable_flat (MeasurableSet.univ.prod hB), ?_⟩
  rw [← Measure.map_apply hi.measurable_flat (MeasurableSet.univ.prod hB), hi.uniform, Measure.prod_prod]
  simp

theorem bin_step (hi : Ideal μ env F G) (n k : ℕ) {p : ℝ} (h0 : 0 ≤ p) (h1 : p ≤ 1) :
    Chance μ (fun s s' => (G n (p, s)).1 = (k : ℕ) ∧ (G n (p, s)).2 = s') (binomPmf n k p) := by
  by_cases hk : k ≤ n
  · exact hi.binomial n p h0 h1 k hk
  · have e : binomPmf n k p = 0 := by
      unfold binomPmf
      rw [Nat.choose_eq_zero_of_lt (not_le.1 hk)]
      simp
    rw [e]
    refine Chance.never (fun s s' h => ?_)
    obtain ⟨j, hj, h2⟩ := hi.whole n p s h0 h1
    rw [h2] at h
    exact hk (Nat.cast_injective h.1 ▸ hj)

/-- The chance of two counts. -/
noncomputable def weight (ψ : String → ℝ) (k : ℕ × ℕ) : ENNReal := binomPmf 10 k.1 (ψ "p1") * binomPmf 20 k.2 (ψ "p2")

theorem measurable_weight (k : ℕ × ℕ) : Measurable (fun ψ => weight ψ k) :=
  ((measurable_binomPmf 10 k.1).comp (measurable_pi_apply "p1")).mul
    ((measurable_binomPmf 20 k.2).comp (measurable_pi_apply "p2"))

theorem counts_chance (hi : Ideal μ env F G) [IsProbabilityMeasure μ] {ψ : String → ℝ} (hψ : Unit2 ψ) (k : ℕ × ℕ) :
    Chance μ (fun s s' => counts G ψ s = ((k.1 : ℝ), (k.2 : ℝ)) ∧ (F (F (after G ψ s)).2).2 = s') (weight ψ k) := by
  have h1 := bin_step hi 10 k.1 hψ.1.1 hψ.1.2
  have h2 := bin_step hi 20 k.2 hψ.2.1 hψ.2.2
  have h3 := flat_step hi
  have h4 := h1.comp (h2.comp (h3.comp h3))
  rw [mul_one, mul_one] at h4
  refine h4.congr (fun s s' => ?_)
  constructor
  · rintro ⟨m, ⟨a, rfl⟩, m', ⟨b, rfl⟩, m'', rfl, rfl⟩
    exact ⟨Prod.ext a b, rfl⟩
  · rintro ⟨a, rfl⟩
    exact ⟨_, ⟨congrArg Prod.fst a, rfl⟩, _, ⟨congrArg Prod.snd a, rfl⟩, _, rfl, rfl⟩

/-- All pairs of counts. -/
def pairs : Finset (ℕ × ℕ) := Finset.range 11 ×ˢ Finset.range 21

theorem counts_mem (hi : Ideal μ env F G) {ψ : String → ℝ} (hψ : Unit2 ψ) (s : S) :
    ∃ k ∈ pairs, counts G ψ s = ((k.1 : ℝ), (k.2 : ℝ)) := by
  obtain ⟨k1, h1, e1⟩ := hi.whole 10 (ψ "p1") s hψ.1.1 hψ.1.2
  obtain ⟨k2, h2, e2⟩ := hi.whole 20 (ψ "p2") (G 10 (ψ "p1", s)).2 hψ.2.1 hψ.2.2
  refine ⟨(k1, k2), ?_, Prod.ext e1 e2⟩
  simp only [pairs, Finset.mem_product, Finset.mem_range]
  omega

/-- The pairs of counts whose distance is accepted, or is not. -/
noncomputable def accepted (d1 d2 : ℝ) (acc : XR ℝ → Bool) (b : Bool) : Finset (ℕ × ℕ) :=
  pairs.filter (fun k => acc (.fin (gap d1 d2 ((k.1 : ℝ), (k.2 : ℝ)))) = b)

theorem run_iff (hi : Ideal μ tools.env F G) {d1 d2 : ℝ} (h1 : d1 ≠ 0) (h2 : d2 ≠ 0) (acc : XR ℝ → Bool) (b : Bool)
    {ψ : String → ℝ} (hψ : Unit2 ψ) (s s' : S) :
    (∃ pt, (betaBinStudy tools (targets d1 d2)).run ⟨assign ψ, logProb ψ⟩ s = (.ok pt, s') ∧ acc (Study.distance pt) = b) ↔
      acc (.fin (gap d1 d2 (counts G ψ s))) = b ∧ (F (F (after G ψ s)).2).2 = s' := by
  obtain ⟨pt, a, c, -⟩ := run_eq hi h1 h2 hψ s
  rw [a]
  constructor
  · rintro ⟨pt', e1, e2⟩
    simp only [Prod.mk.injEq, Except.ok.injEq] at e1
    obtain ⟨rfl, rfl⟩ := e1
    rw [c] at e2
    exact ⟨e2, rfl⟩
  · rintro ⟨e1, rfl⟩
    exact ⟨pt, rfl, by rw [c]; exact e1⟩

theorem run_chance (hi : Ideal μ tools.env F G) [IsProbabilityMeasure μ] {d1 d2 : ℝ} (h1 : d1 ≠ 0) (h2 : d2 ≠ 0)
    (acc : XR ℝ → Bool) (b : Bool) {ψ : String → ℝ} (hψ : Unit2 ψ) :
    Chance μ (fun s s' => ∃ pt, (betaBinStudy tools (targets d1 d2)).run ⟨assign ψ, logProb ψ⟩ s = (.ok pt, s') ∧
      acc (Study.distance pt) = b) (∑ k ∈ accepted d1 d2 acc b, weight ψ k) := by
  refine (Props.LawsTable.Chance.finset (counts_chance hi hψ) ?_ (accepted d1 d2 acc b)).congr (fun s s' => ?_)
  · rintro i j s a c ⟨e1, -⟩ ⟨e2, -⟩
    have e3 := e1.symm.trans e2
    simp only [Prod.mk.injEq, Nat.cast_inj] at e3
    exact Prod.ext e3.1 e3.2
  · rw [run_iff hi h1 h2 acc b hψ]
    constructor
    · rintro ⟨k, hk, e1, e2⟩
      rw [e1]
      exact ⟨(Finset.mem_filter.1 hk).2, e2⟩
    · rintro ⟨e1, e2⟩
      obtain ⟨k, hk, e3⟩ := counts_mem hi hψ s
      rw [e3] at e1
      exact ⟨k, Finset.mem_filter.2 ⟨hk, e1⟩, e3, e2⟩

theorem weight_sum {ψ : String → ℝ} (hψ : Unit2 ψ) : ∑ k ∈ pairs, weight ψ k = 1 := by
  simp only [pairs, weight, Finset.sum_product]
  have e : ∀ x, ∑ y ∈ Finset.range 21, binomPmf 10 x (ψ "p1") * binomPmf 20 y (ψ "p2") = binomPmf 10 x (ψ "p1") := by
    intro x
    rw [← Finset.mul_sum, binomPmf_sum 20 hψ.2.1 hψ.2.2, mul_one]
  simp only [e]
  exact binomPmf_sum 10 hψ.1.1 hψ.1.2

theorem weight_split (d1 d2 : ℝ) (acc : XR ℝ → Bool) {ψ : String → ℝ} (hψ : Unit2 ψ) :
    ∑ k ∈ accepted d1 d2 acc true, weight ψ k + ∑ k ∈ accepted d1 d2 acc false, weight ψ k = 1 := by
  rw [← weight_sum hψ]
  have e : accepted d1 d2 acc false = pairs.filter (fun k => ¬ acc (.fin (gap d1 d2 ((k.1 : ℝ), (k.2 : ℝ)))) = true) := by
    unfold accepted
    exact Finset.filter_congr (fun k _ => by simp)
  rw [e]
  exact Finset.sum_filter_add_sum_filter_not pairs _ _

/-- The chance of an accepted distance. -/
noncomputable def accChance (d1 d2 : ℝ) (acc : XR ℝ → Bool) : (String → ℝ) → ENNReal :=
  {ψ | Unit2 ψ}.indicator (fun ψ => ∑ k ∈ accepted d1 d2 acc true, weight ψ k)

theorem measurableSet_unit2 : MeasurableSet {ψ : String → ℝ | Unit2 ψ} := by
  have h1 : Measurable (fun ψ : String → ℝ => ψ "p1") := measurable_pi_apply _
  have h2 : Measurable (fun ψ : String → ℝ => ψ "p2") := measurable_pi_apply _
  exact (h1 measurableSet_Icc).inter (h2 measurableSet_Icc)

/-! ## The integrals -/

theorem marginal_pair {H : ℝ × ℝ → ENNReal} (hH : Measurable H) (φ : String → ℝ) :
    (∫⋯∫⁻_{"p1", "p2"}, (fun ψ : String → ℝ => H (ψ "p1", ψ "p2")) ∂(fun _ => volume)) φ =
      ∫⁻ z, H z ∂((volume : Measure ℝ).prod volume) := by
  have h1 : Measurable (fun ψ : String → ℝ => ψ "p1") := measurable_pi_apply _
  have h2 : Measurable (fun ψ : String → ℝ => ψ "p2") := measurable_pi_apply _
  have hm : Measurable (fun ψ : String → ℝ => H (ψ "p1", ψ "p2")) := hH.comp (h1.prodMk h2)
  rw [lmarginal_insert _ hm (by decide)]
  simp only [lmarginal_singleton]
  have e1 : ∀ a b : ℝ, Function.update (Function.update φ "p1" a) "p2" b "p1" = a := by intro a b; simp
  have e2 : ∀ a b : ℝ, Function.update (Function.update φ "p1" a) "p2" b "p2" = b := by intro a b; simp
  simp only [e1, e2]
  exact (lintegral_prod _ hH.aemeasurable).symm

theorem net_total (φ : String → ℝ) :
    (∫⋯∫⁻_{"p1", "p2"}, (fun ψ : String → ℝ => expX (logProb ψ)) ∂(fun _ => volume)) φ = 1 := by
  have hm : Measurable ((Set.Icc (0 : ℝ) 1).indicator (1 : ℝ → ENNReal)) := measurable_one.indicator measurableSet_Icc
  simp only [expX_logProb]
  rw [marginal_pair (H := fun z => (Set.Icc (0 : ℝ) 1).indicator 1 z.1 * (Set.Icc (0 : ℝ) 1).indicator 1 z.2)
    ((hm.comp measurable_fst).mul (hm.comp measurable_snd)), lintegral_prod_mul hm.aemeasurable hm.aemeasurable]
  simp [lintegral_indicator_one measurableSet_Icc]

/-- A binomial probability as a function of the parameter is a beta density, up to a factor. -/
theorem binom_beta {n k : ℕ} (hk : k ≤ n) :
    (volume : Measure ℝ).withDensity (fun p => (Set.Icc (0 : ℝ) 1).indicator 1 p * binomPmf n k p) =
      ((n : ENNReal) + 1)⁻¹ • betaMeasure (k + 1) (n - k + 1) := by
  have hn : ((n : ENNReal) + 1) ≠ 0 := by simp
  unfold betaMeasure
  rw [← withDensity_smul' _ _ (ENNReal.inv_ne_top.2 hn)]
  refine withDensity_congr_ae ?_
  have h0 : ∀ᵐ p : ℝ, p ≠ 0 := by simp [ae_iff]
  have h1 : ∀ᵐ p : ℝ, p ≠ 1 := by simp [ae_iff]
  filter_upwards [h0, h1] with p hp0 hp1
  simp only [Pi.smul_apply, smul_eq_mul]
  by_cases hp : 0 < p ∧ p < 1
  · obtain ⟨a, b⟩ := hp
    rw [Set.indicator_of_mem (by exact ⟨a.le, b.le⟩), Pi.one_apply, one_mul, betaPDF_of_pos_lt_one a b]
    have e : ((n : ENNReal) + 1)⁻¹ = ENNReal.ofReal ((n : ℝ) + 1)⁻¹ := by
      rw [ENNReal.ofReal_inv_of_pos (by positivity), ENNReal.ofReal_add (by positivity) zero_le_one,
        ENNReal.ofReal_natCast, ENNReal.ofReal_one]
    rw [e, ← ENNReal.ofReal_mul (by positivity)]
    unfold binomPmf
    congr 1
    have f1 : ((k : ℝ) + 1 - 1) = (k : ℕ) := by simp
    have f2 : ((n : ℝ) - k + 1 - 1) = ((n - k : ℕ) : ℝ) := by rw [Nat.cast_sub hk]; ring
    rw [f1, f2, Real.rpow_natCast, Real.rpow_natCast]
    have f3 : beta (k + 1) (n - k + 1) = k.factorial * (n - k).factorial / (n + 1).factorial := by
      unfold beta
      rw [Real.Gamma_nat_eq_factorial, show (n : ℝ) - k + 1 = ((n - k : ℕ) : ℝ) + 1 by rw [Nat.cast_sub hk],
        Real.Gamma_nat_eq_factorial, show (k : ℝ) + 1 + (((n - k : ℕ) : ℝ) + 1) = ((n + 1 : ℕ) : ℝ) + 1 by
          rw [Nat.cast_sub hk]; push_cast; ring, Real.Gamma_nat_eq_factorial]
    rw [f3]
    have f4 : (n.choose k : ℝ) = n.factorial / (k.factorial * (n - k).factorial) := Nat.cast_choose ℝ hk
    rw [f4, Nat.factorial_succ]
    have g1 : (n.factorial : ℝ) ≠ 0 := by positivity
    have g2 : (k.factorial : ℝ) ≠ 0 := by positivity
    have g3 : ((n - k).factorial : ℝ) ≠ 0 := by positivity
    push_cast
    field_simp
  · have hp' : p ∉ Set.Icc (0 : ℝ) 1 := fun h => hp ⟨lt_of_le_of_ne h.1 hp0.symm, lt_of_le_of_ne h.2 hp1⟩
    rw [Set.indicator_of_notMem hp', zero_mul, betaPDF_eq, if_neg hp]
    simp

/-- The two beta distributions that belong to two counts. -/
noncomputable def betas (k : ℕ × ℕ) : Measure (ℝ × ℝ) :=
  (betaMeasure (k.1 + 1) (10 - k.1 + 1)).prod (betaMeasure (k.2 + 1) (20 - k.2 + 1))

theorem betas_prob {k : ℕ × ℕ} (hk : k ∈ pairs) : IsProbabilityMeasure (betas k) := by
  simp only [pairs, Finset.mem_product, Finset.mem_range] at hk
  have c1 : (k.1 : ℝ) ≤ 10 := by exact_mod_cast Nat.lt_succ_iff.1 hk.1
  have c2 : (k.2 : ℝ) ≤ 20 := by exact_mod_cast Nat.lt_succ_iff.1 hk.2
  have := isProbabilityMeasureBeta (α := k.1 + 1) (β := 10 - k.1 + 1) (by positivity) (by linarith)
  have := isProbabilityMeasureBeta (α := k.2 + 1) (β := 20 - k.2 + 1) (by positivity) (by linarith)
  unfold betas
  infer_instance

theorem betas_eq {k : ℕ × ℕ} (hk : k ∈ pairs) {A : Set (ℝ × ℝ)} (hA : MeasurableSet A) :
    ∫⁻ z in A, ((Set.Icc (0 : ℝ) 1).indicator 1 z.1 * binomPmf 10 k.1 z.1) *
      ((Set.Icc (0 : ℝ) 1).indicator 1 z.2 * binomPmf 20 k.2 z.2) ∂((volume : Measure ℝ).prod volume) =
      ((11 : ENNReal)⁻¹ * 21⁻¹) * betas k A := by
  have hm : Measurable ((Set.Icc (0 : ℝ) 1).indicator (1 : ℝ → ENNReal)) := measurable_one.indicator measurableSet_Icc
  have hk' := hk
  simp only [pairs, Finset.mem_product, Finset.mem_range] at hk
  have m1 : Measurable (fun p => (Set.Icc (0 : ℝ) 1).indicator 1 p * binomPmf 10 k.1 p) := hm.mul (measurable_binomPmf _ _)
  have m2 : Measurable (fun p => (Set.Icc (0 : ℝ) 1).indicator 1 p * binomPmf 20 k.2 p) := hm.mul (measurable_binomPmf _ _)
  have b1 := binom_beta (n := 10) (k := k.1) (by omega)
  have b2 := binom_beta (n := 20) (k := k.2) (by omega)
  have c1 : (k.1 : ℝ) ≤ 10 := by exact_mod_cast Nat.lt_succ_iff.1 hk.1
  have c2 : (k.2 : ℝ) ≤ 20 := by exact_mod_cast Nat.lt_succ_iff.1 hk.2
  have := isProbabilityMeasureBeta (α := k.1 + 1) (β := 10 - k.1 + 1) (by positivity) (by linarith)
  have := isProbabilityMeasureBeta (α := k.2 + 1) (β := 20 - k.2 + 1) (by positivity) (by linarith)
  rw [← withDensity_apply _ hA, ← prod_withDensity m1 m2, b1, b2]
  have e1 : (((10 : ℕ) : ENNReal) + 1)⁻¹ = 11⁻¹ := by norm_num
  have e2 : (((20 : ℕ) : ENNReal) + 1)⁻¹ = 21⁻¹ := by norm_num
  rw [e1, e2, Measure.prod_smul_left, Measure.prod_smul_right, Measure.smul_apply, Measure.smul_apply, smul_eq_mul,
    smul_eq_mul, ← mul_assoc]
  unfold betas
  push_cast
  rfl

theorem accepted_integral (d1 d2 : ℝ) (acc : XR ℝ → Bool) {A : Set (ℝ × ℝ)} (hA : MeasurableSet A) (φ : String → ℝ) :
    (∫⋯∫⁻_{"p1", "p2"}, (fun ψ => expX (logProb ψ) * ({ψ | (ψ "p1", ψ "p2") ∈ A}.indicator 1 ψ *
      accChance d1 d2 acc ψ)) ∂(fun _ => volume)) φ =
      ((11 : ENNReal)⁻¹ * 21⁻¹) * ∑ k ∈ accepted d1 d2 acc true, betas k A := by
  have hm : Measurable ((Set.Icc (0 : ℝ) 1).indicator (1 : ℝ → ENNReal)) := measurable_one.indicator measurableSet_Icc
  have hk : ∀ k : ℕ × ℕ, Measurable (fun z : ℝ × ℝ => ((Set.Icc (0 : ℝ) 1).indicator 1 z.1 * binomPmf 10 k.1 z.1) *
      ((Set.Icc (0 : ℝ) 1).indicator 1 z.2 * binomPmf 20 k.2 z.2)) := fun k =>
    ((hm.comp measurable_fst).mul ((measurable_binomPmf _ _).comp measurable_fst)).mul
      ((hm.comp measurable_snd).mul ((measurable_binomPmf _ _).comp measurable_snd))
  have e : ∀ ψ : String → ℝ, expX (logProb ψ) * ({ψ | (ψ "p1", ψ "p2") ∈ A}.indicator 1 ψ * accChance d1 d2 acc ψ) =
      A.indicator (fun z => ∑ k ∈ accepted d1 d2 acc true, ((Set.Icc (0 : ℝ) 1).indicator 1 z.1 * binomPmf 10 k.1 z.1) *
        ((Set.Icc (0 : ℝ) 1).indicator 1 z.2 * binomPmf 20 k.2 z.2)) (ψ "p1", ψ "p2") := by
    intro ψ
    rw [expX_logProb]
    by_cases hψ : Unit2 ψ
    · rw [accChance, Set.indicator_of_mem (s := {ψ | Unit2 ψ}) (by exact hψ),
        Set.indicator_of_mem (s := Set.Icc (0 : ℝ) 1) (by exact hψ.1), Set.indicator_of_mem (s := Set.Icc (0 : ℝ) 1) (by exact hψ.2)]
      by_cases hAψ : (ψ "p1", ψ "p2") ∈ A
      · rw [Set.indicator_of_mem (by exact hAψ), Set.indicator_of_mem hAψ]
        simp only [Pi.one_apply, one_mul, Set.indicator_of_mem (s := Set.Icc (0 : ℝ) 1) (show _ from hψ.1),
          Set.indicator_of_mem (s := Set.Icc (0 : ℝ) 1) (show _ from hψ.2)]
        rfl
      · rw [Set.indicator_of_notMem (by exact hAψ), Set.indicator_of_notMem hAψ]
        simp
    · rw [accChance, Set.indicator_of_notMem (s := {ψ | Unit2 ψ}) (by exact hψ), mul_zero, mul_zero]
      symm
      refine Set.indicator_apply_eq_zero.2 (fun _ => Finset.sum_eq_zero (fun k _ => ?_))
      by_cases h1 : ψ "p1" ∈ Set.Icc (0 : ℝ) 1
      · have h2 : ψ "p2" ∉ Set.Icc (0 : ℝ) 1 := fun h2 => hψ ⟨h1, h2⟩
        simp only [Set.indicator_of_notMem h2, zero_mul, mul_zero]
      · simp only [Set.indicator_of_notMem h1, zero_mul]
  simp only [e]
  rw [marginal_pair ((Finset.measurable_fun_sum _ (fun k _ => hk k)).indicator hA), lintegral_indicator hA,
    lintegral_finsetSum _ (fun k _ => hk k), Finset.mul_sum]
  exact Finset.sum_congr rfl (fun k h => betas_eq (Finset.mem_filter.1 h).1 hA)

theorem prior (hi : Ideal μ tools.env F G) [IsProbabilityMeasure μ] {d1 d2 : ℝ} (h1 : d1 ≠ 0) (h2 : d2 ≠ 0)
    (acc : XR ℝ → Bool) (φ : String → ℝ) :
    Prior μ (fun _ => volume) (betaBinStudy tools (targets d1 d2)) acc assign logProb (accChance d1 d2 acc) {"p1", "p2"} φ where
  family := net_family hi
  supplied := fun x h => absurd h (net_exo x)
  free := fun x hx => by cases hx
  vars := net_rv
  logProb := net_eval hi
  order := by
    intro ψ s s' r' h
    have h := (net_sample hi s).symm.trans h
    simp only [Prod.mk.injEq, Except.ok.injEq] at h
    rw [← h.1]
    rfl
  total := net_total φ
  le_one := by
    intro ψ
    unfold accChance
    refine Set.indicator_apply_le' (fun hψ => ?_) (fun _ => zero_le)
    rw [← weight_split d1 d2 acc hψ]
    exact le_self_add
  measurable_q := (Finset.measurable_fun_sum _ (fun k _ => measurable_weight k)).indicator measurableSet_unit2
  near := by
    intro ψ hψ
    have hψ' := unit2_of hψ
    rw [accChance, Set.indicator_of_mem (by exact hψ')]
    exact run_chance hi h1 h2 acc true hψ'
  far := by
    intro ψ hψ
    have hψ' := unit2_of hψ
    rw [accChance, Set.indicator_of_mem (by exact hψ')]
    have e := weight_split d1 d2 acc hψ'
    have e2 : 1 - ∑ k ∈ accepted d1 d2 acc true, weight ψ k = ∑ k ∈ accepted d1 d2 acc false, weight ψ k := by
      rw [← e]
      refine ENNReal.add_sub_cancel_left (ne_top_of_le_ne_top ENNReal.one_ne_top ?_)
      rw [← e]
      exact le_self_add
    rw [e2]
    exact run_chance hi h1 h2 acc false hψ'
  runs := by
    intro b B hB
    have hset : {p : (String → ℝ) × S | ∃ pt s', s' ∈ B ∧ (betaBinStudy tools (targets d1 d2)).run
        ⟨assign p.1, logProb p.1⟩ p.2 = (.ok pt, s') ∧ acc (Study.distance pt) = b} =
        {p | Unit2 p.1} ∩ ((⋃ k ∈ accepted d1 d2 acc b, {p | counts G p.1 p.2 = ((k.1 : ℝ), (k.2 : ℝ))}) ∩
          {p | (F (F (after G p.1 p.2)).2).2 ∈ B}) := by
      ext p
      simp only [Set.mem_inter_iff, Set.mem_ofPred_eq, Set.mem_iUnion]
      constructor
      · rintro ⟨pt, s', hs, e1, e2⟩
        have hψ : Unit2 p.1 := by
          by_contra hn
          exact run_refused hi hn p.2 pt s' e1
        obtain ⟨e3, rfl⟩ := (run_iff hi h1 h2 acc b hψ p.2 s').1 ⟨pt, e1, e2⟩
        obtain ⟨k, hk, e4⟩ := counts_mem hi hψ p.2
        rw [e4] at e3
        exact ⟨hψ, ⟨k, Finset.mem_filter.2 ⟨hk, e3⟩, e4⟩, hs⟩
      · rintro ⟨hψ, ⟨k, hk, e4⟩, hs⟩
        have e3 := (Finset.mem_filter.1 hk).2
        rw [← e4] at e3
        obtain ⟨pt, e5, e6⟩ := (run_iff hi h1 h2 acc b hψ p.2 _).2 ⟨e3, rfl⟩
        exact ⟨pt, _, hs, e5, e6⟩
    rw [hset]
    have p1 : Measurable (fun p : (String → ℝ) × S => p.1 "p1") := (measurable_pi_apply "p1").comp measurable_fst
    have p2 : Measurable (fun p : (String → ℝ) × S => p.1 "p2") := (measurable_pi_apply "p2").comp measurable_fst
    have g1 : Measurable (fun p : (String → ℝ) × S => G 10 (p.1 "p1", p.2)) := (hi.measurable_bin 10).comp (p1.prodMk measurable_snd)
    have g2 : Measurable (fun p : (String → ℝ) × S => G 20 (p.1 "p2", (G 10 (p.1 "p1", p.2)).2)) :=
      (hi.measurable_bin 20).comp (p2.prodMk (measurable_snd.comp g1))
    have hc : Measurable (fun p : (String → ℝ) × S => counts G p.1 p.2) := (measurable_fst.comp g1).prodMk (measurable_fst.comp g2)
    have ha : Measurable (fun p : (String → ℝ) × S => (F (F (after G p.1 p.2)).2).2) :=
      measurable_snd.comp (hi.measurable_flat.comp (measurable_snd.comp (hi.measurable_flat.comp (measurable_snd.comp g2))))
    refine (measurable_fst measurableSet_unit2).inter (MeasurableSet.inter ?_ (ha hB))
    exact Finset.measurableSet_biUnion _ (fun k _ => hc (measurableSet_singleton _))

end Net

theorem set_eq (A : ι → Set (ℝ × ℝ)) (i : ι) : {ψ : String → ℝ | (assign ψ).get? ∈ {g : String → Option ℝ |
    ∃ a b, g "p1" = some a ∧ g "p2" = some b ∧ (a, b) ∈ A i}} = {ψ | (ψ "p1", ψ "p2") ∈ A i} := by
  ext ψ
  constructor
  · rintro ⟨a, b, e1, e2, e3⟩
    cases e1
    cases e2
    exact e3
  · intro h
    exact ⟨_, _, rfl, rfl, h⟩

/-! ## The property -/

/-- The pairs of counts no further than `e` from those observed. -/
noncomputable def Within (d1 d2 e : ℝ) : Finset (ℕ × ℕ) :=
  (Finset.range 11 ×ˢ Finset.range 21).filter (fun k => gap d1 d2 ((k.1 : ℝ), (k.2 : ℝ)) ≤ e)

/-- **C245**: the particles that rejection ABC collects for `BetaBin` are independent, and the parameters of each have the
mixture, over the pairs of counts within the threshold of the data, of the beta distributions of those counts. -/
theorem C245 {μ : Measure S} [IsProbabilityMeasure μ] {tools : Study String ℝ ℝ Unit S ℝ D} {F : S → ℝ × S}
    {G : ℕ → ℝ × S → ℝ × S} (hi : Ideal μ tools.env F G) (hr : tools.rng.Honest) {parse : String → Result D} {d1 d2 : ℝ}
    (h1 : d1 ≠ 0) (h2 : d2 ≠ 0) {data : Dict String (Target String ℝ D)}
    (hd : betaBinTargets tools.env.ops parse d1 d2 = .ok data) (e : ℝ) {A : ι → Set (ℝ × ℝ)}
    (hA : ∀ i, MeasurableSet (A i)) (parallel : Bool) (is : List ι) :
    Chance μ (fun s s' => ∃ post n, Ends (fun f => Abc.collect (betaBinStudy tools data).smcEnv.toSimEnv (.fin e) f
        parallel is.length) s (post, n) s' ∧
        List.Forall₂ (fun pt i => ∃ a b, (Study.locus pt).get? "p1" = some a ∧ (Study.locus pt).get? "p2" = some b ∧
          (a, b) ∈ A i) post is)
      ((is.map (fun i => (∑ k ∈ Within d1 d2 e, ((betaMeasure (k.1 + 1) (10 - k.1 + 1)).prod
        (betaMeasure (k.2 + 1) (20 - k.2 + 1))) (A i)) / (Within d1 d2 e).card)).prod) := by
  have hdata : data = targets d1 d2 := by
    have h := Props.Toys.read_numbers tools.env.ops parse (.fin (1 / 10)) [("x1", .fin d1), ("x2", .fin d2)] (by simp)
    have h' := hd.symm.trans h
    cases h'
    rfl
  subst hdata
  have hu : Sound (betaBinStudy tools (targets d1 d2)) :=
    { closed := hi.closed
      ready := net_ready
      exo := show (Dict.keys ([] : Dict String ℝ)).Nodup from List.nodup_nil
      noShadow := noShadow_of_check (by rfl)
      rng := hr }
  have hw : accepted d1 d2 (fun d => !XR.lt (.fin e) d) true = Within d1 d2 e := by
    unfold accepted Within pairs
    exact Finset.filter_congr (fun k _ => by simp [XR.lt])
  have key := C244 hu (eps := .fin e) rfl (prior hi h1 h2 (fun d => !XR.lt (.fin e) d) (fun _ => 0))
    (fun i => {g | ∃ a b, g "p1" = some a ∧ g "p2" = some b ∧ (a, b) ∈ A i}) ?_ parallel is
  · have hset : ∀ i, {ψ : String → ℝ | (assign ψ).get? ∈ {g : String → Option ℝ | ∃ a b, g "p1" = some a ∧ g "p2" = some b ∧
        (a, b) ∈ A i}} = {ψ | (ψ "p1", ψ "p2") ∈ A i} := set_eq A
    have hq : ∀ i, (∫⋯∫⁻_{"p1", "p2"}, (fun ψ => expX (logProb ψ) * ({ψ : String → ℝ | (assign ψ).get? ∈
        {g : String → Option ℝ | ∃ a b, g "p1" = some a ∧ g "p2" = some b ∧ (a, b) ∈ A i}}.indicator 1 ψ *
        accChance d1 d2 (fun d => !XR.lt (.fin e) d) ψ)) ∂(fun _ => volume)) (fun _ => 0) /
        (∫⋯∫⁻_{"p1", "p2"}, (fun ψ => expX (logProb ψ) * accChance d1 d2 (fun d => !XR.lt (.fin e) d) ψ)
          ∂(fun _ => volume)) (fun _ => 0) = (∑ k ∈ Within d1 d2 e, betas k (A i)) / (Within d1 d2 e).card := by
      intro i
      have a1 := accepted_integral d1 d2 (fun d => !XR.lt (.fin e) d) (hA i) (fun _ => 0)
      have a2 := accepted_integral d1 d2 (fun d => !XR.lt (.fin e) d) MeasurableSet.univ (fun _ => 0)
      simp only [Set.mem_univ, Set.ofPred_true, Set.indicator_univ, Pi.one_apply, one_mul] at a2
      rw [hset, a1, a2, hw, ENNReal.mul_div_mul_left _ _ (by simp) (ENNReal.mul_ne_top (by simp) (by simp))]
      have a3 : ∑ k ∈ Within d1 d2 e, betas k Set.univ = (Within d1 d2 e).card := by
        rw [Finset.sum_congr rfl (fun k hk => by
          have := betas_prob (Finset.mem_filter.1 hk).1
          exact measure_univ (μ := betas k))]
        simp
      rw [a3]
    simp only [hq] at key
    exact key
  · intro i
    rw [set_eq A i]
    exact ((measurable_pi_apply "p1").prodMk (measurable_pi_apply "p2")) (hA i)

theorem within_exact {n1 n2 : ℕ} (h1 : 0 < n1) (h1' : n1 ≤ 10) (h2 : 0 < n2) (h2' : n2 ≤ 20) {e : ℝ} (h0 : 0 ≤ e)
    (he1 : e * n1 < 196 / 5) (he2 : e * n2 < 196 / 5) : Within n1 n2 e = {(n1, n2)} := by
  have c1 : (0 : ℝ) < n1 := by exact_mod_cast h1
  have c2 : (0 : ℝ) < n2 := by exact_mod_cast h2
  have far : ∀ a b : ℕ, a ≠ b → (1 : ℝ) ≤ ((a : ℝ) - b) ^ 2 := by
    intro a b hab
    have h : ((a : ℤ) - b) ≠ 0 := fun h => hab (by omega)
    have h' : (1 : ℤ) ≤ ((a : ℤ) - b) ^ 2 := by
      have := sq_pos_of_ne_zero h
      omega
    exact_mod_cast h'
  ext ⟨a, b⟩
  have hm : (a, b) ∈ Within n1 n2 e ↔ (a < 11 ∧ b < 21) ∧ gap n1 n2 ((a : ℝ), (b : ℝ)) ≤ e := by
    unfold Within
    rw [Finset.mem_filter, Finset.mem_product, Finset.mem_range, Finset.mem_range]
  rw [hm, Finset.mem_singleton, Prod.mk.injEq, gap]
  constructor
  · rintro ⟨-, h⟩
    have p1 : 0 ≤ ((a : ℝ) - n1) ^ 2 / n1 := by positivity
    have p2 : 0 ≤ ((b : ℝ) - n2) ^ 2 / n2 := by positivity
    constructor
    · by_contra hn
      have := (div_le_div_iff_of_pos_right c1).2 (far a n1 hn)
      have h3 : 196 / 5 * (1 / (n1 : ℝ)) ≤ e := by nlinarith
      have h4 : 196 / 5 * (1 / (n1 : ℝ)) * n1 = 196 / 5 := by field_simp
      nlinarith
    · by_contra hn
      have := (div_le_div_iff_of_pos_right c2).2 (far b n2 hn)
      have h3 : 196 / 5 * (1 / (n2 : ℝ)) ≤ e := by nlinarith
      have h4 : 196 / 5 * (1 / (n2 : ℝ)) * n2 = 196 / 5 := by field_simp
      nlinarith
  · rintro ⟨rfl, rfl⟩
    refine ⟨⟨by omega, by omega⟩, ?_⟩
    simpa using h0

/-- **C245** (conjugacy): when counts were observed and the threshold is too small for any others, the parameters are
independent and have the beta distributions of Bayesian statistics. -/
theorem C245_exact {μ : Measure S} [IsProbabilityMeasure μ] {tools : Study String ℝ ℝ Unit S ℝ D} {F : S → ℝ × S}
    {G : ℕ → ℝ × S → ℝ × S} (hi : Ideal μ tools.env F G) (hr : tools.rng.Honest) {parse : String → Result D} {n1 n2 : ℕ}
    (h1 : 0 < n1) (h1' : n1 ≤ 10) (h2 : 0 < n2) (h2' : n2 ≤ 20) {data : Dict String (Target String ℝ D)}
    (hd : betaBinTargets tools.env.ops parse (n1 : ℝ) n2 = .ok data) {e : ℝ} (h0 : 0 ≤ e) (he1 : e * n1 < 196 / 5)
    (he2 : e * n2 < 196 / 5) {A B : ι → Set ℝ} (hA : ∀ i, MeasurableSet (A i)) (hB : ∀ i, MeasurableSet (B i))
    (parallel : Bool) (is : List ι) :
    Chance μ (fun s s' => ∃ post n, Ends (fun f => Abc.collect (betaBinStudy tools data).smcEnv.toSimEnv (.fin e) f
        parallel is.length) s (post, n) s' ∧
        List.Forall₂ (fun pt i => ∃ a b, (Study.locus pt).get? "p1" = some a ∧ (Study.locus pt).get? "p2" = some b ∧
          a ∈ A i ∧ b ∈ B i) post is)
      ((is.map (fun i => betaMeasure (n1 + 1) (10 - n1 + 1) (A i) * betaMeasure (n2 + 1) (20 - n2 + 1) (B i))).prod) := by
  have c1 : (n1 : ℝ) ≤ 10 := by exact_mod_cast h1'
  have c2 : (n2 : ℝ) ≤ 20 := by exact_mod_cast h2'
  have := isProbabilityMeasureBeta (α := n1 + 1) (β := 10 - n1 + 1) (by positivity) (by linarith)
  have := isProbabilityMeasureBeta (α := n2 + 1) (β := 20 - n2 + 1) (by positivity) (by linarith)
  have key := C245 hi hr (by exact_mod_cast h1.ne') (by exact_mod_cast h2.ne') hd e (A := fun i => A i ×ˢ B i)
    (fun i => (hA i).prod (hB i)) parallel is
  rw [within_exact h1 h1' h2 h2' h0 he1 he2] at key
  simp only [Finset.sum_singleton, Finset.card_singleton, Nat.cast_one, div_one, Measure.prod_prod, Set.mem_prod] at key
  exact key

/-- **C245** (termination): rejection ABC ends on `BetaBin` with the number of particles asked for, each with both parameters,
with probability one when some counts are within the tolerance, and with probability zero when none are. -/
theorem C245_ends {μ : Measure S} [IsProbabilityMeasure μ] {tools : Study String ℝ ℝ Unit S ℝ D} {F : S → ℝ × S}
    {G : ℕ → ℝ × S → ℝ × S} (hi : Ideal μ tools.env F G) (hr : tools.rng.Honest) {parse : String → Result D} {d1 d2 : ℝ}
    (h1 : d1 ≠ 0) (h2 : d2 ≠ 0) {data : Dict String (Target String ℝ D)}
    (hd : betaBinTargets tools.env.ops parse d1 d2 = .ok data) (e : ℝ) (parallel : Bool) {m : ℕ} (hm : 0 < m) :
    Chance μ (fun s s' => ∃ post n, Ends (fun f => Abc.collect (betaBinStudy tools data).smcEnv.toSimEnv (.fin e) f
        parallel m) s (post, n) s' ∧ post.length = m ∧
        ∀ pt ∈ post, ∃ a b, (Study.locus pt).get? "p1" = some a ∧ (Study.locus pt).get? "p2" = some b)
      (if (Within d1 d2 e).Nonempty then 1 else 0) := by
  have key := C245 hi hr h1 h2 hd e (A := fun _ : Unit => Set.univ) (fun _ => MeasurableSet.univ) parallel (List.replicate m ())
  have hk : ∀ k ∈ Within d1 d2 e, ((betaMeasure (k.1 + 1) (10 - k.1 + 1)).prod (betaMeasure (k.2 + 1) (20 - k.2 + 1)))
      Set.univ = 1 := by
    intro k hk
    have hk' := (Finset.mem_filter.1 hk).1
    have c := Finset.mem_product.1 hk'
    have c1 : (k.1 : ℝ) ≤ 10 := by
      have := c.1
      simp only [Finset.mem_range] at this
      exact_mod_cast Nat.lt_succ_iff.1 this
    have c2 : (k.2 : ℝ) ≤ 20 := by
      have := c.2
      simp only [Finset.mem_range] at this
      exact_mod_cast Nat.lt_succ_iff.1 this
    have := isProbabilityMeasureBeta (α := (k.1 : ℝ) + 1) (β := 10 - k.1 + 1) (by positivity) (by linarith)
    have := isProbabilityMeasureBeta (α := (k.2 : ℝ) + 1) (β := 20 - k.2 + 1) (by positivity) (by linarith)
    exact measure_univ
  rw [Finset.sum_congr rfl hk] at key
  simp only [Finset.sum_const, nsmul_eq_mul, mul_one, List.map_const', List.prod_replicate, List.length_replicate,
    Set.mem_univ, and_true] at key
  have hv : ((Within d1 d2 e).card / (Within d1 d2 e).card : ENNReal) ^ m = if (Within d1 d2 e).Nonempty then 1 else 0 := by
    by_cases h : (Within d1 d2 e).Nonempty
    · rw [if_pos h, ENNReal.div_self (by exact_mod_cast h.card_pos.ne') (by simp), one_pow]
    · rw [if_neg h, Finset.not_nonempty_iff_eq_empty.1 h]
      simp [hm.ne']
  rw [hv] at key
  refine key.congr (fun s s' => ?_)
  refine exists_congr (fun post => exists_congr (fun k => and_congr_right (fun _ => ?_)))
  rw [List.forall₂_iff_get]
  constructor
  · rintro ⟨hl, h⟩
    have hl' : post.length = m := by simpa using hl
    refine ⟨hl', fun pt hpt => ?_⟩
    obtain ⟨i, hi', rfl⟩ := List.mem_iff_getElem.1 hpt
    exact h i hi' (by simpa using hl' ▸ hi')
  · rintro ⟨hl, h⟩
    exact ⟨by simpa using hl, fun i h1 _ => h _ (List.getElem_mem h1)⟩

/-- **C245** (before the first adaptation): the particles that ABC-SMC begins with for `BetaBin` are independent, and the
parameters of each are uniform on the unit square, whatever was observed. -/
theorem C245_first {μ : Measure S} [IsProbabilityMeasure μ] {tools : Study String ℝ ℝ Unit S ℝ D} {F : S → ℝ × S}
    {G : ℕ → ℝ × S → ℝ × S} (hi : Ideal μ tools.env F G) (hr : tools.rng.Honest) {parse : String → Result D} {d1 d2 : ℝ}
    (h1 : d1 ≠ 0) (h2 : d2 ≠ 0) {data : Dict String (Target String ℝ D)}
    (hd : betaBinTargets tools.env.ops parse d1 d2 = .ok data) {set : SmcSettings ℝ} {A : ι → Set (ℝ × ℝ)}
    (hA : ∀ i, MeasurableSet (A i)) (is : List ι) (hlen : is.length = set.nIter) (hn : is ≠ []) :
    Chance μ (fun s s' => ∃ st, Ends (fun f => Smc.initialise (betaBinStudy tools data).smcEnv set f none) s st s' ∧
        List.Forall₂ (fun pt i => ∃ a b, (Study.locus pt.val).get? "p1" = some a ∧ (Study.locus pt.val).get? "p2" = some b ∧
          (a, b) ∈ A i) st.pts is)
      ((is.map (fun i => ((volume.restrict (Set.Icc (0 : ℝ) 1)).prod (volume.restrict (Set.Icc (0 : ℝ) 1))) (A i))).prod) := by
  have hdata : data = targets d1 d2 := by
    have h := Props.Toys.read_numbers tools.env.ops parse (.fin (1 / 10)) [("x1", .fin d1), ("x2", .fin d2)] (by simp)
    have h' := hd.symm.trans h
    cases h'
    rfl
  subst hdata
  have hu : Sound (betaBinStudy tools (targets d1 d2)) :=
    { closed := hi.closed
      ready := net_ready
      exo := show (Dict.keys ([] : Dict String ℝ)).Nodup from List.nodup_nil
      noShadow := noShadow_of_check (by rfl)
      rng := hr }
  have key := C244_first hu (set := set) (prior hi h1 h2 (fun d => !d.isInf) (fun _ => 0))
    (fun i => {g | ∃ a b, g "p1" = some a ∧ g "p2" = some b ∧ (a, b) ∈ A i}) ?_ is hlen hn
  · have hw : accepted d1 d2 (fun d => !d.isInf) false = ∅ := by
      unfold accepted
      exact Finset.filter_false_of_mem (fun k _ => by simp [XR.isInf])
    have hacc : ∀ ψ : String → ℝ, expX (logProb ψ) * accChance d1 d2 (fun d => !d.isInf) ψ = expX (logProb ψ) := by
      intro ψ
      by_cases h : expX (logProb ψ) = 0
      · rw [h, zero_mul]
      · have hψ := unit2_of h
        have e := weight_split d1 d2 (fun d => !d.isInf) hψ
        rw [hw, Finset.sum_empty, add_zero] at e
        rw [accChance, Set.indicator_of_mem (by exact hψ), e, mul_one]
    have hm : Measurable ((Set.Icc (0 : ℝ) 1).indicator (1 : ℝ → ENNReal)) := measurable_one.indicator measurableSet_Icc
    have hq : ∀ i, (∫⋯∫⁻_{"p1", "p2"}, (fun ψ => expX (logProb ψ) * ({ψ : String → ℝ | (assign ψ).get? ∈
        {g : String → Option ℝ | ∃ a b, g "p1" = some a ∧ g "p2" = some b ∧ (a, b) ∈ A i}}.indicator 1 ψ *
        accChance d1 d2 (fun d => !d.isInf) ψ)) ∂(fun _ => volume)) (fun _ => 0) /
        (∫⋯∫⁻_{"p1", "p2"}, (fun ψ => expX (logProb ψ) * accChance d1 d2 (fun d => !d.isInf) ψ)
          ∂(fun _ => volume)) (fun _ => 0) =
        ((volume.restrict (Set.Icc (0 : ℝ) 1)).prod (volume.restrict (Set.Icc (0 : ℝ) 1))) (A i) := by
      intro i
      simp only [mul_left_comm (expX (logProb _)), hacc, net_total, div_one]
      rw [set_eq]
      have e : ∀ ψ : String → ℝ, {ψ : String → ℝ | (ψ "p1", ψ "p2") ∈ A i}.indicator 1 ψ * expX (logProb ψ) =
          (A i).indicator (fun z => (Set.Icc (0 : ℝ) 1).indicator 1 z.1 * (Set.Icc (0 : ℝ) 1).indicator 1 z.2)
            (ψ "p1", ψ "p2") := by
        intro ψ
        rw [expX_logProb]
        by_cases hψ : (ψ "p1", ψ "p2") ∈ A i
        · rw [Set.indicator_of_mem (by exact hψ), Set.indicator_of_mem hψ, Pi.one_apply, one_mul]
        · rw [Set.indicator_of_notMem (by exact hψ), Set.indicator_of_notMem hψ, zero_mul]
      simp only [e]
      have hmz : Measurable (fun z : ℝ × ℝ => (Set.Icc (0 : ℝ) 1).indicator (1 : ℝ → ENNReal) z.1 *
          (Set.Icc (0 : ℝ) 1).indicator (1 : ℝ → ENNReal) z.2) := (hm.comp measurable_fst).mul (hm.comp measurable_snd)
      rw [marginal_pair (hmz.indicator (hA i)), Measure.prod_restrict,
        Measure.restrict_apply (hA i), ← lintegral_indicator_one ((hA i).inter (measurableSet_Icc.prod measurableSet_Icc))]
      refine lintegral_congr (fun z => ?_)
      rw [Set.inter_indicator_one]
      by_cases hz : z ∈ A i
      · rw [Set.indicator_of_mem hz, Pi.mul_apply, Set.indicator_of_mem hz, Pi.one_apply, one_mul]
        by_cases h1 : z.1 ∈ Set.Icc (0 : ℝ) 1 <;> by_cases h2 : z.2 ∈ Set.Icc (0 : ℝ) 1 <;>
          simp only [Set.indicator_apply, Set.mem_prod, h1, h2, and_self, and_false, false_and, if_true, if_false,
            Pi.one_apply, mul_one, mul_zero, zero_mul]
      · rw [Set.indicator_of_notMem hz, Pi.mul_apply, Set.indicator_of_notMem hz, zero_mul]
    simp only [hq] at key
    exact key
  · intro i
    rw [set_eq A i]
    exact ((measurable_pi_apply "p1").prodMk (measurable_pi_apply "p2")) (hA i)

/-! ## An example: a stream of uniform numbers -/

/-- Independent uniform numbers. -/
noncomputable def ustream : Measure (ℕ → ℝ) := Measure.infinitePi (fun _ => volume.restrict (Set.Icc (0 : ℝ) 1))

instance unif_prob : IsProbabilityMeasure ((volume : Measure ℝ).restrict (Set.Icc (0 : ℝ) 1)) := ⟨by simp⟩

instance : IsProbabilityMeasure ustream := by unfold ustream; infer_instance

/-- The next uniform number. -/
def next (s : ℕ → ℝ) : ℝ × (ℕ → ℝ) := (s 0, tail s)

/-- How many of the next `n` numbers are less than `p`. -/
noncomputable def hits : ℕ → ℝ × (ℕ → ℝ) → ℝ × (ℕ → ℝ)
  | 0, q => (0, q.2)
  | n + 1, q => ((hits n (q.1, tail q.2)).1 + (if q.2 0 < q.1 then 1 else 0), (hits n (q.1, tail q.2)).2)

theorem measurable_next : Measurable next := (measurable_pi_apply 0).prodMk measurable_tail

theorem next_uniform : ustream.map next = (volume.restrict (Set.Icc (0 : ℝ) 1)).prod ustream := split_stream _

theorem measurable_hits (n : ℕ) : Measurable (hits n) := by
  induction n with
  | zero => exact measurable_const.prodMk measurable_snd
  | succ n ih =>
    have h0 : Measurable (fun q : ℝ × (ℕ → ℝ) => q.2 0) := (measurable_pi_apply 0).comp measurable_snd
    have h1 : Measurable (fun q : ℝ × (ℕ → ℝ) => hits n (q.1, tail q.2)) :=
      ih.comp (measurable_fst.prodMk (measurable_tail.comp measurable_snd))
    exact ((measurable_fst.comp h1).add (Measurable.ite (measurableSet_lt h0 measurable_fst) measurable_const
      measurable_const)).prodMk (measurable_snd.comp h1)

theorem hits_whole (n : ℕ) (p : ℝ) (s : ℕ → ℝ) : ∃ k ≤ n, (hits n (p, s)).1 = (k : ℕ) := by
  induction n generalizing s with
  | zero => exact ⟨0, le_refl 0, by simp [hits]⟩
  | succ n ih =>
    obtain ⟨k, hk, e⟩ := ih (tail s)
    by_cases h : s 0 < p
    · exact ⟨k + 1, by omega, by simp [hits, e, h]⟩
    · exact ⟨k, by omega, by simp [hits, e, h]⟩

theorem coin {p : ℝ} (h0 : 0 ≤ p) (h1 : p ≤ 1) (b : Bool) :
    Chance ustream (fun s s' => decide (s 0 < p) = b ∧ tail s = s') (ENNReal.ofReal (if b then p else 1 - p)) := by
  intro B hB
  have hs : MeasurableSet {x : ℝ | decide (x < p) = b} := by
    cases b with
    | true =>
      simp only [decide_eq_true_eq]
      exact measurableSet_Iio
    | false =>
      simp only [decide_eq_false_iff_not, not_lt]
      exact measurableSet_Ici
  have e : {s : ℕ → ℝ | ∃ s' ∈ B, decide (s 0 < p) = b ∧ tail s = s'} = next ⁻¹' ({x : ℝ | decide (x < p) = b} ×ˢ B) := by
    ext s
    simp only [Set.mem_ofPred_eq, Set.mem_preimage, Set.mem_prod, next]
    constructor
    · rintro ⟨s', h, h', rfl⟩
      exact ⟨h', h⟩
    · rintro ⟨h, h'⟩
      exact ⟨_, h', h, rfl⟩
  rw [e]
  refine ⟨measurable_next (hs.prod hB), ?_⟩
  rw [← Measure.map_apply measurable_next (hs.prod hB), next_uniform, Measure.prod_prod, Measure.restrict_apply hs]
  congr 1
  cases b with
  | true =>
    have : {x : ℝ | decide (x < p) = true} ∩ Set.Icc 0 1 = Set.Ico 0 p := by
      ext x
      simp only [decide_eq_true_eq, Set.mem_inter_iff, Set.mem_ofPred_eq, Set.mem_Icc, Set.mem_Ico]
      constructor
      · rintro ⟨a, b, c⟩; exact ⟨b, a⟩
      · rintro ⟨a, b⟩; exact ⟨b, a, by linarith⟩
    rw [this, Real.volume_Ico]
    simp
  | false =>
    have : {x : ℝ | decide (x < p) = false} ∩ Set.Icc 0 1 = Set.Icc p 1 := by
      ext x
      simp only [decide_eq_false_iff_not, not_lt, Set.mem_inter_iff, Set.mem_ofPred_eq, Set.mem_Icc]
      constructor
      · rintro ⟨a, b, c⟩; exact ⟨a, c⟩
      · rintro ⟨a, b⟩; exact ⟨a, by linarith, b⟩
    rw [this, Real.volume_Icc]
    simp

theorem binomPmf_succ (n k : ℕ) {p : ℝ} (h0 : 0 ≤ p) (h1 : p ≤ 1) :
    binomPmf (n + 1) (k + 1) p = ENNReal.ofReal p * binomPmf n k p + ENNReal.ofReal (1 - p) * binomPmf n (k + 1) p := by
  have h2 : 0 ≤ 1 - p := by linarith
  unfold binomPmf
  rw [← ENNReal.ofReal_mul h0, ← ENNReal.ofReal_mul h2, ← ENNReal.ofReal_add (by positivity) (by positivity)]
  congr 1
  rw [Nat.choose_succ_succ]
  rcases lt_or_ge k n with h | h
  · obtain ⟨m, rfl⟩ : ∃ m, n = k + 1 + m := ⟨n - (k + 1), by omega⟩
    rw [show k + 1 + m + 1 - (k + 1) = m + 1 by omega, show k + 1 + m - k = m + 1 by omega,
      show k + 1 + m - (k + 1) = m by omega]
    push_cast
    ring
  · rw [Nat.choose_eq_zero_of_lt (show n < k + 1 by omega), show n + 1 - (k + 1) = n - k by omega]
    push_cast
    ring

theorem hits_binomial (n : ℕ) {p : ℝ} (h0 : 0 ≤ p) (h1 : p ≤ 1) (k : ℕ) :
    Chance ustream (fun s s' => (hits n (p, s)).1 = (k : ℕ) ∧ (hits n (p, s)).2 = s') (binomPmf n k p) := by
  induction n generalizing k with
  | zero =>
    cases k with
    | zero =>
      have e : binomPmf 0 0 p = 1 := by simp [binomPmf]
      rw [e]
      exact Chance.refl.congr (fun s s' => by simp [hits])
    | succ k =>
      have e : binomPmf 0 (k + 1) p = 0 := by simp [binomPmf]
      rw [e]
      refine Chance.never (fun s s' h => ?_)
      have h2 : (0 : ℝ) = ((k + 1 : ℕ) : ℝ) := h.1
      push_cast at h2
      have : (0 : ℝ) < (k : ℝ) + 1 := by positivity
      linarith
  | succ n ih =>
    have miss : ∀ k, Chance ustream (fun s s' => ¬ s 0 < p ∧ (hits n (p, tail s)).1 = (k : ℕ) ∧
        (hits n (p, tail s)).2 = s') (ENNReal.ofReal (1 - p) * binomPmf n k p) := by
      intro k
      have h := (coin h0 h1 false).comp (ih k)
      simp only [Bool.false_eq_true, if_false] at h
      refine h.congr (fun s s' => ?_)
      constructor
      · rintro ⟨m, ⟨a, rfl⟩, b, c⟩
        exact ⟨by simpa using a, b, c⟩
      · rintro ⟨a, b, c⟩
        exact ⟨_, ⟨by simpa using a, rfl⟩, b, c⟩
    cases k with
    | zero =>
      have e : binomPmf (n + 1) 0 p = ENNReal.ofReal (1 - p) * binomPmf n 0 p := by
        unfold binomPmf
        rw [← ENNReal.ofReal_mul (by linarith)]
        congr 1
        simp [pow_succ, mul_comm]
      rw [e]
      refine (miss 0).congr (fun s s' => ?_)
      by_cases h : s 0 < p
      · obtain ⟨j, -, hj⟩ := hits_whole n p (tail s)
        have : ((j : ℝ) + 1) ≠ 0 := by positivity
        simp [hits, h, hj, this]
      · simp [hits, h]
    | succ k =>
      have hit : Chance ustream (fun s s' => s 0 < p ∧ (hits n (p, tail s)).1 = (k : ℕ) ∧
          (hits n (p, tail s)).2 = s') (ENNReal.ofReal p * binomPmf n k p) := by
        have h := (coin h0 h1 true).comp (ih k)
        simp only [if_true] at h
        refine h.congr (fun s s' => ?_)
        constructor
        · rintro ⟨m, ⟨a, rfl⟩, b, c⟩
          exact ⟨by simpa using a, b, c⟩
        · rintro ⟨a, b, c⟩
          exact ⟨_, ⟨by simpa using a, rfl⟩, b, c⟩
      rw [binomPmf_succ n k h0 h1]
      refine (hit.or (miss (k + 1)) (fun s m m' a b => b.1 a.1)).congr (fun s s' => ?_)
      by_cases h : s 0 < p
      · simp [hits, h]
      · simp [hits, h]

/-- The uniform distribution, which takes a number from the stream. -/
noncomputable def flatDist : Dist ℝ (ℕ → ℝ) (XR ℝ) where
  sample := fun s => (.ok (s 0), tail s)
  logpdf := fun v => .ok (if 0 ≤ v ∧ v ≤ 1 then .fin 0 else .ninf)

/-- The binomial distribution, which takes a number from the stream for each trial. -/
noncomputable def binDist (n : ℕ) (p : ℝ) : Dist ℝ (ℕ → ℝ) (XR ℝ) where
  sample := fun s => (.ok (hits n (p, s)).1, (hits n (p, s)).2)
  logpdf := fun v => .ok (npLog (if (⌊v⌋₊ : ℝ) = v then n.choose ⌊v⌋₊ * p ^ ⌊v⌋₊ * (1 - p) ^ (n - ⌊v⌋₊) else 0))

/-- What a description with these arguments amounts to: -1 for the uniform distribution, `p` and `2 + p` for binomial ones
of 10 and 20 trials. -/
noncomputable def describe : List (String × Result ℝ) → Result ℝ
  | [("shape1", .ok a), ("shape2", .ok b)] => if a = 1 ∧ b = 1 then .ok (-1) else .error .ValueError
  | [("size", .ok n), ("prob", .ok p)] =>
    if 0 ≤ p ∧ p ≤ 1 then
      if n = 10 then .ok p else if n = 20 then .ok (2 + p) else .error .ValueError
    else .error .ValueError
  | _ => .error .TypeError

/-- Numbers, uniform and binomial variables. -/
noncomputable def uSem : Sem String ℝ ℝ Unit (ℕ → ℝ) (XR ℝ) where
  const := id
  op := fun _ _ => .error .TypeError
  call := fun _ _ ks => describe ks
  math := fun _ => none
  creators := fun f => if f = "beta" ∨ f = "binom" then some 0 else none
  create := fun m => .ok (if m = -1 then flatDist else if m ≤ 1 then binDist 10 m else binDist 20 (m - 2))
  schema := fun f => if f = "beta" then some [("shape1", none), ("shape2", none)] else
    if f = "binom" then some [("size", none), ("prob", none)] else none
  reparse := .const
  reload := .ok

/-- What the example supplies besides the model. -/
noncomputable def uTools : Study String ℝ ℝ Unit (ℕ → ℝ) ℝ Unit where
  env := {
    sem := uSem
    ops := ⟨fun _ => 0, fun _ => .fin 1, fun _ x => x⟩
    isFloat := fun _ => true
    support := fun _ => .ok (.fin 0, .fin 1, .fin (1 / 2), .fin 1) }
  model := betaBinModel []
  simulate := fun _ s => (.ok [], s)
  isNone := fun _ => false
  ops := ⟨fun _ => .error .TypeError, fun _ _ => .error .TypeError⟩
  normal := fun sd s => (sd, s)
  sqrt := id
  rng := streamRand

theorem uFlat {g : String → Option ℝ} (hn : g "beta" = none) (ha : g "al" = some 1) (hb : g "be" = some 1) :
    getDistribution uSem betaOf g = .ok flatDist := by
  have h1 : parseDistribution uSem betaOf g = .ok flatDist := by
    have e : getBlueprint uSem betaOf g = .ok (-1) := by
      have hc : completeDef uSem betaOf = .ok betaOf := by
        simp [completeDef, betaOf, Kws.ofList, Expr.size, Args.size, Kws.size, firstCall, uSem, Kws.toList, Args.toList]
      unfold getBlueprint
      rw [hc]
      show betaOf.eval uSem uSem.creators g = _
      simp [betaOf, Kws.ofList, Expr.eval, Args.eval, Kws.eval, lookup, hn, ha, hb, uSem, describe]
    unfold parseDistribution
    rw [e]
    show Except.ok (if (-1 : ℝ) = -1 then flatDist else _) = _
    rw [if_pos rfl]
  unfold getDistribution
  rw [h1]

theorem uBin {n : ℕ} {g : String → Option ℝ} {x : String} {p : ℝ} (hn : g "binom" = none) (hg : g x = some p) :
    getBlueprint uSem (binomOf n x) g = if 0 ≤ p ∧ p ≤ 1 then
      if (n : ℝ) = 10 then .ok p else if (n : ℝ) = 20 then .ok (2 + p) else .error .ValueError
    else .error .ValueError := by
  have hc : completeDef uSem (binomOf n x) = .ok (binomOf n x) := by
    simp [completeDef, binomOf, Kws.ofList, Expr.size, Args.size, Kws.size, firstCall, uSem, Kws.toList, Args.toList]
  unfold getBlueprint
  rw [hc]
  show (binomOf n x).eval uSem uSem.creators g = _
  simp [binomOf, Kws.ofList, Expr.eval, Args.eval, Kws.eval, lookup, hn, hg, uSem, describe]

theorem uIdeal : Ideal ustream uTools.env next hits where
  closed := fun _ => rfl
  flat := by
    intro g hn ha hb
    exact ⟨flatDist, uFlat hn ha hb, fun s => rfl, fun v => rfl, _, rfl⟩
  bin := by
    intro n h g x p hn hg h0 h1
    have e := uBin (n := n) hn hg
    rw [if_pos ⟨h0, h1⟩] at e
    have h2 : p ≠ -1 := by intro h; linarith
    have h3 : 2 + p ≠ -1 := by intro h; linarith
    have h4 : ¬ 2 + p ≤ 1 := by intro h; linarith
    refine ⟨binDist n p, ?_, fun s => rfl⟩
    have h5 : parseDistribution uSem (binomOf n x) g = .ok (binDist n p) := by
      unfold parseDistribution
      rw [e]
      rcases h with rfl | rfl
      · rw [if_pos (by norm_num)]
        show Except.ok (if p = -1 then flatDist else if p ≤ 1 then binDist 10 p else _) = _
        rw [if_neg h2, if_pos h1]
      · rw [if_neg (by norm_num), if_pos (by norm_num)]
        show Except.ok (if 2 + p = -1 then flatDist else if 2 + p ≤ 1 then _ else binDist 20 (2 + p - 2)) = _
        rw [if_neg h3, if_neg h4, add_sub_cancel_left]
    show getDistribution uSem (binomOf n x) g = _
    unfold getDistribution
    rw [h5]
  refuse := by
    intro n h g x p hn hg hp
    have e := uBin (n := n) hn hg
    rw [if_neg hp] at e
    refine ⟨.ValueError, ?_⟩
    have h5 : parseDistribution uSem (binomOf n x) g = .error .ValueError := by
      unfold parseDistribution
      rw [e]
      rfl
    show getDistribution uSem (binomOf n x) g = _
    unfold getDistribution
    rw [h5]
  measurable_flat := measurable_next
  measurable_bin := measurable_hits
  uniform := next_uniform
  whole := fun n p s _ _ => hits_whole n p s
  binomial := fun n p h0 h1 k _ => hits_binomial n h0 h1 k

example : Chance ustream (fun s s' => ∃ post n, Ends (fun f => Abc.collect (betaBinStudy uTools (targets 5 10)).smcEnv.toSimEnv
      (.fin 1) f false 2) s (post, n) s' ∧
      List.Forall₂ (fun pt i => ∃ a b, (Study.locus pt).get? "p1" = some a ∧ (Study.locus pt).get? "p2" = some b ∧
        a ∈ Set.Iic i ∧ b ∈ Set.univ) post [(1 / 2 : ℝ), 1])
    ([(1 / 2 : ℝ), 1].map (fun i => betaMeasure (((5 : ℕ) : ℝ) + 1) (10 - ((5 : ℕ) : ℝ) + 1) (Set.Iic i) *
      betaMeasure (((10 : ℕ) : ℝ) + 1) (20 - ((10 : ℕ) : ℝ) + 1) Set.univ)).prod :=
  C245_exact uIdeal streamRand_honest (parse := fun _ => .error .SyntaxError) (n1 := 5) (n2 := 10) (by norm_num) (by norm_num)
    (by norm_num) (by norm_num) (by rfl) zero_le_one (by norm_num) (by norm_num) (fun i => measurableSet_Iic)
    (fun _ => MeasurableSet.univ) false [1 / 2, 1]

example {set : SmcSettings ℝ} (h2 : set.nIter = 2) : Chance ustream (fun s s' => ∃ st,
      Ends (fun f => Smc.initialise (betaBinStudy uTools (targets 5 10)).smcEnv set f none) s st s' ∧
      List.Forall₂ (fun pt i => ∃ a b, (Study.locus pt.val).get? "p1" = some a ∧ (Study.locus pt.val).get? "p2" = some b ∧
        (a, b) ∈ Set.Iic i ×ˢ Set.univ) st.pts [(1 / 2 : ℝ), 1])
    ([(1 / 2 : ℝ), 1].map (fun i => ((volume.restrict (Set.Icc (0 : ℝ) 1)).prod (volume.restrict (Set.Icc (0 : ℝ) 1)))
      (Set.Iic i ×ˢ Set.univ))).prod :=
  C245_first uIdeal streamRand_honest (parse := fun _ => .error .SyntaxError) (d1 := 5) (d2 := 10) (by norm_num) (by norm_num)
    (by rfl) (A := fun i => Set.Iic i ×ˢ Set.univ) (fun i => measurableSet_Iic.prod MeasurableSet.univ) [1 / 2, 1]
    (by simp [h2]) (by simp)

example : Chance ustream (fun s s' => ∃ post n, Ends (fun f => Abc.collect (betaBinStudy uTools (targets 5 10)).smcEnv.toSimEnv
      (.fin 1) f true 3) s (post, n) s' ∧ post.length = 3 ∧
      ∀ pt ∈ post, ∃ a b, (Study.locus pt).get? "p1" = some a ∧ (Study.locus pt).get? "p2" = some b) 1 := by
  have h := C245_ends uIdeal streamRand_honest (parse := fun _ => .error .SyntaxError) (d1 := 5) (d2 := 10)
    (data := targets 5 10) (by norm_num) (by norm_num) (by rfl) 1 true (m := 3) (by norm_num)
  rwa [if_pos ⟨(5, 10), Finset.mem_filter.2 ⟨by decide, by norm_num [gap]⟩⟩] at h

/-- Nothing is within a negative tolerance. -/
example : Chance ustream (fun s s' => ∃ post n, Ends (fun f => Abc.collect (betaBinStudy uTools (targets 5 10)).smcEnv.toSimEnv
      (.fin (-1)) f true 3) s (post, n) s' ∧ post.length = 3 ∧
      ∀ pt ∈ post, ∃ a b, (Study.locus pt).get? "p1" = some a ∧ (Study.locus pt).get? "p2" = some b) 0 := by
  have h := C245_ends uIdeal streamRand_honest (parse := fun _ => .error .SyntaxError) (d1 := 5) (d2 := 10)
    (data := targets 5 10) (by norm_num) (by norm_num) (by rfl) (-1) true (m := 3) (by norm_num)
  rwa [if_neg (by
    rintro ⟨k, hk⟩
    have := (Finset.mem_filter.1 hk).2
    have h0 : 0 ≤ gap 5 10 ((k.1 : ℝ), (k.2 : ℝ)) := by unfold gap; positivity
    linarith)] at h

end Props.LawsToy
