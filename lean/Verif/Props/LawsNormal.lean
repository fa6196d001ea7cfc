import Verif.Props.LawsToy
import Mathlib.Probability.Distributions.Gamma

/-!
# The posterior of the example `Normal2`: C252

A hierarchical prior (the spread of the means is random) and normal data: the particles of rejection ABC have the density
of the prior times the chance that two means of `n` normal numbers are close to the observed ones.
-/

namespace Props.LawsNormal

set_option linter.unusedSectionVars false

open Py Spec Model MeasureTheory Props.LawsAbc Props.Laws Props.Sampling Props.BN Props.Assembled Props.LawsDensity
  Props.LawsPosterior ProbabilityTheory

open scoped NNReal

variable {S D ι : Type} [MeasurableSpace S]

/-- The density of `gamma(0.1, 0.1)`. -/
noncomputable abbrev gpdf (v : ℝ) : ℝ := gammaPDFReal (1 / 10) (1 / 10) v

/-- The variance of a standard deviation. -/
noncomputable abbrev var (sd : ℝ) : ℝ≥0 := (sd ^ 2).toNNReal

theorem var_ne {sd : ℝ} (h : 0 < sd) : var sd ≠ 0 := by
  have : 0 < sd ^ 2 := by positivity
  simpa [var] using h.ne'

/-- The log density of the spread: what is reported at 0 is `z` (scipy says infinity). -/
noncomputable def lpStd (z : XR ℝ) (v : ℝ) : XR ℝ :=
  if 0 < v then .fin (Real.log (gpdf v)) else if v = 0 then z else .ninf

/-- The log density of a mean, given the spread. -/
noncomputable def lpMu (sd v : ℝ) : XR ℝ := .fin (Real.log (gaussianPDFReal 0 (var sd) v))

/-- `gamma(0.1, 0.1)`, with the names of its arguments. -/
noncomputable def gammaTenth : Expr String ℝ Unit :=
  .call "gamma" .nil (Kws.ofList [("shape", .const (1 / 10)), ("rate", .const (1 / 10))])

/-- `norm(0, std)`, with the names of its arguments. -/
def normStd : Expr String ℝ Unit := .call "norm" .nil (Kws.ofList [("mean", .const 0), ("sd", .name "std")])

/-- What is needed of the generator and of the distributions `gamma(0.1, 0.1)` and `norm(0, std)`: they are drawn by `F` and
`H` and report their densities; the second is refused when `std` is not positive. -/
structure Ideal (μ : Measure S) (env : FitEnv String ℝ ℝ Unit S ℝ D) (F : S → ℝ × S) (H : ℝ × S → ℝ × S) (z : XR ℝ) : Prop where
  closed : ∀ c, (env.sem.reparse c).names = []
  gamma : ∀ g : String → Option ℝ, g "gamma" = none →
    ∃ d, getDistribution env.sem gammaTenth g = .ok d ∧ (∀ s, d.sample s = (.ok (F s).1, (F s).2)) ∧
      (∀ v, d.logpdf v = .ok (lpStd z v)) ∧ ∃ b, env.support d = .ok b
  norm : ∀ (g : String → Option ℝ) sd, g "norm" = none → g "std" = some sd → 0 < sd →
    ∃ d, getDistribution env.sem normStd g = .ok d ∧ (∀ s, d.sample s = (.ok (H (sd, s)).1, (H (sd, s)).2)) ∧
      ∀ v, d.logpdf v = .ok (lpMu sd v)
  refuse : ∀ (g : String → Option ℝ) sd, g "norm" = none → g "std" = some sd → ¬ 0 < sd →
    getDistribution env.sem normStd g = .error .ValidationError
  positive : ∀ s, 0 < (F s).1
  measurable_gamma : Measurable F
  measurable_norm : Measurable H
  gamma_law : μ.map F = (gammaMeasure (1 / 10) (1 / 10)).prod μ
  norm_law : ∀ sd, 0 < sd → μ.map (fun s => H (sd, s)) = (gaussianReal 0 (var sd)).prod μ

/-- What is needed of `sts.norm(mu, sd).rvs(n)`: `n` independent normal numbers, drawn by `R`; a negative `sd` is refused. -/
structure Arrays (μ : Measure S) (rvs : ℝ → ℝ → ℕ → S → Result (List ℝ) × S) (n : ℕ)
    (R : (ℝ × ℝ) × S → (Fin n → ℝ) × S) : Prop where
  drawn : ∀ m sd s, 0 ≤ sd → rvs m sd n s = (.ok (List.ofFn (R ((m, sd), s)).1), (R ((m, sd), s)).2)
  refuse : ∀ m sd s, sd < 0 → ∃ e, rvs m sd n s = (.error e, s)
  measurable : Measurable R
  law : ∀ m sd, 0 < sd → μ.map (fun s => R ((m, sd), s)) = (Measure.pi (fun _ : Fin n => gaussianReal m (var sd))).prod μ

/-! ## The network of the prior -/

theorem net_ready : Ready (normal2Net : BN String ℝ ℝ Unit) :=
  ⟨_, _, ((((Built.empty "Normal2").step _ rfl).step _ rfl).step _ rfl), Or.inr ⟨"f", rfl⟩⟩

theorem net_loci : (normal2Net : BN String ℝ ℝ Unit).loci = [("std", .dist "std" gammaTenth []),
    ("mu1", .dist "mu1" normStd ["std"]), ("mu2", .dist "mu2" normStd ["std"])] := rfl

theorem loci_cases {x : String} {l : Loci String ℝ ℝ Unit} (h : normal2Net.loci.get? x = some l) :
    (x = "std" ∧ l = .dist "std" gammaTenth []) ∨ (x = "mu1" ∧ l = .dist "mu1" normStd ["std"]) ∨
      (x = "mu2" ∧ l = .dist "mu2" normStd ["std"]) := by
  have h1 := Dict.mem_of_get? h
  rw [net_loci] at h1
  simpa using h1

/-- The assignments. -/
def assign (ψ : String → ℝ) : Dict String ℝ := [("std", ψ "std"), ("mu1", ψ "mu1"), ("mu2", ψ "mu2")]

/-- The three values of an assignment. -/
def triple (ψ : String → ℝ) : ℝ × ℝ × ℝ := (ψ "std", ψ "mu1", ψ "mu2")

/-- The assignment of three values. -/
def named (z : ℝ × ℝ × ℝ) (x : String) : ℝ := if x = "std" then z.1 else if x = "mu1" then z.2.1 else z.2.2

/-- The log density of an assignment. -/
noncomputable def logProb (ψ : String → ℝ) : XR ℝ :=
  if 0 < ψ "std" then .fin (Real.log (gpdf (ψ "std"))) + (lpMu (ψ "std") (ψ "mu1") + (lpMu (ψ "std") (ψ "mu2") + 0)) else .ninf

/-- The density of the prior: the spread is gamma, the means are normal given the spread. -/
noncomputable def density (z : ℝ × ℝ × ℝ) : ENNReal :=
  gammaPDF (1 / 10) (1 / 10) z.1 * (gaussianPDF 0 (z.1 ^ 2).toNNReal z.2.1 * gaussianPDF 0 (z.1 ^ 2).toNNReal z.2.2)

theorem expX_lpMu {sd : ℝ} (h : 0 < sd) (v : ℝ) : expX (lpMu sd v) = gaussianPDF 0 (var sd) v := by
  unfold lpMu
  simp only [expX, Real.exp_log (gaussianPDFReal_pos 0 _ v (var_ne h))]
  rfl

theorem expX_gpdf {v : ℝ} (h : 0 < v) : expX (.fin (Real.log (gpdf v))) = gammaPDF (1 / 10) (1 / 10) v := by
  simp only [expX, Real.exp_log (gammaPDFReal_pos (by norm_num : (0 : ℝ) < 1 / 10) (by norm_num : (0 : ℝ) < 1 / 10) h)]
  rfl

theorem expX_lpStd (z : XR ℝ) {v : ℝ} (h : v ≠ 0) : expX (lpStd z v) = gammaPDF (1 / 10) (1 / 10) v := by
  unfold lpStd
  by_cases h0 : 0 < v
  · rw [if_pos h0, expX_gpdf h0]
  · rw [if_neg h0, if_neg h, gammaPDF_of_neg (lt_of_le_of_ne (not_lt.1 h0) h)]
    rfl

theorem expX_logProb (ψ : String → ℝ) : expX (logProb ψ) = density (triple ψ) := by
  unfold logProb density triple
  by_cases h : 0 < ψ "std"
  · rw [if_pos h, expX_add, expX_add, expX_add, expX_zero, mul_one, expX_lpMu h, expX_lpMu h, expX_gpdf h]
  · rw [if_neg h]
    rcases lt_or_eq_of_le (not_lt.1 h) with h1 | h1
    · rw [gammaPDF_of_neg h1, zero_mul]
      rfl
    · simp only [h1]
      simp [expX]

theorem pos_of {ψ : String → ℝ} (h : expX (logProb ψ) ≠ 0) : 0 < ψ "std" := by
  by_contra h0
  apply h
  rw [logProb, if_neg h0]
  rfl

section Net

variable {μ : Measure S} {env : FitEnv String ℝ ℝ Unit S ℝ D} {F : S → ℝ × S} {H : ℝ × S → ℝ × S} {z : XR ℝ}

/-- What a draw from the prior gives: the spread, the first mean, the second, and the state after. -/
def pr (F : S → ℝ × S) (H : ℝ × S → ℝ × S) (s : S) : (ℝ × ℝ × ℝ) × S :=
  (((F s).1, (H ((F s).1, (F s).2)).1, (H ((F s).1, (H ((F s).1, (F s).2)).2)).1),
    (H ((F s).1, (H ((F s).1, (F s).2)).2)).2)

theorem get_std : (normal2Net : BN String ℝ ℝ Unit).get "std" = .ok (.dist "std" gammaTenth []) := rfl

theorem get_mu1 : (normal2Net : BN String ℝ ℝ Unit).get "mu1" = .ok (.dist "mu1" normStd ["std"]) := rfl

theorem get_mu2 : (normal2Net : BN String ℝ ℝ Unit).get "mu2" = .ok (.dist "mu2" normStd ["std"]) := rfl

theorem net_sample (hi : Ideal μ env F H z) (s : S) : sample env.sem normal2Net [] s =
    (.ok (assign (named (pr F H s).1)), (pr F H s).2) := by
  obtain ⟨d0, a0, b0, -⟩ := hi.gamma (Dict.get? []) rfl
  have hp := hi.positive s
  set a := (F s).1 with ha
  set t := (F s).2 with ht
  set b := (H (a, t)).1 with hb
  set t1 := (H (a, t)).2 with ht1
  obtain ⟨d1, a1, b1, -⟩ := hi.norm (Dict.get? [("std", a)]) a rfl rfl hp
  obtain ⟨d2, a2, b2, -⟩ := hi.norm (Dict.get? [("std", a), ("mu1", b)]) a rfl rfl hp
  have h : sample env.sem normal2Net [] s =
      sampleLoop env.sem normal2Net (fun _ => true) ["std", "mu1", "mu2"] [] s := rfl
  have k0 : Loci.render env.sem (.dist "std" gammaTenth []) (Dict.get? []) s = (.ok a, t) := by
    simp only [Loci.render, a0, b0, ha, ht]
  have k1 : Loci.render env.sem (.dist "mu1" normStd ["std"]) (Dict.get? [("std", a)]) t = (.ok b, t1) := by
    simp only [Loci.render, a1, b1, hb, ht1]
  have k2 : Loci.render env.sem (.dist "mu2" normStd ["std"]) (Dict.get? [("std", a), ("mu1", b)]) t1 =
      (.ok (H (a, t1)).1, (H (a, t1)).2) := by
    simp only [Loci.render, a2, b2]
  have m0 : ("std" : String) ∉ Dict.keys ([] : Dict String ℝ) := by simp [Dict.keys]
  have e0 : Dict.set ([] : Dict String ℝ) "std" a = [("std", a)] := rfl
  have m1 : ("mu1" : String) ∉ Dict.keys [("std", a)] := by simp [Dict.keys]
  have e1 : Dict.set [("std", a)] "mu1" b = [("std", a), ("mu1", b)] := rfl
  have m2 : ("mu2" : String) ∉ Dict.keys [("std", a), ("mu1", b)] := by simp [Dict.keys]
  rw [h]
  simp only [sampleLoop, m0, m1, m2, get_std, get_mu1, get_mu2, k0, k1, k2, e0, e1, not_false_eq_true, decide_true,
    Bool.and_self, if_true]
  rfl

theorem eval_mu (hi : Ideal μ env F H z) (ψ : String → ℝ) {x : String} {v : ℝ} (hx : (assign ψ).get? x = some v) (ps : List String) :
    Loci.evaluate env.sem (.dist x normStd ps) (assign ψ).get? = .ok (if 0 < ψ "std" then lpMu (ψ "std") v else .ninf) := by
  by_cases h : 0 < ψ "std"
  · obtain ⟨d, a, -, b⟩ := hi.norm (assign ψ).get? (ψ "std") rfl rfl h
    rw [if_pos h]
    simp only [Loci.evaluate, a, hx]
    have e : (do let d ← (Except.ok d : Result _); d.logpdf v) = Except.ok (lpMu (ψ "std") v) := b _
    rw [e]
  · have a := hi.refuse (assign ψ).get? (ψ "std") rfl rfl h
    rw [if_neg h]
    simp only [Loci.evaluate, a, hx]
    rfl

theorem net_eval (hi : Ideal μ env F H z) (ψ : String → ℝ) :
    evaluateNodes env.sem normal2Net (assign ψ) = .ok (logProb ψ) := by
  obtain ⟨d0, a0, -, b0, -⟩ := hi.gamma (assign ψ).get? rfl
  have k0 : Loci.evaluate env.sem (.dist "std" gammaTenth []) (assign ψ).get? = .ok (lpStd z (ψ "std")) := by
    have v1 : (assign ψ).get? "std" = some (ψ "std") := rfl
    simp only [Loci.evaluate, a0, v1]
    have e : (do let d ← (Except.ok d0 : Result _); d.logpdf (ψ "std")) = Except.ok (lpStd z (ψ "std")) := b0 _
    rw [e]
  have k1 := eval_mu hi ψ (x := "mu1") (v := ψ "mu1") rfl ["std"]
  have k2 := eval_mu hi ψ (x := "mu2") (v := ψ "mu2") rfl ["std"]
  have hk : (assign ψ).keys.filter (· ∈ (normal2Net : BN String ℝ ℝ Unit).dag.nodes) = ["std", "mu1", "mu2"] := rfl
  have hm : ∀ l0 l1 l2 : XR ℝ, Loci.evaluate env.sem (.dist "std" gammaTenth []) (assign ψ).get? = .ok l0 →
      Loci.evaluate env.sem (.dist "mu1" normStd ["std"]) (assign ψ).get? = .ok l1 →
      Loci.evaluate env.sem (.dist "mu2" normStd ["std"]) (assign ψ).get? = .ok l2 →
      (["std", "mu1", "mu2"] : List String).mapM (fun k => do
      Loci.evaluate env.sem (← (normal2Net : BN String ℝ ℝ Unit).get k) (assign ψ).get?) =
      (.ok [l0, l1, l2] : Result (List (XR ℝ))) := by
    intro l0 l1 l2 k0 k1 k2
    simp only [List.mapM_cons, List.mapM_nil, get_std, get_mu1, get_mu2]
    show (do
      let a ← Loci.evaluate env.sem (.dist "std" gammaTenth []) (assign ψ).get?
      let b ← (do
        let a ← Loci.evaluate env.sem (.dist "mu1" normStd ["std"]) (assign ψ).get?
        let b ← (do
          let a ← Loci.evaluate env.sem (.dist "mu2" normStd ["std"]) (assign ψ).get?
          let b ← (pure [] : Result (List (XR ℝ)))
          pure (a :: b))
        pure (a :: b))
      pure (a :: b) : Result (List (XR ℝ))) = _
    rw [k0, k1, k2]
    rfl
  unfold evaluateNodes
  rw [hk, hm _ _ _ k0 k1 k2]
  show Except.ok (if (lpStd z (ψ "std") + ((if 0 < ψ "std" then lpMu (ψ "std") (ψ "mu1") else .ninf) +
    ((if 0 < ψ "std" then lpMu (ψ "std") (ψ "mu2") else .ninf) + 0))).isNan then XR.ninf else
    (lpStd z (ψ "std") + ((if 0 < ψ "std" then lpMu (ψ "std") (ψ "mu1") else .ninf) +
    ((if 0 < ψ "std" then lpMu (ψ "std") (ψ "mu2") else .ninf) + 0)))) = _
  unfold logProb
  by_cases h : 0 < ψ "std"
  · simp only [if_pos h, lpStd]
    rfl
  · simp only [if_neg h]
    cases lpStd z (ψ "std") <;> rfl

theorem gamma_fair (hi : Ideal μ env F H z) [SFinite μ] {g : String → Option ℝ} (hn : g "gamma" = none) {d : Dist ℝ S (XR ℝ)}
    (h : getDistribution env.sem gammaTenth g = .ok d) :
    FairDensity μ volume d ∧ (∀ s, d.sample s = (.ok (F s).1, (F s).2)) ∧ ∀ v, dens d v = expX (lpStd z v) := by
  obtain ⟨d', a, b, c, -⟩ := hi.gamma g hn
  rw [a] at h
  cases h
  have hd : ∀ v, dens d v = expX (lpStd z v) := by
    intro v
    simp only [dens, c]
  refine ⟨?_, b, hd⟩
  intro G hG
  have e : {s | ∃ v s', d.sample s = (.ok v, s') ∧ (v, s') ∈ G} = F ⁻¹' G := by
    ext s
    simp only [b, Set.mem_ofPred_eq, Set.mem_preimage]
    constructor
    · rintro ⟨v, s', h1, h2⟩
      simp only [Prod.mk.injEq, Except.ok.injEq] at h1
      obtain ⟨rfl, rfl⟩ := h1
      exact h2
    · intro h1
      exact ⟨_, _, rfl, h1⟩
  have hm : Measurable (gammaPDF (1 / 10) (1 / 10)) := (measurable_gammaPDFReal _ _).ennreal_ofReal
  rw [e, ← Measure.map_apply hi.measurable_gamma hG, hi.gamma_law, Measure.prod_apply hG, gammaMeasure,
    lintegral_withDensity_eq_lintegral_mul _ hm (measurable_measure_prodMk_left hG)]
  refine lintegral_congr_ae ?_
  filter_upwards [Measure.ae_ne volume (0 : ℝ)] with v hv
  rw [hd, expX_lpStd z hv]
  rfl

theorem norm_fair (hi : Ideal μ env F H z) [SFinite μ] {g : String → Option ℝ} {sd : ℝ} (hn : g "norm" = none) (hg : g "std" = some sd)
    {d : Dist ℝ S (XR ℝ)} (h : getDistribution env.sem normStd g = .ok d) :
    0 < sd ∧ FairDensity μ volume d ∧ (∀ s, d.sample s = (.ok (H (sd, s)).1, (H (sd, s)).2)) ∧
      ∀ v, dens d v = gaussianPDF 0 (var sd) v := by
  have h0 : 0 < sd := by
    by_contra h0
    rw [hi.refuse g sd hn hg h0] at h
    cases h
  obtain ⟨d', a, b, c⟩ := hi.norm g sd hn hg h0
  rw [a] at h
  cases h
  have hd : ∀ v, dens d v = gaussianPDF 0 (var sd) v := by
    intro v
    simp only [dens, c, expX_lpMu h0]
  refine ⟨h0, ?_, b, hd⟩
  intro G hG
  have e : {s | ∃ v s', d.sample s = (.ok v, s') ∧ (v, s') ∈ G} = (fun s => H (sd, s)) ⁻¹' G := by
    ext s
    simp only [b, Set.mem_ofPred_eq, Set.mem_preimage]
    constructor
    · rintro ⟨v, s', h1, h2⟩
      simp only [Prod.mk.injEq, Except.ok.injEq] at h1
      obtain ⟨rfl, rfl⟩ := h1
      exact h2
    · intro h1
      exact ⟨_, _, rfl, h1⟩
  have hmH : Measurable (fun s => H (sd, s)) := hi.measurable_norm.comp measurable_prodMk_left
  rw [e, ← Measure.map_apply hmH hG, hi.norm_law sd h0, Measure.prod_apply hG, gaussianReal_of_var_ne_zero _ (var_ne h0),
    lintegral_withDensity_eq_lintegral_mul _ (measurable_gaussianPDF _ _) (measurable_measure_prodMk_left hG)]
  refine lintegral_congr (fun v => ?_)
  rw [hd]
  rfl

theorem measurable_lpStd (z : XR ℝ) : Measurable (fun v => expX (lpStd z v)) := by
  have e : (fun v => expX (lpStd z v)) = fun v => if v = 0 then expX z else gammaPDF (1 / 10) (1 / 10) v := by
    funext v
    by_cases h : v = 0
    · rw [if_pos h, lpStd, if_neg (by simp [h]), if_pos h]
    · rw [if_neg h, expX_lpStd z h]
  rw [e]
  exact Measurable.ite (measurableSet_singleton 0) measurable_const (measurable_gammaPDFReal _ _).ennreal_ofReal

theorem measurable_gauss {α : Type} [MeasurableSpace α] (f g : α → ℝ) (hf : Measurable f) (hg : Measurable g) :
    Measurable (fun a => gaussianPDF 0 (var (f a)) (g a)) := by
  have h : Measurable (fun a => ((0 : ℝ), var (f a), g a)) :=
    measurable_const.prodMk (((hf.pow_const 2).real_toNNReal).prodMk hg)
  exact measurable_uncurry_gaussianPDF.comp h

theorem dens_std (hi : Ideal μ env F H z) [SFinite μ] (ψ : String → ℝ) :
    nodeDens env.sem normal2Net "std" (assign ψ) = expX (lpStd z (ψ "std")) := by
  obtain ⟨d1, a1, -⟩ := hi.gamma (assign ψ).get? rfl
  have h1 := (gamma_fair hi rfl a1).2.2
  have g1 : (normal2Net : BN String ℝ ℝ Unit).loci.get? "std" = some (.dist "std" gammaTenth []) := rfl
  have v1 : (assign ψ).get? "std" = some (ψ "std") := rfl
  simp only [nodeDens, g1, a1, v1, h1]

theorem dens_mu (hi : Ideal μ env F H z) [SFinite μ] {x : String} (hx : x = "mu1" ∨ x = "mu2") (ψ : String → ℝ) :
    nodeDens env.sem normal2Net x (assign ψ) = if 0 < ψ "std" then gaussianPDF 0 (var (ψ "std")) (ψ x) else 0 := by
  have g1 : (normal2Net : BN String ℝ ℝ Unit).loci.get? x = some (.dist x normStd ["std"]) := by
    rcases hx with rfl | rfl <;> rfl
  have v1 : (assign ψ).get? x = some (ψ x) := by
    rcases hx with rfl | rfl <;> rfl
  by_cases h : 0 < ψ "std"
  · obtain ⟨d1, a1, -⟩ := hi.norm (assign ψ).get? (ψ "std") rfl rfl h
    have h1 := (norm_fair hi rfl rfl a1).2.2.2
    rw [if_pos h]
    simp only [nodeDens, g1, a1, v1, h1]
  · have a := hi.refuse (assign ψ).get? (ψ "std") rfl rfl h
    rw [if_neg h]
    simp only [nodeDens, g1, a]

theorem net_draws (hi : Ideal μ env F H z) [SFinite μ] {x n : String} {f : Expr String ℝ Unit} {ps : List String}
    (hl : (normal2Net : BN String ℝ ℝ Unit).loci.get? x = some (.dist n f ps)) {G : Set ((String → ℝ) × S)} (hG : MeasurableSet G) :
    MeasurableSet {p : (String → ℝ) × S | ∃ d v s', getDistribution env.sem f (assign p.1).get? = .ok d ∧
      d.sample p.2 = (.ok v, s') ∧ (Function.update p.1 x v, s') ∈ G} := by
  have hstd : Measurable (fun p : (String → ℝ) × S => p.1 "std") := (measurable_pi_apply "std").comp measurable_fst
  have key : MeasurableSet {p : (String → ℝ) × S | ∃ d v s', getDistribution env.sem normStd (assign p.1).get? = .ok d ∧
      d.sample p.2 = (.ok v, s') ∧ (Function.update p.1 x v, s') ∈ G} := by
    have e : {p : (String → ℝ) × S | ∃ d v s', getDistribution env.sem normStd (assign p.1).get? = .ok d ∧
        d.sample p.2 = (.ok v, s') ∧ (Function.update p.1 x v, s') ∈ G} =
        {p | 0 < p.1 "std"} ∩ (fun p : (String → ℝ) × S => (Function.update p.1 x (H (p.1 "std", p.2)).1,
          (H (p.1 "std", p.2)).2)) ⁻¹' G := by
      ext p
      constructor
      · rintro ⟨d, v, s', h1, h2, h3⟩
        obtain ⟨h4, -, h5, -⟩ := norm_fair hi (sd := p.1 "std") rfl rfl h1
        rw [h5] at h2
        cases h2
        exact ⟨h4, h3⟩
      · rintro ⟨h0, h⟩
        obtain ⟨d, a, b, -⟩ := hi.norm (assign p.1).get? (p.1 "std") rfl rfl h0
        exact ⟨d, _, _, a, b _, h⟩
    rw [e]
    have hF := hi.measurable_norm.comp (hstd.prodMk measurable_snd)
    refine (measurableSet_lt measurable_const hstd).inter (Measurable.prodMk ?_ (measurable_snd.comp hF) hG)
    exact measurable_update'.comp (measurable_fst.prodMk (measurable_fst.comp hF))
  rcases loci_cases hl with ⟨rfl, h⟩ | ⟨rfl, h⟩ | ⟨rfl, h⟩ <;> cases h
  · have e : {p : (String → ℝ) × S | ∃ d v s', getDistribution env.sem gammaTenth (assign p.1).get? = .ok d ∧
        d.sample p.2 = (.ok v, s') ∧ (Function.update p.1 "std" v, s') ∈ G} =
        (fun p : (String → ℝ) × S => (Function.update p.1 "std" (F p.2).1, (F p.2).2)) ⁻¹' G := by
      ext p
      constructor
      · rintro ⟨d, v, s', h1, h2, h3⟩
        rw [(gamma_fair hi rfl h1).2.1] at h2
        cases h2
        exact h3
      · intro h
        obtain ⟨d, a, b, -⟩ := hi.gamma (assign p.1).get? rfl
        exact ⟨d, _, _, a, b _, h⟩
    rw [e]
    have hF := hi.measurable_gamma.comp (measurable_snd : Measurable (Prod.snd : (String → ℝ) × S → S))
    refine Measurable.prodMk ?_ (measurable_snd.comp hF) hG
    exact measurable_update'.comp (measurable_fst.prodMk (measurable_fst.comp hF))
  · exact key
  · exact key

theorem dens_measurable (hi : Ideal μ env F H z) [SFinite μ] {x : String} (hx : x = "mu1" ∨ x = "mu2") :
    Measurable (fun φ => nodeDens env.sem normal2Net x (assign φ)) := by
  simp only [dens_mu hi hx]
  refine Measurable.ite (measurableSet_lt measurable_const (measurable_pi_apply "std")) ?_ measurable_const
  exact measurable_gauss (fun φ : String → ℝ => φ "std") (fun φ => φ x) (measurable_pi_apply "std") (measurable_pi_apply x)

theorem net_density (hi : Ideal μ env F H z) [SFinite μ] {x : String} (hr : (normal2Net : BN String ℝ ℝ Unit).Rv x) :
    Measurable (fun φ => nodeDens env.sem normal2Net x (assign φ)) := by
  obtain ⟨l, hl, hd⟩ := hr
  rcases loci_cases hl with ⟨h, -⟩ | ⟨h, -⟩ | ⟨h, -⟩
  · subst h
    simp only [dens_std hi]
    exact (measurable_lpStd z).comp (measurable_pi_apply "std")
  · exact dens_measurable hi (Or.inl h)
  · exact dens_measurable hi (Or.inr h)

theorem net_family (hi : Ideal μ env F H z) [SFinite μ] :
    Family μ (fun _ => volume) env.sem normal2Net [] assign where
  outcome := fun ψ => {
    wf := show ["std", "mu1", "mu2"].Nodup by decide
    keys := by
      intro x
      have e : (normal2Net : BN String ℝ ℝ Unit).dag.nodes = ["std", "mu1", "mu2"] := rfl
      have e' : Dict.keys (assign ψ) = ["std", "mu1", "mu2"] := rfl
      rw [e, e']
      simp [Dict.keys]
    given := by intro x v h; cases h
    fixed := by
      intro x l hl _ hd
      rcases loci_cases hl with ⟨-, rfl⟩ | ⟨-, rfl⟩ | ⟨-, rfl⟩ <;> cases hd }
  drawn := by
    rintro φ x ⟨l, hl, hd⟩ -
    rcases loci_cases hl with ⟨rfl, rfl⟩ | ⟨rfl, rfl⟩ | ⟨rfl, rfl⟩ <;> rfl
  fair := by
    intro φ x n f ps d hl _ hd
    rcases loci_cases hl with ⟨rfl, h⟩ | ⟨rfl, h⟩ | ⟨rfl, h⟩ <;> cases h
    · exact (gamma_fair hi rfl hd).1
    · exact (norm_fair hi rfl rfl hd).2.1
    · exact (norm_fair hi rfl rfl hd).2.1
  draws := fun x n f ps hl _ G hG => net_draws hi hl hG
  density := fun x hr _ => net_density hi hr

theorem net_exo (x : String) : ¬ Exogenous (normal2Net : BN String ℝ ℝ Unit) x := by
  rintro ⟨n, h⟩
  rcases loci_cases h with ⟨-, h⟩ | ⟨-, h⟩ | ⟨-, h⟩ <;> cases h

theorem net_rv (x : String) : x ∈ ({"std", "mu1", "mu2"} : Finset String) ↔ (normal2Net : BN String ℝ ℝ Unit).Rv x := by
  constructor
  · intro h
    rcases Finset.mem_insert.1 h with rfl | h
    · exact ⟨_, rfl, rfl⟩
    · rcases Finset.mem_insert.1 h with rfl | h
      · exact ⟨_, rfl, rfl⟩
      · rw [Finset.mem_singleton.1 h]
        exact ⟨_, rfl, rfl⟩
  · rintro ⟨l, hl, hd⟩
    rcases loci_cases hl with ⟨rfl, rfl⟩ | ⟨rfl, rfl⟩ | ⟨rfl, rfl⟩ <;> simp

end Net

/-! ## A simulation -/

section Run

variable {μ : Measure S} {env : FitEnv String ℝ ℝ Unit S ℝ D} {F : S → ℝ × S} {H : ℝ × S → ℝ × S} {z : XR ℝ}
  {tools : Study String ℝ ℝ Unit S ℝ D} {rvs : ℝ → ℝ → ℕ → S → Result (List ℝ) × S} {n : ℕ}
  {R : (ℝ × ℝ) × S → (Fin n → ℝ) × S}

/-- The mean of an array of draws, and the state after. -/
noncomputable def mean (R : (ℝ × ℝ) × S → (Fin n → ℝ) × S) (p : (ℝ × ℝ) × S) : ℝ × S := ((∑ i, (R p).1 i) / n, (R p).2)

/-- The two simulated means, and the state after. -/
noncomputable def means (R : (ℝ × ℝ) × S → (Fin n → ℝ) × S) (ψ : String → ℝ) (s : S) : ℝ × (ℝ × S) :=
  ((mean R ((ψ "mu1", ψ "std"), s)).1, mean R ((ψ "mu2", ψ "std"), (mean R ((ψ "mu1", ψ "std"), s)).2))

/-- The two simulated means. -/
noncomputable def pair (R : (ℝ × ℝ) × S → (Fin n → ℝ) × S) (ψ : String → ℝ) (s : S) : ℝ × ℝ :=
  ((means R ψ s).1, (means R ψ s).2.1)

theorem npMean_ofFn (hn : 0 < n) (x : Fin n → ℝ) : npMean (List.ofFn x) = .fin ((∑ i, x i) / n) := by
  rw [Props.Toys.npMean_eq (by
    intro h
    have := congrArg List.length h
    simp at this
    omega), List.sum_ofFn, List.length_ofFn]

theorem simulate_eq (ha : Arrays μ rvs n R) (hn : 0 < n) {ψ : String → ℝ} (h : 0 ≤ ψ "std") (lp : XR ℝ) (s : S) :
    normal2Simulate rvs n ⟨assign ψ, lp⟩ s =
      (.ok [("x1", .fin (pair R ψ s).1), ("x2", .fin (pair R ψ s).2)], (means R ψ s).2.2) := by
  have v0 : (assign ψ).get? "std" = some (ψ "std") := rfl
  have v1 : (assign ψ).get? "mu1" = some (ψ "mu1") := rfl
  have v2 : (assign ψ).get? "mu2" = some (ψ "mu2") := rfl
  simp only [normal2Simulate, v0, v1, v2, ha.drawn _ _ _ h, normal2Sims, npMean_ofFn hn]
  rfl

theorem simulate_refused (ha : Arrays μ rvs n R) {ψ : String → ℝ} (h : ψ "std" < 0) (lp : XR ℝ) (s : S) :
    ∃ e, normal2Simulate rvs n ⟨assign ψ, lp⟩ s = (.error e, s) := by
  have v0 : (assign ψ).get? "std" = some (ψ "std") := rfl
  have v1 : (assign ψ).get? "mu1" = some (ψ "mu1") := rfl
  obtain ⟨e, he⟩ := ha.refuse (ψ "mu1") (ψ "std") s h
  exact ⟨e, by simp only [normal2Simulate, v0, v1, he]⟩

theorem prior_eq (hi : Ideal μ env F H z) (tg : Dict String (Target String ℝ D)) (s : S) :
    (normal2Model tg).samplePrior env s = (.ok ⟨assign (named (pr F H s).1), logProb (named (pr F H s).1)⟩, (pr F H s).2) := by
  unfold DataModel.samplePrior
  have h1 : sample env.sem (normal2Model (D := D) tg).bn (normal2Model (D := D) (O := Unit) tg).exo s = _ := net_sample hi s
  rw [h1]
  have h2 : evaluateNodes env.sem (normal2Model (D := D) (O := Unit) tg).bn (assign (named (pr F H s).1)) = _ := net_eval hi _
  simp only [h2]
  rfl

theorem domain_ok (hi : Ideal μ env F H z) (tg : Dict String (Target String ℝ D)) (s : S) :
    ∃ a : Dom String ℝ, a.name = "std" ∧ (normal2Model tg).domain env s = (.ok [a], (pr F H s).2) := by
  have hs := prior_eq hi tg s
  have h1 : ∀ ψ, ∃ a : Dom String ℝ, a.name = "std" ∧
      (normal2Model tg).domainOf env ⟨assign ψ, logProb ψ⟩ "std" = .ok a := by
    intro ψ
    obtain ⟨d, a, -, -, b, hb⟩ := hi.gamma (assign ψ).get? rfl
    refine ⟨⟨"std", b.1, b.2.1, b.2.2.1, b.2.2.2⟩, rfl, ?_⟩
    show (do
      let d ← getDistribution env.sem gammaTenth (assign ψ).get?
      let (lo, up, mean, std) ← env.support d
      return (⟨"std", lo, up, mean, std⟩ : Dom String ℝ)) = _
    rw [a]
    show (do
      let (lo, up, mean, std) ← env.support d
      return (⟨"std", lo, up, mean, std⟩ : Dom String ℝ)) = _
    rw [hb]
    rfl
  obtain ⟨a, ha, h1⟩ := h1 (named (pr F H s).1)
  refine ⟨a, ha, ?_⟩
  unfold DataModel.domain
  rw [hs]
  have hr : (normal2Model (D := D) (O := Unit) tg).bn.rvRoots = .ok (some ["std"]) := rfl
  rw [hr]
  simp only [List.mapM_cons, List.mapM_nil, h1]
  rfl

open Props.LawsToy (gap)

/-- The state after a run: the means are drawn, and then a sample of the prior for the domain. -/
noncomputable def after (F : S → ℝ × S) (H : ℝ × S → ℝ × S) (R : (ℝ × ℝ) × S → (Fin n → ℝ) × S) (ψ : String → ℝ) (s : S) : S :=
  (pr F H (means R ψ s).2.2).2

theorem run_eq (hi : Ideal μ tools.env F H z) (ha : Arrays μ rvs n R) (hn : 0 < n) {d1 d2 : ℝ} (h1 : d1 ≠ 0) (h2 : d2 ≠ 0)
    {ψ : String → ℝ} (hψ : 0 ≤ ψ "std") (s : S) :
    ∃ pt, (normal2Study tools rvs n (Props.LawsToy.targets d1 d2)).run ⟨assign ψ, logProb ψ⟩ s = (.ok pt, after F H R ψ s) ∧
      Study.distance pt = .fin (gap d1 d2 (pair R ψ s)) := by
  obtain ⟨a, hna, hdom⟩ := domain_ok hi (Props.LawsToy.targets d1 d2) (means R ψ s).2.2
  have hsim : (normal2Study tools rvs n (Props.LawsToy.targets d1 d2)).simulate ⟨assign ψ, logProb ψ⟩ s = _ :=
    simulate_eq ha hn hψ (logProb ψ) s
  generalize pair R ψ s = x at hsim ⊢
  have hsum : DataModel.sumTargets (Target.distance tools.env.ops [("x1", .fin x.1), ("x2", .fin x.2)])
      ((normal2Model (O := Unit) (Props.LawsToy.targets (D := D) d1 d2)).data.map Prod.snd) 0 = .ok (.fin (gap d1 d2 x)) := by
    rw [← Props.LawsToy.gap_eq h1 h2]
    rfl
  unfold after
  generalize (means R ψ s).2.2 = t at hsim hdom ⊢
  generalize gap d1 d2 x = g at hsum ⊢
  have hfl : (normal2Model (Props.LawsToy.targets d1 d2)).flatten tools.env
      (.new (.chrom ⟨assign ψ, logProb ψ⟩) [("x1", .fin x.1), ("x2", .fin x.2)]) t =
      (⟨.chrom ⟨assign ψ, logProb ψ⟩, [("x1", .fin x.1), ("x2", .fin x.2)], [("Xs", .xs [ψ "std"]),
        ("Ys", .ys [("x1", .fin x.1), ("x2", .fin x.2)])]⟩, (pr F H t).2, .ok ()) := by
    unfold DataModel.flatten
    rw [hdom]
    simp only [List.mapM_cons, List.mapM_nil, hna]
    rfl
  refine ⟨⟨.chrom ⟨assign ψ, logProb ψ⟩, [("x1", .fin x.1), ("x2", .fin x.2)], [("Xs", .xs [ψ "std"]),
        ("Ys", .ys [("x1", .fin x.1), ("x2", .fin x.2)]), ("distance", .num (.fin g))]⟩, ?_, rfl⟩
  have hcalc : (normal2Model (Props.LawsToy.targets d1 d2)).calcDistance tools.env
      (.new (.chrom ⟨assign ψ, logProb ψ⟩) [("x1", .fin x.1), ("x2", .fin x.2)]) t =
      (⟨.chrom ⟨assign ψ, logProb ψ⟩, [("x1", .fin x.1), ("x2", .fin x.2)], [("Xs", .xs [ψ "std"]),
        ("Ys", .ys [("x1", .fin x.1), ("x2", .fin x.2)]), ("distance", .num (.fin g))]⟩, (pr F H t).2,
        .ok (.num (.fin g))) := by
    have hl : (normal2Model (Props.LawsToy.targets d1 d2)).lookupYs tools.env
        (.new (.chrom ⟨assign ψ, logProb ψ⟩) [("x1", .fin x.1), ("x2", .fin x.2)]) t =
        (⟨.chrom ⟨assign ψ, logProb ψ⟩, [("x1", .fin x.1), ("x2", .fin x.2)], [("Xs", .xs [ψ "std"]),
          ("Ys", .ys [("x1", .fin x.1), ("x2", .fin x.2)])]⟩, (pr F H t).2,
          .ok (.ys [("x1", .fin x.1), ("x2", .fin x.2)])) := by
      unfold DataModel.lookupYs
      simp only [Particle.new]
      have := hfl
      simp only [Particle.new] at this
      rw [this]
      rfl
    unfold DataModel.calcDistance DataModel.calcNote
    rw [hl]
    simp only [hsum]
    rfl
  unfold Study.run
  simp only [hsim]
  have hcalc' := hcalc
  change (normal2Study tools rvs n (Props.LawsToy.targets d1 d2)).model.calcDistance
    (normal2Study tools rvs n (Props.LawsToy.targets d1 d2)).env _ _ = _ at hcalc'
  simp only [hcalc']

theorem run_refused (ha : Arrays μ rvs n R) {tg : Dict String (Target String ℝ D)} {ψ : String → ℝ} (hψ : ψ "std" < 0) (s : S) :
    ∀ pt s', (normal2Study tools rvs n tg).run ⟨assign ψ, logProb ψ⟩ s ≠ (.ok pt, s') := by
  intro pt s' h
  obtain ⟨e, k⟩ := simulate_refused ha hψ (logProb ψ) s
  have hsim : (normal2Study tools rvs n tg).simulate ⟨assign ψ, logProb ψ⟩ s = (.error e, s) := k
  unfold Study.run at h
  rw [hsim] at h
  cases h

theorem run_iff (hi : Ideal μ tools.env F H z) (ha : Arrays μ rvs n R) (hn : 0 < n) {d1 d2 : ℝ} (h1 : d1 ≠ 0) (h2 : d2 ≠ 0)
    (acc : XR ℝ → Bool) (b : Bool) (ψ : String → ℝ) (s s' : S) :
    (∃ pt, (normal2Study tools rvs n (Props.LawsToy.targets d1 d2)).run ⟨assign ψ, logProb ψ⟩ s = (.ok pt, s') ∧
      acc (Study.distance pt) = b) ↔
      0 ≤ ψ "std" ∧ acc (.fin (gap d1 d2 (pair R ψ s))) = b ∧ after F H R ψ s = s' := by
  by_cases hψ : 0 ≤ ψ "std"
  · obtain ⟨pt, a, c⟩ := run_eq hi ha hn h1 h2 hψ s
    rw [a]
    constructor
    · rintro ⟨pt', e1, e2⟩
      simp only [Prod.mk.injEq, Except.ok.injEq] at e1
      obtain ⟨rfl, rfl⟩ := e1
      rw [c] at e2
      exact ⟨hψ, e2, rfl⟩
    · rintro ⟨-, e1, rfl⟩
      exact ⟨pt, rfl, by rw [c]; exact e1⟩
  · constructor
    · rintro ⟨pt, e, -⟩
      exact absurd e (run_refused ha (not_le.1 hψ) s pt s')
    · rintro ⟨h, -⟩
      exact absurd h hψ

end Run

/-! ## The laws -/

section Law

open Props.LawsToy (gap)

variable {μ : Measure S} {env : FitEnv String ℝ ℝ Unit S ℝ D} {F : S → ℝ × S} {H : ℝ × S → ℝ × S} {z : XR ℝ}
  {tools : Study String ℝ ℝ Unit S ℝ D} {rvs : ℝ → ℝ → ℕ → S → Result (List ℝ) × S} {n : ℕ}
  {R : (ℝ × ℝ) × S → (Fin n → ℝ) × S}

theorem measurable_pr (hi : Ideal μ env F H z) : Measurable (pr F H) := by
  have h1 : Measurable (fun s => (F s).1) := measurable_fst.comp hi.measurable_gamma
  have h2 : Measurable (fun s => (F s).2) := measurable_snd.comp hi.measurable_gamma
  have h3 : Measurable (fun s => H ((F s).1, (F s).2)) := hi.measurable_norm.comp (h1.prodMk h2)
  have h4 : Measurable (fun s => H ((F s).1, (H ((F s).1, (F s).2)).2)) :=
    hi.measurable_norm.comp (h1.prodMk (measurable_snd.comp h3))
  exact (h1.prodMk ((measurable_fst.comp h3).prodMk (measurable_fst.comp h4))).prodMk (measurable_snd.comp h4)

theorem gamma_pos (hi : Ideal μ env F H z) [IsProbabilityMeasure μ] : ∀ᵐ sd ∂(gammaMeasure (1 / 10) (1 / 10)), 0 < sd := by
  have h : (gammaMeasure (1 / 10) (1 / 10)) {x : ℝ | ¬ 0 < x} = 0 := by
    have hm : MeasurableSet {x : ℝ | ¬ 0 < x} := (measurableSet_lt measurable_const measurable_id).compl
    have h1 : (gammaMeasure (1 / 10) (1 / 10)).prod μ ({x : ℝ | ¬ 0 < x} ×ˢ Set.univ) = 0 := by
      rw [← hi.gamma_law, Measure.map_apply hi.measurable_gamma (hm.prod MeasurableSet.univ)]
      have : F ⁻¹' ({x : ℝ | ¬ 0 < x} ×ˢ Set.univ) = ∅ := by
        ext s
        simp [hi.positive s]
      rw [this, measure_empty]
    rw [Measure.prod_prod, measure_univ, mul_one] at h1
    exact h1
  exact h

theorem norm_keeps (hi : Ideal μ env F H z) [IsProbabilityMeasure μ] {sd : ℝ} (h : 0 < sd) {B : Set S} (hB : MeasurableSet B) :
    μ ((fun s => (H (sd, s)).2) ⁻¹' B) = μ B := by
  have hm : Measurable (fun s => H (sd, s)) := hi.measurable_norm.comp measurable_prodMk_left
  have e : (fun s => (H (sd, s)).2) ⁻¹' B = (fun s => H (sd, s)) ⁻¹' (Set.univ ×ˢ B) := by
    ext s
    simp
  rw [e, ← Measure.map_apply hm (MeasurableSet.univ.prod hB), hi.norm_law sd h, Measure.prod_prod, measure_univ, one_mul]

theorem prior_keeps (hi : Ideal μ env F H z) [IsProbabilityMeasure μ] {B : Set S} (hB : MeasurableSet B) :
    μ {s | (pr F H s).2 ∈ B} = μ B := by
  have : IsProbabilityMeasure (gammaMeasure (1 / 10) (1 / 10)) := isProbabilityMeasure_gammaMeasure (by norm_num) (by norm_num)
  have hm1 : Measurable (fun p : ℝ × S => H (p.1, (H p).2)) :=
    hi.measurable_norm.comp (measurable_fst.prodMk (measurable_snd.comp hi.measurable_norm))
  have hE : MeasurableSet {p : ℝ × S | (H (p.1, (H p).2)).2 ∈ B} := (measurable_snd.comp hm1) hB
  have e : {s | (pr F H s).2 ∈ B} = F ⁻¹' {p : ℝ × S | (H (p.1, (H p).2)).2 ∈ B} := rfl
  rw [e, ← Measure.map_apply hi.measurable_gamma hE, hi.gamma_law, Measure.prod_apply hE]
  have : ∀ᵐ sd ∂(gammaMeasure (1 / 10) (1 / 10)), μ (Prod.mk sd ⁻¹' {p : ℝ × S | (H (p.1, (H p).2)).2 ∈ B}) = μ B := by
    filter_upwards [gamma_pos hi] with sd hsd
    have hm : Measurable (fun s => (H (sd, s)).2) := measurable_snd.comp (hi.measurable_norm.comp measurable_prodMk_left)
    rw [← norm_keeps hi hsd hB, ← norm_keeps hi hsd (hm hB)]
    rfl
  rw [lintegral_congr_ae this, lintegral_const, measure_univ, mul_one]

theorem measurable_mean (ha : Arrays μ rvs n R) : Measurable (mean R) := by
  have h1 : Measurable (fun p => (R p).1) := measurable_fst.comp ha.measurable
  have h2 : ∀ i, Measurable (fun p => (R p).1 i) := fun i => (measurable_pi_apply i).comp h1
  exact ((Finset.measurable_fun_sum _ (fun i _ => h2 i)).div_const _).prodMk (measurable_snd.comp ha.measurable)

theorem measurable_means (ha : Arrays μ rvs n R) : Measurable (fun p : (String → ℝ) × S => means R p.1 p.2) := by
  have hp : ∀ x : String, Measurable (fun p : (String → ℝ) × S => p.1 x) := fun x => (measurable_pi_apply x).comp measurable_fst
  have h1 : Measurable (fun p : (String → ℝ) × S => mean R ((p.1 "mu1", p.1 "std"), p.2)) :=
    (measurable_mean ha).comp (((hp "mu1").prodMk (hp "std")).prodMk measurable_snd)
  have h2 : Measurable (fun p : (String → ℝ) × S =>
      mean R ((p.1 "mu2", p.1 "std"), (mean R ((p.1 "mu1", p.1 "std"), p.2)).2)) :=
    (measurable_mean ha).comp (((hp "mu2").prodMk (hp "std")).prodMk (measurable_snd.comp h1))
  exact (measurable_fst.comp h1).prodMk h2

theorem measurable_pair (ha : Arrays μ rvs n R) : Measurable (fun p : (String → ℝ) × S => pair R p.1 p.2) :=
  (measurable_fst.comp (measurable_means ha)).prodMk (measurable_fst.comp (measurable_snd.comp (measurable_means ha)))

theorem measurable_after (hi : Ideal μ env F H z) (ha : Arrays μ rvs n R) :
    Measurable (fun p : (String → ℝ) × S => after F H R p.1 p.2) :=
  measurable_snd.comp ((measurable_pr hi).comp (measurable_snd.comp (measurable_snd.comp (measurable_means ha))))

/-- The law of one mean of `n` normal numbers. -/
noncomputable abbrev meanLaw (n : ℕ) (m sd : ℝ) : Measure ℝ := gaussianReal m ((sd ^ 2).toNNReal / n)

theorem mean_law (ha : Arrays μ rvs n R) [IsProbabilityMeasure μ] (hn : 0 < n) (m : ℝ) {sd : ℝ} (h : 0 < sd) :
    μ.map (fun s => mean R ((m, sd), s)) = (meanLaw n m sd).prod μ := by
  obtain ⟨f, hf, hl⟩ := Props.Toys.C157_law n hn m (var sd)
  have hf' : f = fun x : Fin n → ℝ => (∑ i, x i) / n := by
    funext x
    have := hf x
    rw [npMean_ofFn hn] at this
    exact (XR.fin.inj this).symm
  have hmf : Measurable f := by rw [hf']; fun_prop
  have e : (fun s => mean R ((m, sd), s)) = Prod.map f id ∘ fun s => R ((m, sd), s) := by
    rw [hf']
    rfl
  have hmR : Measurable (fun s => R ((m, sd), s)) := ha.measurable.comp measurable_prodMk_left
  rw [e, ← Measure.map_map (hmf.prodMap measurable_id) hmR, ha.law m sd h,
    ← Measure.map_prod_map _ _ hmf measurable_id, hl, Measure.map_id]

theorem means_law (ha : Arrays μ rvs n R) [IsProbabilityMeasure μ] (hn : 0 < n) {ψ : String → ℝ} (h : 0 < ψ "std") :
    μ.map (means R ψ) = (meanLaw n (ψ "mu1") (ψ "std")).prod ((meanLaw n (ψ "mu2") (ψ "std")).prod μ) := by
  have hm : ∀ m, Measurable (fun s => mean R ((m, ψ "std"), s)) := fun m => (measurable_mean ha).comp measurable_prodMk_left
  have e : means R ψ = Prod.map id (fun s => mean R ((ψ "mu2", ψ "std"), s)) ∘ fun s => mean R ((ψ "mu1", ψ "std"), s) := rfl
  rw [e, ← Measure.map_map (measurable_id.prodMap (hm _)) (hm _), mean_law ha hn _ h,
    ← Measure.map_prod_map _ _ measurable_id (hm _), Measure.map_id, mean_law ha hn _ h]

theorem pair_after (hi : Ideal μ env F H z) (ha : Arrays μ rvs n R) [IsProbabilityMeasure μ] (hn : 0 < n) {ψ : String → ℝ}
    (h : 0 < ψ "std") {C : Set (ℝ × ℝ)} (hC : MeasurableSet C) {B : Set S} (hB : MeasurableSet B) :
    μ {s | pair R ψ s ∈ C ∧ after F H R ψ s ∈ B} =
      ((meanLaw n (ψ "mu1") (ψ "std")).prod (meanLaw n (ψ "mu2") (ψ "std"))) C * μ B := by
  have hB' : MeasurableSet {s | (pr F H s).2 ∈ B} := (measurable_snd.comp (measurable_pr hi)) hB
  have hm : Measurable (means R ψ) := (measurable_means ha).comp measurable_prodMk_left
  have hE : MeasurableSet {p : ℝ × (ℝ × S) | (p.1, p.2.1) ∈ C ∧ (pr F H p.2.2).2 ∈ B} := by
    refine MeasurableSet.inter ?_ ?_
    · exact (measurable_fst.prodMk (measurable_fst.comp measurable_snd)) hC
    · exact (measurable_snd.comp measurable_snd) hB'
  have e : {s | pair R ψ s ∈ C ∧ after F H R ψ s ∈ B} =
      means R ψ ⁻¹' {p : ℝ × (ℝ × S) | (p.1, p.2.1) ∈ C ∧ (pr F H p.2.2).2 ∈ B} := rfl
  rw [e, ← Measure.map_apply hm hE, means_law ha hn h, ← Measure.prodAssoc_prod,
    Measure.map_apply MeasurableEquiv.prodAssoc.measurable hE]
  have e2 : MeasurableEquiv.prodAssoc ⁻¹' {p : ℝ × (ℝ × S) | (p.1, p.2.1) ∈ C ∧ (pr F H p.2.2).2 ∈ B} =
      C ×ˢ {s | (pr F H s).2 ∈ B} := rfl
  rw [e2, Measure.prod_prod, prior_keeps hi hB]

/-- The pairs of means whose distance is accepted, or is not. -/
def Acc (d1 d2 : ℝ) (acc : XR ℝ → Bool) (b : Bool) : Set (ℝ × ℝ) := {x | acc (.fin (gap d1 d2 x)) = b}

theorem run_chance (hi : Ideal μ tools.env F H z) (ha : Arrays μ rvs n R) [IsProbabilityMeasure μ] (hn : 0 < n) {d1 d2 : ℝ}
    (h1 : d1 ≠ 0) (h2 : d2 ≠ 0) {acc : XR ℝ → Bool} {b : Bool} (hb : MeasurableSet (Acc d1 d2 acc b)) {ψ : String → ℝ}
    (h : 0 < ψ "std") :
    Chance μ (fun s s' => ∃ pt, (normal2Study tools rvs n (Props.LawsToy.targets d1 d2)).run ⟨assign ψ, logProb ψ⟩ s =
      (.ok pt, s') ∧ acc (Study.distance pt) = b)
      (((meanLaw n (ψ "mu1") (ψ "std")).prod (meanLaw n (ψ "mu2") (ψ "std"))) (Acc d1 d2 acc b)) := by
  intro B hB
  have e : {s | ∃ s' ∈ B, ∃ pt, (normal2Study tools rvs n (Props.LawsToy.targets d1 d2)).run ⟨assign ψ, logProb ψ⟩ s =
      (.ok pt, s') ∧ acc (Study.distance pt) = b} = {s | pair R ψ s ∈ Acc d1 d2 acc b ∧ after F H R ψ s ∈ B} := by
    ext s
    simp only [run_iff hi ha hn h1 h2 acc b ψ s, Set.mem_ofPred_eq]
    constructor
    · rintro ⟨s', hs', -, e1, rfl⟩
      exact ⟨e1, hs'⟩
    · rintro ⟨e1, e2⟩
      exact ⟨_, e2, h.le, e1, rfl⟩
  rw [e]
  refine ⟨?_, pair_after hi ha hn h hb hB⟩
  exact (((measurable_pair ha).comp measurable_prodMk_left) hb).inter
    (((measurable_after hi ha).comp measurable_prodMk_left) hB)

/-- The chance of an accepted pair of means. -/
noncomputable def chance (n : ℕ) (C : Set (ℝ × ℝ)) (ψ : String → ℝ) : ENNReal :=
  if 0 < ψ "std" then ((meanLaw n (ψ "mu1") (ψ "std")).prod (meanLaw n (ψ "mu2") (ψ "std"))) C else 0

theorem measurable_chance (hi : Ideal μ env F H z) (ha : Arrays μ rvs n R) [IsProbabilityMeasure μ] (hn : 0 < n)
    {C : Set (ℝ × ℝ)} (hC : MeasurableSet C) : Measurable (chance n C) := by
  have hE : MeasurableSet {p : (String → ℝ) × S | pair R p.1 p.2 ∈ C} := measurable_pair ha hC
  have e : chance n C = fun ψ => if 0 < ψ "std" then μ (Prod.mk ψ ⁻¹' {p : (String → ℝ) × S | pair R p.1 p.2 ∈ C}) else 0 := by
    funext ψ
    unfold chance
    by_cases h : 0 < ψ "std"
    · rw [if_pos h, if_pos h]
      have k := pair_after hi ha hn h hC MeasurableSet.univ
      rw [measure_univ, mul_one] at k
      rw [← k]
      congr 1
      ext s
      simp
    · rw [if_neg h, if_neg h]
  rw [e]
  exact Measurable.ite (measurableSet_lt measurable_const (measurable_pi_apply "std")) (measurable_measure_prodMk_left hE)
    measurable_const

theorem measurable_density : Measurable density := by
  have h1 : Measurable (gammaPDF (1 / 10) (1 / 10)) := (measurable_gammaPDFReal _ _).ennreal_ofReal
  have h2 : Measurable (fun z : ℝ × ℝ × ℝ => gaussianPDF 0 (var z.1) z.2.1) :=
    measurable_gauss (fun z : ℝ × ℝ × ℝ => z.1) (fun z => z.2.1) measurable_fst (measurable_fst.comp measurable_snd)
  have h3 : Measurable (fun z : ℝ × ℝ × ℝ => gaussianPDF 0 (var z.1) z.2.2) :=
    measurable_gauss (fun z : ℝ × ℝ × ℝ => z.1) (fun z => z.2.2) measurable_fst (measurable_snd.comp measurable_snd)
  have h4 : Measurable (fun z : ℝ × ℝ × ℝ => gammaPDF (1 / 10) (1 / 10) z.1) := h1.comp measurable_fst
  exact Measurable.mul h4 (Measurable.mul h2 h3)

theorem measurable_triple : Measurable triple :=
  (measurable_pi_apply "std").prodMk ((measurable_pi_apply "mu1").prodMk (measurable_pi_apply "mu2"))

theorem marginal_triple {G : ℝ × ℝ × ℝ → ENNReal} (hG : Measurable G) (φ : String → ℝ) :
    (∫⋯∫⁻_{"std", "mu1", "mu2"}, (fun ψ : String → ℝ => G (triple ψ)) ∂(fun _ => volume)) φ = ∫⁻ z, G z := by
  have hm : Measurable (fun ψ : String → ℝ => G (triple ψ)) := hG.comp measurable_triple
  rw [lmarginal_insert _ hm (by decide)]
  have e : ∀ a : ℝ, (∫⋯∫⁻_{"mu1", "mu2"}, (fun ψ : String → ℝ => G (triple ψ)) ∂(fun _ => volume)) (Function.update φ "std" a) =
      ∫⁻ y : ℝ × ℝ, G (a, y) := by
    intro a
    rw [lmarginal_insert _ hm (by decide)]
    simp only [lmarginal_singleton]
    have e1 : ∀ b c : ℝ, triple (Function.update (Function.update (Function.update φ "std" a) "mu1" b) "mu2" c) = (a, b, c) := by
      intro b c
      simp [triple]
    simp only [e1]
    exact (lintegral_prod _ (hG.comp measurable_prodMk_left).aemeasurable).symm
  simp only [e]
  exact (lintegral_prod _ hG.aemeasurable).symm

theorem density_total : ∫⁻ z, density z = 1 := by
  rw [Measure.volume_eq_prod, lintegral_prod _ measurable_density.aemeasurable]
  have e : (fun a : ℝ => ∫⁻ y : ℝ × ℝ, density (a, y)) =ᵐ[volume] gammaPDF (1 / 10) (1 / 10) := by
    filter_upwards [Measure.ae_ne volume (0 : ℝ)] with a ha
    have hv : (a ^ 2).toNNReal ≠ 0 := by
      have : 0 < a ^ 2 := by positivity
      simpa using ha
    have hg := measurable_gaussianPDF 0 (a ^ 2).toNNReal
    have hm : Measurable (fun y : ℝ × ℝ => gaussianPDF 0 (a ^ 2).toNNReal y.1 * gaussianPDF 0 (a ^ 2).toNNReal y.2) :=
      Measurable.mul (hg.comp measurable_fst) (hg.comp measurable_snd)
    simp only [density]
    rw [Measure.volume_eq_prod, lintegral_const_mul _ hm,
      lintegral_prod_mul (measurable_gaussianPDF _ _).aemeasurable (measurable_gaussianPDF _ _).aemeasurable,
      lintegral_gaussianPDF_eq_one _ hv, mul_one, mul_one]
  rw [lintegral_congr_ae e]
  exact lintegral_gammaPDF_eq_one (by norm_num) (by norm_num)

theorem prior (hi : Ideal μ tools.env F H z) (ha : Arrays μ rvs n R) [IsProbabilityMeasure μ] (hn : 0 < n) {d1 d2 : ℝ}
    (h1 : d1 ≠ 0) (h2 : d2 ≠ 0) {acc : XR ℝ → Bool} (hacc : MeasurableSet (Acc d1 d2 acc true)) (φ : String → ℝ) :
    Prior μ (fun _ => volume) (normal2Study tools rvs n (Props.LawsToy.targets d1 d2)) acc assign logProb
      (chance n (Acc d1 d2 acc true)) {"std", "mu1", "mu2"} φ where
  family := net_family hi
  supplied := fun x h => absurd h (net_exo x)
  free := fun x hx => by cases hx
  vars := net_rv
  logProb := net_eval hi
  order := by
    intro ψ s s' r' h
    have h := (net_sample hi s).symm.trans h
    simp only [Prod.mk.injEq, Except.ok.injEq] at h
    rw [← h.1]
    rfl
  total := by
    simp only [expX_logProb]
    rw [marginal_triple measurable_density, density_total]
  le_one := by
    intro ψ
    unfold chance
    split
    · exact prob_le_one
    · exact zero_le
  measurable_q := measurable_chance hi ha hn hacc
  near := by
    intro ψ hψ
    have h := pos_of hψ
    rw [chance, if_pos h]
    exact run_chance hi ha hn h1 h2 hacc h
  far := by
    intro ψ hψ
    have h := pos_of hψ
    have hc : Acc d1 d2 acc false = (Acc d1 d2 acc true)ᶜ := by
      ext x
      simp [Acc]
    have k := run_chance (b := false) hi ha hn h1 h2 (by rw [hc]; exact hacc.compl) h
    rw [hc, prob_compl_eq_one_sub hacc] at k
    rw [chance, if_pos h]
    exact k
  runs := by
    intro b B hB
    have hb : MeasurableSet (Acc d1 d2 acc b) := by
      cases b with
      | true => exact hacc
      | false =>
        have hc : Acc d1 d2 acc false = (Acc d1 d2 acc true)ᶜ := by
          ext x
          simp [Acc]
        rw [hc]
        exact hacc.compl
    have hset : {p : (String → ℝ) × S | ∃ pt s', s' ∈ B ∧ (normal2Study tools rvs n (Props.LawsToy.targets d1 d2)).run
        ⟨assign p.1, logProb p.1⟩ p.2 = (.ok pt, s') ∧ acc (Study.distance pt) = b} =
        {p | 0 ≤ p.1 "std"} ∩ ({p | pair R p.1 p.2 ∈ Acc d1 d2 acc b} ∩ {p | after F H R p.1 p.2 ∈ B}) := by
      ext p
      simp only [Set.mem_inter_iff, Set.mem_ofPred_eq]
      constructor
      · rintro ⟨pt, s', hs', e1, e2⟩
        obtain ⟨e3, e4, rfl⟩ := (run_iff hi ha hn h1 h2 acc b p.1 p.2 s').1 ⟨pt, e1, e2⟩
        exact ⟨e3, e4, hs'⟩
      · rintro ⟨e3, e4, hs'⟩
        obtain ⟨pt, e5, e6⟩ := (run_iff hi ha hn h1 h2 acc b p.1 p.2 _).2 ⟨e3, e4, rfl⟩
        exact ⟨pt, _, hs', e5, e6⟩
    rw [hset]
    exact (measurableSet_le measurable_const ((measurable_pi_apply "std").comp measurable_fst)).inter
      ((measurable_pair ha hb).inter (measurable_after hi ha hB))

end Law

/-! ## The integrals -/

section Integrals

theorem density_zero {x : ℝ × ℝ × ℝ} (h : ¬ 0 < x.1) : density x = 0 := by
  unfold density
  rcases lt_or_eq_of_le (not_lt.1 h) with h1 | h1
  · rw [gammaPDF_of_neg h1, zero_mul]
  · simp [h1]

/-- The chance that the means of `n` normal numbers, with the spread and the means of `x`, fall into a set. -/
noncomputable def near (n : ℕ) (C : Set (ℝ × ℝ)) (x : ℝ × ℝ × ℝ) : ENNReal :=
  ((gaussianReal x.2.1 ((x.1 ^ 2).toNNReal / n)).prod (gaussianReal x.2.2 ((x.1 ^ 2).toNNReal / n))) C

theorem measurable_named : Measurable named := by
  refine measurable_pi_iff.2 (fun x => ?_)
  unfold named
  by_cases h : x = "std"
  · simp only [if_pos h]
    exact measurable_fst
  · by_cases h' : x = "mu1"
    · simp only [if_neg h, if_pos h']
      exact measurable_fst.comp measurable_snd
    · simp only [if_neg h, if_neg h']
      exact measurable_snd.comp measurable_snd

theorem density_chance (n : ℕ) (C : Set (ℝ × ℝ)) (x : ℝ × ℝ × ℝ) :
    density x * chance n C (named x) = density x * near n C x := by
  by_cases h : 0 < x.1
  · have h' : 0 < named x "std" := h
    rw [chance, if_pos h']
    rfl
  · rw [density_zero h, zero_mul, zero_mul]

variable {μ : Measure S} {env : FitEnv String ℝ ℝ Unit S ℝ D} {F : S → ℝ × S} {H : ℝ × S → ℝ × S} {z : XR ℝ}
  {rvs : ℝ → ℝ → ℕ → S → Result (List ℝ) × S} {n : ℕ} {R : (ℝ × ℝ) × S → (Fin n → ℝ) × S}

theorem integral_eq (hi : Ideal μ env F H z) (ha : Arrays μ rvs n R) [IsProbabilityMeasure μ] (hn : 0 < n)
    {C : Set (ℝ × ℝ)} (hC : MeasurableSet C) {A : Set (ℝ × ℝ × ℝ)} (hA : MeasurableSet A) (φ : String → ℝ) :
    (∫⋯∫⁻_{"std", "mu1", "mu2"}, (fun ψ : String → ℝ => expX (logProb ψ) * ({ψ | triple ψ ∈ A}.indicator 1 ψ * chance n C ψ))
      ∂(fun _ => volume)) φ = ∫⁻ x in A, density x * near n C x := by
  have hm : Measurable (fun x => density x * chance n C (named x)) :=
    measurable_density.mul ((measurable_chance hi ha hn hC).comp measurable_named)
  have e : ∀ ψ : String → ℝ, expX (logProb ψ) * ({ψ | triple ψ ∈ A}.indicator 1 ψ * chance n C ψ) =
      A.indicator (fun x => density x * chance n C (named x)) (triple ψ) := by
    intro ψ
    have ec : chance n C (named (triple ψ)) = chance n C ψ := rfl
    by_cases h : triple ψ ∈ A
    · rw [Set.indicator_of_mem (by exact h), Set.indicator_of_mem h, ec, expX_logProb, Pi.one_apply, one_mul]
    · rw [Set.indicator_of_notMem (by exact h), Set.indicator_of_notMem h, zero_mul, mul_zero]
  simp only [e]
  rw [marginal_triple (hm.indicator hA), lintegral_indicator hA]
  simp only [density_chance]

theorem integral_all (hi : Ideal μ env F H z) (ha : Arrays μ rvs n R) [IsProbabilityMeasure μ] (hn : 0 < n)
    {C : Set (ℝ × ℝ)} (hC : MeasurableSet C) (φ : String → ℝ) :
    (∫⋯∫⁻_{"std", "mu1", "mu2"}, (fun ψ : String → ℝ => expX (logProb ψ) * chance n C ψ) ∂(fun _ => volume)) φ =
      ∫⁻ x, density x * near n C x := by
  have h := integral_eq hi ha hn hC MeasurableSet.univ φ
  simpa only [Set.mem_univ, Set.ofPred_true, Set.indicator_univ, Pi.one_apply, one_mul, Measure.restrict_univ] using h

theorem set_eq (A : Set (ℝ × ℝ × ℝ)) : {ψ : String → ℝ | (assign ψ).get? ∈ {g : String → Option ℝ |
    ∃ a b c, g "std" = some a ∧ g "mu1" = some b ∧ g "mu2" = some c ∧ (a, b, c) ∈ A}} = {ψ | triple ψ ∈ A} := by
  ext ψ
  constructor
  · rintro ⟨a, b, c, e1, e2, e3, e4⟩
    cases e1
    cases e2
    cases e3
    exact e4
  · intro h
    exact ⟨_, _, _, rfl, rfl, rfl, h⟩

end Integrals

theorem sound {tools : Study String ℝ ℝ Unit S ℝ D} {F : S → ℝ × S} {H : ℝ × S → ℝ × S} {z : XR ℝ} {μ : Measure S}
    (hi : Ideal μ tools.env F H z) (hr : tools.rng.Honest) (rvs : ℝ → ℝ → ℕ → S → Result (List ℝ) × S) (n : ℕ)
    (tg : Dict String (Target String ℝ D)) : Sound (normal2Study tools rvs n tg) :=
  { closed := hi.closed
    ready := net_ready
    exo := show (Dict.keys ([] : Dict String ℝ)).Nodup from List.nodup_nil
    noShadow := noShadow_of_check (by rfl)
    rng := hr }

theorem data_eq {ops : DistOps D ℝ} {parse : String → Result D} {xs1 xs2 : List ℝ} (h1 : xs1.sum ≠ 0) (h2 : xs2.sum ≠ 0)
    {data : Dict String (Target String ℝ D)} (hd : normal2Targets ops parse xs1 xs2 = .ok data) :
    data = Props.LawsToy.targets (xs1.sum / xs1.length) (xs2.sum / xs2.length) ∧ xs1.sum / xs1.length ≠ 0 ∧
      xs2.sum / xs2.length ≠ 0 := by
  have n1 : xs1 ≠ [] := by rintro rfl; simp at h1
  have n2 : xs2 ≠ [] := by rintro rfl; simp at h2
  have l1 : (xs1.length : ℝ) ≠ 0 := by exact_mod_cast (List.length_pos_iff.2 n1).ne'
  have l2 : (xs2.length : ℝ) ≠ 0 := by exact_mod_cast (List.length_pos_iff.2 n2).ne'
  refine ⟨?_, div_ne_zero h1 l1, div_ne_zero h2 l2⟩
  unfold normal2Targets at hd
  rw [Props.Toys.npMean_eq n1, Props.Toys.npMean_eq n2] at hd
  have h' := hd.symm.trans (Props.Toys.read_numbers ops parse (.fin (1 / 10))
    [("x1", .fin (xs1.sum / xs1.length)), ("x2", .fin (xs2.sum / xs2.length))] (by simp))
  cases h'
  rfl

theorem measurable_gap (d1 d2 : ℝ) : Measurable (Props.LawsToy.gap d1 d2) := by
  unfold Props.LawsToy.gap
  fun_prop

/-! ## The property -/

/-- **C252**: the particles that rejection ABC collects for `Normal2` are independent, and each has the density of the
prior (the spread is gamma, the means are normal given the spread) times the chance that the means of `n` normal numbers are
within the threshold of the observed means, divided by the integral of this product. -/
theorem C252 {μ : Measure S} [IsProbabilityMeasure μ] {tools : Study String ℝ ℝ Unit S ℝ D} {F : S → ℝ × S}
    {H : ℝ × S → ℝ × S} {z : XR ℝ} (hi : Ideal μ tools.env F H z) (hr : tools.rng.Honest)
    {rvs : ℝ → ℝ → ℕ → S → Result (List ℝ) × S} {n : ℕ} {R : (ℝ × ℝ) × S → (Fin n → ℝ) × S} (ha : Arrays μ rvs n R)
    (hn : 0 < n) {parse : String → Result D} {xs1 xs2 : List ℝ} (h1 : xs1.sum ≠ 0) (h2 : xs2.sum ≠ 0)
    {data : Dict String (Target String ℝ D)} (hd : normal2Targets tools.env.ops parse xs1 xs2 = .ok data) (e : ℝ)
    {A : ι → Set (ℝ × ℝ × ℝ)} (hA : ∀ i, MeasurableSet (A i)) (parallel : Bool) (is : List ι) :
    Chance μ (fun s s' => ∃ post k, Ends (fun f => Abc.collect (normal2Study tools rvs n data).smcEnv.toSimEnv (.fin e) f
        parallel is.length) s (post, k) s' ∧
        List.Forall₂ (fun pt i => ∃ sd m1 m2, (Study.locus pt).get? "std" = some sd ∧ (Study.locus pt).get? "mu1" = some m1 ∧
          (Study.locus pt).get? "mu2" = some m2 ∧ (sd, m1, m2) ∈ A i) post is)
      ((is.map (fun i =>
        (∫⁻ x in A i, density x * near n
          {y | 196 / 5 * ((y.1 - xs1.sum / xs1.length) ^ 2 / (xs1.sum / xs1.length) +
            (y.2 - xs2.sum / xs2.length) ^ 2 / (xs2.sum / xs2.length)) ≤ e} x) /
        ∫⁻ x, density x * near n
          {y | 196 / 5 * ((y.1 - xs1.sum / xs1.length) ^ 2 / (xs1.sum / xs1.length) +
            (y.2 - xs2.sum / xs2.length) ^ 2 / (xs2.sum / xs2.length)) ≤ e} x)).prod) := by
  obtain ⟨rfl, k1, k2⟩ := data_eq h1 h2 hd
  set d1 := xs1.sum / xs1.length with hd1
  set d2 := xs2.sum / xs2.length with hd2
  have hacc : Acc d1 d2 (fun d => !XR.lt (.fin e) d) true = {y | 196 / 5 * ((y.1 - d1) ^ 2 / d1 + (y.2 - d2) ^ 2 / d2) ≤ e} := by
    ext y
    show (!XR.lt (.fin e) (.fin (Props.LawsToy.gap d1 d2 y))) = true ↔ Props.LawsToy.gap d1 d2 y ≤ e
    simp only [XR.lt, Bool.not_eq_true', decide_eq_false_iff_not, not_lt]
  have hC : MeasurableSet {y : ℝ × ℝ | 196 / 5 * ((y.1 - d1) ^ 2 / d1 + (y.2 - d2) ^ 2 / d2) ≤ e} :=
    measurableSet_le (measurable_gap d1 d2) measurable_const
  have hC' : MeasurableSet (Acc d1 d2 (fun d => !XR.lt (.fin e) d) true) := by rw [hacc]; exact hC
  have key := C244 (sound hi hr rvs n (Props.LawsToy.targets d1 d2)) (eps := .fin e) rfl
    (prior hi ha hn k1 k2 hC' (fun _ => 0))
    (fun i => {g | ∃ a b c, g "std" = some a ∧ g "mu1" = some b ∧ g "mu2" = some c ∧ (a, b, c) ∈ A i}) ?_ parallel is
  · simp only [set_eq, integral_eq hi ha hn hC' (hA _), integral_all hi ha hn hC'] at key
    rw [hacc] at key
    exact key
  · intro i
    rw [set_eq (A i)]
    exact measurable_triple (hA i)

theorem density_pos {x : ℝ × ℝ × ℝ} (h : 0 < x.1) : 0 < density x := by
  have h1 : 0 < gammaPDF (1 / 10) (1 / 10) x.1 := by
    rw [gammaPDF, ENNReal.ofReal_pos]
    exact gammaPDFReal_pos (by norm_num) (by norm_num) h
  exact ENNReal.mul_pos h1.ne' (ENNReal.mul_pos (gaussianPDF_pos 0 (var_ne h) _).ne' (gaussianPDF_pos 0 (var_ne h) _).ne').ne'

theorem near_le (n : ℕ) (C : Set (ℝ × ℝ)) (x : ℝ × ℝ × ℝ) : near n C x ≤ 1 := prob_le_one

theorem near_pos {n : ℕ} (hn : 0 < n) {C : Set (ℝ × ℝ)} (hC : (interior C).Nonempty) {x : ℝ × ℝ × ℝ} (h : 0 < x.1) :
    0 < near n C x := by
  have hv : var x.1 / (n : ℝ≥0) ≠ 0 := div_ne_zero (var_ne h) (by exact_mod_cast hn.ne')
  have := (gaussianReal_absolutelyContinuous' x.2.1 hv).isOpenPosMeasure
  have := (gaussianReal_absolutelyContinuous' x.2.2 hv).isOpenPosMeasure
  exact lt_of_lt_of_le (isOpen_interior.measure_pos _ hC) (measure_mono interior_subset)

/-- **C252** (termination): when the tolerance is positive, rejection ABC ends with probability one on `Normal2`, with the
number of particles asked for, and every particle has the three parameters, with a positive spread. -/
theorem C252_ends {μ : Measure S} [IsProbabilityMeasure μ] {tools : Study String ℝ ℝ Unit S ℝ D} {F : S → ℝ × S}
    {H : ℝ × S → ℝ × S} {z : XR ℝ} (hi : Ideal μ tools.env F H z) (hr : tools.rng.Honest)
    {rvs : ℝ → ℝ → ℕ → S → Result (List ℝ) × S} {n : ℕ} {R : (ℝ × ℝ) × S → (Fin n → ℝ) × S} (ha : Arrays μ rvs n R)
    (hn : 0 < n) {parse : String → Result D} {xs1 xs2 : List ℝ} (h1 : xs1.sum ≠ 0) (h2 : xs2.sum ≠ 0)
    {data : Dict String (Target String ℝ D)} (hd : normal2Targets tools.env.ops parse xs1 xs2 = .ok data) {e : ℝ} (he : 0 < e)
    (parallel : Bool) (m : ℕ) :
    Chance μ (fun s s' => ∃ post k, Ends (fun f => Abc.collect (normal2Study tools rvs n data).smcEnv.toSimEnv (.fin e) f
        parallel m) s (post, k) s' ∧ post.length = m ∧
        ∀ pt ∈ post, ∃ sd m1 m2, (Study.locus pt).get? "std" = some sd ∧ (Study.locus pt).get? "mu1" = some m1 ∧
          (Study.locus pt).get? "mu2" = some m2 ∧ 0 < sd) 1 := by
  have hP : MeasurableSet {x : ℝ × ℝ × ℝ | 0 < x.1} := measurableSet_lt measurable_const measurable_fst
  have key := C252 hi hr ha hn h1 h2 hd e (A := fun _ : Unit => {x : ℝ × ℝ × ℝ | 0 < x.1}) (fun _ => hP) parallel
    (List.replicate m ())
  set C := {y : ℝ × ℝ | 196 / 5 * ((y.1 - xs1.sum / xs1.length) ^ 2 / (xs1.sum / xs1.length) +
    (y.2 - xs2.sum / xs2.length) ^ 2 / (xs2.sum / xs2.length)) ≤ e} with hCdef
  have hmg := measurable_gap (xs1.sum / xs1.length) (xs2.sum / xs2.length)
  have hC : MeasurableSet C := measurableSet_le hmg measurable_const
  have hint : (interior C).Nonempty := by
    have ho : IsOpen {y : ℝ × ℝ | 196 / 5 * ((y.1 - xs1.sum / xs1.length) ^ 2 / (xs1.sum / xs1.length) +
        (y.2 - xs2.sum / xs2.length) ^ 2 / (xs2.sum / xs2.length)) < e} := isOpen_lt (by fun_prop) continuous_const
    have hs : {y : ℝ × ℝ | 196 / 5 * ((y.1 - xs1.sum / xs1.length) ^ 2 / (xs1.sum / xs1.length) +
        (y.2 - xs2.sum / xs2.length) ^ 2 / (xs2.sum / xs2.length)) < e} ⊆ C := by
      intro y hy
      exact le_of_lt (Set.mem_ofPred_eq ▸ hy)
    refine ⟨(xs1.sum / xs1.length, xs2.sum / xs2.length), interior_maximal hs ho ?_⟩
    rw [Set.mem_ofPred_eq]
    simpa using he
  have hm : Measurable (fun x => density x * chance n C (named x)) :=
    measurable_density.mul ((measurable_chance hi ha hn hC).comp measurable_named)
  simp only [density_chance] at hm
  have hpos : (∫⁻ x, density x * near n C x) ≠ 0 := by
    have hs : {x : ℝ × ℝ × ℝ | 0 < x.1} ⊆ Function.support (fun x => density x * near n C x) := fun x hx =>
      (ENNReal.mul_pos (density_pos hx).ne' (near_pos hn hint hx).ne').ne'
    have hv : 0 < volume {x : ℝ × ℝ × ℝ | 0 < x.1} :=
      (isOpen_lt continuous_const continuous_fst).measure_pos _ ⟨(1, 0, 0), by simp⟩
    exact ((lintegral_pos_iff_support hm).2 (lt_of_lt_of_le hv (measure_mono hs))).ne'
  have hfin : (∫⁻ x, density x * near n C x) ≠ ⊤ := by
    refine ne_top_of_le_ne_top ENNReal.one_ne_top ?_
    rw [← density_total]
    exact lintegral_mono (fun x => mul_le_of_le_one_right' (near_le n C x))
  have hall : (∫⁻ x in {x : ℝ × ℝ × ℝ | 0 < x.1}, density x * near n C x) = ∫⁻ x, density x * near n C x := by
    rw [← lintegral_indicator hP]
    refine lintegral_congr (fun x => ?_)
    by_cases hx : 0 < x.1
    · rw [Set.indicator_of_mem (by exact hx)]
    · rw [Set.indicator_of_notMem (by exact hx), density_zero hx, zero_mul]
  simp only [hall, ENNReal.div_self hpos hfin, List.map_const', List.prod_replicate, one_pow, List.length_replicate] at key
  refine key.congr (fun s s' => ?_)
  refine exists_congr (fun post => exists_congr (fun k => and_congr_right (fun _ => ?_)))
  rw [List.forall₂_iff_get]
  constructor
  · rintro ⟨hl, h⟩
    have hl' : post.length = m := by simpa using hl
    refine ⟨hl', fun pt hpt => ?_⟩
    obtain ⟨i, hi', rfl⟩ := List.mem_iff_getElem.1 hpt
    exact h i hi' (by simpa using hl' ▸ hi')
  · rintro ⟨hl, h⟩
    exact ⟨by simpa using hl, fun i h1 _ => h _ (List.getElem_mem h1)⟩

/-- **C252** (before the first adaptation): the particles that ABC-SMC begins with for `Normal2` are independent, and each
has the density of the prior. -/
theorem C252_first {μ : Measure S} [IsProbabilityMeasure μ] {tools : Study String ℝ ℝ Unit S ℝ D} {F : S → ℝ × S}
    {H : ℝ × S → ℝ × S} {z : XR ℝ} (hi : Ideal μ tools.env F H z) (hr : tools.rng.Honest)
    {rvs : ℝ → ℝ → ℕ → S → Result (List ℝ) × S} {n : ℕ} {R : (ℝ × ℝ) × S → (Fin n → ℝ) × S} (ha : Arrays μ rvs n R)
    (hn : 0 < n) {parse : String → Result D} {xs1 xs2 : List ℝ} (h1 : xs1.sum ≠ 0) (h2 : xs2.sum ≠ 0)
    {data : Dict String (Target String ℝ D)} (hd : normal2Targets tools.env.ops parse xs1 xs2 = .ok data) {set : SmcSettings ℝ}
    {A : ι → Set (ℝ × ℝ × ℝ)} (hA : ∀ i, MeasurableSet (A i)) (is : List ι) (hlen : is.length = set.nIter) (hne : is ≠ []) :
    Chance μ (fun s s' => ∃ st, Ends (fun f => Smc.initialise (normal2Study tools rvs n data).smcEnv set f none) s st s' ∧
        List.Forall₂ (fun pt i => ∃ sd m1 m2, (Study.locus pt.val).get? "std" = some sd ∧
          (Study.locus pt.val).get? "mu1" = some m1 ∧ (Study.locus pt.val).get? "mu2" = some m2 ∧ (sd, m1, m2) ∈ A i) st.pts is)
      ((is.map (fun i => ∫⁻ x in A i, density x)).prod) := by
  obtain ⟨rfl, k1, k2⟩ := data_eq h1 h2 hd
  have hacc : Acc (xs1.sum / xs1.length) (xs2.sum / xs2.length) (fun d => !d.isInf) true = Set.univ := by
    ext y
    simp [Acc, XR.isInf]
  have hC' : MeasurableSet (Acc (xs1.sum / xs1.length) (xs2.sum / xs2.length) (fun d => !d.isInf) true) := by
    rw [hacc]
    exact MeasurableSet.univ
  have key := C244_first (sound hi hr rvs n (Props.LawsToy.targets (xs1.sum / xs1.length) (xs2.sum / xs2.length))) (set := set)
    (prior hi ha hn k1 k2 hC' (fun _ => 0))
    (fun i => {g | ∃ a b c, g "std" = some a ∧ g "mu1" = some b ∧ g "mu2" = some c ∧ (a, b, c) ∈ A i}) ?_ is hlen hne
  · have hu : ∀ x, near n Set.univ x = 1 := fun x => by
      unfold near
      exact measure_univ
    simp only [set_eq, integral_eq hi ha hn hC' (hA _), integral_all hi ha hn hC'] at key
    rw [hacc] at key
    simp only [hu, mul_one, density_total, div_one] at key
    exact key
  · intro i
    rw [set_eq (A i)]
    exact measurable_triple (hA i)

/-! ## An example: a stream of gamma numbers and a stream of normal numbers -/

/-- Independent gamma numbers. -/
noncomputable def gstream : Measure (ℕ → ℝ) := Measure.infinitePi (fun _ => gammaMeasure (1 / 10) (1 / 10))

instance gprob : IsProbabilityMeasure (gammaMeasure (1 / 10) (1 / 10)) := isProbabilityMeasure_gammaMeasure (by norm_num) (by norm_num)

instance : IsProbabilityMeasure gstream := by unfold gstream; infer_instance

/-- Both streams. -/
noncomputable def both : Measure ((ℕ → ℝ) × (ℕ → ℝ)) := gstream.prod stream

instance : IsProbabilityMeasure both := by unfold both; infer_instance

/-- A number, or 1 if it is not positive. -/
noncomputable def pos (x : ℝ) : ℝ := if 0 < x then x else 1

/-- The next gamma number. -/
noncomputable def eF (s : (ℕ → ℝ) × (ℕ → ℝ)) : ℝ × ((ℕ → ℝ) × (ℕ → ℝ)) := (pos (s.1 0), (tail s.1, s.2))

/-- A normal number with this standard deviation. -/
noncomputable def eH (p : ℝ × ((ℕ → ℝ) × (ℕ → ℝ))) : ℝ × ((ℕ → ℝ) × (ℕ → ℝ)) := (p.1 * p.2.2 0, (p.2.1, tail p.2.2))

/-- Normal numbers with this mean and standard deviation. -/
noncomputable def eR : (n : ℕ) → (ℝ × ℝ) × ((ℕ → ℝ) × (ℕ → ℝ)) → (Fin n → ℝ) × ((ℕ → ℝ) × (ℕ → ℝ))
  | 0, p => (isEmptyElim, p.2)
  | n + 1, p =>
    (Fin.cons (p.1.1 + p.1.2 * p.2.2 0) (eR n (p.1, (p.2.1, tail p.2.2))).1, (eR n (p.1, (p.2.1, tail p.2.2))).2)

theorem measurable_pos : Measurable pos := Measurable.ite measurableSet_Ioi measurable_id measurable_const

theorem pos_law : (gammaMeasure (1 / 10) (1 / 10)).map pos = gammaMeasure (1 / 10) (1 / 10) := by
  have h : (gammaMeasure (1 / 10) (1 / 10)) {x : ℝ | ¬ 0 < x} = 0 := by
    have e : {x : ℝ | ¬ 0 < x} = Set.Iic 0 := by
      ext x
      simp
    rw [e, gammaMeasure, withDensity_apply _ measurableSet_Iic, ← restrict_Iio_eq_restrict_Iic]
    exact lintegral_gammaPDF_of_nonpos le_rfl
  have e : pos =ᵐ[gammaMeasure (1 / 10) (1 / 10)] id := by
    have h' : ∀ᵐ x ∂(gammaMeasure (1 / 10) (1 / 10)), 0 < x := h
    filter_upwards [h'] with x hx
    simp [pos, hx]
  rw [Measure.map_congr e, Measure.map_id]

/-- A number of the first stream. -/
theorem eF_law : both.map eF = (gammaMeasure (1 / 10) (1 / 10)).prod both := by
  have hs : gstream.map (fun s => (s 0, tail s)) = (gammaMeasure (1 / 10) (1 / 10)).prod gstream := split_stream _
  have hm : Measurable (fun s : ℕ → ℝ => (s 0, tail s)) := (measurable_pi_apply 0).prodMk measurable_tail
  have e : eF = (Prod.map pos id ∘ MeasurableEquiv.prodAssoc) ∘ Prod.map (fun s : ℕ → ℝ => (s 0, tail s)) id := rfl
  rw [e, ← Measure.map_map ((measurable_pos.prodMap measurable_id).comp MeasurableEquiv.prodAssoc.measurable)
    (hm.prodMap measurable_id), both, ← Measure.map_prod_map _ _ hm measurable_id, hs, Measure.map_id,
    ← Measure.map_map (measurable_pos.prodMap measurable_id) MeasurableEquiv.prodAssoc.measurable, Measure.prodAssoc_prod,
    ← Measure.map_prod_map _ _ measurable_pos measurable_id, pos_law, Measure.map_id]

/-- A function of the next number of the second stream. -/
theorem second_law {X : Type} [MeasurableSpace X] {f : ℝ → X} (hf : Measurable f) :
    both.map (fun s => (f (s.2 0), (s.1, tail s.2))) = ((gaussianReal 0 1).map f).prod both := by
  have hs : stream.map (fun s => (s 0, tail s)) = (gaussianReal 0 1).prod stream := split_stream _
  have hm : Measurable (fun s : ℕ → ℝ => (s 0, tail s)) := (measurable_pi_apply 0).prodMk measurable_tail
  have hsw : Measurable (fun p : (ℝ × (ℕ → ℝ)) × (ℕ → ℝ) => (p.1.1, (p.2, p.1.2))) := by fun_prop
  have e : (fun s : (ℕ → ℝ) × (ℕ → ℝ) => (f (s.2 0), (s.1, tail s.2))) =
      Prod.map f Prod.swap ∘ MeasurableEquiv.prodAssoc ∘ Prod.map (fun s : ℕ → ℝ => (s 0, tail s)) id ∘ Prod.swap := rfl
  have hA := (MeasurableEquiv.prodAssoc (α := ℝ) (β := ℕ → ℝ) (γ := ℕ → ℝ)).measurable
  have : IsProbabilityMeasure ((gaussianReal 0 1).map f) := Measure.isProbabilityMeasure_map hf.aemeasurable
  rw [e, ← Measure.map_map (hf.prodMap measurable_swap) (hA.comp ((hm.prodMap measurable_id).comp measurable_swap)),
    ← Measure.map_map hA ((hm.prodMap measurable_id).comp measurable_swap),
    ← Measure.map_map (hm.prodMap measurable_id) measurable_swap, both, Measure.prod_swap,
    ← Measure.map_prod_map _ _ hm measurable_id, hs, Measure.map_id, Measure.prodAssoc_prod,
    ← Measure.map_prod_map _ _ hf measurable_swap, Measure.prod_swap]

/-- The gamma distribution. -/
noncomputable def gDist : Dist ℝ ((ℕ → ℝ) × (ℕ → ℝ)) (XR ℝ) where
  sample := fun s => (.ok (eF s).1, (eF s).2)
  logpdf := fun v => .ok (lpStd .pinf v)

/-- A normal distribution. -/
noncomputable def nDist (sd : ℝ) : Dist ℝ ((ℕ → ℝ) × (ℕ → ℝ)) (XR ℝ) where
  sample := fun s => (.ok (eH (sd, s)).1, (eH (sd, s)).2)
  logpdf := fun v => .ok (lpMu sd v)

theorem gauss_scaled (m sd : ℝ) : (gaussianReal 0 1).map (fun x => m + sd * x) = gaussianReal m (var sd) := by
  have e : (fun x : ℝ => m + sd * x) = (fun x => m + x) ∘ (fun x => sd * x) := rfl
  have hv : (NNReal.mk (sd ^ 2) (sq_nonneg sd)) = var sd := by
    ext
    simp [var, sq_nonneg]
  rw [e, ← Measure.map_map (measurable_const_add m) (measurable_const_mul sd), gaussianReal_map_const_mul,
    gaussianReal_map_const_add, mul_zero, zero_add, mul_one, hv]

theorem measurable_eF : Measurable eF :=
  (measurable_pos.comp ((measurable_pi_apply 0).comp measurable_fst)).prodMk
    ((measurable_tail.comp measurable_fst).prodMk measurable_snd)

theorem measurable_rest : Measurable (fun s : (ℕ → ℝ) × (ℕ → ℝ) => (s.1, tail s.2)) :=
  measurable_fst.prodMk (measurable_tail.comp measurable_snd)

theorem measurable_first : Measurable (fun s : (ℕ → ℝ) × (ℕ → ℝ) => s.2 0) := (measurable_pi_apply 0).comp measurable_snd

theorem measurable_eH : Measurable eH :=
  (measurable_fst.mul (measurable_first.comp measurable_snd)).prodMk (measurable_rest.comp measurable_snd)

theorem eH_law (sd : ℝ) : both.map (fun s => eH (sd, s)) = (gaussianReal 0 (var sd)).prod both := by
  have h := second_law (f := fun x : ℝ => 0 + sd * x) (by fun_prop)
  rw [gauss_scaled 0 sd] at h
  simp only [zero_add] at h
  exact h

theorem measurable_fcons (n : ℕ) : Measurable (fun p : ℝ × (Fin n → ℝ) => (Fin.cons p.1 p.2 : Fin (n + 1) → ℝ)) := by
  refine measurable_pi_iff.2 (fun i => ?_)
  refine Fin.cases ?_ (fun j => ?_) i
  · exact measurable_fst
  · exact (measurable_pi_apply j).comp measurable_snd

theorem measurable_eR : ∀ n, Measurable (eR n)
  | 0 => measurable_const.prodMk measurable_snd
  | n + 1 => by
    have h1 : Measurable (fun p : (ℝ × ℝ) × ((ℕ → ℝ) × (ℕ → ℝ)) => (p.1, (p.2.1, tail p.2.2))) :=
      measurable_fst.prodMk (measurable_rest.comp measurable_snd)
    have h2 : Measurable (fun p : (ℝ × ℝ) × ((ℕ → ℝ) × (ℕ → ℝ)) => eR n (p.1, (p.2.1, tail p.2.2))) :=
      (measurable_eR n).comp h1
    have h3 : Measurable (fun p : (ℝ × ℝ) × ((ℕ → ℝ) × (ℕ → ℝ)) => p.1.1 + p.1.2 * p.2.2 0) :=
      (measurable_fst.comp measurable_fst).add
        ((measurable_snd.comp measurable_fst).mul (measurable_first.comp measurable_snd))
    exact ((measurable_fcons n).comp (h3.prodMk (measurable_fst.comp h2))).prodMk (measurable_snd.comp h2)

theorem cons_law (n : ℕ) (ρ : Measure ℝ) [IsProbabilityMeasure ρ] :
    (ρ.prod (Measure.pi (fun _ : Fin n => ρ))).map (fun p => (Fin.cons p.1 p.2 : Fin (n + 1) → ℝ)) =
      Measure.pi (fun _ : Fin (n + 1) => ρ) := by
  have h := (measurePreserving_piFinSuccAbove (fun _ : Fin (n + 1) => ρ) 0).symm
  have e : (fun p : ℝ × (Fin n → ℝ) => (Fin.cons p.1 p.2 : Fin (n + 1) → ℝ)) =
      (MeasurableEquiv.piFinSuccAbove (fun _ : Fin (n + 1) => ℝ) 0).symm := by
    funext p
    exact (Fin.insertNth_zero' _ _).symm
  rw [e]
  exact h.map_eq

theorem eR_law (m sd : ℝ) : ∀ n, both.map (fun s => eR n ((m, sd), s)) =
    (Measure.pi (fun _ : Fin n => gaussianReal m (var sd))).prod both
  | 0 => by
    rw [Measure.pi_of_empty, Measure.dirac_prod]
    rfl
  | n + 1 => by
    have ih := eR_law m sd n
    have hR : Measurable (fun s => eR n ((m, sd), s)) := (measurable_eR n).comp measurable_prodMk_left
    have hl := second_law (f := fun x : ℝ => m + sd * x) (by fun_prop)
    rw [gauss_scaled m sd] at hl
    have hf : Measurable (fun s : (ℕ → ℝ) × (ℕ → ℝ) => (m + sd * s.2 0, (s.1, tail s.2))) :=
      ((measurable_first.const_mul sd).const_add m).prodMk measurable_rest
    have e : (fun s => eR (n + 1) ((m, sd), s)) = (Prod.map (fun p : ℝ × (Fin n → ℝ) => (Fin.cons p.1 p.2 : Fin (n + 1) → ℝ)) id ∘
        MeasurableEquiv.prodAssoc.symm) ∘ Prod.map id (fun s => eR n ((m, sd), s)) ∘
        (fun s : (ℕ → ℝ) × (ℕ → ℝ) => (m + sd * s.2 0, (s.1, tail s.2))) := rfl
    have hA := (MeasurableEquiv.prodAssoc (α := ℝ) (β := Fin n → ℝ) (γ := (ℕ → ℝ) × (ℕ → ℝ))).symm.measurable
    have hc := (measurable_fcons n).prodMap (measurable_id (α := (ℕ → ℝ) × (ℕ → ℝ)))
    have hs : (((gaussianReal m (var sd)).prod ((Measure.pi (fun _ : Fin n => gaussianReal m (var sd))).prod both))).map
        MeasurableEquiv.prodAssoc.symm = ((gaussianReal m (var sd)).prod (Measure.pi (fun _ : Fin n => gaussianReal m (var sd)))).prod both := by
      rw [← Measure.prodAssoc_prod, Measure.map_map hA MeasurableEquiv.prodAssoc.measurable]
      simp
    rw [e, ← Measure.map_map (hc.comp hA) ((measurable_id.prodMap hR).comp hf),
      ← Measure.map_map (measurable_id.prodMap hR) hf, hl, ← Measure.map_prod_map _ _ measurable_id hR, ih, Measure.map_id,
      ← Measure.map_map hc hA, hs, ← Measure.map_prod_map _ _ (measurable_fcons n) measurable_id, cons_law, Measure.map_id]

/-- What a description with these arguments amounts to: 0 for the gamma distribution, the standard deviation for a normal
one, -1 if that is not positive. -/
noncomputable def describe : List (String × Result ℝ) → Result ℝ
  | [("shape", .ok _), ("rate", .ok _)] => .ok 0
  | [("mean", .ok _), ("sd", .ok b)] => .ok (if 0 < b then b else -1)
  | _ => .error .TypeError

/-- Numbers, the gamma distribution and normal distributions. -/
noncomputable def eSem : Sem String ℝ ℝ Unit ((ℕ → ℝ) × (ℕ → ℝ)) (XR ℝ) where
  const := id
  op := fun _ _ => .error .TypeError
  call := fun _ _ ks => describe ks
  math := fun _ => none
  creators := fun f => if f = "gamma" ∨ f = "norm" then some 0 else none
  create := fun m => if m = 0 then .ok gDist else if 0 < m then .ok (nDist m) else .error .ValidationError
  schema := fun f => if f = "gamma" then some [("shape", none), ("rate", none)] else
    if f = "norm" then some [("mean", none), ("sd", none)] else none
  reparse := .const
  reload := .ok

/-- Choices for the example: the first index of positive probability. -/
noncomputable def eRand : Rand ((ℕ → ℝ) × (ℕ → ℝ)) ℝ where
  random := fun s => (1 / 2, s)
  pick := fun p n s => (List.replicate n (p.findIdx (fun w => XR.lt (.fin 0) w)), s)

theorem eRand_honest : eRand.Honest where
  random := fun s => ⟨by norm_num [eRand], by norm_num [eRand]⟩
  size := fun p n s _ => by simp [eRand]
  support := by
    intro p n s hv i hi
    obtain ⟨w, hw, hpos⟩ := Lemmas.exists_pos_of_valid p hv
    have hlt : p.findIdx (fun w => XR.lt (.fin 0) w) < p.length := List.findIdx_lt_length.2 ⟨w, hw, hpos⟩
    simp only [eRand, List.mem_replicate] at hi
    rw [hi.2]
    exact ⟨_, List.getElem?_eq_getElem hlt, List.findIdx_getElem⟩

/-- What the example supplies besides the model. -/
noncomputable def eTools : Study String ℝ ℝ Unit ((ℕ → ℝ) × (ℕ → ℝ)) ℝ Unit where
  env := {
    sem := eSem
    ops := ⟨fun _ => 0, fun _ => .fin 1, fun _ x => x⟩
    isFloat := fun _ => true
    support := fun _ => .ok (.fin 0, .pinf, .fin 1, .fin 1) }
  model := normal2Model []
  simulate := fun _ s => (.ok [], s)
  isNone := fun _ => false
  ops := ⟨fun _ => .error .TypeError, fun _ _ => .error .TypeError⟩
  normal := fun sd s => (sd, s)
  sqrt := id
  rng := eRand

theorem eGamma {g : String → Option ℝ} (hn : g "gamma" = none) :
    getDistribution eSem gammaTenth g = .ok gDist := by
  have h1 : parseDistribution eSem gammaTenth g = .ok gDist := by
    have e : getBlueprint eSem gammaTenth g = .ok 0 := by
      have hc : completeDef eSem gammaTenth = .ok gammaTenth := by
        simp [completeDef, gammaTenth, Kws.ofList, Expr.size, Args.size, Kws.size, firstCall, eSem, Kws.toList, Args.toList]
      unfold getBlueprint
      rw [hc]
      show gammaTenth.eval eSem eSem.creators g = _
      simp [gammaTenth, Kws.ofList, Expr.eval, Kws.eval, lookup, hn, eSem, describe]
    unfold parseDistribution
    rw [e]
    show (if (0 : ℝ) = 0 then Except.ok gDist else _) = _
    rw [if_pos rfl]
  unfold getDistribution
  rw [h1]

theorem eNorm {g : String → Option ℝ} {sd : ℝ} (hn : g "norm" = none) (hg : g "std" = some sd) :
    getDistribution eSem normStd g = if 0 < sd then .ok (nDist sd) else .error .ValidationError := by
  have h1 : parseDistribution eSem normStd g = if 0 < sd then .ok (nDist sd) else .error .ValidationError := by
    have e : getBlueprint eSem normStd g = .ok (if 0 < sd then sd else -1) := by
      have hc : completeDef eSem normStd = .ok normStd := by
        simp [completeDef, normStd, Kws.ofList, Expr.size, Args.size, Kws.size, firstCall, eSem, Kws.toList, Args.toList]
      unfold getBlueprint
      rw [hc]
      show normStd.eval eSem eSem.creators g = _
      simp [normStd, Kws.ofList, Expr.eval, Kws.eval, lookup, hn, hg, eSem, describe]
    unfold parseDistribution
    rw [e]
    by_cases h : 0 < sd
    · simp only [if_pos h]
      show (if sd = 0 then Except.ok gDist else if 0 < sd then Except.ok (nDist sd) else Except.error Err.ValidationError) = _
      rw [if_neg h.ne', if_pos h]
    · simp only [if_neg h]
      show (if (-1 : ℝ) = 0 then Except.ok gDist else if 0 < (-1 : ℝ) then Except.ok (nDist (-1)) else Except.error Err.ValidationError) = _
      rw [if_neg (by norm_num), if_neg (by norm_num)]
  unfold getDistribution
  rw [h1]
  by_cases h : 0 < sd
  · simp only [if_pos h]
  · simp only [if_neg h]

theorem pos_pos (x : ℝ) : 0 < pos x := by
  unfold pos
  split
  · assumption
  · exact one_pos

theorem eIdeal : Ideal both eTools.env eF eH .pinf where
  closed := fun _ => rfl
  gamma := fun g hn => ⟨gDist, eGamma hn, fun _ => rfl, fun _ => rfl, _, rfl⟩
  norm := fun g sd hn hg h => ⟨nDist sd, (eNorm hn hg).trans (if_pos h), fun _ => rfl, fun _ => rfl⟩
  refuse := fun g sd hn hg h => (eNorm hn hg).trans (if_neg h)
  positive := fun s => pos_pos _
  measurable_gamma := measurable_eF
  measurable_norm := measurable_eH
  gamma_law := eF_law
  norm_law := fun sd _ => eH_law sd

/-- Arrays of normal numbers from the second stream. -/
noncomputable def eRvs (m sd : ℝ) (n : ℕ) (s : (ℕ → ℝ) × (ℕ → ℝ)) : Result (List ℝ) × ((ℕ → ℝ) × (ℕ → ℝ)) :=
  if sd < 0 then (.error .ValueError, s) else (.ok (List.ofFn (eR n ((m, sd), s)).1), (eR n ((m, sd), s)).2)

theorem eArrays (n : ℕ) : Arrays both eRvs n (eR n) where
  drawn := fun m sd s h => if_neg (not_lt.2 h)
  refuse := fun m sd s h => ⟨.ValueError, if_pos h⟩
  measurable := measurable_eR n
  law := fun m sd _ => eR_law m sd n

example {data : Dict String (Target String ℝ Unit)}
    (hd : normal2Targets eTools.env.ops (fun _ => .error .SyntaxError) [1, 2] [3, 5] = .ok data) :
    Chance both (fun s s' => ∃ post k, Ends (fun f => Abc.collect (normal2Study eTools eRvs 10 data).smcEnv.toSimEnv (.fin 2) f
        false 2) s (post, k) s' ∧
        List.Forall₂ (fun pt i => ∃ sd m1 m2, (Study.locus pt).get? "std" = some sd ∧ (Study.locus pt).get? "mu1" = some m1 ∧
          (Study.locus pt).get? "mu2" = some m2 ∧ (sd, m1, m2) ∈ (Set.univ ×ˢ Set.Iic i ×ˢ Set.univ : Set (ℝ × ℝ × ℝ)))
          post [(1 : ℝ), 2])
      (([(1 : ℝ), 2].map (fun i =>
        (∫⁻ x in (Set.univ ×ˢ Set.Iic i ×ˢ Set.univ : Set (ℝ × ℝ × ℝ)), density x * near 10
          {y | 196 / 5 * ((y.1 - ([1, 2] : List ℝ).sum / ([1, 2] : List ℝ).length) ^ 2 /
              (([1, 2] : List ℝ).sum / ([1, 2] : List ℝ).length) +
            (y.2 - ([3, 5] : List ℝ).sum / ([3, 5] : List ℝ).length) ^ 2 /
              (([3, 5] : List ℝ).sum / ([3, 5] : List ℝ).length)) ≤ 2} x) /
        ∫⁻ x, density x * near 10
          {y | 196 / 5 * ((y.1 - ([1, 2] : List ℝ).sum / ([1, 2] : List ℝ).length) ^ 2 /
              (([1, 2] : List ℝ).sum / ([1, 2] : List ℝ).length) +
            (y.2 - ([3, 5] : List ℝ).sum / ([3, 5] : List ℝ).length) ^ 2 /
              (([3, 5] : List ℝ).sum / ([3, 5] : List ℝ).length)) ≤ 2} x)).prod) :=
  C252 eIdeal eRand_honest (eArrays 10) (by norm_num) (by norm_num) (by norm_num) hd 2
    (A := fun i : ℝ => Set.univ ×ˢ Set.Iic i ×ˢ Set.univ)
    (fun i => MeasurableSet.univ.prod (measurableSet_Iic.prod MeasurableSet.univ)) false [1, 2]

/-- Ten particles at a tolerance of 1/10. -/
example {data : Dict String (Target String ℝ Unit)}
    (hd : normal2Targets eTools.env.ops (fun _ => .error .SyntaxError) [1, 2] [3, 5] = .ok data) :
    Chance both (fun s s' => ∃ post k, Ends (fun f => Abc.collect (normal2Study eTools eRvs 10 data).smcEnv.toSimEnv
        (.fin (1 / 10)) f true 10) s (post, k) s' ∧ post.length = 10 ∧
        ∀ pt ∈ post, ∃ sd m1 m2, (Study.locus pt).get? "std" = some sd ∧ (Study.locus pt).get? "mu1" = some m1 ∧
          (Study.locus pt).get? "mu2" = some m2 ∧ 0 < sd) 1 :=
  C252_ends eIdeal eRand_honest (eArrays 10) (by norm_num) (by norm_num) (by norm_num) hd (by norm_num) true 10

/-- There are such data. -/
example : ∃ data, normal2Targets eTools.env.ops (fun _ => .error .SyntaxError) [1, 2] [3, 5] = .ok data := ⟨_, rfl⟩

example {data : Dict String (Target String ℝ Unit)} {set : SmcSettings ℝ} (h2 : set.nIter = 2)
    (hd : normal2Targets eTools.env.ops (fun _ => .error .SyntaxError) [1, 2] [3, 5] = .ok data) :
    Chance both (fun s s' => ∃ st, Ends (fun f => Smc.initialise (normal2Study eTools eRvs 10 data).smcEnv set f none) s st s' ∧
        List.Forall₂ (fun pt i => ∃ sd m1 m2, (Study.locus pt.val).get? "std" = some sd ∧
          (Study.locus pt.val).get? "mu1" = some m1 ∧ (Study.locus pt.val).get? "mu2" = some m2 ∧
          (sd, m1, m2) ∈ (Set.univ ×ˢ Set.Iic i ×ˢ Set.univ : Set (ℝ × ℝ × ℝ))) st.pts [(1 : ℝ), 2])
      (([(1 : ℝ), 2].map (fun i => ∫⁻ x in (Set.univ ×ˢ Set.Iic i ×ˢ Set.univ : Set (ℝ × ℝ × ℝ)), density x)).prod) :=
  C252_first eIdeal eRand_honest (eArrays 10) (by norm_num) (by norm_num) (by norm_num) hd
    (A := fun i : ℝ => Set.univ ×ˢ Set.Iic i ×ˢ Set.univ)
    (fun i => MeasurableSet.univ.prod (measurableSet_Iic.prod MeasurableSet.univ)) [1, 2] (by simp [h2]) (by simp)

end Props.LawsNormal
