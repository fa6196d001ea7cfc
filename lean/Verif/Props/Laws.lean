import Verif.Lemmas.Chance
import Verif.Props.Sampling

/-!
# The law of what is drawn from a network: C199

The generator is ideal in the sense of `Spec.Chance`.  The variables are discrete: `logpdf` is the log of a probability.
-/

namespace Props.Laws

set_option linter.unusedSectionVars false

open Py Spec Relation Model Model.Digraph Model.BN Props.BN Props.Sampling MeasureTheory

variable {N V C O S : Type} [DecidableEq N] [MeasurableSpace S]

/-! ## C199 -/

/-- A distribution object draws every value with the probability whose log is its `logpdf`; values that it refuses are
never drawn. -/
def Fair (μ : Measure S) (d : Dist V S (XR ℝ)) : Prop :=
  ∀ v, (∀ l, d.logpdf v = .ok l → Chance μ (fun s s' => d.sample s = (.ok v, s')) (expX l)) ∧
    (d.logpdf v = .error .ValidationError → Chance μ (fun s s' => d.sample s = (.ok v, s')) 0)

/-- An assignment that agrees with what is given and with the definitions that leave nothing to chance. -/
structure Outcome (sem : Sem N V C O S (XR ℝ)) (bn : BN N V C O) (cond r : Dict N V) : Prop where
  wf : r.WF
  keys : ∀ x, x ∈ r.keys ↔ x ∈ cond.keys ∨ x ∈ bn.dag.nodes
  given : ∀ x v, cond.get? x = some v → r.get? x = some v
  fixed : ∀ x l, bn.loci.get? x = some l → x ∉ cond.keys → l.isDist = false →
    ∃ v, r.get? x = some v ∧ ∀ s, l.render sem r.get? s = (.ok v, s)

theorem same_of {d r : Dict N V} (h1 : ∀ y w, d.get? y = some w → r.get? y = some w)
    (h2 : ∀ y, y ∈ r.keys → y ∈ d.keys) (y : N) : d.get? y = r.get? y := by
  cases h : d.get? y with
  | some w => exact (h1 y w h).symm
  | none =>
    refine ((Dict.get?_eq_none_iff _ _).2 (fun hy => ?_)).symm
    exact (Dict.get?_eq_none_iff _ _).1 h (h2 y hy)

/-- The chance that a node adds: that of the log density of a random variable that is drawn, else 1. -/
structure Part (sem : Sem N V C O S (XR ℝ)) (bn : BN N V C O) (cond r : Dict N V) (ch : N → ENNReal) : Prop where
  drawn : ∀ x, bn.Rv x → x ∉ cond.keys → ∃ l, LogDensity sem bn r x l ∧ ch x = expX l
  else1 : ∀ x, ¬ bn.Rv x ∨ x ∈ cond.keys → ch x = 1

theorem step_chance {μ : Measure S} (sem : Sem N V C O S (XR ℝ)) {bn : BN N V C O}
    {cond r : Dict N V} (ho : Outcome sem bn cond r)
    (hf : ∀ x n f ps d, bn.loci.get? x = some (.dist n f ps) → getDistribution sem f r.get? = .ok d → Fair μ d)
    {ch : N → ENNReal} (hp : Part sem bn cond r ch) {x : N} {l : Loci N V C O} (hl : bn.loci.get? x = some l)
    (hx : x ∉ cond.keys) {v : V} (hv : r.get? x = some v) :
    Chance μ (fun s s' => l.render sem r.get? s = (.ok v, s')) (ch x) := by
  cases hi : l.isDist with
  | false =>
    obtain ⟨w, hw', hr⟩ := ho.fixed x l hl hx hi
    rw [hv] at hw'
    cases hw'
    rw [hp.else1 x (Or.inl (by rintro ⟨l', hl', h⟩; rw [hl] at hl'; cases hl'; rw [hi] at h; cases h))]
    exact Chance.refl.congr (fun s s' => by rw [hr s]; simp)
  | true =>
    obtain ⟨k, ⟨n, f, ps, v', hl', hv', hd⟩, hk⟩ := hp.drawn x ⟨l, hl, hi⟩ hx
    rw [hl] at hl'
    cases hl'
    rw [hv] at hv'
    cases hv'
    rw [hk]
    rcases hd with ⟨d, hg, hd⟩ | ⟨hg, h0⟩
    · have hfd := hf x n f ps d hl hg v
      have e : ∀ s, Loci.render sem (.dist n f ps) r.get? s = d.sample s := by
        intro s; simp only [Loci.render, hg]
      rcases hd with hd | ⟨hd, h0⟩
      · exact (hfd.1 _ hd).congr (fun s s' => by rw [e])
      · rw [h0]
        exact (hfd.2 hd).congr (fun s s' => by rw [e])
    · rw [h0]
      refine Chance.never (fun s s' h => ?_)
      simp only [Loci.render, hg] at h
      cases h

theorem loop_chance {μ : Measure S} (sem : Sem N V C O S (XR ℝ)) (hcl : ∀ c, (sem.reparse c).names = [])
    {bn : BN N V C O} (hw : bn.Well) {cond r : Dict N V} (hns : NoShadow bn cond.keys) (ho : Outcome sem bn cond r)
    (hs : ∀ x, Exogenous bn x → x ∈ cond.keys)
    (hf : ∀ x n f ps d, bn.loci.get? x = some (.dist n f ps) → getDistribution sem f r.get? = .ok d → Fair μ d)
    {ch : N → ENNReal} (hp : Part sem bn cond r ch)
    {od : List N} (ht : TopologicalOrder (· ∈ bn.dag.nodes) bn.dag.E od) :
    ∀ (xs pre : List N) (res : Dict N V), od = pre ++ xs → (∀ y w, res.get? y = some w → r.get? y = some w) →
      (∀ y, y ∈ res.keys ↔ y ∈ cond.keys ∨ y ∈ pre) →
      Chance μ (fun s s' => ∃ r', sampleLoop sem bn (fun _ => true) xs res s = (.ok r', s') ∧
        ∀ y, r'.get? y = r.get? y) ((xs.map ch).prod) := by
  intro xs
  induction xs with
  | nil =>
    intro pre res e h1 h2
    refine Chance.refl.congr (fun s s' => ?_)
    simp only [sampleLoop]
    constructor
    · rintro rfl
      refine ⟨res, rfl, same_of h1 (fun y hy => ?_)⟩
      rw [h2]
      rcases (ho.keys y).1 hy with h | h
      · exact Or.inl h
      · right
        have := (ht.complete y).2 h
        rw [e] at this
        simpa using this
    · rintro ⟨r', h, -⟩
      simp only [Prod.mk.injEq] at h
      exact h.2
  | cons x xs ih =>
    intro pre res e h1 h2
    have e' : od = (pre ++ [x]) ++ xs := by rw [e]; simp
    have hxn : x ∈ bn.dag.nodes := (ht.complete x).1 (by rw [e]; simp)
    have hxp : x ∉ pre := by
      have := ht.nodup
      rw [e, List.nodup_append] at this
      exact fun hh => this.2.2 x hh x (by simp) rfl
    obtain ⟨l, hl⟩ := (hw.defined x).2 hxn
    have hxr : x ∈ r.keys := (ho.keys x).2 (Or.inr hxn)
    obtain ⟨v, hv⟩ := (Dict.mem_keys_iff_exists _ _).1 hxr
    rw [List.map_cons, List.prod_cons]
    by_cases hx : x ∈ cond.keys
    · have hres : x ∈ res.keys := (h2 x).2 (Or.inl hx)
      rw [hp.else1 x (Or.inr hx), one_mul]
      refine (ih (pre ++ [x]) res e' h1 ?_).congr (fun s s' => ?_)
      · intro y
        rw [h2]
        constructor
        · rintro (h | h)
          · exact Or.inl h
          · exact Or.inr (by simp [h])
        · rintro (h | h)
          · exact Or.inl h
          · rcases List.mem_append.1 h with h | h
            · exact Or.inr h
            · rw [List.mem_singleton.1 h]; exact Or.inl hx
      · simp only [sampleLoop]
        rw [if_neg]
        simpa using hres
    · have hres : x ∉ res.keys := fun h => ((h2 x).1 h).elim hx hxp
      have hfin : ∀ s, l.render sem res.get? s = l.render sem r.get? s := by
        intro s
        refine render_final sem hcl hns hl (fun hh => hx (hs x hh)) h1 ?_ ?_ s
        · intro p hp
          exact (h2 p).2 (Or.inr (ht.parentsFirst pre x xs e p ((hw.edges p x).2 ⟨l, hl, hp⟩)))
        · intro k hk
          exact (ho.keys k).1 hk
      have hstep := step_chance sem ho hf hp hl hx hv
      have hrest := ih (pre ++ [x]) (res.set x v) e' (by
        intro y w hy
        rw [Dict.get?_set] at hy
        split at hy
        · rename_i h
          subst h
          cases hy
          exact hv
        · exact h1 y w hy) (by
        intro y
        rw [Dict.mem_keys_set, h2]
        constructor
        · rintro (rfl | h | h)
          · exact Or.inr (by simp)
          · exact Or.inl h
          · exact Or.inr (by simp [h])
        · rintro (h | h)
          · exact Or.inr (Or.inl h)
          · rcases List.mem_append.1 h with h | h
            · exact Or.inr (Or.inr h)
            · exact Or.inl (List.mem_singleton.1 h))
      refine (hstep.comp hrest).congr (fun s s' => ?_)
      simp only [sampleLoop]
      rw [if_pos (by simpa using hres), get_ok hl]
      simp only [hfin s]
      constructor
      · rintro ⟨m, h3, r', h4, h5⟩
        rw [h3]
        exact ⟨r', h4, h5⟩
      · rintro ⟨r', h4, h5⟩
        rcases hre : l.render sem r.get? s with ⟨o, m⟩
        rw [hre] at h4
        cases o with
        | error err => cases h4
        | ok w =>
          simp only at h4
          have hw' := (sampleLoop_ok sem bn _ _ h4).2.1 x w (Dict.get?_set_self _ _ _)
          rw [h5, hv] at hw'
          cases hw'
          exact ⟨m, rfl, r', h4, h5⟩

theorem sample_part {μ : Measure S} (sem : Sem N V C O S (XR ℝ)) (hcl : ∀ c, (sem.reparse c).names = [])
    {bn : BN N V C O} (hr : Ready bn) {cond r : Dict N V} (hns : NoShadow bn cond.keys)
    (hs : ∀ x, Exogenous bn x → x ∈ cond.keys)
    (hf : ∀ x n f ps d, bn.loci.get? x = some (.dist n f ps) → getDistribution sem f r.get? = .ok d → Fair μ d)
    (ho : Outcome sem bn cond r) {ch : N → ENNReal} (hp : Part sem bn cond r ch) :
    ∃ od : List N, od.Nodup ∧ (∀ x, x ∈ od ↔ x ∈ bn.dag.nodes) ∧
      Chance μ (fun s s' => ∃ r', sample sem bn cond s = (.ok r', s') ∧ ∀ x, r'.get? x = r.get? x)
        ((od.map ch).prod) := by
  obtain ⟨od, ht, heq⟩ := sample_supplied sem hr hs
  refine ⟨od, ht.nodup, ht.complete, ?_⟩
  have hl := loop_chance sem hcl hr.facts.1 hns ho hs hf hp ht od [] cond rfl ho.given (by simp)
  exact hl.congr (fun s s' => by rw [heq s])

theorem prod_filter_of_one {ch : N → ENNReal} (f : N → Bool) (l : List N) (h : ∀ x ∈ l, f x = false → ch x = 1) :
    (l.map ch).prod = ((l.filter f).map ch).prod := by
  induction l with
  | nil => rfl
  | cons a l ih =>
    have ih := ih (fun x hx => h x (by simp [hx]))
    cases hf : f a with
    | true => simp [hf, ih]
    | false => simp [hf, ih, h a (by simp) hf]

/-- **C200** (the law of `sample`): an assignment is drawn with the product of the probabilities of the random variables
that are not given, each with the parameters that the assignment itself gives its parents; what is given has no effect
on the probabilities of the variables above it. -/
theorem C200_law {μ : Measure S} (sem : Sem N V C O S (XR ℝ)) (hcl : ∀ c, (sem.reparse c).names = [])
    {bn : BN N V C O} (hr : Ready bn) {cond r : Dict N V} (hns : NoShadow bn cond.keys)
    (hs : ∀ x, Exogenous bn x → x ∈ cond.keys)
    (hf : ∀ x n f ps d, bn.loci.get? x = some (.dist n f ps) → getDistribution sem f r.get? = .ok d → Fair μ d)
    (ho : Outcome sem bn cond r) {drawn : List N} (hn : drawn.Nodup)
    (hd : ∀ x, x ∈ drawn ↔ bn.Rv x ∧ x ∉ cond.keys) {lp : N → XR ℝ}
    (hlp : ∀ x ∈ drawn, LogDensity sem bn r x (lp x)) :
    Chance μ (fun s s' => ∃ r', sample sem bn cond s = (.ok r', s') ∧ ∀ x, r'.get? x = r.get? x)
      ((drawn.map (fun x => expX (lp x))).prod) := by
  obtain ⟨od, h1, h2, h3⟩ := sample_part sem hcl hr hns hs hf ho (ch := fun x => if x ∈ drawn then expX (lp x) else 1)
    ⟨fun x h h' => ⟨lp x, hlp x ((hd x).2 ⟨h, h'⟩), by simp [(hd x).2 ⟨h, h'⟩]⟩, fun x h => if_neg (fun hx => by
      obtain ⟨h3, h4⟩ := (hd x).1 hx
      exact h.elim (fun h => h h3) (fun h => h4 h))⟩
  rw [prod_filter_of_one (fun x => x ∈ drawn) od (fun x _ h => if_neg (by simpa using h))] at h3
  have hperm : (od.filter (fun x => x ∈ drawn)).Perm drawn := by
    refine (List.perm_ext_iff_of_nodup (h1.filter _) hn).2 (fun x => ?_)
    rw [List.mem_filter, h2]
    constructor
    · rintro ⟨-, h⟩; simpa using h
    · intro h
      obtain ⟨l, hl, -⟩ := ((hd x).1 h).1
      exact ⟨(hr.facts.1.defined x).1 ⟨l, hl⟩, by simpa using h⟩
  rw [(hperm.map _).prod_eq] at h3
  have e : drawn.map (fun x => if x ∈ drawn then expX (lp x) else 1) = drawn.map (fun x => expX (lp x)) :=
    List.map_congr_left (fun x hx => if_pos hx)
  rw [e] at h3
  exact h3

/-- **C199**: without given random variables, `sample` draws an assignment with the probability whose log
`evaluate_nodes` reports for it; the state that the generator is left in is as random as before. -/
theorem C199 {μ : Measure S} (sem : Sem N V C O S (XR ℝ)) (hcl : ∀ c, (sem.reparse c).names = [])
    {bn : BN N V C O} (hr : Ready bn) {cond r : Dict N V} (hns : NoShadow bn cond.keys)
    (hs : ∀ x, Exogenous bn x → x ∈ cond.keys) (hc : ∀ x ∈ cond.keys, ¬ bn.Rv x)
    (hf : ∀ x n f ps d, bn.loci.get? x = some (.dist n f ps) → getDistribution sem f r.get? = .ok d → Fair μ d)
    (ho : Outcome sem bn cond r) {lp : XR ℝ} (he : evaluateNodes sem bn r = .ok lp) :
    Chance μ (fun s s' => ∃ r', sample sem bn cond s = (.ok r', s') ∧ ∀ x, r'.get? x = r.get? x) (expX lp) := by
  obtain ⟨rvs, d, h1, h2, h3, h4, h5⟩ := C26_sum sem hr ho.wf he
  have h := C200_law sem hcl hr hns hs hf ho h1 (fun x => (h2 x).trans (and_congr_right (fun hx => by
    obtain ⟨l, hl, -⟩ := id hx
    exact ⟨fun _ h => hc x h hx, fun _ => (ho.keys x).2 (Or.inr ((hr.facts.1.defined x).1 ⟨l, hl⟩))⟩))) h3
  have e : expX lp = expX ((rvs.map d).sum) := by
    by_cases hh : (rvs.map d).sum = .nan
    · rw [h4 hh, hh]; rfl
    · rw [h5 hh]
  rw [e, expX_sum, List.map_map]
  exact h

/-- **C199** (chromosomes): a chromosome is drawn with the probability whose log it carries. -/
theorem C199_chromosome {μ : Measure S} (sem : Sem N V C O S (XR ℝ)) (hcl : ∀ c, (sem.reparse c).names = [])
    {bn : BN N V C O} (hr : Ready bn) {cond r : Dict N V} (hcw : cond.WF) (hns : NoShadow bn cond.keys)
    (hs : ∀ x, Exogenous bn x → x ∈ cond.keys) (hc : ∀ x ∈ cond.keys, ¬ bn.Rv x)
    (hf : ∀ x n f ps d, bn.loci.get? x = some (.dist n f ps) → getDistribution sem f r.get? = .ok d → Fair μ d)
    (ho : Outcome sem bn cond r) {lp : XR ℝ} (he : evaluateNodes sem bn r = .ok lp) :
    Chance μ (fun s s' => ∃ ch, sampleChromosome sem bn cond s = (.ok ch, s') ∧ (∀ x, ch.locus.get? x = r.get? x) ∧
      ch.logProb = lp) (expX lp) := by
  refine (C199 sem hcl hr hns hs hc hf ho he).congr (fun s s' => ?_)
  constructor
  · rintro ⟨r', h1, h2⟩
    have hwf : r'.WF := by
      obtain ⟨od, -, heq⟩ := sample_supplied sem hr hs
      rw [heq s] at h1
      exact (sampleLoop_ok sem bn _ _ h1).2.2.1 hcw
    have h3 := (C26_order sem bn hwf ho.wf h2 lp).2 he
    exact ⟨⟨r', lp⟩, (C27_chromosome sem bn cond s s' _).2 ⟨r', h1, rfl, h3⟩, h2, rfl⟩
  · rintro ⟨ch, h1, h2, -⟩
    obtain ⟨r', h3, h4, -⟩ := (C27_chromosome sem bn cond s s' _).1 h1
    exact ⟨r', h3, fun x => by rw [← h4]; exact h2 x⟩

/-! ## An example: two coins -/

/-- A coin with the probability `k / 4` of 1, which moves an ideal generator. -/
noncomputable def bern (k : Int) : Dist Toy.TV ℝ (XR ℝ) where
  sample := fun s => (.ok (.num (if (coin (k / 4) s).1 then 1 else 0)), (coin (k / 4) s).2)
  logpdf := fun v => match v with
    | .num n => if n = 1 then .ok (.fin (Real.log (k / 4))) else if n = 0 then .ok (.fin (Real.log (1 - k / 4)))
      else .error .ValidationError
    | _ => .error .ValidationError

theorem bern_fair {k : Int} (h0 : 0 < k) (h1 : k < 4) : Fair uniform01 (bern k) := by
  have h0' : (0 : ℝ) < k := by exact_mod_cast h0
  have h1' : (k : ℝ) < 4 := by exact_mod_cast h1
  have ht := coin_true (p := (k : ℝ) / 4) (by linarith) (by linarith)
  have hf := coin_false (p := (k : ℝ) / 4) (by linarith) (by linarith)
  intro v
  constructor
  · intro l hl
    simp only [bern] at hl
    cases v with
    | num n =>
      simp only at hl
      split at hl
      · rename_i hn
        subst hn
        cases hl
        simp only [expX]
        rw [Real.exp_log (by linarith)]
        refine ht.congr (fun s s' => ?_)
        rcases h : coin ((k : ℝ) / 4) s with ⟨b, m⟩
        cases b <;> simp [bern, h]
      · split at hl
        · rename_i hn
          subst hn
          cases hl
          simp only [expX]
          rw [Real.exp_log (by linarith)]
          refine hf.congr (fun s s' => ?_)
          rcases h : coin ((k : ℝ) / 4) s with ⟨b, m⟩
          cases b <;> simp [bern, h]
        · cases hl
    | _ => cases hl
  · intro hl
    refine Chance.never (fun s s' h => ?_)
    simp only [bern, Prod.mk.injEq, Except.ok.injEq] at h hl
    rw [← h.1] at hl
    simp only at hl
    split at hl
    · cases hl
    · split at hl
      · cases hl
      · split at * <;> simp_all

/-- The environment of the examples, with these coins. -/
noncomputable def coinSem : Sem String Toy.TV Toy.TC Unit ℝ (XR ℝ) where
  const := Toy.sem.const
  op := Toy.sem.op
  call := Toy.sem.call
  math := Toy.sem.math
  creators := fun f => if f = "bern" then some (.fn "bern") else none
  create := fun v => match v with
    | .bp "bern" args => match args.lookup "q" with
      | some k => if 0 < k ∧ k < 4 then .ok (bern k) else .error .ValidationError
      | none => .error .ValidationError
    | _ => .error .TypeError
  schema := fun f => if f = "bern" then some [("q", none)] else none
  reparse := .const
  reload := .ok

/-- A fair coin `a`, and a coin `b` that shows the same with probability 3/4. -/
def coinDefs : List Toy.TL :=
  [.dist "a" (Toy.app "bern" [] [("q", Toy.int 2)]) [],
   .dist "b" (Toy.app "bern" [] [("q", Toy.plus (Toy.int 1) (Toy.plus (Toy.var "a") (Toy.var "a")))]) ["a"]]

/-- The network of these definitions. -/
def coinBN : BN String Toy.TV Toy.TC Unit := defineAll (.empty "c") coinDefs

theorem coinBuilt : Ready coinBN :=
  ⟨_, _, (((Built.empty "c").step _ (by decide)).step _ (by decide)), Or.inl rfl⟩

/-- Both coins show given sides. -/
def sides (a b : Int) : Dict String Toy.TV := [("a", .num a), ("b", .num b)]

theorem coin_loci {x : String} {l : Toy.TL} (h : coinBN.loci.get? x = some l) :
    (x = "a" ∧ l = .dist "a" (Toy.app "bern" [] [("q", Toy.int 2)]) []) ∨ (x = "b" ∧ l =
      .dist "b" (Toy.app "bern" [] [("q", Toy.plus (Toy.int 1) (Toy.plus (Toy.var "a") (Toy.var "a")))]) ["a"]) := by
  have h1 := Dict.mem_of_get? h
  have e : coinBN.loci = [("a", .dist "a" (Toy.app "bern" [] [("q", Toy.int 2)]) []), ("b",
      .dist "b" (Toy.app "bern" [] [("q", Toy.plus (Toy.int 1) (Toy.plus (Toy.var "a") (Toy.var "a")))]) ["a"])] := rfl
  rw [e] at h1
  simpa using h1

theorem coin_outcome (a b : Int) {cond : Dict String Toy.TV} (hc : ∀ x ∈ cond.keys, x = "b")
    (hg : ∀ x v, cond.get? x = some v → (sides a b).get? x = some v) :
    Outcome coinSem coinBN cond (sides a b) where
  wf := show (Dict.keys (sides a b)).Nodup from show ["a", "b"].Nodup by decide
  keys := by
    intro x
    have e : coinBN.dag.nodes = ["a", "b"] := rfl
    have e' : Dict.keys (sides a b) = ["a", "b"] := rfl
    rw [e, e']
    constructor
    · exact Or.inr
    · rintro (h | h)
      · simp [hc x h]
      · exact h
  given := hg
  fixed := by
    intro x l hl _ hd
    rcases coin_loci hl with ⟨-, rfl⟩ | ⟨-, rfl⟩ <;> cases hd

theorem coin_fair (a b : Int) (ha : a = 0 ∨ a = 1) (x n : String) (f : Toy.TE) (ps : List String) (d : Dist Toy.TV ℝ (XR ℝ))
    (hl : coinBN.loci.get? x = some (.dist n f ps)) (hd : getDistribution coinSem f (sides a b).get? = .ok d) :
    Fair uniform01 d := by
  rcases coin_loci hl with ⟨-, h⟩ | ⟨-, h⟩
  · cases h
    have : getDistribution coinSem (Toy.app "bern" [] [("q", Toy.int 2)]) (sides a b).get? = .ok (bern 2) := rfl
    rw [this] at hd
    cases hd
    exact bern_fair (by decide) (by decide)
  · cases h
    rcases ha with rfl | rfl
    · have : getDistribution coinSem (Toy.app "bern" [] [("q", Toy.plus (Toy.int 1)
        (Toy.plus (Toy.var "a") (Toy.var "a")))]) (sides 0 b).get? = .ok (bern 1) := rfl
      rw [this] at hd
      cases hd
      exact bern_fair (by decide) (by decide)
    · have : getDistribution coinSem (Toy.app "bern" [] [("q", Toy.plus (Toy.int 1)
        (Toy.plus (Toy.var "a") (Toy.var "a")))]) (sides 1 b).get? = .ok (bern 3) := rfl
      rw [this] at hd
      cases hd
      exact bern_fair (by decide) (by decide)

theorem coin_shadow {cond : Dict String Toy.TV} (hc : cond.keys = [] ∨ cond.keys = ["b"]) :
    NoShadow coinBN cond.keys := by
  rcases hc with h | h <;> rw [h] <;> exact noShadow_of_check (by decide)

theorem coin_exo (x : String) : ¬ Exogenous coinBN x := by
  rintro ⟨n, h⟩
  rcases coin_loci h with ⟨-, h⟩ | ⟨-, h⟩ <;> cases h

theorem coin_rv (x : String) : coinBN.Rv x ↔ x = "a" ∨ x = "b" := by
  constructor
  · rintro ⟨l, hl, -⟩
    rcases coin_loci hl with ⟨h, -⟩ | ⟨h, -⟩
    · exact Or.inl h
    · exact Or.inr h
  · rintro (rfl | rfl)
    · exact ⟨_, rfl, rfl⟩
    · exact ⟨_, rfl, rfl⟩

theorem coin_a {a : Int} (ha : a = 0 ∨ a = 1) (b : Int) :
    LogDensity coinSem coinBN (sides a b) "a" (.fin (Real.log (1 / 2))) := by
  refine ⟨_, _, _, .num a, rfl, rfl, Or.inl ⟨bern 2, rfl, Or.inl ?_⟩⟩
  rcases ha with rfl | rfl <;> simp only [bern] <;> norm_num

theorem coin_b {a b : Int} (ha : a = 0 ∨ a = 1) (hb : b = 0 ∨ b = 1) :
    LogDensity coinSem coinBN (sides a b) "b" (.fin (Real.log (if a = b then 3 / 4 else 1 / 4))) := by
  rcases ha with rfl | rfl
  · refine ⟨_, _, _, .num b, rfl, rfl, Or.inl ⟨bern 1, rfl, Or.inl ?_⟩⟩
    rcases hb with rfl | rfl <;> simp only [bern] <;> norm_num
  · refine ⟨_, _, _, .num b, rfl, rfl, Or.inl ⟨bern 3, rfl, Or.inl ?_⟩⟩
    rcases hb with rfl | rfl <;> simp only [bern] <;> norm_num

/-- The joint law of the two coins. -/
theorem coin_joint {a b : Int} (ha : a = 0 ∨ a = 1) (hb : b = 0 ∨ b = 1) :
    Chance uniform01 (fun s s' => ∃ r', sample coinSem coinBN [] s = (.ok r', s') ∧
      ∀ x, r'.get? x = (sides a b).get? x) (ENNReal.ofReal (1 / 2) * ENNReal.ofReal (if a = b then 3 / 4 else 1 / 4)) := by
  have h := C200_law (μ := uniform01) coinSem (fun _ => rfl) coinBuilt (cond := []) (r := sides a b)
    (coin_shadow (Or.inl rfl)) (fun x h => absurd h (coin_exo x)) (coin_fair a b ha)
    (coin_outcome a b (by intro x hx; cases hx) (by intro x v hx; cases hx)) (drawn := ["a", "b"]) (by decide)
    (lp := fun x => .fin (Real.log (if x = "a" then 1 / 2 else if a = b then 3 / 4 else 1 / 4))) ?_ ?_
  · refine cast ?_ h
    congr 1
    simp only [List.map_cons, List.map_nil, List.prod_cons, List.prod_nil, expX, if_true]
    rw [if_neg (by decide), Real.exp_log (by norm_num), Real.exp_log (by split <;> norm_num), mul_one]
  · intro x
    rw [coin_rv]
    simp [Dict.keys]
  · intro x hx
    simp only [List.mem_cons, List.not_mem_nil, or_false] at hx
    rcases hx with rfl | rfl
    · exact coin_a ha b
    · exact coin_b ha hb

/-- The law of the fair coin when the other one is given. -/
theorem coin_given {a b : Int} (ha : a = 0 ∨ a = 1) :
    Chance uniform01 (fun s s' => ∃ r', sample coinSem coinBN [("b", .num b)] s = (.ok r', s') ∧
      ∀ x, r'.get? x = (sides a b).get? x) (ENNReal.ofReal (1 / 2)) := by
  have h := C200_law (μ := uniform01) coinSem (fun _ => rfl) coinBuilt (cond := [("b", .num b)]) (r := sides a b)
    (coin_shadow (Or.inr rfl)) (fun x h => absurd h (coin_exo x)) (coin_fair a b ha)
    (coin_outcome a b (by intro x hx; simpa [Dict.keys] using hx) (by
      intro x v hx
      have := Dict.mem_of_get? hx
      simp only [List.mem_cons, Prod.mk.injEq, List.not_mem_nil, or_false] at this
      obtain ⟨rfl, rfl⟩ := this
      rfl)) (drawn := ["a"]) (by decide) (lp := fun _ => .fin (Real.log (1 / 2))) ?_ ?_
  · refine cast ?_ h
    congr 1
    simp only [List.map_cons, List.map_nil, List.prod_cons, List.prod_nil, expX]
    rw [Real.exp_log (by norm_num), mul_one]
  · intro x
    rw [coin_rv]
    simp only [Dict.keys, List.map_cons, List.map_nil, List.mem_singleton]
    constructor
    · rintro rfl; exact ⟨Or.inl rfl, by decide⟩
    · rintro ⟨h | h, h'⟩
      · exact h
      · exact absurd h h'
  · intro x hx
    rw [List.mem_singleton.1 hx]
    exact coin_a ha b

theorem coin_bern {f : Toy.TE} {pas : String → Option Toy.TV} {d : Dist Toy.TV ℝ (XR ℝ)}
    (h : getDistribution coinSem f pas = .ok d) : ∃ k, d = bern k := by
  have h1 : parseDistribution coinSem f pas = .ok d := by
    simp only [getDistribution] at h
    split at h
    · cases h
    · exact h
  unfold parseDistribution at h1
  cases hb : getBlueprint coinSem f pas with
  | error e => rw [hb] at h1; cases h1
  | ok v =>
    rw [hb] at h1
    have h2 : coinSem.create v = .ok d := h1
    simp only [coinSem] at h2
    split at h2
    · split at h2
      · split at h2
        · cases h2; exact ⟨_, rfl⟩
        · cases h2
      · cases h2
    · cases h2

theorem coin_sides {s s' : ℝ} {r : Dict String Toy.TV} (h : sample coinSem coinBN [] s = (.ok r, s')) :
    (∀ x, x ∈ r.keys ↔ x = "a" ∨ x = "b") ∧ (r.get? "a" = some (.num 0) ∨ r.get? "a" = some (.num 1)) := by
  obtain ⟨od, ht, heq⟩ := sample_supplied coinSem coinBuilt (cond := []) (fun x h => absurd h (coin_exo x))
  rw [heq s] at h
  obtain ⟨h1, -, -, h4⟩ := sampleLoop_ok coinSem coinBN _ _ h
  have hk : ∀ x, x ∈ od ↔ x = "a" ∨ x = "b" := by
    intro x
    rw [ht.complete]
    have e : coinBN.dag.nodes = ["a", "b"] := rfl
    rw [e]; simp
  refine ⟨fun x => ?_, ?_⟩
  · rw [h1, ← hk]; simp [Dict.keys]
  · obtain ⟨pre, suf, e⟩ := List.append_of_mem ((hk "a").2 (Or.inl rfl))
    have hp : "a" ∉ pre := by
      have := ht.nodup
      rw [e, List.nodup_append] at this
      exact fun hh => this.2.2 "a" hh "a" (by simp) rfl
    obtain ⟨ρ, s1, s2, v, hr, hv, -⟩ := h4 pre "a" suf e hp rfl (by simp [Dict.keys])
    rw [hv]
    obtain ⟨l, hl, hr⟩ := hr
    rcases coin_loci hl with ⟨-, rfl⟩ | ⟨h, -⟩
    · simp only [Loci.render] at hr
      cases hg : getDistribution coinSem (Toy.app "bern" [] [("q", Toy.int 2)]) ρ.get? with
      | error e => rw [hg] at hr; cases hr
      | ok d =>
        obtain ⟨k, rfl⟩ := coin_bern hg
        rw [hg] at hr
        simp only [bern, Prod.mk.injEq, Except.ok.injEq] at hr
        rw [← hr.1]
        split
        · exact Or.inr rfl
        · exact Or.inl rfl
    · exact absurd h (by decide)

theorem sides_iff {a b : Int} {r : Dict String Toy.TV} (h : ∀ x, x ∈ r.keys ↔ x = "a" ∨ x = "b") :
    (∀ x, r.get? x = (sides a b).get? x) ↔ r.get? "a" = some (.num a) ∧ r.get? "b" = some (.num b) := by
  constructor
  · intro h; exact ⟨h "a", h "b"⟩
  · rintro ⟨h1, h2⟩ x
    by_cases ha : x = "a"
    · subst ha; exact h1
    · by_cases hb : x = "b"
      · subst hb; exact h2
      · rw [(Dict.get?_eq_none_iff _ _).2 (fun hh => ((h x).1 hh).elim ha hb),
          (Dict.get?_eq_none_iff _ _).2 (fun hh => by
            have : x ∈ ["a", "b"] := hh
            simp [ha, hb] at this)]

/-- The law of the second coin. -/
theorem coin_marginal {b : Int} (hb : b = 0 ∨ b = 1) :
    Chance uniform01 (fun s s' => ∃ r', sample coinSem coinBN [] s = (.ok r', s') ∧ r'.get? "b" = some (.num b))
      (ENNReal.ofReal (1 / 2)) := by
  have h := (coin_joint (Or.inl rfl) hb).or (coin_joint (Or.inr rfl) hb) (by
    rintro s m m' ⟨r1, h1, h2⟩ ⟨r2, h3, h4⟩
    rw [h1] at h3
    cases h3
    have := (h2 "a").symm.trans (h4 "a")
    have h5 : some (Toy.TV.num 0) = some (Toy.TV.num 1) := this
    cases h5)
  refine cast ?_ (h.congr (F := fun s s' => ∃ r', sample coinSem coinBN [] s = (.ok r', s') ∧
    r'.get? "b" = some (.num b)) (fun s s' => ?_))
  · congr 1
    rw [← mul_add, ← ENNReal.ofReal_add (by split <;> norm_num) (by split <;> norm_num)]
    rcases hb with rfl | rfl <;> norm_num
  · constructor
    · rintro (⟨r, h1, h2⟩ | ⟨r, h1, h2⟩)
      · exact ⟨r, h1, h2 "b"⟩
      · exact ⟨r, h1, h2 "b"⟩
    · rintro ⟨r, h1, h2⟩
      obtain ⟨h3, h4⟩ := coin_sides h1
      rcases h4 with h4 | h4
      · exact Or.inl ⟨r, h1, (sides_iff h3).2 ⟨h4, h2⟩⟩
      · exact Or.inr ⟨r, h1, (sides_iff h3).2 ⟨h4, h2⟩⟩

/-- **C200** (refuted): given the value of a random variable, `sample` does not draw the others from their law
conditional on it: a coin stays fair when it is seen that another one, mostly showing the same, shows 1. -/
theorem C200_conditional_refuted :
    ∃ (sem : Sem String Toy.TV Toy.TC Unit ℝ (XR ℝ)) (bn : BN String Toy.TV Toy.TC Unit) (v : Toy.TV)
      (r : Dict String Toy.TV) (joint marginal given : ENNReal), Ready bn ∧ r.get? "b" = some v ∧
      Chance uniform01 (fun s s' => ∃ r', sample sem bn [] s = (.ok r', s') ∧ ∀ x, r'.get? x = r.get? x) joint ∧
      Chance uniform01 (fun s s' => ∃ r', sample sem bn [] s = (.ok r', s') ∧ r'.get? "b" = some v) marginal ∧
      Chance uniform01 (fun s s' => ∃ r', sample sem bn [("b", v)] s = (.ok r', s') ∧ ∀ x, r'.get? x = r.get? x) given ∧
      given * marginal ≠ joint := by
  refine ⟨coinSem, coinBN, .num 1, sides 1 1, _, _, _, coinBuilt, rfl, coin_joint (Or.inr rfl) (Or.inr rfl),
    coin_marginal (Or.inr rfl), coin_given (Or.inr rfl), ?_⟩
  rw [if_pos rfl, ← ENNReal.ofReal_mul (by norm_num), ← ENNReal.ofReal_mul (by norm_num)]
  intro h
  rw [ENNReal.ofReal_eq_ofReal_iff (by norm_num) (by norm_num)] at h
  norm_num at h

/-- **C200** (likelihood weights): the chance of drawing an assignment with some variables given, times the
probabilities of what is given at their parents in the assignment, is the probability that `evaluate_nodes` reports. -/
theorem C200_weights {μ : Measure S} (sem : Sem N V C O S (XR ℝ)) (hcl : ∀ c, (sem.reparse c).names = [])
    {bn : BN N V C O} (hr : Ready bn) {cond r : Dict N V} (hns : NoShadow bn cond.keys)
    (hs : ∀ x, Exogenous bn x → x ∈ cond.keys)
    (hf : ∀ x n f ps d, bn.loci.get? x = some (.dist n f ps) → getDistribution sem f r.get? = .ok d → Fair μ d)
    (ho : Outcome sem bn cond r) {lp : XR ℝ} (he : evaluateNodes sem bn r = .ok lp) :
    ∃ (given : List N) (d : N → XR ℝ) (p : ENNReal), given.Nodup ∧ (∀ x, x ∈ given ↔ bn.Rv x ∧ x ∈ cond.keys) ∧
      (∀ x ∈ given, LogDensity sem bn r x (d x)) ∧
      Chance μ (fun s s' => ∃ r', sample sem bn cond s = (.ok r', s') ∧ ∀ x, r'.get? x = r.get? x) p ∧
      p * (given.map (fun x => expX (d x))).prod = expX lp := by
  obtain ⟨rvs, d, h1, h2, h3, h4, h5⟩ := C26_sum sem hr ho.wf he
  have hin : ∀ x, bn.Rv x → x ∈ r.keys := by
    rintro x ⟨l, hl, -⟩
    exact (ho.keys x).2 (Or.inr ((hr.facts.1.defined x).1 ⟨l, hl⟩))
  refine ⟨rvs.filter (fun x => x ∈ cond.keys), d, _, h1.filter _, ?_, ?_,
    C200_law sem hcl hr hns hs hf ho (h1.filter (fun x => ¬ x ∈ cond.keys)) (lp := d) ?_ ?_, ?_⟩
  · intro x
    simp only [List.mem_filter, h2, decide_eq_true_eq]
    exact ⟨fun h => ⟨h.1.1, h.2⟩, fun h => ⟨⟨h.1, hin x h.1⟩, h.2⟩⟩
  · intro x hx
    exact h3 x (List.mem_filter.1 hx).1
  · intro x
    simp only [List.mem_filter, h2, decide_eq_true_eq]
    exact ⟨fun h => ⟨h.1.1, h.2⟩, fun h => ⟨⟨h.1, hin x h.1⟩, h.2⟩⟩
  · intro x hx
    exact h3 x (List.mem_filter.1 hx).1
  · have e : expX lp = expX ((rvs.map d).sum) := by
      by_cases hh : (rvs.map d).sum = .nan
      · rw [h4 hh, hh]; rfl
      · rw [h5 hh]
    rw [e, expX_sum, List.map_map, mul_comm]
    clear h1 h2 h3 h4 h5 e he
    induction rvs with
    | nil => simp
    | cons a l ih =>
      simp only [List.map_cons, List.prod_cons, Function.comp_apply]
      rw [← ih]
      by_cases hc : a ∈ cond.keys
      · simp only [List.filter_cons, hc, decide_true, if_true, not_true, decide_false, Bool.false_eq_true, if_false,
          List.map_cons, List.prod_cons]
        ring
      · simp only [List.filter_cons, hc, decide_false, if_true, not_false_eq_true, decide_true, Bool.false_eq_true,
          if_false, List.map_cons, List.prod_cons]
        ring

theorem coin_eval : evaluateNodes coinSem coinBN (sides 1 1) =
    .ok (.fin (Real.log ((2 : Int) / 4) + (Real.log ((3 : Int) / 4) + 0))) := rfl

example : Chance uniform01 (fun s s' => ∃ r', sample coinSem coinBN [] s = (.ok r', s') ∧
    ∀ x, r'.get? x = (sides 1 1).get? x) (expX (.fin (Real.log ((2 : Int) / 4) + (Real.log ((3 : Int) / 4) + 0)))) :=
  C199 coinSem (fun _ => rfl) coinBuilt (coin_shadow (Or.inl rfl)) (fun x h => absurd h (coin_exo x))
    (fun x hx => by cases hx) (coin_fair 1 1 (Or.inr rfl))
    (coin_outcome 1 1 (by intro x hx; cases hx) (by intro x v hx; cases hx)) coin_eval

example : Chance uniform01 (fun s s' => ∃ ch, sampleChromosome coinSem coinBN [] s = (.ok ch, s') ∧
    (∀ x, ch.locus.get? x = (sides 1 1).get? x) ∧
    ch.logProb = .fin (Real.log ((2 : Int) / 4) + (Real.log ((3 : Int) / 4) + 0)))
    (expX (.fin (Real.log ((2 : Int) / 4) + (Real.log ((3 : Int) / 4) + 0)))) :=
  C199_chromosome coinSem (fun _ => rfl) coinBuilt (by exact List.nodup_nil) (coin_shadow (Or.inl rfl)) (fun x h => absurd h (coin_exo x))
    (fun x hx => by cases hx) (coin_fair 1 1 (Or.inr rfl))
    (coin_outcome 1 1 (by intro x hx; cases hx) (by intro x v hx; cases hx)) coin_eval

example : ∃ (given : List String) (d : String → XR ℝ) (p : ENNReal), given.Nodup ∧
    (∀ x, x ∈ given ↔ coinBN.Rv x ∧ x ∈ Dict.keys [("b", Toy.TV.num 1)]) ∧
      (∀ x ∈ given, LogDensity coinSem coinBN (sides 1 1) x (d x)) ∧
      Chance uniform01 (fun s s' => ∃ r', sample coinSem coinBN [("b", .num 1)] s = (.ok r', s') ∧
        ∀ x, r'.get? x = (sides 1 1).get? x) p ∧
      p * (given.map (fun x => expX (d x))).prod =
        expX (.fin (Real.log ((2 : Int) / 4) + (Real.log ((3 : Int) / 4) + 0))) :=
  C200_weights coinSem (fun _ => rfl) coinBuilt (coin_shadow (Or.inr rfl)) (fun x h => absurd h (coin_exo x))
    (coin_fair 1 1 (Or.inr rfl)) (coin_outcome 1 1 (by intro x hx; simpa [Dict.keys] using hx) (by
      intro x v hx
      have := Dict.mem_of_get? hx
      simp only [List.mem_cons, Prod.mk.injEq, List.not_mem_nil, or_false] at this
      obtain ⟨rfl, rfl⟩ := this
      rfl)) coin_eval

end Props.Laws
