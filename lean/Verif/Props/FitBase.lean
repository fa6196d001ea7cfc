import Verif.Model.FitBase
import Verif.Props.Sampling
import Verif.Props.Toy
import Verif.Py.XRField
import Mathlib.Algebra.Order.Ring.Rat
import Mathlib.Algebra.Order.Field.Rat

/-!
# Settings, serving parameters, particles (C76, C77, C78, C91)
-/

namespace Props.FitBase
set_option linter.unusedSectionVars false

open Py Spec Model Model.BN Props.Sampling

/-! ### C76: settings -/

section Settings
variable {X : Type}

theorem updateSettings_keys (st kw : Dict String X) : (updateSettings st kw).keys = st.keys := by
  unfold updateSettings
  induction kw generalizing st with
  | nil => rfl
  | cons kv kw ih =>
    rw [List.foldl_cons, ih]
    split
    · rename_i h
      rw [Dict.keys_set, if_pos h]
    · rfl

theorem updateSettings_get (st kw : Dict String X) (hkw : kw.WF) (k : String) (hk : k ∈ st.keys) :
    (updateSettings st kw).get? k = (kw.get? k).or (st.get? k) := by
  unfold updateSettings
  induction kw generalizing st with
  | nil => simp
  | cons kv kw ih =>
    obtain ⟨x, v⟩ := kv
    have hn : x ∉ Dict.keys kw := (List.nodup_cons.1 hkw).1
    have hw : Dict.WF kw := (List.nodup_cons.1 hkw).2
    rw [List.foldl_cons, Dict.get?_cons]
    by_cases hx : x = k
    · subst hx
      have hne := (Dict.get?_eq_none_iff kw x).2 hn
      have hk' : x ∈ (st.set x v).keys := by rw [Dict.mem_keys_set]; exact .inl rfl
      simp only [hk, if_true]
      rw [ih (st.set x v) hw hk', hne]
      simp
    · simp only [hx, if_false]
      by_cases hs : x ∈ st.keys
      · simp only [hs, if_true]
        have hk' : k ∈ (st.set x v).keys := by rw [Dict.mem_keys_set]; exact .inr hk
        rw [ih _ hw hk', Dict.get?_set_ne _ _ hx]
      · simp only [hs, if_false]
        exact ih st hw hk

/-- C76: along every history of `update_settings` calls the list of settings stays the same, and a setting has
the value most recently given for its name, or its initial value if it was never named; names that are not
settings stay unknown. -/
theorem C76 (st : Dict String X) (hist : List (Dict String X)) (hwf : ∀ kw ∈ hist, kw.WF) :
    (hist.foldl updateSettings st).keys = st.keys ∧
    ∀ k, (hist.foldl updateSettings st).get? k =
      if k ∈ st.keys then (hist.reverse.findSome? (fun kw => kw.get? k)).or (st.get? k) else none := by
  have hkeys : ∀ (hist : List (Dict String X)) (st : Dict String X),
      (hist.foldl updateSettings st).keys = st.keys := by
    intro hist
    induction hist with
    | nil => intro st; rfl
    | cons kw hist ih => intro st; rw [List.foldl_cons, ih, updateSettings_keys]
  refine ⟨hkeys hist st, fun k => ?_⟩
  by_cases hk : k ∈ st.keys
  · rw [if_pos hk]
    induction hist generalizing st with
    | nil => simp
    | cons kw hist ih =>
      rw [List.foldl_cons, ih _ (fun e he => hwf e (by simp [he])) (by rw [updateSettings_keys]; exact hk),
        updateSettings_get _ _ (hwf kw (by simp)) k hk, List.reverse_cons, List.findSome?_append]
      simp [Option.or_assoc]
  · rw [if_neg hk, Dict.get?_eq_none_iff, hkeys]
    exact hk

/-- Two updates, one of them naming an unknown setting. -/
example : let st : Dict String Nat := [("n_core", 4), ("verbose", 5)]
    ([[("n_core", 2), ("colour", 7)], [("n_core", 3)]].foldl updateSettings st).get? "n_core" = some 3 ∧
    ([[("n_core", 2), ("colour", 7)], [("n_core", 3)]].foldl updateSettings st).get? "colour" = none := by
  intro st
  have h := (C76 st [[("n_core", 2), ("colour", 7)], [("n_core", 3)]]
    (by
      intro kw hkw
      simp only [List.mem_cons, List.not_mem_nil, or_false] at hkw
      rcases hkw with rfl | rfl <;> (unfold Dict.WF; decide))).2
  rw [h, h]
  decide

end Settings

variable {N V C O S K D : Type} [DecidableEq N] [Field K] [LinearOrder K]

/-! ### A running example -/

/-- The distribution `Toy.shifted` with log densities in ℚ. -/
def exShifted (loc : Int) : Dist Toy.TV Int (XR ℚ) where
  sample := fun s => (.ok (.num (loc + s)), s + 1)
  logpdf := fun v => match v with
    | .num n => .ok (.fin (-(((n - loc) * (n - loc) : Int) : ℚ)))
    | _ => .error .TypeError

/-- `Toy.sem` with log densities in ℚ. -/
def exSem : Sem String Toy.TV Toy.TC Unit Int (XR ℚ) where
  const := Toy.sem.const
  op := Toy.sem.op
  call := Toy.sem.call
  math := Toy.sem.math
  creators := Toy.sem.creators
  create := fun v => match v with
    | .bp "norm" args => match args.lookup "loc" with
      | some m => .ok (exShifted m)
      | none => .error .ValidationError
    | _ => .error .TypeError
  schema := Toy.sem.schema
  reparse := Toy.sem.reparse
  reload := .ok

/-- An environment with these; all distributions are reported as unbounded, with mean 0 and deviation 1, and all
numbers count as floats. -/
def exEnv : FitEnv String Toy.TV Toy.TC Unit Int ℚ Unit where
  sem := exSem
  ops := ⟨fun _ => 0, fun _ => .fin 1, fun _ x => x⟩
  isFloat := fun v => match v with
    | .num _ => true
    | _ => false
  support := fun _ => .ok (.ninf, .pinf, 0, .fin 1)

/-- Two targets on the running example network, with the exogenous `u = 10`. -/
def exModel : DataModel String Toy.TV Toy.TC Unit ℚ Unit where
  data := [("a", .mkRange "a" (.fin 10) (.fin 8) (.fin 12)), ("b", .mkError "b" (.fin 4) (.fin (1 / 2)))]
  bn := exBN
  exo := [("u", .num 10)]
  free := ["x"]

/-- A simulation of it. -/
def exSims : Dict String (XR ℚ) := [("b", .fin 5), ("a", .fin 11), ("c", .nan)]

/-- A chromosome of it. -/
def exChrom : Chromosome String Toy.TV ℚ :=
  .new [("u", .num 10), ("x", .num 3), ("m", .num 2), ("y", .num 8), ("z", .num 18)] (.fin (-1))

theorem exReady : Ready exModel.bn := ⟨_, _, exBuilt, Or.inl rfl⟩

/-! ### C77: serving parameters -/

/-- C77: a served chromosome holds every exogenous parameter with the configured value, every other supplied
value unchanged, a value for every node of the network and nothing else, and its `LogProb` is what `evaluate_nodes`
gives for it. -/
theorem C77 (env : FitEnv N V C O S K D) (m : DataModel N V C O K D) (hr : Ready m.bn) (hexo : m.exo.WF)
    (p : Dict N V) (s s' : S) (ch : Chromosome N V K) (h : m.serve env p s = (.ok ch, s')) :
    (∀ k v, m.exo.get? k = some v → ch.locus.get? k = some v) ∧
    (∀ k v, k ∉ m.exo.keys → p.get? k = some v → ch.locus.get? k = some v) ∧
    (∀ k, k ∈ ch.locus.keys ↔ k ∈ p.keys ∨ k ∈ m.exo.keys ∨ k ∈ m.bn.dag.nodes) ∧
    evaluateNodes env.sem m.bn ch.locus = .ok ch.logProb := by
  unfold DataModel.serve at h
  rw [C27_chromosome] at h
  obtain ⟨r, h1, h2, h3⟩ := h
  obtain ⟨k1, k2, -, -⟩ := C23_keys env.sem hr h1
  rw [h2]
  refine ⟨?_, ?_, ?_, h3⟩
  · intro k v hk
    apply k2
    rw [Dict.get?_update _ _ hexo, hk]
    rfl
  · intro k v hk hp
    apply k2
    rw [Dict.get?_update _ _ hexo, (Dict.get?_eq_none_iff _ _).2 hk, hp]
    rfl
  · intro k
    rw [k1, Dict.mem_keys_update, or_assoc]

example : Ready exModel.bn ∧ exModel.exo.WF ∧
    exModel.serve exEnv [("u", .num 7), ("x", .num 3)] 5 = (.ok exChrom, 5) :=
  ⟨exReady, by unfold Dict.WF; decide, by decide +kernel⟩

/-- C77, prior draws: a draw from the prior is complete too, has the exogenous values, and carries the log
probability that `evaluate_nodes` gives for it. -/
theorem C77_prior (env : FitEnv N V C O S K D) (m : DataModel N V C O K D) (hr : Ready m.bn)
    (s s' : S) (ch : Chromosome N V K) (h : m.samplePrior env s = (.ok ch, s')) :
    (∀ k v, m.exo.get? k = some v → ch.locus.get? k = some v) ∧
    (∀ k, k ∈ ch.locus.keys ↔ k ∈ m.exo.keys ∨ k ∈ m.bn.dag.nodes) ∧
    evaluateNodes env.sem m.bn ch.locus = .ok ch.logProb := by
  unfold DataModel.samplePrior at h
  cases hs : sample env.sem m.bn m.exo s with
  | mk r s1 =>
    simp only [hs] at h
    cases r with
    | error e => simp at h
    | ok p0 =>
      simp only at h
      obtain ⟨k1, k2, -, -⟩ := C23_keys env.sem hr hs
      cases he : evaluateNodes env.sem m.bn p0 with
      | error e => simp [he] at h
      | ok lp =>
        simp only [he, Prod.mk.injEq, Except.ok.injEq] at h
        obtain ⟨rfl, -⟩ := h
        exact ⟨fun k v hk => k2 k v hk, fun k => k1 k, he⟩

example : Ready exModel.bn ∧ ∃ ch s', exModel.samplePrior exEnv 5 = (.ok ch, s') ∧
    ch.locus.get? "u" = some (.num 10) :=
  ⟨exReady, _, _, by rfl, by rfl⟩

/-- C77, evaluation: `evaluate_prior` gives the log probability that the chromosome holds, or, if it holds none, what
`evaluate_nodes` gives, which the chromosome then holds; so a second call changes nothing.  The values are never
touched. -/
theorem C77_evaluate (env : FitEnv N V C O S K D) (m : DataModel N V C O K D) (p p' : Chromosome N V K) (lp : XR K)
    (h : m.evaluatePrior env p = (p', .ok lp)) :
    p'.locus = p.locus ∧ p'.logProb = lp ∧ (p.logProb ≠ .nan → lp = p.logProb) ∧
    (p.logProb = .nan → evaluateNodes env.sem m.bn p.locus = .ok lp) ∧
    m.evaluatePrior env p' = (p', .ok lp) := by
  have hev : ∀ q : Chromosome N V K, q.isEvaluated = true ↔ q.logProb ≠ .nan := by
    intro q
    unfold Chromosome.isEvaluated
    cases q.logProb <;> simp [XR.isNan]
  unfold DataModel.evaluatePrior at h ⊢
  by_cases he : p.isEvaluated = true
  · simp only [he, if_true, Prod.mk.injEq, Except.ok.injEq] at h
    obtain ⟨rfl, rfl⟩ := h
    exact ⟨rfl, rfl, fun _ => rfl, fun hn => absurd hn ((hev p).1 he), by simp [he]⟩
  · have hn : p.logProb = .nan := by
      by_contra hc
      exact he ((hev p).2 hc)
    simp only [he, Bool.false_eq_true, if_false] at h
    cases hl : evaluateNodes env.sem m.bn p.locus with
    | error e => simp [hl] at h
    | ok l =>
      simp only [hl, Prod.mk.injEq, Except.ok.injEq] at h
      obtain ⟨rfl, rfl⟩ := h
      refine ⟨rfl, rfl, fun hc => absurd hn hc, fun _ => rfl, ?_⟩
      split
      · rfl
      · simp only [hl]

/-- An unevaluated chromosome is evaluated once. -/
example : exModel.evaluatePrior exEnv { exChrom with logProb := .nan } = (exChrom, .ok (.fin (-1))) := by
  decide +kernel

/-- The loop of `sample` draws nothing when every node already has a value. -/
theorem sampleLoop_full (sem : Sem N V C O S (XR K)) (bn : BN N V C O) (sel : N → Bool) (r : Dict N V) (s : S) :
    ∀ od : List N, (∀ x ∈ od, x ∈ r.keys) → sampleLoop sem bn sel od r s = (.ok r, s) := by
  intro od
  induction od with
  | nil => intro _; rfl
  | cons x od ih =>
    intro h
    unfold sampleLoop
    have hx : x ∈ r.keys := h x (by simp)
    simp only [hx, not_true_eq_false, decide_false, Bool.and_false, Bool.false_eq_true, if_false]
    exact ih (fun y hy => h y (by simp [hy]))

theorem set_same (d : Dict N V) (x : N) (v : V) (h : d.get? x = some v) : d.set x v = d := by
  induction d with
  | nil => simp at h
  | cons kv d ih =>
    obtain ⟨k, w⟩ := kv
    rw [Dict.get?_cons] at h
    by_cases hk : k = x
    · simp [hk] at h
      simp [Dict.set, hk, h]
    · simp only [hk, if_false] at h
      simp [Dict.set, hk, ih h]

theorem update_same (d e : Dict N V) (h : ∀ p ∈ e, d.get? p.1 = some p.2) : d.update e = d := by
  unfold Dict.update
  induction e generalizing d with
  | nil => rfl
  | cons kv e ih =>
    rw [List.foldl_cons, set_same d kv.1 kv.2 (h kv (by simp))]
    exact ih d (fun p hp => h p (by simp [hp]))

/-- C91: a complete chromosome that agrees with the exogenous parameters survives the way through its JSON form
(as the parallel modes send it): the same values, the same log probability, and no random number is used. -/
theorem C91 (env : FitEnv N V C O S K D) (m : DataModel N V C O K D) (hr : Ready m.bn)
    (ch : Chromosome N V K) (hexo : ∀ p ∈ m.exo, ch.locus.get? p.1 = some p.2)
    (hfull : ∀ x ∈ m.bn.dag.nodes, x ∈ ch.locus.keys)
    (lp : XR K) (hlp : evaluateNodes env.sem m.bn ch.locus = .ok lp) (s : S) :
    m.serveFromJson env (ch.locus, ch.logProb) s = (.ok ch, s) := by
  have hu : ch.locus.update m.exo = ch.locus := update_same _ _ hexo
  obtain ⟨od, ht, hs⟩ := sample_supplied env.sem (cond := ch.locus) hr (by
    rintro x ⟨n, hx⟩
    apply hfull
    exact (hr.facts.1.toRep.defined x).1 ⟨_, hx⟩)
  have hod : ∀ x ∈ od, x ∈ ch.locus.keys := fun x hx => hfull x ((ht.complete x).1 hx)
  have hsm : sample env.sem m.bn ch.locus s = (.ok ch.locus, s) := by
    rw [hs, sampleLoop_full env.sem m.bn _ ch.locus s od hod]
  unfold DataModel.serveFromJson DataModel.serve sampleChromosome
  simp only [hu, hsm, hlp]
  rfl

example : (∀ p ∈ exModel.exo, exChrom.locus.get? p.1 = some p.2) ∧
    (∀ x ∈ exModel.bn.dag.nodes, x ∈ exChrom.locus.keys) ∧
    evaluateNodes exEnv.sem exModel.bn exChrom.locus = .ok (.fin (-1)) :=
  ⟨by decide, by decide, by decide +kernel⟩

/-! ### C92: free parameters and the search domain -/

/-- C92, what holds: a constructed model has as free parameters exactly the random roots that are not exogenous and
were floats in one prior draw; its domain lists all random roots, in order. -/
theorem C92_partial (env : FitEnv N V C O S K D) (data : Dict N (Target N K D)) (bn : BN N V C O) (hr : Ready bn)
    (exo : Dict N V) (hexo : exo.WF) (s s' : S) (m : DataModel N V C O K D)
    (h : DataModel.new env data bn exo s = (.ok m, s')) :
    ∃ rr p0, bn.rvRoots = .ok (some rr) ∧ sample env.sem bn exo s = (.ok p0, s') ∧
      (∀ x, x ∈ m.free ↔ x ∈ rr ∧ x ∉ exo.keys ∧ ∃ v, p0.get? x = some v ∧ env.isFloat v = true) ∧
      (∀ t t' doms, m.domain env t = (.ok doms, t') → doms.map Dom.name = rr) ∧
      ((∀ x ∈ rr, x ∉ exo.keys ∧ ∃ v, p0.get? x = some v ∧ env.isFloat v = true) → m.free = rr) := by
  unfold DataModel.new at h
  split at h
  · cases h
  · cases h
  · rename_i rr hrr
    simp only [DataModel.samplePrior] at h
    cases hs : sample env.sem bn exo s with
    | mk r s1 =>
      simp only [hs] at h
      cases r with
      | error e => simp at h
      | ok p0 =>
        simp only at h
        obtain ⟨hk, -, hwf, -⟩ := C23_keys env.sem hr hs
        have hwf := hwf hexo
        cases he : evaluateNodes env.sem bn p0 with
        | error e => simp [he] at h
        | ok lp =>
          simp only [he, Prod.mk.injEq, Except.ok.injEq] at h
          obtain ⟨rfl, rfl⟩ := h
          have hfl : ∀ x, x ∈ (p0.filterItems (fun _ v => env.isFloat v)).keys ↔
              ∃ v, p0.get? x = some v ∧ env.isFloat v = true := by
            intro x
            unfold Dict.filterItems Dict.keys
            constructor
            · intro hx
              obtain ⟨⟨k, v⟩, hm, rfl⟩ := List.mem_map.1 hx
              obtain ⟨hm, hv⟩ := List.mem_filter.1 hm
              exact ⟨v, Dict.get?_of_mem hwf hm, hv⟩
            · rintro ⟨v, hv, hf⟩
              exact List.mem_map.2 ⟨(x, v), List.mem_filter.2 ⟨Dict.mem_of_get? hv, hf⟩, rfl⟩
          refine ⟨rr, p0, hrr, rfl, ?_, ?_, ?_⟩
          · intro x
            simp only [List.mem_filter, decide_eq_true_eq]
            rw [show (Chromosome.new p0 lp).locus = p0 from rfl, hfl, and_assoc]
          · intro t t' doms hd
            unfold DataModel.domain at hd
            simp only [hrr] at hd
            split at hd
            · cases hd
            · rename_i p hp
              simp only [Prod.mk.injEq] at hd
              obtain ⟨hd, -⟩ := hd
              clear hrr hp
              generalize (⟨data, bn, exo, _⟩ : DataModel N V C O K D) = m at hd
              induction rr generalizing doms with
              | nil =>
                simp [pure, Except.pure] at hd
                subst hd
                rfl
              | cons x rr ih =>
                rw [List.mapM_cons] at hd
                simp only [bind, Except.bind] at hd
                split at hd
                · cases hd
                · rename_i d hdx
                  split at hd
                  · cases hd
                  · rename_i ds hds
                    simp only [pure, Except.pure, Except.ok.injEq] at hd
                    subst hd
                    rw [List.map_cons, ih ds hds]
                    congr 1
                    unfold DataModel.domainOf at hdx
                    simp only [bind, Except.bind] at hdx
                    split at hdx
                    · cases hdx
                    · split at hdx
                      · split at hdx
                        · cases hdx
                        · split at hdx
                          · cases hdx
                          · simp only [pure, Except.pure, Except.ok.injEq] at hdx
                            subst hdx
                            rfl
                      · cases hdx
          · intro h1
            simp only
            rw [List.filter_filter, List.filter_eq_self]
            intro x hx
            obtain ⟨h2, h3⟩ := h1 x hx
            rw [show (Chromosome.new p0 lp).locus = p0 from rfl]
            simp only [(hfl x).2 h3, h2, not_false_eq_true, decide_true, Bool.and_self]

/-- C92, the ends of the domain: every entry is named after a random variable, and has the ends, mean and deviation of
that variable's distribution at the values of a prior draw. -/
theorem C92_bounds (env : FitEnv N V C O S K D) (m : DataModel N V C O K D) (t t' : S) (doms : List (Dom N K))
    (h : m.domain env t = (.ok doms, t')) :
    ∃ p, m.samplePrior env t = (.ok p, t') ∧ ∀ d ∈ doms, ∃ o f o' ds, m.bn.get d.name = .ok (.dist o f o') ∧
      getDistribution env.sem f p.locus.get? = .ok ds ∧ env.support ds = .ok (d.lower, d.upper, d.loc, d.scale) := by
  unfold DataModel.domain at h
  cases hs : m.samplePrior env t with
  | mk r s1 =>
    simp only [hs] at h
    cases r with
    | error e => simp at h
    | ok p =>
      simp only at h
      split at h
      · simp at h
      · simp at h
      · rename_i rr hrr
        simp only [Prod.mk.injEq] at h
        obtain ⟨hd, rfl⟩ := h
        refine ⟨p, rfl, ?_⟩
        clear hrr hs
        induction rr generalizing doms with
        | nil =>
          simp [pure, Except.pure] at hd
          subst hd
          simp
        | cons x rr ih =>
          rw [List.mapM_cons] at hd
          simp only [bind, Except.bind] at hd
          split at hd
          · cases hd
          · rename_i d hdx
            split at hd
            · cases hd
            · rename_i ds hds
              simp only [pure, Except.pure, Except.ok.injEq] at hd
              subst hd
              intro d' hd'
              rcases List.mem_cons.1 hd' with rfl | hd'
              · unfold DataModel.domainOf at hdx
                simp only [bind, Except.bind] at hdx
                split at hdx
                · cases hdx
                · split at hdx
                  · split at hdx
                    · cases hdx
                    · split at hdx
                      · cases hdx
                      · simp only [pure, Except.pure, Except.ok.injEq] at hdx
                        subst hdx
                        exact ⟨_, _, _, _, ‹_›, ‹_›, ‹_›⟩
                  · cases hdx
              · exact ih ds hds d' hd'

example : (exModel.domain exEnv 5).1 = .ok [⟨"x", .ninf, .pinf, .fin 0, .fin 1⟩] := by decide +kernel

/-- The running example without exogenous values for random variables has a domain equal to its free parameters. -/
example : Ready exBN ∧ exModel.exo.WF ∧ (∃ s', DataModel.new exEnv exModel.data exBN exModel.exo 5 = (.ok exModel, s')) ∧
    ((exModel.domain exEnv 5).1.map (List.map Dom.name)).toOption = some exModel.free :=
  ⟨exReady, by unfold Dict.WF; decide, ⟨_, by rfl⟩, by decide +kernel⟩

/-- C92 fails: when a random root is given exogenously it is not a free parameter but stays in the domain, so fitting
algorithms go on searching along it. -/
theorem C92_refuted : ∃ m : DataModel String Toy.TV Toy.TC Unit ℚ Unit,
    (DataModel.new exEnv exModel.data exBN [("u", .num 10), ("x", .num 3)] 5).1 = .ok m ∧ m.free = [] ∧
      ((m.domain exEnv 5).1.map (List.map Dom.name)).toOption = some ["x"] :=
  ⟨{ exModel with exo := [("u", .num 10), ("x", .num 3)], free := [] }, by rfl, rfl, by decide +kernel⟩

/-! ### C78: particles and their distances -/

/-- The sum of the distances of all targets to the simulated values. -/
def IsDistance (ops : DistOps D K) (data : Dict N (Target N K D)) (sims : Dict N (XR K)) (di : XR K) : Prop :=
  ∃ ds, List.Forall₂ (fun kt d => Target.distance ops sims kt.2 = .ok d) data ds ∧ di = ds.sum

theorem IsDistance.unique {ops : DistOps D K} {data : Dict N (Target N K D)} {sims : Dict N (XR K)} {a b : XR K}
    (ha : IsDistance ops data sims a) (hb : IsDistance ops data sims b) : a = b := by
  obtain ⟨as, ha, rfl⟩ := ha
  obtain ⟨bs, hb, rfl⟩ := hb
  suffices as = bs by rw [this]
  induction ha generalizing bs with
  | nil => cases hb; rfl
  | cons h _ ih =>
    cases hb with
    | cons h' hb =>
      rw [h] at h'
      cases h'
      rw [ih _ hb]

/-- A particle that was made by a simulation and since then only went through `calc_distance`,
`calc_likelihood`, `flatten`, `copy` and the JSON form, in any order and with any outcome. -/
inductive Reached (env : FitEnv N V C O S K D) (m : DataModel N V C O K D) (sims : Dict N (XR K)) :
    Particle N V K → Prop
  | new (pars : Pars N V K) : Reached env m sims (.new pars sims)
  | distance {p : Particle N V K} (s : S) : Reached env m sims p → Reached env m sims (m.calcDistance env p s).1
  | likelihood {p : Particle N V K} (s : S) : Reached env m sims p → Reached env m sims (m.calcLikelihood env p s).1
  | flatten {p : Particle N V K} (s : S) : Reached env m sims p → Reached env m sims (m.flatten env p s).1
  | copy {p q : Particle N V K} : Reached env m sims p → p.copy = .ok q → Reached env m sims q
  | json {p : Particle N V K} {js : ParticleJson N V K} : Reached env m sims p → p.toJson = .ok js →
      Reached env m sims (.fromJson js)

/-- The simulated values of the targets. -/
def IsYs (m : DataModel N V C O K D) (sims ys : Dict N (XR K)) : Prop :=
  m.data.keys.mapM (fun k => match sims.get? k with
    | some y => (.ok (k, y) : Result (N × XR K))
    | none => .error .KeyError) = .ok ys

theorem IsYs.get {m : DataModel N V C O K D} {sims ys : Dict N (XR K)} (h : IsYs m sims ys) (k : N) :
    ys.get? k = if k ∈ m.data.keys then sims.get? k else none := by
  unfold IsYs at h
  generalize m.data.keys = ks at h
  induction ks generalizing ys with
  | nil =>
    simp [pure, Except.pure] at h
    subst h
    simp
  | cons x ks ih =>
    rw [List.mapM_cons] at h
    cases hx : sims.get? x with
    | none => simp [hx, bind, Except.bind] at h
    | some y =>
      simp only [hx, bind, Except.bind] at h
      split at h
      · cases h
      · rename_i ys' hys
        simp only [pure, Except.pure, Except.ok.injEq] at h
        subst h
        rw [Dict.get?_cons, ih hys]
        by_cases hk : x = k
        · subst hk; simp [hx]
        · have hk' : ¬ k = x := fun e => hk e.symm
          simp [hk, hk']

theorem sumTargets_ok (f : Target N K D → Result (XR K)) (ts : List (Target N K D)) (acc di : XR K) :
    DataModel.sumTargets f ts acc = .ok di ↔
      ∃ ds, List.Forall₂ (fun t d => f t = .ok d) ts ds ∧ di = acc + ds.sum := by
  induction ts generalizing acc with
  | nil =>
    simp only [DataModel.sumTargets, Except.ok.injEq, List.forall₂_nil_left_iff, exists_eq_left, List.sum_nil,
      add_zero]
    exact eq_comm
  | cons t ts ih =>
    simp only [DataModel.sumTargets]
    cases ht : f t with
    | error e =>
      simp only [bind, Except.bind, false_iff, reduceCtorEq]
      rintro ⟨ds, h, -⟩
      cases h with
      | cons h _ => rw [ht] at h; cases h
    | ok d =>
      simp only [bind, Except.bind, ih]
      constructor
      · rintro ⟨ds, h, rfl⟩
        exact ⟨d :: ds, .cons ht h, by rw [List.sum_cons, add_assoc]⟩
      · rintro ⟨ds, h, rfl⟩
        cases h with
        | @cons _ d' _ ds h h' =>
          rw [ht] at h
          cases h
          exact ⟨ds, h', by rw [List.sum_cons, add_assoc]⟩

/-- The distance of a target depends on the simulation only through the value of its own name. -/
theorem distance_of_ys (ops : DistOps D K) {m : DataModel N V C O K D} {sims ys : Dict N (XR K)}
    (h : IsYs m sims ys) (t : Target N K D) (d : XR K) (hd : Target.distance ops ys t = .ok d) :
    Target.distance ops sims t = .ok d := by
  have key : ∀ {k : N} {y : XR K}, ys.get? k = some y → sims.get? k = some y := by
    intro k y hk
    rw [h.get] at hk
    split at hk
    · exact hk
    · cases hk
  cases t with
  | pointError n v e sd =>
    simp only [Target.distance] at hd ⊢
    cases hy : ys.get? n with
    | none => simp [hy] at hd
    | some y => simpa [hy, key hy] using hd
  | pointRange n v l u r =>
    simp only [Target.distance] at hd ⊢
    cases hy : ys.get? n with
    | none => simp [hy] at hd
    | some y => simpa [hy, key hy] using hd
  | dist n v dd =>
    simp only [Target.distance, Target.likelihood] at hd ⊢
    cases hy : ys.get? n with
    | none => simp [hy, bind, Except.bind] at hd
    | some y => simpa [hy, key hy] using hd

theorem isDistance_of_ys (ops : DistOps D K) {m : DataModel N V C O K D} {sims ys : Dict N (XR K)} {di : XR K}
    (h : IsYs m sims ys) (hd : DataModel.sumTargets (Target.distance ops ys) (m.data.map Prod.snd) 0 = .ok di) :
    IsDistance ops m.data sims di := by
  obtain ⟨ds, hf, rfl⟩ := (sumTargets_ok _ _ _ _).1 hd
  rw [List.forall₂_map_left_iff] at hf
  exact ⟨ds, hf.imp (fun _ _ h' => distance_of_ys ops h _ _ h'), by rw [zero_add]⟩

/-- What the notes of a reached particle are. -/
structure Clean (env : FitEnv N V C O S K D) (m : DataModel N V C O K D) (sims : Dict N (XR K))
    (p : Particle N V K) : Prop where
  sims_eq : p.sims = sims
  wf : p.notes.WF
  ys : ∀ y, p.notes.get? "Ys" = some y → ∃ d, y = .ys d ∧ IsYs m sims d
  dist : ∀ v, p.notes.get? "distance" = some v → ∃ di, v = .num di ∧ IsDistance env.ops m.data sims di

theorem Clean.setOther {env : FitEnv N V C O S K D} {m : DataModel N V C O K D} {sims : Dict N (XR K)}
    {p : Particle N V K} (h : Clean env m sims p) {key : String} (h1 : key ≠ "Ys") (h2 : key ≠ "distance")
    (v : Note N V K) : Clean env m sims (p.setNote key v) := by
  refine ⟨h.sims_eq, h.wf.set _ _, ?_, ?_⟩
  · intro y hy
    simp only [Particle.setNote] at hy
    rw [Dict.get?_set_ne _ _ h1] at hy
    exact h.ys y hy
  · intro y hy
    simp only [Particle.setNote] at hy
    rw [Dict.get?_set_ne _ _ h2] at hy
    exact h.dist y hy

theorem Clean.setYs {env : FitEnv N V C O S K D} {m : DataModel N V C O K D} {sims : Dict N (XR K)}
    {p : Particle N V K} (h : Clean env m sims p) {ys : Dict N (XR K)} (hy : IsYs m sims ys) :
    Clean env m sims (p.setNote "Ys" (.ys ys)) := by
  refine ⟨h.sims_eq, h.wf.set _ _, ?_, ?_⟩
  · intro y hy'
    simp only [Particle.setNote, Dict.get?_set_self, Option.some.injEq] at hy'
    exact ⟨ys, hy'.symm, hy⟩
  · intro y hy'
    simp only [Particle.setNote] at hy'
    rw [Dict.get?_set_ne _ _ (by decide)] at hy'
    exact h.dist y hy'

theorem Clean.flatten {env : FitEnv N V C O S K D} {m : DataModel N V C O K D} {sims : Dict N (XR K)}
    {p : Particle N V K} (h : Clean env m sims p) (s : S) : Clean env m sims (m.flatten env p s).1 := by
  unfold DataModel.flatten
  split
  · exact h
  · split
    · exact h
    · have h1 : ∀ xs, Clean env m sims (p.setNote "Xs" (.xs xs)) :=
        fun xs => h.setOther (by decide) (by decide) _
      split
      · exact h1 _
      · rename_i ys hys
        refine (h1 _).setYs ?_
        unfold IsYs
        rw [h.sims_eq] at hys
        exact hys

/-- After the lookup of `Ys` (flattening if needed) the particle is clean and the note is what it should be. -/
theorem Clean.calcNote {env : FitEnv N V C O S K D} {m : DataModel N V C O K D} {sims : Dict N (XR K)}
    {p : Particle N V K} (h : Clean env m sims p) (key : String)
    (f : Dict N (XR K) → Target N K D → Result (XR K)) (s : S)
    (hk : key ≠ "Ys") (hf : key ≠ "distance" ∨ f = Target.distance env.ops) :
    Clean env m sims (m.calcNote env key f p s).1 ∧
      ∀ v, (m.calcNote env key f p s).2.2 = .ok v →
        (m.calcNote env key f p s).1.notes.get? key = some v ∧
        (p.notes.get? key = some v ∨
          ∃ ys di, v = .num di ∧ IsYs m sims ys ∧
            DataModel.sumTargets (f ys) (m.data.map Prod.snd) 0 = .ok di) := by
  unfold DataModel.calcNote
  split
  · rename_i v hv
    refine ⟨h, ?_⟩
    intro w hw
    simp only [Except.ok.injEq] at hw
    subst hw
    exact ⟨hv, .inl hv⟩
  · rename_i hnone
    generalize hq : m.lookupYs env p s = q
    have hqc : Clean env m sims q.1 ∧ ∀ y, q.2.2 = .ok y → q.1.notes.get? "Ys" = some y := by
      subst hq
      unfold DataModel.lookupYs
      split
      · rename_i y hy
        refine ⟨h, ?_⟩
        intro y' hy'
        simp only [Except.ok.injEq] at hy'
        subst hy'
        exact hy
      · have hfl := h.flatten s
        split
        · rename_i p' s' e he
          rw [he] at hfl
          exact ⟨hfl, by simp⟩
        · rename_i p' s' he
          rw [he] at hfl
          split
          · rename_i y hy
            refine ⟨hfl, ?_⟩
            intro y' hy'
            simp only [Except.ok.injEq] at hy'
            subst hy'
            exact hy
          · exact ⟨hfl, by simp⟩
    clear hq
    obtain ⟨p', s', r⟩ := q
    obtain ⟨hc, hy⟩ := hqc
    simp only at hc hy
    cases r with
    | error e => exact ⟨hc, by simp⟩
    | ok y =>
      have hy' := hy y rfl
      obtain ⟨ys, rfl, hys⟩ := hc.ys y hy'
      simp only
      split
      · exact ⟨hc, by simp⟩
      · rename_i di hdi
        constructor
        · by_cases hkd : key = "distance"
          · subst hkd
            have hf' : f = Target.distance env.ops := hf.resolve_left (fun hn => hn rfl)
            subst hf'
            refine ⟨hc.sims_eq, hc.wf.set _ _, ?_, ?_⟩
            · intro y hy
              simp only [Particle.setNote] at hy
              rw [Dict.get?_set_ne _ _ hk] at hy
              exact hc.ys y hy
            · intro v hv
              simp only [Particle.setNote, Dict.get?_set_self, Option.some.injEq] at hv
              exact ⟨di, hv.symm, isDistance_of_ys env.ops hys hdi⟩
          · exact hc.setOther hk hkd _
        · intro v hv
          simp only [Except.ok.injEq] at hv
          subst hv
          exact ⟨by simp [Particle.setNote], .inr ⟨ys, di, rfl, hys, hdi⟩⟩

theorem update_nil {X : Type} (e : Dict String X) (he : e.WF) : Dict.update [] e = e := by
  have key : ∀ (e acc : Dict String X), (acc.keys ++ e.keys).Nodup → acc.update e = acc ++ e := by
    intro e
    induction e with
    | nil => intro acc _; simp [Dict.update]
    | cons kv e ih =>
      intro acc hn
      obtain ⟨k, v⟩ := kv
      have hk : k ∉ acc.keys := by
        intro hk
        rw [List.nodup_append] at hn
        exact hn.2.2 k hk k (by simp) rfl
      have hset : acc.set k v = acc ++ [(k, v)] := by
        clear hn ih
        induction acc with
        | nil => rfl
        | cons p acc ih =>
          obtain ⟨k', w⟩ := p
          simp only [Dict.keys_cons, List.mem_cons, not_or] at hk
          have hne : ¬ k' = k := fun e => hk.1 e.symm
          simp [Dict.set, hne, ih hk.2]
      show (acc.set k v).update e = _
      rw [hset, ih _ (by simpa [Dict.keys] using hn)]
      simp
  simpa using key e [] (by simpa [Dict.WF] using he)

/-- C78, JSON: a particle with a chromosome comes back from its JSON form unchanged: parameters, log probability,
simulations and notes. -/
theorem C78_json (p : Particle N V K) (hwf : p.notes.WF) (js : ParticleJson N V K) (h : p.toJson = .ok js) :
    Particle.fromJson js = p := by
  obtain ⟨pars, sims, notes⟩ := p
  cases pars with
  | plain d => simp [Particle.toJson] at h
  | chrom c =>
    simp only [Particle.toJson, Except.ok.injEq] at h
    subst h
    simp only [Particle.fromJson, Particle.new, Chromosome.new, update_nil notes hwf]

/-- C78, copies: a copy has the same parameters and simulations, the notes `Xs` and `Ys`, and no cached distance
or likelihood. -/
theorem C78_copy_forgets (p q : Particle N V K) (h : p.copy = .ok q) :
    q.pars = p.pars ∧ q.sims = p.sims ∧ q.notes.get? "Xs" = p.notes.get? "Xs" ∧
      q.notes.get? "Ys" = p.notes.get? "Ys" ∧ (∀ k, k ≠ "Xs" → k ≠ "Ys" → q.notes.get? k = none) := by
  obtain ⟨pars, sims, notes⟩ := p
  cases pars with
  | plain d => simp [Particle.copy] at h
  | chrom c =>
    simp only [Particle.copy] at h
    cases hx : notes.get? "Xs" <;> cases hy : notes.get? "Ys" <;>
      simp only [hx, hy, Except.ok.injEq] at h <;> subst h <;>
      simp +contextual [Particle.new, Particle.setNote, Chromosome.clone, Chromosome.new, Dict.set, Dict.get?_cons,
        Ne.symm]

theorem Reached.clean {env : FitEnv N V C O S K D} {m : DataModel N V C O K D} {sims : Dict N (XR K)}
    {p : Particle N V K} (h : Reached env m sims p) : Clean env m sims p := by
  induction h with
  | new pars => exact ⟨rfl, Dict.wf_nil, by simp [Particle.new], by simp [Particle.new]⟩
  | distance s _ ih => exact (ih.calcNote "distance" _ s (by decide) (.inr rfl)).1
  | likelihood s _ ih => exact (ih.calcNote "log_lik" _ s (by decide) (.inl (by decide))).1
  | flatten s _ ih => exact ih.flatten s
  | @copy p q _ hc ih =>
    obtain ⟨h1, h2, h3, h4, h5⟩ := C78_copy_forgets p q hc
    refine ⟨h2.trans ih.sims_eq, ?_, ?_, ?_⟩
    · clear h1 h2 h3 h4 h5 ih
      obtain ⟨pars, sims, notes⟩ := p
      cases pars with
      | plain d => simp [Particle.copy] at hc
      | chrom c =>
        simp only [Particle.copy] at hc
        cases hx : notes.get? "Xs" <;> cases hy : notes.get? "Ys" <;>
          simp only [hx, hy, Except.ok.injEq] at hc <;> subst hc <;>
          simp [Particle.new, Particle.setNote, Dict.WF, Dict.set, Dict.keys]
    · intro y hy
      rw [h4] at hy
      exact ih.ys y hy
    · intro v hv
      rw [h5 _ (by decide) (by decide)] at hv
      cases hv
  | @json p js _ hj ih =>
    rw [C78_json p ih.wf js hj]
    exact ih

/-- C78, the value: whatever a particle went through since its simulation, a distance that `calc_distance` returns
is the sum of the distances of the targets to its simulated values, and it does not change the simulation. -/
theorem C78_value (env : FitEnv N V C O S K D) (m : DataModel N V C O K D) (sims : Dict N (XR K))
    (p p' : Particle N V K) (hp : Reached env m sims p) (s s' : S) (v : Note N V K)
    (h : m.calcDistance env p s = (p', s', .ok v)) :
    ∃ di, v = .num di ∧ IsDistance env.ops m.data sims di ∧ p'.sims = sims := by
  obtain ⟨hc, hv⟩ := hp.clean.calcNote "distance" (Target.distance env.ops) s (by decide) (.inr rfl)
  unfold DataModel.calcDistance at h
  rw [h] at hc hv
  obtain ⟨h1, -⟩ := hv v rfl
  obtain ⟨di, rfl, hdi⟩ := hc.dist v h1
  exact ⟨di, rfl, hdi, hc.sims_eq⟩

/-- The particle of the running example. -/
def exParticle : Particle String Toy.TV ℚ := .new (.chrom exChrom) exSims

example : Reached exEnv exModel exSims exParticle ∧ exParticle.notes.get? "distance" = none ∧
    (exModel.calcDistance exEnv exParticle 5).2.2 = .ok (.num (.fin (147 / 50))) ∧
    (∃ js, exParticle.toJson = .ok js) ∧ (∃ q, (exModel.calcDistance exEnv exParticle 5).1.copy = .ok q) :=
  ⟨.new _, rfl, by decide +kernel, ⟨_, rfl⟩, ⟨_, rfl⟩⟩

/-- C78, later calls: the second call returns the same value, changes nothing and uses no random number; and so
does every call on a particle reached from the first one's result, copies included. -/
theorem C78_again (env : FitEnv N V C O S K D) (m : DataModel N V C O K D) (sims : Dict N (XR K))
    (p p' : Particle N V K) (hp : Reached env m sims p) (s s' : S) (v : Note N V K)
    (h : m.calcDistance env p s = (p', s', .ok v)) :
    (∀ s'', m.calcDistance env p' s'' = (p', s'', .ok v)) ∧
    (∀ q q' t t' w, Reached env m sims q → m.calcDistance env q t = (q', t', .ok w) → w = v) := by
  obtain ⟨hc, hv⟩ := hp.clean.calcNote "distance" (Target.distance env.ops) s (by decide) (.inr rfl)
  obtain ⟨di, hdi, hd, -⟩ := C78_value env m sims p p' hp s s' v h
  constructor
  · intro s''
    unfold DataModel.calcDistance at h ⊢
    rw [h] at hv
    obtain ⟨h1, -⟩ := hv v rfl
    unfold DataModel.calcNote
    simp only at h1
    rw [h1]
  · intro q q' t t' w hq hw
    obtain ⟨di', hdi', hd', -⟩ := C78_value env m sims q q' hq t t' w hw
    rw [hdi, hdi', hd.unique hd']

/-- C78, copies recompute: once the distance of a particle has been computed, every copy of it computes the same
value again, without a random number. -/
theorem C78_copy (env : FitEnv N V C O S K D) (m : DataModel N V C O K D) (sims : Dict N (XR K))
    (p p' q : Particle N V K) (hp : Reached env m sims p) (hfresh : p.notes.get? "distance" = none) (s s' : S)
    (v : Note N V K) (h : m.calcDistance env p s = (p', s', .ok v)) (hq : p'.copy = .ok q) (t : S) :
    ∃ q', m.calcDistance env q t = (q', t, .ok v) ∧ q'.pars = p.pars := by
  have hp' : Reached env m sims p' := by
    have := hp.distance s
    rw [h] at this
    exact this
  have hcl := hp'.clean
  obtain ⟨hqp, hqs, -, hqy, hqn⟩ := C78_copy_forgets p' q hq
  -- the particle after the first call holds `Ys`, and the sum over it is the distance
  have hys : ∃ ys di, v = .num di ∧ p'.notes.get? "Ys" = some (.ys ys) ∧ p'.pars = p.pars ∧
      DataModel.sumTargets (Target.distance env.ops ys) (m.data.map Prod.snd) 0 = .ok di := by
    have hfp : ∀ s1, (m.flatten env p s1).1.pars = p.pars := by
      intro s1
      unfold DataModel.flatten
      split
      · rfl
      · split
        · rfl
        · split <;> rfl
    unfold DataModel.calcDistance DataModel.calcNote DataModel.lookupYs at h
    rw [hfresh] at h
    simp only at h
    cases hy : p.notes.get? "Ys" with
    | some y =>
      obtain ⟨ys, rfl, -⟩ := hp.clean.ys y hy
      simp only [hy] at h
      cases hst : DataModel.sumTargets (Target.distance env.ops ys) (m.data.map Prod.snd) 0 with
      | error e => simp [hst] at h
      | ok di =>
        simp only [hst, Prod.mk.injEq, Except.ok.injEq] at h
        obtain ⟨rfl, -, rfl⟩ := h
        refine ⟨ys, di, rfl, ?_, rfl, hst⟩
        simp only [Particle.setNote]
        rw [Dict.get?_set_ne _ _ (by decide), hy]
    | none =>
      simp only [hy] at h
      have hfl := hp.clean.flatten s
      have hpp := hfp s
      rcases hfe : m.flatten env p s with ⟨p1, s1, r⟩
      rw [hfe] at h hfl hpp
      cases r with
      | error e => simp at h
      | ok u =>
        simp only at h
        cases hy1 : p1.notes.get? "Ys" with
        | none => simp [hy1] at h
        | some y =>
          obtain ⟨ys, rfl, -⟩ := hfl.ys y hy1
          simp only [hy1] at h
          cases hst : DataModel.sumTargets (Target.distance env.ops ys) (m.data.map Prod.snd) 0 with
          | error e => simp [hst] at h
          | ok di =>
            simp only [hst, Prod.mk.injEq, Except.ok.injEq] at h
            obtain ⟨rfl, -, rfl⟩ := h
            refine ⟨ys, di, rfl, ?_, hpp, hst⟩
            simp only [Particle.setNote]
            rw [Dict.get?_set_ne _ _ (by decide), hy1]
  obtain ⟨ys, di, rfl, hy, hpars, hst⟩ := hys
  refine ⟨q.setNote "distance" (.num di), ?_, ?_⟩
  · unfold DataModel.calcDistance DataModel.calcNote DataModel.lookupYs
    rw [hqn "distance" (by decide) (by decide)]
    simp only [hqy, hy, hst]
  · exact hqp.trans hpars

/-- C78 fails for particles with plain parameters, as history matching makes them: they can neither be copied nor
turned into JSON. -/
theorem C78_refuted (d : Dict N V) (sims : Dict N (XR K)) :
    (Particle.new (.plain d) sims : Particle N V K).toJson = .error .AttributeError ∧
      (Particle.new (.plain d) sims : Particle N V K).copy = .error .AttributeError := ⟨rfl, rfl⟩

end Props.FitBase
