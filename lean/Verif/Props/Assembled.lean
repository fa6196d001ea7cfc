import Verif.Model.Assembled
import Verif.Props.Smc
import Verif.Props.Spread
import Verif.Props.Chromosome
import Verif.Props.Relatives

/-!
# The fitting algorithms on a data model (C166 - C168)
-/

namespace Props.Assembled
set_option linter.unusedSectionVars false

open Py Spec Relation Model Model.Digraph Model.BN Model.Spread Props.Sampling Props.FitBase Props.Chromosome

/-! ### What holds of all particles of a run -/

section Invariant

open Model.Smc

variable {S Θ T P K : Type} [Field K] [LinearOrder K] [IsStrictOrderedRing K] [FloorSemiring K]

/-- The states that a run goes through that was started with `set_parents(parents)`, or without it. -/
inductive ReachedFrom (env : SmcEnv S Θ T P K) (set : SmcSettings K) (parents : Option (List P)) : SmcState Θ K → Prop
  | init {fuel : Nat} {s s' : S} {st : SmcState Θ K} :
      initialise env set fuel parents s = some (.ok st, s') → ReachedFrom env set parents st
  | round {fuel : Nat} {s s' : S} {st st' : SmcState Θ K} : ReachedFrom env set parents st →
      aRound env set fuel st s = some (.ok st', s') → ReachedFrom env set parents st'

theorem ReachedFrom.reached {env : SmcEnv S Θ T P K} {set : SmcSettings K} {parents : Option (List P)}
    {st : SmcState Θ K} (h : ReachedFrom env set parents st) : Props.Smc.Reached env set st := by
  induction h with
  | init h => exact .init h
  | round _ h ih => exact .round ih h

theorem sampleFin_from (env : SimEnv S Θ K) {fuel n : Nat} {s s' : S} {r : XR K × Θ × Nat}
    (h : sampleFin env fuel n s = some (.ok r, s')) :
    (env.dist r.2.1).isInf = false ∧ ∃ t t', env.prior t = (.ok r.2.1, t') := by
  induction fuel generalizing n s with
  | zero => exact absurd h Run.more_ok
  | succ fuel ih =>
    obtain ⟨x, s1, hx, h⟩ := Run.bind_ok.1 h
    split at h
    · exact ih h
    · rename_i hi
      obtain ⟨rfl, -⟩ := Run.pure_ok.1 h
      exact ⟨by simpa using hi, _, _, Run.lift_ok.1 hx⟩

theorem sampleEssLoop_from (env : SimEnv S Θ K) (eps : XR K) {fuel n : Nat} {s s' : S} {r : XR K × Θ × Nat}
    (h : sampleEssLoop env eps fuel n s = some (.ok r, s')) :
    ∃ t t', env.prior t = (.ok r.2.1, t') := by
  induction fuel generalizing n s with
  | zero => exact absurd h Run.more_ok
  | succ fuel ih =>
    obtain ⟨x, s1, hx, h⟩ := Run.bind_ok.1 h
    split at h
    · exact ih h
    · obtain ⟨rfl, -⟩ := Run.pure_ok.1 h
      exact ⟨_, _, Run.lift_ok.1 hx⟩

theorem sampleMutation_from {env : SmcEnv S Θ T P K} {par : Bool} {tau : T} {pt0 : Pt Θ} {fuel n : Nat} {s s' : S}
    {r : XR K × Pt Θ × Nat} (h : sampleMutation env par tau pt0 fuel n s = some (.ok r, s')) :
    r.2.1 = pt0 ∨ (env.dist r.2.1.val).isInf = false ∧ ∃ t t', env.propose tau pt0.val t = (.ok (some r.2.1.val), t') := by
  induction fuel generalizing n s with
  | zero => exact absurd h Run.more_ok
  | succ fuel ih =>
    obtain ⟨x, s1, hx, h⟩ := Run.bind_ok.1 h
    cases x with
    | none => exact ih h
    | some sim =>
      simp only at h
      split at h
      · split at h
        · exact absurd h Run.fail_ok
        · obtain ⟨rfl, -⟩ := Run.pure_ok.1 h
          exact .inl rfl
      · split at h
        · exact ih h
        · rename_i hi
          obtain ⟨rfl, -⟩ := Run.pure_ok.1 h
          exact .inr ⟨by simpa using hi, _, _, Run.lift_ok.1 hx⟩

theorem pickParents_mem {env : SmcEnv S Θ T P K} {ps p0s : List P} {n : Nat} {s s' : S}
    (h : pickParents env ps n s = some (.ok p0s, s')) : ∀ p ∈ p0s, p ∈ ps := by
  unfold pickParents at h
  split at h
  · obtain ⟨rfl, -⟩ := Run.pure_ok.1 h
    simp
  · obtain ⟨is, s2, -, h4⟩ := Run.bind_ok.1 h
    replace h4 := (Run.ofResult_ok.1 h4).1
    clear h
    induction is generalizing p0s with
    | nil =>
      simp [pure, Except.pure] at h4
      subst h4
      simp
    | cons i is ih =>
      rw [List.mapM_cons] at h4
      cases hi : ps[i]? with
      | none => simp [hi, bind, Except.bind] at h4
      | some p =>
        simp only [hi, bind, Except.bind] at h4
        split at h4
        · cases h4
        · rename_i l hl
          simp only [pure, Except.pure, Except.ok.injEq] at h4
          subst h4
          intro q hq
          rcases List.mem_cons.1 hq with rfl | hq
          · exact List.mem_of_getElem? hi
          · exact ih hl q hq

/-- The first particles: without parents, draws from the prior; with parents, draws continued from one of them. -/
theorem first_from {env : SmcEnv S Θ T P K} {set : SmcSettings K} {fuel : Nat} {parents : Option (List P)}
    {s s' : S} {st : SmcState Θ K} (h : initialise env set fuel parents s = some (.ok st, s')) :
    ∀ p ∈ st.pts, (env.dist p.val).isInf = false ∧
      ((parents = none ∧ ∃ t t', env.prior t = (.ok p.val, t')) ∨
        ∃ ps, parents = some ps ∧ ∃ p0 ∈ ps, ∃ t t', env.priorFrom p0 t = (.ok p.val, t')) := by
  obtain ⟨-, r, s1, h1, -, hp, -⟩ := Props.Smc.initialise_ok h
  intro p hpm
  rw [hp] at hpm
  obtain ⟨x, hx, rfl⟩ := List.mem_map.1 hpm
  cases parents with
  | none =>
    obtain ⟨t, t', hx⟩ := (Run.times_ok h1).2 x hx
    obtain ⟨h3, h4⟩ := sampleFin_from _ hx
    exact ⟨h3, .inl ⟨rfl, h4⟩⟩
  | some ps =>
    obtain ⟨p0s, s2, h2, h3⟩ := Run.bind_ok.1 h1
    have hf := Run.each_ok h3
    obtain ⟨k, hk, rfl⟩ := List.getElem_of_mem hx
    have hk' : k < p0s.length := by rw [hf.length_eq]; exact hk
    obtain ⟨t, t', hx⟩ := List.forall₂_iff_get.1 hf |>.2 k hk' hk
    obtain ⟨h4, h5⟩ := sampleFin_from _ hx
    exact ⟨h4, .inr ⟨ps, rfl, p0s[k], pickParents_mem h2 _ (List.getElem_mem hk'), h5⟩⟩

/-- A round: every particle is one of the particles before, or was proposed from one of them. -/
theorem round_from {env : SmcEnv S Θ T P K} (hh : env.rng.Honest) {set : SmcSettings K} {fuel : Nat}
    {st st' : SmcState Θ K} {s s' : S} (h : aRound env set fuel st s = some (.ok st', s')) :
    ∀ p ∈ st'.pts, ∃ q ∈ st.pts, p.val = q.val ∨ ((env.dist p.val).isInf = false ∧
      ∃ tau pts ws t t' t1 t1', env.spread pts ws t = (.ok tau, t') ∧ env.propose tau q.val t1 = (.ok (some p.val), t1')) := by
  obtain ⟨q, s1, s2, m, -, -, -, -, -, h1, h2⟩ := Props.Smc.aRound_ok h
  obtain ⟨-, h3⟩ := Props.Smc.resample_ok hh h1
  have hm : ∀ p ∈ m, ∃ q ∈ st.pts, p.val = q.val := by
    intro p hp
    rcases h3 with ⟨-, h3⟩ | ⟨-, -, h3⟩
    · simp only at h3
      rw [h3] at hp
      obtain ⟨x, hx, rfl⟩ := List.mem_map.1 hp
      exact ⟨x, hx, rfl⟩
    · obtain ⟨i, x, w, hx, rfl, -⟩ := h3 p hp
      exact ⟨x, List.mem_of_getElem? hx, rfl⟩
  unfold mcmcProposal at h2
  split at h2
  · exact absurd h2 Run.fail_ok
  · obtain ⟨tau, t1, htau, h2⟩ := Run.bind_ok.1 h2
    obtain ⟨sp, t2, hsp, h2⟩ := Run.bind_ok.1 h2
    obtain ⟨⟨pts, acc⟩, t3, hacc, h2⟩ := Run.bind_ok.1 h2
    obtain ⟨h4, -⟩ := Run.pure_ok.1 h2
    replace hacc := Run.lift_ok.1 hacc
    simp only [Prod.mk.injEq, Except.ok.injEq] at hacc h4
    have ha := (Props.Smc.acceptLoop_ok hh st'.eps (m.zip (sp.map (·.2.1))) t2).1
    rw [hacc.1] at ha
    simp only at ha
    rw [h4.1] at ha
    have he := Run.each_ok hsp
    intro p hp
    obtain ⟨k, hk, rfl⟩ := List.getElem_of_mem hp
    have hl := ha.length_eq
    have hk' : k < (m.zip (sp.map (·.2.1))).length := by rw [hl]; exact hk
    have hka := List.forall₂_iff_get.1 ha |>.2 k hk' hk
    rw [List.length_zip, List.length_map, lt_min_iff] at hk'
    obtain ⟨u, u', hke⟩ := List.forall₂_iff_get.1 he |>.2 k hk'.1 hk'.2
    simp only [List.get_eq_getElem, List.getElem_zip, List.getElem_map] at hka hke
    obtain ⟨q, hq, hqv⟩ := hm m[k] (List.getElem_mem hk'.1)
    refine ⟨q, hq, ?_⟩
    split at hka
    · rcases sampleMutation_from hke with h5 | ⟨h5, t, t', h6⟩
      · left
        rw [hka, h5, hqv]
      · right
        rw [hka]
        rw [hqv] at h6
        exact ⟨h5, tau, _, _, _, _, t, t', Run.lift_ok.1 htau, h6⟩
    · left
      rw [hka, hqv]

/-- The posterior consists of particles of the state. -/
theorem posterior_from {env : SmcEnv S Θ T P K} {set : SmcSettings K} {fuel n : Nat} {st : SmcState Θ K} {s s' : S}
    {post : List (Pt Θ)} (h : Smc.samplePosteriors env set fuel (some st) n s = some (.ok post, s')) :
    ∀ p ∈ post, p ∈ st.pts := by
  unfold Smc.samplePosteriors at h
  obtain ⟨is, s1, -, h⟩ := Run.bind_ok.1 h
  obtain ⟨th, s2, h2, h⟩ := Run.bind_ok.1 h
  obtain ⟨tau, s3, -, h⟩ := Run.bind_ok.1 h
  obtain ⟨sp, s4, -, h⟩ := Run.bind_ok.1 h
  obtain ⟨rfl, -⟩ := Run.pure_ok.1 h
  have hf := Props.Smc.takePts_ok _ _ _ (Run.ofResult_ok.1 h2).1
  intro p hp
  obtain ⟨⟨a, b⟩, hab, rfl⟩ := List.mem_map.1 hp
  have ha := (List.of_mem_zip hab).1
  simp only [ite_self]
  obtain ⟨k, hk, rfl⟩ := List.getElem_of_mem ha
  have hk' : k < is.length := by rw [hf.length_eq]; exact hk
  have := List.forall₂_iff_get.1 hf |>.2 k hk' hk
  simp only [List.get_eq_getElem] at this
  exact List.mem_of_getElem? this

theorem update_reached {env : SmcEnv S Θ T P K} {set : SmcSettings K} {parents : Option (List P)} {fuel k : Nat}
    {st st' : SmcState Θ K} {s s' : S} (hr : ReachedFrom env set parents st)
    (h : Smc.update env set fuel k st s = .done st' s') : ReachedFrom env set parents st' := by
  induction k generalizing st s with
  | zero => simp [Smc.update] at h
  | succ k ih =>
    unfold Smc.update at h
    split at h
    · cases h
    · cases h
    · rename_i st1 s1 h1
      have hr1 := ReachedFrom.round hr h1
      split at h
      · cases h
        exact hr1
      · exact ih hr1 h

/-- The posterior of rejection ABC consists of draws from the prior. -/
theorem collect_from (env : SimEnv S Θ K) {eps : XR K} {fuel n : Nat} {par : Bool} {s s' : S} {r : List Θ × Nat}
    (h : Abc.collect env eps fuel par n s = some (.ok r, s')) :
    ∀ p ∈ r.1, XR.lt eps (env.dist p) = false ∧ ∃ t t', env.prior t = (.ok p, t') := by
  have hone : ∀ t t' y, sampleEss env eps fuel t = some (.ok y, t') →
      XR.lt eps (env.dist y.2.1) = false ∧ ∃ t t', env.prior t = (.ok y.2.1, t') := by
    intro t t' y hy
    obtain ⟨-, h1, h2, -⟩ := Props.Abc.sampleEss_ok env eps hy
    refine ⟨h1 ▸ h2, ?_⟩
    unfold sampleEss at hy
    split at hy
    · exact sampleEssLoop_from env eps hy
    · exact absurd hy Run.fail_ok
  unfold Abc.collect at h
  split at h
  · unfold Abc.collectParallel at h
    obtain ⟨ys, s1, h1, h⟩ := Run.bind_ok.1 h
    obtain ⟨rfl, -⟩ := Run.pure_ok.1 h
    intro p hp
    obtain ⟨y, hy, rfl⟩ := List.mem_map.1 hp
    obtain ⟨t, t', hy⟩ := (Run.times_ok h1).2 y hy
    exact hone _ _ _ hy
  · suffices key : ∀ n post k s, Abc.collectSerial env eps fuel n post k s = some (.ok r, s') →
        (∀ p ∈ post, XR.lt eps (env.dist p) = false ∧ ∃ t t', env.prior t = (.ok p, t')) →
        ∀ p ∈ r.1, XR.lt eps (env.dist p) = false ∧ ∃ t t', env.prior t = (.ok p, t') by
      exact key _ _ _ _ h (by simp)
    clear h
    intro n
    induction n with
    | zero =>
      intro post k s h hp
      obtain ⟨rfl, -⟩ := Run.pure_ok.1 h
      exact hp
    | succ n ih =>
      intro post k s h hp
      unfold Abc.collectSerial at h
      obtain ⟨y, s1, h1, h⟩ := Run.bind_ok.1 h
      refine ih _ _ _ h ?_
      intro p hpm
      rcases List.mem_append.1 hpm with hpm | hpm
      · exact hp p hpm
      · rw [List.mem_singleton.1 hpm]
        exact hone _ _ _ h1

end Invariant

/-! ### C166: what the particles of a fit are -/

variable {N V C O S K D : Type} [DecidableEq N] [Field K] [LinearOrder K] [IsStrictOrderedRing K] [FloorSemiring K]

/-- A random variable that depends on no other one. -/
abbrev RandomRoot (bn : BN N V C O) (x : N) : Prop := Props.SimCore.RandomRoot bn x

/-- The parameters of a particle are complete and fit together: the exogenous values, a value for every node and
nothing else, every node that is neither exogenous nor a random root follows its definition on these values, and
`LogProb` is their log density.  Its simulation was run on these parameters, and its distance is the distance of that
simulation to the data. -/
def Faithful (u : Study N V C O S K D) (pt : Particle N V K) : Prop :=
  ∃ ch : Chromosome N V K, pt.pars = .chrom ch ∧
    (∀ k v, u.model.exo.get? k = some v → ch.locus.get? k = some v) ∧
    (∀ k, k ∈ ch.locus.keys ↔ k ∈ u.model.exo.keys ∨ k ∈ u.model.bn.dag.nodes) ∧
    (∀ x ∈ u.model.bn.dag.nodes, x ∉ u.model.exo.keys → ¬ RandomRoot u.model.bn x →
      Consistent u.env.sem u.model.bn ch x) ∧
    evaluateNodes u.env.sem u.model.bn ch.locus = .ok ch.logProb ∧
    (∃ t t', u.simulate ch t = (.ok pt.sims, t')) ∧
    ∃ d, pt.notes.get? "distance" = some (.num d) ∧ IsDistance u.env.ops u.model.data pt.sims d

/-- What is asked of the study: a network built by its own methods, and no variable named like a function that a
definition uses. -/
structure Sound (u : Study N V C O S K D) : Prop where
  closed : ∀ c, (u.env.sem.reparse c).names = []
  ready : Ready u.model.bn
  exo : u.model.exo.WF
  noShadow : NoShadow u.model.bn u.model.exo.keys
  rng : u.rng.Honest

/-- A source of choices: the first index of positive probability. -/
def ownRand : Rand Int ℚ where
  random := fun s => (1 / 2, s + 1)
  pick := fun p n s => (List.replicate n (p.findIdx (fun w => XR.lt (.fin 0) w)), s + 1)

/-- The running example of `Props.FitBase`, with a simulation that reports `y` and half of it. -/
def exStudy : Study String Toy.TV Toy.TC Unit Int ℚ Unit where
  env := { exEnv with sem := { exSem with reparse := .const } }
  model := exModel
  simulate := fun ch s => match ch.locus.get? "y" with
    | some (.num n) => (.ok [("a", .fin (n : ℚ)), ("b", .fin ((n : ℚ) / 2))], s)
    | _ => (.error .KeyError, s)
  isNone := Props.Chromosome.exNone
  ops := Props.Spread.exOps
  normal := fun sd s => (-sd, s + 1)
  sqrt := id
  rng := ownRand

/-- The same with a simulation whose results come round again. -/
def exAgain : Study String Toy.TV Toy.TC Unit Int ℚ Unit :=
  { exStudy with
    simulate := fun ch s => match ch.locus.get? "y" with
      | some (.num n) => (.ok [("a", .fin ((n % 14 : Int) : ℚ)), ("b", .fin (((n % 14 : Int) : ℚ) / 2))], s)
      | _ => (.error .KeyError, s) }

/-- Settings to try it with. -/
def exSetting : SmcSettings ℚ where
  nIter := 4
  parallel := false
  alpha := 9 / 10
  pThres := 6 / 10
  maxRound := 2
  maxStay := 3
  minAcc := 1 / 10

theorem ownRand_honest : ownRand.Honest where
  random := fun s => ⟨by norm_num [ownRand], by norm_num [ownRand]⟩
  size := fun p n s _ => by simp [ownRand]
  support := by
    intro p n s hv i hi
    obtain ⟨w, hw, hpos⟩ := Lemmas.exists_pos_of_valid p hv
    have hlt : p.findIdx (fun w => XR.lt (.fin 0) w) < p.length := List.findIdx_lt_length.2 ⟨w, hw, hpos⟩
    simp only [ownRand, List.mem_replicate] at hi
    rw [hi.2]
    exact ⟨_, List.getElem?_eq_getElem hlt, List.findIdx_getElem⟩

theorem exStudy_sound : Sound exStudy where
  closed := fun _ => rfl
  ready := exReady
  exo := by unfold Dict.WF; decide
  noShadow := noShadow_of_check (by decide)
  rng := ownRand_honest

theorem flatten_pars (env : FitEnv N V C O S K D) (m : DataModel N V C O K D) (p : Particle N V K) (s : S) :
    (m.flatten env p s).1.pars = p.pars := by
  unfold DataModel.flatten
  split
  · rfl
  · split
    · rfl
    · split <;> rfl

theorem calcDistance_pars (env : FitEnv N V C O S K D) (m : DataModel N V C O K D) (p : Particle N V K) (s : S) :
    (m.calcDistance env p s).1.pars = p.pars := by
  have hl : (m.lookupYs env p s).1.pars = p.pars := by
    unfold DataModel.lookupYs
    have hf := flatten_pars env m p s
    split
    · rfl
    · split
      · rename_i h; rw [h] at hf; exact hf
      · rename_i h
        rw [h] at hf
        split <;> exact hf
  unfold DataModel.calcDistance DataModel.calcNote
  split
  · rfl
  · split
    · rename_i h; rw [h] at hl; exact hl
    · rename_i h
      rw [h] at hl
      split
      · exact hl
      · exact hl
    · rename_i h; rw [h] at hl; split <;> exact hl

/-- A simulated particle: its parameters, its simulation and its distance. -/
theorem run_ok {u : Study N V C O S K D} {p : Chromosome N V K} {s s' : S} {pt : Particle N V K}
    (h : u.run p s = (.ok pt, s')) :
    pt.pars = .chrom p ∧ (∃ t t', u.simulate p t = (.ok pt.sims, t')) ∧
      ∃ d, pt.notes.get? "distance" = some (.num d) ∧ IsDistance u.env.ops u.model.data pt.sims d := by
  unfold Study.run at h
  split at h
  · cases h
  · rename_i sims s1 hs
    split at h
    · cases h
    · rename_i pt' s2 v hd
      simp only [Prod.mk.injEq, Except.ok.injEq] at h
      obtain ⟨rfl, -⟩ := h
      have hp := calcDistance_pars u.env u.model (.new (.chrom p) sims) s1
      have hr : Reached u.env u.model sims (.new (.chrom p) sims) := .new _
      obtain ⟨hc, hv⟩ := hr.clean.calcNote "distance" (Target.distance u.env.ops) s1 (by decide) (.inr rfl)
      rw [hd] at hp
      unfold DataModel.calcDistance at hd
      rw [hd] at hc hv
      obtain ⟨h1, -⟩ := hv v rfl
      obtain ⟨di, rfl, hdi⟩ := hc.dist v h1
      refine ⟨hp, ?_, di, h1, ?_⟩
      · rw [hc.sims_eq]; exact ⟨s, s1, hs⟩
      · rw [hc.sims_eq]; exact hdi

theorem domain_names {env : FitEnv N V C O S K D} {m : DataModel N V C O K D} (hr : Ready m.bn) {t t' : S}
    {doms : List (Dom N K)} (h : m.domain env t = (.ok doms, t')) : ∀ x ∈ doms.map Dom.name, RandomRoot m.bn x := by
  obtain ⟨rr, hrr, -, hx⟩ := Props.SimCore.ready_roots hr
  unfold DataModel.domain at h
  simp only [hrr] at h
  split at h
  · cases h
  · rename_i p s1 hp
    simp only [Prod.mk.injEq] at h
    obtain ⟨hd, -⟩ := h
    suffices key : ∀ (l : List N) (ds : List (Dom N K)), l.mapM (m.domainOf env p) = .ok ds → ds.map Dom.name = l by
      rw [key rr doms hd]
      exact fun x h => (hx x).1 h
    intro l
    induction l with
    | nil =>
      intro ds h
      simp [pure, Except.pure] at h
      subst h
      rfl
    | cons x l ih =>
      intro ds h
      rw [List.mapM_cons] at h
      simp only [bind, Except.bind] at h
      split at h
      · cases h
      · rename_i d hdx
        split at h
        · cases h
        · rename_i ds' hds
          simp only [pure, Except.pure, Except.ok.injEq] at h
          subst h
          rw [List.map_cons, ih ds' hds]
          congr 1
          unfold DataModel.domainOf at hdx
          simp only [bind, Except.bind] at hdx
          split at hdx
          · cases hdx
          · split at hdx
            · split at hdx
              · cases hdx
              · split at hdx
                · cases hdx
                · simp only [pure, Except.pure, Except.ok.injEq] at hdx
                  subst hdx
                  rfl
            · cases hdx

/-- Step sizes are given to random roots only. -/
theorem spread_roots {u : Study N V C O S K D} (hu : Sound u) {pts : List (Particle N V K)} {ws : List (XR K)}
    {s s' : S} {tau : Dict N K} (h : u.spread pts ws s = (.ok tau, s')) : ∀ k ∈ tau.keys, RandomRoot u.model.bn k := by
  unfold Study.spread at h
  split at h
  · cases h
  · unfold calcWeightedStd at h
    split at h
    · cases h
    · rename_i doms s1 hd
      simp only [Prod.mk.injEq] at h
      have hn := domain_names hu.ready hd
      intro k hk
      obtain ⟨-, h3⟩ := Props.Spread.steps_ok h.1 k
      by_contra hno
      have := h3 (fun hc => hno (hn k hc))
      rw [Dict.mem_keys_iff_exists, this] at hk
      simp [Dict.get?] at hk

theorem root_node {bn : BN N V C O} (hr : Ready bn) {x : N} (h : RandomRoot bn x) : x ∈ bn.dag.nodes := by
  obtain ⟨⟨l, hl, -⟩, -⟩ := h
  exact (hr.facts.1.defined x).1 ⟨_, hl⟩

theorem sample_faithful {u : Study N V C O S K D} (hu : Sound u) {cond r : Dict N V} {s s' : S}
    (hk : ∀ k, k ∈ cond.keys → k ∈ u.model.exo.keys ∨ RandomRoot u.model.bn k)
    (h : sample u.env.sem u.model.bn cond s = (.ok r, s')) (ch : Chromosome N V K) (hch : ch.locus = r) :
    ∀ x ∈ u.model.bn.dag.nodes, x ∉ u.model.exo.keys → ¬ RandomRoot u.model.bn x →
      Consistent u.env.sem u.model.bn ch x := by
  intro x hx hxe hxr
  have hns : NoShadow u.model.bn cond.keys := by
    intro y n f ps hl z hz
    rcases hu.noShadow y n f ps hl z hz with h | ⟨h1, h2⟩
    · exact .inl h
    · refine .inr ⟨h1, fun hc => ?_⟩
      rcases hk z hc with hc | hc
      · exact h2 hc
      · exact h1 (root_node hu.ready hc)
  have hxc : x ∉ cond.keys := fun hc => (hk x hc).elim hxe hxr
  obtain ⟨l, v, s1, s2, h1, h2, h3⟩ := C24_consistent u.env.sem hu.closed hu.ready hns h hx hxc
  exact ⟨l, v, s1, s2, h1, by rw [hch]; exact h2, by rw [hch]; exact h3⟩

theorem prior_faithful {u : Study N V C O S K D} (hu : Sound u) {s s' : S} {pt : Particle N V K}
    (h : u.prior s = (.ok pt, s')) : Faithful u pt := by
  unfold Study.prior at h
  split at h
  · cases h
  · rename_i p s1 hp
    obtain ⟨h1, h2, h3⟩ := run_ok h
    obtain ⟨k1, k2, k3⟩ := C77_prior u.env u.model hu.ready _ _ _ hp
    refine ⟨p, h1, k1, k2, ?_, k3, h2, h3⟩
    unfold DataModel.samplePrior at hp
    split at hp
    · cases hp
    · rename_i r s2 hr
      split at hp
      · cases hp
      · simp only [Prod.mk.injEq, Except.ok.injEq] at hp
        obtain ⟨rfl, -⟩ := hp
        exact sample_faithful hu (fun k hk => .inl hk) hr _ rfl

theorem propose_faithful {u : Study N V C O S K D} (hu : Sound u) {tau : Dict N K}
    (ht : ∀ k ∈ tau.keys, RandomRoot u.model.bn k) {pt0 pt : Particle N V K} {s s' : S}
    (h : u.propose tau pt0 s = (.ok (some pt), s')) : Faithful u pt := by
  unfold Study.propose at h
  split at h
  · cases h
  · rename_i p1 s1 hp
    split at h
    · cases h
    · split at h
      · cases h
      · rename_i sim s2 hr
        simp only [Prod.mk.injEq, Except.ok.injEq, Option.some.injEq] at h
        obtain ⟨rfl, -⟩ := h
        obtain ⟨h1, h2, h3⟩ := run_ok hr
        unfold Spread.propose at hp
        split at hp
        · cases hp
        · rename_i q s3 hm
          have hf := Props.Spread.mutate_ok hm
          have hkeys : q.keys = tau.keys := by
            clear hm hp ht
            unfold Dict.keys
            induction hf with
            | nil => rfl
            | cons hab _ ih => rw [List.map_cons, List.map_cons, ih, hab.1]
          obtain ⟨k1, -, k3, k4⟩ := C77 u.env u.model hu.ready hu.exo q s3 s1 p1 hp
          refine ⟨p1, h1, k1, fun k => ?_, ?_, k4, h2, h3⟩
          · rw [k3, hkeys]
            constructor
            · rintro (hk | hk)
              · exact .inr (root_node hu.ready (ht k hk))
              · exact hk
            · exact .inr
          · unfold DataModel.serve at hp
            rw [C27_chromosome] at hp
            obtain ⟨r, hr1, hr2, -⟩ := hp
            refine sample_faithful hu (fun k hk => ?_) hr1 _ hr2
            rw [Dict.mem_keys_update, hkeys] at hk
            exact hk.symm.imp id (ht k)

/-- **C166**: in every state that a run of the SMC algorithm on a data model reaches (without `set_parents`), every
particle has parameters that are complete and fit together, a simulation of exactly these parameters, and the
distance of this simulation to the data, which is not infinite. -/
theorem C166 (u : Study N V C O S K D) (hu : Sound u) (set : SmcSettings K) (st : SmcState (Particle N V K) K)
    (h : ReachedFrom u.smcEnv set none st) :
    ∀ p ∈ st.pts, Faithful u p.val ∧ (Study.distance p.val).isInf = false := by
  induction h with
  | init h =>
    intro p hp
    obtain ⟨h1, h2⟩ := first_from h p hp
    rcases h2 with ⟨-, t, t', h2⟩ | ⟨ps, h2, -⟩
    · exact ⟨prior_faithful hu h2, h1⟩
    · cases h2
  | round _ h ih =>
    intro p hp
    obtain ⟨q, hq, h1 | ⟨h1, tau, pts, ws, t, t', t1, t1', h2, h3⟩⟩ := round_from hu.rng h p hp
    · rw [h1]
      exact ih q hq
    · exact ⟨propose_faithful hu (spread_roots hu h2) h3, h1⟩

/-- The values of `m` and `x` and the distances in a state. -/
def shown (r : Option (Result (SmcState (Particle String Toy.TV ℚ) ℚ) × Int)) :
    Option (List (Option Toy.TV × Option Toy.TV × XR ℚ)) :=
  match r with
  | some (.ok st, _) => some (st.pts.map (fun p => ((Study.locus p.val).get? "m", (Study.locus p.val).get? "x", Study.distance p.val)))
  | _ => none

/-- A run of two steps. -/
def twoSteps (u : Study String Toy.TV Toy.TC Unit Int ℚ Unit) (parents : Option (List (Dict String Toy.TV))) :
    Run Int (SmcState (Particle String Toy.TV ℚ) ℚ) := do
  let st ← Smc.initialise u.smcEnv exSetting 30 parents
  Smc.aRound u.smcEnv exSetting 30 st

theorem twoSteps_reached {parents : Option (List (Dict String Toy.TV))} {u : Study String Toy.TV Toy.TC Unit Int ℚ Unit}
    {st : SmcState (Particle String Toy.TV ℚ) ℚ} {s s' : Int} (h : twoSteps u parents s = some (.ok st, s')) :
    ReachedFrom u.smcEnv exSetting parents st := by
  obtain ⟨st0, s1, h1, h2⟩ := Run.bind_ok.1 h
  exact .round (.init h1) h2

/-- Three of the four proposals were accepted in the first round. -/
example : Sound exStudy ∧
    shown (twoSteps exStudy none 0) = some [(some (.num 2), some (.num 2), .fin (441 / 25)),
      (some (.num 2), some (.num 1), .fin (1078 / 25)), (some (.num 2), some (.num 3), .fin (98 / 25)),
      (some (.num 2), some (.num 5), .fin (294 / 25))] := ⟨exStudy_sound, by decide +kernel⟩

/-- **C166**, the results: so has every particle that fitting with the SMC algorithm and sampling its posterior
returns. -/
theorem C166_smc (u : Study N V C O S K D) (hu : Sound u) (set : SmcSettings K) (fuel rounds n : Nat) (s s' : S)
    (post : List (Pt (Particle N V K))) (h : u.smc set fuel rounds none n s = some (.ok post, s')) :
    ∀ p ∈ post, Faithful u p.val ∧ (Study.distance p.val).isInf = false := by
  unfold Study.smc at h
  obtain ⟨st, s1, h1, h⟩ := Run.bind_ok.1 h
  split at h
  · rename_i st' s2 h2
    intro p hp
    exact C166 u hu set st' (update_reached (.init h1) h2) p (posterior_from h p hp)
  · simp at h
  · cases h
  · cases h

/-- The example ends with a posterior. -/
example : ((exStudy.smc { exSetting with maxRound := 1 } 30 5 none 3 0).map (fun r => r.1.map (fun l => l.map (fun p => Study.distance p.val)))) =
    some (.ok [.fin (441 / 25), .fin (441 / 25), .fin (441 / 25)]) := by decide +kernel

/-- **C166**, rejection: so has every particle that fitting with rejection ABC and sampling its posterior returns, and
its distance does not exceed the tolerance. -/
theorem C166_abc (u : Study N V C O S K D) (hu : Sound u) (fuel : Nat) (parallel : Bool) (nTest : Nat) (pTest : XR K)
    (n : Nat) (s s' : S) (post : Abc.Post (Particle N V K) K)
    (h : u.abc fuel parallel nTest pTest n s = some (.ok post, s')) :
    ∀ p ∈ post.particles, Faithful u p ∧ XR.lt post.eps (Study.distance p) = false := by
  unfold Study.abc at h
  obtain ⟨eps, s1, -, h⟩ := Run.bind_ok.1 h
  unfold Abc.samplePosteriors at h
  obtain ⟨⟨l, k⟩, s2, h1, h⟩ := Run.bind_ok.1 h
  have hc := collect_from _ h1
  simp only at h hc
  split at h
  · exact absurd h Run.fail_ok
  · obtain ⟨_, s3, -, h⟩ := Run.bind_ok.1 h
    split at h
    · exact absurd h Run.fail_ok
    · obtain ⟨rfl, -⟩ := Run.pure_ok.1 h
      intro p hp
      obtain ⟨h2, t, t', h3⟩ := hc p hp
      exact ⟨prior_faithful hu h3, h2⟩

/-- The example ends with a posterior. -/
example : Sound exAgain ∧ ((exAgain.abc 30 true 4 (.fin (1 / 2)) 2 0).map (fun r => r.1.map (fun l => (l.eps, l.particles.map Study.distance)))) =
    some (.ok (.fin (1519 / 50), [.fin (98 / 25), .fin (294 / 25)])) :=
  ⟨⟨fun _ => rfl, exReady, by unfold Dict.WF; decide, noShadow_of_check (by decide), ownRand_honest⟩, by decide +kernel⟩

/-! ### C167: continuing from given parameters -/

/-- What a particle continued from `p0` is: it holds the values of `p0` (where they are not `None`), a value for every
node, every other node that is neither exogenous nor given in `p0` follows its definition, and its simulation and
distance belong to its parameters; it has no log density. -/
def Continued (u : Study N V C O S K D) (p0 : Dict N V) (pt : Particle N V K) : Prop :=
  ∃ ch : Chromosome N V K, pt.pars = .chrom ch ∧
    (∀ k v, k ∈ u.model.bn.dag.nodes → p0.get? k = some v → u.isNone v = false → ch.locus.get? k = some v) ∧
    (∀ k, k ∈ ch.locus.keys ↔ k ∈ u.model.exo.keys ∨ k ∈ u.model.bn.dag.nodes) ∧
    (∀ x ∈ u.model.bn.dag.nodes, x ∉ u.model.exo.keys → (∀ v, p0.get? x = some v → u.isNone v = true) →
      Consistent u.env.sem u.model.bn ch x) ∧
    ch.logProb = .nan ∧
    (∃ t t', u.simulate ch t = (.ok pt.sims, t')) ∧
    ∃ d, pt.notes.get? "distance" = some (.num d) ∧ IsDistance u.env.ops u.model.data pt.sims d

theorem priorFrom_continued {u : Study N V C O S K D} (hu : Sound u) {p0 : Dict N V} (hp0 : p0.WF)
    (hh : ∃ k ∈ p0.keys, k ∈ u.model.bn.dag.nodes)
    (hnodes : ∀ k ∈ p0.keys, k ∈ u.model.exo.keys → k ∈ u.model.bn.dag.nodes) {s s' : S}
    {pt : Particle N V K} (h : u.priorFrom p0 s = (.ok pt, s')) : Continued u p0 pt := by
  unfold Study.priorFrom at h
  split at h
  · cases h
  · rename_i p s1 hp
    split at h
    · cases h
    · rename_i p' s2 hi
      obtain ⟨h1, h2, h3⟩ := run_ok h
      obtain ⟨k1, k2, k3⟩ := C77_prior u.env u.model hu.ready _ _ _ hp
      have hh' : ∃ k ∈ p0.keys, k ∈ p.locus.keys := by
        obtain ⟨k, hk, hk'⟩ := hh
        exact ⟨k, hk, (k2 k).2 (.inr hk')⟩
      have hnodes' : ∀ k ∈ p0.keys, k ∈ p.locus.keys → k ∈ u.model.bn.dag.nodes := by
        intro k hk hk'
        exact ((k2 k).1 hk').elim (hnodes k hk) id
      have hns : NoShadow u.model.bn p.locus.keys := by
        intro y n f ps hl z hz
        rcases hu.noShadow y n f ps hl z hz with h | ⟨h1, h2⟩
        · exact .inl h
        · exact .inr ⟨h1, fun hc => ((k2 z).1 hc).elim h2 h1⟩
      obtain ⟨f1, f2, f3, -⟩ := C30_frame u.isNone u.env.sem hu.ready hp0 hh' hnodes' hi
      refine ⟨p', h1, fun k v hk hv hn => f3 k v ((k2 k).2 (.inr hk)) hv hn, fun k => by rw [f1]; exact k2 k, ?_, f2, h2, h3⟩
      intro x hx hxe hxn
      have hxi : ¬ Intervened u.isNone p p0 x := by
        rintro ⟨-, v, hv, hvn⟩
        rw [hxn v hv] at hvn
        cases hvn
      refine C30_consistent u.isNone u.env.sem hu.closed hu.ready hp0 hns hh' hnodes' hi hxi ?_
      unfold DataModel.samplePrior at hp
      split at hp
      · cases hp
      · rename_i r s2 hr
        split at hp
        · cases hp
        · simp only [Prod.mk.injEq, Except.ok.injEq] at hp
          obtain ⟨rfl, -⟩ := hp
          obtain ⟨l, v, t1, t2, q1, q2, q3⟩ := C24_consistent u.env.sem hu.closed hu.ready hu.noShadow hr hx hxe
          exact ⟨l, v, t1, t2, q1, q2, q3⟩

/-- What is asked of the parameters handed to `set_parents`: each gives some node, and gives no exogenous value that
is not one. -/
def Usable (u : Study N V C O S K D) (ps : List (Dict N V)) : Prop :=
  ∀ p0 ∈ ps, p0.WF ∧ (∃ k ∈ p0.keys, k ∈ u.model.bn.dag.nodes) ∧
    (∀ k ∈ p0.keys, k ∈ u.model.exo.keys → k ∈ u.model.bn.dag.nodes)

/-- **C167**, what holds: after `set_parents(ps)` the particles of round 0 each hold the values of one of `ps`; later
ones are such a particle, or one that was proposed and served like any other. -/
theorem C167_partial (u : Study N V C O S K D) (hu : Sound u) (set : SmcSettings K) (ps : List (Dict N V))
    (hps : Usable u ps) (st : SmcState (Particle N V K) K) (h : ReachedFrom u.smcEnv set (some ps) st) :
    ∀ p ∈ st.pts, (Study.distance p.val).isInf = false ∧
      ((∃ p0 ∈ ps, Continued u p0 p.val) ∨ (0 < st.round ∧ Faithful u p.val)) := by
  induction h with
  | init h =>
    intro p hp
    obtain ⟨h1, h2⟩ := first_from h p hp
    refine ⟨h1, .inl ?_⟩
    rcases h2 with ⟨h2, -⟩ | ⟨ps', h2, p0, h3, t, t', h4⟩
    · cases h2
    · cases h2
      obtain ⟨q1, q2, q3⟩ := hps p0 h3
      exact ⟨p0, h3, priorFrom_continued hu q1 q2 q3 h4⟩
  | @round fuel s s' st st' _ h ih =>
    intro p hp
    have hr : st'.round = st.round + 1 := by
      obtain ⟨_, _, _, _, _, _, _, h, _⟩ := Props.Smc.aRound_ok h
      exact h
    obtain ⟨q, hq, h1 | ⟨h1, tau, pts, ws, t, t', t1, t1', h2, h3⟩⟩ := round_from hu.rng h p hp
    · rw [h1]
      refine ⟨(ih q hq).1, (ih q hq).2.imp id (fun h => ⟨by omega, h.2⟩)⟩
    · exact ⟨h1, .inr ⟨by omega, propose_faithful hu (spread_roots hu h2) h3⟩⟩

theorem exUsable : Usable exStudy [[("m", .num 3)]] := by
  intro p0 hp
  rw [List.mem_singleton.1 hp]
  exact ⟨by unfold Dict.WF; decide, ⟨"m", by decide, by decide⟩, by decide⟩

/-- The first particles hold the parent's `m = 3`. -/
example : Usable exStudy [[("m", .num 3)]] ∧
    shown (Smc.initialise exStudy.smcEnv exSetting 30 (some [[("m", .num 3)]]) 0) =
      some [(some (.num 3), some (.num 5), .fin (2107 / 100)), (some (.num 3), some (.num 8), .fin (13867 / 100)),
        (some (.num 3), some (.num 11), .fin (36211 / 100)), (some (.num 3), some (.num 14), .fin (69139 / 100))] :=
  ⟨exUsable, by decide +kernel⟩

/-- **C167** is false: after one round no particle holds the parent's `m = 3` any more. -/
theorem C167_refuted : Sound exStudy ∧ Usable exStudy [[("m", .num 3)]] ∧
    ∃ st : SmcState (Particle String Toy.TV ℚ) ℚ, ReachedFrom exStudy.smcEnv exSetting (some [[("m", .num 3)]]) st ∧
      st.pts.length = 4 ∧ ∀ p ∈ st.pts, (Study.locus p.val).get? "m" = some (.num 2) := by
  refine ⟨exStudy_sound, exUsable, ?_⟩
  have h : shown (twoSteps exStudy (some [[("m", .num 3)]]) 0) =
      some [(some (.num 2), some (.num (-1)), .fin (3234 / 25)), (some (.num 2), some (.num 2), .fin (441 / 25)),
        (some (.num 2), some (.num 5), .fin (294 / 25)), (some (.num 2), some (.num 8), .fin (2793 / 25))] := by
    decide +kernel
  rcases hr : twoSteps exStudy (some [[("m", .num 3)]]) 0 with _ | ⟨e | st, s'⟩
  · rw [hr] at h; cases h
  · rw [hr] at h; cases h
  · rw [hr] at h
    simp only [shown, Option.some.injEq] at h
    refine ⟨st, twoSteps_reached hr, by simpa using congrArg List.length h, ?_⟩
    intro p hp
    have hm : ((Study.locus p.val).get? "m", (Study.locus p.val).get? "x", Study.distance p.val) ∈
        st.pts.map (fun p => ((Study.locus p.val).get? "m", (Study.locus p.val).get? "x", Study.distance p.val)) :=
      List.mem_map.2 ⟨p, hp, rfl⟩
    rw [h] at hm
    simp only [List.mem_cons, Prod.mk.injEq, List.not_mem_nil, or_false] at hm
    rcases hm with hm | hm | hm | hm <;> exact hm.1

end Props.Assembled
