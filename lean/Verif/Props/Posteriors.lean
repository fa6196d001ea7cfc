import Verif.Model.Posteriors
import Verif.Props.Abc
import Verif.Props.Collect
import Verif.Props.Fitter

/-!
# Properties of what the fitters hand out, and of the fitters of rejection ABC and of priors: C190 - C193
-/

namespace Props.Posteriors
set_option linter.unusedSectionVars false

open Py Model Props.Fitter

theorem foldl_append {P A : Type} (ps : List P) (s : ParamSet P A) :
    ps.foldl ParamSet.append s = ⟨s.algorithm, s.notes, s.particles ++ ps⟩ := by
  induction ps generalizing s with
  | nil => simp
  | cons p ps ih => rw [List.foldl_cons, ih]; simp [ParamSet.append]

/-! ## C190: the name of the algorithm -/

section Names

variable {W Θ T P N D M K A : Type} [DecidableEq N] [Field K] [LinearOrder K] [FloorSemiring K]

/-- **C190**, what holds: a posterior of sequential Monte Carlo is labelled `ABC-SMC` and one of history matching `HME`,
whatever the object went through. -/
theorem C190_partial :
    (∀ (envOf : M → SmcEnv W Θ T P K) (fuel n : Nat) (o : FitterObj K M (SmcState Θ K) (Pt Θ) (PNote K)) (w w' : W)
      (ps : ParamSet (Pt Θ) (PNote K)), Fitters.smcPosteriors envOf fuel n o w = some (.ok ps, w') →
      ps.algorithm = "ABC-SMC") ∧
    (∀ (envOf : M → HmeEnv W N K D) (n : Nat) (o : FitterObj K M (HmeState N K) P A) (w w' : W)
      (ps : ParamSet (Dict N (XR K)) (Fitters.HNote N K)), Fitters.hmePosteriors envOf n o w = some (.ok ps, w') →
      ps.algorithm = "HME") := by
  constructor
  · intro envOf fuel n o w w' ps h
    obtain ⟨set, w1, -, h⟩ := Run.bind_ok.1 h
    obtain ⟨pts, w2, -, h⟩ := Run.bind_ok.1 h
    obtain ⟨rfl, -⟩ := Run.pure_ok.1 h
    simp [foldl_append, ParamSet.keep, ParamSet.new]
  · intro envOf n o w w' ps h
    obtain ⟨set, w1, -, h⟩ := Run.bind_ok.1 h
    obtain ⟨⟨pars, bounds⟩, w2, -, h⟩ := Run.bind_ok.1 h
    cases e : o.state with
    | none => rw [e] at h; exact absurd h Run.fail_ok
    | some st =>
      rw [e] at h
      obtain ⟨rfl, -⟩ := Run.pure_ok.1 h
      simp [foldl_append, ParamSet.keep, ParamSet.new]

/-- What a posterior of rejection ABC is made of. -/
theorem abcPosteriors_ok {envOf : M → SimEnv W Θ K} {fuel n : Nat}
    {o : FitterObj K M (Fitters.AbcState K) Θ (PNote K)} {w w' : W} {ps : ParamSet Θ (PNote K)}
    (h : Fitters.abcPosteriors envOf fuel n o w = some (.ok ps, w')) :
    ∃ par post, o.settings.flag "parallel" = .ok par ∧
      Abc.samplePosteriors (envOf o.model) fuel par (o.state.map (·.eps)) n w = some (.ok post, w') ∧
      ps = ⟨"HME", [("Eps", .num post.eps), ("Acceptance", .num (.fin post.acceptance)),
        ("ESS", .num (.fin (post.ess : K)))], post.particles⟩ := by
  obtain ⟨par, w1, h1, h⟩ := Run.bind_ok.1 h
  obtain ⟨h1', rfl⟩ := Run.ofResult_ok.1 h1
  obtain ⟨post, w2, h2, h⟩ := Run.bind_ok.1 h
  obtain ⟨h3, rfl⟩ := Run.pure_ok.1 h
  refine ⟨par, post, h1', h2, ?_⟩
  rw [← h3, foldl_append]
  rfl

end Names

/-- A fitter of two models: the one of `Props.Abc`, and one that raises at its first simulation and
then works. -/
def exAbcModels : Bool → SimEnv Nat Nat ℚ
  | true => Abc.exSim
  | false => { Abc.exSim with prior := fun s => if s < 100 then (.error .ValueError, 100) else (.ok (s % 5), s + 1) }

/-- The fitter of rejection ABC; the idle model is the first of the two. -/
def exAbc : Alg Nat ℚ Bool (Fitters.AbcState ℚ) Nat (PNote ℚ) := Fitters.abc exAbcModels true 30

/-- The fitter once it has been fitted to the first model. -/
def exAbcFit : Option (Result Unit × FitterObj ℚ Bool (Fitters.AbcState ℚ) Nat (PNote ℚ) × Nat) :=
  FitterObj.fit exAbc true [("p_test", .num (1 / 2))] (.new exAbc [("n_test", .int 5)]) 0

example : exAbcFit.map (fun x => (x.1, x.2.1.state.map (·.eps), x.2.1.state.map (·.acc), x.2.2)) =
    some (.ok (), some (.fin 1), some (1 / 2), 6) := by decide +kernel

/-- **C190**, as first stated - the label of a posterior names the algorithm that made it - fails: every posterior of
rejection ABC is labelled `HME`, the label of history matching; there are such posteriors. -/
theorem C190_refuted : (∀ {W Θ M K : Type} [Field K] [LinearOrder K] [FloorSemiring K] (envOf : M → SimEnv W Θ K)
      (fuel n : Nat) (o : FitterObj K M (Fitters.AbcState K) Θ (PNote K)) (w w' : W) (ps : ParamSet Θ (PNote K)),
      Fitters.abcPosteriors envOf fuel n o w = some (.ok ps, w') → ps.algorithm = "HME") ∧
    (exAbcFit.bind (fun x => Fitters.abcPosteriors exAbcModels 30 3 x.2.1 x.2.2)).map (·.1.map (·.particles)) =
      some (.ok [1, 0, 1]) := by
  refine ⟨fun envOf fuel n o w w' ps h => ?_, by decide +kernel⟩
  obtain ⟨_, _, -, -, rfl⟩ := abcPosteriors_ok h
  rfl

/-! ## C191: whose posterior rejection ABC hands out -/

section AbcObject

variable {W Θ M K : Type} [Field K] [LinearOrder K] [FloorSemiring K]

/-- What `initialise` of rejection ABC does to the object. -/
theorem abcInitialise_eq {envOf : M → SimEnv W Θ K} {fuel : Nat}
    {o o' : FitterObj K M (Fitters.AbcState K) Θ (PNote K)} {w w' : W} {r : Result Unit}
    (h : Fitters.abcInitialise envOf fuel o w = some (r, o', w')) :
    ((∃ e, r = .error e) ∧ o' = o) ∨
      (r = .ok () ∧ ∃ n par p eps, o.settings.int "n_test" = .ok n ∧ o.settings.flag "parallel" = .ok par ∧
        o.settings.num "p_test" = .ok p ∧
        Abc.initialise (envOf o.model) fuel par n.toNat (.fin p) w = some (.ok eps, w') ∧
        o' = { o with state := some ⟨eps, p⟩ }) := by
  unfold Fitters.abcInitialise at h
  cases h1 : o.settings.int "n_test" with
  | error e =>
    rw [h1] at h
    cases h
    exact .inl ⟨⟨_, rfl⟩, rfl⟩
  | ok n =>
    cases h2 : o.settings.flag "parallel" with
    | error e =>
      rw [h1, h2] at h
      cases h
      exact .inl ⟨⟨_, rfl⟩, rfl⟩
    | ok par =>
      cases h3 : o.settings.num "p_test" with
      | error e =>
        rw [h1, h2, h3] at h
        cases h
        exact .inl ⟨⟨_, rfl⟩, rfl⟩
      | ok p =>
        rw [h1, h2, h3] at h
        replace h : (match Abc.initialise (envOf o.model) fuel par n.toNat (.fin p) w with
          | none => none
          | some (.error e, w') => some (.error e, o, w')
          | some (.ok eps, w') => some (.ok (), { o with state := some ⟨eps, p⟩ }, w')) = some (r, o', w') := h
        cases e : Abc.initialise (envOf o.model) fuel par n.toNat (.fin p) w with
        | none => rw [e] at h; cases h
        | some x =>
          obtain ⟨_ | eps, w1⟩ := x
          · rw [e] at h
            cases h
            exact .inl ⟨⟨_, rfl⟩, rfl⟩
          · rw [e] at h
            cases h
            exact .inr ⟨rfl, n, par, p, eps, rfl, rfl, rfl, e, rfl⟩

/-- A fit of rejection ABC is its `initialise`. -/
theorem abc_fit (envOf : M → SimEnv W Θ K) (idle : M) (fuel : Nat) (m : M) (kw : SDict K)
    (o : FitterObj K M (Fitters.AbcState K) Θ (PNote K)) (w : W) :
    FitterObj.fit (Fitters.abc envOf idle fuel) m kw o w = Fitters.abcInitialise envOf fuel
      { o with model := m, collector := .new, settings := o.settings.updated kw } w := by
  unfold FitterObj.fit FitterObj.andThen
  generalize hx : (Fitters.abc envOf idle fuel).initialise
    { o with model := m, collector := .new, settings := o.settings.updated kw } w = x
  have hx' : Fitters.abcInitialise envOf fuel
    { o with model := m, collector := .new, settings := o.settings.updated kw } w = x := hx
  rw [hx']
  rcases x with _ | ⟨_ | u, o1, w1⟩ <;> rfl

/-- Rejection ABC leaves its settings alone. -/
theorem abc_keeps (envOf : M → SimEnv W Θ K) (idle : M) (fuel : Nat) :
    Keeps (Fitters.abc envOf idle fuel).initialise ∧ Keeps (Fitters.abc envOf idle fuel).update ∧
      Keeps (Fitters.abc envOf idle fuel).terminate := by
  refine ⟨?_, ?_, ?_⟩
  · intro o w r o' w' h
    rcases abcInitialise_eq h with ⟨-, rfl⟩ | ⟨-, _, _, _, _, -, -, -, -, rfl⟩ <;> rfl
  all_goals
    intro o w r o' w' h
    have h : some ((.ok () : Result Unit), o, w) = some (r, o', w') := h
    simp only [Option.some.injEq, Prod.mk.injEq] at h
    rw [← h.2.1]

/-- The settings of rejection ABC: each of the five is what was given for it last, else its default. -/
theorem C191_settings {envOf : M → SimEnv W Θ K} {idle : M} {fuel : Nat} {kws : List (SDict K)}
    {o : FitterObj K M (Fitters.AbcState K) Θ (PNote K)} (h : Ran (Fitters.abc envOf idle fuel) kws o)
    (hw : ∀ kw ∈ kws, kw.WF) {k : String} (hk : k ∈ ["parallel", "n_test", "p_test", "n_core", "verbose"]) :
    o.settings.get? k = (lastTold kws k).or (Dict.get? ([("parallel", .flag true), ("n_test", .int 200),
      ("p_test", .num (1 / 20)), ("n_core", .int 4), ("verbose", .int 5)] : SDict K) k) := by
  obtain ⟨h1, h2, h3⟩ := abc_keeps envOf idle fuel
  rw [C169_partial h1 h2 h3 h hw k, if_pos]
  · rfl
  · exact hk

example : (Fitters.abcDefaults : SDict ℚ).get? "p_test" = some (.num (1 / 20)) ∧
    exAbcFit.map (fun x => (x.2.1.settings.get? "n_test", x.2.1.settings.get? "p_test",
      x.2.1.settings.get? "parallel")) = some (some (.int 5), some (.num (1 / 2)), some (.flag true)) :=
  ⟨rfl, by decide +kernel⟩

variable [IsStrictOrderedRing K]

/-- **C191**, what holds: if a fit to the model `m` ended and the posterior is asked for next, then the posterior has
as many particles as were asked for, and each is within the tolerance of `m`; the note `Eps` is that tolerance, which
more than the fraction `p_test` of all but one of `n_test` test runs of `m` attained; `ESS` is the number of particles and
`Acceptance` their number divided by that of the simulations run.  Missing for the full claim: `C191_refuted`. -/
theorem C191_partial {envOf : M → SimEnv W Θ K} {idle m : M} {fuel fuel' k : Nat} {kw : SDict K}
    {o o' : FitterObj K M (Fitters.AbcState K) Θ (PNote K)} {w w1 w2 : W} {ps : ParamSet Θ (PNote K)}
    (hnan : ∀ x, (envOf m).dist x ≠ .nan)
    (hf : FitterObj.fit (Fitters.abc envOf idle fuel) m kw o w = some (.ok (), o', w1))
    (hp : Fitters.abcPosteriors envOf fuel' k o' w1 = some (.ok ps, w2)) :
    ∃ (n : Int) (p e : K) (tests : List Θ), (o.settings.updated kw).int "n_test" = .ok n ∧
      (o.settings.updated kw).num "p_test" = .ok p ∧ tests.length = n.toNat ∧
      p * ((n.toNat : K) - 1) < (tests.countP (fun x => XR.le ((envOf m).dist x) (.fin e)) : K) ∧
      ps.particles.length = k ∧ (∀ x ∈ ps.particles, XR.le ((envOf m).dist x) (.fin e) = true) ∧
      ps.notes.get? "Eps" = some (.num (.fin e)) ∧ ps.notes.get? "ESS" = some (.num (.fin (k : K))) ∧
      ∀ count : W → Nat, Abc.Counts (envOf m) count →
        ps.notes.get? "Acceptance" = some (.num (.fin ((k : K) / ((count w2 - count w1 : Nat) : K)))) := by
  rw [abc_fit] at hf
  rcases abcInitialise_eq hf with ⟨⟨e, he⟩, -⟩ | ⟨-, n, par, p, eps, h1, h2, h3, h4, rfl⟩
  · cases he
  · obtain ⟨e, tests, rfl, q1, q2, q3, -⟩ := Abc.C93_partial _ hnan _ _ _ _ _ _ _ h4
    obtain ⟨par', post, g1, g2, rfl⟩ := abcPosteriors_ok hp
    obtain ⟨i1, i2, i3, i4, -⟩ := Abc.C60_partial _ hnan _ _ _ _ _ _ _ g2
    have i1 : some (XR.fin e) = some post.eps := i1
    have ie : post.eps = .fin e := (Option.some.inj i1).symm
    refine ⟨n, p, e, tests, h1, h3, q1, q3, i2, ?_, ?_, ?_, ?_⟩
    · intro x hx
      rw [← ie]
      exact i4 x hx
    · show some (PNote.num post.eps) = _
      rw [ie]
    · show some (PNote.num (.fin (post.ess : K))) = _
      rw [i3]
    · intro count hc
      have := (Abc.C106 _ count hc _ _ _ _ _ _ _ g2).2
      show some (PNote.num (.fin post.acceptance)) = _
      rw [this, i2]

example : (∀ x, (exAbcModels true).dist x ≠ .nan) ∧ (exAbcFit.bind (fun x =>
    Fitters.abcPosteriors exAbcModels 30 3 x.2.1 x.2.2)).map (·.1.map (fun ps => (ps.particles, ps.notes))) =
    some (.ok ([1, 0, 1], [("Eps", .num (.fin 1)), ("Acceptance", .num (.fin (3 / 6))), ("ESS", .num (.fin 3))])) := by
  refine ⟨fun x => ?_, by decide +kernel⟩
  simp only [exAbcModels, Abc.exSim]
  split <;> simp

/-- **C191**, as first stated - a posterior is of the model of the last fit, with a tolerance found on that model -
fails.  A fit that raises leaves the tolerance of the fit before in its place beside the new model, and closing the
fitter leaves it beside the idle model; in both cases a posterior is still handed out. -/
theorem C191_refuted :
    (∀ (envOf : M → SimEnv W Θ K) (idle m : M) (fuel : Nat) (kw : SDict K)
      (o o' : FitterObj K M (Fitters.AbcState K) Θ (PNote K)) (w w' : W) (e : Err),
      FitterObj.fit (Fitters.abc envOf idle fuel) m kw o w = some (.error e, o', w') →
      o'.model = m ∧ o'.state = o.state) ∧
    (∀ (envOf : M → SimEnv W Θ K) (idle : M) (fuel : Nat) (o : FitterObj K M (Fitters.AbcState K) Θ (PNote K)),
      (o.close (Fitters.abc envOf idle fuel)).model = idle ∧
        (o.close (Fitters.abc envOf idle fuel)).state = o.state) := by
  refine ⟨?_, fun _ _ _ _ => ⟨rfl, rfl⟩⟩
  intro envOf idle m fuel kw o o' w w' e h
  rw [abc_fit] at h
  rcases abcInitialise_eq h with ⟨-, rfl⟩ | ⟨h, -⟩
  · exact ⟨rfl, rfl⟩
  · cases h

end AbcObject

/-- The fitter of the example, fitted to the second model, which raises at first. -/
def exAbcAgain : Option (Result Unit × FitterObj ℚ Bool (Fitters.AbcState ℚ) Nat (PNote ℚ) × Nat) :=
  exAbcFit.bind (fun x => FitterObj.fit exAbc false [] x.2.1 x.2.2)

/-- The second fit raises; the posterior is of the second model with the tolerance of the first. -/
example : exAbcAgain.map (fun x => (x.1, x.2.1.model, x.2.1.state.map (·.eps))) =
      some (.error .ValueError, false, some (.fin 1)) ∧
    (exAbcAgain.bind (fun x => Fitters.abcPosteriors exAbcModels 30 3 x.2.1 x.2.2)).map (·.1.map (·.particles)) =
      some (.ok [0, 1, 0]) := by
  constructor <;> decide +kernel

/-! ## C192: the sampler of priors as an object -/

section Prior

open Draw

variable {P N K S M : Type} [DecidableEq N] [Field K] [LinearOrder K]

theorem priorSerial_eq (ob : Objective P N K S) (k : Nat) (res : ParamSet P Nat) (nEval : Nat) (s : S) :
    (∀ r res' s', Fitters.priorSerial ob k res nEval s = some (r, res', s') →
      (∃ ps : List (P × Nat), Run.times k (draw ob) s = some (.ok ps, s') ∧ r = .ok () ∧
        res' = ⟨res.algorithm, res.notes.set "N_Eval" (nEval + k), res.particles ++ ps.map Prod.fst⟩) ∨
      (∃ e, Run.times k (draw ob) s = some (.error e, s') ∧ r = .error e ∧ ∃ ps : List P, ps.length < k ∧
        (∀ p ∈ ps, ∃ i t t', draw ob t = some (.ok (p, i), t')) ∧
        res' = ⟨res.algorithm, res.notes, res.particles ++ ps⟩)) ∧
    (Fitters.priorSerial ob k res nEval s = none → Run.times k (draw ob) s = none) := by
  induction k generalizing res nEval s with
  | zero =>
    constructor
    · intro r res' s' h
      cases h
      exact .inl ⟨[], rfl, rfl, by simp [ParamSet.keep]⟩
    · intro h; cases h
  | succ k ih =>
    constructor
    · intro r res' s' h
      unfold Fitters.priorSerial at h
      cases e : draw ob s with
      | none => rw [e] at h; cases h
      | some x =>
        obtain ⟨e1 | ⟨p, i⟩, s1⟩ := x
        · rw [e] at h
          cases h
          refine .inr ⟨e1, ?_, rfl, [], by simp, by simp, by simp⟩
          rw [Run.times, Run.bind_apply, e]
        · rw [e] at h
          rcases (ih (res.append p) (nEval + 1) s1).1 _ _ _ h with ⟨ps, q1, rfl, rfl⟩ | ⟨e2, q1, rfl, ps, q2, q3, rfl⟩
          · refine .inl ⟨(p, i) :: ps, ?_, rfl, ?_⟩
            · rw [Run.times, Run.bind_apply, e]
              show (Run.times k (draw ob) >>= _) s1 = _
              rw [Run.bind_apply, q1]
              rfl
            · simp [ParamSet.append, show nEval + 1 + k = nEval + (k + 1) by omega]
          · refine .inr ⟨e2, ?_, rfl, p :: ps, by simpa using q2, ?_, by simp [ParamSet.append]⟩
            · rw [Run.times, Run.bind_apply, e]
              show (Run.times k (draw ob) >>= _) s1 = _
              rw [Run.bind_apply, q1]
            · intro x hx
              rcases List.mem_cons.1 hx with rfl | hx
              · exact ⟨i, s, s1, e⟩
              · exact q3 x hx
    · intro h
      unfold Fitters.priorSerial at h
      rw [Run.times, Run.bind_apply]
      cases e : draw ob s with
      | none => rfl
      | some x =>
        obtain ⟨e1 | ⟨p, i⟩, s1⟩ := x
        · rw [e] at h; cases h
        · rw [e] at h
          show (Run.times k (draw ob) >>= _) s1 = _
          rw [Run.bind_apply, (ih _ _ _).2 h]

theorem priorServe_eq (ob : Objective P N K S) (nEval : Nat) (jss : List (Js N K)) (res : ParamSet P Nat) (s : S)
    {r : Result Unit} {res' : ParamSet P Nat} {s' : S}
    (h : Fitters.priorServe ob nEval jss res s = some (r, res', s')) :
    (∃ ps : List P, Run.each (serveJson ob) jss s = some (.ok ps, s') ∧ r = .ok () ∧
      res' = ⟨res.algorithm, res.notes.set "N_Eval" nEval, res.particles ++ ps⟩) ∨
    (∃ e, Run.each (serveJson ob) jss s = some (.error e, s') ∧ r = .error e ∧ ∃ ps : List P, ps.length < jss.length ∧
      (∀ p ∈ ps, ∃ js ∈ jss, ∃ t t', serveJson ob js t = some (.ok p, t')) ∧
      res' = ⟨res.algorithm, res.notes, res.particles ++ ps⟩) := by
  induction jss generalizing res s with
  | nil =>
    cases h
    exact .inl ⟨[], rfl, rfl, by simp [ParamSet.keep]⟩
  | cons js jss ih =>
    unfold Fitters.priorServe at h
    cases e : serveJson ob js s with
    | none => rw [e] at h; cases h
    | some x =>
      obtain ⟨e1 | p, s1⟩ := x
      · rw [e] at h
        cases h
        refine .inr ⟨e1, ?_, rfl, [], by simp, by simp, by simp⟩
        rw [Run.each, Run.bind_apply, e]
      · rw [e] at h
        rcases ih (res.append p) s1 h with ⟨ps, q1, rfl, rfl⟩ | ⟨e2, q1, rfl, ps, q2, q3, rfl⟩
        · refine .inl ⟨p :: ps, ?_, rfl, by simp [ParamSet.append]⟩
          rw [Run.each, Run.bind_apply, e]
          show (Run.each (serveJson ob) jss >>= _) s1 = _
          rw [Run.bind_apply, q1]
          rfl
        · refine .inr ⟨e2, ?_, rfl, p :: ps, by simpa using q2, ?_, by simp [ParamSet.append]⟩
          · rw [Run.each, Run.bind_apply, e]
            show (Run.each (serveJson ob) jss >>= _) s1 = _
            rw [Run.bind_apply, q1]
          · intro x hx
            rcases List.mem_cons.1 hx with rfl | hx
            · exact ⟨js, by simp, s, s1, e⟩
            · obtain ⟨y, hy, r⟩ := q3 x hx
              exact ⟨y, by simp [hy], r⟩

theorem forall₂_mem {α β : Type} {R : α → β → Prop} {as : List α} {bs : List β} (h : List.Forall₂ R as bs) {b : β}
    (hb : b ∈ bs) : ∃ a ∈ as, R a b := by
  induction h with
  | nil => cases hb
  | cons h _ ih =>
    rcases List.mem_cons.1 hb with rfl | hb
    · exact ⟨_, by simp, h⟩
    · obtain ⟨a, ha, r⟩ := ih hb
      exact ⟨a, by simp [ha], r⟩

/-- A fit of the sampler of priors is its `collect`. -/
theorem prior_fit (objOf : M → Objective P N K S) (idle m : M) (kw : SDict K) (o : FitterObj K M Unit P Nat) (s : S) :
    FitterObj.fit (Fitters.prior objOf idle) m kw o s = Fitters.priorCollect objOf
      { o with model := m, collector := .new, settings := o.settings.updated kw } s := rfl

/-- **C192**, as first stated - a fit of the sampler of priors ends normally - never holds: whatever the objective and
whatever the object went through, a fit that ends ends with an exception. -/
theorem C192_refuted (objOf : M → Objective P N K S) (idle m : M) (kw : SDict K) (o o' : FitterObj K M Unit P Nat)
    (s s' : S) (r : Result Unit) (h : FitterObj.fit (Fitters.prior objOf idle) m kw o s = some (r, o', s')) :
    r ≠ .ok () := by
  rintro rfl
  rw [prior_fit] at h
  unfold Fitters.priorCollect at h
  split at h
  · cases h
  · simp only at h
    split at h
    · cases h
    · split at h <;> cases h

/-- Where a particle of the collector comes from: it was drawn, or served from the JSON of one that was drawn. -/
def Source (ob : Objective P N K S) (par : Bool) (p : P) : Prop :=
  if par then ∃ q i t t' u u', draw ob t = some (.ok (q, i), t') ∧ serveJson ob (ob.toJson q) u = some (.ok p, u')
  else ∃ i t t', draw ob t = some (.ok (p, i), t')

theorem times_json {ob : Objective P N K S} {n : Nat} {s s' : S} {l : List (Js N K × Nat)}
    (h : Run.times n (do let (p, i) ← draw ob; return (ob.toJson p, i)) s = some (.ok l, s')) :
    l.length = n ∧ ∀ js ∈ l.map Prod.fst, ∃ q i t t', draw ob t = some (.ok (q, i), t') ∧ js = ob.toJson q := by
  obtain ⟨h1, h2⟩ := Run.times_ok h
  refine ⟨h1, ?_⟩
  intro js hjs
  obtain ⟨⟨js, i⟩, hm, rfl⟩ := List.mem_map.1 hjs
  obtain ⟨t, t', ht⟩ := h2 _ hm
  obtain ⟨⟨q, j⟩, t1, h3, h4⟩ := Run.bind_ok.1 ht
  obtain ⟨h5, -⟩ := Run.pure_ok.1 h4
  cases h5
  exact ⟨q, i, t, t1, h3, rfl⟩

/-- **C192**, what holds: whatever the object went through before, after a fit to `m` the collector holds particles of
`m` only and at most `n_collect` of them.  It has the note `N_Eval` exactly if it has all of them, and then the exception
is the `AttributeError` of the missing method; otherwise there is no note at all.  Missing for the full claim:
`C192_refuted`. -/
theorem C192_partial {objOf : M → Objective P N K S} {idle m : M} {kw : SDict K} {o o' : FitterObj K M Unit P Nat}
    {s s' : S} {r : Result Unit} {n : Int} {par : Bool}
    (hn : (o.settings.updated kw).int "n_collect" = .ok n) (hp : (o.settings.updated kw).flag "parallel" = .ok par)
    (h : FitterObj.fit (Fitters.prior objOf idle) m kw o s = some (r, o', s')) :
    o'.model = m ∧ o'.settings = o.settings.updated kw ∧ o'.collector.algorithm = "Prior" ∧
      o'.collector.particles.length ≤ n.toNat ∧ (∀ p ∈ o'.collector.particles, Source (objOf m) par p) ∧
      ((o'.collector.particles.length = n.toNat ∧ r = .error .AttributeError ∧
          ∃ k, o'.collector.notes = [("N_Eval", k)] ∧ n.toNat ≤ k ∧ k ≤ 21 * n.toNat ∧ (par = false → k = n.toNat)) ∨
        (o'.collector.particles.length < n.toNat ∧ o'.collector.notes = [] ∧ ∃ e, r = .error e)) := by
  rw [prior_fit] at h
  unfold Fitters.priorCollect at h
  simp only [hn, hp] at h
  cases par with
  | false =>
    simp only [Bool.false_eq_true, if_false] at h
    generalize hx : Fitters.priorSerial (objOf m) n.toNat (.new "Prior") 0 s = x at h
    rcases x with _ | ⟨r1, res, s1⟩
    · cases h
    · rcases (priorSerial_eq _ _ _ _ _).1 _ _ _ hx with ⟨ps, q1, rfl, rfl⟩ | ⟨e, q1, rfl, ps, q2, q3, rfl⟩
      · cases h
        obtain ⟨q2, q3⟩ := Run.times_ok q1
        have q4 : (([] : List P) ++ ps.map Prod.fst).length = n.toNat := by simpa using q2
        refine ⟨rfl, rfl, rfl, le_of_eq q4, ?_, .inl ⟨q4, rfl, n.toNat, ?_, le_rfl, by omega, fun _ => rfl⟩⟩
        · intro p hp
          have hp : p ∈ ps.map Prod.fst := by simpa [ParamSet.new] using hp
          obtain ⟨⟨q, i⟩, hq, rfl⟩ := List.mem_map.1 hp
          obtain ⟨t, t', ht⟩ := q3 _ hq
          exact ⟨i, t, t', ht⟩
        · simp [ParamSet.new, Dict.set]
      · cases h
        refine ⟨rfl, rfl, rfl, ?_, ?_, .inr ⟨?_, rfl, e, rfl⟩⟩
        · show (([] : List P) ++ ps).length ≤ _
          simpa using q2.le
        · intro p hp
          exact q3 p (by simpa [ParamSet.new] using hp)
        · show (([] : List P) ++ ps).length < _
          simpa using q2
  | true =>
    simp only [if_true] at h
    generalize hy : Run.times n.toNat (do
      let (p, i) ← draw (objOf m)
      return ((objOf m).toJson p, i)) s = y at h
    rcases y with _ | ⟨e1 | samples, s1⟩
    · cases h
    · cases h
      have hpos : 0 < n.toNat := by
        rcases Nat.eq_zero_or_pos n.toNat with h0 | h0
        · rw [h0] at hy; cases hy
        · exact h0
      exact ⟨rfl, rfl, rfl, Nat.zero_le _, by simp [ParamSet.new], .inr ⟨hpos, rfl, e1, rfl⟩⟩
    · simp only at h
      obtain ⟨g1, g2⟩ := times_json hy
      generalize hx : Fitters.priorServe (objOf m) (samples.map Prod.snd).sum (samples.map Prod.fst) (.new "Prior") s1
        = x at h
      rcases x with _ | ⟨r1, res, s2⟩
      · cases h
      · have hb := Props.Collect.sum_bounds (l := samples.map Prod.snd) (by
          intro i hi
          obtain ⟨⟨js, j⟩, hm, rfl⟩ := List.mem_map.1 hi
          obtain ⟨t, t', ht⟩ := (Run.times_ok hy).2 _ hm
          obtain ⟨⟨q, j'⟩, t1, h3, h4⟩ := Run.bind_ok.1 ht
          obtain ⟨h5, -⟩ := Run.pure_ok.1 h4
          cases h5
          obtain ⟨k, -, -, -, h10, h11, -⟩ := Props.Draw.C130_draw h3
          show 1 ≤ j ∧ j ≤ 21
          omega)
        rw [List.length_map, g1] at hb
        rcases priorServe_eq _ _ _ _ _ hx with ⟨ps, q1, rfl, rfl⟩ | ⟨e, q1, rfl, ps, q2, q3, rfl⟩
        · cases h
          have q2 := Run.each_ok q1
          have q4 : (([] : List P) ++ ps).length = n.toNat := by
            rw [List.nil_append, ← q2.length_eq, List.length_map, g1]
          refine ⟨rfl, rfl, rfl, le_of_eq q4, ?_, .inl ⟨q4, rfl, _, ?_, hb.1, hb.2, by simp⟩⟩
          · intro p hp
            have hp : p ∈ ps := by simpa [ParamSet.new] using hp
            obtain ⟨js, hjs, t, t', ht⟩ := forall₂_mem q2 hp
            obtain ⟨q, i, u, u', hu, rfl⟩ := g2 js hjs
            exact ⟨q, i, u, u', t, t', hu, ht⟩
          · simp [ParamSet.new, Dict.set]
        · cases h
          rw [List.length_map, g1] at q2
          refine ⟨rfl, rfl, rfl, ?_, ?_, .inr ⟨?_, rfl, e, rfl⟩⟩
          · show (([] : List P) ++ ps).length ≤ _
            simpa using q2.le
          · intro p hp
            obtain ⟨js, hjs, t, t', ht⟩ := q3 p (by simpa [ParamSet.new] using hp)
            obtain ⟨q, i, u, u', hu, rfl⟩ := g2 js hjs
            exact ⟨q, i, u, u', t, t', hu, ht⟩
          · show (([] : List P) ++ ps).length < _
            simpa using q2

/-- The sampler of priors leaves its settings alone. -/
theorem prior_keeps (objOf : M → Objective P N K S) (idle : M) :
    Keeps (Fitters.prior objOf idle).initialise ∧ Keeps (Fitters.prior objOf idle).update ∧
      Keeps (Fitters.prior objOf idle).terminate := by
  refine ⟨?_, ?_, ?_⟩
  iterate 2
    intro o w r o' w' h
    have h : some ((.ok () : Result Unit), o, w) = some (r, o', w') := h
    simp only [Option.some.injEq, Prod.mk.injEq] at h
    rw [← h.2.1]
  intro o w r o' w' h
  have h : Fitters.priorCollect objOf o w = some (r, o', w') := h
  unfold Fitters.priorCollect at h
  split at h
  · cases h; rfl
  · simp only at h
    split at h
    · cases h; rfl
    · split at h <;> cases h <;> rfl

/-- The settings of the sampler of priors: each of the four is what was given for it last. -/
theorem C192_settings {objOf : M → Objective P N K S} {idle : M} {kws : List (SDict K)} {o : FitterObj K M Unit P Nat}
    (h : Ran (Fitters.prior objOf idle) kws o) (hw : ∀ kw ∈ kws, kw.WF) {k : String}
    (hk : k ∈ ["n_collect", "parallel", "n_core", "verbose"]) :
    o.settings.get? k = (lastTold kws k).or ((Fitters.priorDefaults : SDict K).get? k) := by
  obtain ⟨h1, h2, h3⟩ := prior_keeps objOf idle
  rw [C169_partial h1 h2 h3 h hw k, if_pos]
  · rfl
  · exact hk

/-- What the idle model of this fitter draws: always its own particle, with the log-likelihood zero, at the first try. -/
theorem idle_draw (ob : Objective P N K S) (p0 : P) (h0 : ob.likEvaluated p0 = false)
    (hl : ∀ p l, ob.logLik (ob.setLik p l) = l) (s : S) :
    draw (Fitters.idleObjective ob p0) s = some (.ok (ob.setLik p0 (.fin 0), 1), s) := by
  have ht : Props.Draw.Try (Fitters.idleObjective ob p0) s (.fin 0) (ob.setLik p0 (.fin 0)) s :=
    ⟨p0, s, rfl, .inr ⟨h0, .fin 0, rfl, rfl, (hl _ _).symm⟩⟩
  exact (Props.Draw.C130_found (.none s) ht).1 (by omega) (by simp) (by simp)

/-- **C192**, for a fitter that has been closed: without parallel workers, collecting from it is not refused but fills
the collector with `n_collect` copies of the idle model's particle, none of the model that was fitted, and `N_Eval` says
that as many evaluations were made. -/
theorem C192_closed {objOf : M → Objective P N K S} {idle : M} {ob : Objective P N K S} {p0 : P}
    (hi : objOf idle = Fitters.idleObjective ob p0) (h0 : ob.likEvaluated p0 = false)
    (hl : ∀ p l, ob.logLik (ob.setLik p l) = l) {o : FitterObj K M Unit P Nat} {n : Int}
    (hn : o.settings.int "n_collect" = .ok n) (hp : o.settings.flag "parallel" = .ok false) (s : S) :
    ∃ o', Fitters.priorCollect objOf (o.close (Fitters.prior objOf idle)) s = some (.error .AttributeError, o', s) ∧
      o'.collector.particles = List.replicate n.toNat (ob.setLik p0 (.fin 0)) ∧
      o'.collector.notes = [("N_Eval", n.toNat)] := by
  have key : ∀ (k : Nat) (res : ParamSet P Nat) (ne : Nat), Fitters.priorSerial (objOf idle) k res ne s =
      some (.ok (), ⟨res.algorithm, res.notes.set "N_Eval" (ne + k),
        res.particles ++ List.replicate k (ob.setLik p0 (.fin 0))⟩, s) := by
    intro k
    induction k with
    | zero => intro res ne; simp [Fitters.priorSerial, ParamSet.keep]
    | succ k ih =>
      intro res ne
      rw [Fitters.priorSerial, hi, idle_draw ob p0 h0 hl s]
      simp only
      rw [← hi, ih, List.replicate_succ]
      simp [ParamSet.append, show ne + 1 + k = ne + (k + 1) by omega]
  unfold Fitters.priorCollect
  have hn' : (o.close (Fitters.prior objOf idle)).settings.int "n_collect" = .ok n := hn
  have hp' : (o.close (Fitters.prior objOf idle)).settings.flag "parallel" = .ok false := hp
  simp only [hn', hp', Bool.false_eq_true, if_false]
  have : (o.close (Fitters.prior objOf idle)).model = idle := rfl
  rw [this, key]
  refine ⟨_, rfl, by simp [ParamSet.new], by simp [ParamSet.new, Dict.set]⟩

/-! ## C193: simulations that fail -/

variable {R : Type}

/-- **C193**, as first stated - a simulation that gives nothing counts as a try without success, and another particle is
drawn - fails: it raises out of `draw`, whichever try it was among the first twenty-one. -/
theorem C193_refuted (ob : Objective P N K S) (simulate : P → Run S (Option R)) (link : R → Run S (XR K)) {n : Nat}
    {s s1 s2 s3 : S} {q : P} (hn : n ≤ 20) (hf : Props.Draw.Failed (Fitters.simBased ob simulate link) n s s1)
    (hq : ob.samplePrior s1 = some (.ok q, s2)) (he : ob.likEvaluated q = false)
    (hs : simulate q s2 = some (.ok none, s3)) :
    draw (Fitters.simBased ob simulate link) s = some (.error .ValueError, s3) := by
  have h := Props.Draw.drawLoop_failed (left := 20 - n + 1) (i := 0) hf (by omega)
  rw [show 20 - n + 1 + n = 21 by omega] at h
  rw [draw, h, drawLoop, Run.bind_apply]
  have hq' : (Fitters.simBased ob simulate link).samplePrior s1 = some (.ok q, s2) := hq
  rw [hq']
  have : evaluate (Fitters.simBased ob simulate link) q s2 = some (.error .ValueError, s3) := by
    unfold evaluate
    have he' : (Fitters.simBased ob simulate link).likEvaluated q = false := he
    rw [he', if_neg (by simp), Run.bind_apply]
    have : (Fitters.simBased ob simulate link).calcLikelihood q s2 = some (.error .ValueError, s3) := by
      show (simulate q >>= _) s2 = _
      rw [Run.bind_apply, hs]
      rfl
    rw [this]
  show (evaluate (Fitters.simBased ob simulate link) q >>= _) s2 = _
  rw [Run.bind_apply, this]

/-- **C193**, what holds: if particles of the prior come without a likelihood, every particle that is drawn, but for the
empty one after twenty-one tries, has been simulated, its simulation gave something, and its likelihood is the one that
`link_likelihood` found for that. -/
theorem C193_partial {ob : Objective P N K S} {simulate : P → Run S (Option R)} {link : R → Run S (XR K)}
    (hnew : ∀ t q t', ob.samplePrior t = some (.ok q, t') → ob.likEvaluated q = false) {s s' : S} {p : P} {i : Nat}
    (h : draw (Fitters.simBased ob simulate link) s = some (.ok (p, i), s')) :
    (i = 21 ∧ p = ob.dead) ∨ ∃ q r l t t1 t2, ob.samplePrior t = some (.ok q, t1) ∧
      simulate q t1 = some (.ok (some r), t2) ∧ link r t2 = some (.ok l, s') ∧ p = ob.setLik q l := by
  obtain ⟨n, s1, l, q, -, -, -, ht, hr⟩ := Props.Draw.C130_draw h
  rcases hr with ⟨-, rfl, -, -⟩ | hr
  · obtain ⟨q, t1, h1, h2⟩ := ht
    rcases h2 with ⟨h2, -⟩ | ⟨-, x, h3, h4, -⟩
    · have h2 : ob.likEvaluated q = true := h2
      rw [hnew _ _ _ h1] at h2
      cases h2
    · right
      obtain ⟨r, t2, h5, h6⟩ := Run.bind_ok.1 h3
      cases r with
      | none => exact absurd h6 Run.fail_ok
      | some r => exact ⟨q, r, x, s1, t1, t2, h1, h5, h6, h4⟩
  · exact .inl hr

/-- The likelihood of an objective of this kind is the one of what is simulated, from a particle as from its JSON. -/
theorem C193_simulate (ob : Objective P N K S) (simulate : P → Run S (Option R)) {js : Js N K} {p q : P} {s s1 : S}
    {lp ll : XR K} (hlp : js.logPrior = some lp) (hll : js.logLik = some ll)
    (hq : ob.serve js.locus s = some (.ok q, s1)) :
    Fitters.simulateAny ob simulate (.inr p) = simulate p ∧
      Fitters.simulateAny ob simulate (.inl js) s = simulate (ob.setLik (ob.setPrior q lp) ll) s1 := by
  constructor
  · rfl
  · have h : serveJson ob js s = some (.ok (ob.setLik (ob.setPrior q lp) ll), s1) := by
      unfold serveJson
      rw [Run.bind_apply, hq]
      simp only [hlp, hll]
      rfl
    unfold Fitters.simulateAny
    rw [Run.bind_apply]
    simp only [h]

/-- If the JSON of a particle lacks one of its log-probabilities, it cannot be simulated. -/
theorem C193_json (ob : Objective P N K S) (simulate : P → Run S (Option R)) {js : Js N K} {q : P} {s s1 : S}
    (hj : js.logPrior = none ∨ js.logLik = none) (hq : ob.serve js.locus s = some (.ok q, s1)) :
    Fitters.simulateAny ob simulate (.inl js) s = some (.error .KeyError, s1) := by
  have h : serveJson ob js s = some (.error .KeyError, s1) := by
    unfold serveJson
    rw [Run.bind_apply, hq]
    rcases hj with hj | hj
    · simp only [hj]
      rfl
    · simp only [hj]
      cases js.logPrior <;> rfl
  unfold Fitters.simulateAny
  rw [Run.bind_apply]
  simp only [h]

end Prior

/-! Examples: the toy objective of `Props.Draw`, with simulations. -/

/-- Two objectives: particles of likelihood zero from three on, and the idle one. -/
def exObj : Bool → Model.Draw.Objective Props.Draw.Part String ℚ Nat
  | true => Props.Draw.toy (fun _ => .fin 0) (Props.Draw.from_ 3)
  | false => Fitters.idleObjective (Props.Draw.toy (fun _ => .fin 0) (Props.Draw.from_ 3)) ⟨[], .nan, .nan⟩

/-- The sampler of priors of these. -/
def exPrior : Alg Nat ℚ Bool Unit Props.Draw.Part Nat := Fitters.prior exObj false

/-- The sampler after a fit with two particles. -/
def exPriorFit (par : Bool) : Option (Result Unit × FitterObj ℚ Bool Unit Props.Draw.Part Nat × Nat) :=
  FitterObj.fit exPrior true [("n_collect", .int 2)] (.new exPrior [("parallel", .flag par)]) 0

example : (exPriorFit false).map (fun x => (x.1, x.2.1.model, x.2.1.collector)) = some (.error .AttributeError, true,
    ⟨"Prior", [("N_Eval", 2)], [⟨[("a", 3), ("b", 3)], .fin 0, .fin 0⟩, ⟨[("a", 4), ("b", 4)], .fin 0, .fin 0⟩]⟩) := by
  decide +kernel

example : (exPriorFit true).map (fun x => (x.1, x.2.1.model, x.2.1.collector)) = some (.error .AttributeError, true,
    ⟨"Prior", [("N_Eval", 5)], [⟨[("a", 3), ("b", 3)], .fin 0, .fin 0⟩, ⟨[("a", 4), ("b", 4)], .fin 0, .fin 0⟩]⟩) := by
  decide +kernel

example : (exPriorFit false).bind (fun x => (Fitters.priorCollect exObj (x.2.1.close exPrior) x.2.2).map
    (fun y => y.2.1.collector)) =
    some ⟨"Prior", [("N_Eval", 2)], [⟨[], .nan, .fin 0⟩, ⟨[], .nan, .fin 0⟩]⟩ := by
  decide +kernel

/-- Simulations that give nothing for the particle of value two. -/
def exSimulate (p : Props.Draw.Part) : Run Nat (Option ℚ) :=
  pure (if (p.locus.get? "a").getD 0 = 2 then none else some ((p.locus.get? "a").getD 0))

example : Model.Draw.draw (Fitters.simBased (exObj true) exSimulate (fun r => pure (Props.Draw.from_ 3 r))) 0 =
      some (.error .ValueError, 3) ∧
    Model.Draw.draw (Fitters.simBased (exObj true) exSimulate (fun r => pure (Props.Draw.from_ 3 r))) 3 =
      some (.ok (⟨[("a", 3), ("b", 3)], .fin 0, .fin 0⟩, 1), 4) := by
  constructor <;> decide +kernel

/-- The two failed tries before the one that raises. -/
example : Props.Draw.Failed (Fitters.simBased (exObj true) exSimulate (fun r => pure (Props.Draw.from_ 3 r))) 2 0 2 :=
  .more (s1 := 1) ⟨_, _, rfl, .inr ⟨by decide +kernel, .ninf, by decide +kernel, rfl, rfl⟩⟩ (.inr rfl)
    (.more ⟨_, _, rfl, .inr ⟨by decide +kernel, .ninf, by decide +kernel, rfl, rfl⟩⟩ (.inr rfl) (.none _))

example : Fitters.simulateAny (exObj true) exSimulate (.inl ⟨[("a", 1)], some (.fin 0), some (.fin 0)⟩) 0 =
      some (.ok (some 1), 1) ∧
    Fitters.simulateAny (exObj true) exSimulate (.inl ⟨[("a", 1)], none, some (.fin 0)⟩) 0 =
      some (.error .KeyError, 1) := by
  constructor <;> decide +kernel

end Props.Posteriors
