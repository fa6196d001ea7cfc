import Verif.Props.BN
import Verif.Props.Monitor
import Verif.Props.FitBase
import Verif.Props.Ga
import Verif.Props.Draw
import Verif.Props.Fitter
import Verif.Props.Abc
import Verif.Props.Hme
import Verif.Props.Collect
import Verif.Props.Expr

/-!
# How things fail: C173 - C178
-/

namespace Props.Failures
set_option linter.unusedSectionVars false

open Py Model

/-! ## C173: names that are not there -/

section Names

variable {N V C O : Type} [DecidableEq N]

/-- **C173** (networks): of a network made by definitions, `bn[x]` is the last definition of `x`, the exogenous variable
`x` if `x` is a parent only, and a KeyError for every other name. -/
theorem C173_net {ds : List (Loci N V C O)} {bn : BN N V C O} (hb : BN.Built ds bn) (x : N) :
    (∀ l, BN.lastDef ds x = some l → bn.get x = .ok l) ∧
    (BN.lastDef ds x = none → (∃ l ∈ ds, x ∈ l.parents) → bn.get x = .ok (.exo x)) ∧
    ((∀ l ∈ ds, x ≠ l.name ∧ x ∉ l.parents) → bn.get x = .error .KeyError ∧ bn.isRv x = .error .KeyError ∧
      bn.isExogenous x = .error .KeyError) := by
  obtain ⟨-, hm, h1, h2, -⟩ := BN.C12_well_formed hb
  obtain ⟨hw, -, -, -⟩ := BN.built_inv hb
  refine ⟨fun l h => ?_, fun h hp => ?_, fun h => ?_⟩
  · unfold Model.BN.get; rw [h1 x l h]
  · obtain ⟨l, hl, hx⟩ := hp
    unfold Model.BN.get
    rw [h2 x ((hm x).2 ⟨l, hl, .inr hx⟩) h]
  · have e : bn.get x = .error .KeyError := by
      unfold Model.BN.get
      cases hg : bn.loci.get? x with
      | none => rfl
      | some l =>
        obtain ⟨l', hl', hx⟩ := (hm x).1 ((hw.defined x).1 ⟨l, hg⟩)
        exact absurd hx (by rintro (rfl | hx); exacts [(h _ hl').1 rfl, (h _ hl').2 hx])
    refine ⟨e, ?_, ?_⟩
    · unfold Model.BN.isRv; rw [e]; rfl
    · unfold Model.BN.isExogenous; rw [e]; rfl

example : ∀ l ∈ BN.exDefs, "q" ≠ l.name ∧ "q" ∉ l.parents := by decide

end Names

section Watch

variable {K V : Type} [DecidableEq K]

/-- **C173** (monitor): a monitor starts at time 0 without records; what was kept since the last step can be read, the
last value for each key, and every other key is a KeyError; a step forward leaves nothing to read. -/
theorem C173_monitor (timeKey : K) (num : Int → V) (kws : List (Dict K V)) (hw : ∀ kw ∈ kws, kw.WF) :
    (Monitor.init : Monitor K V).time = 0 ∧ (Monitor.init : Monitor K V).records = [] ∧
    (∀ k v, Monitor.lastKept kws k = some v →
      (Monitor.run timeKey num (kws.map .keep) .init).get k = .ok v) ∧
    (∀ k, Monitor.lastKept kws k = none →
      (Monitor.run timeKey num (kws.map .keep) .init).get k = .error .KeyError) ∧
    (∀ k, (Monitor.run timeKey num (kws.map .keep ++ [.step none]) .init).get k = .error .KeyError) := by
  obtain ⟨d, h1, h2⟩ := Monitor.keep_all timeKey num kws (.init : Monitor K V) hw
  have h3 : ∀ k, d.get? k = Monitor.lastKept kws k := by
    intro k
    rw [h2]
    show (Monitor.lastKept kws k).or (Dict.get? ([] : Dict K V) k) = _
    simp [Dict.get?]
  refine ⟨rfl, rfl, ?_, ?_, ?_⟩
  · intro k v h
    rw [h1]
    unfold Model.Monitor.get
    simp only [h3, h]
  · intro k h
    rw [h1]
    unfold Model.Monitor.get
    simp only [h3, h]
  · intro k
    obtain ⟨r, -, hl, -⟩ := Monitor.C54_record timeKey num (m := (.init : Monitor K V)) rfl kws hw
      (t := none) (fun u hu => by cases hu)
    unfold Model.Monitor.get
    rw [hl]
    rfl

example : Monitor.lastKept [[("n", 4), ("m", 2)], [("n", 6)]] "n" = some 6 ∧
    Monitor.lastKept [[("n", 4)]] "k" = none := by decide

end Watch

/-! ## C174: simulations that lack an output -/

section Outputs

variable {N V C O S K D : Type} [DecidableEq N] [Field K] [LinearOrder K]

theorem mapM_missing {A B : Type} {f : A → Option B} {xs : List A} (h : ∃ x ∈ xs, f x = none) :
    xs.mapM (fun x => match f x with | some y => (.ok y : Result B) | none => .error .KeyError) = .error .KeyError := by
  induction xs with
  | nil => obtain ⟨x, hx, -⟩ := h; cases hx
  | cons x xs ih =>
    rw [List.mapM_cons]
    cases hf : f x with
    | none => rfl
    | some y =>
      obtain ⟨z, hz, hn⟩ := h
      rcases List.mem_cons.1 hz with rfl | hz
      · rw [hf] at hn; cases hn
      · simp only [bind, Except.bind]
        rw [ih ⟨z, hz, hn⟩]

/-- **C174**: a particle whose simulation lacks one of the targets has no distance and no likelihood: both raise KeyError,
having left the note of the free parameters and none of the results. -/
theorem C174 {env : FitEnv N V C O S K D} {m : DataModel N V C O K D} {p : Particle N V K} {s s' : S}
    {doms : List (Dom N K)} {k : N} (hd : m.domain env s = (.ok doms, s'))
    (hp : ∀ d ∈ doms, ∃ v, p.pars.get? d.name = some v) (hk : k ∈ m.data.keys) (hs : p.sims.get? k = none)
    (hn : p.notes = []) :
    ∃ p' xs, m.calcDistance env p s = (p', s', .error .KeyError) ∧ m.calcLikelihood env p s = (p', s', .error .KeyError) ∧
      p' = p.setNote "Xs" (.xs xs) ∧ p'.sims = p.sims ∧ p'.pars = p.pars ∧
      doms.map (fun d => p.pars.get? d.name) = xs.map some := by
  have hx : ∀ ds : List (Dom N K), (∀ d ∈ ds, ∃ v, p.pars.get? d.name = some v) →
      ∃ xs, ds.mapM (fun d => match p.pars.get? d.name with
        | some v => (.ok v : Result V)
        | none => .error .KeyError) = .ok xs ∧ ds.map (fun d => p.pars.get? d.name) = xs.map some := by
    intro ds
    induction ds with
    | nil => intro _; exact ⟨[], rfl, rfl⟩
    | cons d ds ih =>
      intro h
      obtain ⟨v, hv⟩ := h d (by simp)
      obtain ⟨xs, h1, h2⟩ := ih (fun x hx => h x (by simp [hx]))
      refine ⟨v :: xs, ?_, by simp [hv, h2]⟩
      rw [List.mapM_cons]
      simp only [hv, bind, Except.bind]
      rw [h1]
      rfl
  obtain ⟨xs, h1, h2⟩ := hx doms hp
  have hy : m.data.keys.mapM (fun k => match p.sims.get? k with
      | some y => (.ok (k, y) : Result (N × XR K))
      | none => .error .KeyError) = .error .KeyError := by
    have := mapM_missing (f := fun k => (p.sims.get? k).map (fun y => (k, y))) (xs := m.data.keys)
      ⟨k, hk, by simp [hs]⟩
    rw [← this]
    congr 1
    funext k
    cases p.sims.get? k <;> rfl
  have hf : m.flatten env p s = (p.setNote "Xs" (.xs xs), s', .error .KeyError) := by
    unfold DataModel.flatten
    rw [hd]
    simp only
    split
    · rename_i e he
      have := he.symm.trans h1
      cases this
    · rename_i ys he
      have := he.symm.trans h1
      cases this
      split
      · rename_i e he'
        have := he'.symm.trans hy
        cases this
        rfl
      · rename_i e he'
        have := he'.symm.trans hy
        cases this
  have hl : m.lookupYs env p s = (p.setNote "Xs" (.xs xs), s', .error .KeyError) := by
    unfold DataModel.lookupYs
    rw [hn, hf]
    rfl
  refine ⟨p.setNote "Xs" (.xs xs), xs, ?_, ?_, rfl, rfl, rfl, h2⟩
  · unfold DataModel.calcDistance DataModel.calcNote
    rw [hn, hl]
    rfl
  · unfold DataModel.calcLikelihood DataModel.calcNote
    rw [hn, hl]
    rfl

/-- **C174** (a foreign note): a note `Ys` that is not a dictionary is a TypeError, unless there is no target. -/
theorem C174_note {env : FitEnv N V C O S K D} {m : DataModel N V C O K D} {p : Particle N V K} (s : S) {x : XR K}
    (hy : p.notes.get? "Ys" = some (.num x)) (hn : p.notes.get? "distance" = none) :
    (m.data ≠ [] → m.calcDistance env p s = (p, s, .error .TypeError)) ∧
    (m.data = [] → m.calcDistance env p s = (p.setNote "distance" (.num 0), s, .ok (.num 0))) := by
  have hl : m.lookupYs env p s = (p, s, .ok (.num x)) := by
    unfold DataModel.lookupYs
    rw [hy]
  constructor
  · intro h
    unfold DataModel.calcDistance DataModel.calcNote
    rw [hn, hl]
    simp [h]
  · intro h
    unfold DataModel.calcDistance DataModel.calcNote
    rw [hn, hl]
    simp [h]

end Outputs

section HmeOutputs

variable {S N K D : Type} [DecidableEq N] [Field K] [LinearOrder K] [FloorSemiring K]

theorem mapM_keyError {A B : Type} {f : A → Result B} {xs : List A} (hf : ∀ x ∈ xs, f x = .error .KeyError ∨ ∃ y, f x = .ok y)
    (h : ∃ x ∈ xs, f x = .error .KeyError) : xs.mapM f = .error .KeyError := by
  induction xs with
  | nil => obtain ⟨x, hx, -⟩ := h; cases hx
  | cons x xs ih =>
    rw [List.mapM_cons]
    rcases hf x (by simp) with h1 | ⟨y, h1⟩
    · rw [h1]; rfl
    · rw [h1]
      obtain ⟨z, hz, hn⟩ := h
      rcases List.mem_cons.1 hz with rfl | hz
      · rw [h1] at hn; cases hn
      · simp only [bind, Except.bind]
        rw [ih (fun w hw => hf w (by simp [hw])) ⟨z, hz, hn⟩]

/-- **C174** (history matching): a simulation that lacks a target is a KeyError, and so are an implausibility and a mean
squared error that lack a prediction. -/
theorem C174_hme (env : HmeEnv S N K D) {k : N} (hk : k ∈ env.data.keys) :
    (∀ (xs : List K) (sims : Dict N (XR K)) (s s' : S), env.simulate (Hme.parsOf env.doms xs) s = (.ok sims, s') →
      sims.get? k = none → Hme.simulateOne env xs s = some (.error .KeyError, s')) ∧
    (∀ (vm : XR K) (ys vs : Dict N (XR K)), ys.get? k = none ∨ vs.get? k = none →
      Hme.implausibility env vm ys vs = .error .KeyError) ∧
    (∀ (pts : List (EmuPt N K)) (p : EmuPt N K), p ∈ pts → p.ys.get? k = none →
      Hme.evalMse env pts = .error .KeyError) := by
  refine ⟨fun xs sims s s' h hn => ?_, fun vm ys vs h => ?_, fun pts p hp hn => ?_⟩
  · have hy : Hme.flatYs env.data sims = .error .KeyError := by
      unfold Hme.flatYs
      apply mapM_keyError
      · intro x _
        cases sims.get? x with
        | none => exact .inl rfl
        | some v => exact .inr ⟨_, rfl⟩
      · exact ⟨k, hk, by simp only [hn]⟩
    have hx : Hme.flatXs env.doms (Hme.parsOf env.doms xs) = .error .KeyError ∨
        ∃ v, Hme.flatXs env.doms (Hme.parsOf env.doms xs) = .ok v := by
      by_cases hc : ∃ d ∈ env.doms, (Hme.parsOf env.doms xs).get? d.1 = none
      · left
        obtain ⟨d, hd, hn⟩ := hc
        unfold Hme.flatXs
        apply mapM_keyError
        · intro x _
          cases (Hme.parsOf env.doms xs).get? x.1 with
          | none => exact .inl rfl
          | some v => exact .inr ⟨_, rfl⟩
        · exact ⟨d, hd, by simp only [hn]⟩
      · right
        push Not at hc
        generalize Hme.parsOf env.doms xs = pars at hc
        unfold Hme.flatXs
        generalize env.doms = ds at hc
        induction ds with
        | nil => exact ⟨[], rfl⟩
        | cons d ds ih =>
          obtain ⟨v, hv⟩ := Option.ne_none_iff_exists'.1 (hc d (by simp))
          obtain ⟨w, hw⟩ := ih (fun x hx => hc x (by simp [hx]))
          refine ⟨v :: w, ?_⟩
          rw [List.mapM_cons]
          simp only [hv, bind, Except.bind]
          rw [hw]
          rfl
    unfold Hme.simulateOne
    refine Run.bind_error.2 (.inr ⟨sims, s', Run.lift_ok.2 h, ?_⟩)
    rcases hx with hx | ⟨v, hx⟩
    · rw [hx]; rfl
    · rw [hx, hy]; rfl
  · unfold Hme.implausibility
    rw [mapM_keyError]
    · rfl
    · intro x _
      cases ys.get? x.1 with
      | none => exact .inl rfl
      | some y =>
        cases vs.get? x.1 with
        | none => exact .inl rfl
        | some v => exact .inr ⟨_, rfl⟩
    · obtain ⟨d, hd, rfl⟩ := List.mem_map.1 hk
      refine ⟨d, hd, ?_⟩
      rcases h with h | h
      · simp only [h]
      · simp only [h]
        cases ys.get? d.1 <;> rfl
  · unfold Hme.evalMse
    rw [mapM_keyError]
    · rfl
    · intro q _
      by_cases hc : ∃ d ∈ env.data, q.ys.get? d.1 = none
      · left
        rw [mapM_keyError]
        · rfl
        · intro x _
          cases q.ys.get? x.1 with
          | none => exact .inl rfl
          | some v => exact .inr ⟨_, rfl⟩
        · obtain ⟨d, hd, hn⟩ := hc
          exact ⟨d, hd, by simp only [hn]⟩
      · right
        push Not at hc
        have : ∀ ds : Dict N (Target N K D), (∀ d ∈ ds, q.ys.get? d.1 ≠ none) →
            ∃ w, ds.mapM (fun kd => match q.ys.get? kd.1 with
              | some y => (.ok (y - kd.2.value).sq : Result (XR K))
              | none => .error .KeyError) = .ok w := by
          intro ds
          induction ds with
          | nil => intro _; exact ⟨[], rfl⟩
          | cons d ds ih =>
            intro hc
            obtain ⟨v, hv⟩ := Option.ne_none_iff_exists'.1 (hc d (by simp))
            obtain ⟨w, hw⟩ := ih (fun x hx => hc x (by simp [hx]))
            refine ⟨(v - d.2.value).sq :: w, ?_⟩
            rw [List.mapM_cons]
            simp only [hv, bind, Except.bind]
            rw [hw]
            rfl
        obtain ⟨w, hw⟩ := this env.data hc
        refine ⟨Hme.mean w, ?_⟩
        exact congrArg (· >>= fun ds => .ok (Hme.mean ds)) hw
    · refine ⟨p, hp, ?_⟩
      rw [mapM_keyError]
      · rfl
      · intro x _
        cases p.ys.get? x.1 with
        | none => exact .inl rfl
        | some v => exact .inr ⟨_, rfl⟩
      · obtain ⟨d, hd, rfl⟩ := List.mem_map.1 hk
        exact ⟨d, hd, by simp only [hn]⟩

end HmeOutputs

/-- A network with a free parameter, and a target that the simulation does not have. -/
example : (FitBase.exModel.domain FitBase.exEnv 3).1.map (·.map (·.name)) = .ok ["x"] ∧
    "b" ∈ FitBase.exModel.data.keys ∧ (FitBase.exModel.calcDistance FitBase.exEnv
      (.new (.chrom FitBase.exChrom) [("a", .fin 11)]) 3).2.2 = .error .KeyError := by decide +kernel

/-- Somebody wrote a number where the outputs belong. -/
example : (FitBase.exModel.calcDistance FitBase.exEnv
    ((Particle.new (.chrom FitBase.exChrom) [("a", .fin 11)]).setNote "Ys" (.num (.fin 2))) 3).2.2 = .error .TypeError := by
  decide +kernel

/-- An environment of history matching whose simulations have no outputs. -/
example : "y" ∈ Hme.exHme.data.keys ∧
    (Hme.simulateOne { Hme.exHme with simulate := fun _ s => (.ok [], s + 1) } [1 / 2] 0) =
      some (.error .KeyError, 1) ∧ Hme.implausibility Hme.exHme (.fin 1) [("y", .fin 2)] [] = .error .KeyError ∧
    Hme.evalMse Hme.exHme [⟨[0], [], [], .fin 0⟩] = .error .KeyError :=
  ⟨by decide, rfl, by decide +kernel, by decide +kernel⟩

/-! ## C175: the selectors of the genetic algorithm -/

section Selectors

variable {S N K P : Type} [DecidableEq N] [Field K] [LinearOrder K]

/-- **C175** (when they refuse): the tournament needs more members of finite likelihood than it has rivals, the importance
selection more than five; otherwise they raise AssertionError before drawing any random number, and only then. -/
theorem C175 (env : GaEnv S N K P) (k : Nat) (b : Bool) (ps : List P) (s : S) :
    ((ps.filter (fun p => (env.lik p).isFinite)).length ≤ k →
      Ga.tour env k b ps s = some (.error .AssertionError, s)) ∧
    ((ps.filter (fun p => (env.lik p).isFinite)).length ≤ 5 →
      Ga.importance env b ps s = some (.error .AssertionError, s)) ∧
    (k < (ps.filter (fun p => (env.lik p).isFinite)).length →
      (∀ n k s, ∃ is s', env.distinct n k s = (.ok is, s') ∧ is.length = k ∧ ∀ i ∈ is, i < n) → 0 < k →
      ∃ sel s', Ga.tour env k b ps s = some (.ok sel, s') ∧ sel.length = ps.length) := by
  refine ⟨fun h => ?_, fun h => ?_, fun h hd hk => ?_⟩
  · have e : Ga.tour env k b ps = if k < (Ga.eligible env ps).length then
      Run.times ps.length (Ga.tournament env k b (Ga.eligible env ps)) else .fail .AssertionError := rfl
    rw [e, if_neg (by unfold Ga.eligible; omega)]
    rfl
  · have e : Ga.importance env b ps = if 5 < (Ga.eligible env ps).length then (do
      let is ← Run.lift (env.rng.choice (env.softmax ((Ga.eligible env ps).map (Ga.fitness env b))) ps.length)
      let sel ← Run.ofResult (Model.select (Ga.eligible env ps) is)
      return sel.map env.clone) else .fail .AssertionError := rfl
    rw [e, if_neg (by unfold Ga.eligible; omega)]
    rfl
  · have e : Ga.tour env k b ps = if k < (Ga.eligible env ps).length then
      Run.times ps.length (Ga.tournament env k b (Ga.eligible env ps)) else .fail .AssertionError := rfl
    rw [e, if_pos (by unfold Ga.eligible; omega)]
    clear e
    generalize Ga.eligible env ps = el
    have one : ∀ s, ∃ p s', Ga.tournament env k b el s = some (.ok p, s') := by
      intro s
      obtain ⟨is, s1, h1, h2, h3⟩ := hd el.length k s
      have hsel : ∀ is : List Nat, (∀ i ∈ is, i < el.length) →
          ∃ cs, Model.select el is = .ok cs ∧ cs.length = is.length := by
        intro is
        induction is with
        | nil => intro _; exact ⟨[], rfl, rfl⟩
        | cons i is ih =>
          intro h
          obtain ⟨cs, h4, h5⟩ := ih (fun x hx => h x (by simp [hx]))
          refine ⟨el[i]'(h i (by simp)) :: cs, ?_, by simp [h5]⟩
          unfold Model.select at h4 ⊢
          rw [List.mapM_cons, List.getElem?_eq_getElem (h i (by simp))]
          simp only [bind, Except.bind]
          rw [h4]
          rfl
      obtain ⟨cs, h4, h5⟩ := hsel is h3
      cases cs with
      | nil => simp at h5; omega
      | cons c cs =>
        refine ⟨env.clone (cs.foldl (fun a b' => if XR.lt (Ga.fitness env b a) (Ga.fitness env b b') then b' else a) c),
          s1, ?_⟩
        unfold Ga.tournament
        refine Run.bind_ok.2 ⟨is, s1, Run.lift_ok.2 h1, Run.bind_ok.2 ⟨_, s1, Run.ofResult_ok.2 ⟨h4, rfl⟩,
          Run.bind_ok.2 ⟨_, s1, Run.ofResult_ok.2 ⟨rfl, rfl⟩, rfl⟩⟩⟩
    clear h hd
    generalize ps.length = n
    induction n generalizing s with
    | zero => exact ⟨[], s, rfl, rfl⟩
    | succ n ih =>
      obtain ⟨p, s1, h1⟩ := one s
      obtain ⟨sel, s2, h2, h3⟩ := ih s1
      exact ⟨p :: sel, s2, Run.bind_ok.2 ⟨p, s1, h1, Run.bind_ok.2 ⟨sel, s2, h2, rfl⟩⟩, by simp [h3]⟩

/-- **C175** (what counts): the selection of a generation looks at the posterior of the individuals. -/
theorem C175_posterior (env : GaEnv S N K P) (set : Ga.Settings K) (ps : List P) (lik' : P → XR K)
    (hl : ∀ p, (lik' p).isFinite = (env.lik p).isFinite) :
    Ga.selection { env with lik := lik' } set ps = Ga.selection env set ps := by
  have he : Ga.eligible { env with lik := lik' } ps = Ga.eligible env ps := by
    unfold Ga.eligible
    simp only [hl]
  unfold Ga.selection
  cases set.sel with
  | tour k =>
    unfold Ga.tour
    simp only [he]
    rfl
  | importance =>
    unfold Ga.importance
    simp only [he]
    rfl

/-- Three individuals of finite likelihood are enough for two rivals, two are not. -/
example : Ga.tour Ga.exGa 2 true [9, 4, 1] 0 = some (.ok [4, 4, 4], 3) ∧
    Ga.tour Ga.exGa 2 true [9, 4] 0 = some (.error .AssertionError, 0) ∧
    Ga.importance Ga.exGa true [9, 4, 1, 2, 3] 0 = some (.error .AssertionError, 0) := by decide +kernel

end Selectors

/-! ## C176: individuals that lack a parameter -/

section Individuals

variable {S N K P : Type} [DecidableEq N] [Field K] [LinearOrder K]

/-- **C176**: an individual without one of the parameters of the domain can be neither crossed nor mutated, nor be looked at
for the scales: all of it is a KeyError. -/
theorem C176 (env : GaEnv S N K P) {ds : List (GaDom N K)} {s s' : S} {p : P} {d : GaDom N K}
    (hD : env.domain s = (.ok ds, s')) (hd : d ∈ ds) (hp : env.get p d.name = none) (q : P) :
    Ga.averageCross env p q s = some (.error .KeyError, s') ∧
    Ga.averageCross env q p s = some (.error .KeyError, s') ∧
    (∃ s'', Ga.shuffleCross env p q s = some (.error .KeyError, s'')) ∧
    (∃ s'', Ga.shuffleCross env q p s = some (.error .KeyError, s'')) ∧
    (∀ ps old, p ∈ ps → Ga.setScales env ps old s = some (.error .KeyError, s')) ∧
    (∀ scs, (∀ x sc s, ∃ v s', env.normal x sc s = (.ok v, s')) →
      ∃ s'', Ga.propose env scs p s = some (.error .KeyError, s'')) := by
  have av : ∀ (a b : P) (l : Dict N (XR K)) (ds : List (GaDom N K)),
      (∃ d ∈ ds, env.get a d.name = none ∨ env.get b d.name = none) → Ga.average env a b l ds = .error .KeyError := by
    intro a b l ds
    induction ds generalizing l with
    | nil => rintro ⟨d, hd, -⟩; cases hd
    | cons e ds ih =>
      rintro ⟨d, hd, h⟩
      unfold Ga.average Ga.item
      cases ha : env.get a e.name with
      | none => rfl
      | some va =>
        cases hb : env.get b e.name with
        | none => rfl
        | some vb =>
          rcases List.mem_cons.1 hd with rfl | hd
          · simp [ha, hb] at h
          · exact ih _ ⟨d, hd, h⟩
  have sh : ∀ (a b : P) (ds : List (GaDom N K)) (l : Dict N (XR K) × Dict N (XR K)) (s : S),
      (∃ d ∈ ds, env.get a d.name = none ∨ env.get b d.name = none) →
      ∃ s', Ga.shuffle env a b l ds s = some (.error .KeyError, s') := by
    intro a b ds
    induction ds with
    | nil => rintro l s ⟨d, hd, -⟩; cases hd
    | cons e ds ih =>
      rintro l s ⟨d, hd, h⟩
      have hone : (env.get a e.name = none ∨ env.get b e.name = none →
            Ga.shuffleOne env a b e.name l s = some (.error .KeyError, (env.rng.random s).2)) ∧
          (¬ (env.get a e.name = none ∨ env.get b e.name = none) →
            ∃ l', Ga.shuffleOne env a b e.name l s = some (.ok l', (env.rng.random s).2)) := by
        have e1 : Ga.shuffleOne env a b e.name l s = (if (env.rng.random s).1 < 1 / 2 then (do
            let vb ← Run.ofResult (Ga.item env b e.name)
            let va ← Run.ofResult (Ga.item env a e.name)
            return (l.1.set e.name vb, l.2.set e.name va) : Run S _)
          else (do
            let va ← Run.ofResult (Ga.item env a e.name)
            let vb ← Run.ofResult (Ga.item env b e.name)
            return (l.1.set e.name va, l.2.set e.name vb))) (env.rng.random s).2 := rfl
        rw [e1]
        unfold Ga.item
        cases env.get a e.name <;> cases env.get b e.name <;> split <;>
          first
          | exact ⟨fun _ => rfl, fun h => absurd (by simp) h⟩
          | exact ⟨fun h => by simp at h, fun _ => ⟨_, rfl⟩⟩
      by_cases hc : env.get a e.name = none ∨ env.get b e.name = none
      · exact ⟨_, Run.bind_error.2 (.inl (hone.1 hc))⟩
      · obtain ⟨l', hl⟩ := hone.2 hc
        rcases List.mem_cons.1 hd with rfl | hd
        · exact absurd h hc
        · obtain ⟨s2, h2⟩ := ih l' (env.rng.random s).2 ⟨d, hd, h⟩
          exact ⟨s2, Run.bind_error.2 (.inr ⟨l', _, hl, h2⟩)⟩
  refine ⟨?_, ?_, ?_, ?_, fun ps old hps => ?_, fun scs hn => ?_⟩
  · refine Run.bind_error.2 (.inr ⟨ds, s', Run.lift_ok.2 hD, ?_⟩)
    rw [av p q [] ds ⟨d, hd, .inl hp⟩]; rfl
  · refine Run.bind_error.2 (.inr ⟨ds, s', Run.lift_ok.2 hD, ?_⟩)
    rw [av q p [] ds ⟨d, hd, .inr hp⟩]; rfl
  · obtain ⟨s2, h2⟩ := sh p q ds ([], []) s' ⟨d, hd, .inl hp⟩
    exact ⟨s2, Run.bind_error.2 (.inr ⟨ds, s', Run.lift_ok.2 hD, h2⟩)⟩
  · obtain ⟨s2, h2⟩ := sh q p ds ([], []) s' ⟨d, hd, .inr hp⟩
    exact ⟨s2, Run.bind_error.2 (.inr ⟨ds, s', Run.lift_ok.2 hD, h2⟩)⟩
  · refine Run.bind_error.2 (.inr ⟨ds, s', Run.lift_ok.2 hD, ?_⟩)
    have : Ga.scales env ps old ds = .error .KeyError := by
      clear hD av sh
      induction ds generalizing old with
      | nil => cases hd
      | cons e ds ih =>
        unfold Ga.scales
        have hit : ∀ x : P, Ga.item env x e.name = .error .KeyError ∨ ∃ y, Ga.item env x e.name = .ok y := by
          intro x
          unfold Ga.item
          cases env.get x e.name with
          | none => exact .inl rfl
          | some v => exact .inr ⟨_, rfl⟩
        rcases List.mem_cons.1 hd with rfl | hd
        · rw [mapM_keyError (fun x _ => hit x) ⟨p, hps, by unfold Ga.item; rw [hp]⟩]
          rfl
        · by_cases hc : ∃ x ∈ ps, Ga.item env x e.name = .error .KeyError
          · rw [mapM_keyError (fun x _ => hit x) hc]
            rfl
          · cases hm : ps.mapM (fun p => Ga.item env p e.name) with
            | ok xs => exact ih hd _
            | error er =>
              exfalso
              push Not at hc
              have hall : ∀ x ∈ ps, ∃ y, Ga.item env x e.name = .ok y :=
                fun x hx => (hit x).resolve_left (hc x hx)
              clear hc hps ih
              induction ps generalizing er with
              | nil => cases hm
              | cons x ps ih =>
                obtain ⟨y, hy⟩ := hall x (by simp)
                rw [List.mapM_cons, hy] at hm
                simp only [bind, Except.bind] at hm
                cases h2 : ps.mapM (fun p => Ga.item env p e.name) with
                | error e2 => exact ih e2 h2 (fun z hz => hall z (by simp [hz]))
                | ok ys => rw [h2] at hm; cases hm
    rw [this]; rfl
  · have : ∀ (ds : List (GaDom N K)) (l : Dict N (XR K)) (s : S), d ∈ ds →
        ∃ s', Ga.proposeNodes env scs p l ds s = some (.error .KeyError, s') := by
      intro ds
      induction ds with
      | nil => intro l s h; cases h
      | cons e ds ih =>
        intro l s h
        unfold Ga.proposeNodes
        cases hx : env.get p e.name with
        | none =>
          refine ⟨s, Run.bind_error.2 (.inl ?_)⟩
          unfold Ga.item; rw [hx]; rfl
        | some x =>
          have hi : Ga.item env p e.name = .ok x := by unfold Ga.item; rw [hx]
          rcases List.mem_cons.1 h with rfl | h
          · rw [hp] at hx; cases hx
          · cases hsc : scs.get? e.name with
            | none =>
              refine ⟨s, Run.bind_error.2 (.inr ⟨x, s, Run.ofResult_ok.2 ⟨hi, rfl⟩, Run.bind_error.2 (.inl ?_)⟩)⟩
              rfl
            | some sc =>
              obtain ⟨v, s1, h1⟩ := hn x sc s
              obtain ⟨s2, h2⟩ := ih (l.set e.name (Ga.clamp env e v)) s1 h
              exact ⟨s2, Run.bind_error.2 (.inr ⟨x, s, Run.ofResult_ok.2 ⟨hi, rfl⟩, Run.bind_error.2
                (.inr ⟨sc, s, Run.ofResult_ok.2 ⟨rfl, rfl⟩, Run.bind_error.2 (.inr ⟨v, s1, Run.lift_ok.2 h1, h2⟩)⟩)⟩)⟩
    obtain ⟨s2, h2⟩ := this ds [] s' hd
    exact ⟨s2, Run.bind_error.2 (.inr ⟨ds, s', Run.lift_ok.2 hD, h2⟩)⟩

end Individuals

/-- The domain has `y` too, which the individuals lack. -/
def wideGa : GaEnv Nat String ℚ ℚ :=
  { Ga.exGa with domain := fun s => (.ok [⟨"x", .fin 0, .fin 20⟩, ⟨"y", .fin 0, .fin 1⟩], s + 1),
                 get := fun p n => if n = "x" then some (.fin p) else none }

example : wideGa.domain 0 = (.ok [⟨"x", .fin 0, .fin 20⟩, ⟨"y", .fin 0, .fin 1⟩], 1) ∧ wideGa.get 3 "y" = none ∧
    Ga.averageCross wideGa 3 4 0 = some (.error .KeyError, 1) :=
  ⟨rfl, rfl, rfl⟩

/-! ## C177: proposals that are refused -/

section Retries

variable {P N K S V : Type} [DecidableEq N] [Field K] [LinearOrder K]

open Draw in
/-- **C177** (workers): a proposal that cannot be served for a ValueError is drawn again, with the number of evaluations
kept; every other exception ends the search, and so does a scale for a parameter that the particle lacks. -/
theorem C177_worker (o : Objective P N K S) (p0 scale sizes : Dict N K) (fuel i : Nat) (s s1 : S)
    (hz : drawSizes o scale s = some (.ok sizes, s1)) :
    (∀ l s2, shifted p0 sizes = .ok l → o.serve l s1 = some (.error .ValueError, s2) →
      workerLoop o p0 scale (fuel + 1) i s = workerLoop o p0 scale fuel i s2) ∧
    (∀ l e s2, shifted p0 sizes = .ok l → o.serve l s1 = some (.error e, s2) → e ≠ .ValueError →
      workerLoop o p0 scale (fuel + 1) i s = some (.error e, s2)) ∧
    ((∃ kv ∈ sizes, p0.get? kv.1 = none) → workerLoop o p0 scale (fuel + 1) i s = some (.error .KeyError, s1)) := by
  refine ⟨fun l s2 hl hs => ?_, fun l e s2 hl hs he => ?_, fun h => ?_⟩
  · rw [workerLoop, Run.bind_apply, hz]
    simp only
    rw [hl, Run.bind_apply]
    show ((tryServe o l >>= _) s1 : Option _) = _
    rw [Run.bind_apply]
    have : tryServe o l s1 = some (.ok none, s2) := by unfold tryServe; rw [hs]
    rw [this]
  · rw [workerLoop, Run.bind_apply, hz]
    simp only
    rw [hl, Run.bind_apply]
    show ((tryServe o l >>= _) s1 : Option _) = _
    rw [Run.bind_apply]
    have : tryServe o l s1 = some (.error e, s2) := by
      unfold tryServe; rw [hs]
      cases e <;> first | rfl | exact absurd rfl he
    rw [this]
  · have hsh : shifted p0 sizes = .error .KeyError := by
      unfold shifted
      apply mapM_keyError
      · intro x _
        cases p0.get? x.1 with
        | none => exact .inl rfl
        | some v => exact .inr ⟨_, rfl⟩
      · obtain ⟨kv, h1, h2⟩ := h
        exact ⟨kv, h1, by simp only [h2]⟩
    rw [workerLoop, Run.bind_apply, hz]
    simp only
    rw [hsh]
    rfl

open Draw in
/-- **C177** (serial): the same of `impulse`; the new values are those of the parameters that have a scale, and only
these are passed on. -/
theorem C177 (o : Objective P N K S) (p0 : P) (scale sizes : Dict N K) (fuel i : Nat) (s s1 : S)
    (hz : drawSizes o scale s = some (.ok sizes, s1)) {new : Dict N K}
    (hnew : new = ((o.locus (o.clone p0)).filter (fun kv => (sizes.get? kv.1).isSome)).map
      (fun kv => (kv.1, kv.2 + (sizes.get? kv.1).getD 0))) :
    (o.impulse (o.clone p0) new = .error .ValueError →
      mutateLoop o p0 scale (fuel + 1) i s = mutateLoop o p0 scale fuel i s1) ∧
    (∀ e, o.impulse (o.clone p0) new = .error e → e ≠ .ValueError →
      mutateLoop o p0 scale (fuel + 1) i s = some (.error e, s1)) := by
  have hn : (o.locus (o.clone p0)).filterMap (fun kv => (sizes.get? kv.1).map (fun d => (kv.1, kv.2 + d))) = new := by
    rw [hnew]
    generalize o.locus (o.clone p0) = l
    induction l with
    | nil => rfl
    | cons x l ih =>
      rw [List.filterMap_cons, ih]
      cases h : sizes.get? x.1 with
      | none => simp [h]
      | some d => simp [h]
  have hm : mutate o p0 sizes = o.impulse (o.clone p0) new := by
    rw [← hn]; rfl
  refine ⟨fun h => ?_, fun e h he => ?_⟩
  · rw [mutateLoop, Run.bind_apply, hz]
    simp only
    rw [hm, h]
  · rw [mutateLoop, Run.bind_apply, hz]
    simp only
    rw [hm, h]
    cases e <;> first | rfl | exact absurd rfl he

open Draw in
/-- **C177** (without the method): when a network can be sampled, the attempt to make an objective of it ends in an
AttributeError. -/
theorem C177_network (b : Net N V K S) (hb : b.hasMethod = decide ("is_prior_evaluated" ∈ chromosomeNames)) (s s' : S)
    {p : Dict N V} (hs : b.sample b.exo s = some (.ok p, s')) : netFree b s = some (.error .AttributeError, s') := by
  have hb' : b.hasMethod = false := by rw [hb]; decide
  have h1 : netSamplePrior b s = some (.error .AttributeError, s') := by
    refine Run.bind_error.2 (.inr ⟨p, s', hs, Run.bind_error.2 (.inl ?_)⟩)
    unfold netPrior
    rw [hb']
    rfl
  exact Run.bind_error.2 (.inl h1)

/-- An objective that refuses negative values with a ValueError: the first proposal is refused, the second one kept. -/
def shy : Draw.Objective Draw.Part String ℚ Nat :=
  { Draw.toy (fun _ => .fin 0) (fun _ => .fin 0) with
    serve := fun l s => if (l.get? "a").getD 0 < 0 then some (.error .ValueError, s)
      else some (.ok ⟨l, .fin 0, .nan⟩, s)
    normal := fun sd s => some (.ok (if s = 0 then -sd else sd), s + 1) }

example : Draw.drawSizes shy [("a", 1)] 0 = some (.ok [("a", -1)], 1) ∧
    (Draw.workerLoop shy [("a", 0)] [("a", 1)] 2 0 0).map (fun r => (r.1.map (fun x => (x.1.locus, x.2)), r.2)) =
      some (.ok ([("a", 1)], 1), 2) ∧
    (Draw.workerLoop shy [] [("a", 1)] 2 0 0).map (fun r => (r.1.map (fun x => x.2), r.2)) =
      some (.error .KeyError, 1) := by decide +kernel

example : Draw.netFree (Collect.net false) 0 = some (.error .AttributeError, 1) := by decide +kernel

end Retries

/-! ## C178: infinite distances -/

section Infinite

variable {K : Type} [Field K] [LinearOrder K] [IsStrictOrderedRing K] [FloorSemiring K]

theorem lerp_pinf (a : K) {g : K} (h0 : 0 ≤ g) (h1 : g ≤ 1) :
    lerp (.fin a) .pinf (.fin g) = if 0 < g ∧ g < 1 / 2 then .pinf else .nan := by
  unfold lerp
  rw [XR.le_fin]
  by_cases hg : (1 : K) / 2 ≤ g
  · rw [if_pos (by simpa using hg), if_neg (fun h => absurd h.2 (not_lt.2 hg)), XR.fin_sub_fin, XR.pinf_sub_fin]
    rcases h1.lt_or_eq with h | h
    · have : (XR.pinf : XR K) * .fin (1 - g) = .pinf := by
        show (if 0 < 1 - g then XR.pinf else if 1 - g < 0 then XR.ninf else XR.nan) = _
        rw [if_pos (by linarith)]
      rw [this]; rfl
    · have : (XR.pinf : XR K) * .fin (1 - g) = .nan := by
        show (if 0 < 1 - g then XR.pinf else if 1 - g < 0 then XR.ninf else XR.nan) = _
        rw [if_neg (by linarith), if_neg (by linarith)]
      rw [this]; rfl
  · rw [if_neg (by simpa using hg), XR.pinf_sub_fin]
    push Not at hg
    rcases h0.lt_or_eq with h | h
    · have : (XR.pinf : XR K) * .fin g = .pinf := by
        show (if 0 < g then XR.pinf else if g < 0 then XR.ninf else XR.nan) = _
        rw [if_pos h]
      rw [this, if_pos ⟨h, hg⟩]; rfl
    · have : (XR.pinf : XR K) * .fin g = .nan := by
        show (if 0 < g then XR.pinf else if g < 0 then XR.ninf else XR.nan) = _
        rw [if_neg (by linarith), if_neg (by linarith)]
      rw [this, if_neg (fun hh => by linarith [hh.1])]; rfl

/-- Numbers and the positive infinity. -/
def ofTop : WithTop K → XR K
  | ⊤ => .pinf
  | (a : K) => .fin a

theorem ofTop_le (a b : WithTop K) : a ≤ b ↔ XR.le (ofTop a) (ofTop b) = true := by
  cases a <;> cases b <;> simp [ofTop, XR.le]

/-- Sorting finite numbers and positive infinities puts the infinities last. -/
theorem sort_infinite {ds : List (XR K)} {xs : List K} {k : Nat}
    (hp : ds.Perm (xs.map XR.fin ++ List.replicate k .pinf)) :
    ds.insertionSort (fun x y => XR.le x y = true) =
      (xs.insertionSort (· ≤ ·)).map XR.fin ++ List.replicate k .pinf := by
  have hd : ∃ ts : List (WithTop K), ds = ts.map ofTop ∧
      ts.Perm (xs.map (WithTop.some : K → WithTop K) ++ List.replicate k ⊤) := by
    have hr : ∀ d ∈ ds, ∃ t : WithTop K, ofTop t = d := by
      intro d hd
      have := hp.mem_iff.1 hd
      rcases List.mem_append.1 this with h | h
      · obtain ⟨a, -, rfl⟩ := List.mem_map.1 h
        exact ⟨(a : WithTop K), rfl⟩
      · exact ⟨⊤, (List.eq_of_mem_replicate h).symm⟩
    have hl : ∀ ds : List (XR K), (∀ d ∈ ds, ∃ t : WithTop K, ofTop t = d) → ∃ ts : List (WithTop K), ds = ts.map ofTop := by
      intro ds
      induction ds with
      | nil => intro _; exact ⟨[], rfl⟩
      | cons d ds ih =>
        intro h
        obtain ⟨t, ht⟩ := h d (by simp)
        obtain ⟨ts, hts⟩ := ih (fun x hx => h x (by simp [hx]))
        exact ⟨t :: ts, by simp [ht, ← hts]⟩
    obtain ⟨ts, rfl⟩ := hl ds hr
    refine ⟨ts, rfl, ?_⟩
    have hinj : Function.Injective (ofTop : WithTop K → XR K) := by
      intro a b h
      cases a <;> cases b <;> simp_all [ofTop]
    refine (List.map_perm_map_iff hinj).1 ?_
    refine hp.trans (List.Perm.of_eq ?_)
    rw [List.map_append, List.map_map, List.map_replicate]
    rfl
  obtain ⟨ts, rfl, ht⟩ := hd
  rw [← List.map_insertionSort (· ≤ ·) (fun x y => XR.le x y = true) ofTop ts (fun a _ b _ => ofTop_le a b)]
  have : ts.insertionSort (· ≤ ·) =
      (xs.insertionSort (· ≤ ·)).map (WithTop.some : K → WithTop K) ++ List.replicate k ⊤ := by
    refine List.Perm.eq_of_pairwise' (List.pairwise_insertionSort _ _) ?_ ?_
    · rw [List.pairwise_append]
      refine ⟨?_, ?_, ?_⟩
      · rw [List.pairwise_map]
        exact (List.pairwise_insertionSort (· ≤ ·) xs).imp (fun h => WithTop.coe_le_coe.2 h)
      · exact List.pairwise_replicate.2 (.inr le_rfl)
      · intro a _ b hb
        rw [List.eq_of_mem_replicate hb]
        exact le_top
    · refine (List.perm_insertionSort _ _).trans (ht.trans (List.Perm.append_right _ ?_))
      exact ((List.perm_insertionSort (· ≤ ·) xs).map _).symm
  rw [this, List.map_append, List.map_map, List.map_replicate]
  rfl

/-- **C178**, the quantile of `n` finite values and `k` infinite ones, at `v = q (n + k - 1)`: a number between finite values
below `n - 1`; infinite between `n - 1` and `n - 1/2` and at the end; but not a number in the rest, although none of the
values is NaN.  Missing for the full claim: `C178_refuted`. -/
theorem C178_partial {ds : List (XR K)} {xs : List K} {k : Nat} (hk : 0 < k)
    (hp : ds.Perm (xs.map XR.fin ++ List.replicate k .pinf)) {q v : K} (h0 : 0 ≤ q) (h1 : q ≤ 1)
    (hv : v = q * ((xs.length : K) + (k : K) - 1)) :
    (v < (xs.length : K) - 1 → ∃ r, quantile ds (.fin q) = .ok (.fin r) ∧ (∃ a ∈ xs, a ≤ r) ∧ (∃ b ∈ xs, r ≤ b)) ∧
    (v = (xs.length : K) - 1 → q < 1 → quantile ds (.fin q) = .ok .nan) ∧
    ((xs.length : K) - 1 < v → v < (xs.length : K) - 1 / 2 → quantile ds (.fin q) = .ok .pinf) ∧
    ((xs.length : K) - 1 / 2 ≤ v → q < 1 → 1 < xs.length + k → quantile ds (.fin q) = .ok .nan) ∧
    (q = 1 → quantile ds (.fin q) = .ok .pinf) := by
  set n := xs.length with hn
  set s := xs.insertionSort (· ≤ ·) with hs
  have hsl : s.length = n := List.length_insertionSort _ _
  have hsort := sort_infinite hp
  have hlen : (s.map XR.fin ++ List.replicate k (.pinf : XR K)).length = n + k := by simp [hsl]
  have hnan : ds.any XR.isNan = false := by
    rw [List.any_eq_false]
    intro x hx
    rcases List.mem_append.1 (hp.mem_iff.1 hx) with h | h
    · obtain ⟨a, -, rfl⟩ := List.mem_map.1 h
      simp [XR.isNan]
    · rw [List.eq_of_mem_replicate h]; simp [XR.isNan]
  have hemp : ds.isEmpty = false := by
    have : ds.length = n + k := by rw [hp.length_eq]; simp [hn]
    rw [List.isEmpty_eq_false_iff, ← List.length_pos_iff]
    omega
  have hval : (!(XR.le (.fin 0) (.fin q) && XR.le (.fin q) (.fin 1))) = false := by
    simp [h0, h1]
  have hq : quantile ds (.fin q) = if (n : K) + k - 1 ≤ v then
        .ok ((s.map XR.fin ++ List.replicate k XR.pinf).getD (n + k - 1) .nan)
      else .ok (lerp ((s.map XR.fin ++ List.replicate k XR.pinf).getD ⌊v⌋₊ .nan)
        ((s.map XR.fin ++ List.replicate k XR.pinf).getD (⌊v⌋₊ + 1) .nan) (.fin (v - ⌊v⌋₊))) := by
    unfold quantile
    rw [hval, hemp, hnan, hsort, ← hs]
    simp only [Bool.false_eq_true, if_false, hlen, Nat.cast_add, hv]
  have hfin : ∀ i (hi : i < n), (s.map XR.fin ++ List.replicate k (.pinf : XR K)).getD i .nan =
      .fin (s[i]'(by omega)) := by
    intro i hi
    rw [List.getD_eq_getElem?_getD, List.getElem?_append_left (by simp; omega), List.getElem?_map,
      List.getElem?_eq_getElem (by omega)]
    rfl
  have hinf : ∀ i, n ≤ i → i < n + k → (s.map XR.fin ++ List.replicate k (.pinf : XR K)).getD i .nan = .pinf := by
    intro i h1 h2
    rw [List.getD_eq_getElem?_getD, List.getElem?_append_right (by simp; omega),
      List.getElem?_replicate, if_pos (by simp; omega)]
    rfl
  have hk1 : (1 : K) ≤ k := by exact_mod_cast hk
  have hn0 : (0 : K) ≤ n := Nat.cast_nonneg n
  have hv0 : 0 ≤ v := by
    rw [hv]; exact mul_nonneg h0 (by linarith)
  have hvle : v ≤ (n : K) + k - 1 := by
    rw [hv]; nlinarith
  have hfl : (⌊v⌋₊ : K) ≤ v := Nat.floor_le hv0
  have hfl' : v < (⌊v⌋₊ : K) + 1 := Nat.lt_floor_add_one v
  have hperm : s.Perm xs := List.perm_insertionSort _ _
  have hsp : s.Pairwise (· ≤ ·) := List.pairwise_insertionSort _ _
  refine ⟨fun h => ?_, fun h hq1 => ?_, fun h h' => ?_, fun h hq1 hnk => ?_, fun h => ?_⟩
  · have hi : ⌊v⌋₊ + 1 < n := by
      have : (⌊v⌋₊ : K) + 1 < n := by linarith
      exact_mod_cast this
    rw [hq, if_neg (by linarith), hfin _ (by omega), hfin _ hi, Lemmas.lerp_fin]
    have hm : s[⌊v⌋₊]'(by omega) ≤ s[⌊v⌋₊ + 1]'(by omega) :=
      List.pairwise_iff_getElem.1 hsp _ _ (by omega) (by omega) (by omega)
    refine ⟨_, rfl, ⟨s[⌊v⌋₊]'(by omega), hperm.mem_iff.1 (List.getElem_mem _), ?_⟩,
      ⟨s[⌊v⌋₊ + 1]'(by omega), hperm.mem_iff.1 (List.getElem_mem _), ?_⟩⟩
    · nlinarith
    · nlinarith
  · have hn1 : 0 < n := by
      rcases Nat.eq_zero_or_pos n with h' | h'
      · rw [h'] at h; simp at h; linarith
      · exact h'
    have hf : ⌊v⌋₊ = n - 1 := by
      rw [h, show (n : K) - 1 = ((n - 1 : Nat) : K) by rw [Nat.cast_sub hn1]; simp]
      exact Nat.floor_natCast _
    have hg : v - (⌊v⌋₊ : K) = 0 := by
      rw [hf, h, Nat.cast_sub hn1]; simp
    rw [hq, if_neg (by linarith), hg, hf, hfin _ (by omega), hinf _ (by omega) (by omega),
      lerp_pinf _ le_rfl zero_le_one, if_neg (fun hh => lt_irrefl _ hh.1)]
  · have hn1 : 0 < n := by
      rcases Nat.eq_zero_or_pos n with h3 | h3
      · rw [h3] at h'; simp at h'; linarith
      · exact h3
    have hf : ⌊v⌋₊ = n - 1 := by
      rw [Nat.floor_eq_iff hv0, Nat.cast_sub hn1]
      constructor <;> push_cast <;> linarith
    have hg : (⌊v⌋₊ : K) = n - 1 := by
      rw [hf, Nat.cast_sub hn1]; simp
    rw [hq, if_neg (by linarith), hg, hf, hfin _ (by omega), hinf _ (by omega) (by omega),
      lerp_pinf _ (by linarith) (by linarith), if_pos ⟨by linarith, by linarith⟩]
  · have hlt : v < (n : K) + k - 1 := by
      rw [hv]
      have : (1 : K) < (n : K) + k := by exact_mod_cast hnk
      nlinarith
    have hi : ⌊v⌋₊ + 1 < n + k := by
      have : (⌊v⌋₊ : K) + 1 < (n : K) + k := by linarith
      exact_mod_cast this
    rw [hq, if_neg (by linarith)]
    by_cases hc : ⌊v⌋₊ < n
    · have hf : ⌊v⌋₊ = n - 1 := by
        have : (n : K) < (⌊v⌋₊ : K) + 2 := by linarith
        have : n < ⌊v⌋₊ + 2 := by exact_mod_cast this
        omega
      have hg : (⌊v⌋₊ : K) = n - 1 := by
        rw [hf, Nat.cast_sub (by omega)]; simp
      rw [hfin _ hc, hinf _ (by omega) hi, lerp_pinf _ (by linarith) (by linarith),
        if_neg (fun hh => by linarith [hh.2])]
    · rw [hinf _ (by omega) (by omega), hinf _ (by omega) hi]
      unfold lerp
      have e : (XR.pinf : XR K) - .pinf = .nan := rfl
      have e2 : ∀ g : K, (XR.nan : XR K) * .fin g = .nan := fun g => rfl
      rw [e, XR.fin_sub_fin, e2, e2]
      split <;> rfl
  · have : v = (n : K) + k - 1 := by rw [hv, h, one_mul]
    rw [hq, if_pos this.ge, hinf _ (by omega) (by omega)]

example : ([XR.fin 3, .pinf, .fin 1] : List (XR ℚ)).Perm (([1, 3] : List ℚ).map XR.fin ++ List.replicate 1 .pinf) := by
  decide

/-- C178, as first stated, fails. -/
theorem C178_refuted : ∃ ds : List (XR ℚ), ds.any XR.isNan = false ∧ quantile ds (.fin (1 / 2)) = .ok .nan :=
  ⟨[.fin 1, .pinf], by decide +kernel, by decide +kernel⟩

/-- **C178** (history matching): when too few implausibilities are finite, the cut-off is the one of the settings, however
few points are below it. -/
theorem C178_hme {N : Type} [DecidableEq N] {set : HmeSettings K} {pts : List (EmuPt N K)} {xs : List K} {k : Nat}
    (hk : 0 < k) (hp : (pts.map (·.imp)).Perm (xs.map XR.fin ++ List.replicate k .pinf)) (h0 : 0 ≤ set.minAcc)
    (h1 : set.minAcc < 1) (hn : 1 < xs.length + k)
    (hv : (xs.length : K) - 1 / 2 ≤ set.minAcc * ((xs.length : K) + (k : K) - 1)) :
    Hme.keepPlausible set pts = .ok (pts.filter (fun p => XR.lt p.imp set.cutoff), set.cutoff,
      ((pts.filter (fun p => XR.lt p.imp set.cutoff)).length : K) / (pts.length : K)) := by
  have hq := (C178_partial hk hp h0 h1.le rfl).2.2.2.1 hv h1 hn
  have hc : XR.lt set.cutoff (.nan : XR K) = false := by cases set.cutoff <;> rfl
  unfold Hme.keepPlausible
  rw [hq]
  simp only [bind, Except.bind, hc]
  rfl

/-- Two points, one with an infinite implausibility, and none is kept although three quarters were asked for. -/
example : (Hme.keepPlausible { Hme.exSet3 with minAcc := 3 / 4 } [Hme.ptOf 9, { Hme.ptOf 1 with imp := .pinf }]).map
    (fun r => (r.1.length, r.2.1)) = .ok (0, .fin 3) := by decide +kernel

end Infinite

/-! ## Names in expressions -/

section Expressions

variable {N V C O S L : Type} [DecidableEq N]

/-- **C32** (once each): neither the parents nor the functions of a definition are listed twice. -/
theorem C32_once (a : Ast N C O) : (findAstParents a).1.Nodup ∧ (findAstParents a).2.Nodup := by
  unfold findAstParents
  exact ⟨(List.nodup_dedup _).filter _, List.nodup_dedup _⟩

/-- **C35** (unknown names): a definition without a call is an AttributeError, a call of an unknown distribution a
KeyError. -/
theorem C35_unknown (sem : Sem N V C O S L) {f : N} (as : Args N C O) (ks : Kws N C O) (loc : N → Option V)
    (hs : sem.schema f = none) :
    completeDef sem (.call f as ks) = .error .KeyError ∧ getBlueprint sem (.call f as ks) loc = .error .KeyError ∧
    parseDistribution sem (.call f as ks) loc = .error .KeyError ∧
    (∀ x, completeDef sem (.name x) = .error .AttributeError) ∧
    (∀ c, completeDef sem (.const c) = .error .AttributeError) := by
  have h : completeDef sem (.call f as ks) = .error .KeyError := by
    unfold completeDef
    rw [Expr.firstCall_call]
    simp only [hs]
  refine ⟨h, ?_, ?_, fun x => rfl, fun c => rfl⟩
  · unfold getBlueprint; rw [h]; rfl
  · unfold parseDistribution getBlueprint; rw [h]; rfl

/-- **C33** (missing names): a function without the value of one of its parents raises KeyError, and so does one that
uses a name that is neither a parent nor known; NameError never leaves it. -/
theorem C33_missing (sem : Sem N V C O S L) (e : Expr N C O) (ps : List N) (pas : N → Option V) :
    ((∃ p ∈ ps, pas p = none) → renderFunc sem e ps pas = .error .KeyError) ∧
    (∀ x, x ∉ ps → sem.math x = none → (∀ p ∈ ps, pas p ≠ none) → renderFunc sem (.name x) ps pas = .error .KeyError) ∧
    renderFunc sem e ps pas ≠ .error .NameError := by
  refine ⟨?_, ?_, ?_⟩
  · rintro ⟨p, hp, h⟩
    unfold renderFunc
    rw [if_neg]
    intro hall
    have := List.all_eq_true.1 hall p hp
    rw [h] at this
    cases this
  · intro x hx hm hp
    unfold renderFunc
    rw [if_pos (List.all_eq_true.2 (fun p h => Option.isSome_iff_ne_none.2 (hp p h)))]
    simp [Expr.eval, lookup, hx, hm]
  · unfold renderFunc
    split
    · split
      · simp
      · rename_i h
        exact h
    · simp

example (sem : Sem String V C O S L) : renderFunc sem (.name "x") ["x"] (fun _ => none) = .error .KeyError :=
  (C33_missing sem (.name "x") ["x"] (fun _ => none)).1 ⟨"x", by simp, rfl⟩

example : (findAstParents (Expr.op () (.cons (.name "x") (.cons (.name "x") .nil)) : Expr String Nat Unit).toAst).1 =
    ["x"] := by decide +kernel

end Expressions

end Props.Failures
