import Verif.Model.Fitter
import Verif.Model.FitBase
import Verif.Props.Smc
import Verif.Props.Hme
import Verif.Props.Script

/-!
# Properties of the object around a fitting algorithm: C168 - C172
-/

namespace Props.Fitter
set_option linter.unusedSectionVars false

open Py Model

/-! ## C168: a fitter can be made -/

section Idle

variable {N V C O S D K : Type} [DecidableEq N] [Field K] [LinearOrder K]

/-- The lines of the script of the idle model, without their blanks. -/
theorem idle_lines : (BN.splitLines idleScript).map stripBlanks =
    [[], ['P', 'C', 'o', 'r', 'e', 'E', 'm', 'p', 't', 'y', '{'], ['}'], []] := by
  decide +kernel

/-- The network without a node, once completed. -/
def idleNet (f : N) (name : N) : BN N V C O := ((BN.empty name).complete f).1

/-- **C168**: whatever the run-time, as long as the letters of `Empty` are word characters, the script of the idle model
is read without an exception, and gives a completed network without a node, of the name `Empty`; the idle model has no
free parameter and an empty domain, and its prior gives the empty chromosome, with log-probability zero, without
drawing anything.  So constructing a fitter never fails. -/
theorem C168 (cls : CharClass) (hw : ∀ c ∈ ("Empty" : String).toList, cls.word c = true) (f : N)
    (ts : TextSem N V C O) (env : FitEnv N V C O S K D) (s : S) :
    ∃ bn, BN.fromScript cls f ts env.sem idleScript = .ok (bn, idleScript) ∧ bn.dag.nodes = [] ∧
      bn.name = ts.toName ("Empty" : String).toList ∧ bn.frozen = true ∧
      ∃ m, DataModel.new env [] bn [] s = (.ok m, s) ∧ m.free = [] ∧ m.data = [] ∧ m.bn = bn ∧
        m.domain env s = (.ok [], s) ∧
        m.samplePrior env s = (.ok (Chromosome.new [] (.fin 0)), s) := by
  have hh : BN.matchHeader cls ['P', 'C', 'o', 'r', 'e', 'E', 'm', 'p', 't', 'y', '{'] =
      some ['E', 'm', 'p', 't', 'y'] := by
    have e : (['E', 'm', 'p', 't', 'y', '{'] : Text).takeWhile cls.word = ['E', 'm', 'p', 't', 'y'] := by
      have h1 := hw 'E' (by decide)
      have h2 := hw 'm' (by decide)
      have h3 := hw 'p' (by decide)
      have h4 := hw 't' (by decide)
      have h5 := hw 'y' (by decide)
      have h6 := cls.word_sep '{' (by simp)
      simp [List.takeWhile, h1, h2, h3, h4, h5, h6]
    unfold BN.matchHeader
    rw [if_pos (by decide)]
    simp [e]
  have hr : ∀ t ∈ ([[], ['P', 'C', 'o', 'r', 'e', 'E', 'm', 'p', 't', 'y', '{'], ['}'], []] : List Text),
      parseLoci cls ts env.sem t = .error .ScriptException := by
    intro t ht
    have hw' := cls.word_sep '{' (by simp)
    have hw'' := cls.word_sep '}' (by simp)
    have hsb : stripBlanks t = t := by
      rcases List.mem_cons.1 ht with rfl | ht
      · rfl
      · rcases List.mem_cons.1 ht with rfl | ht
        · rfl
        · rcases List.mem_cons.1 ht with rfl | ht
          · rfl
          · rcases List.mem_cons.1 ht with rfl | ht
            · rfl
            · cases ht
    refine Script.refused_of_no_sep cls ts env.sem hsb ?_ ?_ ?_ ?_
    · revert t; decide
    · revert t; decide
    · revert t; decide
    · rcases List.mem_cons.1 ht with rfl | ht
      · exact .inl rfl
      · rcases List.mem_cons.1 ht with rfl | ht
        · exact .inr ⟨'{', by decide, hw'⟩
        · rcases List.mem_cons.1 ht with rfl | ht
          · exact .inr ⟨'}', by decide, hw''⟩
          · rcases List.mem_cons.1 ht with rfl | ht
            · exact .inl rfl
            · cases ht
  have hl : ∀ (ls : List Text) (bn : BN N V C O), (∀ t ∈ ls, parseLoci cls ts env.sem t = .error .ScriptException) →
      BN.readLines cls ts env.sem ls bn = (bn, .ok ()) := by
    intro ls bn
    induction ls with
    | nil => intro _; rfl
    | cons t ls ih =>
      intro h
      simp only [BN.readLines, BN.appendFromDefinition, h t (by simp)]
      exact ih (fun x hx => h x (by simp [hx]))
  have hc : (BN.empty (ts.toName ("Empty" : String).toList) : BN N V C O).complete f
      = (idleNet f (ts.toName ("Empty" : String).toList), .ok ()) := rfl
  refine ⟨idleNet f (ts.toName ("Empty" : String).toList), ?_, rfl, rfl, rfl, ⟨[], _, [], []⟩, ?_, rfl, rfl, rfl, ?_, ?_⟩
  · unfold BN.fromScript
    rw [idle_lines]
    have : ([[], ['P', 'C', 'o', 'r', 'e', 'E', 'm', 'p', 't', 'y', '{'], ['}'], []] : List Text).findSome?
        (BN.matchHeader cls) = some ['E', 'm', 'p', 't', 'y'] := by
      have h0 : BN.matchHeader cls [] = none := rfl
      simp only [List.findSome?, h0, hh]
    simp only [this]
    rw [hl _ _ hr]
    have e : (['E', 'm', 'p', 't', 'y'] : Text) = ("Empty" : String).toList := by decide
    rw [e]
    simp only [hc]
  · rfl
  · rfl
  · rfl

/-- An environment for the names and expressions of `Props.Script`, in which nothing but literals evaluates. -/
def exIdleEnv : FitEnv Text Int Int Unit Int ℚ Unit where
  sem := { Script.sem with create := fun _ => .error .TypeError }
  ops := ⟨fun _ => 0, fun _ => .fin 1, fun _ x => x⟩
  isFloat := fun _ => true
  support := fun _ => .ok (.ninf, .pinf, 0, .fin 1)

example : ∃ bn, BN.fromScript Script.cls ['f'] Script.ts exIdleEnv.sem idleScript = .ok (bn, idleScript) ∧
    bn.name = ['E', 'm', 'p', 't', 'y'] ∧ bn.dag.nodes = [] :=
  (C168 Script.cls (by decide) ['f'] Script.ts exIdleEnv 0).imp (fun _ h => ⟨h.1, h.2.2.1, h.2.1⟩)

end Idle

/-! ## C169: the settings in force -/

section Settings

variable {W K M Q P A : Type}

/-- The value that a list of calls, in their order, gives last for a setting. -/
def lastTold : List (SDict K) → String → Option (SVal K)
  | [], _ => none
  | kw :: kws, k => (lastTold kws k).or (kw.get? k)

/-- The settings that a setting can be. -/
theorem updated_get (s kw : SDict K) (hw : kw.WF) (k : String) :
    (s.updated kw).get? k = if k ∈ s.keys then (kw.get? k).or (s.get? k) else none := by
  have hk : ∀ (kw s : SDict K), (s.updated kw).keys = s.keys := by
    intro kw
    induction kw with
    | nil => intro s; rfl
    | cons p kw ih =>
      intro s
      rw [SDict.updated, ih]
      split
      · rename_i h
        rw [Dict.keys_set, if_pos h]
      · rfl
  induction kw generalizing s with
  | nil =>
    by_cases h : k ∈ s.keys
    · rw [if_pos h]; rfl
    · rw [if_neg h]; exact (Dict.get?_eq_none_iff _ _).2 h
  | cons p kw ih =>
    obtain ⟨a, v⟩ := p
    have hn := List.nodup_cons.1 hw
    rw [SDict.updated, ih _ hn.2]
    by_cases ha : a ∈ s.keys
    · rw [if_pos ha]
      have e : k ∈ (Dict.set s a v).keys ↔ k ∈ s.keys := by
        rw [Dict.keys_set, if_pos ha]
      by_cases h : k ∈ s.keys
      · rw [if_pos h, if_pos (e.2 h), Dict.get?_cons, Dict.get?_set]
        by_cases hak : a = k
        · subst hak
          rw [if_pos rfl, if_pos rfl, (Dict.get?_eq_none_iff _ _).2 hn.1]
          rfl
        · rw [if_neg hak, if_neg hak]
      · rw [if_neg h, if_neg (fun h' => h (e.1 h'))]
    · rw [if_neg ha]
      by_cases h : k ∈ s.keys
      · rw [if_pos h, if_pos h, Dict.get?_cons, if_neg]
        rintro rfl
        exact ha h
      · rw [if_neg h, if_neg h]

/-- What a subclass may do to the settings. -/
def Keeps (f : Method W K M Q P A) : Prop :=
  ∀ o w r o' w', f o w = some (r, o', w') → o'.settings = o.settings

/-- The objects that come of constructing a fitter and fitting with it, with the settings given on the way, the
constructor's first.  Fits that raise count too. -/
inductive Ran (alg : Alg W K M Q P A) : List (SDict K) → FitterObj K M Q P A → Prop
  | new (kw : SDict K) : Ran alg [kw] (.new alg kw)
  | fit {kws : List (SDict K)} {o o' : FitterObj K M Q P A} {m : M} {kw : SDict K} {w w' : W} {r : Result Unit} :
      Ran alg kws o → FitterObj.fit alg m kw o w = some (r, o', w') → Ran alg (kws ++ [kw]) o'
  | close {kws : List (SDict K)} {o : FitterObj K M Q P A} : Ran alg kws o → Ran alg kws (o.close alg)

theorem keeps_andThen {f g : Method W K M Q P A} (hf : Keeps f) (hg : Keeps g) : Keeps (FitterObj.andThen f g) := by
  intro o w r o' w' h
  unfold FitterObj.andThen at h
  cases e : f o w with
  | none => rw [e] at h; cases h
  | some x =>
    obtain ⟨r1, o1, w1⟩ := x
    rw [e] at h
    cases r1 with
    | error e1 =>
      simp only [Option.some.injEq, Prod.mk.injEq] at h
      rw [← h.2.1]
      exact hf _ _ _ _ _ e
    | ok u => exact (hg _ _ _ _ _ h).trans (hf _ _ _ _ _ e)

theorem lastTold_append (kws : List (SDict K)) (kw : SDict K) (k : String) :
    lastTold (kws ++ [kw]) k = (kw.get? k).or (lastTold kws k) := by
  induction kws with
  | nil => simp [lastTold]
  | cons a kws ih =>
    simp only [List.cons_append, lastTold, ih]
    rw [Option.or_assoc]

/-- **C169**, what holds: of an algorithm that leaves its settings alone, a setting is always what was given for it last,
in whichever call, and its default when it was never given; a setting without a default is never kept. -/
theorem C169_partial {alg : Alg W K M Q P A} (hi : Keeps alg.initialise) (hu : Keeps alg.update)
    (ht : Keeps alg.terminate) {kws : List (SDict K)} {o : FitterObj K M Q P A} (h : Ran alg kws o)
    (hw : ∀ kw ∈ kws, kw.WF) (k : String) :
    o.settings.get? k = if k ∈ alg.defaults.keys then (lastTold kws k).or (alg.defaults.get? k) else none := by
  suffices hs : o.settings.get? k = (if k ∈ alg.defaults.keys then (lastTold kws k).or (alg.defaults.get? k) else none)
    from hs
  induction h with
  | new kw =>
    show (SDict.updated alg.defaults kw).get? k = _
    rw [updated_get _ _ (hw kw (by simp))]
    simp [lastTold]
  | close _ ih => exact ih hw
  | @fit kws o o' m kw w w' r _ hf ih =>
    have ih := ih (fun x hx => hw x (by simp [hx]))
    have e := keeps_andThen hi (keeps_andThen hu ht) _ _ _ _ _ hf
    rw [e]
    show (o.settings.updated kw).get? k = _
    rw [updated_get _ _ (hw kw (by simp)), ih, lastTold_append]
    have hk : k ∈ o.settings.keys ↔ k ∈ alg.defaults.keys := by
      rw [← Dict.get?_isSome_iff, ih]
      by_cases hd : k ∈ alg.defaults.keys
      · rw [if_pos hd]
        have := (Dict.get?_isSome_iff alg.defaults k).2 hd
        simp [hd, this]
      · simp [hd]
    by_cases hd : k ∈ alg.defaults.keys
    · rw [if_pos (hk.2 hd), if_pos hd, if_pos hd, Option.or_assoc]
    · rw [if_neg (fun h => hd (hk.1 h)), if_neg hd]

/-- **C169**, as first stated - during a fit a setting is what the fit was given for it, else what the constructor was
given, else the default - fails for every algorithm that leaves its settings alone: what one fit is given for a setting
is in force in the next fit too. -/
theorem C169_refuted {alg : Alg W K M Q P A} (hi : Keeps alg.initialise) (hu : Keeps alg.update)
    (ht : Keeps alg.terminate) {k : String} {v : SVal K} (hk : k ∈ alg.defaults.keys) {o : FitterObj K M Q P A}
    (h : Ran alg [[], [(k, v)], []] o) : o.settings.get? k = some v := by
  rw [C169_partial hi hu ht h (by
    intro kw hkw
    simp only [List.mem_cons, List.not_mem_nil, or_false] at hkw
    rcases hkw with rfl | rfl | rfl
    · exact Dict.wf_nil
    · simp [Dict.WF, Dict.keys]
    · exact Dict.wf_nil), if_pos hk]
  simp [lastTold, Dict.get?_cons]

end Settings

section SmcSettings

variable {W Θ T P M K : Type} [Field K] [LinearOrder K] [FloorSemiring K]

theorem keeps_rounds (envOf : M → SmcEnv W Θ T P K) (fuel : Nat) (set : SmcSettings K) (k : Nat) (st : SmcState Θ K) :
    Keeps (Fitters.smcRounds envOf fuel set k st) := by
  induction k generalizing st with
  | zero => intro o w r o' w' h; cases h
  | succ k ih =>
    intro o w r o' w' h
    unfold Fitters.smcRounds at h
    cases e : Smc.aRound (envOf o.model) set fuel st w with
    | none => rw [e] at h; cases h
    | some x =>
      obtain ⟨r1, w1⟩ := x
      rw [e] at h
      cases r1 with
      | error e1 =>
        simp only [Option.some.injEq, Prod.mk.injEq] at h
        rw [← h.2.1]
      | ok st' =>
        simp only at h
        split at h
        · simp only [Option.some.injEq, Prod.mk.injEq] at h
          rw [← h.2.1]
        · exact (ih st' _ _ _ _ _ h).trans rfl

/-- Sequential Monte Carlo leaves its settings alone. -/
theorem smc_keeps (envOf : M → SmcEnv W Θ T P K) (idle : M) (fuel rounds : Nat) (parents : Option (List P)) :
    Keeps (Fitters.smc envOf idle fuel rounds parents).initialise ∧
      Keeps (Fitters.smc envOf idle fuel rounds parents).update ∧
      Keeps (Fitters.smc envOf idle fuel rounds parents).terminate := by
  refine ⟨?_, ?_, ?_⟩
  · intro o w r o' w' h
    have h : Fitters.smcInitialise envOf fuel parents o w = some (r, o', w') := h
    unfold Fitters.smcInitialise at h
    cases e : Fitters.smcSettings o.settings with
    | error e1 =>
      rw [e] at h
      simp only [Option.some.injEq, Prod.mk.injEq] at h
      rw [← h.2.1]
    | ok set =>
      rw [e] at h
      simp only at h
      cases e' : Smc.initialise (envOf o.model) set fuel parents w with
      | none => rw [e'] at h; cases h
      | some x =>
        obtain ⟨r1, w1⟩ := x
        rw [e'] at h
        cases r1 with
        | error e1 =>
          simp only [Option.some.injEq, Prod.mk.injEq] at h
          rw [← h.2.1]
        | ok st' =>
          simp only [Option.some.injEq, Prod.mk.injEq] at h
          rw [← h.2.1]
  · intro o w r o' w' h
    have h : Fitters.smcUpdate envOf fuel rounds o w = some (r, o', w') := h
    unfold Fitters.smcUpdate at h
    cases e : Fitters.smcSettings o.settings with
    | error e1 =>
      rw [e] at h
      simp only [Option.some.injEq, Prod.mk.injEq] at h
      rw [← h.2.1]
    | ok set =>
      cases e' : o.state with
      | none =>
        rw [e, e'] at h
        simp only [Option.some.injEq, Prod.mk.injEq] at h
        rw [← h.2.1]
      | some st =>
        rw [e, e'] at h
        exact keeps_rounds envOf fuel set rounds st _ _ _ _ _ h
  · intro o w r o' w' h
    have h : some ((.ok () : Result Unit), o, w) = some (r, o', w') := h
    simp only [Option.some.injEq, Prod.mk.injEq] at h
    rw [← h.2.1]

/-- **C169**, for sequential Monte Carlo: each of its nine settings is what was given for it last, else its default. -/
theorem C169_smc {envOf : M → SmcEnv W Θ T P K} {idle : M} {fuel rounds : Nat} {parents : Option (List P)}
    {kws : List (SDict K)} {o : FitterObj K M (SmcState Θ K) (Pt Θ) (PNote K)}
    (h : Ran (Fitters.smc envOf idle fuel rounds parents) kws o) (hw : ∀ kw ∈ kws, kw.WF) {k : String}
    (hk : k ∈ ["n_iter", "parallel", "alpha", "p_thres", "max_round", "max_stay", "min_acc", "n_core", "verbose"]) :
    o.settings.get? k = (lastTold kws k).or (Dict.get? ([("n_iter", .int 500), ("parallel", .flag true),
      ("alpha", .num (9 / 10)), ("p_thres", .num (3 / 5)), ("max_round", .int 20), ("max_stay", .int 3),
      ("min_acc", .num (1 / 10)), ("n_core", .int 4), ("verbose", .int 5)] : SDict K) k) := by
  obtain ⟨h1, h2, h3⟩ := smc_keeps envOf idle fuel rounds parents
  rw [C169_partial h1 h2 h3 h hw k, if_pos]
  · rfl
  · exact hk

end SmcSettings

section HmeSettings

variable {W N M K P A : Type} [DecidableEq N] [Field K] [LinearOrder K] [FloorSemiring K]

/-- **C169**, for history matching, fails already within one fit: it writes the sizes it settles on over its settings, so
that a fitter that was never given `n_sims` and `n_ems` has them after its first fit; every later fit, of whatever model,
then works with the sizes of the first. -/
theorem C169_hme (nPars : M → Nat) {o : FitterObj K M (HmeState N K) P A} {w : W} {a b : Int}
    (ha : o.settings.int "n_sims" = .ok a) (hb : o.settings.int "n_ems" = .ok b) (ha0 : a ≤ 0) (hb0 : b ≤ 0)
    (hp : 0 < nPars o.model) :
    ∃ o', Fitters.hmeInitialise nPars o w = some (.ok (), o', w) ∧
      o'.settings.int "n_sims" = .ok (nPars o.model * 10) ∧ o'.settings.int "n_ems" = .ok (nPars o.model * 10 * 100) ∧
      ∀ (m : M) (w' : W), ∃ o'', Fitters.hmeInitialise nPars { o' with model := m } w' = some (.ok (), o'', w') ∧
        o''.settings.int "n_pars" = .ok (nPars m) ∧
        o''.settings.int "n_sims" = .ok (nPars o.model * 10) ∧
        o''.settings.int "n_ems" = .ok (nPars o.model * 10 * 100) := by
  have hset : ∀ (s : SDict K) (k k' : String) (i : Int), SDict.int (Dict.set s k (.int i)) k' =
      if k = k' then .ok i else s.int k' := by
    intro s k k' i
    unfold SDict.int
    rw [Dict.get?_set]
    by_cases h : k = k'
    · rw [if_pos h, if_pos h]
    · rw [if_neg h, if_neg h]
  have hpos : (0 : Int) < nPars o.model * 10 := by omega
  have hpos' : (0 : Int) < nPars o.model * 10 * 100 := by omega
  have e1 : Fitters.hmeInitialise nPars o w = some (.ok (), { o with
      settings := Dict.set (Dict.set (Dict.set o.settings "n_pars" (.int (nPars o.model))) "n_sims"
        (.int (nPars o.model * 10))) "n_ems" (.int (nPars o.model * 10 * 100)),
      state := some { pts := [], lower := List.replicate (nPars o.model) 0, upper := List.replicate (nPars o.model) 1,
                      wave := 0, mse := .pinf, cutoff := .pinf, acc := 1 } }, w) := by
    unfold Fitters.hmeInitialise
    have h1 : SDict.int (Dict.set o.settings "n_pars" (.int (nPars o.model))) "n_sims" = .ok a := by
      rw [hset, if_neg (by decide), ha]
    have h2 : SDict.int (Dict.set (Dict.set o.settings "n_pars" (.int (nPars o.model))) "n_sims"
        (.int (nPars o.model * 10))) "n_ems" = .ok b := by
      rw [hset, if_neg (by decide), hset, if_neg (by decide), hb]
    simp only [h1, if_pos ha0, h2]
    rw [if_neg (by omega), if_pos hb0]
  refine ⟨_, e1, ?_, ?_, ?_⟩
  · show SDict.int (Dict.set (Dict.set _ _ _) _ _) _ = _
    rw [hset, if_neg (by decide), hset, if_pos rfl]
  · show SDict.int (Dict.set (Dict.set _ _ _) _ _) _ = _
    rw [hset, if_pos rfl]
  · intro m w'
    generalize hs : (Dict.set (Dict.set (Dict.set o.settings "n_pars" (.int (nPars o.model))) "n_sims"
        (.int (nPars o.model * 10))) "n_ems" (.int (nPars o.model * 10 * 100)) : SDict K) = s
    have h3 : SDict.int s "n_sims" = .ok (nPars o.model * 10) := by
      rw [← hs, hset, if_neg (by decide), hset, if_pos rfl]
    have h4 : SDict.int s "n_ems" = .ok (nPars o.model * 10 * 100) := by
      rw [← hs, hset, if_pos rfl]
    unfold Fitters.hmeInitialise
    have h1 : SDict.int (Dict.set s "n_pars" (.int (nPars m))) "n_sims" = .ok (nPars o.model * 10) := by
      rw [hset, if_neg (by decide), h3]
    have h2 : SDict.int (Dict.set s "n_pars" (.int (nPars m))) "n_ems" = .ok (nPars o.model * 10 * 100) := by
      rw [hset, if_neg (by decide), h4]
    simp only [h1, if_neg (not_le.2 hpos), h2, if_neg (not_le.2 hpos')]
    rw [if_neg (by omega)]
    refine ⟨_, rfl, ?_, h1, h2⟩
    show SDict.int (Dict.set s "n_pars" (.int (nPars m))) "n_pars" = _
    rw [hset, if_pos rfl]

example : (Fitters.hmeDefaults : SDict ℚ).int "n_sims" = .ok 0 ∧ (Fitters.hmeDefaults : SDict ℚ).int "n_ems" = .ok 0 :=
  ⟨rfl, rfl⟩

end HmeSettings

/-! An example: two fits of one fitter, on two models. -/

/-- Two models: the one of `Props.Smc`, and the same with other draws from the prior. -/
def exModels : Bool → SmcEnv Nat Nat Unit Nat ℚ
  | true => Smc.exSmc
  | false => { Smc.exSmc with prior := fun s => (.ok (3 * (s % 7) + 1), s + 1) }

/-- The fitter. -/
def exAlg : Alg Nat ℚ Bool (SmcState Nat ℚ) (Pt Nat) (PNote ℚ) := Fitters.smc exModels true 30 20 none

/-- What it is given when made. -/
def exKw : SDict ℚ := [("n_iter", .int 5), ("parallel", .flag false), ("max_round", .int 2), ("colour", .text "red")]

/-- What it is given with the first fit. -/
def exKw1 : SDict ℚ := [("max_round", .int 1)]

/-- The fitter after the first fit, from the random state 0. -/
def exFirst : Option (Result Unit × FitterObj ℚ Bool (SmcState Nat ℚ) (Pt Nat) (PNote ℚ) × Nat) :=
  FitterObj.fit exAlg true exKw1 (.new exAlg exKw) 0

/-- The fitter after the second fit, which is given no settings. -/
def exSecond : Option (Result Unit × FitterObj ℚ Bool (SmcState Nat ℚ) (Pt Nat) (PNote ℚ) × Nat) :=
  exFirst.bind (fun x => FitterObj.fit exAlg false [] x.2.1 x.2.2)

example : (exFirst.map (fun x => (x.1, x.2.1.state, x.2.1.model))) = some (.ok (), some Smc.exSt1, true) := by
  decide +kernel

example : (exSecond.map (fun x => (x.1, x.2.1.settings.get? "max_round", x.2.1.settings.get? "colour",
    x.2.1.settings.get? "alpha"))) = some (.ok (), some (.int 1), none, some (.num (9 / 10))) := by decide +kernel

/-! ## C170: the trace -/

section Trace

variable {W Θ T P M K : Type} [Field K] [LinearOrder K] [FloorSemiring K]

/-- What one report leaves. -/
theorem report_eq {m : Monitor String (XR K)} (hl : m.last = []) (st : SmcState Θ K) :
    ∃ row, (Fitters.report m st).records = m.records ++ [row] ∧ (Fitters.report m st).last = [] ∧
      (Fitters.report m st).time = m.time + 1 ∧ row.get? "Round" = some (.fin (st.round : K)) ∧
      row.get? "Eps" = some st.eps ∧ row.get? "ESS" = some st.ess ∧ row.get? "Acc" = some (.fin st.acc) ∧
      row.get? "Time" = some (.fin (m.time : K)) ∧ row.get? "Eval" = some (.fin (st.evals : K)) := by
  have e : Fitters.report m st = ⟨m.records ++ [(m.last.update
      [("Round", .fin (st.round : K)), ("Eval", .fin (st.evals : K)), ("Eps", st.eps), ("ESS", st.ess),
        ("Acc", .fin st.acc)]).set "Time" (.fin (m.time : K))], m.time + 1, []⟩ := by
    unfold Fitters.report Monitor.step Monitor.target Monitor.keep
    simp only
    rw [if_neg (by omega), if_neg (by omega)]
  rw [e, hl]
  exact ⟨_, rfl, rfl, rfl, rfl, rfl, rfl, rfl, rfl, rfl⟩

/-- The rows of a table that belong to the rounds `a`, `a + 1`, .., `b`, the monitor being at time `t` before them. -/
structure Rows (rows : List (Dict String (XR K))) (a b : Nat) (t : Int) (st : SmcState Θ K) : Prop where
  round : rows.map (·.get? "Round") = (List.range' a (b + 1 - a)).map (fun i => some (.fin (i : K)))
  time : rows.map (·.get? "Time") = (List.range rows.length).map (fun i => some (.fin ((t + i : Int) : K)))
  eps : rows.getLast?.bind (·.get? "Eps") = some st.eps

theorem rounds_rows [IsStrictOrderedRing K] (envOf : M → SmcEnv W Θ T P K) (fuel : Nat) (set : SmcSettings K) :
    ∀ (k : Nat) (st : SmcState Θ K)
    (o o' : FitterObj K M (SmcState Θ K) (Pt Θ) (PNote K)) (w w' : W), o.monitor.last = [] →
    Fitters.smcRounds envOf fuel set k st o w = some (.ok (), o', w') →
    ∃ st' rows, o'.state = some st' ∧ o'.model = o.model ∧ st.round < st'.round ∧
      o'.monitor.records = o.monitor.records ++ rows ∧
      o'.monitor.last = [] ∧ Rows rows (st.round + 1) st'.round o.monitor.time st' := by
  intro k
  induction k with
  | zero => intro st o o' w w' _ h; cases h
  | succ k ih =>
    intro st o o' w w' hl h
    unfold Fitters.smcRounds at h
    cases e : Smc.aRound (envOf o.model) set fuel st w with
    | none => rw [e] at h; cases h
    | some x =>
      obtain ⟨r1, w1⟩ := x
      rw [e] at h
      cases r1 with
      | error e1 => simp at h
      | ok st1 =>
        simp only at h
        obtain ⟨_, _, _, _, _, _, _, hr, _⟩ := Smc.aRound_ok e
        obtain ⟨row, q1, q2, q3, q4, q5, -, -, q6, -⟩ := report_eq hl st1
        split at h
        · simp only [Option.some.injEq, Prod.mk.injEq] at h
          obtain ⟨-, rfl, -⟩ := h
          refine ⟨st1, [row], rfl, rfl, by omega, q1, q2, ?_, ?_, ?_⟩
          · rw [show st1.round + 1 - (st.round + 1) = 1 by omega]
            simp [q4, hr]
          · simp [q6]
          · simp [q5]
        · obtain ⟨st', rows, a1, a2, a3, a4, a5, a6⟩ := ih st1 _ _ _ _ q2 h
          refine ⟨st', row :: rows, a1, a2, by omega, ?_, a5, ?_, ?_, ?_⟩
          · rw [a4]
            show (Fitters.report o.monitor st1).records ++ rows = _
            rw [q1]
            simp
          · rw [List.map_cons, q4, a6.round, hr,
              show st'.round + 1 - (st.round + 1) = (st'.round + 1 - (st.round + 1 + 1)) + 1 by omega,
              List.range'_succ]
            simp
          · rw [List.map_cons, q6, a6.time, List.length_cons, List.range_succ_eq_map, List.map_cons, List.map_map]
            congr 1
            · simp
            · apply List.map_congr_left
              intro i _
              show some (XR.fin (((Fitters.report o.monitor st1).time + (i : Int) : Int) : K)) = _
              rw [q3]
              simp only [Function.comp]
              congr 3
              push_cast
              ring
          · have : rows ≠ [] := by
              rintro rfl
              have := a6.eps
              simp at this
            rw [List.getLast?_cons_of_ne_nil this]
            exact a6.eps

/-- A fit of sequential Monte Carlo that ended, taken apart. -/
theorem fit_ok {envOf : M → SmcEnv W Θ T P K} {idle : M} {fuel rounds : Nat} {parents : Option (List P)}
    {m : M} {kw : SDict K} {o o' : FitterObj K M (SmcState Θ K) (Pt Θ) (PNote K)} {w w' : W}
    (h : FitterObj.fit (Fitters.smc envOf idle fuel rounds parents) m kw o w = some (.ok (), o', w')) :
    ∃ set st w1, Fitters.smcSettings (o.settings.updated kw) = .ok set ∧
      Smc.initialise (envOf m) set fuel parents w = some (.ok st, w1) ∧
      Fitters.smcRounds envOf fuel set rounds st { o with
        model := m, collector := .new, settings := o.settings.updated kw, state := some st,
        monitor := Fitters.report o.monitor st } w1 = some (.ok (), o', w') := by
  unfold FitterObj.fit at h
  generalize ho : ({ o with model := m, collector := .new, settings := o.settings.updated kw } :
    FitterObj K M (SmcState Θ K) (Pt Θ) (PNote K)) = o1 at h
  have h : FitterObj.andThen (Fitters.smcInitialise envOf fuel parents)
    (FitterObj.andThen (Fitters.smcUpdate envOf fuel rounds) (fun o w => some (.ok (), o, w))) o1 w
      = some (.ok (), o', w') := h
  unfold FitterObj.andThen at h
  cases e : Fitters.smcInitialise envOf fuel parents o1 w with
  | none => rw [e] at h; cases h
  | some x =>
    obtain ⟨r1, o2, w1⟩ := x
    rw [e] at h
    cases r1 with
    | error e1 => simp at h
    | ok u =>
      simp only at h
      unfold Fitters.smcInitialise at e
      cases es : Fitters.smcSettings o1.settings with
      | error e1 => rw [es] at e; simp at e
      | ok set =>
        rw [es] at e
        simp only at e
        cases ei : Smc.initialise (envOf o1.model) set fuel parents w with
        | none => rw [ei] at e; cases e
        | some x =>
          obtain ⟨r2, w2⟩ := x
          rw [ei] at e
          cases r2 with
          | error e1 => simp at e
          | ok st =>
            simp only [Option.some.injEq, Prod.mk.injEq] at e
            obtain ⟨-, rfl, rfl⟩ := e
            unfold Fitters.smcUpdate at h
            simp only [es] at h
            subst ho
            refine ⟨set, st, w2, es, ei, ?_⟩
            generalize hx : Fitters.smcRounds envOf fuel set rounds st { o with
              model := m, collector := .new, settings := o.settings.updated kw, state := some st,
              monitor := Fitters.report o.monitor st } w2 = x at h ⊢
            rcases x with _ | ⟨r3, o3, w3⟩
            · cases h
            · cases r3 with
              | error e3 => simp at h
              | ok u => exact h

/-- Between calls the monitor of a fitter holds nothing that is not recorded. -/
theorem Ran.last {envOf : M → SmcEnv W Θ T P K} {idle : M} {fuel rounds : Nat} {parents : Option (List P)}
    {kws : List (SDict K)} {o : FitterObj K M (SmcState Θ K) (Pt Θ) (PNote K)}
    (h : Ran (Fitters.smc envOf idle fuel rounds parents) kws o) : o.monitor.last = [] := by
  have hr : ∀ (set : SmcSettings K) (k : Nat) (st : SmcState Θ K) (o : FitterObj K M (SmcState Θ K) (Pt Θ) (PNote K))
      (w : W) (r : Result Unit) (o' : FitterObj K M (SmcState Θ K) (Pt Θ) (PNote K)) (w' : W), o.monitor.last = [] →
      Fitters.smcRounds envOf fuel set k st o w = some (r, o', w') → o'.monitor.last = [] := by
    intro set k
    induction k with
    | zero => intro st o w r o' w' _ h; cases h
    | succ k ih =>
      intro st o w r o' w' hl h
      unfold Fitters.smcRounds at h
      cases e : Smc.aRound (envOf o.model) set fuel st w with
      | none => rw [e] at h; cases h
      | some x =>
        obtain ⟨r1, w1⟩ := x
        rw [e] at h
        cases r1 with
        | error e1 =>
          simp only [Option.some.injEq, Prod.mk.injEq] at h
          rw [← h.2.1]; exact hl
        | ok st1 =>
          obtain ⟨row, -, q2, -⟩ := report_eq hl st1
          simp only at h
          split at h
          · simp only [Option.some.injEq, Prod.mk.injEq] at h
            rw [← h.2.1]; exact q2
          · exact ih st1 _ _ _ _ _ q2 h
  induction h with
  | new kw => rfl
  | close _ ih => exact ih
  | @fit kws o o' m kw w w' r _ hf ih =>
    unfold FitterObj.fit at hf
    generalize ho : ({ o with model := m, collector := .new, settings := o.settings.updated kw } :
      FitterObj K M (SmcState Θ K) (Pt Θ) (PNote K)) = o1 at hf
    have hl : o1.monitor.last = [] := by rw [← ho]; exact ih
    clear ho ih
    have hf : FitterObj.andThen (Fitters.smcInitialise envOf fuel parents)
      (FitterObj.andThen (Fitters.smcUpdate envOf fuel rounds) (fun o w => some (.ok (), o, w))) o1 w
        = some (r, o', w') := hf
    have hi : ∀ r2 o2 w2, Fitters.smcInitialise envOf fuel parents o1 w = some (r2, o2, w2) →
        o2.monitor.last = [] := by
      intro r2 o2 w2 h
      unfold Fitters.smcInitialise at h
      split at h
      · simp only [Option.some.injEq, Prod.mk.injEq] at h
        rw [← h.2.1]; exact hl
      · split at h
        · cases h
        · simp only [Option.some.injEq, Prod.mk.injEq] at h
          rw [← h.2.1]; exact hl
        · rename_i st _ _
          simp only [Option.some.injEq, Prod.mk.injEq] at h
          rw [← h.2.1]
          obtain ⟨row, -, q2, -⟩ := report_eq hl st
          exact q2
    have hu : ∀ o2 w2 r3 o3 w3, o2.monitor.last = [] → Fitters.smcUpdate envOf fuel rounds o2 w2 = some (r3, o3, w3) →
        o3.monitor.last = [] := by
      intro o2 w2 r3 o3 w3 hl2 h
      unfold Fitters.smcUpdate at h
      split at h
      · simp only [Option.some.injEq, Prod.mk.injEq] at h
        rw [← h.2.1]; exact hl2
      · simp only [Option.some.injEq, Prod.mk.injEq] at h
        rw [← h.2.1]; exact hl2
      · exact hr _ _ _ _ _ _ _ _ hl2 h
    unfold FitterObj.andThen at hf
    cases e : Fitters.smcInitialise envOf fuel parents o1 w with
    | none => rw [e] at hf; cases hf
    | some x =>
      obtain ⟨r2, o2, w2⟩ := x
      rw [e] at hf
      cases r2 with
      | error e1 =>
        simp only [Option.some.injEq, Prod.mk.injEq] at hf
        rw [← hf.2.1]; exact hi _ _ _ e
      | ok u =>
        simp only at hf
        cases e' : Fitters.smcUpdate envOf fuel rounds o2 w2 with
        | none => rw [e'] at hf; cases hf
        | some x =>
          obtain ⟨r3, o3, w3⟩ := x
          rw [e'] at hf
          cases r3 with
          | error e1 =>
            simp only [Option.some.injEq, Prod.mk.injEq] at hf
            rw [← hf.2.1]; exact hu _ _ _ _ _ (hi _ _ _ e) e'
          | ok u =>
            simp only [Option.some.injEq, Prod.mk.injEq] at hf
            rw [← hf.2.1]; exact hu _ _ _ _ _ (hi _ _ _ e) e'

/-- **C170**, what holds: a fit that ends adds to the records of the monitor one row for each of its rounds, from round 0
to the round of its state, in order, with increasing times; the last row has the tolerance of the state. -/
theorem C170_partial [IsStrictOrderedRing K] {envOf : M → SmcEnv W Θ T P K} {idle : M} {fuel rounds : Nat}
    {parents : Option (List P)} {kws : List (SDict K)}
    {m : M} {kw : SDict K} {o o' : FitterObj K M (SmcState Θ K) (Pt Θ) (PNote K)} {w w' : W}
    (ho : Ran (Fitters.smc envOf idle fuel rounds parents) kws o)
    (h : FitterObj.fit (Fitters.smc envOf idle fuel rounds parents) m kw o w = some (.ok (), o', w')) :
    ∃ st rows, o'.state = some st ∧ o'.monitor.records = o.monitor.records ++ rows ∧
      Rows rows 0 st.round o.monitor.time st := by
  obtain ⟨set, st, w1, h1, h2, h3⟩ := fit_ok h
  obtain ⟨row, q1, q2, q3, q4, q5, -, -, q6, -⟩ := report_eq ho.last st
  obtain ⟨_, _, _, _, _, _, hr0, _⟩ := Smc.initialise_ok h2
  obtain ⟨st', rows, a1, a2, a3, a4, a5, a6⟩ := rounds_rows envOf fuel set rounds st _ _ _ _ q2 h3
  refine ⟨st', row :: rows, a1, ?_, ?_, ?_, ?_⟩
  · rw [a4]
    show (Fitters.report o.monitor st).records ++ rows = _
    rw [q1]
    simp
  · rw [List.map_cons, q4, a6.round, hr0, show st'.round + 1 - 0 = (st'.round + 1 - (0 + 1)) + 1 by omega,
      List.range'_succ]
    simp
  · rw [List.map_cons, q6, a6.time, List.length_cons, List.range_succ_eq_map, List.map_cons, List.map_map]
    congr 1
    · simp
    · apply List.map_congr_left
      intro i _
      show some (XR.fin (((Fitters.report o.monitor st).time + (i : Int) : Int) : K)) = _
      rw [q3]
      simp only [Function.comp]
      congr 3
      push_cast
      ring
  · have : rows ≠ [] := by
      rintro rfl
      have := a6.eps
      simp at this
    rw [List.getLast?_cons_of_ne_nil this]
    exact a6.eps

/-- **C170** (the posterior): the set of a posterior has the particles collected, the tolerance of the state, and as its
trace all that the monitor has recorded. -/
theorem C170_posterior {envOf : M → SmcEnv W Θ T P K} {fuel n : Nat}
    {o : FitterObj K M (SmcState Θ K) (Pt Θ) (PNote K)} {w w' : W} {post : ParamSet (Pt Θ) (PNote K)}
    (h : Fitters.smcPosteriors envOf fuel n o w = some (.ok post, w')) :
    ∃ st set, o.state = some st ∧ Fitters.smcSettings o.settings = .ok set ∧
      Smc.samplePosteriors (envOf o.model) set fuel (some st) n w = some (.ok post.particles, w') ∧
      post.get "Trace" = .ok (.trace o.monitor.records) ∧ post.get "Eps" = .ok (.num st.eps) := by
  unfold Fitters.smcPosteriors at h
  obtain ⟨set, w1, h1, h⟩ := Run.bind_ok.1 h
  obtain ⟨hs, rfl⟩ := Run.ofResult_ok.1 h1
  obtain ⟨pts, w2, h2, h⟩ := Run.bind_ok.1 h
  obtain ⟨rfl, rfl⟩ := Run.pure_ok.1 h
  have hf : ∀ (pts : List (Pt Θ)) (q : ParamSet (Pt Θ) (PNote K)),
      (pts.foldl ParamSet.append q).particles = q.particles ++ pts ∧ (pts.foldl ParamSet.append q).notes = q.notes := by
    intro pts
    induction pts with
    | nil => intro q; exact ⟨by simp, rfl⟩
    | cons p pts ih =>
      intro q
      have := ih (q.append p)
      exact ⟨by rw [List.foldl_cons, this.1]; simp [ParamSet.append], by rw [List.foldl_cons, this.2]; rfl⟩
  cases hst : o.state with
  | none =>
    rw [hst] at h2
    exact absurd h2 Run.fail_ok
  | some st =>
    rw [hst] at h2
    refine ⟨st, set, rfl, hs, ?_, ?_, ?_⟩
    · have e : (((pts.foldl ParamSet.append (ParamSet.new "ABC-SMC")).keep "Trace" (PNote.trace o.monitor.records)).keep "Eps"
          (PNote.num (((some st).map (·.eps)).getD .nan))).particles = pts := by
        show (pts.foldl ParamSet.append (ParamSet.new "ABC-SMC") : ParamSet (Pt Θ) (PNote K)).particles = pts
        rw [(hf pts _).1]
        rfl
      rw [e]
      exact h2
    · unfold ParamSet.get ParamSet.keep
      simp only
      rw [(hf pts _).2]
      rfl
    · unfold ParamSet.get ParamSet.keep
      simp only
      rw [(hf pts _).2]
      rfl

/-- **C170**, as first stated - the trace has one row for each round of the fit - fails from the second fit on: after any
two fits that ended, in a row, the trace has more rows than the second fit had rounds. -/
theorem C170_refuted [IsStrictOrderedRing K] {envOf : M → SmcEnv W Θ T P K} {idle : M} {fuel rounds : Nat}
    {parents : Option (List P)} {kws : List (SDict K)} {m1 m2 : M} {kw1 kw2 : SDict K}
    {o o1 o2 : FitterObj K M (SmcState Θ K) (Pt Θ) (PNote K)} {w w1 w2 w3 : W}
    (ho : Ran (Fitters.smc envOf idle fuel rounds parents) kws o)
    (h1 : FitterObj.fit (Fitters.smc envOf idle fuel rounds parents) m1 kw1 o w = some (.ok (), o1, w1))
    (h2 : FitterObj.fit (Fitters.smc envOf idle fuel rounds parents) m2 kw2 o1 w2 = some (.ok (), o2, w3)) :
    ∃ st, o2.state = some st ∧ st.round + 1 < o2.monitor.records.length := by
  obtain ⟨st1, rows1, -, e1, b1⟩ := C170_partial ho h1
  obtain ⟨st2, rows2, a2, e2, b2⟩ := C170_partial (.fit ho h1) h2
  have l1 := congrArg List.length b1.round
  have l2 := congrArg List.length b2.round
  simp only [List.length_map, List.length_range'] at l1 l2
  refine ⟨st2, a2, ?_⟩
  rw [e2, e1]
  simp only [List.length_append, l1, l2]
  omega

end Trace

/-- The rounds and the times that the monitor has recorded after the two fits: those of both. -/
theorem exSecond_rows : exSecond.map (fun x => (x.2.1.state.map (fun st => (st.pts.map (·.val), st.round)),
    x.2.1.monitor.records.map (fun r => (r.get? "Round", r.get? "Time")))) =
    some (some ([2, 3, 5, 6, 8], 1), [(some (.fin 0), some (.fin 0)), (some (.fin 1), some (.fin 1)),
      (some (.fin 0), some (.fin 2)), (some (.fin 1), some (.fin 3))]) := by
  decide +kernel

example : exSecond.map (fun x => x.2.1.monitor.records.map (·.get? "Eps")) =
    some [some .pinf, some (.fin 36), some .pinf, some (.fin (74 / 5))] := by
  decide +kernel

/-! ## C171: whose particles a posterior has -/

section Whose

variable {W Θ T P M K : Type} [Field K] [LinearOrder K] [FloorSemiring K]

/-- **C171**, what holds: after a fit that ended, the model is the one given, and the state is one that the algorithm
reaches on this model with the settings in force; so what is proved of such states (C62 - C66) holds of the posterior
drawn from it. -/
theorem C171_partial {envOf : M → SmcEnv W Θ T P K} {idle : M} {fuel rounds : Nat} {parents : Option (List P)}
    {m : M} {kw : SDict K} {o o' : FitterObj K M (SmcState Θ K) (Pt Θ) (PNote K)} {w w' : W}
    (h : FitterObj.fit (Fitters.smc envOf idle fuel rounds parents) m kw o w = some (.ok (), o', w')) :
    ∃ set st, o'.model = m ∧ Fitters.smcSettings o'.settings = .ok set ∧ o'.state = some st ∧
      Smc.Reached (envOf m) set st ∧ o'.collector = .new := by
  obtain ⟨set, st, w1, h1, h2, h3⟩ := fit_ok h
  have hr : ∀ (k : Nat) (st : SmcState Θ K) (o o' : FitterObj K M (SmcState Θ K) (Pt Θ) (PNote K)) (w w' : W),
      o.model = m → Smc.Reached (envOf m) set st →
      Fitters.smcRounds envOf fuel set k st o w = some (.ok (), o', w') →
      ∃ st', o'.state = some st' ∧ Smc.Reached (envOf m) set st' ∧ o'.model = m ∧ o'.collector = o.collector := by
    intro k
    induction k with
    | zero => intro st o o' w w' _ _ h; cases h
    | succ k ih =>
      intro st o o' w w' hm hst h
      unfold Fitters.smcRounds at h
      cases e : Smc.aRound (envOf o.model) set fuel st w with
      | none => rw [e] at h; cases h
      | some x =>
        obtain ⟨r1, w1⟩ := x
        rw [e] at h
        cases r1 with
        | error e1 => simp at h
        | ok st1 =>
          have hst1 : Smc.Reached (envOf m) set st1 := .round hst (by rw [← hm]; exact e)
          simp only at h
          split at h
          · simp only [Option.some.injEq, Prod.mk.injEq] at h
            obtain ⟨-, rfl, -⟩ := h
            exact ⟨st1, rfl, hst1, hm, rfl⟩
          · obtain ⟨st', a1, a2, a3, a4⟩ := ih st1 _ _ _ _ (by exact hm) hst1 h
            exact ⟨st', a1, a2, a3, a4⟩
  obtain ⟨st', a1, a2, a3, a4⟩ := hr _ _ _ _ _ _ rfl (.init h2) h3
  refine ⟨set, st', a3, ?_, a1, a2, a4⟩
  rw [keeps_rounds envOf fuel set rounds st _ _ _ _ _ h3]
  exact h1

/-- **C171**, as first stated, fails: a fit whose initialisation raises - the distance raises, say, or there is nothing to
sample - leaves the state of the fit before, on whatever model that was, together with the new model; nothing marks
it. -/
theorem C171_refuted {envOf : M → SmcEnv W Θ T P K} {idle : M} {fuel rounds : Nat} {parents : Option (List P)}
    {m : M} {kw : SDict K} {o : FitterObj K M (SmcState Θ K) (Pt Θ) (PNote K)} {w w' : W} {set : SmcSettings K} {e : Err}
    (hs : Fitters.smcSettings (o.settings.updated kw) = .ok set)
    (hi : Smc.initialise (envOf m) set fuel parents w = some (.error e, w')) :
    ∃ o', FitterObj.fit (Fitters.smc envOf idle fuel rounds parents) m kw o w = some (.error e, o', w') ∧
      o'.model = m ∧ o'.state = o.state ∧ o'.monitor.records = o.monitor.records := by
  refine ⟨{ o with model := m, collector := .new, settings := o.settings.updated kw }, ?_, rfl, rfl, rfl⟩
  unfold FitterObj.fit FitterObj.andThen
  have : (Fitters.smc envOf idle fuel rounds parents).initialise
      { o with model := m, collector := .new, settings := o.settings.updated kw } w = some (.error e,
      { o with model := m, collector := .new, settings := o.settings.updated kw }, w') := by
    show Fitters.smcInitialise envOf fuel parents _ w = _
    unfold Fitters.smcInitialise
    simp only [hs, hi]
  rw [this]

end Whose

section WhoseHme

variable {W N K D M P A : Type} [DecidableEq N] [Field K] [LinearOrder K] [FloorSemiring K]

/-- **C171**, for history matching: after a fit that ended, the state is one that the algorithm reaches on the model given,
with the sizes it wrote into its settings; so what is proved of such states (C76, C77) holds of what it collects. -/
theorem C171_hme {envOf : M → HmeEnv W N K D} {idle : M} {waves : Nat} {m : M} {kw : SDict K}
    {o o' : FitterObj K M (HmeState N K) P A} {w w' : W}
    (h : FitterObj.fit (Fitters.hme envOf idle waves) m kw o w = some (.ok (), o', w')) :
    ∃ set st, o'.model = m ∧ Fitters.hmeSettings o'.settings = .ok set ∧ o'.state = some st ∧
      set.nPars = (envOf m).doms.length ∧ Hme.Reached (envOf m) set st ∧ set.maxWave ≤ st.wave ∧
      o'.collector = .new := by
  have hset : ∀ (s : SDict K) (k k' : String) (i : Int), SDict.int (Dict.set s k (.int i)) k' =
      if k = k' then .ok i else s.int k' := by
    intro s k k' i
    unfold SDict.int
    rw [Dict.get?_set]
    by_cases h : k = k'
    · rw [if_pos h, if_pos h]
    · rw [if_neg h, if_neg h]
  have hr : ∀ (set : HmeSettings K) (k : Nat) (st : HmeState N K) (o o' : FitterObj K M (HmeState N K) P A) (w w' : W),
      o.model = m → Hme.Reached (envOf m) set st →
      Fitters.hmeWaves envOf set k st o w = some (.ok (), o', w') →
      ∃ st', o'.state = some st' ∧ Hme.Reached (envOf m) set st' ∧ set.maxWave ≤ st'.wave ∧ o'.model = m ∧
        o'.collector = o.collector ∧ o'.settings = o.settings := by
    intro set k
    induction k with
    | zero => intro st o o' w w' _ _ h; cases h
    | succ k ih =>
      intro st o o' w w' hm hst h
      unfold Fitters.hmeWaves at h
      cases e : Hme.aWave (envOf o.model) set st w with
      | none => rw [e] at h; cases h
      | some x =>
        obtain ⟨r1, w1⟩ := x
        rw [e] at h
        cases r1 with
        | error e1 => simp at h
        | ok st1 =>
          have hst1 : Hme.Reached (envOf m) set st1 := .wave hst (by rw [← hm]; exact e)
          simp only at h
          split at h
          · rename_i hmax
            simp only [Option.some.injEq, Prod.mk.injEq] at h
            obtain ⟨-, rfl, -⟩ := h
            exact ⟨st1, rfl, hst1, hmax, hm, rfl, rfl⟩
          · obtain ⟨st', a1, a2, a3, a4, a5, a6⟩ := ih st1 _ _ _ _ (by exact hm) hst1 h
            exact ⟨st', a1, a2, a3, a4, a5, a6⟩
  unfold FitterObj.fit at h
  generalize ho : ({ o with model := m, collector := .new, settings := o.settings.updated kw } :
    FitterObj K M (HmeState N K) P A) = o1 at h
  have hm1 : o1.model = m := by rw [← ho]
  have hc1 : o1.collector = .new := by rw [← ho]
  clear ho
  have h : FitterObj.andThen (Fitters.hmeInitialise (fun m => (envOf m).doms.length))
    (FitterObj.andThen (Fitters.hmeUpdate envOf waves) (fun o w => some (.ok (), o, w))) o1 w
      = some (.ok (), o', w') := h
  unfold FitterObj.andThen at h
  cases e : Fitters.hmeInitialise (fun m => (envOf m).doms.length) o1 w with
  | none => rw [e] at h; cases h
  | some x =>
    obtain ⟨r1, o2, w1⟩ := x
    rw [e] at h
    cases r1 with
    | error e1 => simp at h
    | ok u =>
      simp only at h
      have hinit : o2.model = m ∧ o2.collector = .new ∧
          ∃ a b st, Hme.sizes (envOf m).doms.length a b = .ok ((o2.settings.int "n_sims").toOption.getD 0,
              (o2.settings.int "n_ems").toOption.getD 0) ∧
            o2.settings.int "n_pars" = .ok ((envOf m).doms.length : Int) ∧ o2.state = some st ∧
            st = { pts := [], lower := List.replicate (envOf m).doms.length 0,
                   upper := List.replicate (envOf m).doms.length 1,
                   wave := 0, mse := .pinf, cutoff := .pinf, acc := 1 } := by
        unfold Fitters.hmeInitialise at e
        rw [hm1] at e
        simp only at e
        generalize hn : (envOf m).doms.length = n at e ⊢
        cases e1 : SDict.int (Dict.set o1.settings "n_pars" (.int n)) "n_sims" with
        | error x => rw [e1] at e; simp at e
        | ok a =>
          rw [e1] at e
          simp only at e
          generalize hs2 : (if a ≤ 0 then Dict.set (Dict.set o1.settings "n_pars" (.int n)) "n_sims" (.int (n * 10))
            else Dict.set o1.settings "n_pars" (.int n) : SDict K) = s2 at e
          have hs2p : s2.int "n_pars" = .ok (n : Int) := by
            rw [← hs2]
            split
            · rw [hset, if_neg (by decide), hset, if_pos rfl]
            · rw [hset, if_pos rfl]
          have hs2s : s2.int "n_sims" = .ok (if a ≤ 0 then (n : Int) * 10 else a) := by
            rw [← hs2]
            split
            · rw [hset, if_pos rfl]
            · rw [e1]
          cases e2 : s2.int "n_ems" with
          | error x => rw [e2] at e; simp at e
          | ok b =>
            rw [e2] at e
            simp only at e
            split at e
            · simp at e
            · rename_i hnot
              generalize hs3 : (if b ≤ 0 then Dict.set s2 "n_ems" (.int (n * 10 * 100)) else s2 : SDict K) = s3 at e
              have hs3p : SDict.int s3 "n_pars" = .ok (n : Int) := by
                rw [← hs3]
                split
                · rw [hset, if_neg (by decide), hs2p]
                · exact hs2p
              have hs3s : SDict.int s3 "n_sims" = .ok (if a ≤ 0 then (n : Int) * 10 else a) := by
                rw [← hs3]
                split
                · rw [hset, if_neg (by decide), hs2s]
                · exact hs2s
              have hs3e : SDict.int s3 "n_ems" = .ok (if b ≤ 0 then (n : Int) * 10 * 100 else b) := by
                rw [← hs3]
                split
                · rw [hset, if_pos rfl]
                · exact e2
              simp only [Option.some.injEq, Prod.mk.injEq] at e
              obtain ⟨-, rfl, -⟩ := e
              refine ⟨rfl, hc1, a, b, _, ?_, hs3p, rfl, rfl⟩
              simp only [hs3s, hs3e]
              unfold Hme.sizes
              by_cases hb : b ≤ 0
              · have ha : a ≤ 0 := by
                  by_contra hc
                  exact hnot ⟨hb, by omega⟩
                simp only [if_pos ha, if_pos hb]
                rfl
              · by_cases ha : a ≤ 0
                · simp only [if_pos ha, if_neg hb]; rfl
                · simp only [if_neg ha, if_neg hb]; rfl
      obtain ⟨hm2, hc2, a, b, st, hz, hp, hst, hst'⟩ := hinit
      unfold Fitters.hmeUpdate at h
      rw [hst] at h
      cases es : Fitters.hmeSettings o2.settings with
      | error x => rw [es] at h; simp at h
      | ok set =>
        rw [es] at h
        simp only at h
        have hes := es
        unfold Fitters.hmeSettings at es
        simp only [bind, Except.bind, hp] at es
        cases e3 : o2.settings.int "n_sims" with
        | error x => rw [e3] at es; simp at es
        | ok ns =>
          cases e4 : o2.settings.int "n_ems" with
          | error x => rw [e3, e4] at es; simp at es
          | ok ne =>
            rw [e3, e4] at es hz
            simp only at es
            have hset3 : set.nPars = (envOf m).doms.length ∧ set.nSims = ns.toNat ∧ set.nEms = ne.toNat := by
              repeat (first | (split at es; (cases es)) )
              all_goals (first | (cases es; exact ⟨rfl, rfl, rfl⟩))
            obtain ⟨q1, q2, q3⟩ := hset3
            have hre : Hme.Reached (envOf m) set st := by
              refine .init (nSims := a) (nEms := b) (set0 := set) ?_
              rw [q1]
              unfold Hme.initialise
              simp only [bind, Except.bind, hz]
              rw [hst']
              show Except.ok (_, _) = Except.ok (set, _)
              congr 2
              cases set
              simp only at q1 q2 q3
              simp [q1, q2, q3, Except.toOption]
            generalize hx : Fitters.hmeWaves envOf set waves st o2 w1 = x at h
            rcases x with _ | ⟨r3, o3, w3⟩
            · cases h
            · cases r3 with
              | error e3 => simp at h
              | ok u =>
                simp only [Option.some.injEq, Prod.mk.injEq] at h
                obtain ⟨-, rfl, -⟩ := h
                obtain ⟨st', a1, a2, a3, a4, a5, a6⟩ := hr set waves st _ _ _ _ hm2 hre hx
                exact ⟨set, st', a4, by rw [a6]; exact hes, a1, q1, a2, a3, a5.trans hc2⟩

/-- One wave of the model of `Props.Hme`, in its fitter. -/
example : ((FitterObj.fit (Fitters.hme (fun _ : Unit => Hme.exHme) () 5 : Alg Nat ℚ Unit (HmeState String ℚ) Unit Unit) ()
    [("n_sims", .int 2), ("n_ems", .int 4), ("max_wave", .int 1), ("cutoff", .num (11 / 10))]
    (.new (Fitters.hme (fun _ : Unit => Hme.exHme) () 5) []) 0).map (fun x => (x.1, x.2.1.state))) =
    some (.ok (), some Hme.exSt1) := by decide +kernel

end WhoseHme

/-- After a fit of the first model that ended and a fit of the second that raised, the posterior has particles of the
first: numbers that the second model never draws. -/
example : (exFirst.bind (fun x => (FitterObj.fit exAlg false [("n_iter", .int 0)] x.2.1 x.2.2).bind (fun y =>
    (Fitters.smcPosteriors exModels 30 3 y.2.1 y.2.2).map (fun z =>
      (y.1, y.2.1.model, match z.1 with
        | .ok post => post.particles.map (·.val)
        | .error _ => []))))) = some (.error .ZeroDivisionError, false, [0, 0, 0]) := by decide +kernel

/-! ## C172: the operators of the genetic algorithm -/

section Operators

variable {K : Type} [Field K]

theorem new_ok {getCross : String → Result Ga.Cross} {getSel : String → Result Ga.Sel} {kw : SDict K}
    {o : GaFitter K} (h : GaFitter.new getCross getSel kw = .ok o) :
    (∃ t, o.settings.text "cro" = .ok t ∧ getCross t = .ok o.crossover) ∧
    (∃ t, o.settings.text "sel" = .ok t ∧ getSel t = .ok o.selector) := by
  unfold GaFitter.new at h
  simp only [bind, Except.bind] at h
  cases e1 : SDict.text (SDict.updated (GaFitter.defaults : SDict K) kw) "cro" with
  | error e => simp [e1] at h
  | ok t =>
    cases e2 : getCross t with
    | error e => simp [e1, e2] at h
    | ok c =>
      cases e3 : SDict.text (SDict.updated (GaFitter.defaults : SDict K) kw) "sel" with
      | error e => simp [e1, e2, e3] at h
      | ok t' =>
        cases e4 : getSel t' with
        | error e => simp [e1, e2, e3, e4] at h
        | ok d =>
          simp only [e1, e2, e3, e4] at h
          cases h
          exact ⟨⟨t, e1, e2⟩, t', e3, e4⟩

/-- **C172**, what holds: a genetic algorithm holds the operators named by its settings when it was made, whatever it is
given with later fits; and as long as no fit names one, they are the ones that the settings name. -/
theorem C172_partial {getCross : String → Result Ga.Cross} {getSel : String → Result Ga.Sel} {kw : SDict K}
    {o : GaFitter K} (h : GaFitter.new getCross getSel kw = .ok o) (kws : List (SDict K)) :
    (kws.foldl GaFitter.begun o).crossover = o.crossover ∧ (kws.foldl GaFitter.begun o).selector = o.selector ∧
    (∃ t, o.settings.text "cro" = .ok t ∧ getCross t = .ok o.crossover) ∧
    (∃ t, o.settings.text "sel" = .ok t ∧ getSel t = .ok o.selector) ∧
    ((∀ kw ∈ kws, kw.WF ∧ "cro" ∉ kw.keys ∧ "sel" ∉ kw.keys) →
      (kws.foldl GaFitter.begun o).settings.text "cro" = o.settings.text "cro" ∧
      (kws.foldl GaFitter.begun o).settings.text "sel" = o.settings.text "sel") := by
  have h1 : ∀ (kws : List (SDict K)) (o : GaFitter K), (kws.foldl GaFitter.begun o).crossover = o.crossover ∧
      (kws.foldl GaFitter.begun o).selector = o.selector := by
    intro kws
    induction kws with
    | nil => intro o; exact ⟨rfl, rfl⟩
    | cons a kws ih => intro o; exact ih (o.begun a)
  refine ⟨(h1 kws o).1, (h1 kws o).2, ?_, ?_, ?_⟩
  · exact (new_ok h).1
  · exact (new_ok h).2
  · clear h
    induction kws generalizing o with
    | nil => intro _; exact ⟨rfl, rfl⟩
    | cons a kws ih =>
      intro hk
      obtain ⟨hw, h2, h3⟩ := hk a (by simp)
      have hi := ih (o := o.begun a) (fun x hx => hk x (by simp [hx]))
      have e : ∀ k, k ∉ a.keys → (o.begun a).settings.text k = o.settings.text k := by
        intro k hka
        have : (o.begun a).settings.get? k = o.settings.get? k := by
          show (o.settings.updated a).get? k = _
          rw [updated_get _ _ hw, (Dict.get?_eq_none_iff _ _).2 hka]
          by_cases hd : k ∈ o.settings.keys
          · rw [if_pos hd]; rfl
          · rw [if_neg hd, (Dict.get?_eq_none_iff _ _).2 hd]
        unfold SDict.text
        rw [this]
      exact ⟨hi.1.trans (e _ h2), hi.2.trans (e _ h3)⟩

/-- The two crossovers by name. -/
def exCross (t : String) : Result Ga.Cross :=
  if t = "average" then .ok .average else if t = "shuffle" then .ok .shuffle else .error .KeyError

/-- The two selectors by name. -/
def exSel (t : String) : Result Ga.Sel :=
  if t = "tour" then .ok (.tour 3) else if t = "importance" then .ok .importance else .error .KeyError

/-- **C172**, as first stated - the operators in use are those that the settings name - fails as soon as a fit is given
one: the settings then name the average, and the algorithm shuffles. -/
theorem C172_refuted : ∃ o : GaFitter ℚ, GaFitter.new exCross exSel [] = .ok o ∧
    (o.begun [("cro", .text "average")]).settings.text "cro" = .ok "average" ∧ exCross "average" = .ok .average ∧
    (o.begun [("cro", .text "average")]).crossover = .shuffle := by
  refine ⟨_, rfl, ?_, ?_, ?_⟩ <;> decide +kernel

example : (GaFitter.new exCross exSel [("cro", .text "average")] : Result (GaFitter ℚ)).map (·.crossover) =
    .ok .average ∧ (GaFitter.new exCross exSel [("cro", .text "none")] : Result (GaFitter ℚ)).map (·.crossover) =
    .error .KeyError := by constructor <;> rfl

end Operators

end Props.Fitter
