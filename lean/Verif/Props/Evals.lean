import Verif.Props.Fitter
import Verif.Props.Smc

/-!
# What sequential Monte Carlo reports of its work (C186)
-/

namespace Props.Evals
set_option linter.unusedSectionVars false

open Py Model Model.Smc

variable {S Θ T P M K : Type} [Field K] [LinearOrder K] [IsStrictOrderedRing K] [FloorSemiring K]

/-- `count` counts the simulations that have been run: one for every draw from the prior and for every proposal with a
finite prior, none for the rest. -/
structure Tally (env : SmcEnv S Θ T P K) (count : S → Nat) : Prop where
  prior : ∀ s, count (env.prior s).2 = count s + 1
  priorFrom : ∀ p s, count (env.priorFrom p s).2 = count s + 1
  refused : ∀ t x s, (env.propose t x s).1 = .ok none → count (env.propose t x s).2 = count s
  proposed : ∀ t x y s, (env.propose t x s).1 = .ok (some y) → count (env.propose t x s).2 = count s + 1
  spread : ∀ xs ws s, count (env.spread xs ws s).2 = count s
  pick : ∀ ps n s, count (env.rng.pick ps n s).2 = count s
  random : ∀ s, count (env.rng.random s).2 = count s

theorem fin_count {env : SimEnv S Θ K} {count : S → Nat} (hc : ∀ s, count (env.prior s).2 = count s + 1) {fuel n : Nat}
    {s s' : S} {r : XR K × Θ × Nat} (h : sampleFin env fuel n s = some (.ok r, s')) : r.2.2 + count s = n + count s' := by
  induction fuel generalizing n s with
  | zero => exact absurd h Run.more_ok
  | succ fuel ih =>
    obtain ⟨x, s1, h1, h⟩ := Run.bind_ok.1 h
    have hs := hc s
    rw [Run.lift_ok.1 h1] at hs
    simp only at hs
    split at h
    · have := ih h
      omega
    · obtain ⟨rfl, rfl⟩ := Run.pure_ok.1 h
      simp only
      omega

theorem each_count {A B : Type} {count : S → Nat} {f : A → Run S B} {g : B → Nat}
    (hf : ∀ a s s' b, f a s = some (.ok b, s') → g b + count s = count s') {as : List A} {s s' : S} {bs : List B}
    (h : Run.each f as s = some (.ok bs, s')) : (bs.map g).sum + count s = count s' := by
  induction as generalizing s bs with
  | nil =>
    obtain ⟨rfl, rfl⟩ := Run.pure_ok.1 h
    simp
  | cons a as ih =>
    obtain ⟨b, s1, h1, h2⟩ := Run.bind_ok.1 h
    obtain ⟨bs', s2, h3, h4⟩ := Run.bind_ok.1 h2
    obtain ⟨rfl, rfl⟩ := Run.pure_ok.1 h4
    have := hf _ _ _ _ h1
    have := ih h3
    rw [List.map_cons, List.sum_cons]
    omega

theorem choice_count {env : SmcEnv S Θ T P K} {count : S → Nat} (hc : Tally env count) {ps : List (XR K)} {n : Nat}
    {s s' : S} {is : List Nat} (h : Run.lift (env.rng.choice ps n) s = some (.ok is, s')) : count s' = count s := by
  replace h := Run.lift_ok.1 h
  unfold Rand.choice at h
  split at h
  · have := hc.pick ps n s
    simp only [Prod.mk.injEq] at h
    rw [h.2] at this
    exact this
  · simp at h

theorem mutation_count {env : SmcEnv S Θ T P K} {count : S → Nat} (hc : Tally env count) {par : Bool} {tau : T}
    {pt0 : Pt Θ} {fuel n : Nat} {s s' : S} {r : XR K × Pt Θ × Nat}
    (h : sampleMutation env par tau pt0 fuel n s = some (.ok r, s')) : r.2.2 + count s = n + count s' := by
  induction fuel generalizing n s with
  | zero => exact absurd h Run.more_ok
  | succ fuel ih =>
    obtain ⟨x, s1, h1, h⟩ := Run.bind_ok.1 h
    replace h1 := Run.lift_ok.1 h1
    cases x with
    | none =>
      have hx := hc.refused tau pt0.val s (by rw [h1])
      rw [h1] at hx
      have := ih h
      simp only at hx
      omega
    | some y =>
      have hx := hc.proposed tau pt0.val y s (by rw [h1])
      rw [h1] at hx
      simp only at hx h
      split at h
      · split at h
        · exact absurd h Run.fail_ok
        · obtain ⟨rfl, rfl⟩ := Run.pure_ok.1 h
          simp only
          omega
      · split at h
        · have := ih h
          omega
        · obtain ⟨rfl, rfl⟩ := Run.pure_ok.1 h
          simp only
          omega

theorem accept_count {env : SmcEnv S Θ T P K} {count : S → Nat} (hc : Tally env count) (eps1 : XR K)
    (l : List (Pt Θ × Pt Θ)) (s : S) : count (acceptLoop env eps1 l s).2 = count s := by
  induction l generalizing s with
  | nil => rfl
  | cons p l ih =>
    obtain ⟨old, new⟩ := p
    have h1 := ih (env.rng.random s).2
    rw [hc.random] at h1
    refine Eq.trans ?_ h1
    rw [acceptLoop]
    simp only
    split <;> split <;> rfl

/-- **C186** (round 0): the evaluations reported with the first particles are the simulations that were run for them. -/
theorem C186_first {env : SmcEnv S Θ T P K} {count : S → Nat} (hc : Tally env count) {set : SmcSettings K} {fuel : Nat}
    {parents : Option (List P)} {s s' : S} {st : SmcState Θ K}
    (h : initialise env set fuel parents s = some (.ok st, s')) : st.evals + count s = count s' := by
  unfold initialise at h
  obtain ⟨r, s1, h1, h⟩ := Run.bind_ok.1 h
  split at h
  · exact absurd h Run.fail_ok
  · obtain ⟨rfl, rfl⟩ := Run.pure_ok.1 h
    simp only
    cases parents with
    | none =>
      refine Abc.times_count (fun t t' x hx => ?_) h1
      have := fin_count hc.prior hx
      omega
    | some ps =>
      obtain ⟨p0s, s2, h2, h3⟩ := Run.bind_ok.1 h1
      have hp : count s2 = count s := by
        unfold pickParents at h2
        split at h2
        · obtain ⟨-, rfl⟩ := Run.pure_ok.1 h2
          rfl
        · obtain ⟨is, s3, h4, h5⟩ := Run.bind_ok.1 h2
          obtain ⟨-, rfl⟩ := Run.ofResult_ok.1 h5
          exact choice_count hc h4
      rw [← hp]
      refine each_count (fun p t t' x hx => ?_) h3
      have := fin_count (env := { env.toSimEnv with prior := env.priorFrom p }) (hc.priorFrom p) hx
      omega

/-- **C186** (a round): the evaluations reported with a round are the simulations that were run in it. -/
theorem C186_round {env : SmcEnv S Θ T P K} {count : S → Nat} (hc : Tally env count) {set : SmcSettings K} {fuel : Nat}
    {s s' : S} {st st' : SmcState Θ K} (h : aRound env set fuel st s = some (.ok st', s')) :
    st'.evals + count s = count s' := by
  unfold aRound at h
  obtain ⟨q, s1, h1, h⟩ := Run.bind_ok.1 h
  obtain ⟨-, rfl⟩ := Run.ofResult_ok.1 h1
  obtain ⟨⟨w, th⟩, s2, h2, h⟩ := Run.bind_ok.1 h
  obtain ⟨⟨p, e, a, ne⟩, s3, h3, h⟩ := Run.bind_ok.1 h
  obtain ⟨rfl, rfl⟩ := Run.pure_ok.1 h
  simp only at h3 ⊢
  have hr : count s2 = count s := by
    unfold Smc.resample at h2
    split at h2
    · exact absurd h2 Run.fail_ok
    · split at h2
      · obtain ⟨is, s4, h4, h5⟩ := Run.bind_ok.1 h2
        obtain ⟨th1, s5, h6, h7⟩ := Run.bind_ok.1 h5
        obtain ⟨-, rfl⟩ := Run.ofResult_ok.1 h6
        obtain ⟨-, rfl⟩ := Run.pure_ok.1 h7
        exact choice_count hc h4
      · obtain ⟨-, rfl⟩ := Run.pure_ok.1 h2
        rfl
  unfold mcmcProposal at h3
  split at h3
  · exact absurd h3 Run.fail_ok
  · obtain ⟨tau, t1, h4, h5⟩ := Run.bind_ok.1 h3
    obtain ⟨sp, t2, h6, h7⟩ := Run.bind_ok.1 h5
    obtain ⟨⟨pts, acc⟩, t3, h8, h9⟩ := Run.bind_ok.1 h7
    obtain ⟨h10, rfl⟩ := Run.pure_ok.1 h9
    simp only [Prod.mk.injEq] at h10
    obtain ⟨-, -, -, rfl⟩ := h10
    have e1 : count t1 = count s2 := by
      have := hc.spread (th.map Pt.val) w s2
      rw [Run.lift_ok.1 h4] at this
      exact this
    have e2 := each_count (g := (·.2.2)) (count := count)
      (fun a t t' b hb => by have := mutation_count hc hb; omega) h6
    have e3 : count t3 = count t2 := by
      have := accept_count hc (nextEps st.eps st.stay q).1 (th.zip (sp.map (·.2.1))) t2
      rw [← this]
      replace h8 := Run.lift_ok.1 h8
      simp only [Prod.mk.injEq] at h8
      rw [h8.2]
    omega

/-- A run of the rounds of a fit, with what it leaves in the column `Eval`. -/
theorem rounds_evals {envOf : M → SmcEnv S Θ T P K} {count : S → Nat} {m : M} (hc : Tally (envOf m) count) (fuel : Nat)
    (set : SmcSettings K) : ∀ (k : Nat) (st : SmcState Θ K)
    (o o' : FitterObj K M (SmcState Θ K) (Pt Θ) (PNote K)) (w w' : S), o.model = m → o.monitor.last = [] →
    Fitters.smcRounds envOf fuel set k st o w = some (.ok (), o', w') →
    ∃ (rows : List (Dict String (XR K))) (ns : List Nat), o'.monitor.records = o.monitor.records ++ rows ∧
      rows.map (·.get? "Eval") = ns.map (fun n : Nat => some (.fin (n : K))) ∧ ns.sum + count w = count w' := by
  intro k
  induction k with
  | zero => intro st o o' w w' _ _ h; cases h
  | succ k ih =>
    intro st o o' w w' hm hl h
    unfold Fitters.smcRounds at h
    cases e : Smc.aRound (envOf o.model) set fuel st w with
    | none => rw [e] at h; cases h
    | some x =>
      obtain ⟨r1, w1⟩ := x
      rw [e] at h
      cases r1 with
      | error e1 => simp at h
      | ok st1 =>
        simp only at h
        have hn := C186_round hc (hm ▸ e)
        obtain ⟨row, q1, q2, -, -, -, -, -, -, q7⟩ := Fitter.report_eq hl st1
        split at h
        · simp only [Option.some.injEq, Prod.mk.injEq] at h
          obtain ⟨-, rfl, rfl⟩ := h
          exact ⟨[row], [st1.evals], q1, by simp [q7], by simpa using hn⟩
        · obtain ⟨rows, ns, a1, a2, a3⟩ := ih st1 _ _ _ _ (by exact hm) (by exact q2) h
          refine ⟨row :: rows, st1.evals :: ns, ?_, ?_, ?_⟩
          · rw [a1]
            simp only
            rw [q1, List.append_assoc]
            rfl
          · simp [q7, a2]
          · rw [List.sum_cons]
            omega

/-- **C186** (the trace): the rows that a fit adds to the trace have in their column `Eval` numbers that add up to the
simulations which the fit has run. -/
theorem C186_trace {envOf : M → SmcEnv S Θ T P K} {count : S → Nat} {idle : M} {fuel rounds : Nat}
    {parents : Option (List P)} {kws : List (SDict K)} {m : M} {kw : SDict K}
    {o o' : FitterObj K M (SmcState Θ K) (Pt Θ) (PNote K)} {w w' : S} (hc : Tally (envOf m) count)
    (ho : Fitter.Ran (Fitters.smc envOf idle fuel rounds parents) kws o)
    (h : FitterObj.fit (Fitters.smc envOf idle fuel rounds parents) m kw o w = some (.ok (), o', w')) :
    ∃ (rows : List (Dict String (XR K))) (ns : List Nat), o'.monitor.records = o.monitor.records ++ rows ∧
      rows.map (·.get? "Eval") = ns.map (fun n : Nat => some (.fin (n : K))) ∧ ns.sum + count w = count w' := by
  obtain ⟨set, st, w1, h1, h2, h3⟩ := Fitter.fit_ok h
  obtain ⟨row, q1, q2, -, -, -, -, -, -, q7⟩ := Fitter.report_eq ho.last st
  have hn := C186_first hc h2
  obtain ⟨rows, ns, a1, a2, a3⟩ := rounds_evals hc fuel set rounds st _ _ _ _ rfl q2 h3
  refine ⟨row :: rows, st.evals :: ns, ?_, ?_, ?_⟩
  · rw [a1]
    simp only
    rw [q1, List.append_assoc]
    rfl
  · simp [q7, a2]
  · rw [List.sum_cons]
    omega

/-! ### An example -/

/-- The model `Smc.exSmc` with a counter of simulations beside its random state; some draws from the prior have an infinite
distance, and every third proposal is refused. -/
def exTally : SmcEnv (Nat × Nat) Nat Unit Nat ℚ where
  prior := fun s => (.ok (25 * (s.1 % 7)), s.1 + 1, s.2 + 1)
  dist := Smc.exSmc.dist
  flatten := fun _ s => (.ok (), s)
  rng := ⟨fun s => ((Smc.exSmc.rng.random s.1).1, (Smc.exSmc.rng.random s.1).2, s.2),
    fun ps n s => ((Smc.exSmc.rng.pick ps n s.1).1, (Smc.exSmc.rng.pick ps n s.1).2, s.2)⟩
  priorFrom := fun p s => (.ok p, s.1 + 1, s.2 + 1)
  propose := fun _ x s => if s.1 % 3 = 0 then (.ok none, s.1 + 1, s.2) else (.ok (some (x / 2)), s.1 + 1, s.2 + 1)
  spread := fun _ _ s => (.ok (), s)

theorem exTally_ok : Tally exTally Prod.snd where
  prior := fun _ => rfl
  priorFrom := fun _ _ => rfl
  refused := by
    intro t x s h
    simp only [exTally] at h ⊢
    split at h
    · rename_i h0
      rw [if_pos h0]
    · simp at h
  proposed := by
    intro t x y s h
    simp only [exTally] at h ⊢
    split at h
    · simp at h
    · rename_i h0
      rw [if_neg h0]
  spread := fun _ _ _ => rfl
  pick := fun _ _ _ => rfl
  random := fun _ => rfl

/-- Five particles took eight simulations, as three draws had an infinite distance; the first round made seven proposals and
five simulations. -/
example : (initialise exTally Smc.exSet 30 none (0, 0)).map (fun r => (r.1.map (·.evals), r.2.2)) = some (.ok 8, 8) ∧
    ((initialise exTally Smc.exSet 30 none (0, 0)).bind (fun r => match r with
      | (.ok st, s) => (aRound exTally Smc.exSet 30 st s).map (fun r => (r.1.map (·.evals), r.2.2))
      | _ => none)) = some (.ok 5, 13) := by
  decide +kernel

example : ((FitterObj.fit (Fitters.smc (fun _ : Unit => exTally) () 30 9 none) () [("n_iter", .int 5), ("max_round", .int 2)]
    (.new (Fitters.smc (fun _ : Unit => exTally) () 30 9 none) []) (0, 0)).map (fun x => (x.2.1.monitor.records.map (·.get? "Eval"), x.2.2.2))) =
    some ([some (.fin 8), some (.fin 5), some (.fin 5)], 18) := by
  decide +kernel

end Props.Evals
