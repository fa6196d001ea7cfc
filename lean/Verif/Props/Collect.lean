import Verif.Props.Draw
import Verif.Lemmas.Tables

/-!
# Mutants drawn in parallel, evaluation, transport through JSON, collection and the objective of a network (C134 to C139)
-/

namespace Props.Collect

open Py Model.Draw Props.Draw

set_option linter.unusedSectionVars false

variable {P N K S V : Type} [DecidableEq N] [Field K] [LinearOrder K]

/-! ## Mutants drawn in parallel -/

theorem tryServe_ok {o : Objective P N K S} {l : Dict N K} {s s' : S} {p : P}
    (h : tryServe o l s = some (.ok (some p), s')) : o.serve l s = some (.ok p, s') := by
  unfold tryServe at h
  rcases hq : o.serve l s with _ | ⟨e | q, s1⟩
  · rw [hq] at h; cases h
  · rw [hq] at h
    cases e <;> cases h
  · rw [hq] at h
    cases h
    rfl

theorem workerLoop_ok {o : Objective P N K S} {p0 scale : Dict N K} {fuel i j : Nat} {p : P} {s s' : S}
    (h : workerLoop o p0 scale fuel i s = some (.ok (p, j), s')) (hi : i ≤ 20) :
    (i < j ∧ j ≤ 20 ∧ ∃ sizes l q q1 lik t t1 t2 t3, drawSizes o scale t = some (.ok sizes, t1) ∧
        shifted p0 sizes = .ok l ∧ o.serve l t1 = some (.ok q, t2) ∧ o.evaluatePrior q t2 = some (.ok q1, t3) ∧
        isInf (o.logPrior q1) = false ∧ evaluate o q1 t3 = some (.ok (lik, p), s') ∧ isInf lik = false) ∨
      (j = 21 ∧ p = o.dead) := by
  induction fuel generalizing i s with
  | zero => cases h
  | succ fuel ih =>
    rw [workerLoop] at h
    obtain ⟨sizes, s1, h1, h2⟩ := Run.bind_ok.1 h
    obtain ⟨l, s1', h3, h4⟩ := Run.bind_ok.1 h2
    obtain ⟨h3', rfl⟩ := Run.ofResult_ok.1 h3
    obtain ⟨q, s2, h5, h6⟩ := Run.bind_ok.1 h4
    cases q with
    | none => exact ih h6 hi
    | some q =>
      have hs := tryServe_ok h5
      obtain ⟨q1, s3, h7, h8⟩ := Run.bind_ok.1 h6
      by_cases hp : isInf (o.logPrior q1) = true
      · rw [if_pos hp] at h8
        exact ih h8 hi
      · rw [if_neg hp] at h8
        obtain ⟨⟨lik, q2⟩, s4, h9, h10⟩ := Run.bind_ok.1 h8
        replace h10 : (if i + 1 > 20 then pure (o.dead, i + 1) else if isInf lik = true then
          workerLoop o p0 scale fuel (i + 1) else pure (q2, i + 1) : Run S (P × Nat)) s4 =
            some (.ok (p, j), s') := h10
        by_cases hi2 : i + 1 > 20
        · rw [if_pos hi2] at h10
          obtain ⟨h11, -⟩ := Run.pure_ok.1 h10
          cases h11
          exact .inr ⟨by omega, rfl⟩
        · rw [if_neg hi2] at h10
          by_cases hl : isInf lik = true
          · rw [if_pos hl] at h10
            rcases ih h10 (by omega) with ⟨a, b, c⟩ | h
            · exact .inl ⟨by omega, b, c⟩
            · exact .inr h
          · rw [if_neg hl] at h10
            obtain ⟨h11, rfl⟩ := Run.pure_ok.1 h10
            cases h11
            exact .inl ⟨by omega, by omega, sizes, l, q, q1, lik, s, s1, s2, s3, h1, h3', hs, h7, by simpa using hp, h9,
              by simpa using hl⟩

theorem shifted_get? {p0 sizes l : Dict N K} (h : shifted p0 sizes = .ok l) (k : N) :
    l.get? k = (sizes.get? k).bind (fun d => (p0.get? k).map (fun v => v + d)) := by
  unfold shifted at h
  induction sizes generalizing l with
  | nil =>
    cases h
    rfl
  | cons kv sizes ih =>
    obtain ⟨k', d⟩ := kv
    rw [List.mapM_cons] at h
    cases hv : p0.get? k' with
    | none =>
      simp only [hv] at h
      cases h
    | some v =>
      simp only [hv] at h
      cases hr : (sizes.mapM (fun kv : N × K => (match p0.get? kv.1 with
          | some v => .ok (kv.1, v + kv.2)
          | none => .error .KeyError : Result (N × K)))) with
      | error e =>
        erw [hr] at h
        cases h
      | ok r =>
        erw [hr] at h
        replace h : (Except.ok ((k', v + d) :: r) : Result (Dict N K)) = .ok l := h
        cases h
        rw [Dict.get?_cons, Dict.get?_cons]
        by_cases hk : k' = k
        · subst hk
          simp [hv]
        · rw [if_neg hk, if_neg hk]
          exact ih hr

theorem drawSizes_get? {o : Objective P N K S} {scale sizes : Dict N K} {s s' : S}
    (h : drawSizes o scale s = some (.ok sizes, s')) (k : N) :
    (scale.get? k = none → sizes.get? k = none) ∧
      ∀ sd, scale.get? k = some sd → ∃ d t t', sizes.get? k = some d ∧ o.normal sd t = some (.ok d, t') := by
  unfold drawSizes at h
  induction scale generalizing sizes s s' with
  | nil =>
    obtain ⟨rfl, -⟩ := Run.pure_ok.1 h
    simp
  | cons kv scale ih =>
    obtain ⟨k', sd'⟩ := kv
    rw [Run.each] at h
    obtain ⟨b, s1, h1, h2⟩ := Run.bind_ok.1 h
    obtain ⟨bs, s2, h3, h4⟩ := Run.bind_ok.1 h2
    obtain ⟨rfl, -⟩ := Run.pure_ok.1 h4
    obtain ⟨d, s3, h5, h6⟩ := Run.bind_ok.1 h1
    obtain ⟨rfl, -⟩ := Run.pure_ok.1 h6
    rw [Dict.get?_cons, Dict.get?_cons]
    by_cases hk : k' = k
    · subst hk
      simp only [if_true]
      refine ⟨by simp, ?_⟩
      intro sd e
      cases e
      exact ⟨d, s, s3, rfl, h5⟩
    · rw [if_neg hk, if_neg hk]
      exact ih h3

theorem mapM_each {α β : Type} {f : α → Result β} {as : List α} {bs : List β} (h : as.mapM f = .ok bs) :
    ∀ a ∈ as, ∃ b, f a = .ok b := by
  induction as generalizing bs with
  | nil => simp
  | cons a as ih =>
    rw [List.mapM_cons] at h
    cases ha : f a with
    | error e =>
      rw [ha] at h
      cases h
    | ok b =>
      rw [ha] at h
      cases hr : as.mapM f with
      | error e =>
        erw [hr] at h
        cases h
      | ok r =>
        intro x hx
        rcases List.mem_cons.1 hx with rfl | hx
        · exact ⟨b, ha⟩
        · exact ih hr x hx

/-- C134, as first stated, fails: a parameter that is not in `scale` is not kept but drawn afresh. -/
theorem C134_refuted : ¬ ∀ (o : Objective Part String ℚ Nat) (fuel : Nat) (p0 scale : Dict String ℚ) (p : Part) (i s s' : Nat),
    (∀ l t, ∃ q t', o.serve l t = some (.ok q, t') ∧ ∀ k v, l.get? k = some v → (o.locus q).get? k = some v) →
    workerLoop o p0 scale fuel 0 s = some (.ok (p, i), s') → i ≤ 20 →
      ∀ k, scale.get? k = none → (o.locus p).get? k = p0.get? k := by
  intro h
  have h1 := h (toy (fun _ => .fin 0) (fun _ => .fin 0)) 1 [("a", 0), ("b", 0)] [("a", 1)]
    ⟨[("a", 1), ("b", 7)], .fin 0, .fin 0⟩ 1 7 8 ?_ (by decide +kernel) (by omega) "b" (by decide)
  · revert h1
    decide +kernel
  · intro l t
    refine ⟨_, _, rfl, ?_⟩
    intro k v hv
    simp [toy, Dict.get?_append, hv]

/-- C134: a mutant drawn in parallel has, for each parameter in `scale`, the value of the original plus a normal deviate
of the deviation given there, when the objective serves what it is told to and evaluation leaves the values alone; its
prior and its likelihood are not infinite; or there were twenty-one evaluations and it is the empty particle.  Missing
for the full claim: parameters outside `scale` are not kept (`C134_refuted`). -/
theorem C134_partial {o : Objective P N K S} {fuel i : Nat} {p0 scale : Dict N K} {p : P} {s s' : S}
    (h : workerLoop o p0 scale fuel 0 s = some (.ok (p, i), s'))
    (hs : ∀ l q t t', o.serve l t = some (.ok q, t') → ∀ k v, l.get? k = some v → (o.locus q).get? k = some v)
    (hp : ∀ q q' t t', o.evaluatePrior q t = some (.ok q', t') → o.locus q' = o.locus q)
    (hl : ∀ q x, o.locus (o.setLik q x) = o.locus q) (hk : ∀ q x, o.logPrior (o.setLik q x) = o.logPrior q) :
    (1 ≤ i ∧ i ≤ 20 ∧ isInf (o.logPrior p) = false ∧ isInf (o.logLik p) = false ∧
        ∀ k sd, scale.get? k = some sd → ∃ v d t t', p0.get? k = some v ∧ o.normal sd t = some (.ok d, t') ∧
          (o.locus p).get? k = some (v + d)) ∨
      (i = 21 ∧ p = o.dead) := by
  rcases workerLoop_ok h (by omega) with ⟨h1, h2, sizes, l, q, q1, lik, t, t1, t2, t3, hd, hsh, hsv, hep, hip, hev, hil⟩ |
    h
  · refine .inl ⟨h1, h2, ?_⟩
    have e := evaluate_ok hev
    have eloc : o.locus p = o.locus q := by
      rcases e with ⟨-, -, rfl, -⟩ | ⟨-, x, -, rfl, -⟩
      · exact hp _ _ _ _ hep
      · rw [hl]; exact hp _ _ _ _ hep
    have epri : o.logPrior p = o.logPrior q1 := by
      rcases e with ⟨-, -, rfl, -⟩ | ⟨-, x, -, rfl, -⟩
      · rfl
      · rw [hk]
    have elik : o.logLik p = lik := by
      rcases e with ⟨-, rfl, rfl, -⟩ | ⟨-, x, -, rfl, rfl⟩ <;> rfl
    refine ⟨by rw [epri]; exact hip, by rw [elik]; exact hil, ?_⟩
    intro k sd hsc
    obtain ⟨d, u, u', hd1, hd2⟩ := (drawSizes_get? hd k).2 sd hsc
    have hg := shifted_get? hsh k
    rw [hd1] at hg
    cases hv : p0.get? k with
    | none =>
      exfalso
      have hmem := Dict.mem_of_get? hd1
      unfold shifted at hsh
      obtain ⟨b, hb⟩ := mapM_each hsh _ hmem
      simp [hv] at hb
    | some v =>
      rw [hv] at hg
      exact ⟨v, d, u, u', rfl, hd2, by rw [eloc]; exact hs _ _ _ _ hsv k _ hg⟩
  · exact .inr h

theorem toy_serves (pr li : ℚ → XR ℚ) (l : Dict String ℚ) (q : Part) (t t' : Nat)
    (h : (toy pr li).serve l t = some (.ok q, t')) (k : String) (v : ℚ) (hv : l.get? k = some v) :
    ((toy pr li).locus q).get? k = some v := by
  cases h
  simp [toy, Dict.get?_append, hv]

example : workerLoop (toy (fun _ => .fin 0) (from_ 1)) [("a", 0), ("b", 0)] [("a", 1)] 1 0 7 =
      some (.ok (⟨[("a", 1), ("b", 7)], .fin 0, .fin 0⟩, 1), 8) ∧
    (∀ q q' t t', (toy (fun _ => .fin 0) (from_ 1)).evaluatePrior q t = some (.ok q', t') →
      (toy (fun _ => .fin 0) (from_ 1)).locus q' = (toy (fun _ => .fin 0) (from_ 1)).locus q) ∧
    (∀ q x, (toy (fun _ => .fin 0) (from_ 1)).locus ((toy (fun _ => .fin 0) (from_ 1)).setLik q x) =
      (toy (fun _ => .fin 0) (from_ 1)).locus q) :=
  ⟨by decide +kernel, fun q q' t t' h => by cases h; rfl, fun _ _ => rfl⟩

/-- C134: a parameter in `scale` that the original lacks makes the worker raise KeyError. -/
theorem C134_missing_partial {o : Objective P N K S} {fuel i : Nat} {p0 scale sizes : Dict N K} {s s1 : S} {k : N} {sd : K}
    (hk : scale.get? k = some sd) (h0 : p0.get? k = none) (hd : drawSizes o scale s = some (.ok sizes, s1)) :
    workerLoop o p0 scale (fuel + 1) i s = some (.error .KeyError, s1) := by
  obtain ⟨d, t, t', hg, -⟩ := (drawSizes_get? hd k).2 sd hk
  have hm := Dict.mem_of_get? hg
  have he : shifted p0 sizes = .error .KeyError := by
    unfold shifted
    clear hd hk hg
    induction sizes with
    | nil => cases hm
    | cons kv sizes ih =>
      rw [List.mapM_cons]
      cases hv : p0.get? kv.1 with
      | none => rfl
      | some v =>
        have : (k, d) ∈ sizes := by
          rcases List.mem_cons.1 hm with rfl | hm
          · rw [h0] at hv; cases hv
          · exact hm
        show (sizes.mapM _ >>= fun r => pure _ : Result (Dict N K)) = _
        rw [ih this]
        rfl
  rw [workerLoop, Run.bind_apply, hd]
  show (Run.ofResult (shifted p0 sizes) >>= _) s1 = _
  rw [Run.bind_apply, he]
  rfl

example : workerLoop (toy (fun _ => .fin 0) (from_ 1)) [("b", 0)] [("a", 1)] 1 0 7 = some (.error .KeyError, 7) :=
  C134_missing_partial (k := "a") (sd := 1) (by decide +kernel) (by decide +kernel)
    (show drawSizes (toy (fun _ => .fin 0) (from_ 1)) [("a", 1)] 7 = some (.ok [("a", 1)], 7) from rfl)

/-! ## Evaluation -/

/-- The same objective, with a count of the likelihoods that are calculated. -/
def counted (o : Objective P N K S) : Objective P N K (S × Nat) where
  samplePrior := fun s => (o.samplePrior s.1).map (fun r => (r.1, (r.2, s.2)))
  evaluatePrior := fun p s => (o.evaluatePrior p s.1).map (fun r => (r.1, (r.2, s.2)))
  calcLikelihood := fun p s => (o.calcLikelihood p s.1).map (fun r => (r.1, (r.2, s.2 + 1)))
  serve := fun l s => (o.serve l s.1).map (fun r => (r.1, (r.2, s.2)))
  logPrior := o.logPrior
  logLik := o.logLik
  likEvaluated := o.likEvaluated
  setLik := o.setLik
  setPrior := o.setPrior
  dead := o.dead
  clone := o.clone
  locus := o.locus
  impulse := o.impulse
  toJson := o.toJson
  normal := fun sd s => (o.normal sd s.1).map (fun r => (r.1, (r.2, s.2)))

theorem map_ok {α : Type} {x : Option (Result α × S)} {f : S → S × Nat} {a : α} {s' : S × Nat}
    (h : x.map (fun r => (r.1, f r.2)) = some (.ok a, s')) : ∃ s1, x = some (.ok a, s1) ∧ s' = f s1 := by
  rcases x with _ | ⟨r, s1⟩
  · cases h
  · simp only [Option.map_some, Option.some.injEq, Prod.mk.injEq] at h
    exact ⟨s1, by rw [h.1], h.2.symm⟩

/-- The parts of `serve_and_evaluate`, counted. -/
theorem serveAndEvaluate_ok {o : Objective P N K S} {x : Dict N K ⊕ P} {p : P} {s s' : S} {n m : Nat}
    (h : serveAndEvaluate (counted o) x (s, n) = some (.ok p, (s', m))) :
    ∃ q q1 s1 s2, ((x = .inr q ∧ s1 = s) ∨ (∃ l, x = .inl l ∧ o.serve l s = some (.ok q, s1))) ∧
      o.evaluatePrior q s1 = some (.ok q1, s2) ∧
      ((isInf (o.logPrior q1) = true ∧ p = q1 ∧ m = n ∧ s' = s2) ∨
        (isInf (o.logPrior q1) = false ∧ ((o.likEvaluated q1 = true ∧ p = q1 ∧ m = n ∧ s' = s2) ∨
          (o.likEvaluated q1 = false ∧ m = n + 1 ∧ ∃ l, o.calcLikelihood q1 s2 = some (.ok l, s') ∧ p = o.setLik q1 l)))) := by
  unfold serveAndEvaluate at h
  obtain ⟨q, t1, h1, h2⟩ := Run.bind_ok.1 h
  obtain ⟨q1, t2, h3, h4⟩ := Run.bind_ok.1 h2
  obtain ⟨s2, h5, rfl⟩ := map_ok (f := fun r => (r, t1.2)) h3
  have hx : t1.2 = n ∧ ((x = .inr q ∧ t1.1 = s) ∨ (∃ l, x = .inl l ∧ o.serve l s = some (.ok q, t1.1))) := by
    cases x with
    | inl l =>
      obtain ⟨s1, h6, rfl⟩ := map_ok (f := fun r => (r, n)) h1
      exact ⟨rfl, .inr ⟨l, rfl, h6⟩⟩
    | inr p =>
      obtain ⟨rfl, rfl⟩ := Run.pure_ok.1 h1
      exact ⟨rfl, .inl ⟨rfl, rfl⟩⟩
  obtain ⟨hn, hx⟩ := hx
  refine ⟨q, q1, t1.1, s2, hx, h5, ?_⟩
  by_cases hp : isInf (o.logPrior q1) = true
  · rw [if_pos (show isInf ((counted o).logPrior q1) = true from hp)] at h4
    obtain ⟨rfl, h6⟩ := Run.pure_ok.1 h4
    cases h6
    exact .inl ⟨hp, rfl, hn, rfl⟩
  · rw [if_neg (show ¬ isInf ((counted o).logPrior q1) = true from hp)] at h4
    obtain ⟨⟨l, q2⟩, t3, h6, h7⟩ := Run.bind_ok.1 h4
    obtain ⟨h8, rfl⟩ := Run.pure_ok.1 h7
    replace h8 : q2 = p := h8
    subst h8
    refine .inr ⟨by simpa using hp, ?_⟩
    rcases evaluate_ok h6 with ⟨h9, -, rfl, h10⟩ | ⟨h9, y, h10, rfl, -⟩
    · cases h10
      exact .inl ⟨h9, rfl, hn, rfl⟩
    · obtain ⟨s3, h11, h12⟩ := map_ok (f := fun r => (r, t1.2 + 1)) h10
      cases h12
      exact .inr ⟨h9, by omega, y, h11, rfl⟩

/-- C135, as first stated, fails: a likelihood that is not a number counts as not evaluated and is calculated again. -/
theorem C135_refuted : ¬ ∀ (o : Objective Part String ℚ Nat) (x : Dict String ℚ ⊕ Part) (p p' : Part) (s s' s'' n m m' : Nat),
    serveAndEvaluate (counted o) x (s, n) = some (.ok p, (s', m)) →
      serveAndEvaluate (counted o) (.inr p) (s', m) = some (.ok p', (s'', m')) → m' = m := by
  intro h
  have := h (toy (fun _ => .fin 0) (fun _ => .nan)) (.inl []) ⟨[("a", 0), ("b", 0)], .fin 0, .nan⟩
    ⟨[("a", 0), ("b", 0)], .fin 0, .nan⟩ 0 1 1 0 1 2 (by decide +kernel) (by decide +kernel)
  omega

/-- C135: `serve_and_evaluate` calculates at most one likelihood, none for a particle whose prior is infinite and none
for a particle that has one (when evaluating the prior does not make it forget); and a particle that came out of it with
a likelihood that counts as evaluated, or an infinite prior, costs no further calculation.  Missing for the full claim:
likelihoods that are not numbers are calculated again (`C135_refuted`). -/
theorem C135_partial {o : Objective P N K S} {x : Dict N K ⊕ P} {p : P} {s s' : S} {n m : Nat}
    (h : serveAndEvaluate (counted o) x (s, n) = some (.ok p, (s', m)))
    (hk : ∀ q y, o.logPrior (o.setLik q y) = o.logPrior q)
    (hv : ∀ q q' t t', o.evaluatePrior q t = some (.ok q', t') → o.likEvaluated q' = o.likEvaluated q) :
    (m = n ∨ m = n + 1) ∧ (isInf (o.logPrior p) = true → m = n) ∧
      (∀ q, x = .inr q → o.likEvaluated q = true → m = n) ∧
      (isInf (o.logPrior p) = true ∨ o.likEvaluated p = true →
        (∀ t, ∃ t', o.evaluatePrior p t = some (.ok p, t')) →
        ∀ t k, ∃ t', serveAndEvaluate (counted o) (.inr p) (t, k) = some (.ok p, (t', k))) := by
  obtain ⟨q, q1, s1, s2, hx, hp, hr⟩ := serveAndEvaluate_ok h
  refine ⟨?_, ?_, ?_, ?_⟩
  · rcases hr with ⟨-, -, h, -⟩ | ⟨-, ⟨-, -, h, -⟩ | ⟨-, h, -⟩⟩
    · exact .inl h
    · exact .inl h
    · exact .inr h
  · intro hi
    rcases hr with ⟨-, -, h, -⟩ | ⟨hf, ⟨-, -, h, -⟩ | ⟨-, -, l, -, rfl⟩⟩
    · exact h
    · exact h
    · rw [hk, hf] at hi
      cases hi
  · intro q' hq' he
    rcases hx with ⟨h1, -⟩ | ⟨l, h1, -⟩
    · rw [hq'] at h1
      cases h1
      rcases hr with ⟨-, -, h, -⟩ | ⟨-, ⟨-, -, h, -⟩ | ⟨h, -⟩⟩
      · exact h
      · exact h
      · rw [hv _ _ _ _ hp, he] at h
        cases h
    · rw [hq'] at h1
      cases h1
  · intro ho ht t k
    obtain ⟨t', ht'⟩ := ht t
    refine ⟨t', ?_⟩
    unfold serveAndEvaluate
    refine Run.bind_ok.2 ⟨p, (t, k), rfl, Run.bind_ok.2 ⟨p, (t', k), ?_, ?_⟩⟩
    · show (o.evaluatePrior p t).map _ = _
      rw [ht']
      rfl
    · by_cases hi : isInf (o.logPrior p) = true
      · rw [if_pos (show isInf ((counted o).logPrior p) = true from hi)]
        rfl
      · rw [if_neg (show ¬ isInf ((counted o).logPrior p) = true from hi)]
        have he : o.likEvaluated p = true := ho.resolve_left hi
        exact Run.bind_ok.2 ⟨(o.logLik p, p), (t', k), evaluate_of (.inl ⟨he, rfl, rfl, rfl⟩), rfl⟩

example : serveAndEvaluate (counted (toy (fun _ => .fin 0) (from_ 1))) (.inl [("a", 2)]) (0, 0) =
      some (.ok ⟨[("a", 2), ("b", 0)], .fin 0, .fin 0⟩, (1, 1)) ∧
    serveAndEvaluate (counted (toy (fun _ => .fin 0) (from_ 1))) (.inr ⟨[("a", 2), ("b", 0)], .fin 0, .fin 0⟩) (1, 1) =
      some (.ok ⟨[("a", 2), ("b", 0)], .fin 0, .fin 0⟩, (1, 1)) := by decide +kernel

example : serveAndEvaluate (counted (toy (fun _ => .ninf) (from_ 1))) (.inl [("a", 2)]) (0, 0) =
      some (.ok ⟨[("a", 2), ("b", 0)], .ninf, .nan⟩, (1, 0)) := by decide +kernel

example : (∀ q y, (toy (fun _ => .ninf) (from_ 1)).logPrior ((toy (fun _ => .ninf) (from_ 1)).setLik q y) =
      (toy (fun _ => .ninf) (from_ 1)).logPrior q) ∧
    ∀ q q' t t', (toy (fun _ => .ninf) (from_ 1)).evaluatePrior q t = some (.ok q', t') →
      (toy (fun _ => .ninf) (from_ 1)).likEvaluated q' = (toy (fun _ => .ninf) (from_ 1)).likEvaluated q :=
  ⟨fun _ _ => rfl, fun q q' t t' h => by cases h; rfl⟩

/-! ## Transport through JSON -/

/-- C136, as first stated, fails: the empty particle, which `draw` returns when it gives up, comes back with values. -/
theorem C136_refuted : ¬ ∀ (o : Objective Part String ℚ Nat) (p q : Part) (s s' : Nat),
    (∀ l r t t', o.serve l t = some (.ok r, t') → ∀ k v, l.get? k = some v → (o.locus r).get? k = some v) →
    serveJson o (o.toJson p) s = some (.ok q, s') → ∀ k, (o.locus q).get? k = (o.locus p).get? k := by
  intro h
  have := h (toy (fun _ => .fin 0) (from_ 1)) ⟨[], .nan, .ninf⟩ ⟨[("a", 5), ("b", 5)], .nan, .ninf⟩ 5 6
    (fun l r t t' hs => toy_serves _ _ l r t t' hs) (by decide +kernel) "a"
  revert this
  decide +kernel

/-- C136: a particle whose `to_json` has its values, prior and likelihood comes back from `serve_from_json` with all of
them, when the objective serves what it is told to.  Missing for the full claim: it may come back with more values than
it had (`C136_refuted`). -/
theorem C136_partial {o : Objective P N K S} {p q : P} {s s' : S}
    (hs : ∀ l r t t', o.serve l t = some (.ok r, t') → ∀ k v, l.get? k = some v → (o.locus r).get? k = some v)
    (hj : o.toJson p = ⟨o.locus p, some (o.logPrior p), some (o.logLik p)⟩)
    (h1 : ∀ r x, o.locus (o.setLik r x) = o.locus r) (h2 : ∀ r x, o.locus (o.setPrior r x) = o.locus r)
    (h3 : ∀ r x, o.logPrior (o.setLik r x) = o.logPrior r) (h4 : ∀ r x, o.logPrior (o.setPrior r x) = x)
    (h5 : ∀ r x, o.logLik (o.setLik r x) = x) (h : serveJson o (o.toJson p) s = some (.ok q, s')) :
    o.logPrior q = o.logPrior p ∧ o.logLik q = o.logLik p ∧
      ∀ k v, (o.locus p).get? k = some v → (o.locus q).get? k = some v := by
  rw [hj] at h
  unfold serveJson at h
  obtain ⟨r, s1, h6, h7⟩ := Run.bind_ok.1 h
  obtain ⟨rfl, -⟩ := Run.pure_ok.1 h7
  refine ⟨by rw [h3, h4], by rw [h5], ?_⟩
  intro k v hv
  rw [h1, h2]
  exact hs _ _ _ _ h6 k v hv

example : serveJson (toy (fun _ => .fin 0) (from_ 1)) ((toy (fun _ => .fin 0) (from_ 1)).toJson
    ⟨[("a", 2), ("b", 3)], .fin 1, .fin 4⟩) 0 = some (.ok ⟨[("a", 2), ("b", 3)], .fin 1, .fin 4⟩, 1) := by decide +kernel

/-- C136: when `to_json` lacks the prior or the likelihood, as that of the `Chromosome` of this commit does, nothing comes
back: drawing one particle or more in parallel raises. -/
theorem C136_missing_partial {o : Objective P N K S} {n : Nat} {s s' : S} {r : List (P × Nat)} (hn : 0 < n)
    (hj : ∀ p, (o.toJson p).logPrior = none ∨ (o.toJson p).logLik = none) :
    ¬ drawParallel o n s = some (.ok r, s') := by
  intro h
  unfold drawParallel at h
  obtain ⟨js, s1, h1, h2⟩ := Run.bind_ok.1 h
  obtain ⟨h3, h4⟩ := Run.times_ok h1
  have h5 := Run.each_ok h2
  cases js with
  | nil => simp at h3; omega
  | cons j js =>
    cases h5 with
    | cons h6 _ =>
      obtain ⟨t, t', h6⟩ := h6
      obtain ⟨q, t1, h7, -⟩ := Run.bind_ok.1 h6
      obtain ⟨u, u', h8⟩ := h4 j (by simp)
      obtain ⟨⟨p, i⟩, u1, -, h9⟩ := Run.bind_ok.1 h8
      obtain ⟨rfl, -⟩ := Run.pure_ok.1 h9
      unfold serveJson at h7
      obtain ⟨x, t2, -, h10⟩ := Run.bind_ok.1 h7
      replace h10 : (match (o.toJson p).logPrior, (o.toJson p).logLik with
        | some lp, some ll => pure (o.setLik (o.setPrior x lp) ll)
        | _, _ => Run.fail .KeyError : Run S P) t2 = some (.ok q, t1) := h10
      rcases hj p with h | h
      · rw [h] at h10
        exact Run.fail_ok h10
      · rw [h] at h10
        cases hlp : (o.toJson p).logPrior with
        | none => rw [hlp] at h10; exact Run.fail_ok h10
        | some lp => rw [hlp] at h10; exact Run.fail_ok h10

example : drawParallel { toy (fun _ => .fin 0) (from_ 0) with toJson := fun p => ⟨p.locus, none, none⟩ } 2 0 =
    some (.error .KeyError, 3) := by decide +kernel

/-- The laws that particles and their objective are expected to obey: values, prior and likelihood can be set apart from
one another, serving gives what it is told to, evaluation of the prior leaves the values and the likelihood alone, and
`to_json` has them all. -/
structure Lawful (o : Objective P N K S) : Prop where
  serves : ∀ l r t t', o.serve l t = some (.ok r, t') → ∀ k v, l.get? k = some v → (o.locus r).get? k = some v
  json : ∀ p, o.toJson p = ⟨o.locus p, some (o.logPrior p), some (o.logLik p)⟩
  locus_setLik : ∀ r x, o.locus (o.setLik r x) = o.locus r
  locus_setPrior : ∀ r x, o.locus (o.setPrior r x) = o.locus r
  prior_setLik : ∀ r x, o.logPrior (o.setLik r x) = o.logPrior r
  prior_setPrior : ∀ r x, o.logPrior (o.setPrior r x) = x
  lik_setLik : ∀ r x, o.logLik (o.setLik r x) = x
  evaluates : ∀ q q' t t', o.evaluatePrior q t = some (.ok q', t') → o.locus q' = o.locus q

theorem toy_lawful (pr li : ℚ → XR ℚ) : Lawful (toy pr li) where
  serves := fun l r t t' h => toy_serves pr li l r t t' h
  json := fun _ => rfl
  locus_setLik := fun _ _ => rfl
  locus_setPrior := fun _ _ => rfl
  prior_setLik := fun _ _ => rfl
  prior_setPrior := fun _ _ => rfl
  lik_setLik := fun _ _ => rfl
  evaluates := fun q q' t t' h => by cases h; rfl

theorem each_bind {α β γ : Type} {f : α → Run S β} {g : β → Run S γ} {as : List α} {cs : List γ} {s s' : S}
    (h : (Run.each f as >>= fun bs => Run.each g bs) s = some (.ok cs, s')) :
    List.Forall₂ (fun a c => ∃ b t t' u u', f a t = some (.ok b, t') ∧ g b u = some (.ok c, u')) as cs := by
  obtain ⟨bs, s1, h1, h2⟩ := Run.bind_ok.1 h
  have h3 := Run.each_ok h1
  have h4 := Run.each_ok h2
  clear h h1 h2
  induction h3 generalizing cs with
  | nil =>
    cases h4
    exact .nil
  | cons h5 _ ih =>
    cases h4 with
    | cons h6 h7 =>
      obtain ⟨t, t', h5⟩ := h5
      obtain ⟨u, u', h6⟩ := h6
      exact .cons ⟨_, t, t', u, u', h5, h6⟩ (ih h7)

/-- C134, from the side of the caller: there is one result for each particle, in order.  After at most twenty evaluations
it has, for each parameter in `scale`, the value of that particle plus a normal deviate, and neither its prior nor its
likelihood is infinite; after twenty-one it has the prior and the likelihood of the empty particle. -/
theorem C134_parallel_partial {o : Objective P N K S} (ho : Lawful o) {fuel : Nat} {p0s : List P} {scale : Dict N K}
    {r : List (P × Nat)} {s s' : S} (h : mutateParallel o fuel p0s scale s = some (.ok r, s')) :
    List.Forall₂ (fun p0 x =>
      (1 ≤ x.2 ∧ x.2 ≤ 20 ∧ isInf (o.logPrior x.1) = false ∧ isInf (o.logLik x.1) = false ∧
        ∀ k sd, scale.get? k = some sd → ∃ v d t t', (o.locus p0).get? k = some v ∧ o.normal sd t = some (.ok d, t') ∧
          (o.locus x.1).get? k = some (v + d)) ∨
      (x.2 = 21 ∧ o.logPrior x.1 = o.logPrior o.dead ∧ o.logLik x.1 = o.logLik o.dead)) p0s r := by
  refine (each_bind h).imp ?_
  rintro p0 ⟨q, j⟩ ⟨⟨js, i⟩, t, t', u, u', h1, h2⟩
  obtain ⟨⟨p, i'⟩, t1, h3, h4⟩ := Run.bind_ok.1 h1
  obtain ⟨h5, -⟩ := Run.pure_ok.1 h4
  cases h5
  obtain ⟨q', u1, h6, h7⟩ := Run.bind_ok.1 h2
  obtain ⟨h8, -⟩ := Run.pure_ok.1 h7
  cases h8
  have hq := C136_partial ho.serves (ho.json p) ho.locus_setLik ho.locus_setPrior ho.prior_setLik ho.prior_setPrior
    ho.lik_setLik h6
  rcases C134_partial h3 ho.serves ho.evaluates ho.locus_setLik ho.prior_setLik with ⟨a, b, c, d, e⟩ | ⟨a, rfl⟩
  · refine .inl ⟨a, b, by rw [hq.1]; exact c, by rw [hq.2.1]; exact d, ?_⟩
    intro k sd hk
    obtain ⟨v, d, w, w', h9, h10, h11⟩ := e k sd hk
    exact ⟨v, d, w, w', h9, h10, hq.2.2 k _ h11⟩
  · exact .inr ⟨a, hq.1, hq.2.1⟩

example : mutateParallel (toy (fun _ => .fin 0) (from_ 1)) 1 [⟨[("a", 0)], .nan, .nan⟩, ⟨[("a", 4)], .nan, .nan⟩]
    [("a", 1)] 7 = some (.ok [(⟨[("a", 1), ("b", 7)], .fin 0, .fin 0⟩, 1), (⟨[("a", 5), ("b", 8)], .fin 0, .fin 0⟩, 1)],
      11) := by decide +kernel

/-- C135, in parallel: there is one result for each argument, in order, with the values that it has, and the prior and the
likelihood with which a particle of these values left `serve_and_evaluate`. -/
theorem C135_parallel_partial {o : Objective P N K S} (ho : Lawful o) {xs : List (Dict N K ⊕ P)} {r : List P} {s s' : S}
    (h : serveAndEvaluateParallel o xs s = some (.ok r, s')) :
    List.Forall₂ (fun x q => ∃ l p t t', ((x = .inl l) ∨ (∃ y, x = .inr y ∧ l = o.locus y)) ∧
      serveAndEvaluate o (.inl l) t = some (.ok p, t') ∧ o.logPrior q = o.logPrior p ∧ o.logLik q = o.logLik p ∧
      ∀ k v, l.get? k = some v → (o.locus q).get? k = some v) xs r := by
  refine (each_bind h).imp ?_
  rintro x q ⟨js, t, t', u, u', h1, h2⟩
  obtain ⟨p, t1, h3, h4⟩ := Run.bind_ok.1 h1
  obtain ⟨rfl, -⟩ := Run.pure_ok.1 h4
  have hq := C136_partial ho.serves (ho.json p) ho.locus_setLik ho.locus_setPrior ho.prior_setLik ho.prior_setPrior
    ho.lik_setLik h2
  have hl : ∀ l, serveAndEvaluate o (.inl l) t = some (.ok p, t1) →
      ∀ k v, l.get? k = some v → (o.locus q).get? k = some v := by
    intro l h5 k v hv
    refine hq.2.2 k v ?_
    unfold serveAndEvaluate at h5
    obtain ⟨y, t2, h6, h7⟩ := Run.bind_ok.1 h5
    obtain ⟨y1, t3, h8, h9⟩ := Run.bind_ok.1 h7
    have e1 : (o.locus y1).get? k = some v := by
      rw [ho.evaluates _ _ _ _ h8]
      exact ho.serves _ _ _ _ h6 k v hv
    by_cases hi : isInf (o.logPrior y1) = true
    · rw [if_pos hi] at h9
      obtain ⟨rfl, -⟩ := Run.pure_ok.1 h9
      exact e1
    · rw [if_neg hi] at h9
      obtain ⟨⟨z, y2⟩, t4, h10, h11⟩ := Run.bind_ok.1 h9
      obtain ⟨h12, -⟩ := Run.pure_ok.1 h11
      replace h12 : y2 = p := h12
      subst h12
      rcases evaluate_ok h10 with ⟨-, -, rfl, -⟩ | ⟨-, w, -, rfl, -⟩
      · exact e1
      · rw [ho.locus_setLik]
        exact e1
  cases x with
  | inl l => exact ⟨l, p, t, t1, .inl rfl, h3, hq.1, hq.2.1, hl l h3⟩
  | inr y => exact ⟨o.locus y, p, t, t1, .inr ⟨y, rfl, rfl⟩, h3, hq.1, hq.2.1, hl _ h3⟩

example : serveAndEvaluateParallel (toy (fun _ => .fin 0) (from_ 1)) [.inl [("a", 3)], .inr ⟨[("a", 0)], .nan, .nan⟩] 7 =
    some (.ok [⟨[("a", 3), ("b", 7)], .fin 0, .fin 0⟩, ⟨[("a", 0), ("b", 8)], .fin 0, .ninf⟩], 11) := by decide +kernel

/-! ## Collection -/

/-- C137, as first stated, fails: collecting always ends with an exception, because a `ParameterSet` cannot be finished;
and without parallel workers, `N_Eval` is the number of particles and not that of the evaluations. -/
theorem C137_refuted : (∀ (o : Objective P N K S) par n s s' c, collect o par n s = some (.ok c, s') →
      c.raised = some .AttributeError) ∧
    (∃ (o : Objective Part String ℚ Nat) (s' : Nat) (p : Part) (c : Collected Part), draw o 0 = some (.ok (p, 4), s') ∧
      collect o false 1 0 = some (.ok c, s') ∧ c.nEval = 1) := by
  constructor
  · intro o par n s s' c h
    unfold collect at h
    cases par with
    | true =>
      obtain ⟨ps, s1, -, h2⟩ := Run.bind_ok.1 h
      obtain ⟨rfl, -⟩ := Run.pure_ok.1 h2
      rfl
    | false =>
      obtain ⟨ps, s1, -, h2⟩ := Run.bind_ok.1 h
      obtain ⟨rfl, -⟩ := Run.pure_ok.1 h2
      rfl
  · exact ⟨toy (fun _ => .fin 0) (from_ 3), 4, ⟨[("a", 3), ("b", 3)], .fin 0, .fin 0⟩,
      ⟨[⟨[("a", 3), ("b", 3)], .fin 0, .fin 0⟩], 1, some .AttributeError⟩, by decide +kernel, rfl, rfl⟩

theorem sum_bounds {l : List Nat} (h : ∀ i ∈ l, 1 ≤ i ∧ i ≤ 21) : l.length ≤ l.sum ∧ l.sum ≤ 21 * l.length := by
  induction l with
  | nil => simp
  | cons i l ih =>
    have h1 := ih (fun j hj => h j (by simp [hj]))
    have h2 := h i (by simp)
    simp only [List.length_cons, List.sum_cons]
    omega

theorem forall₂_map {α β γ : Type} {R : α → β → Prop} {f : α → γ} {g : β → γ} (hR : ∀ a b, R a b → f a = g b)
    {as : List α} {bs : List β} (h : List.Forall₂ R as bs) : as.map f = bs.map g := by
  induction h with
  | nil => rfl
  | cons h _ ih => rw [List.map_cons, List.map_cons, ih, hR _ _ h]

/-- C137: what is left in the collector has the requested number of particles; without parallel workers each is one that
`draw` returned and `N_Eval` is their number, with parallel workers `N_Eval` is the sum of the evaluations that the draws
made, at least one and at most twenty-one for each.  Missing for the full claim: `C137_refuted`. -/
theorem C137_partial {o : Objective P N K S} {par : Bool} {n : Nat} {s s' : S} {c : Collected P}
    (h : collect o par n s = some (.ok c, s')) :
    c.samples.length = n ∧ n ≤ c.nEval ∧ c.nEval ≤ 21 * n ∧
      (par = false → c.nEval = n ∧ ∀ p ∈ c.samples, ∃ i t t', draw o t = some (.ok (p, i), t')) ∧
      (par = true → ∃ ds : List (P × Nat), ds.length = n ∧ c.nEval = (ds.map Prod.snd).sum ∧
        (∀ d ∈ ds, ∃ t t', draw o t = some (.ok d, t')) ∧
        List.Forall₂ (fun d p => ∃ t t', serveJson o (o.toJson d.1) t = some (.ok p, t')) ds c.samples) := by
  unfold collect at h
  cases par with
  | false =>
    obtain ⟨ps, s1, h1, h2⟩ := Run.bind_ok.1 h
    obtain ⟨rfl, -⟩ := Run.pure_ok.1 h2
    obtain ⟨h3, h4⟩ := Run.times_ok h1
    refine ⟨by simpa using h3, le_rfl, by show n ≤ 21 * n; omega, fun _ => ⟨rfl, ?_⟩, by simp⟩
    intro p hp
    obtain ⟨⟨q, i⟩, hq, rfl⟩ := List.mem_map.1 hp
    obtain ⟨t, t', ht⟩ := h4 _ hq
    exact ⟨i, t, t', ht⟩
  | true =>
    obtain ⟨ps, s1, h1, h2⟩ := Run.bind_ok.1 h
    obtain ⟨rfl, -⟩ := Run.pure_ok.1 h2
    unfold drawParallel at h1
    obtain ⟨js, s2, h3, h4⟩ := Run.bind_ok.1 h1
    obtain ⟨h5, h6⟩ := Run.times_ok h3
    have h7 := Run.each_ok h4
    have hds : ∃ ds : List (P × Nat), js = ds.map (fun d => (o.toJson d.1, d.2)) ∧
        ∀ d ∈ ds, ∃ t t', draw o t = some (.ok d, t') := by
      clear h3 h4 h5 h7 h1 h h2
      induction js with
      | nil => exact ⟨[], rfl, by simp⟩
      | cons j js ih =>
        obtain ⟨ds, e, hd⟩ := ih (fun a ha => h6 a (by simp [ha]))
        obtain ⟨t, t', ht⟩ := h6 j (by simp)
        obtain ⟨⟨p, i⟩, t1, h8, h9⟩ := Run.bind_ok.1 ht
        obtain ⟨rfl, -⟩ := Run.pure_ok.1 h9
        refine ⟨(p, i) :: ds, by rw [e]; rfl, ?_⟩
        intro d hd'
        rcases List.mem_cons.1 hd' with rfl | hd'
        · exact ⟨t, t1, h8⟩
        · exact hd d hd'
    obtain ⟨ds, rfl, hd⟩ := hds
    have hcount : (ds.map (fun d => (o.toJson d.1, d.2))).map Prod.snd = ps.map Prod.snd := by
      refine forall₂_map ?_ h7
      rintro a b ⟨t, t', hab⟩
      obtain ⟨q, t1, -, h9⟩ := Run.bind_ok.1 hab
      obtain ⟨rfl, -⟩ := Run.pure_ok.1 h9
      rfl
    have hcount' : ps.map Prod.snd = ds.map Prod.snd := by
      rw [← hcount, List.map_map]
      rfl
    have hlen : ds.length = n := by simpa using h5
    have hlen' : ps.length = n := by rw [← h7.length_eq]; exact h5
    have hb := sum_bounds (l := ds.map Prod.snd) (by
      intro i hi
      obtain ⟨⟨p, j⟩, hm, rfl⟩ := List.mem_map.1 hi
      obtain ⟨t, t', ht⟩ := hd _ hm
      obtain ⟨k, -, -, -, h10, h11, -⟩ := C130_draw ht
      show 1 ≤ j ∧ j ≤ 21
      omega)
    rw [List.length_map, hlen, ← hcount'] at hb
    refine ⟨by simpa using hlen', hb.1, hb.2, by simp, fun _ => ⟨ds, hlen, by rw [hcount'], hd, ?_⟩⟩
    rw [List.forall₂_map_left_iff] at h7
    rw [List.forall₂_map_right_iff]
    refine h7.imp ?_
    rintro d ⟨p, i⟩ ⟨t, t', hab⟩
    obtain ⟨q, t1, h8, h9⟩ := Run.bind_ok.1 hab
    obtain ⟨h10, -⟩ := Run.pure_ok.1 h9
    cases h10
    exact ⟨t, t1, h8⟩

example : collect (toy (fun _ => .fin 0) (from_ 3)) true 2 0 = some (.ok ⟨[⟨[("a", 3), ("b", 3)], .fin 0, .fin 0⟩,
    ⟨[("a", 4), ("b", 4)], .fin 0, .fin 0⟩], 5, some .AttributeError⟩, 7) := rfl

/-! ## The objective of a network -/

/-- C138, as first stated, fails: no objective can be made of a network with the `Chromosome` of this commit, which lacks
the method that the evaluation of the prior calls. -/
theorem C138_refuted (b : Net N V K S) (hb : b.hasMethod = decide ("is_prior_evaluated" ∈ chromosomeNames)) (s s' : S)
    (r : List N) : ¬ netFree b s = some (.ok r, s') := by
  have hb' : b.hasMethod = false := by rw [hb]; decide
  intro h
  unfold netFree at h
  obtain ⟨p0, s1, h1, -⟩ := Run.bind_ok.1 h
  unfold netSamplePrior at h1
  obtain ⟨p, s2, -, h2⟩ := Run.bind_ok.1 h1
  obtain ⟨l, s3, h3, -⟩ := Run.bind_ok.1 h2
  obtain ⟨h4, -⟩ := Run.ofResult_ok.1 h3
  simp [netPrior, hb'] at h4

/-- A network for the examples: `x` random with the value of the state, `n` exogenous, `y` random and not a float. -/
def net (m : Bool) : Net String (ℚ × Bool) ℚ Nat where
  order := ["n", "x", "y", "z"]
  isRv := fun n => n ≠ "z"
  exo := [("n", (9, true))]
  sample := fun c s => some (.ok (c ++ ([("n", ((0 : ℚ), true)), ("x", ((s : ℚ), true)), ("y", (1, false)),
    ("z", (2, true))].filter (fun kv => (c.get? kv.1).isNone))), s + 1)
  evaluateNodes := fun _ => .ok (.fin 0)
  isFloat := Prod.snd
  hasMethod := m

example : netFree (net false) 0 = some (.error .AttributeError, 1) ∧
    (net false).hasMethod = decide ("is_prior_evaluated" ∈ chromosomeNames) := by decide +kernel

theorem netSamplePrior_ok {b : Net N V K S} {s s' : S} {p : Dict N V} {l : XR K}
    (h : netSamplePrior b s = some (.ok (p, l), s')) :
    ∃ p1, b.sample b.exo s = some (.ok p1, s') ∧ p = p1.update b.exo ∧ netPrior b p = .ok l := by
  unfold netSamplePrior at h
  obtain ⟨p1, s2, h1, h2⟩ := Run.bind_ok.1 h
  obtain ⟨l', s3, h3, h4⟩ := Run.bind_ok.1 h2
  obtain ⟨h5, rfl⟩ := Run.ofResult_ok.1 h3
  obtain ⟨h6, rfl⟩ := Run.pure_ok.1 h4
  cases h6
  exact ⟨p1, h1, rfl, h5⟩

/-- C138: were the method there, the free parameters would be the random nodes of the network, in its order, that are not
exogenous and whose value in a first sample is a float.  Missing for the full claim: `C138_refuted`. -/
theorem C138_partial {b : Net N V K S} {s s' : S} {r : List N} (h : netFree b s = some (.ok r, s')) :
    r.Sublist b.order ∧ ∃ p0, b.sample b.exo s = some (.ok p0, s') ∧
      ((∀ p t t', b.sample b.exo t = some (.ok p, t') → p.WF) → b.exo.WF →
        ∀ n, n ∈ r ↔ n ∈ b.order ∧ b.isRv n = true ∧ b.exo.get? n = none ∧
          ∃ v, p0.get? n = some v ∧ b.isFloat v = true) := by
  unfold netFree at h
  obtain ⟨⟨p, l⟩, s1, h1, h2⟩ := Run.bind_ok.1 h
  obtain ⟨rfl, rfl⟩ := Run.pure_ok.1 h2
  obtain ⟨p1, h3, rfl, h5⟩ := netSamplePrior_ok h1
  refine ⟨(List.filter_sublist).trans List.filter_sublist, p1, h3, ?_⟩
  intro hw hwe n
  have hwf : (Dict.update p1 b.exo).WF := Dict.WF.update (hw _ _ _ h3) _
  have hm : ∀ n, n ∈ ((Dict.update p1 b.exo).filter (fun kv => b.isFloat kv.2)).map Prod.fst ↔
      ∃ v, (Dict.update p1 b.exo).get? n = some v ∧ b.isFloat v = true := by
    intro n
    constructor
    · intro hn
      obtain ⟨⟨k, v⟩, hkv, rfl⟩ := List.mem_map.1 hn
      obtain ⟨h6, h7⟩ := List.mem_filter.1 hkv
      exact ⟨v, Dict.get?_of_mem hwf h6, h7⟩
    · rintro ⟨v, h6, h7⟩
      exact List.mem_map.2 ⟨(n, v), List.mem_filter.2 ⟨Dict.mem_of_get? h6, h7⟩, rfl⟩
  simp only [List.mem_filter, decide_eq_true_eq, Bool.and_eq_true, Bool.not_eq_true', Option.isSome_eq_false_iff,
    Option.isNone_iff_eq_none]
  rw [hm, Dict.get?_update _ _ hwe]
  constructor
  · rintro ⟨⟨h6, h7, h8⟩, v, h9, h10⟩
    rw [h8] at h9
    exact ⟨h6, h7, h8, v, h9, h10⟩
  · rintro ⟨h6, h7, h8, v, h9, h10⟩
    refine ⟨⟨h6, h7, h8⟩, v, ?_, h10⟩
    rw [h8]
    exact h9

example : netFree (net true) 0 = some (.ok ["x"], 1) ∧ (net true).exo.WF := by
  constructor
  · decide +kernel
  · simp [net, Dict.WF, Dict.keys]

/-- C139: whatever values are asked for, those of the exogenous parameters are the ones that the objective was made with:
both in what it draws from the prior and in what it serves (when sampling keeps what it is given); and it serves the other
values that it was asked for. -/
theorem C139_exogenous {b : Net N V K S} (hw : b.exo.WF)
    (hs : ∀ c p t t', b.sample c t = some (.ok p, t') → ∀ k v, c.get? k = some v → p.get? k = some v) :
    (∀ s s' p l, netSamplePrior b s = some (.ok (p, l), s') → ∀ k v, b.exo.get? k = some v → p.get? k = some v) ∧
      (∀ q s s' p l, netServe b q s = some (.ok (p, l), s') →
        (∀ k v, b.exo.get? k = some v → p.get? k = some v) ∧
        ∀ k v, b.exo.get? k = none → q.get? k = some v → p.get? k = some v) := by
  constructor
  · intro s s' p l h k v hv
    obtain ⟨p1, -, rfl, -⟩ := netSamplePrior_ok h
    rw [Dict.get?_update _ _ hw, hv]
    rfl
  · intro q s s' p l h
    unfold netServe at h
    obtain ⟨p1, s2, h1, h2⟩ := Run.bind_ok.1 h
    obtain ⟨l', s3, h3, h4⟩ := Run.bind_ok.1 h2
    obtain ⟨h5, -⟩ := Run.pure_ok.1 h4
    cases h5
    constructor
    · intro k v hv
      refine hs _ _ _ _ h1 k v ?_
      rw [Dict.get?_update _ _ hw, hv]
      rfl
    · intro k v hk hv
      refine hs _ _ _ _ h1 k v ?_
      rw [Dict.get?_update _ _ hw, hk]
      exact hv

example : netServe (net true) [("n", (1, true)), ("x", (5, true))] 0 =
      some (.ok ([("n", (9, true)), ("x", (5, true)), ("y", (1, false)), ("z", (2, true))], .fin 0), 1) ∧
    ∀ c p t t', (net true).sample c t = some (.ok p, t') → ∀ k v, c.get? k = some v → p.get? k = some v := by
  refine ⟨rfl, ?_⟩
  intro c p t t' h k v hv
  cases h
  simp [Dict.get?_append, hv]

end Props.Collect
