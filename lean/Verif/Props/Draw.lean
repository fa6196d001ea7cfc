import Verif.Model.Draw
import Mathlib.Data.Rat.Defs
import Mathlib.Algebra.Order.Ring.Rat
import Mathlib.Tactic.Ring
import Mathlib.Tactic.Linarith

/-!
# Drawing particles from the prior, mutating them and collecting them (C130 to C139)
-/

namespace Props.Draw

open Py Model.Draw

set_option linter.unusedSectionVars false

variable {P N K S : Type} [DecidableEq N] [Field K] [LinearOrder K]

/-- One try: a particle is drawn from the prior and its likelihood `l` found. -/
def Try (o : Objective P N K S) (s : S) (l : XR K) (p : P) (s' : S) : Prop :=
  ∃ q s1, o.samplePrior s = some (.ok q, s1) ∧
    ((o.likEvaluated q = true ∧ l = o.logLik q ∧ p = q ∧ s' = s1) ∨
      (o.likEvaluated q = false ∧ ∃ x, o.calcLikelihood q s1 = some (.ok x, s') ∧ p = o.setLik q x ∧
        l = o.logLik (o.setLik q x)))

/-- `n` tries one after another that all have an infinite likelihood. -/
inductive Failed (o : Objective P N K S) : Nat → S → S → Prop
  | none (s) : Failed o 0 s s
  | more {n s l p s1 s2} : Try o s l p s1 → (l = .pinf ∨ l = .ninf) → Failed o n s1 s2 → Failed o (n + 1) s s2

theorem isInf_iff (l : XR K) : isInf l = true ↔ (l = .pinf ∨ l = .ninf) := by
  cases l <;> simp [isInf]

theorem evaluate_ok {o : Objective P N K S} {q p : P} {l : XR K} {s s' : S}
    (h : evaluate o q s = some (.ok (l, p), s')) :
    (o.likEvaluated q = true ∧ l = o.logLik q ∧ p = q ∧ s' = s) ∨
      (o.likEvaluated q = false ∧ ∃ x, o.calcLikelihood q s = some (.ok x, s') ∧ p = o.setLik q x ∧
        l = o.logLik (o.setLik q x)) := by
  unfold evaluate at h
  cases hq : o.likEvaluated q with
  | true =>
    rw [if_pos hq] at h
    obtain ⟨h1, rfl⟩ := Run.pure_ok.1 h
    cases h1
    exact .inl ⟨rfl, rfl, rfl, rfl⟩
  | false =>
    rw [if_neg (by simp [hq])] at h
    obtain ⟨x, s1, h1, h2⟩ := Run.bind_ok.1 h
    obtain ⟨h3, rfl⟩ := Run.pure_ok.1 h2
    cases h3
    exact .inr ⟨rfl, x, h1, rfl, rfl⟩

theorem evaluate_of {o : Objective P N K S} {q p : P} {l : XR K} {s s' : S}
    (h : (o.likEvaluated q = true ∧ l = o.logLik q ∧ p = q ∧ s' = s) ∨
      (o.likEvaluated q = false ∧ ∃ x, o.calcLikelihood q s = some (.ok x, s') ∧ p = o.setLik q x ∧
        l = o.logLik (o.setLik q x))) : evaluate o q s = some (.ok (l, p), s') := by
  unfold evaluate
  rcases h with ⟨h, rfl, rfl, rfl⟩ | ⟨h, x, hx, rfl, rfl⟩
  · rw [if_pos h]
    rfl
  · rw [if_neg (by simp [h])]
    rw [Run.bind_apply, hx]
    rfl

theorem drawLoop_step (o : Objective P N K S) (left i : Nat) {s s' : S} {l : XR K} {p : P} (h : Try o s l p s') :
    drawLoop o (left + 1) i s = (if i + 1 > 20 then some (.ok (o.dead, i + 1), s')
      else if isInf l then drawLoop o left (i + 1) s' else some (.ok (p, i + 1), s')) := by
  obtain ⟨q, s1, h1, h2⟩ := h
  have h3 := evaluate_of h2
  rw [drawLoop, Run.bind_apply, h1]
  show (evaluate o q >>= _) s1 = _
  rw [Run.bind_apply, h3]
  show (if i + 1 > 20 then pure (o.dead, i + 1) else if isInf l = true then drawLoop o left (i + 1)
    else pure (p, i + 1) : Run S (P × Nat)) s' = _
  split
  · rfl
  · split
    · rfl
    · rfl

theorem drawLoop_ok {o : Objective P N K S} {left i j : Nat} {p : P} {s s' : S}
    (h : drawLoop o left i s = some (.ok (p, j), s')) (hi : i ≤ 20) :
    ∃ n s1 l q, Failed o n s s1 ∧ Try o s1 l q s' ∧ j = i + n + 1 ∧ j ≤ 21 ∧
      ((j ≤ 20 ∧ p = q ∧ l ≠ .pinf ∧ l ≠ .ninf) ∨ (j = 21 ∧ p = o.dead)) := by
  induction left generalizing i s with
  | zero => cases h
  | succ left ih =>
    have h0 := h
    rw [drawLoop] at h
    obtain ⟨q, s1, h1, h2⟩ := Run.bind_ok.1 h
    obtain ⟨⟨l, p'⟩, s2, h3, -⟩ := Run.bind_ok.1 h2
    have ht : Try o s l p' s2 := ⟨q, s1, h1, evaluate_ok h3⟩
    rw [drawLoop_step o left i ht] at h0
    by_cases hi2 : i + 1 > 20
    · rw [if_pos hi2] at h0
      cases h0
      exact ⟨0, s, l, p', .none s, ht, rfl, by omega, .inr ⟨by omega, rfl⟩⟩
    · rw [if_neg hi2] at h0
      by_cases hl : isInf l = true
      · rw [if_pos hl] at h0
        obtain ⟨n, s3, l', q', hf, ht', hj, hj2, hr⟩ := ih h0 (by omega)
        exact ⟨n + 1, s3, l', q', .more ht ((isInf_iff l).1 hl) hf, ht', by omega, hj2, hr⟩
      · rw [if_neg hl] at h0
        cases h0
        rw [isInf_iff] at hl
        exact ⟨0, s, l, p, .none s, ht, rfl, by omega,
          .inl ⟨by omega, rfl, fun e => hl (.inl e), fun e => hl (.inr e)⟩⟩

theorem drawLoop_failed {o : Objective P N K S} {n left i : Nat} {s s' : S} (h : Failed o n s s') (hi : i + n ≤ 20) :
    drawLoop o (left + n) i s = drawLoop o left (i + n) s' := by
  induction h generalizing i with
  | none s => rfl
  | @more n s l p s1 s2 ht hl _ ih =>
    rw [← Nat.add_assoc, drawLoop_step o (left + n) i ht, if_neg (by omega), if_pos ((isInf_iff l).2 hl),
      ih (by omega)]
    rw [show i + 1 + n = i + (n + 1) by omega]

/-- C130: `draw` makes between one and twenty-one evaluations, all but the last of an infinite likelihood.  The number it
returns is that of the evaluations; the particle is the last one, whose likelihood is not infinite, unless there were
twenty-one, and then it is the empty particle. -/
theorem C130_draw {o : Objective P N K S} {s s' : S} {p : P} {i : Nat} (h : draw o s = some (.ok (p, i), s')) :
    ∃ n s1 l q, i = n + 1 ∧ i ≤ 21 ∧ Failed o n s s1 ∧ Try o s1 l q s' ∧
      ((i ≤ 20 ∧ p = q ∧ l ≠ .pinf ∧ l ≠ .ninf) ∨ (i = 21 ∧ p = o.dead)) := by
  obtain ⟨n, s1, l, q, hf, ht, hj, hj2, hr⟩ := drawLoop_ok h (by omega)
  exact ⟨n, s1, l, q, by omega, hj2, hf, ht, hr⟩

/-- A particle whose likelihood is not infinite within the first twenty tries is what `draw` returns, and twenty tries
that fail with a further one of any likelihood give the empty particle: with `C130_draw`, all that `draw` does when
nothing raises. -/
theorem C130_found {o : Objective P N K S} {n : Nat} {s s1 s' : S} {l : XR K} {q : P} (hf : Failed o n s s1)
    (ht : Try o s1 l q s') :
    (n < 20 → l ≠ .pinf → l ≠ .ninf → draw o s = some (.ok (q, n + 1), s')) ∧
      (n = 20 → draw o s = some (.ok (o.dead, 21), s')) := by
  constructor
  · intro hn h1 h2
    have := drawLoop_failed (left := 20 - n + 1) (i := 0) hf (by omega)
    rw [show 20 - n + 1 + n = 21 by omega] at this
    rw [draw, this, drawLoop_step o (20 - n) (0 + n) ht, if_neg (by omega), if_neg (by
      rw [isInf_iff]
      exact fun e => e.elim h1 h2)]
    simp
  · rintro rfl
    have := drawLoop_failed (left := 1) (i := 0) hf (by omega)
    rw [draw, this, drawLoop_step o 0 (0 + 20) ht, if_pos (by omega)]

/-- Particles for the examples. -/
structure Part where
  locus : Dict String ℚ
  logPrior : XR ℚ
  logLik : XR ℚ
  deriving DecidableEq

/-- An objective for the examples: the state counts what was drawn, a particle drawn with count `c` has `a = c` and
`b = c`, the prior of `x` is `pr x.a`, and the likelihood is `li x.a`; `normal` is the deviation itself. -/
def toy (pr li : ℚ → XR ℚ) : Objective Part String ℚ Nat where
  samplePrior := fun s => some (.ok ⟨[("a", s), ("b", s)], .fin 0, .nan⟩, s + 1)
  evaluatePrior := fun p s => some (.ok { p with logPrior := pr ((p.locus.get? "a").getD 0) }, s)
  calcLikelihood := fun p s => some (.ok (li ((p.locus.get? "a").getD 0)), s)
  serve := fun l s => some (.ok ⟨l ++ ([("a", (s : ℚ)), ("b", (s : ℚ))].filter (fun kv => (l.get? kv.1).isNone)), .nan, .nan⟩, s + 1)
  logPrior := Part.logPrior
  logLik := Part.logLik
  likEvaluated := fun p => decide (p.logLik ≠ .nan)
  setLik := fun p l => { p with logLik := l }
  setPrior := fun p l => { p with logPrior := l }
  dead := ⟨[], .nan, .ninf⟩
  clone := id
  locus := Part.locus
  impulse := fun p ch => .ok ⟨p.locus.update ch, .nan, .nan⟩
  toJson := fun p => ⟨p.locus, some p.logPrior, some p.logLik⟩
  normal := fun sd s => some (.ok sd, s)

/-- A likelihood that is minus infinity below `c` and zero from `c` on. -/
def from_ (c : ℚ) (x : ℚ) : XR ℚ := if x < c then .ninf else .fin 0

example : draw (toy (fun _ => .fin 0) (from_ 3)) 0 = some (.ok (⟨[("a", 3), ("b", 3)], .fin 0, .fin 0⟩, 4), 4) := by
  decide +kernel

example : Failed (toy (fun _ => .fin 0) (from_ 1)) 1 0 1 ∧
    Try (toy (fun _ => .fin 0) (from_ 1)) 1 (.fin 0) ⟨[("a", 1), ("b", 1)], .fin 0, .fin 0⟩ 2 :=
  ⟨.more ⟨_, _, rfl, .inr ⟨by decide +kernel, .ninf, by decide +kernel, rfl, rfl⟩⟩ (.inr rfl) (.none _),
    ⟨_, _, rfl, .inr ⟨by decide +kernel, .fin 0, by decide +kernel, by decide +kernel, rfl⟩⟩⟩

/-- C131, as first stated, fails: a particle of finite likelihood found at the twenty-first try is thrown away. -/
theorem C131_refuted : ¬ ∀ (o : Objective Part String ℚ Nat) (n : Nat) (s s1 s' : Nat) (l : XR ℚ) (q : Part),
    n ≤ 20 → Failed o n s s1 → Try o s1 l q s' → l ≠ .pinf → l ≠ .ninf → draw o s = some (.ok (q, n + 1), s') := by
  intro h
  have hf : ∀ n, ∀ s : Nat, s + n ≤ 20 → Failed (toy (fun _ => .fin 0) (from_ 20)) n s (s + n) := by
    intro n
    induction n with
    | zero => exact fun s _ => .none s
    | succ n ih =>
      intro s hs
      have hc : (s : ℚ) < 20 := by exact_mod_cast (show s < 20 by omega)
      have := ih (s + 1) (by omega)
      rw [show s + 1 + n = s + (n + 1) by omega] at this
      refine .more (l := .ninf) ⟨_, _, rfl, .inr ⟨by simp [toy], .ninf, ?_, rfl, rfl⟩⟩ (.inr rfl) this
      simp [toy, Dict.get?, from_, hc]
  have ht : Try (toy (fun _ => .fin 0) (from_ 20)) 20 (.fin 0) ⟨[("a", 20), ("b", 20)], .fin 0, .fin 0⟩ 21 :=
    ⟨_, _, rfl, .inr ⟨by decide +kernel, .fin 0, by decide +kernel, by decide +kernel, rfl⟩⟩
  have h1 := h _ 20 0 20 21 _ _ le_rfl (by simpa using hf 20 0 (by omega)) ht (by simp) (by simp)
  have h2 := (C130_found (by simpa using hf 20 0 (by omega)) ht).2 rfl
  rw [h1] at h2
  revert h2
  decide +kernel

/-- C131: a particle whose likelihood is not infinite, found within twenty tries, is returned with the number of tries.
Missing for the full claim: the twenty-first try, which is made and discarded (`C131_refuted`). -/
theorem C131_partial {o : Objective P N K S} {n : Nat} {s s1 s' : S} {l : XR K} {q : P} (hn : n < 20)
    (hf : Failed o n s s1) (ht : Try o s1 l q s') (h1 : l ≠ .pinf) (h2 : l ≠ .ninf) :
    draw o s = some (.ok (q, n + 1), s') := (C130_found hf ht).1 hn h1 h2

example : (1 : Nat) < 20 ∧ draw (toy (fun _ => .fin 0) (from_ 1)) 0 =
    some (.ok (⟨[("a", 1), ("b", 1)], .fin 0, .fin 0⟩, 2), 2) := by decide +kernel

/-! ## Mutation -/

theorem mutateLoop_ok {o : Objective P N K S} {p0 : P} {scale : Dict N K} {fuel i j : Nat} {p : P} {s s' : S}
    (h : mutateLoop o p0 scale fuel i s = some (.ok (p, j), s')) (hi : i ≤ 20) :
    (i < j ∧ j ≤ 20 ∧ p = o.clone p0) ∨ (j = 21 ∧ p = o.dead) := by
  induction fuel generalizing i s with
  | zero => cases h
  | succ fuel ih =>
    rw [mutateLoop] at h
    obtain ⟨sizes, s1, h1, h2⟩ := Run.bind_ok.1 h
    cases hm : mutate o p0 sizes with
    | error e =>
      rw [hm] at h2
      by_cases he : e = .ValueError
      · subst he
        exact ih h2 hi
      · cases e <;> first | exact absurd rfl he | cases h2
    | ok q =>
      rw [hm] at h2
      obtain ⟨q1, s2, h3, h4⟩ := Run.bind_ok.1 h2
      by_cases hp : isInf (o.logPrior q1) = true
      · rw [if_pos hp] at h4
        exact ih h4 hi
      · rw [if_neg hp] at h4
        obtain ⟨⟨l, q2⟩, s3, h5, h6⟩ := Run.bind_ok.1 h4
        replace h6 : (if i + 1 > 20 then pure (o.dead, i + 1) else if isInf l = true then
          mutateLoop o p0 scale fuel (i + 1) else pure (o.clone p0, i + 1) : Run S (P × Nat)) s3 =
            some (.ok (p, j), s') := h6
        by_cases hi2 : i + 1 > 20
        · rw [if_pos hi2] at h6
          obtain ⟨h7, -⟩ := Run.pure_ok.1 h6
          cases h7
          exact .inr ⟨by omega, rfl⟩
        · rw [if_neg hi2] at h6
          by_cases hl : isInf l = true
          · rw [if_pos hl] at h6
            rcases ih h6 (by omega) with ⟨a, b, c⟩ | h
            · exact .inl ⟨by omega, b, c⟩
            · exact .inr h
          · rw [if_neg hl] at h6
            obtain ⟨h7, -⟩ := Run.pure_ok.1 h6
            cases h7
            exact .inl ⟨by omega, by omega, rfl⟩

/-- C132, as first stated, fails: what `mutate_and_draw` returns need not have been shifted, although the mutant that it
accepted was. -/
theorem C132_refuted : ¬ ∀ (o : Objective Part String ℚ Nat) (fuel : Nat) (p0 p : Part) (scale : Dict String ℚ) (i s s' : Nat),
    mutateAndDraw o fuel p0 scale s = some (.ok (p, i), s') → i ≤ 20 →
      ∃ sizes m, mutate o p0 sizes = .ok m ∧ (∃ t t', drawSizes o scale t = some (.ok sizes, t')) ∧
        o.locus p = o.locus m := by
  intro h
  obtain ⟨sizes, m, hm, ⟨t, t', hs⟩, hl⟩ := h (toy (fun _ => .fin 0) (fun _ => .fin 0)) 1 ⟨[("a", 0)], .fin 0, .fin 0⟩
    ⟨[("a", 0)], .fin 0, .fin 0⟩ [("a", 1)] 1 0 0 (by decide +kernel) (by omega)
  have : sizes = [("a", 1)] := by
    have h2 : drawSizes (toy (fun _ => .fin 0) (fun _ => .fin 0)) [("a", 1)] t = some (.ok [("a", 1)], t) := rfl
    rw [h2] at hs
    cases hs
    rfl
  subst this
  have h3 : mutate (toy (fun _ => .fin 0) (fun _ => .fin 0)) ⟨[("a", 0)], .fin 0, .fin 0⟩ [("a", 1)] =
      .ok ⟨[("a", 1)], .nan, .nan⟩ := by decide +kernel
  rw [h3] at hm
  cases hm
  revert hl
  decide +kernel

/-- C132: `mutate_and_draw` returns a copy of the particle that it was to mutate, after at most twenty evaluations, or
the empty particle after twenty-one.  Missing for the full claim: it never returns the mutant (`C132_refuted`). -/
theorem C132_partial {o : Objective P N K S} {fuel i : Nat} {p0 p : P} {scale : Dict N K} {s s' : S}
    (h : mutateAndDraw o fuel p0 scale s = some (.ok (p, i), s')) :
    (1 ≤ i ∧ i ≤ 20 ∧ p = o.clone p0) ∨ (i = 21 ∧ p = o.dead) := mutateLoop_ok h (by omega)

example : mutateAndDraw (toy (fun _ => .fin 0) (fun _ => .fin 0)) 1 ⟨[("a", 0)], .fin 0, .fin 0⟩ [("a", 1)] 0 =
    some (.ok (⟨[("a", 0)], .fin 0, .fin 0⟩, 1), 0) := by decide +kernel

example : mutateAndDraw (toy (fun _ => .fin 0) (fun _ => .ninf)) 21 ⟨[("a", 0)], .fin 0, .fin 0⟩ [("a", 1)] 0 =
    some (.ok (⟨[], .nan, .ninf⟩, 21), 0) := by decide +kernel

/-- C133, as first stated, fails: proposals of an infinite prior are not counted, and when there are only such proposals
the loop never ends. -/
theorem C133_refuted : ∃ (o : Objective Part String ℚ Nat) (p0 : Part) (scale : Dict String ℚ),
    (∀ sd s, ∃ x s', o.normal sd s = some (.ok x, s')) ∧ (∀ p s, ∃ q s', o.evaluatePrior p s = some (.ok q, s')) ∧
    (∀ p s, ∃ l s', o.calcLikelihood p s = some (.ok l, s')) ∧ (∀ p ch, ∃ q, o.impulse p ch = .ok q) ∧
    ∀ fuel s, mutateAndDraw o fuel p0 scale s = none := by
  refine ⟨toy (fun _ => .ninf) (fun _ => .fin 0), ⟨[("a", 0)], .fin 0, .fin 0⟩, [("a", 1)],
    fun sd s => ⟨_, _, rfl⟩, fun p s => ⟨_, _, rfl⟩, fun p s => ⟨_, _, rfl⟩, fun p ch => ⟨_, rfl⟩, ?_⟩
  intro fuel
  unfold mutateAndDraw
  induction fuel with
  | zero => exact fun s => rfl
  | succ fuel ih =>
    intro s
    exact ih s

/-- C133: when the normal deviates, the prior and the likelihood can always be had, no mutation raises and every mutant
has a prior that is not infinite, `mutate_and_draw` ends within twenty-one rounds.  Missing for the full claim: nothing
bounds the proposals that raise or have an infinite prior (`C133_refuted`). -/
theorem C133_partial {o : Objective P N K S} (p0 : P) (scale : Dict N K)
    (hn : ∀ sd s, ∃ x s', o.normal sd s = some (.ok x, s'))
    (hp : ∀ p s, ∃ q s', o.evaluatePrior p s = some (.ok q, s') ∧ o.logPrior q ≠ .pinf ∧ o.logPrior q ≠ .ninf)
    (hl : ∀ p s, ∃ l s', o.calcLikelihood p s = some (.ok l, s')) (hi : ∀ p ch, ∃ q, o.impulse p ch = .ok q) (s : S) :
    ∃ p i s', mutateAndDraw o 21 p0 scale s = some (.ok (p, i), s') := by
  have hs : ∀ (sc : Dict N K) (s : S), ∃ d s', drawSizes o sc s = some (.ok d, s') := by
    intro sc
    induction sc with
    | nil => exact fun s => ⟨[], s, rfl⟩
    | cons kv sc ih =>
      intro s
      obtain ⟨x, s1, h1⟩ := hn kv.2 s
      obtain ⟨d, s2, h2⟩ := ih s1
      refine ⟨(kv.1, x) :: d, s2, ?_⟩
      unfold drawSizes Run.each
      refine Run.bind_ok.2 ⟨(kv.1, x), s1, Run.bind_ok.2 ⟨x, s1, h1, rfl⟩, Run.bind_ok.2 ⟨d, s2, h2, rfl⟩⟩
  have key : ∀ fuel i s, 21 ≤ fuel + i → i ≤ 20 →
      ∃ p j s', mutateLoop o p0 scale fuel i s = some (.ok (p, j), s') := by
    intro fuel
    induction fuel with
    | zero => intro i s h1 h2; omega
    | succ fuel ih =>
      intro i s h1 h2
      obtain ⟨d, s1, hd⟩ := hs scale s
      obtain ⟨m, hm⟩ := hi (o.clone p0) ((o.locus (o.clone p0)).filterMap
        (fun kv => (Dict.get? d kv.1).map (fun x => (kv.1, kv.2 + x))))
      obtain ⟨q, s2, hq, hq1, hq2⟩ := hp m s1
      have he : ∃ l q' s3, evaluate o q s2 = some (.ok (l, q'), s3) := by
        cases hv : o.likEvaluated q with
        | true => exact ⟨_, _, _, evaluate_of (.inl ⟨hv, rfl, rfl, rfl⟩)⟩
        | false =>
          obtain ⟨x, s3, hx⟩ := hl q s2
          exact ⟨_, _, _, evaluate_of (.inr ⟨hv, x, hx, rfl, rfl⟩)⟩
      obtain ⟨l, q', s3, he⟩ := he
      have hinf : ¬ isInf (o.logPrior q) = true := by
        rw [isInf_iff]
        exact fun e => e.elim hq1 hq2
      have step : mutateLoop o p0 scale (fuel + 1) i s = (if i + 1 > 20 then pure (o.dead, i + 1) else
          if isInf l = true then mutateLoop o p0 scale fuel (i + 1) else pure (o.clone p0, i + 1) :
            Run S (P × Nat)) s3 := by
        rw [mutateLoop, Run.bind_apply, hd]
        simp only [mutate, hm]
        rw [Run.bind_apply, hq]
        simp only [if_neg hinf]
        rw [Run.bind_apply, he]
      rw [step]
      by_cases h3 : i + 1 > 20
      · rw [if_pos h3]
        exact ⟨_, _, _, rfl⟩
      · rw [if_neg h3]
        by_cases h4 : isInf l = true
        · rw [if_pos h4]
          exact ih (i + 1) s3 (by omega) (by omega)
        · rw [if_neg h4]
          exact ⟨_, _, _, rfl⟩
  exact key 21 0 s (by omega) (by omega)

example : ∃ p i s', mutateAndDraw (toy (fun _ => .fin 0) (from_ 3)) 21 ⟨[("a", 0)], .fin 0, .fin 0⟩ [("a", 1)] 5 =
    some (.ok (p, i), s') :=
  C133_partial _ _ (fun _ _ => ⟨_, _, rfl⟩) (fun _ _ => ⟨_, _, rfl, by simp [toy], by simp [toy]⟩)
    (fun _ _ => ⟨_, _, rfl⟩) (fun _ _ => ⟨_, rfl⟩) 5

/-- C133, when it does end: the rounds given beyond those it needs change nothing. -/
theorem C133_fuel_partial {o : Objective P N K S} {p0 : P} {scale : Dict N K} {fuel : Nat} {s : S} {r : Result (P × Nat) × S}
    (h : mutateAndDraw o fuel p0 scale s = some r) (more : Nat) : mutateAndDraw o (fuel + more) p0 scale s = some r := by
  unfold mutateAndDraw at h ⊢
  generalize 0 = i at h ⊢
  induction fuel generalizing i s with
  | zero => cases h
  | succ fuel ih =>
    rw [show fuel + 1 + more = fuel + more + 1 by omega]
    rw [mutateLoop, Run.bind_apply] at h ⊢
    rcases hd : drawSizes o scale s with _ | ⟨_ | d, s1⟩
    · rw [hd] at h; cases h
    · rw [hd] at h; exact h
    · rw [hd] at h
      simp only at h ⊢
      cases hm : mutate o p0 d with
      | error e =>
        rw [hm] at h
        by_cases he : e = .ValueError
        · subst he
          exact ih _ h
        · cases e <;> first | exact absurd rfl he | exact h
      | ok q =>
        rw [hm] at h
        simp only at h ⊢
        rw [Run.bind_apply] at h ⊢
        rcases hq : o.evaluatePrior q s1 with _ | ⟨_ | q1, s2⟩
        · rw [hq] at h; cases h
        · rw [hq] at h; exact h
        · rw [hq] at h
          simp only at h ⊢
          by_cases hp : isInf (o.logPrior q1) = true
          · rw [if_pos hp] at h ⊢
            exact ih _ h
          · rw [if_neg hp] at h ⊢
            rw [Run.bind_apply] at h ⊢
            rcases he : evaluate o q1 s2 with _ | ⟨_ | ⟨l, q2⟩, s3⟩
            · rw [he] at h; cases h
            · rw [he] at h; exact h
            · rw [he] at h
              simp only at h ⊢
              by_cases hi2 : i + 1 > 20
              · rw [if_pos hi2] at h ⊢; exact h
              · rw [if_neg hi2] at h ⊢
                by_cases hl : isInf l = true
                · rw [if_pos hl] at h ⊢
                  exact ih _ h
                · rw [if_neg hl] at h ⊢; exact h

example : mutateAndDraw (toy (fun _ => .fin 0) (fun _ => .fin 0)) (1 + 7) ⟨[("a", 0)], .fin 0, .fin 0⟩ [("a", 1)] 0 =
    some (.ok (⟨[("a", 0)], .fin 0, .fin 0⟩, 1), 0) := C133_fuel_partial (by decide +kernel) 7

end Props.Draw
