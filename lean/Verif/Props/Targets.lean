import Verif.Model.Targets
import Mathlib.Tactic.Linarith
import Mathlib.Tactic.Ring
import Mathlib.Tactic.FieldSimp
import Mathlib.Tactic.NormNum
import Mathlib.Algebra.Order.Ring.Rat
import Mathlib.Algebra.Order.Field.Rat

/-!
# Calibration targets (C58, C59, C90)
-/

namespace Props.Targets
set_option linter.unusedSectionVars false

open Py Model

variable {N K D : Type} [DecidableEq N] [Field K] [LinearOrder K] [IsStrictOrderedRing K]

/-! ### C58: reading a dictionary of targets -/

/-- The loop, started from an accumulator whose keys do not occur in the source. -/
theorem readLoop_ok (ops : DistOps D K) (parse : String → Result D) (error : XR K) :
    ∀ (src : Dict N (TargetSrc N K D)) (acc res : Dict N (Target N K D)),
      (acc.keys ++ src.keys).Nodup →
      (src.foldlM (fun parsed kv => do
        let pt ← readTarget ops parse error kv.1 kv.2
        return parsed.set kv.1 pt) acc : Result _) = .ok res →
      ∃ new : Dict N (Target N K D), res = acc ++ new ∧
        List.Forall₂ (fun kv kt => kt.1 = kv.1 ∧ readTarget ops parse error kv.1 kv.2 = .ok kt.2) src new := by
  intro src
  induction src with
  | nil =>
    intro acc res _ h
    have h' : acc = res := by simpa [pure, Except.pure] using h
    exact ⟨[], by simp [h'], .nil⟩
  | cons kv src ih =>
    intro acc res hn h
    obtain ⟨k, v⟩ := kv
    rw [List.foldlM_cons] at h
    cases hr : readTarget ops parse error k v with
    | error e =>
      simp [hr, bind, Except.bind] at h
    | ok t =>
      simp only [hr, bind, Except.bind, pure, Except.pure] at h
      have hk : k ∉ acc.keys := by
        intro hk
        rw [List.nodup_append] at hn
        exact hn.2.2 k hk k (by simp) rfl
      have hset : acc.set k t = acc ++ [(k, t)] := by
        clear h hn ih
        induction acc with
        | nil => rfl
        | cons p acc ih =>
          obtain ⟨k', t'⟩ := p
          simp only [Dict.keys_cons, List.mem_cons, not_or] at hk
          have hne : ¬ k' = k := fun e => hk.1 e.symm
          simp [Dict.set, hne, ih hk.2]
      rw [hset] at h
      have hn' : ((acc ++ [(k, t)] : Dict N _).keys ++ Dict.keys src).Nodup := by
        simpa [Dict.keys] using hn
      obtain ⟨new, rfl, hf⟩ := ih _ _ hn' h
      exact ⟨(k, t) :: new, by simp, .cons ⟨rfl, hr⟩ hf⟩

theorem forall₂_get {R : N → TargetSrc N K D → Target N K D → Prop} :
    ∀ {src : Dict N (TargetSrc N K D)} {new : Dict N (Target N K D)},
      List.Forall₂ (fun kv kt => kt.1 = kv.1 ∧ R kv.1 kv.2 kt.2) src new →
      new.keys = src.keys ∧ ∀ k v, src.get? k = some v → ∃ t, new.get? k = some t ∧ R k v t := by
  intro src new h
  induction h with
  | nil => exact ⟨rfl, by simp⟩
  | @cons kv kt src new h _ ih =>
    obtain ⟨k, v⟩ := kv
    obtain ⟨k', t⟩ := kt
    obtain ⟨h1, h2⟩ := h
    simp only at h1 h2
    subst h1
    refine ⟨by simp [ih.1], ?_⟩
    intro x w hw
    rw [Dict.get?_cons] at hw
    rw [Dict.get?_cons]
    split at hw
    · rename_i e
      subst e
      cases hw
      simp [h2]
    · rename_i e
      simp only [e, if_false]
      exact ih.2 x w hw

/-- C58 (the part that holds): when `read_targets` succeeds the result has exactly the keys of the source in
the same order; a number becomes an error target with the default error; a dictionary must have `m`, becomes a
range target when it has both `l` and `u` (and then `l < m < u`) and an error target otherwise, with its own
`error` if it has one; a string becomes the distribution it denotes; a target object is kept; nothing else is
read. -/
theorem C58_partial (ops : DistOps D K) (parse : String → Result D) (error : XR K)
    (src : Dict N (TargetSrc N K D)) (hwf : src.WF) (res : Dict N (Target N K D))
    (h : readTargets ops parse error src = .ok res) :
    res.keys = src.keys ∧ ∀ k v, src.get? k = some v → ∃ t, res.get? k = some t ∧
      (∀ x, v = .num x → t = .mkError k x error) ∧
      (∀ d, v = .dict d → ∃ m, d.get? "m" = some m ∧
        (∀ l u, d.get? "l" = some l → d.get? "u" = some u →
          XR.lt l m = true ∧ XR.lt m u = true ∧ t = .mkRange k m l u) ∧
        (d.get? "l" = none ∨ d.get? "u" = none → t = .mkError k m ((d.get? "error").getD error))) ∧
      (∀ s, v = .str s → ∃ p, parse s = .ok p ∧ t = .mkDist ops k p) ∧
      (∀ t', v = .data t' → t = t') ∧ v ≠ .other := by
  obtain ⟨new, rfl, hf⟩ := readLoop_ok ops parse error src [] res (by simpa [Dict.WF] using hwf) h
  obtain ⟨hk, hg⟩ := forall₂_get (R := fun k v t => readTarget ops parse error k v = .ok t) hf
  refine ⟨by simpa using hk, ?_⟩
  intro k v hv
  obtain ⟨t, ht, hr⟩ := hg k v hv
  refine ⟨t, by simpa using ht, ?_⟩
  cases v with
  | num x =>
    simp only [readTarget, Except.ok.injEq] at hr
    subst hr
    simp
  | dict d =>
    simp only [readTarget] at hr
    cases hm : d.get? "m" with
    | none => simp [hm] at hr
    | some m =>
      simp only [hm] at hr
      refine ⟨by simp, ?_, by simp, by simp, by simp⟩
      rintro d' hd'
      cases hd'
      refine ⟨m, hm, ?_, ?_⟩
      · intro l u hl hu
        simp only [hl, hu] at hr
        split at hr
        · rename_i hc
          rw [Bool.and_eq_true] at hc
          cases hr
          exact ⟨hc.1, hc.2, rfl⟩
        · cases hr
      · intro hlu
        cases hl : d.get? "l" with
        | none =>
          simp only [hl] at hr
          cases he : d.get? "error" with
          | none => simp only [he] at hr; cases hr; simp
          | some e => simp only [he] at hr; cases hr; simp
        | some l =>
          have hu : d.get? "u" = none := by
            rcases hlu with h | h
            · rw [hl] at h; cases h
            · exact h
          simp only [hl, hu] at hr
          cases he : d.get? "error" with
          | none => simp only [he] at hr; cases hr; simp
          | some e => simp only [he] at hr; cases hr; simp
  | str s =>
    simp only [readTarget] at hr
    cases hp : parse s with
    | error e => simp [hp, bind, Except.bind] at hr
    | ok p =>
      simp only [hp, bind, Except.bind, pure, Except.pure, Except.ok.injEq] at hr
      subst hr
      refine ⟨by simp, by simp, ?_, by simp, by simp⟩
      rintro s' hs'
      cases hs'
      exact ⟨p, hp, rfl⟩
  | data t' =>
    simp only [readTarget, Except.ok.injEq] at hr
    subst hr
    simp
  | other => simp [readTarget] at hr

/-- The values `read_targets` is documented for: numbers, `{m, l, u}` with `l < m < u`, `{m}` or `{m, error}`, and
strings. -/
def Documented : TargetSrc N K D → Prop
  | .num _ => True
  | .str _ => True
  | .dict d =>
    (∃ m l u, d.get? "m" = some m ∧ d.get? "l" = some l ∧ d.get? "u" = some u ∧
      XR.lt l m = true ∧ XR.lt m u = true) ∨
    ((∃ m, d.get? "m" = some m) ∧ ∀ k ∈ d.keys, k = "m" ∨ k = "error")
  | _ => False

/-- C58, the accepting side: a dictionary of documented values whose strings are distributions is read. -/
theorem C58_accepts (ops : DistOps D K) (parse : String → Result D) (error : XR K)
    (src : Dict N (TargetSrc N K D)) (hdoc : ∀ p ∈ src, Documented p.2)
    (hparse : ∀ k s, (k, TargetSrc.str s) ∈ src → ∃ d, parse s = .ok d) :
    ∃ res, readTargets ops parse error src = .ok res := by
  unfold readTargets
  generalize ([] : Dict N (Target N K D)) = acc
  induction src generalizing acc with
  | nil => exact ⟨acc, rfl⟩
  | cons kv src ih =>
    obtain ⟨k, v⟩ := kv
    have hr : ∃ t, readTarget ops parse error k v = .ok t := by
      have hd := hdoc (k, v) (by simp)
      cases v with
      | num x => exact ⟨_, rfl⟩
      | str s =>
        obtain ⟨d, hp⟩ := hparse k s (by simp)
        exact ⟨.mkDist ops k d, by simp [readTarget, hp, bind, Except.bind, pure, Except.pure]⟩
      | dict d =>
        rcases hd with ⟨m, l, u, hm, hl, hu, h1, h2⟩ | ⟨⟨m, hm⟩, hk⟩
        · exact ⟨.mkRange k m l u, by simp [readTarget, hm, hl, hu, h1, h2]⟩
        · have hl : d.get? "l" = none := by
            rw [Dict.get?_eq_none_iff]
            intro hc
            rcases hk _ hc with h | h <;> exact absurd h (by decide)
          refine ⟨.mkError k m ((d.get? "error").getD error), ?_⟩
          simp only [readTarget, hm, hl]
          cases d.get? "error" <;> rfl
      | data t => exact hd.elim
      | other => exact hd.elim
    obtain ⟨t, ht⟩ := hr
    rw [List.foldlM_cons]
    simp only [ht, bind, Except.bind, pure, Except.pure]
    exact ih (fun p hp => hdoc p (by simp [hp])) (fun k s hs => hparse k s (by simp [hs])) _

/-- C58, the refusing side: when reading fails, it is because of a value that is no target, a dictionary without `m`
(both ValueError), a range that does not lie around `m` (AssertionError), or a string that is no distribution. -/
theorem C58_refuses (ops : DistOps D K) (parse : String → Result D) (error : XR K)
    (src : Dict N (TargetSrc N K D)) (e : Err) (h : readTargets ops parse error src = .error e) :
    ∃ k v, (k, v) ∈ src ∧
      ((v = .other ∧ e = .ValueError) ∨ (∃ d, v = .dict d ∧ d.get? "m" = none ∧ e = .ValueError) ∨
       (∃ d m l u, v = .dict d ∧ d.get? "m" = some m ∧ d.get? "l" = some l ∧ d.get? "u" = some u ∧
         ¬ (XR.lt l m = true ∧ XR.lt m u = true) ∧ e = .AssertionError) ∨
       (∃ s, v = .str s ∧ parse s = .error e)) := by
  unfold readTargets at h
  generalize ([] : Dict N (Target N K D)) = acc at h
  induction src generalizing acc with
  | nil => simp [pure, Except.pure] at h
  | cons kv src ih =>
    obtain ⟨k, v⟩ := kv
    rw [List.foldlM_cons] at h
    cases hr : readTarget ops parse error k v with
    | ok t =>
      simp only [hr, bind, Except.bind, pure, Except.pure] at h
      obtain ⟨k', v', hm, hc⟩ := ih _ h
      exact ⟨k', v', by simp [hm], hc⟩
    | error e' =>
      simp only [hr, bind, Except.bind, Except.error.injEq] at h
      subst h
      refine ⟨k, v, by simp, ?_⟩
      cases v with
      | num x => simp [readTarget] at hr
      | data t => simp [readTarget] at hr
      | other =>
        simp only [readTarget, Except.error.injEq] at hr
        exact .inl ⟨rfl, hr.symm⟩
      | str s =>
        simp only [readTarget] at hr
        cases hp : parse s with
        | ok p => simp [hp, bind, Except.bind, pure, Except.pure] at hr
        | error e'' =>
          simp only [hp, bind, Except.bind, Except.error.injEq] at hr
          exact .inr (.inr (.inr ⟨s, rfl, by rw [hp, hr]⟩))
      | dict d =>
        simp only [readTarget] at hr
        cases hm : d.get? "m" with
        | none =>
          simp only [hm, Except.error.injEq] at hr
          exact .inr (.inl ⟨d, rfl, hm, hr.symm⟩)
        | some m =>
          simp only [hm] at hr
          split at hr
          · rename_i l u hl hu
            split at hr
            · cases hr
            · rename_i hc
              rw [Bool.and_eq_true] at hc
              simp only [Except.error.injEq] at hr
              exact .inr (.inr (.inl ⟨d, m, l, u, rfl, hm, hl, hu, hc, hr.symm⟩))
          · split at hr <;> cases hr

/-! Concrete distributions for the examples: a string denotes a distribution when it is `"d"`. -/

def ops0 : DistOps Unit ℚ := ⟨fun _ => .fin 1, fun _ => .fin 1, fun _ x => -(x - .fin 1).sq⟩
def parse0 (s : String) : Result Unit := if s = "d" then .ok () else .error .SyntaxError

/-- A source with one value of each documented form. -/
def src58 : Dict String (TargetSrc String ℚ Unit) :=
  [("a", .num (.fin 2)), ("b", .dict [("m", .fin 2), ("l", .fin 1), ("u", .fin 4)]),
   ("c", .dict [("m", .fin 2), ("error", .fin (1 / 2))]), ("d", .str "d")]

def res58 : Dict String (Target String ℚ Unit) :=
  [("a", .pointError "a" (.fin 2) (.fin (1 / 10)) (.fin (5 / 98))),
   ("b", .pointRange "b" (.fin 2) (.fin 1) (.fin 4) (.fin 3)),
   ("c", .pointError "c" (.fin 2) (.fin (1 / 2)) (.fin (25 / 98))),
   ("d", .dist "d" (.fin 1) ())]

theorem read58 : readTargets ops0 parse0 (.fin (1 / 10)) src58 = .ok res58 := by decide +kernel

example : res58.keys = src58.keys :=
  (C58_partial ops0 parse0 (.fin (1 / 10)) src58 (by unfold Dict.WF; decide) res58 read58).1
example : ∃ t, res58.get? "b" = some t ∧ t = .mkRange "b" (.fin 2) (.fin 1) (.fin 4) := by
  obtain ⟨t, ht, -, hd, -⟩ := (C58_partial ops0 parse0 (.fin (1 / 10)) src58 (by unfold Dict.WF; decide) res58 read58).2 "b" _ rfl
  obtain ⟨m, hm, hr, -⟩ := hd _ rfl
  cases hm
  exact ⟨t, ht, (hr _ _ rfl rfl).2.2⟩

theorem documented58 : ∀ p ∈ src58, Documented p.2 := by
  intro p hp
  simp only [src58, List.mem_cons, List.not_mem_nil, or_false] at hp
  rcases hp with rfl | rfl | rfl | rfl
  · trivial
  · exact .inl ⟨.fin 2, .fin 1, .fin 4, rfl, rfl, rfl, by decide +kernel, by decide +kernel⟩
  · exact .inr ⟨⟨_, rfl⟩, by decide⟩
  · trivial

example : ∃ res, readTargets ops0 parse0 (.fin (1 / 10)) src58 = .ok res :=
  C58_accepts ops0 parse0 (.fin (1 / 10)) src58 documented58 (by
    intro k s hs
    simp [src58] at hs
    obtain ⟨-, rfl⟩ := hs
    exact ⟨(), rfl⟩)

example : readTargets ops0 parse0 (.fin (1 / 10))
    [("a", .num (.fin 2)), ("b", .dict [("m", .fin 5), ("l", .fin 1), ("u", .fin 4)])] = .error .AssertionError := by
  decide +kernel

/-- C58 fails: a dictionary with `m` and only one end of the range is read as an error target (the end is
ignored), so not every undocumented value is refused. -/
theorem C58_refuted : ¬ ∀ (src : Dict String (TargetSrc String ℚ Unit)) (res : Dict String (Target String ℚ Unit)),
    src.WF → readTargets ops0 parse0 (.fin (1 / 10)) src = .ok res →
      ∀ k v, src.get? k = some v → Documented v := by
  intro h
  have := h [("a", .dict [("m", .fin 2), ("l", .fin 1)])]
    [("a", .pointError "a" (.fin 2) (.fin (1 / 10)) (.fin (5 / 98)))] (by unfold Dict.WF; decide) (by decide +kernel) "a" _ rfl
  rcases this with ⟨m, l, u, -, -, hu, -⟩ | ⟨-, hk⟩
  · cases hu
  · rcases hk "l" (by decide) with h | h <;> exact absurd h (by decide)

/-! ### C59: distances of point targets -/

/-- C59, error targets (the part that holds): when error and value are not zero and have the same sign, every
finite simulation has a finite distance of at least 0, and it is 0 exactly at the target. -/
theorem C59_error_partial (ops : DistOps D K) (n : N) (v e : K) (hev : 0 < e * v)
    (sim : Dict N (XR K)) (s : K) (hs : sim.get? n = some (.fin s)) :
    ∃ d : K, Target.distance ops sim (.mkError n (.fin v) (.fin e)) = .ok (.fin d) ∧ 0 ≤ d ∧ (d = 0 ↔ s = v) := by
  have hstd : 0 < e * v / 2 / z95 := by
    unfold z95
    positivity
  have e1 : (XR.fin e * XR.fin v / XR.fin 2 / XR.fin z95 : XR K) = .fin (e * v / 2 / z95) := by
    rw [XR.fin_mul_fin, XR.fin_div_fin_of_ne _ two_ne_zero, XR.fin_div_fin_of_ne]
    unfold z95
    positivity
  refine ⟨(s - v) * (s - v) / (e * v / 2 / z95), ?_, div_nonneg (mul_self_nonneg _) hstd.le, ?_⟩
  · simp only [Target.distance, Target.mkError, hs, e1, XR.fin_sub_fin, XR.sq_fin,
      XR.fin_div_fin_of_ne _ hstd.ne']
  · rw [div_eq_zero_iff, mul_self_eq_zero, sub_eq_zero]
    exact ⟨fun h => h.resolve_right hstd.ne', .inl⟩

/-- C59, range targets: every finite simulation has a finite distance of at least 0, and it is 0 exactly at the
target. -/
theorem C59_range (ops : DistOps D K) (n : N) (m l u : K) (hlu : l < u)
    (sim : Dict N (XR K)) (s : K) (hs : sim.get? n = some (.fin s)) :
    ∃ d : K, Target.distance ops sim (.mkRange n (.fin m) (.fin l) (.fin u)) = .ok (.fin d) ∧ 0 ≤ d ∧
      (d = 0 ↔ s = m) := by
  have hr : 0 < u - l := by linarith
  have hz : (0 : K) < 2 * z95 := by unfold z95; positivity
  refine ⟨(s - m) * (s - m) / (u - l) * (2 * z95), ?_,
    mul_nonneg (div_nonneg (mul_self_nonneg _) hr.le) hz.le, ?_⟩
  · simp only [Target.distance, Target.mkRange, hs, XR.fin_sub_fin, XR.sq_fin,
      XR.fin_div_fin_of_ne _ hr.ne', XR.fin_mul_fin]
  · rw [mul_eq_zero, div_eq_zero_iff, mul_self_eq_zero, sub_eq_zero]
    constructor
    · rintro ((h | h) | h)
      · exact h
      · exact absurd h hr.ne'
      · exact absurd h hz.ne'
    · exact fun h => .inl (.inl h)

/-- C59, infinite simulations: the distance to an error or range target is `+inf`, so such runs are never
accepted. -/
theorem C59_infinite (ops : DistOps D K) (n : N) (v e l u : K) (hev : 0 < e * v) (hlu : l < u)
    (sim : Dict N (XR K)) (s : XR K) (hs : sim.get? n = some s) (hinf : s = .pinf ∨ s = .ninf) :
    Target.distance ops sim (.mkError n (.fin v) (.fin e)) = .ok .pinf ∧
      Target.distance ops sim (.mkRange n (.fin v) (.fin l) (.fin u)) = .ok .pinf := by
  have hstd : 0 < e * v / 2 / z95 := by
    unfold z95
    positivity
  have e1 : (XR.fin e * XR.fin v / XR.fin 2 / XR.fin z95 : XR K) = .fin (e * v / 2 / z95) := by
    rw [XR.fin_mul_fin, XR.fin_div_fin_of_ne _ two_ne_zero, XR.fin_div_fin_of_ne]
    unfold z95
    positivity
  have hr : 0 < u - l := by linarith
  have hz : (0 : K) < 2 * z95 := by unfold z95; positivity
  have hsq : (s - XR.fin v).sq = .pinf := by
    rcases hinf with rfl | rfl
    · rfl
    · rfl
  constructor
  · simp only [Target.distance, Target.mkError, hs, e1, hsq, XR.pinf_div_fin, if_neg (not_lt.2 hstd.le)]
  · simp only [Target.distance, Target.mkRange, hs, XR.fin_sub_fin, hsq, XR.pinf_div_fin,
      if_neg (not_lt.2 hr.le)]
    show Except.ok (XR.scaleInf (.fin (2 * z95))) = _
    simp only [XR.scaleInf, if_pos hz]

example : ∃ d : ℚ, Target.distance ops0 [("x", .fin 5)] (.mkError "x" (.fin 4) (.fin (1 / 10))) = .ok (.fin d) ∧
    0 ≤ d ∧ (d = 0 ↔ (5 : ℚ) = 4) :=
  C59_error_partial ops0 "x" 4 (1 / 10) (by norm_num) _ 5 rfl
example : ∃ d : ℚ, Target.distance ops0 [("x", .fin 5)] (.mkRange "x" (.fin 4) (.fin 1) (.fin 6)) = .ok (.fin d) ∧
    0 ≤ d ∧ (d = 0 ↔ (5 : ℚ) = 4) :=
  C59_range ops0 "x" 4 1 6 (by norm_num) _ 5 rfl
example : Target.distance ops0 [("x", .ninf)] (.mkError "x" (.fin 4) (.fin (1 / 10))) = .ok .pinf :=
  (C59_infinite ops0 "x" (4 : ℚ) (1 / 10) 0 1 (by norm_num) (by norm_num) [("x", .ninf)] .ninf rfl (.inr rfl)).1

/-- C59, distribution targets: the distance is minus the log density of the simulated value, so the likelier of two
simulations is the nearer one, and an impossible one is infinitely far. -/
theorem C59_dist (ops : DistOps D K) (n : N) (d : D) (sim sim' : Dict N (XR K)) (s s' : XR K)
    (hs : sim.get? n = some s) (hs' : sim'.get? n = some s') :
    ∃ x x', Target.distance ops sim (.mkDist ops n d) = .ok x ∧ Target.distance ops sim' (.mkDist ops n d) = .ok x' ∧
      XR.lt x x' = XR.lt (ops.logp d s') (ops.logp d s) ∧ (x = .pinf ↔ ops.logp d s = .ninf) ∧
      (x.isNan = (ops.logp d s).isNan) := by
  refine ⟨-(ops.logp d s), -(ops.logp d s'), ?_, ?_, ?_, ?_, ?_⟩
  · simp [Target.distance, Target.mkDist, Target.likelihood, hs, bind, Except.bind, pure, Except.pure]
  · simp [Target.distance, Target.mkDist, Target.likelihood, hs', bind, Except.bind, pure, Except.pure]
  · cases ops.logp d s <;> cases ops.logp d s' <;> simp [Neg.neg, XR.neg, XR.lt]
  · cases ops.logp d s <;> simp [Neg.neg, XR.neg]
  · cases ops.logp d s <;> simp [Neg.neg, XR.neg, XR.isNan]

/-- The density of the example is greatest at 1. -/
example : Target.distance ops0 [("x", .fin 2)] (.mkDist ops0 "x" ()) = .ok (.fin 1) ∧
    Target.distance ops0 [("x", .fin 4)] (.mkDist ops0 "x" ()) = .ok (.fin 9) := by decide +kernel

/-- A simulation without the output of the target has no distance, whatever the target. -/
theorem C59_missing (ops : DistOps D K) (n : N) (t : Target N K D) (hn : t.name = n) (sim : Dict N (XR K))
    (hs : n ∉ sim.keys) : Target.distance ops sim t = .error .KeyError := by
  have h := (Dict.get?_eq_none_iff sim n).2 hs
  subst hn
  cases t <;> simp [Target.name] at h <;>
    simp [Target.distance, Target.likelihood, h, bind, Except.bind]

example : Target.distance ops0 [("y", .fin 2)] (.mkError "x" (.fin 4) (.fin (1 / 10))) = .error .KeyError := by
  decide +kernel

/-- C59 fails for error targets: with a negative value the distance of every wrong simulation is negative, so
a simulation is the better the further away it is. -/
theorem C59_refuted : ¬ ∀ (v e s d : ℚ), 0 < e →
    Target.distance ops0 [("x", .fin s)] (.mkError "x" (.fin v) (.fin e)) = .ok (.fin d) → 0 ≤ d := by
  intro h
  have := h (-1) (1 / 10) 0 (-196 / 5) (by norm_num) (by decide +kernel)
  norm_num at this

/-- C59 fails for a target value of zero: the distance at the target is NaN, and `+inf` everywhere else. -/
theorem C59_zero_refuted : ∀ (e s : ℚ),
    Target.distance ops0 [("x", .fin s)] (.mkError "x" (.fin 0) (.fin e)) =
      .ok (if s = 0 then .nan else .pinf) := by
  intro e s
  have e1 : (XR.fin e * XR.fin 0 / XR.fin 2 / XR.fin z95 : XR ℚ) = .fin 0 := by
    rw [XR.fin_mul_fin, mul_zero, XR.fin_div_fin_of_ne _ two_ne_zero, zero_div, XR.fin_div_fin_of_ne, zero_div]
    norm_num [z95]
  simp only [Target.distance, Target.mkError, Dict.get?_cons, if_true, e1, XR.fin_sub_fin, sub_zero, XR.sq_fin,
    XR.fin_div_fin, XR.scaleInf]
  by_cases hs : s = 0
  · simp [hs]
  · have hp : 0 < s * s := lt_of_le_of_ne (mul_self_nonneg s) (Ne.symm (mul_ne_zero hs hs))
    simp [hs, hp]

/-! ### C90: error targets and range targets -/

/-- C90 (the part that holds): an error target with error `e` measures distance and observation variance exactly
like the range target from `m - e*m/2` to `m + e*m/2`. -/
theorem C90_partial (ops : DistOps D K) (n : N) (m e : K) (hem : e * m ≠ 0) (sim : Dict N (XR K)) (s : K)
    (hs : sim.get? n = some (.fin s)) :
    Target.distance ops sim (.mkError n (.fin m) (.fin e)) =
        Target.distance ops sim (.mkRange n (.fin m) (.fin (m - e * m / 2)) (.fin (m + e * m / 2))) ∧
      Target.varObs ops (.mkError n (.fin m) (.fin e) : Target N K D) =
        Target.varObs ops (.mkRange n (.fin m) (.fin (m - e * m / 2)) (.fin (m + e * m / 2))) := by
  have hz : (z95 : K) ≠ 0 := by unfold z95; positivity
  have e1 : (XR.fin e * XR.fin m / XR.fin 2 / XR.fin z95 : XR K) = .fin (e * m / 2 / z95) := by
    rw [XR.fin_mul_fin, XR.fin_div_fin_of_ne _ two_ne_zero, XR.fin_div_fin_of_ne _ hz]
  have e2 : (XR.fin (m + e * m / 2) - XR.fin (m - e * m / 2) : XR K) = .fin (e * m) := by
    rw [XR.fin_sub_fin]
    congr 1; ring
  have hstd : e * m / 2 / z95 ≠ 0 := div_ne_zero (div_ne_zero hem two_ne_zero) hz
  constructor
  · simp only [Target.distance, Target.mkError, Target.mkRange, hs, e1, e2]
    simp only [XR.fin_sub_fin, XR.sq_fin, XR.fin_div_fin_of_ne _ hstd, XR.fin_div_fin_of_ne _ hem,
      XR.fin_mul_fin]
    congr 2
    generalize (z95 : K) = z at hz
    generalize e * m = w at hem
    field_simp
  · simp only [Target.varObs, Target.mkError, Target.mkRange, e1, e2,
      XR.fin_div_fin_of_ne _ (two_ne_zero : (2 : K) ≠ 0), XR.fin_div_fin_of_ne _ hz]

example : Target.distance ops0 [("x", .fin 5)] (.mkError "x" (.fin 4) (.fin (1 / 10))) =
    Target.distance ops0 [("x", .fin 5)] (.mkRange "x" (.fin 4) (.fin (19 / 5)) (.fin (21 / 5))) := by
  have := (C90_partial ops0 "x" (4 : ℚ) (1 / 10) (by norm_num) [("x", .fin 5)] 5 rfl).1
  norm_num at this
  norm_num
  exact this

/-- C90 fails as the string form of the target announces it: "plus or minus e" is not the range from `m - e*m` to
`m + e*m`, it is half as wide. -/
theorem C90_refuted : ¬ ∀ (m e s : ℚ), 0 < e * m →
    Target.distance ops0 [("x", .fin s)] (.mkError "x" (.fin m) (.fin e)) =
      Target.distance ops0 [("x", .fin s)] (.mkRange "x" (.fin m) (.fin (m - e * m)) (.fin (m + e * m))) := by
  intro h
  exact absurd (h 4 (1 / 10) 5 (by norm_num)) (by decide +kernel)

end Props.Targets
