import Verif.Model.Spread
import Verif.Props.FitBase
import Mathlib.Algebra.Order.BigOperators.Group.List
import Mathlib.Algebra.BigOperators.Ring.List

/-!
# Step sizes and proposals of the sequential Monte Carlo algorithm (C96, C97)
-/

namespace Props.Spread
set_option linter.unusedSectionVars false

open Py Spec Relation Model Model.Digraph Model.BN Model.Spread Props.Sampling Props.FitBase

variable {N V C O S K D : Type} [DecidableEq N] [Field K] [LinearOrder K] [IsStrictOrderedRing K]

/-- The weighted mean and the weighted variance. -/
def IsMean (vw : List (K × K)) (m : K) : Prop := (vw.map (fun x => x.1 * x.2)).sum = m
/-- The weighted variance about `m`. -/
def IsVar (vw : List (K × K)) (m v : K) : Prop := (vw.map (fun x => (x.1 - m) ^ 2 * x.2)).sum = v

/-- Some parameter values of positive weight differ. -/
def Varied (vw : List (K × K)) : Prop := ∃ x ∈ vw, ∃ y ∈ vw, 0 < x.2 ∧ 0 < y.2 ∧ x.1 ≠ y.1

theorem zipWith_eq_map_zip (f : K → K → K) (vs ws : List K) :
    List.zipWith f vs ws = (vs.zip ws).map (fun x => f x.1 x.2) := by
  rw [List.zip, List.map_zipWith]

theorem average_ok {vs ws : List K} (hs : ws.sum = 1) {m : K} (h : average vs ws = .ok m) :
    vs.length = ws.length ∧ IsMean (vs.zip ws) m := by
  unfold average at h
  split at h
  · cases h
  · rename_i hl
    rw [hs, if_neg one_ne_zero, div_one, Except.ok.injEq, zipWith_eq_map_zip] at h
    exact ⟨by simpa using hl, h⟩

theorem variance_ok {ops : NumOps V K} {theta : List (Dict N V)} {ws : List K} (hs : ws.sum = 1) {k : N} {var : K}
    (h : variance ops theta ws k = .ok var) :
    ∃ vs m, List.Forall₂ (fun p v => ∃ x, p.get? k = some x ∧ ops.toNum x = .ok v) theta vs ∧
      vs.length = ws.length ∧ IsMean (vs.zip ws) m ∧ IsVar (vs.zip ws) m var := by
  unfold variance at h
  simp only [bind, Except.bind] at h
  split at h
  · cases h
  · rename_i vs hvs
    split at h
    · cases h
    · rename_i m hm
      obtain ⟨hl, hmean⟩ := average_ok hs hm
      obtain ⟨-, hvar⟩ := average_ok hs h
      refine ⟨vs, m, ?_, hl, hmean, ?_⟩
      · clear h hm hl hmean hvar
        induction theta generalizing vs with
        | nil =>
          simp [pure, Except.pure] at hvs
          subst hvs
          exact .nil
        | cons p theta ih =>
          rw [List.mapM_cons] at hvs
          cases hp : p.get? k with
          | none => simp [hp, bind, Except.bind] at hvs
          | some x =>
            cases hx : ops.toNum x with
            | error e => simp [hp, hx, bind, Except.bind] at hvs
            | ok v =>
              simp only [hp, hx, bind, Except.bind] at hvs
              split at hvs
              · cases hvs
              · rename_i vs' hvs'
                simp only [pure, Except.pure, Except.ok.injEq] at hvs
                subst hvs
                exact .cons ⟨x, hp, hx⟩ (ih vs' hvs')
      · unfold IsMean at hvar
        unfold IsVar
        rw [← hvar, List.zip_map_left, List.map_map]
        rfl

/-- The weighted variance is never negative, and positive exactly when two values of positive weight differ. -/
theorem var_pos {vw : List (K × K)} (h0 : ∀ x ∈ vw, 0 ≤ x.2) (h1 : (vw.map Prod.snd).sum = 1) {m v : K}
    (hm : IsMean vw m) (hv : IsVar vw m v) : 0 ≤ v ∧ (0 < v ↔ Varied vw) := by
  have hnn : ∀ y ∈ vw.map (fun x => (x.1 - m) ^ 2 * x.2), 0 ≤ y := by
    intro y hy
    obtain ⟨x, hx, rfl⟩ := List.mem_map.1 hy
    exact mul_nonneg (sq_nonneg _) (h0 x hx)
  have hv0 : 0 ≤ v := by
    rw [← hv]
    exact List.sum_nonneg hnn
  refine ⟨hv0, ?_, ?_⟩
  · intro hpos
    by_contra hno
    -- all values of positive weight are equal to one of them, and so is the mean
    have hex : ∃ x ∈ vw, 0 < x.2 := by
      by_contra hn
      push Not at hn
      have : (vw.map Prod.snd).sum = 0 := by
        apply List.sum_eq_zero
        intro y hy
        obtain ⟨x, hx, rfl⟩ := List.mem_map.1 hy
        exact le_antisymm (hn x hx) (h0 x hx)
      rw [this] at h1
      exact zero_ne_one h1
    obtain ⟨x0, hx0, hp0⟩ := hex
    have heq : ∀ x ∈ vw, 0 < x.2 → x.1 = x0.1 := by
      intro x hx hp
      by_contra hne
      exact hno ⟨x, hx, x0, hx0, hp, hp0, hne⟩
    have hmean : m = x0.1 := by
      rw [← hm]
      have : vw.map (fun x => x.1 * x.2) = vw.map (fun x => x0.1 * x.2) := by
        apply List.map_congr_left
        intro x hx
        rcases (h0 x hx).lt_or_eq with h | h
        · rw [heq x hx h]
        · rw [← h, mul_zero, mul_zero]
      rw [this, List.sum_map_mul_left]
      rw [h1, mul_one]
    have : v = 0 := by
      rw [← hv]
      apply List.sum_eq_zero
      intro y hy
      obtain ⟨x, hx, rfl⟩ := List.mem_map.1 hy
      rcases (h0 x hx).lt_or_eq with h | h
      · rw [heq x hx h, hmean, sub_self]
        simp
      · rw [← h, mul_zero]
    exact absurd hpos (by rw [this]; exact lt_irrefl _)
  · rintro ⟨x, hx, y, hy, hpx, hpy, hne⟩
    have key : ∀ z ∈ vw, 0 < z.2 → z.1 ≠ m → 0 < v := by
      intro z hz hpz hzm
      have h1 : 0 < (z.1 - m) ^ 2 * z.2 := mul_pos (lt_of_le_of_ne (sq_nonneg _) (Ne.symm (pow_ne_zero 2 (sub_ne_zero.2 hzm)))) hpz
      have h2 : (z.1 - m) ^ 2 * z.2 ≤ v := by
        rw [← hv]
        exact List.single_le_sum hnn _ (List.mem_map.2 ⟨z, hz, rfl⟩)
      exact lt_of_lt_of_le h1 h2
    by_cases hxm : x.1 = m
    · exact key y hy hpy (fun h => hne (hxm.trans h.symm))
    · exact key x hx hpx hxm

/-- The values of a parameter in the particles. -/
def Values (ops : NumOps V K) (theta : List (Dict N V)) (k : N) (vs : List K) : Prop :=
  List.Forall₂ (fun p v => ∃ x, p.get? k = some x ∧ ops.toNum x = .ok v) theta vs

theorem Values.unique {ops : NumOps V K} {theta : List (Dict N V)} {k : N} {vs vs' : List K}
    (h : Values ops theta k vs) (h' : Values ops theta k vs') : vs = vs' := by
  unfold Values at h h'
  induction h generalizing vs' with
  | nil => cases h'; rfl
  | cons hx _ ih =>
    cases h' with
    | cons hy h' =>
      obtain ⟨x, h1, h2⟩ := hx
      obtain ⟨y, h3, h4⟩ := hy
      rw [h1, Option.some.injEq] at h3
      subst h3
      rw [h2, Except.ok.injEq] at h4
      rw [h4, ih h']

theorem steps_ok {ops : NumOps V K} {sqrt : K → K} {theta : List (Dict N V)} {ws : List K} {ks : List N}
    {tau tau' : Dict N K} (h : steps ops sqrt theta ws ks tau = .ok tau') (k : N) :
    (k ∈ ks → ∃ var, variance ops theta ws k = .ok var ∧
      tau'.get? k = if 0 < var then some (sqrt var) else tau.get? k) ∧
    (k ∉ ks → tau'.get? k = tau.get? k) := by
  induction ks generalizing tau with
  | nil =>
    simp only [steps, Except.ok.injEq] at h
    subst h
    simp
  | cons a ks ih =>
    unfold steps at h
    simp only [bind, Except.bind] at h
    split at h
    · cases h
    · rename_i var hvar
      obtain ⟨h1, h2⟩ := ih h
      by_cases hka : k = a
      · subst hka
        refine ⟨fun _ => ⟨var, hvar, ?_⟩, fun hn => absurd (by simp) hn⟩
        by_cases hks : k ∈ ks
        · obtain ⟨var', hv', hg⟩ := h1 hks
          rw [hvar, Except.ok.injEq] at hv'
          subst hv'
          rw [hg]
          split
          · rfl
          · rfl
        · rw [h2 hks]
          split
          · rw [Dict.get?_set_self]
          · rfl
      · have hset : (if 0 < var then tau.set a (sqrt var) else tau).get? k = tau.get? k := by
          split
          · rw [Dict.get?_set_ne _ _ (by tauto)]
          · rfl
        refine ⟨fun hk => ?_, fun hk => ?_⟩
        · have hks : k ∈ ks := by simpa [hka] using hk
          obtain ⟨var', hv', hg⟩ := h1 hks
          exact ⟨var', hv', by rw [hg, hset]⟩
        · rw [h2 (fun hc => hk (by simp [hc])), hset]

/-- **C96**: `calc_weighted_std` gives a step size exactly to the parameters of the domain that differ between particles
of positive weight, and the step size is the square root of their weighted variance, which is then positive. -/
theorem C96 (env : FitEnv N V C O S K D) (m : DataModel N V C O K D) (ops : NumOps V K) (sqrt : K → K)
    (theta : List (Dict N V)) (ws : List K) (h0 : ∀ w ∈ ws, 0 ≤ w) (h1 : ws.sum = 1) (s s' : S) (tau : Dict N K)
    (h : calcWeightedStd env m ops sqrt theta ws s = (.ok tau, s')) :
    ∃ doms, m.domain env s = (.ok doms, s') ∧ ∀ k,
      (k ∈ tau.keys ↔ k ∈ doms.map Dom.name ∧ ∃ vs, Values ops theta k vs ∧ Varied (vs.zip ws)) ∧
      (∀ t, tau.get? k = some t → ∃ vs mean var, Values ops theta k vs ∧ IsMean (vs.zip ws) mean ∧
        IsVar (vs.zip ws) mean var ∧ 0 < var ∧ t = sqrt var) := by
  unfold calcWeightedStd at h
  split at h
  · cases h
  · rename_i doms s1 hd
    simp only [Prod.mk.injEq] at h
    obtain ⟨h, rfl⟩ := h
    refine ⟨doms, hd, fun k => ?_⟩
    obtain ⟨h2, h3⟩ := steps_ok h k
    by_cases hk : k ∈ doms.map Dom.name
    · obtain ⟨var, hvar, hg⟩ := h2 hk
      obtain ⟨vs, mean, hvs, hlen, hmean, hv⟩ := variance_ok h1 hvar
      have hw0 : ∀ x ∈ vs.zip ws, 0 ≤ x.2 := fun x hx => h0 _ (List.of_mem_zip hx).2
      have hw1 : ((vs.zip ws).map Prod.snd).sum = 1 := by
        rw [List.map_snd_zip (by rw [hlen])]
        exact h1
      obtain ⟨-, hpos⟩ := var_pos hw0 hw1 hmean hv
      have hmem : k ∈ tau.keys ↔ 0 < var := by
        rw [Dict.mem_keys_iff_exists, hg]
        by_cases hc : 0 < var
        · simp [hc]
        · simp [hc, Dict.get?]
      refine ⟨?_, ?_⟩
      · rw [hmem, hpos]
        constructor
        · intro hvd
          exact ⟨hk, vs, hvs, hvd⟩
        · rintro ⟨-, vs', hvs', hvd⟩
          rw [Values.unique hvs hvs']
          exact hvd
      · intro t ht
        rw [hg] at ht
        split at ht
        · rename_i hc
          rw [Option.some.injEq] at ht
          exact ⟨vs, mean, var, hvs, hmean, hv, hc, ht.symm⟩
        · simp [Dict.get?] at ht
    · have hg := h3 hk
      refine ⟨⟨fun hc => ?_, fun hc => absurd hc.1 hk⟩, fun t ht => ?_⟩
      · rw [Dict.mem_keys_iff_exists, hg] at hc
        simp [Dict.get?] at hc
      · rw [hg] at ht
        simp [Dict.get?] at ht

/-- Numbers of the toy language. -/
def exOps : NumOps Toy.TV ℚ where
  toNum := fun v => match v with
    | .num n => .ok (n : ℚ)
    | _ => .error .TypeError
  plus := fun v z => match v with
    | .num n => .ok (.num (n + z.floor))
    | _ => .error .TypeError

/-- The parameter `x` differs between the particles (the square root is left out). -/
example : (calcWeightedStd exEnv exModel exOps id [[("x", .num 1)], [("x", .num 3)], [("x", .num 9)]]
    [1 / 2, 1 / 2, 0] 5).1 = .ok [("x", 1)] := by decide +kernel

/-- It does not differ between the particles of positive weight. -/
example : (calcWeightedStd exEnv exModel exOps id [[("x", .num 3)], [("x", .num 3)], [("x", .num 9)]]
    [1 / 2, 1 / 2, 0] 5).1 = .ok [] := by decide +kernel

/-! ### C97: proposals -/

theorem sizes_ok (normal : K → S → K × S) (l : List (N × K)) (s : S) :
    List.Forall₂ (fun kv kz => kz.1 = kv.1 ∧ ∃ t, kz.2 = (normal kv.2 t).1) l (sizes normal l s).1 := by
  induction l generalizing s with
  | nil => exact .nil
  | cons a l ih => exact .cons ⟨rfl, s, rfl⟩ (ih _)

theorem mutate_ok {ops : NumOps V K} {normal : K → S → K × S} {p0 p1 : Dict N V} {tau : Dict N K} {s s' : S}
    (h : mutate ops normal p0 tau s = (.ok p1, s')) :
    List.Forall₂ (fun kv kx => kx.1 = kv.1 ∧ ∃ x t, p0.get? kv.1 = some x ∧
      ops.plus x (normal kv.2 t).1 = .ok kx.2) tau p1 := by
  unfold mutate at h
  simp only [Prod.mk.injEq] at h
  have hz := sizes_ok normal tau s
  generalize (sizes normal tau s).1 = zs at h hz
  replace h := h.1
  induction hz generalizing p1 with
  | nil =>
    simp [pure, Except.pure] at h
    subst h
    exact .nil
  | @cons a b l l' hab _ ih =>
    rw [List.mapM_cons] at h
    obtain ⟨e, t, et⟩ := hab
    cases hp : p0.get? b.1 with
    | none => simp [hp, bind, Except.bind] at h
    | some x =>
      cases hx : ops.plus x b.2 with
      | error err => simp [hp, hx, bind, Except.bind, Except.map] at h
      | ok v =>
        simp only [hp, hx, bind, Except.bind, Except.map] at h
        split at h
        · cases h
        · rename_i p1' h'
          simp only [pure, Except.pure, Except.ok.injEq] at h
          subst h
          refine .cons ⟨e, x, t, by rw [← e]; exact hp, by rw [← et]; exact hx⟩ (ih h')

/-- **C97**, what holds: a proposal has, for every parameter with a step size that is not exogenous, the parent's value
plus a draw with that step size; for every exogenous parameter the configured value; and a value for every node. -/
theorem C97_partial (env : FitEnv N V C O S K D) (m : DataModel N V C O K D) (hr : Ready m.bn) (hexo : m.exo.WF)
    (ops : NumOps V K) (normal : K → S → K × S) (p0 : Dict N V) (tau : Dict N K) (s s' : S)
    (ch : Chromosome N V K) (h : propose env m ops normal p0 tau s = (.ok ch, s')) :
    (∀ k v, m.exo.get? k = some v → ch.locus.get? k = some v) ∧
    (∀ k sd, tau.get? k = some sd → k ∉ m.exo.keys → ∃ x t v, p0.get? k = some x ∧
      ops.plus x (normal sd t).1 = .ok v ∧ ch.locus.get? k = some v) ∧
    (∀ k, k ∈ ch.locus.keys ↔ k ∈ tau.keys ∨ k ∈ m.exo.keys ∨ k ∈ m.bn.dag.nodes) := by
  unfold propose at h
  split at h
  · cases h
  · rename_i p1 s1 hm
    have hf := mutate_ok hm
    obtain ⟨h1, h2, h3, -⟩ := C77 env m hr hexo p1 s1 s' ch h
    have hkeys : p1.keys = tau.keys := by
      clear hm h h1 h2 h3
      unfold Dict.keys
      induction hf with
      | nil => rfl
      | cons hab _ ih => rw [List.map_cons, List.map_cons, ih, hab.1]
    refine ⟨h1, ?_, fun k => by rw [h3, hkeys]⟩
    intro k sd hk hne
    have hex : ∃ x t v, p0.get? k = some x ∧ ops.plus x (normal sd t).1 = .ok v ∧ p1.get? k = some v := by
      clear hm h h1 h2 h3 hkeys
      induction hf with
      | nil => simp [Dict.get?] at hk
      | @cons a b l l' hab _ ih =>
        obtain ⟨e, x, t, hx, hp⟩ := hab
        obtain ⟨a1, a2⟩ := a
        obtain ⟨b1, b2⟩ := b
        simp only at e hx hp
        subst e
        rw [Dict.get?_cons] at hk ⊢
        by_cases hc : b1 = k
        · subst hc
          simp only [if_true, Option.some.injEq] at hk ⊢
          subst hk
          exact ⟨x, t, b2, hx, hp, rfl⟩
        · rw [if_neg hc] at hk ⊢
          exact ih hk
    obtain ⟨x, t, v, hx, hp, hv⟩ := hex
    exact ⟨x, t, v, hx, hp, h2 k v hne hv⟩

/-- A source of "normal" draws. -/
def exNormal : ℚ → Int → ℚ × Int := fun sd s => (sd, s + 1)

example : Ready exModel.bn ∧ exModel.exo.WF ∧
    (propose exEnv exModel exOps exNormal exChrom.locus [("x", 2)] 5).1.map (fun c => c.locus.get? "x") =
      .ok (some (.num 5)) :=
  ⟨exReady, by unfold Dict.WF; decide, by decide +kernel⟩

/-- **C97** is false: two particles agree on `x = 3`, so it has no step size, and the proposal has another `x`, drawn
from the prior. -/
theorem C97_refuted : ∃ tau ch s, (calcWeightedStd exEnv exModel exOps id [exChrom.locus, exChrom.locus] [1 / 2, 1 / 2] 5).1 =
      .ok tau ∧ tau.get? "x" = none ∧
    propose exEnv exModel exOps exNormal exChrom.locus tau 5 = (.ok ch, s) ∧
    exChrom.locus.get? "x" = some (.num 3) ∧ ch.locus.get? "x" ≠ some (.num 3) := by
  refine ⟨[], _, _, ?_, rfl, rfl, ?_, ?_⟩
  · decide +kernel
  · decide +kernel
  · decide +kernel

end Props.Spread
