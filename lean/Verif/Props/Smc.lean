import Verif.Model.Smc
import Verif.Props.Abc
import Verif.Lemmas.Rand
import Mathlib.Algebra.Order.Field.Rat
import Mathlib.Data.Rat.Floor
import Mathlib.Logic.Relation
import Mathlib.Algebra.Order.BigOperators.Group.List
import Mathlib.Algebra.BigOperators.Ring.List

/-!
# ABC with sequential Monte Carlo (C62 - C66, C94, C95)
-/

namespace Props.Smc
set_option linter.unusedSectionVars false

open Py Model Model.Smc

variable {S Θ T P K : Type} [Field K] [LinearOrder K] [IsStrictOrderedRing K] [FloorSemiring K]

/-- The states that a run of the algorithm goes through. -/
inductive Reached (env : SmcEnv S Θ T P K) (set : SmcSettings K) : SmcState Θ K → Prop
  | init {fuel : Nat} {parents : Option (List P)} {s s' : S} {st : SmcState Θ K} :
      initialise env set fuel parents s = some (.ok st, s') → Reached env set st
  | round {fuel : Nat} {s s' : S} {st st' : SmcState Θ K} : Reached env set st →
      aRound env set fuel st s = some (.ok st', s') → Reached env set st'

/-- A model to try things on: the particles are numbers, the prior draws 0, 10, .. 60 in turn, a proposal halves the
particle, the distance is the number itself, and infinite from 100. -/
def exSmc : SmcEnv Nat Nat Unit Nat ℚ where
  prior := fun s => (.ok (10 * (s % 7)), s + 1)
  dist := fun x => if x < 100 then .fin x else .pinf
  flatten := fun _ s => (.ok (), s)
  rng := Lemmas.firstRand
  priorFrom := fun p s => (.ok p, s + 1)
  propose := fun _ x s => (.ok (some (x / 2)), s + 1)
  spread := fun _ _ s => (.ok (), s)

/-- Settings to try things with. -/
def exSet : SmcSettings ℚ where
  nIter := 5
  parallel := false
  alpha := 9 / 10
  pThres := 6 / 10
  maxRound := 4
  maxStay := 3
  minAcc := 1 / 10

/-- The state after initialising. -/
def exSt0 : SmcState Nat ℚ where
  wts := [.fin (1 / 5), .fin (1 / 5), .fin (1 / 5), .fin (1 / 5), .fin (1 / 5)]
  pts := [⟨0, true⟩, ⟨10, true⟩, ⟨20, true⟩, ⟨30, true⟩, ⟨40, true⟩]
  round := 0
  stay := 0
  ess := .fin 5
  acc := 1
  eps := .pinf
  epsThres := .fin 3
  evals := 5

/-- The state after one round. -/
def exSt1 : SmcState Nat ℚ where
  wts := [.fin (1 / 4), .fin (1 / 4), .fin (1 / 4), .fin (1 / 4), .fin 0]
  pts := [⟨0, true⟩, ⟨5, true⟩, ⟨10, true⟩, ⟨15, true⟩, ⟨20, true⟩]
  round := 1
  stay := 0
  ess := .fin 4
  acc := 1
  eps := .fin 36
  epsThres := .fin 3
  evals := 5

theorem exSmc_init : initialise exSmc exSet 30 none 0 = some (.ok exSt0, 5) := by decide +kernel
theorem exSmc_round : aRound exSmc exSet 30 exSt0 5 = some (.ok exSt1, 15) := by decide +kernel
theorem exSmc_reached : Reached exSmc exSet exSt1 := .round (.init exSmc_init) exSmc_round
theorem exSmc_nan : ∀ x, exSmc.dist x ≠ .nan := by
  intro x
  simp only [exSmc]
  split <;> simp

/-- The same model with NaN distances. -/
def nanSmc : SmcEnv Nat Nat Unit Nat ℚ := { exSmc with dist := fun _ => .nan }
/-- The same model with equal distances. -/
def flatSmc : SmcEnv Nat Nat Unit Nat ℚ := { exSmc with dist := fun _ => .fin 1 }
/-- The same model with proposals that add one. -/
def plusSmc : SmcEnv Nat Nat Unit Nat ℚ := { exSmc with propose := fun _ x s => (.ok (some (x + 1)), s + 1) }
/-- The same model with proposals of infinite distance. -/
def farSmc : SmcEnv Nat Nat Unit Nat ℚ := { exSmc with propose := fun _ _ s => (.ok (some 100), s + 1) }

/-! ### Weights -/

theorem sum_fin (xs : List K) : (xs.map XR.fin).sum = XR.fin xs.sum := by
  induction xs with
  | nil => rfl
  | cons a l ih => rw [List.map_cons, List.sum_cons, ih, List.sum_cons]; rfl

theorem validProbs_iff (p : List (XR K)) :
    validProbs p = true ↔ ∃ xs : List K, p = xs.map XR.fin ∧ (∀ x ∈ xs, 0 ≤ x) ∧ xs.sum = 1 := by
  unfold validProbs
  simp only [Bool.and_eq_true, List.all_eq_true, decide_eq_true_eq]
  constructor
  · rintro ⟨h1, h2⟩
    have : ∃ xs : List K, p = xs.map XR.fin := by
      clear h2
      induction p with
      | nil => exact ⟨[], rfl⟩
      | cons a l ih =>
        obtain ⟨xs, rfl⟩ := ih (fun x hx => h1 x (by simp [hx]))
        have := (h1 a (by simp)).2
        cases a with
        | fin x => exact ⟨x :: xs, rfl⟩
        | pinf => cases this
        | ninf => cases this
        | nan => cases this
    obtain ⟨xs, rfl⟩ := this
    refine ⟨xs, rfl, ?_, ?_⟩
    · intro x hx
      have := (h1 (.fin x) (List.mem_map.2 ⟨x, hx, rfl⟩)).1
      simpa using this
    · rw [sum_fin, XR.fin.injEq] at h2
      exact h2
  · rintro ⟨xs, rfl, h1, h2⟩
    refine ⟨?_, by rw [sum_fin, h2]⟩
    intro x hx
    obtain ⟨a, ha, rfl⟩ := List.mem_map.1 hx
    exact ⟨by simpa using h1 a ha, rfl⟩

/-- Normalising non-negative numbers gives a probability vector, or no positive number at all. -/
theorem normalise_cases (xs : List K) (h : ∀ x ∈ xs, 0 ≤ x) :
    (0 < xs.sum ∧ normalise (xs.map XR.fin) = (xs.map (· / xs.sum)).map XR.fin ∧
      validProbs (normalise (xs.map XR.fin)) = true) ∨
    (xs.sum = 0 ∧ ∀ w ∈ normalise (xs.map XR.fin), w = .nan) := by
  have hs : 0 ≤ xs.sum := List.sum_nonneg h
  unfold normalise
  rw [sum_fin]
  rcases hs.lt_or_eq with hs | hs
  · left
    have e : (xs.map XR.fin).map (· / XR.fin xs.sum) = (xs.map (· / xs.sum)).map XR.fin := by
      rw [List.map_map, List.map_map]
      apply List.map_congr_left
      intro x _
      simp only [Function.comp]
      rw [XR.fin_div_fin_of_ne _ hs.ne']
    refine ⟨hs, e, ?_⟩
    rw [e, validProbs_iff]
    refine ⟨_, rfl, ?_, ?_⟩
    · intro y hy
      obtain ⟨x, hx, rfl⟩ := List.mem_map.1 hy
      exact div_nonneg (h x hx) hs.le
    · have : xs.map (· / xs.sum) = xs.map (fun x => x * (xs.sum)⁻¹) := by
        apply List.map_congr_left
        intro x _
        rw [div_eq_mul_inv]
      rw [this, List.sum_map_mul_right, List.map_id', mul_inv_cancel₀ hs.ne']
  · right
    refine ⟨hs.symm, ?_⟩
    intro w hw
    rw [List.map_map] at hw
    obtain ⟨x, hx, rfl⟩ := List.mem_map.1 hw
    have hx0 : x = 0 := by
      have hle : x ≤ xs.sum := List.single_le_sum h x hx
      exact le_antisymm (hle.trans hs.symm.le) (h x hx)
    simp only [Function.comp, hx0, ← hs, XR.fin_div_fin]
    simp [XR.scaleInf]

theorem uniform_valid {n : Nat} (h : n ≠ 0) : validProbs (uniformWts n : List (XR K)) = true := by
  rw [validProbs_iff]
  refine ⟨List.replicate n (1 / (n : K)), by simp [uniformWts], ?_, ?_⟩
  · intro x hx
    rw [(List.mem_replicate.1 hx).2]
    positivity
  · rw [List.sum_replicate, nsmul_eq_mul, mul_one_div, div_self (by exact_mod_cast h)]

/-- The cut weights are numbers of the old list or zero. -/
theorem cut_fin (eps0 eps1 : XR K) (ds : List (XR K)) (xs : List K) (h : ∀ x ∈ xs, 0 ≤ x) :
    ∃ ys : List K, cutWts eps0 eps1 ds (xs.map XR.fin) = ys.map XR.fin ∧ ∀ y ∈ ys, 0 ≤ y := by
  induction ds generalizing xs with
  | nil => exact ⟨[], rfl, by simp⟩
  | cons d ds ih =>
    cases xs with
    | nil => exact ⟨[], rfl, by simp⟩
    | cons x xs =>
      obtain ⟨ys, h1, h2⟩ := ih xs (fun y hy => h y (by simp [hy]))
      have hx := h x (by simp)
      unfold cutWts at h1 ⊢
      rw [List.map_cons, List.zipWith_cons_cons, h1]
      by_cases c : XR.lt d eps0 = true ∧ ¬ XR.lt d eps1 = true
      · exact ⟨0 :: ys, by simp [c.1, c.2], by simpa using h2⟩
      · refine ⟨x :: ys, ?_, by simpa using ⟨hx, h2⟩⟩
        rw [not_and_or, not_not] at c
        rcases c with c | c <;> simp [c]

theorem indWts_eq {xs : List K} (h : ∀ x ∈ xs, 0 ≤ x) (hs : xs.sum = 1) : indWts (xs.map XR.fin) = xs.map XR.fin := by
  unfold indWts
  have e : (xs.map XR.fin).map (fun w => if XR.lt (.fin 0) w then w else .fin 0) = xs.map XR.fin := by
    rw [List.map_map]
    apply List.map_congr_left
    intro x hx
    simp only [Function.comp, XR.lt_fin, decide_eq_true_eq]
    split
    · rfl
    · rename_i hn
      rw [le_antisymm (not_lt.1 hn) (h x hx)]
  rw [e]
  unfold normalise
  rw [sum_fin, hs, List.map_map]
  apply List.map_congr_left
  intro x _
  simp only [Function.comp]
  rw [XR.fin_div_fin_of_ne _ one_ne_zero, div_one]

/-! ### What the parts of a round do -/

theorem takePts_ok (theta : List (Pt Θ)) (is : List Nat) (r : List (Pt Θ)) (h : takePts theta is = .ok r) :
    List.Forall₂ (fun i p => theta[i]? = some p) is r := by
  unfold takePts at h
  induction is generalizing r with
  | nil =>
    simp [pure, Except.pure] at h
    subst h
    exact .nil
  | cons i is ih =>
    rw [List.mapM_cons] at h
    cases hi : theta[i]? with
    | none => simp [hi, bind, Except.bind] at h
    | some p =>
      simp only [hi, bind, Except.bind] at h
      split at h
      · cases h
      · rename_i r' hr'
        simp only [pure, Except.pure, Except.ok.injEq] at h
        subst h
        exact .cons hi (ih _ hr')

theorem choice_ok {r : Rand S K} {p : List (XR K)} {n : Nat} {s s' : S} {is : List Nat}
    (h : r.choice p n s = (.ok is, s')) : validProbs p = true ∧ is = (r.pick p n s).1 := by
  unfold Rand.choice at h
  split at h
  · rename_i hv
    simp only [Prod.mk.injEq, Except.ok.injEq] at h
    exact ⟨hv, h.1.symm⟩
  · simp at h

/-- The resampling step: the same list of (copied) particles with the same weights, or particles of positive weight
with equal weights. -/
theorem resample_ok {env : SmcEnv S Θ T P K} (hh : env.rng.Honest) {set : SmcSettings K} {theta0 : List (Pt Θ)}
    {wts : List (XR K)} {thres : XR K} {s s' : S} {r : List (XR K) × List (Pt Θ)}
    (h : Smc.resample env set theta0 wts thres s = some (.ok r, s')) :
    2 < wts.countP (fun w => XR.lt (.fin 0) w) ∧
    ((r.1 = wts ∧ r.2 = theta0.map Pt.copy) ∨
     (r.1 = uniformWts set.nIter ∧ r.2.length = set.nIter ∧
      ∀ p ∈ r.2, ∃ (i : Nat) (x : Pt Θ) (w : XR K), theta0[i]? = some x ∧ p = x.copy ∧ (indWts wts)[i]? = some w ∧ XR.lt (.fin 0) w = true)) := by
  unfold Smc.resample at h
  split at h
  · exact absurd h Run.fail_ok
  · rename_i hc
    refine ⟨by omega, ?_⟩
    split at h
    · obtain ⟨is, s1, h1, h2⟩ := Run.bind_ok.1 h
      obtain ⟨th, s2, h3, h4⟩ := Run.bind_ok.1 h2
      obtain ⟨rfl, -⟩ := Run.pure_ok.1 h4
      obtain ⟨h3, -⟩ := Run.ofResult_ok.1 h3
      obtain ⟨hv, his⟩ := choice_ok (Run.lift_ok.1 h1)
      have hsz := hh.size _ set.nIter s hv
      have hsp := hh.support _ set.nIter s hv
      rw [← his] at hsz hsp
      have hf := takePts_ok _ _ _ h3
      right
      refine ⟨rfl, by simp [← hf.length_eq, hsz], ?_⟩
      intro p hp
      obtain ⟨x, hx, rfl⟩ := List.mem_map.1 hp
      obtain ⟨k, hk, rfl⟩ := List.getElem_of_mem hx
      have hk' : k < is.length := by rw [hf.length_eq]; exact hk
      have hget := List.forall₂_iff_get.1 hf |>.2 k hk' hk
      simp only [List.get_eq_getElem] at hget
      obtain ⟨w, hw, hpos⟩ := hsp is[k] (List.getElem_mem hk')
      exact ⟨is[k], _, w, hget, rfl, hw, hpos⟩
    · obtain ⟨rfl, -⟩ := Run.pure_ok.1 h
      exact .inl ⟨rfl, rfl⟩

theorem sampleMutation_ok {env : SmcEnv S Θ T P K} {par : Bool} {tau : T} {pt0 : Pt Θ} {fuel n : Nat} {s s' : S}
    {r : XR K × Pt Θ × Nat} (h : sampleMutation env par tau pt0 fuel n s = some (.ok r, s')) :
    r.1 = env.dist r.2.1.val ∧ (r.1.isInf = false ∨ r.2.1 = pt0) := by
  induction fuel generalizing n s with
  | zero => exact absurd h Run.more_ok
  | succ fuel ih =>
    obtain ⟨x, s1, -, h⟩ := Run.bind_ok.1 h
    cases x with
    | none => exact ih h
    | some sim =>
      simp only at h
      split at h
      · split at h
        · exact absurd h Run.fail_ok
        · obtain ⟨rfl, -⟩ := Run.pure_ok.1 h
          exact ⟨rfl, .inr rfl⟩
      · split at h
        · exact ih h
        · rename_i hi
          obtain ⟨rfl, -⟩ := Run.pure_ok.1 h
          exact ⟨rfl, .inl (by simpa using hi)⟩

/-- Accepting: each particle is the old one, or the proposal when that is below the tolerance. -/
theorem acceptLoop_ok {env : SmcEnv S Θ T P K} (hh : env.rng.Honest) (eps1 : XR K) (l : List (Pt Θ × Pt Θ)) (s : S) :
    List.Forall₂ (fun on p => if XR.lt (env.dist on.2.val) eps1 = true then p = on.2 else p = on.1) l
        (acceptLoop env eps1 l s).1.1 ∧
      (acceptLoop env eps1 l s).1.2 = l.countP (fun on => XR.lt (env.dist on.2.val) eps1) := by
  induction l generalizing s with
  | nil => exact ⟨.nil, rfl⟩
  | cons on l ih =>
    obtain ⟨old, new⟩ := on
    obtain ⟨ih1, ih2⟩ := ih (env.rng.random s).2
    obtain ⟨hu0, hu1⟩ := hh.random s
    unfold acceptLoop
    simp only
    by_cases hd : XR.lt (env.dist new.val) eps1 = true
    · simp only [hd, if_true, hu1]
      refine ⟨.cons (by simp [hd]) ih1, ?_⟩
      simp [hd, ih2]
    · simp only [hd, Bool.false_eq_true, if_false, not_lt.2 hu0]
      refine ⟨.cons (by simp [hd]) ih1, ?_⟩
      simp [hd, ih2]

theorem accept_each {env : SmcEnv S Θ T P K} {eps1 : XR K} {R : Pt Θ → XR K × Pt Θ × Nat → Prop}
    {theta : List (Pt Θ)} {sp : List (XR K × Pt Θ × Nat)} {pts : List (Pt Θ)} (he : List.Forall₂ R theta sp)
    (hR : ∀ a b, R a b → b.1 = env.dist b.2.1.val ∧ (b.1.isInf = false ∨ b.2.1 = a))
    (ha : List.Forall₂ (fun on p => if XR.lt (env.dist on.2.val) eps1 = true then p = on.2 else p = on.1)
      (theta.zip (sp.map (·.2.1))) pts) :
    List.Forall₂ (fun old p => p = old ∨ ((env.dist p.val).isInf = false ∧ XR.lt (env.dist p.val) eps1 = true))
      theta pts := by
  induction he generalizing pts with
  | nil => cases ha; exact .nil
  | @cons old x l l' hx _ ih =>
    simp only [List.map_cons, List.zip_cons_cons] at ha
    cases ha with
    | cons hp ha =>
      refine .cons ?_ (ih ha)
      obtain ⟨h3, h4⟩ := hR _ _ hx
      simp only at hp
      split at hp
      · rename_i hlt
        subst hp
        rw [h3] at h4
        rcases h4 with h4 | h4
        · exact .inr ⟨h4, hlt⟩
        · exact .inl h4
      · exact .inl hp

theorem mcmc_ok {env : SmcEnv S Θ T P K} (hh : env.rng.Honest) {set : SmcSettings K} {fuel : Nat}
    {theta1 : List (Pt Θ)} {wts : List (XR K)} {eps1 : XR K} {s s' : S} {r : List (Pt Θ) × XR K × K × Nat}
    (h : mcmcProposal env set fuel theta1 wts eps1 s = some (.ok r, s')) :
    theta1.length = set.nIter ∧
    List.Forall₂ (fun old p => p = old ∨ ((env.dist p.val).isInf = false ∧ XR.lt (env.dist p.val) eps1 = true))
      theta1 r.1 := by
  unfold mcmcProposal at h
  split at h
  · exact absurd h Run.fail_ok
  · rename_i hlen
    refine ⟨by simpa using hlen, ?_⟩
    obtain ⟨tau, s1, -, h⟩ := Run.bind_ok.1 h
    obtain ⟨sp, s2, h1, h⟩ := Run.bind_ok.1 h
    obtain ⟨⟨pts, acc⟩, s3, h2, h⟩ := Run.bind_ok.1 h
    obtain ⟨rfl, -⟩ := Run.pure_ok.1 h
    replace h2 := Run.lift_ok.1 h2
    simp only [Prod.mk.injEq, Except.ok.injEq] at h2
    have ha := (acceptLoop_ok hh eps1 (theta1.zip (sp.map (·.2.1))) s2).1
    rw [h2.1] at ha
    refine accept_each (Run.each_ok h1) ?_ ha
    rintro a b ⟨t, t', hx⟩
    exact sampleMutation_ok hx

/-- A completed round, taken apart. -/
theorem aRound_ok {env : SmcEnv S Θ T P K} {set : SmcSettings K} {fuel : Nat} {st st' : SmcState Θ K} {s s' : S}
    (h : aRound env set fuel st s = some (.ok st', s')) :
    ∃ q s1 s2 m, findEps env set st.eps st.pts = .ok q ∧
      st'.eps = (nextEps st.eps st.stay q).1 ∧ st'.stay = (nextEps st.eps st.stay q).2 ∧
      st'.round = st.round + 1 ∧ st'.epsThres = st.epsThres ∧
      Smc.resample env set st.pts (updateWts env st.eps st.pts st.wts st'.eps) st.epsThres s =
        some (.ok (st'.wts, m), s1) ∧
      mcmcProposal env set fuel m st'.wts st'.eps s1 = some (.ok (st'.pts, st'.ess, st'.acc, st'.evals), s2) := by
  unfold aRound at h
  obtain ⟨q, s1, h1, h⟩ := Run.bind_ok.1 h
  obtain ⟨hq, rfl⟩ := Run.ofResult_ok.1 h1
  obtain ⟨⟨w, th⟩, s2, h2, h⟩ := Run.bind_ok.1 h
  obtain ⟨⟨p, e, a, ne⟩, s3, h3, h⟩ := Run.bind_ok.1 h
  obtain ⟨rfl, -⟩ := Run.pure_ok.1 h
  exact ⟨q, s2, s3, th, hq, rfl, rfl, rfl, rfl, h2, h3⟩

/-! ### Invariants -/

/-- Sizes and weights of a state. -/
structure Sized (set : SmcSettings K) (st : SmcState Θ K) : Prop where
  wts : st.wts.length = set.nIter
  pts : st.pts.length = set.nIter
  valid : validProbs st.wts = true

theorem firstSamples_ok {env : SmcEnv S Θ T P K} (hh : env.rng.Honest) {fuel n : Nat} {parents : Option (List P)}
    {s s' : S} {r : List (XR K × Θ × Nat)} (h : firstSamples env fuel n parents s = some (.ok r, s')) :
    r.length = n ∧ ∀ x ∈ r, (env.dist x.2.1).isInf = false := by
  cases parents with
  | none =>
    obtain ⟨h1, h2⟩ := Run.times_ok h
    refine ⟨h1, fun x hx => ?_⟩
    obtain ⟨t, t', hx⟩ := h2 x hx
    obtain ⟨h3, h4, -⟩ := Props.Abc.sampleFin_ok _ hx
    rw [← h3]
    exact h4
  | some ps =>
    obtain ⟨p0s, s1, h1, h2⟩ := Run.bind_ok.1 h
    have hf := Run.each_ok h2
    have hl : p0s.length = n := by
      unfold pickParents at h1
      split at h1
      · rename_i h0
        obtain ⟨rfl, -⟩ := Run.pure_ok.1 h1
        simp [h0]
      · obtain ⟨is, s2, h3, h4⟩ := Run.bind_ok.1 h1
        obtain ⟨hv, his⟩ := choice_ok (Run.lift_ok.1 h3)
        have hsz := hh.size _ n s hv
        rw [← his] at hsz
        replace h4 := (Run.ofResult_ok.1 h4).1
        rw [← hsz]
        clear his hsz h3 h1 h2 hf
        induction is generalizing p0s with
        | nil =>
          simp [pure, Except.pure] at h4
          subst h4
          rfl
        | cons i is ih =>
          rw [List.mapM_cons] at h4
          cases hi : ps[i]? with
          | none => simp [hi, bind, Except.bind] at h4
          | some p =>
            simp only [hi, bind, Except.bind] at h4
            split at h4
            · cases h4
            · rename_i l hl
              simp only [pure, Except.pure, Except.ok.injEq] at h4
              subst h4
              simp [ih l hl]
    refine ⟨by rw [← hf.length_eq, hl], fun x hx => ?_⟩
    obtain ⟨k, hk, rfl⟩ := List.getElem_of_mem hx
    have hk' : k < p0s.length := by rw [hf.length_eq]; exact hk
    obtain ⟨t, t', hx⟩ := List.forall₂_iff_get.1 hf |>.2 k hk' hk
    obtain ⟨h3, h4, -⟩ := Props.Abc.sampleFin_ok _ hx
    simp only [List.get_eq_getElem] at h3 h4
    rw [← h3]
    exact h4

theorem initialise_ok {env : SmcEnv S Θ T P K} {set : SmcSettings K} {fuel : Nat} {parents : Option (List P)}
    {s s' : S} {st : SmcState Θ K} (h : initialise env set fuel parents s = some (.ok st, s')) :
    set.nIter ≠ 0 ∧ ∃ r s1, firstSamples env fuel set.nIter parents s = some (.ok r, s1) ∧
      st.wts = uniformWts set.nIter ∧ st.pts = r.map (fun x => ⟨x.2.1, true⟩) ∧ st.round = 0 ∧ st.stay = 0 ∧
      st.eps = .pinf := by
  unfold initialise at h
  obtain ⟨r, s1, h1, h⟩ := Run.bind_ok.1 h
  split at h
  · exact absurd h Run.fail_ok
  · rename_i hn
    obtain ⟨rfl, -⟩ := Run.pure_ok.1 h
    exact ⟨hn, r, s1, h1, rfl, rfl, rfl, rfl, rfl⟩

theorem updateWts_valid {env : SmcEnv S Θ T P K} {eps0 eps1 : XR K} {pts : List (Pt Θ)} {wts : List (XR K)}
    (hv : validProbs wts = true) (hc : 2 < (updateWts env eps0 pts wts eps1).countP (fun w => XR.lt (.fin 0) w)) :
    validProbs (updateWts env eps0 pts wts eps1) = true := by
  obtain ⟨xs, rfl, h0, h1⟩ := (validProbs_iff _).1 hv
  obtain ⟨ys, h2, h3⟩ := cut_fin eps0 eps1 (pts.map (fun p => env.dist p.val)) xs h0
  unfold updateWts at hc ⊢
  rw [h2] at hc ⊢
  rcases normalise_cases ys h3 with ⟨-, -, h4⟩ | ⟨-, h4⟩
  · exact h4
  · exfalso
    have : (normalise (ys.map XR.fin)).countP (fun w => XR.lt (.fin 0) w) = 0 := by
      rw [List.countP_eq_zero]
      intro w hw
      rw [h4 w hw]
      simp [XR.lt]
    omega

theorem updateWts_length {env : SmcEnv S Θ T P K} {eps0 eps1 : XR K} {pts : List (Pt Θ)} {wts : List (XR K)} :
    (updateWts env eps0 pts wts eps1).length = min pts.length wts.length := by
  simp [updateWts, normalise, cutWts]

theorem Reached.sized {env : SmcEnv S Θ T P K} (hh : env.rng.Honest) {set : SmcSettings K} {st : SmcState Θ K}
    (h : Reached env set st) : Sized set st := by
  induction h with
  | init h =>
    obtain ⟨hn, r, s1, h1, hw, hp, -⟩ := initialise_ok h
    obtain ⟨h2, -⟩ := firstSamples_ok hh h1
    refine ⟨by simp [hw, uniformWts], by simp [hp, h2], by rw [hw]; exact uniform_valid hn⟩
  | @round fuel s s' st st' hr h ih =>
    obtain ⟨q, s1, s2, m, -, -, -, -, -, h1, h2⟩ := aRound_ok h
    obtain ⟨hc, h3⟩ := resample_ok hh h1
    obtain ⟨h4, h5⟩ := mcmc_ok hh h2
    have hp : st'.pts.length = set.nIter := by rw [← h5.length_eq, h4]
    rcases h3 with ⟨h3, -⟩ | ⟨h3, -, -⟩
    · simp only at h3
      refine ⟨?_, hp, ?_⟩
      · rw [h3, updateWts_length, ih.wts, ih.pts, min_self]
      · rw [h3]
        exact updateWts_valid ih.valid hc
    · simp only at h3
      have hn : set.nIter ≠ 0 := by
        intro h0
        have : (updateWts env st.eps st.pts st.wts st'.eps).length = 0 := by
          rw [updateWts_length, ih.wts, ih.pts, h0, min_self]
        rw [List.length_eq_zero_iff] at this
        rw [this] at hc
        simp at hc
      refine ⟨by simp [h3, uniformWts], hp, by rw [h3]; exact uniform_valid hn⟩

/-- **C65**: after initialising and after every completed round the weights are non-negative and sum to one - for every
model, also one with NaN distances. -/
theorem C65 {env : SmcEnv S Θ T P K} (hh : env.rng.Honest) {set : SmcSettings K} {st : SmcState Θ K}
    (h : Reached env set st) : (∀ w ∈ st.wts, ∃ x : K, w = .fin x ∧ 0 ≤ x) ∧ st.wts.sum = .fin 1 := by
  obtain ⟨xs, h1, h2, h3⟩ := (validProbs_iff _).1 (h.sized hh).valid
  rw [h1]
  refine ⟨?_, by rw [sum_fin, h3]⟩
  intro w hw
  obtain ⟨x, hx, rfl⟩ := List.mem_map.1 hw
  exact ⟨x, rfl, h2 x hx⟩

example : Reached exSmc exSet exSt1 ∧ exSmc.rng.Honest ∧ exSt1.wts.sum = .fin 1 :=
  ⟨exSmc_reached, Lemmas.firstRand_honest, (C65 Lemmas.firstRand_honest exSmc_reached).2⟩

/-- All distances are finite. -/
theorem Reached.finite {env : SmcEnv S Θ T P K} (hh : env.rng.Honest) (hnan : ∀ x, env.dist x ≠ .nan)
    {set : SmcSettings K} {st : SmcState Θ K} (h : Reached env set st) :
    ∀ p ∈ st.pts, ∃ d, env.dist p.val = .fin d := by
  have key : ∀ x, (env.dist x).isInf = false → ∃ d, env.dist x = .fin d := by
    intro x hx
    cases hd : env.dist x with
    | fin d => exact ⟨d, rfl⟩
    | pinf => rw [hd] at hx; cases hx
    | ninf => rw [hd] at hx; cases hx
    | nan => exact absurd hd (hnan x)
  induction h with
  | init h =>
    obtain ⟨hn, r, s1, h1, hw, hp, -⟩ := initialise_ok h
    obtain ⟨-, h2⟩ := firstSamples_ok hh h1
    intro p hp'
    rw [hp] at hp'
    obtain ⟨x, hx, rfl⟩ := List.mem_map.1 hp'
    exact key _ (h2 x hx)
  | @round fuel s s' st st' hr h ih =>
    obtain ⟨q, s1, s2, m, -, -, -, -, -, h1, h2⟩ := aRound_ok h
    obtain ⟨-, h3⟩ := resample_ok hh h1
    obtain ⟨-, h5⟩ := mcmc_ok hh h2
    have hm : ∀ p ∈ m, ∃ d, env.dist p.val = .fin d := by
      intro p hp
      rcases h3 with ⟨-, h3⟩ | ⟨-, -, h3⟩
      · simp only at h3
        rw [h3] at hp
        obtain ⟨x, hx, rfl⟩ := List.mem_map.1 hp
        exact ih x hx
      · obtain ⟨i, x, w, hx, rfl, -⟩ := h3 p hp
        exact ih x (List.mem_of_getElem? hx)
    intro p hp
    obtain ⟨k, hk, rfl⟩ := List.getElem_of_mem hp
    have hk' : k < m.length := by rw [h5.length_eq]; exact hk
    have := List.forall₂_iff_get.1 h5 |>.2 k hk' hk
    simp only [List.get_eq_getElem] at this
    rcases this with h6 | ⟨h6, -⟩
    · rw [h6]
      exact hm _ (List.getElem_mem hk')
    · exact key _ h6

/-! ### C62: the tolerance -/

theorem fin_dists {env : SmcEnv S Θ T P K} {pts : List (Pt Θ)} (h : ∀ p ∈ pts, ∃ d, env.dist p.val = .fin d) :
    ∃ ds : List K, pts.map (fun p => env.dist p.val) = ds.map XR.fin := by
  induction pts with
  | nil => exact ⟨[], rfl⟩
  | cons p l ih =>
    obtain ⟨ds, hds⟩ := ih (fun x hx => h x (by simp [hx]))
    obtain ⟨d, hd⟩ := h p (by simp)
    exact ⟨d :: ds, by simp [hd, hds]⟩

theorem findEps_fin {env : SmcEnv S Θ T P K} {set : SmcSettings K} {eps : XR K} {pts : List (Pt Θ)}
    (hfin : ∀ p ∈ pts, ∃ d, env.dist p.val = .fin d) {q : XR K} (hq : findEps env set eps pts = .ok q) :
    ∃ r, q = .fin r := by
  obtain ⟨ds, hds⟩ := fin_dists hfin
  unfold findEps at hq
  simp only [hds] at hq
  generalize set.alpha * _ = a at hq
  by_cases hne : ds = []
  · subst hne
    unfold quantile at hq
    split at hq <;> simp at hq
  by_cases ha : 0 ≤ a ∧ a ≤ 1
  · obtain ⟨r, h1, -⟩ := Lemmas.quantile_fin ds hne ha.1 ha.2
    rw [h1, Except.ok.injEq] at hq
    exact ⟨r, hq.symm⟩
  · unfold quantile at hq
    have : (XR.le (.fin 0) (.fin a) && XR.le (.fin a) (.fin 1)) = false := by
      simpa [not_and_or, or_iff_not_imp_left] using ha
    rw [this] at hq
    simp at hq

theorem Reached.eps {env : SmcEnv S Θ T P K} (hh : env.rng.Honest) (hnan : ∀ x, env.dist x ≠ .nan)
    {set : SmcSettings K} {st : SmcState Θ K} (h : Reached env set st) : st.eps = .pinf ∨ ∃ e, st.eps = .fin e := by
  induction h with
  | init h =>
    obtain ⟨-, r, s1, -, -, -, -, -, h1⟩ := initialise_ok h
    exact .inl h1
  | @round fuel s s' st st' hr h ih =>
    obtain ⟨q, s1, s2, m, h1, h2, -⟩ := aRound_ok h
    obtain ⟨r, rfl⟩ := findEps_fin (hr.finite hh hnan) h1
    rw [h2]
    unfold nextEps
    split
    · exact ih
    · exact .inr ⟨r, rfl⟩

/-- **C62**, one round: if no distance is NaN, a completed round either lowers the tolerance and resets `Stay`, or
leaves the tolerance as it is and adds one to `Stay`. -/
theorem C62_partial {env : SmcEnv S Θ T P K} (hh : env.rng.Honest) (hnan : ∀ x, env.dist x ≠ .nan)
    {set : SmcSettings K} {st st' : SmcState Θ K} (h : Reached env set st) {fuel : Nat} {s s' : S}
    (hr : aRound env set fuel st s = some (.ok st', s')) :
    ((XR.lt st'.eps st.eps = true ∧ st'.stay = 0) ∨ (st'.eps = st.eps ∧ st'.stay = st.stay + 1)) ∧
      st'.round = st.round + 1 := by
  obtain ⟨q, s1, s2, m, h1, h2, h3, h4, -⟩ := aRound_ok hr
  refine ⟨?_, h4⟩
  obtain ⟨r, rfl⟩ := findEps_fin (h.finite hh hnan) h1
  rw [h2, h3]
  unfold nextEps
  split
  · exact .inr ⟨rfl, rfl⟩
  · rename_i hle
    refine .inl ⟨?_, rfl⟩
    rcases h.eps hh hnan with he | ⟨e, he⟩
    · rw [he]
      rfl
    · rw [he] at hle ⊢
      simpa using hle

/-- A round that completes. -/
def Step (env : SmcEnv S Θ T P K) (set : SmcSettings K) (st st' : SmcState Θ K) : Prop :=
  ∃ fuel s s', aRound env set fuel st s = some (.ok st', s')

/-- **C62**, along a run: the tolerance never rises. -/
theorem C62_run {env : SmcEnv S Θ T P K} (hh : env.rng.Honest) (hnan : ∀ x, env.dist x ≠ .nan)
    {set : SmcSettings K} {st st' : SmcState Θ K} (h : Reached env set st)
    (hr : Relation.ReflTransGen (Step env set) st st') : XR.le st'.eps st.eps = true := by
  have key : Reached env set st' ∧ XR.le st'.eps st.eps = true := by
    induction hr with
    | refl =>
      refine ⟨h, ?_⟩
      rcases h.eps hh hnan with he | ⟨e, he⟩ <;> rw [he] <;> simp [XR.le]
    | tail _ hs ih =>
      obtain ⟨fuel, s, s', hs⟩ := hs
      refine ⟨.round ih.1 hs, ?_⟩
      rcases (C62_partial hh hnan ih.1 hs).1 with ⟨h1, -⟩ | ⟨h1, -⟩
      · exact XR.le_trans (XR.le_of_lt h1) ih.2
      · rw [h1]
        exact ih.2
  exact key.2

/-- `Stay` counts the rounds since the tolerance last fell (or since the start). -/
theorem C62_stay {env : SmcEnv S Θ T P K} (hh : env.rng.Honest) (hnan : ∀ x, env.dist x ≠ .nan)
    {set : SmcSettings K} {st st' : SmcState Θ K} (h : Reached env set st) (h0 : st.stay = 0)
    (hr : Relation.ReflTransGen (Step env set) st st') (he : st'.eps = st.eps) :
    st'.stay = st'.round - st.round := by
  have key : Reached env set st' ∧ st.round ≤ st'.round ∧
      (st'.eps = st.eps → st'.stay = st'.round - st.round) := by
    clear he
    induction hr with
    | refl => exact ⟨h, le_refl _, fun _ => by omega⟩
    | @tail st1 st2 hr1 hs ih =>
      obtain ⟨fuel, s, s', hs⟩ := hs
      obtain ⟨h1, h2⟩ := C62_partial hh hnan ih.1 hs
      refine ⟨.round ih.1 hs, by omega, fun he => ?_⟩
      rcases h1 with ⟨h1, -⟩ | ⟨h1, h3⟩
      · exfalso
        have := C62_run hh hnan h hr1
        rw [he] at h1
        rw [XR.not_lt_of_le this] at h1
        cases h1
      · have := ih.2.2 (h1 ▸ he)
        omega
  exact key.2.2 he

/-- Two rounds in which the tolerance falls. -/
example : Reached exSmc exSet exSt1 ∧ (∀ x, exSmc.dist x ≠ .nan) ∧ exSmc.rng.Honest ∧
    (aRound exSmc exSet 30 exSt1 15).map (·.1.map (fun st => (st.eps, st.stay, st.round))) =
      some (.ok (.fin 18, 0, 2)) :=
  ⟨exSmc_reached, exSmc_nan, Lemmas.firstRand_honest, by decide +kernel⟩

/-- The same model with proposals that change nothing. -/
def stillSmc : SmcEnv Nat Nat Unit Nat ℚ := { exSmc with propose := fun _ x s => (.ok (some x), s + 1) }

/-- A round in which the tolerance stays. -/
example : Reached stillSmc { exSet with alpha := 1 } exSt0 ∧
    (aRound stillSmc { exSet with alpha := 1 } 30 exSt0 5).map (fun r => r.1.map (fun st => (st.eps, st.stay))) =
      some (.ok (.fin 40, 0)) ∧
    ((aRound stillSmc { exSet with alpha := 1 } 30 exSt0 5).bind (fun r => match r with
      | (.ok st, s) => (aRound stillSmc { exSet with alpha := 1 } 30 st s).map (·.1.map (fun st => (st.eps, st.stay)))
      | (.error _, _) => none)) = some (.ok (.fin 40, 1)) := by
  refine ⟨.init (fuel := 30) (parents := none) (s := 0) (s' := 5) ?_, ?_, ?_⟩
  · decide +kernel
  · decide +kernel
  · decide +kernel

/-- **C62** fails with NaN distances: the tolerance becomes NaN, which is not below the tolerance before. -/
theorem C62_refuted : ∃ st st' s s', initialise nanSmc exSet 30 none 0 = some (.ok st, s) ∧
    aRound nanSmc exSet 30 st s = some (.ok st', s') ∧ st.eps = .pinf ∧ st'.eps = .nan ∧
    XR.le st'.eps st.eps = false := by
  refine ⟨exSt0, { exSt0 with round := 1, eps := .nan, acc := 0, pts := exSt0.pts.map Pt.copy }, 5, 15, ?_, ?_, ?_⟩
  · decide +kernel
  · decide +kernel
  · decide +kernel

/-! ### C63: what the weights and the tolerance say -/

theorem normalise_pos (ys : List K) (hy : ∀ y ∈ ys, 0 ≤ y) :
    List.Forall₂ (fun w y => XR.lt (.fin 0) w = true ↔ 0 < y) (normalise (ys.map XR.fin)) ys := by
  rw [List.forall₂_iff_get]
  refine ⟨by simp [normalise], fun i h1 h2 => ?_⟩
  simp only [List.get_eq_getElem]
  have hi : ys[i] ∈ ys := List.getElem_mem h2
  rcases normalise_cases ys hy with ⟨h0, h3, -⟩ | ⟨h0, h3⟩
  · have : (normalise (ys.map XR.fin))[i] = .fin (ys[i] / ys.sum) := by
      simp only [h3, List.getElem_map]
    rw [this]
    simp only [XR.lt_fin, decide_eq_true_eq]
    exact ⟨fun h => by by_contra hn; rw [le_antisymm (not_lt.1 hn) (hy _ hi)] at h; simp at h, fun h => div_pos h h0⟩
  · rw [h3 _ (List.getElem_mem h1)]
    have hle : ys[i] ≤ ys.sum := List.single_le_sum hy _ hi
    rw [h0] at hle
    simp only [XR.lt, Bool.false_eq_true, false_iff, not_lt]
    exact hle

/-- Which weights survive `update_wts`. -/
theorem updateWts_pos {env : SmcEnv S Θ T P K} {eps0 eps1 : XR K} {pts : List (Pt Θ)} {wts : List (XR K)}
    (hv : validProbs wts = true) (hlen : wts.length = pts.length)
    (hinv : List.Forall₂ (fun w p => XR.lt (.fin 0) w = true → XR.lt (env.dist p.val) eps0 = true) wts pts) :
    List.Forall₂ (fun w' wp => XR.lt (.fin 0) w' = true ↔
      XR.lt (.fin 0) wp.1 = true ∧ XR.lt (env.dist wp.2.val) eps1 = true)
      (updateWts env eps0 pts wts eps1) (wts.zip pts) := by
  obtain ⟨xs, rfl, h0, h1⟩ := (validProbs_iff _).1 hv
  obtain ⟨ys, h2, h3⟩ := cut_fin eps0 eps1 (pts.map (fun p => env.dist p.val)) xs h0
  have hn := normalise_pos ys h3
  unfold updateWts
  rw [h2]
  rw [List.forall₂_iff_get] at hn hinv ⊢
  obtain ⟨hn1, hn2⟩ := hn
  have hl : ys.length = pts.length := by
    have := congrArg List.length h2
    simp [cutWts] at this hlen
    omega
  simp only [List.length_map] at hlen
  refine ⟨by rw [hn1]; simp; omega, fun i hi1 hi2 => ?_⟩
  simp only [List.length_zip, List.length_map, lt_min_iff] at hi2
  have hw : ys[i]'(by omega) =
      if XR.lt (env.dist (pts[i]'(by omega)).val) eps0 then
        if XR.lt (env.dist (pts[i]'(by omega)).val) eps1 then xs[i]'(by omega) else 0
      else xs[i]'(by omega) := by
    have e1 : (cutWts eps0 eps1 (pts.map (fun p => env.dist p.val)) (xs.map XR.fin))[i]? =
        (ys.map XR.fin)[i]? := by rw [h2]
    unfold cutWts at e1
    rw [List.getElem?_zipWith, List.getElem?_map, List.getElem?_map, List.getElem?_map,
      List.getElem?_eq_getElem (show i < pts.length by omega), List.getElem?_eq_getElem (show i < xs.length by omega),
      List.getElem?_eq_getElem (show i < ys.length by omega)] at e1
    simp only [Option.map_some, Option.some.injEq] at e1
    split at e1
    · rename_i c1
      split at e1
      · rename_i c2
        rw [XR.fin.injEq] at e1
        simp [c1, c2, e1]
      · rename_i c2
        rw [XR.fin.injEq] at e1
        simp [c1, c2, e1]
    · rename_i c1
      rw [XR.fin.injEq] at e1
      simp [c1, e1]
  have h4 := hn2 i hi1 (by omega)
  have h5 := hinv.2 i (by simp; omega) (by omega)
  simp only [List.get_eq_getElem, List.getElem_map, XR.lt_fin, decide_eq_true_eq] at h4 h5
  simp only [List.get_eq_getElem, List.getElem_zip, List.getElem_map, XR.lt_fin, decide_eq_true_eq]
  rw [h4, hw]
  constructor
  · intro h
    split at h
    · split at h
      · rename_i c2
        exact ⟨h, c2⟩
      · exact absurd h (lt_irrefl _)
    · rename_i c1
      exact absurd (h5 h) c1
  · rintro ⟨h, c2⟩
    simp [h5 h, c2, h]

/-- The positive entries of `ind` are those of positive weight. -/
theorem indWts_pos {wts : List (XR K)} (hv : validProbs wts = true) : indWts wts = wts := by
  obtain ⟨xs, rfl, h0, h1⟩ := (validProbs_iff _).1 hv
  exact indWts_eq h0 h1

theorem Reached.within {env : SmcEnv S Θ T P K} (hh : env.rng.Honest) (hnan : ∀ x, env.dist x ≠ .nan)
    {set : SmcSettings K} {st : SmcState Θ K} (h : Reached env set st) :
    List.Forall₂ (fun w p => XR.lt (.fin 0) w = true → XR.lt (env.dist p.val) st.eps = true) st.wts st.pts := by
  induction h with
  | @init fuel parents s s' st h =>
    have hr : Reached env set st := .init h
    have hsz := hr.sized hh
    have hf := hr.finite hh hnan
    obtain ⟨hn, r, s1, h1, hw, hp, -, -, he⟩ := initialise_ok h
    rw [List.forall₂_iff_get]
    refine ⟨by rw [hsz.wts, hsz.pts], fun i hi1 hi2 _ => ?_⟩
    obtain ⟨d, hd⟩ := hf _ (List.getElem_mem hi2)
    simp only [List.get_eq_getElem]
    rw [hd, he]
    rfl
  | @round fuel s s' st st' hr h ih =>
    have hsz' := (Reached.round hr h).sized hh
    have hsz := hr.sized hh
    obtain ⟨q, s1, s2, m, -, -, -, -, -, h1, h2⟩ := aRound_ok h
    obtain ⟨hc, h3⟩ := resample_ok hh h1
    obtain ⟨h4, h5⟩ := mcmc_ok hh h2
    have hu := updateWts_pos (eps1 := st'.eps) hsz.valid (by rw [hsz.wts, hsz.pts]) ih
    -- the particles before the proposals
    have hm : List.Forall₂ (fun w p => XR.lt (.fin 0) w = true → XR.lt (env.dist p.val) st'.eps = true) st'.wts m := by
      rw [List.forall₂_iff_get] at hu ⊢
      refine ⟨by rw [hsz'.wts, h4], fun i hi1 hi2 => ?_⟩
      simp only [List.get_eq_getElem]
      rcases h3 with ⟨h3, h6⟩ | ⟨-, -, h6⟩
      · simp only at h3 h6
        have hi3 : i < st.pts.length := by rw [h6] at hi2; simpa using hi2
        have hi4 : i < st.wts.length := by rw [hsz.wts, ← hsz.pts]; exact hi3
        have := hu.2 i (by rw [← h3]; exact hi1) (by simp; omega)
        simp only [List.get_eq_getElem, List.getElem_zip] at this
        intro hpos
        have e : m[i] = (st.pts[i]).copy := by simp only [h6, List.getElem_map]
        rw [e]
        simp only [h3] at hpos
        exact (this.1 hpos).2
      · intro _
        obtain ⟨j, x, w, hx, e, hw, hpos⟩ := h6 _ (List.getElem_mem hi2)
        rw [indWts_pos (updateWts_valid hsz.valid hc)] at hw
        obtain ⟨hj1, rfl⟩ := List.getElem?_eq_some_iff.1 hw
        obtain ⟨hj2, rfl⟩ := List.getElem?_eq_some_iff.1 hx
        have := hu.2 j hj1 (by rw [← hu.1]; exact hj1)
        simp only [List.get_eq_getElem, List.getElem_zip] at this
        rw [e]
        exact (this.1 hpos).2
    rw [List.forall₂_iff_get] at hm h5 ⊢
    refine ⟨by rw [hsz'.wts, hsz'.pts], fun i hi1 hi2 hpos => ?_⟩
    have hi3 : i < m.length := by rw [h5.1]; exact hi2
    have h6 := hm.2 i hi1 hi3 hpos
    have h7 := h5.2 i hi3 hi2
    simp only [List.get_eq_getElem] at h6 h7 ⊢
    rcases h7 with h7 | ⟨-, h7⟩
    · rw [h7]
      exact h6
    · exact h7

/-- **C63**: if no distance is NaN, then after initialising and after every completed round each particle of positive
weight is strictly within the tolerance. -/
theorem C63 {env : SmcEnv S Θ T P K} (hh : env.rng.Honest) (hnan : ∀ x, env.dist x ≠ .nan)
    {set : SmcSettings K} {st : SmcState Θ K} (h : Reached env set st) (i : Nat) (w : XR K) (p : Pt Θ)
    (hw : st.wts[i]? = some w) (hp : st.pts[i]? = some p) (hpos : XR.lt (.fin 0) w = true) :
    XR.lt (env.dist p.val) st.eps = true := by
  have := List.forall₂_iff_get.1 (h.within hh hnan)
  obtain ⟨hi, rfl⟩ := List.getElem?_eq_some_iff.1 hw
  obtain ⟨hj, rfl⟩ := List.getElem?_eq_some_iff.1 hp
  exact this.2 i hi hj hpos

theorem posteriors_ok {env : SmcEnv S Θ T P K} (hh : env.rng.Honest) {set : SmcSettings K} {st : SmcState Θ K}
    (hv : validProbs st.wts = true) {fuel n : Nat} {s s' : S} {post : List (Pt Θ)}
    (hp : samplePosteriors env set fuel (some st) n s = some (.ok post, s')) :
    post.length = n ∧ ∀ p ∈ post, ∃ (i : Nat) (w : XR K), st.wts[i]? = some w ∧ XR.lt (.fin 0) w = true ∧
      st.pts[i]? = some p := by
  obtain ⟨is, s1, h1, hp⟩ := Run.bind_ok.1 hp
  obtain ⟨th, s2, h2, hp⟩ := Run.bind_ok.1 hp
  obtain ⟨tau, s3, -, hp⟩ := Run.bind_ok.1 hp
  obtain ⟨sp, s4, h4, hp⟩ := Run.bind_ok.1 hp
  obtain ⟨rfl, -⟩ := Run.pure_ok.1 hp
  obtain ⟨hv', his⟩ := choice_ok (Run.lift_ok.1 h1)
  have hsz := hh.size _ n s hv'
  have hsp := hh.support _ n s hv'
  rw [← his] at hsz hsp
  rw [indWts_pos hv] at hsp
  have hf := takePts_ok _ _ _ (Run.ofResult_ok.1 h2).1
  have hl := (Run.each_ok h4).length_eq
  have hthl := hf.length_eq
  refine ⟨by simp [← hl, ← hthl, hsz], fun p hp => ?_⟩
  obtain ⟨⟨a, b⟩, hab, e⟩ := List.mem_map.1 hp
  simp only [ite_self] at e
  subst e
  have ha := (List.of_mem_zip hab).1
  obtain ⟨k, hk, rfl⟩ := List.getElem_of_mem ha
  have hk' : k < is.length := by rw [hthl]; exact hk
  have hget := List.forall₂_iff_get.1 hf |>.2 k hk' hk
  obtain ⟨w, hw, hpos⟩ := hsp is[k] (List.getElem_mem hk')
  exact ⟨is[k], w, hw, hpos, hget⟩

/-- **C63**, the posterior: every particle that `sample_posteriors` collects is strictly within the tolerance; exactly
`n_collect` are collected. -/
theorem C63_posterior {env : SmcEnv S Θ T P K} (hh : env.rng.Honest) (hnan : ∀ x, env.dist x ≠ .nan)
    {set : SmcSettings K} {st : SmcState Θ K} (h : Reached env set st) {fuel n : Nat} {s s' : S} {post : List (Pt Θ)}
    (hp : samplePosteriors env set fuel (some st) n s = some (.ok post, s')) :
    post.length = n ∧ ∀ p ∈ post, XR.lt (env.dist p.val) st.eps = true := by
  obtain ⟨h1, h2⟩ := posteriors_ok hh (h.sized hh).valid hp
  refine ⟨h1, fun p hp => ?_⟩
  obtain ⟨i, w, hw, hpos, hpi⟩ := h2 p hp
  exact C63 hh hnan h i w p hw hpi hpos

example : Reached exSmc exSet exSt1 ∧ (∀ x, exSmc.dist x ≠ .nan) ∧ exSmc.rng.Honest ∧
    exSt1.wts[3]? = some (.fin (1 / 4)) ∧ XR.lt (exSmc.dist 15) exSt1.eps = true ∧
    (samplePosteriors exSmc exSet 30 (some exSt1) 2 15).map (·.1) = some (.ok [⟨0, true⟩, ⟨0, true⟩]) :=
  ⟨exSmc_reached, exSmc_nan, Lemmas.firstRand_honest, by decide +kernel, by decide +kernel, by decide +kernel⟩

/-! ### C64: the loop of `update` -/

theorem update_done {env : SmcEnv S Θ T P K} {set : SmcSettings K} {fuel k : Nat} {st st' : SmcState Θ K} {s s' : S}
    (h : update env set fuel k st s = .done st' s') :
    Relation.TransGen (Step env set) st st' ∧ checkTermination set st' = true ∧
    ∃ j, 1 ≤ j ∧ j ≤ k ∧ st'.round = st.round + j ∧ ((j : Int) ≤ max 1 (set.maxRound - st.round)) ∧
      update env set fuel j st s = .done st' s' ∧ ∀ i < j, update env set fuel i st s = .toGo := by
  induction k generalizing st s with
  | zero => cases h
  | succ k ih =>
    unfold update at h
    split at h
    · cases h
    · cases h
    · rename_i st1 s1 hr
      have hround : st1.round = st.round + 1 := by
        obtain ⟨q, s1, s2, m, -, -, -, h4, -⟩ := aRound_ok hr
        exact h4
      split at h
      · rename_i hc
        injection h with e1 e2
        subst e1 e2
        refine ⟨.single ⟨_, _, _, hr⟩, hc, 1, le_refl _, by omega, hround, by omega, ?_, ?_⟩
        · simp [update, hr, hc]
        · intro i hi
          obtain rfl : i = 0 := by omega
          rfl
      · rename_i hc
        obtain ⟨h1, h2, j, h3, h4, h5, h6, h7, h8⟩ := ih h
        refine ⟨.head ⟨_, _, _, hr⟩ h1, h2, j + 1, by omega, by omega, by omega, ?_, ?_, ?_⟩
        · have : ¬ set.maxRound ≤ st1.round := by
            intro hle
            simp [checkTermination, hle] at hc
          push_cast
          rw [hround] at h6 this
          push_cast at h6 this
          omega
        · rw [update, hr]
          simp only [hc]
          exact h7
        · intro i hi
          cases i with
          | zero => rfl
          | succ i =>
            rw [update, hr]
            simp only [hc]
            exact h8 i (by omega)

theorem Reached.run {env : SmcEnv S Θ T P K} {set : SmcSettings K} {st st' : SmcState Θ K} (h : Reached env set st)
    (hr : Relation.ReflTransGen (Step env set) st st') : Reached env set st' := by
  induction hr with
  | refl => exact h
  | tail _ hs ih =>
    obtain ⟨fuel, s, s', hs⟩ := hs
    exact .round ih hs

/-- **C64**: when `update` ends, it has run exactly `Round' - Round` rounds, at least one, and at most the rounds
that `max_round` leaves; the population still has `n_iter` particles and weights.  After `initialise` `Round` is 0. -/
theorem C64 {env : SmcEnv S Θ T P K} (hh : env.rng.Honest) {set : SmcSettings K} {st st' : SmcState Θ K}
    (h : Reached env set st) {fuel k : Nat} {s s' : S} (hu : update env set fuel k st s = .done st' s') :
    st.round + 1 ≤ st'.round ∧ ((st'.round - st.round : Int) ≤ max 1 (set.maxRound - st.round)) ∧
    update env set fuel (st'.round - st.round) st s = .done st' s' ∧
    (∀ i < st'.round - st.round, update env set fuel i st s = .toGo) ∧
    st'.pts.length = set.nIter ∧ st'.wts.length = set.nIter := by
  obtain ⟨h1, -, j, h3, h4, h5, h6, h7, h8⟩ := update_done hu
  have hr := (h.run h1.to_reflTransGen).sized hh
  have e : st'.round - st.round = j := by omega
  rw [e]
  exact ⟨by omega, by omega, h7, h8, hr.pts, hr.wts⟩

/-- **C64**, termination: within the rounds that `max_round` leaves (at least one) `update` has returned or raised, or
is inside a round that has not ended. -/
theorem C64_stops (env : SmcEnv S Θ T P K) (set : SmcSettings K) (fuel k : Nat) (st : SmcState Θ K) (s : S)
    (hk : max 1 (set.maxRound - st.round) ≤ (k : Int)) : update env set fuel k st s ≠ .toGo := by
  induction k generalizing st s with
  | zero => exact absurd hk (by simp)
  | succ k ih =>
    unfold update
    split
    · simp
    · simp
    · rename_i st1 s1 hr
      have hround : st1.round = st.round + 1 := by
        obtain ⟨q, s1, s2, m, -, -, -, h4, -⟩ := aRound_ok hr
        exact h4
      split
      · simp
      · rename_i hc
        apply ih
        have : ¬ set.maxRound ≤ st1.round := by
          intro hle
          simp [checkTermination, hle] at hc
        rw [hround] at this ⊢
        push_cast at this hk ⊢
        omega

/-- `initialise` starts the count, with a population of `n_iter`. -/
theorem C64_start {env : SmcEnv S Θ T P K} (hh : env.rng.Honest) {set : SmcSettings K} {fuel : Nat}
    {parents : Option (List P)} {s s' : S} {st : SmcState Θ K}
    (h : initialise env set fuel parents s = some (.ok st, s')) :
    st.round = 0 ∧ st.stay = 0 ∧ st.pts.length = set.nIter ∧ st.wts.length = set.nIter := by
  have hr := (Reached.init h).sized hh
  obtain ⟨-, r, s1, -, -, -, h1, h2, -⟩ := initialise_ok h
  exact ⟨h1, h2, hr.pts, hr.wts⟩

/-- Why `update` stopped. -/
theorem C64_why {env : SmcEnv S Θ T P K} {set : SmcSettings K} {st st' : SmcState Θ K} {fuel k : Nat} {s s' : S}
    (hu : update env set fuel k st s = .done st' s') :
    set.maxRound ≤ st'.round ∨ (3 ≤ st'.round ∧ set.maxStay ≤ st'.stay) ∨ st'.acc < set.minAcc := by
  obtain ⟨-, h, -⟩ := update_done hu
  unfold checkTermination at h
  split at h
  · left; assumption
  · split at h
    · right; left; assumption
    · split at h
      · right; right; assumption
      · cases h

/-- The example stops after its four rounds. -/
example : (match update exSmc exSet 30 9 exSt0 5 with
    | .done st _ => some (st.round, st.pts.length)
    | _ => none) = some (4, 5) := by decide +kernel

/-! ### C66: can a round always be completed? -/

/-- How many particles of positive weight are strictly within a tolerance. -/
def survivors (env : SmcEnv S Θ T P K) (st : SmcState Θ K) (eps : XR K) : Nat :=
  (st.wts.zip st.pts).countP (fun wp => XR.lt (.fin 0) wp.1 && XR.lt (env.dist wp.2.val) eps)

theorem survivors_eq {env : SmcEnv S Θ T P K} (hh : env.rng.Honest) (hnan : ∀ x, env.dist x ≠ .nan)
    {set : SmcSettings K} {st : SmcState Θ K} (h : Reached env set st) (eps1 : XR K) :
    (updateWts env st.eps st.pts st.wts eps1).countP (fun w => XR.lt (.fin 0) w) = survivors env st eps1 := by
  have hsz := h.sized hh
  have hu := updateWts_pos (eps1 := eps1) hsz.valid (by rw [hsz.wts, hsz.pts]) (h.within hh hnan)
  unfold survivors
  generalize updateWts env st.eps st.pts st.wts eps1 = l1 at hu ⊢
  generalize st.wts.zip st.pts = l2 at hu ⊢
  clear hsz
  induction hu with
  | nil => rfl
  | @cons a b l l' hab _ ih =>
    rw [List.countP_cons, List.countP_cons, ih]
    congr 1
    by_cases c : XR.lt (.fin 0) a = true
    · have := hab.1 c
      simp [c, this.1, this.2]
    · have h1 : ¬ (XR.lt (.fin 0) b.1 = true ∧ XR.lt (env.dist b.2.val) eps1 = true) := fun hb => c (hab.2 hb)
      have h2 : (XR.lt (.fin 0) b.1 && XR.lt (env.dist b.2.val) eps1) = false := by
        rw [← Bool.not_eq_true, Bool.and_eq_true]
        exact h1
      simp [c, h2]

theorem takePts_total {theta : List (Pt Θ)} {is : List Nat} (h : ∀ i ∈ is, i < theta.length) :
    ∃ r, takePts theta is = .ok r := by
  unfold takePts
  induction is with
  | nil => exact ⟨[], rfl⟩
  | cons i is ih =>
    obtain ⟨r, hr⟩ := ih (fun j hj => h j (by simp [hj]))
    refine ⟨theta[i]'(h i (by simp)) :: r, ?_⟩
    rw [List.mapM_cons, List.getElem?_eq_getElem (h i (by simp)), hr]
    rfl

theorem findEps_total {env : SmcEnv S Θ T P K} (hh : env.rng.Honest) (hnan : ∀ x, env.dist x ≠ .nan)
    {set : SmcSettings K} {st : SmcState Θ K} (h : Reached env set st) (h0 : 0 ≤ set.alpha) (h1 : set.alpha ≤ 1) :
    ∃ r, findEps env set st.eps st.pts = .ok (.fin r) ∧
      ((st.pts.map (fun p => env.dist p.val)).Nodup →
        set.alpha * (((st.pts.map (fun p => env.dist p.val)).countP (fun d => XR.le d st.eps) : K) / (set.nIter : K)) *
          ((set.nIter : K) - 1) ≤ ((st.pts.map (fun p => env.dist p.val)).countP (fun d => XR.lt d (.fin r)) : K)) := by
  have hsz := h.sized hh
  have hn : set.nIter ≠ 0 := by
    intro h0
    have hw := hsz.wts
    have hv := hsz.valid
    rw [h0, List.length_eq_zero_iff] at hw
    rw [hw] at hv
    simp [validProbs, XR.zero_def] at hv
  obtain ⟨ds, hds⟩ := fin_dists (h.finite hh hnan)
  have hl : ds.length = set.nIter := by
    have := congrArg List.length hds
    simp [hsz.pts] at this
    exact this.symm
  have hne : ds ≠ [] := by
    rintro rfl
    exact hn hl.symm
  unfold findEps
  simp only [hds]
  have hpos : (0 : K) < (set.nIter : K) := by
    have : 0 < set.nIter := Nat.pos_of_ne_zero hn
    exact_mod_cast this
  have hle : ((ds.map XR.fin).countP (fun d => XR.le d st.eps) : K) ≤ (set.nIter : K) := by
    have : (ds.map XR.fin).countP (fun d => XR.le d st.eps) ≤ set.nIter := by
      have := List.countP_le_length (p := fun d => XR.le d st.eps) (l := ds.map XR.fin)
      simpa [hl] using this
    exact_mod_cast this
  have he1 : ((ds.map XR.fin).countP (fun d => XR.le d st.eps) : K) / (set.nIter : K) ≤ 1 := (div_le_one hpos).2 hle
  have he0 : 0 ≤ ((ds.map XR.fin).countP (fun d => XR.le d st.eps) : K) / (set.nIter : K) := by positivity
  rw [List.length_map, hl]
  obtain ⟨r, h2, -, -, -, h3⟩ := Lemmas.quantile_fin ds hne (mul_nonneg h0 he0) (mul_le_one₀ h1 he0 he1)
  refine ⟨r, h2, fun hnd => ?_⟩
  have hnd' : ds.Nodup := List.Nodup.of_map _ hnd
  have h4 := h3 hnd'
  rw [hl] at h4
  refine h4.trans (le_of_eq ?_)
  rw [List.countP_map]
  simp [Function.comp_def]

/-- **C66**, what holds: with finite distances and `0 <= alpha <= 1` a round raises AssertionError when fewer than
three particles of positive weight are strictly within the new tolerance; otherwise it can fail only if the model
fails when it is asked for its domain or simulates a proposal, or because no proposal had a finite distance (C94). -/
theorem C66_partial {env : SmcEnv S Θ T P K} (hh : env.rng.Honest) (hnan : ∀ x, env.dist x ≠ .nan)
    {set : SmcSettings K} {st : SmcState Θ K} (h : Reached env set st) (h0 : 0 ≤ set.alpha) (h1 : set.alpha ≤ 1)
    (fuel : Nat) (s : S) :
    ∃ r, findEps env set st.eps st.pts = .ok (.fin r) ∧
      (survivors env st (nextEps st.eps st.stay (.fin r)).1 ≤ 2 →
        aRound env set fuel st s = some (.error .AssertionError, s)) ∧
      (2 < survivors env st (nextEps st.eps st.stay (.fin r)).1 →
        ∀ e s', aRound env set fuel st s = some (.error e, s') →
          (∃ pts wts t t', env.spread pts wts t = (.error e, t')) ∨
          (∃ tau pt t t', sampleMutation env set.parallel tau (Pt.copy pt) fuel 0 t = some (.error e, t'))) := by
  have hsz := h.sized hh
  obtain ⟨r, hq, -⟩ := findEps_total hh hnan h h0 h1
  refine ⟨r, hq, ?_, ?_⟩
  · intro hs
    rw [← survivors_eq hh hnan h] at hs
    unfold aRound
    rw [hq]
    simp only [Run.bind_apply, Run.ofResult]
    unfold Smc.resample
    rw [if_pos hs]
    rfl
  · intro hs e s' hr
    rw [← survivors_eq hh hnan h] at hs
    have hv := updateWts_valid hsz.valid hs
    have hul : (updateWts env st.eps st.pts st.wts (nextEps st.eps st.stay (.fin r)).1).length = set.nIter := by
      rw [updateWts_length, hsz.wts, hsz.pts, min_self]
    unfold aRound at hr
    rw [hq] at hr
    rcases Run.bind_error.1 hr with hr | ⟨q, s1, h2, hr⟩
    · simp [Run.ofResult] at hr
    obtain ⟨hqr, rfl⟩ := Run.ofResult_ok.1 h2
    injection hqr with hqr
    subst hqr
    rcases Run.bind_error.1 hr with hr | ⟨⟨w, th⟩, s2, h3, hr⟩
    · exfalso
      unfold Smc.resample at hr
      rw [if_neg (by omega)] at hr
      split at hr
      · rw [indWts_pos hv] at hr
        have hsp := hh.support _ set.nIter s hv
        rcases Run.bind_error.1 hr with hr | ⟨is, s3, h4, hr⟩
        · simp [Run.lift, Rand.choice, hv] at hr
        · obtain ⟨-, rfl⟩ := choice_ok (Run.lift_ok.1 h4)
          obtain ⟨l, hl⟩ := takePts_total (theta := st.pts) (fun i hi => by
            obtain ⟨w, hw, -⟩ := hsp i hi
            have := (List.getElem?_eq_some_iff.1 hw).1
            rw [hul] at this
            rw [hsz.pts]
            exact this)
          rw [hl] at hr
          rcases Run.bind_error.1 hr with hr | ⟨is, s3, h4, hr⟩
          · simp [Run.ofResult] at hr
          · simp [pure] at hr
      · simp [pure] at hr
    · obtain ⟨-, h4⟩ := resample_ok hh h3
      have hl : th.length = set.nIter := by
        rcases h4 with ⟨-, h4⟩ | ⟨-, h4, -⟩
        · simp only at h4
          simp [h4, hsz.pts]
        · exact h4
      have hcopy : ∀ p ∈ th, ∃ x : Pt Θ, p = x.copy := by
        intro p hp
        rcases h4 with ⟨-, h4⟩ | ⟨-, -, h4⟩
        · simp only at h4
          rw [h4] at hp
          obtain ⟨x, -, rfl⟩ := List.mem_map.1 hp
          exact ⟨x, rfl⟩
        · obtain ⟨i, x, w, -, e, -⟩ := h4 p hp
          exact ⟨x, e⟩
      rcases Run.bind_error.1 hr with hr | ⟨m, s3, -, hr⟩
      · unfold mcmcProposal at hr
        rw [if_neg (by simp [hl])] at hr
        rcases Run.bind_error.1 hr with hr | ⟨tau, s4, -, hr⟩
        · left
          simp only [Run.lift, Option.some.injEq] at hr
          exact ⟨_, _, _, _, hr⟩
        · rcases Run.bind_error.1 hr with hr | ⟨sp, s5, -, hr⟩
          · right
            obtain ⟨pt, hpt, t, t', hm⟩ := Run.each_error hr
            obtain ⟨x, rfl⟩ := hcopy pt hpt
            exact ⟨tau, x, t, t', hm⟩
          · rcases Run.bind_error.1 hr with hr | ⟨x, s6, -, hr⟩
            · simp [Run.lift] at hr
            · simp [pure] at hr
      · simp [pure] at hr

/-- **C66**, a sufficient condition: with all weights positive, distinct distances and `alpha * (n_iter - 1) > 2` at
least three particles survive. -/
theorem C66_enough {env : SmcEnv S Θ T P K} (hh : env.rng.Honest) (hnan : ∀ x, env.dist x ≠ .nan)
    {set : SmcSettings K} {st : SmcState Θ K} (h : Reached env set st) (h0 : 0 ≤ set.alpha) (h1 : set.alpha ≤ 1)
    (hpos : ∀ w ∈ st.wts, XR.lt (.fin 0) w = true) (hnd : (st.pts.map (fun p => env.dist p.val)).Nodup)
    (hn : 2 < set.alpha * ((set.nIter : K) - 1)) {r : XR K} (hr : findEps env set st.eps st.pts = .ok r) :
    2 < survivors env st (nextEps st.eps st.stay r).1 := by
  have hsz := h.sized hh
  have hw := h.within hh hnan
  have hall : ∀ p ∈ st.pts, XR.lt (env.dist p.val) st.eps = true := by
    intro p hp
    obtain ⟨i, hi, rfl⟩ := List.getElem_of_mem hp
    have hi' : i < st.wts.length := by rw [hsz.wts, ← hsz.pts]; exact hi
    exact C63 hh hnan h i _ _ (List.getElem?_eq_getElem hi') (List.getElem?_eq_getElem hi) (hpos _ (List.getElem_mem hi'))
  obtain ⟨q, hq, hcount⟩ := findEps_total hh hnan h h0 h1
  rw [hq, Except.ok.injEq] at hr
  subst hr
  have hn0 : (set.nIter : K) ≠ 0 := by
    intro h0'
    rw [h0'] at hn
    linarith
  have e0 : (st.pts.map (fun p => env.dist p.val)).countP (fun d => XR.le d st.eps) = set.nIter := by
    rw [List.countP_map, ← hsz.pts, List.countP_eq_length]
    intro p hp
    exact XR.le_of_lt (hall p hp)
  have h2 := hcount hnd
  rw [e0, div_self hn0, mul_one, List.countP_map] at h2
  have h3 : 2 < st.pts.countP (fun p => XR.lt (env.dist p.val) (.fin q)) := by
    have : (2 : K) < (st.pts.countP (fun p => XR.lt (env.dist p.val) (.fin q)) : K) := lt_of_lt_of_le hn h2
    exact_mod_cast this
  have hs : ∀ e, survivors env st e = st.pts.countP (fun p => XR.lt (env.dist p.val) e) := by
    intro e
    have h4 : (st.wts.zip st.pts).map Prod.snd = st.pts := by
      rw [List.map_snd_zip]
      rw [hsz.wts, hsz.pts]
    unfold survivors
    conv_rhs => rw [← h4, List.countP_map]
    apply List.countP_congr
    intro x hx
    simp [hpos _ (List.of_mem_zip hx).1]
  rw [hs]
  unfold nextEps
  split
  · have : st.pts.countP (fun p => XR.lt (env.dist p.val) st.eps) = st.pts.length := by
      rw [List.countP_eq_length]
      exact hall
    have h5 := List.countP_le_length (p := fun p : Pt Θ => XR.lt (env.dist p.val) (.fin q)) (l := st.pts)
    simp only
    omega
  · exact h3

/-- At least three weights are positive, if the population has at least three particles. -/
theorem Reached.three {env : SmcEnv S Θ T P K} (hh : env.rng.Honest) {set : SmcSettings K} {st : SmcState Θ K}
    (hn : 3 ≤ set.nIter) (h : Reached env set st) : 2 < st.wts.countP (fun w => XR.lt (.fin 0) w) := by
  have hu : 2 < (uniformWts set.nIter : List (XR K)).countP (fun w => XR.lt (.fin 0) w) := by
    rw [List.countP_eq_length.2]
    · simp [uniformWts]
      omega
    · intro w hw
      rw [(List.mem_replicate.1 hw).2]
      have : (0 : K) < set.nIter := by
        have : 0 < set.nIter := by omega
        exact_mod_cast this
      simpa using this
  cases h with
  | init h =>
    obtain ⟨-, r, s1, h1, hw, -⟩ := initialise_ok h
    rw [hw]
    exact hu
  | round hr h =>
    obtain ⟨q, s1, s2, m, -, -, -, -, -, h1, -⟩ := aRound_ok h
    obtain ⟨hc, h3⟩ := resample_ok hh h1
    rcases h3 with ⟨h3, -⟩ | ⟨h3, -, -⟩
    · simp only at h3
      rw [h3]
      exact hc
    · simp only at h3
      rw [h3]
      exact hu

/-- **C66**: while the tolerance stays as it is, at least three particles survive. -/
theorem C66_stay {env : SmcEnv S Θ T P K} (hh : env.rng.Honest) (hnan : ∀ x, env.dist x ≠ .nan)
    {set : SmcSettings K} {st : SmcState Θ K} (hn : 3 ≤ set.nIter) (h : Reached env set st) :
    2 < survivors env st st.eps := by
  have h3 := h.three hh hn
  have hw := h.within hh hnan
  unfold survivors
  generalize st.wts = wts at h3 hw
  generalize st.pts = pts at hw
  have : wts.countP (fun w => XR.lt (.fin 0) w) =
      (wts.zip pts).countP (fun wp => XR.lt (.fin 0) wp.1 && XR.lt (env.dist wp.2.val) st.eps) := by
    clear h3
    induction hw with
    | nil => rfl
    | @cons a b l l' hab _ ih =>
      rw [List.zip_cons_cons, List.countP_cons, List.countP_cons, ih]
      congr 1
      by_cases c : XR.lt (.fin 0) a = true
      · simp [c, hab c]
      · simp [c]
  omega

example : (∀ w ∈ exSt0.wts, XR.lt (.fin 0) w = true) ∧ (exSt0.pts.map (fun p => exSmc.dist p.val)).Nodup ∧
    2 < exSet.alpha * ((exSet.nIter : ℚ) - 1) ∧ survivors exSmc exSt0 (.fin 36) = 4 := by
  refine ⟨by decide +kernel, by decide +kernel, by decide +kernel, by decide +kernel⟩

/-- **C66** is false: the distances of all particles are finite, and the first round fails because none of them is
strictly within their common distance. -/
theorem C66_refuted : ∃ st s, initialise flatSmc exSet 30 none 0 = some (.ok st, s) ∧
    (∀ p ∈ st.pts, flatSmc.dist p.val = .fin 1) ∧
    (aRound flatSmc exSet 30 st s).map (·.1) = some (.error .AssertionError) := by
  refine ⟨exSt0, 5, ?_, fun _ _ => rfl, ?_⟩
  · decide +kernel
  · decide +kernel

/-! ### C94: falling back to the parent -/

/-- **C94** is false: when no proposal for a particle has a finite distance, the round does not keep the particle -
the fall-back asks the copied particle for a note it does not have, and the round never completes. -/
theorem C94_refuted {env : SmcEnv S Θ T P K}
    (hinf : ∀ tau x s, ∃ sim s', env.propose tau x s = (.ok (some sim), s') ∧ (env.dist sim).isInf = true)
    {set : SmcSettings K} (hn : set.nIter ≠ 0) (fuel : Nat) (st st' : SmcState Θ K) (s s' : S) :
    aRound env set fuel st s ≠ some (.ok st', s') ∧
    (21 ≤ fuel → ∀ tau x t, ∃ t', sampleMutation env set.parallel tau (Pt.copy x) fuel 0 t = some (.error .KeyError, t')) := by
  have key : ∀ (fuel n : Nat) (par : Bool) tau (x : Pt Θ) t, 
      sampleMutation env par tau x.copy fuel n t = none ∨
      ∃ t', sampleMutation env par tau x.copy fuel n t = some (.error .KeyError, t') := by
    intro fuel
    induction fuel with
    | zero => intro n par tau x t; exact .inl rfl
    | succ fuel ih =>
      intro n par tau x t
      obtain ⟨sim, t1, h1, h2⟩ := hinf tau x.val t
      unfold sampleMutation
      simp only [Run.bind_apply, Run.lift, Pt.copy, h1]
      split
      · right
        exact ⟨t1, by simp [Run.fail]⟩
      · exact ih (n + 1) par tau x t1
  refine ⟨?_, ?_⟩
  · intro h
    obtain ⟨q, s1, s2, m, -, -, -, -, -, h1, h2⟩ := aRound_ok h
    have hcopy : ∀ p ∈ m, ∃ x : Pt Θ, p = x.copy := by
      unfold Smc.resample at h1
      split at h1
      · exact absurd h1 Run.fail_ok
      · split at h1
        · obtain ⟨is, s3, -, h1⟩ := Run.bind_ok.1 h1
          obtain ⟨th, s4, -, h1⟩ := Run.bind_ok.1 h1
          obtain ⟨e, -⟩ := Run.pure_ok.1 h1
          injection e with _ e
          rintro p hp
          rw [← e] at hp
          obtain ⟨x, -, rfl⟩ := List.mem_map.1 hp
          exact ⟨x, rfl⟩
        · obtain ⟨e, -⟩ := Run.pure_ok.1 h1
          injection e with _ e
          rintro p hp
          rw [← e] at hp
          obtain ⟨x, -, rfl⟩ := List.mem_map.1 hp
          exact ⟨x, rfl⟩
    unfold mcmcProposal at h2
    split at h2
    · exact absurd h2 Run.fail_ok
    · rename_i hl
      obtain ⟨tau, s3, -, h2⟩ := Run.bind_ok.1 h2
      obtain ⟨sp, s4, h3, h2⟩ := Run.bind_ok.1 h2
      have hf := Run.each_ok h3
      cases hf with
      | nil =>
        simp at hl
        exact hn hl.symm
      | @cons a b l l' hab _ =>
        obtain ⟨t, t', hab⟩ := hab
        obtain ⟨x, rfl⟩ := hcopy a (by simp)
        rcases key fuel 0 set.parallel tau x t with h4 | ⟨t1, h4⟩ <;> rw [h4] at hab <;> simp at hab
  · intro hf tau x t
    have : ∀ (fuel n : Nat) t, 21 ≤ fuel + n → n ≤ 20 →
        ∃ t', sampleMutation env set.parallel tau x.copy fuel n t = some (.error .KeyError, t') := by
      intro fuel
      induction fuel with
      | zero => intro n t h1 h2; omega
      | succ fuel ih =>
        intro n t h1 h2
        obtain ⟨sim, t1, h3, h4⟩ := hinf tau x.val t
        unfold sampleMutation
        simp only [Run.bind_apply, Run.lift, Pt.copy, h3]
        split
        · exact ⟨t1, by simp [Run.fail]⟩
        · exact ih (n + 1) t1 (by omega) (by omega)
    exact this fuel 0 t (by omega) (by omega)

/-- Such a model; three particles are within the tolerance, and yet the round fails. -/
example : (∀ tau x s, ∃ sim s', farSmc.propose tau x s = (.ok (some sim), s') ∧ (farSmc.dist sim).isInf = true) ∧
    Reached farSmc exSet exSt0 ∧ survivors farSmc exSt0 (.fin 36) = 4 ∧
    (aRound farSmc exSet 30 exSt0 5).map (·.1) = some (.error .KeyError) := by
  refine ⟨fun tau x s => ⟨100, s + 1, rfl, by decide +kernel⟩, .init (fuel := 30) (parents := none) (s := 0) (s' := 5) ?_,
    ?_, ?_⟩
  · decide +kernel
  · decide +kernel
  · decide +kernel

/-- **C94**, what holds: a proposal that `sample_mutation` returns was evaluated at most 20 times more than it failed,
and is either a proposal of the model whose distance is not infinite, or - only outside a parallel run, for a particle
that has its distance noted, after 21 evaluations - that particle itself. -/
theorem C94_partial {env : SmcEnv S Θ T P K} {par : Bool} {tau : T} {pt0 : Pt Θ} {fuel n : Nat} {s s' : S}
    {r : XR K × Pt Θ × Nat} (h : sampleMutation env par tau pt0 fuel n s = some (.ok r, s')) (hn : n ≤ 20) :
    r.1 = env.dist r.2.1.val ∧ n < r.2.2 ∧ r.2.2 ≤ 21 ∧
    ((r.1.isInf = false ∧ r.2.2 ≤ 20 ∧ ∃ sim t t', env.propose tau pt0.val t = (.ok (some sim), t') ∧ r.2.1 = ⟨sim, true⟩) ∨
     (par = false ∧ pt0.cached = true ∧ r.2.1 = pt0 ∧ r.2.2 = 21)) := by
  induction fuel generalizing n s with
  | zero => exact absurd h Run.more_ok
  | succ fuel ih =>
    obtain ⟨x, s1, hx, h⟩ := Run.bind_ok.1 h
    cases x with
    | none => exact ih h hn
    | some sim =>
      simp only at h
      split at h
      · split at h
        · exact absurd h Run.fail_ok
        · rename_i hc
          obtain ⟨rfl, -⟩ := Run.pure_ok.1 h
          simp only [Bool.or_eq_true, Bool.not_eq_true', not_or, Bool.not_eq_true, Bool.not_eq_false] at hc
          exact ⟨rfl, by simp, by simp; omega, .inr ⟨hc.1, hc.2, rfl, by simp; omega⟩⟩
      · split at h
        · obtain ⟨h1, h2, h3, h4⟩ := ih h (by omega)
          exact ⟨h1, by omega, h3, h4⟩
        · rename_i hi
          obtain ⟨rfl, -⟩ := Run.pure_ok.1 h
          exact ⟨rfl, by simp, by simp; omega, .inl ⟨by simpa using hi, by simp; omega, _, _, _, Run.lift_ok.1 hx, rfl⟩⟩

example : (sampleMutation exSmc true () ⟨40, false⟩ 5 0 3).map (·.1) = some (.ok (.fin 20, ⟨20, true⟩, 1)) ∧
    (sampleMutation farSmc false () ⟨40, true⟩ 25 0 3).map (·.1) = some (.ok (.fin 40, ⟨40, true⟩, 21)) := by
  decide +kernel

/-! ### C95: what the posterior consists of -/

/-- **C95**, what holds: `sample_posteriors` collects particles of the last population that have positive weight - never
one of the proposals it has just simulated. -/
theorem C95_partial {env : SmcEnv S Θ T P K} (hh : env.rng.Honest) {set : SmcSettings K} {st : SmcState Θ K}
    (h : Reached env set st) {fuel n : Nat} {s s' : S} {post : List (Pt Θ)}
    (hp : samplePosteriors env set fuel (some st) n s = some (.ok post, s')) :
    post.length = n ∧ ∀ p ∈ post, ∃ (i : Nat) (w : XR K), st.wts[i]? = some w ∧ XR.lt (.fin 0) w = true ∧
      st.pts[i]? = some p :=
  posteriors_ok hh (h.sized hh).valid hp

/-- **C95** is false: the proposal 0 + 1 is within the (infinite) tolerance, and the parent 0 is collected. -/
theorem C95_refuted : Reached plusSmc exSet exSt0 ∧ plusSmc.propose () 0 5 = (.ok (some 1), 6) ∧
    XR.lt (plusSmc.dist 1) exSt0.eps = true ∧
    (samplePosteriors plusSmc exSet 30 (some exSt0) 1 5).map (·.1) = some (.ok [⟨0, true⟩]) := by
  refine ⟨.init (fuel := 30) (parents := none) (s := 0) (s' := 5) ?_, rfl, ?_, ?_⟩
  · decide +kernel
  · decide +kernel
  · decide +kernel

end Props.Smc
