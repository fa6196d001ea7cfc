import Verif.Model.Ga
import Verif.Lemmas.Round
import Verif.Lemmas.Rand
import Mathlib.Algebra.Order.Field.Rat
import Mathlib.Tactic.Linarith
import Mathlib.Tactic.NormNum

/-!
# The genetic algorithm (C71-C75, C102-C104)
-/

namespace Props.Ga
set_option linter.unusedSectionVars false
set_option synthInstance.maxSize 1024

open Py Model Model.Ga

variable {S N K P : Type} [DecidableEq N] [Field K] [LinearOrder K] [IsStrictOrderedRing K]

/-- What numpy guarantees. -/
structure Honest (env : GaEnv S N K P) : Prop where
  rng : env.rng.Honest
  binomial : ∀ p n s is s', env.binomial p n s = (.ok is, s') → is.Pairwise (· < ·) ∧ ∀ i ∈ is, i < n
  distinct : ∀ n k s is s', env.distinct n k s = (.ok is, s') → is.length = k ∧ is.Nodup ∧ ∀ i ∈ is, i < n

/-- An objective with one parameter on [0, 20] that is best at 5; steps go up by one. -/
def exGa : GaEnv Nat String ℚ ℚ where
  domain := fun s => (.ok [⟨"x", .fin 0, .fin 20⟩], s + 1)
  get := fun p n => if n = "x" then some (.fin p) else none
  draw := fun s => (.ok (s % 7 : Nat), s + 1)
  serve := fun l s => (match l.get? "x" with
    | some (.fin v) => .ok v
    | _ => .error .KeyError, s)
  lik := fun p => .fin (-((p - 5) * (p - 5)))
  post := fun p => .fin (-((p - 5) * (p - 5)))
  clone := id
  rng := Lemmas.firstRand
  binomial := fun _ n s => (.ok (List.range n), s + 1)
  normal := fun x _ s => (.ok (x + .fin 1), s + 1)
  distinct := fun n k s => (if k ≤ n then .ok (List.range k) else .error .ValueError, s + 1)
  std := fun _ => .fin 2
  iqr := fun _ => .fin 1
  fifth := fun _ => .fin (1 / 2)
  softmax := fun ws => ws.map (fun _ => .fin (1 / ws.length))
  rnd := id
  eps := 2 ^ (-52 : ℤ)

theorem pairwise_range (n : Nat) : (List.range n).Pairwise (· < ·) := List.pairwise_lt_range

theorem exGa_honest : Honest exGa where
  rng := Lemmas.firstRand_honest
  binomial := by
    intro p n s is s' h
    simp only [exGa, Prod.mk.injEq, Except.ok.injEq] at h
    rw [← h.1]
    exact ⟨pairwise_range n, fun i hi => List.mem_range.1 hi⟩
  distinct := by
    intro n k s is s' h
    simp only [exGa, Prod.mk.injEq] at h
    obtain ⟨h, -⟩ := h
    split at h
    · rename_i hk
      rw [Except.ok.injEq] at h
      rw [← h]
      exact ⟨List.length_range, List.nodup_range, fun i hi => lt_of_lt_of_le (List.mem_range.1 hi) hk⟩
    · cases h

theorem item_ok {env : GaEnv S N K P} {p : P} {n : N} {v : XR K} : item env p n = .ok v ↔ env.get p n = some v := by
  unfold item
  cases env.get p n <;> simp

/-! ### C71: crossover -/

theorem average_ok {env : GaEnv S N K P} {p1 p2 : P} {ds : List (GaDom N K)} {l0 l : Dict N (XR K)}
    (h : average env p1 p2 l0 ds = .ok l) :
    (∀ n, n ∈ l.keys ↔ n ∈ l0.keys ∨ n ∈ ds.map (·.name)) ∧
    (∀ n, n ∈ ds.map (·.name) → ∃ a b, env.get p1 n = some a ∧ env.get p2 n = some b ∧
      l.get? n = some ((a + b) / .fin 2)) ∧
    (∀ n, n ∉ ds.map (·.name) → l.get? n = l0.get? n) := by
  induction ds generalizing l0 with
  | nil =>
    simp only [average, Except.ok.injEq] at h
    subst h
    simp
  | cons d ds ih =>
    unfold average at h
    cases ha : item env p1 d.name with
    | error e => simp [ha, bind, Except.bind] at h
    | ok a =>
      cases hb : item env p2 d.name with
      | error e => simp [ha, hb, bind, Except.bind] at h
      | ok b =>
        simp only [ha, hb, bind, Except.bind] at h
        obtain ⟨h1, h2, h3⟩ := ih h
        refine ⟨?_, ?_, ?_⟩
        · intro n
          rw [h1, Dict.mem_keys_set]
          simp only [List.map_cons, List.mem_cons]
          tauto
        · intro n hn
          by_cases hm : n ∈ ds.map (·.name)
          · exact h2 n hm
          · obtain rfl : n = d.name := by
              rcases List.mem_cons.1 hn with h | h
              · exact h
              · exact absurd h hm
            exact ⟨a, b, item_ok.1 ha, item_ok.1 hb, by rw [h3 _ hm, Dict.get?_set_self]⟩
        · intro n hn
          simp only [List.map_cons, List.mem_cons, not_or] at hn
          rw [h3 n hn.2, Dict.get?_set_ne _ _ (Ne.symm hn.1)]

/-- **C71**, average crossover: both children have exactly the parameters of the domain, with the mean of the parents'
values, which lies between them. -/
theorem C71_average {env : GaEnv S N K P} {p1 p2 : P} {s s' : S} {c1 c2 : Dict N (XR K)}
    (h : averageCross env p1 p2 s = some (.ok (c1, c2), s')) :
    ∃ ds s1, env.domain s = (.ok ds, s1) ∧ c1 = c2 ∧ (∀ n, n ∈ c1.keys ↔ n ∈ ds.map (·.name)) ∧
      ∀ n ∈ ds.map (·.name), ∃ a b, env.get p1 n = some a ∧ env.get p2 n = some b ∧
        c1.get? n = some ((a + b) / .fin 2) ∧
        ∀ x y, a = .fin x → b = .fin y →
          ∃ z, c1.get? n = some (.fin z) ∧ min x y ≤ z ∧ z ≤ max x y := by
  unfold averageCross at h
  obtain ⟨ds, s1, h1, h⟩ := Run.bind_ok.1 h
  obtain ⟨l, s2, h2, h⟩ := Run.bind_ok.1 h
  obtain ⟨h, -⟩ := Run.pure_ok.1 h
  simp only [Prod.mk.injEq] at h
  obtain ⟨rfl, rfl⟩ := h
  obtain ⟨k1, k2, -⟩ := average_ok (Run.ofResult_ok.1 h2).1
  refine ⟨ds, s1, Run.lift_ok.1 h1, rfl, fun n => by rw [k1]; simp, fun n hn => ?_⟩
  obtain ⟨a, b, ha, hb, hv⟩ := k2 n hn
  refine ⟨a, b, ha, hb, hv, ?_⟩
  rintro x y rfl rfl
  refine ⟨(x + y) / 2, ?_, ?_, ?_⟩
  · rw [hv]
    congr 1
    exact XR.fin_div_fin_of_ne (x + y) (by norm_num)
  · rcases le_total x y with h | h
    · rw [min_eq_left h]
      linarith
    · rw [min_eq_right h]
      linarith
  · rcases le_total x y with h | h
    · rw [max_eq_right h]
      linarith
    · rw [max_eq_left h]
      linarith

example : averageCross exGa 2 8 0 = some (.ok ([("x", .fin 5)], [("x", .fin 5)]), 1) := by decide +kernel

theorem shuffleOne_ok {env : GaEnv S N K P} {p1 p2 : P} {n : N} {l l' : Dict N (XR K) × Dict N (XR K)} {s s' : S}
    (h : shuffleOne env p1 p2 n l s = some (.ok l', s')) :
    ∃ a b, env.get p1 n = some a ∧ env.get p2 n = some b ∧
      (l' = (l.1.set n a, l.2.set n b) ∨ l' = (l.1.set n b, l.2.set n a)) := by
  unfold shuffleOne at h
  obtain ⟨u, s1, -, h⟩ := Run.bind_ok.1 h
  split at h
  · obtain ⟨b, s2, h2, h⟩ := Run.bind_ok.1 h
    obtain ⟨a, s3, h3, h⟩ := Run.bind_ok.1 h
    obtain ⟨rfl, -⟩ := Run.pure_ok.1 h
    exact ⟨a, b, item_ok.1 (Run.ofResult_ok.1 h3).1, item_ok.1 (Run.ofResult_ok.1 h2).1, .inr rfl⟩
  · obtain ⟨a, s2, h2, h⟩ := Run.bind_ok.1 h
    obtain ⟨b, s3, h3, h⟩ := Run.bind_ok.1 h
    obtain ⟨rfl, -⟩ := Run.pure_ok.1 h
    exact ⟨a, b, item_ok.1 (Run.ofResult_ok.1 h2).1, item_ok.1 (Run.ofResult_ok.1 h3).1, .inl rfl⟩

theorem shuffle_ok {env : GaEnv S N K P} {p1 p2 : P} {ds : List (GaDom N K)}
    {l0 l : Dict N (XR K) × Dict N (XR K)} {s s' : S} (h : shuffle env p1 p2 l0 ds s = some (.ok l, s')) :
    (∀ n, (n ∈ l.1.keys ↔ n ∈ l0.1.keys ∨ n ∈ ds.map (·.name)) ∧
      (n ∈ l.2.keys ↔ n ∈ l0.2.keys ∨ n ∈ ds.map (·.name))) ∧
    (∀ n, n ∈ ds.map (·.name) → ∃ a b, env.get p1 n = some a ∧ env.get p2 n = some b ∧
      ((l.1.get? n = some a ∧ l.2.get? n = some b) ∨ (l.1.get? n = some b ∧ l.2.get? n = some a))) ∧
    (∀ n, n ∉ ds.map (·.name) → l.1.get? n = l0.1.get? n ∧ l.2.get? n = l0.2.get? n) := by
  induction ds generalizing l0 s with
  | nil =>
    obtain ⟨rfl, -⟩ := Run.pure_ok.1 h
    simp
  | cons d ds ih =>
    unfold shuffle at h
    obtain ⟨l1, s1, h1, h⟩ := Run.bind_ok.1 h
    obtain ⟨a, b, ha, hb, hl⟩ := shuffleOne_ok h1
    obtain ⟨k1, k2, k3⟩ := ih h
    have hkeys : ∀ n, (n ∈ l1.1.keys ↔ n = d.name ∨ n ∈ l0.1.keys) ∧ (n ∈ l1.2.keys ↔ n = d.name ∨ n ∈ l0.2.keys) := by
      intro n
      rcases hl with rfl | rfl
      · exact ⟨Dict.mem_keys_set .., Dict.mem_keys_set ..⟩
      · exact ⟨Dict.mem_keys_set .., Dict.mem_keys_set ..⟩
    clear ih
    refine ⟨?_, ?_, ?_⟩
    · intro n
      rw [(k1 n).1, (k1 n).2, (hkeys n).1, (hkeys n).2, List.map_cons, List.mem_cons, or_assoc, or_assoc,
        or_left_comm, or_left_comm (a := n = d.name)]
      exact ⟨Iff.rfl, Iff.rfl⟩
    · intro n hn
      by_cases hm : n ∈ ds.map (·.name)
      · exact k2 n hm
      · obtain rfl : n = d.name := by
          rcases List.mem_cons.1 hn with h | h
          · exact h
          · exact absurd h hm
        refine ⟨a, b, ha, hb, ?_⟩
        obtain ⟨j1, j2⟩ := k3 _ hm
        rw [j1, j2]
        rcases hl with rfl | rfl
        · exact .inl ⟨Dict.get?_set_self .., Dict.get?_set_self ..⟩
        · exact .inr ⟨Dict.get?_set_self .., Dict.get?_set_self ..⟩
    · intro n hn
      simp only [List.map_cons, List.mem_cons, not_or] at hn
      obtain ⟨j1, j2⟩ := k3 n hn.2
      rw [j1, j2]
      rcases hl with rfl | rfl <;>
        exact ⟨Dict.get?_set_ne _ _ (Ne.symm hn.1), Dict.get?_set_ne _ _ (Ne.symm hn.1)⟩

/-- **C71**, shuffle crossover: both children have exactly the parameters of the domain, and at each of them the pair
of the children's values is the pair of the parents' values, swapped or not. -/
theorem C71_shuffle {env : GaEnv S N K P} {p1 p2 : P} {s s' : S} {c1 c2 : Dict N (XR K)}
    (h : shuffleCross env p1 p2 s = some (.ok (c1, c2), s')) :
    ∃ ds s1, env.domain s = (.ok ds, s1) ∧ (∀ n, n ∈ c1.keys ↔ n ∈ ds.map (·.name)) ∧
      (∀ n, n ∈ c2.keys ↔ n ∈ ds.map (·.name)) ∧
      ∀ n ∈ ds.map (·.name), ∃ a b, env.get p1 n = some a ∧ env.get p2 n = some b ∧
        ((c1.get? n = some a ∧ c2.get? n = some b) ∨ (c1.get? n = some b ∧ c2.get? n = some a)) := by
  unfold shuffleCross at h
  obtain ⟨ds, s1, h1, h⟩ := Run.bind_ok.1 h
  obtain ⟨k1, k2, -⟩ := shuffle_ok h
  exact ⟨ds, s1, Run.lift_ok.1 h1, fun n => by rw [(k1 n).1]; simp, fun n => by rw [(k1 n).2]; simp, k2⟩

example : shuffleCross exGa 2 8 0 = some (.ok ([("x", .fin 8)], [("x", .fin 2)]), 2) := by decide +kernel

/-- What one pair becomes: the children of the two, which take their places. -/
theorem crossPair_ok {env : GaEnv S N K P} {c : Cross} {i : Nat} {ps ps' : List P} {s s' : S}
    (h : crossPair env c i ps s = some (.ok ps', s')) :
    ∃ a b, ps[2 * i]? = some a ∧ ps[2 * i + 1]? = some b ∧ ∃ l t t' p q t1 t2 t3,
      cross env c a b t = some (.ok l, t') ∧ env.serve l.1 t1 = (.ok p, t2) ∧ env.serve l.2 t2 = (.ok q, t3) ∧
      ps' = (ps.set (2 * i) p).set (2 * i + 1) q := by
  unfold crossPair at h
  cases ha : ps[2 * i]? with
  | none =>
    simp only [ha] at h
    exact absurd h Run.fail_ok
  | some a =>
    cases hb : ps[2 * i + 1]? with
    | none =>
      simp only [ha, hb] at h
      exact absurd h Run.fail_ok
    | some b =>
    simp only [ha, hb] at h
    obtain ⟨l, t', h1, h⟩ := Run.bind_ok.1 h
    obtain ⟨p, t2, h2, h⟩ := Run.bind_ok.1 h
    obtain ⟨q, t3, h3, h⟩ := Run.bind_ok.1 h
    obtain ⟨rfl, -⟩ := Run.pure_ok.1 h
    exact ⟨a, b, rfl, rfl, l, _, _, p, q, _, _, _, h1, Run.lift_ok.1 h2, Run.lift_ok.1 h3, rfl⟩

theorem crossPairs_ok {env : GaEnv S N K P} {c : Cross} {is : List Nat} (hn : is.Nodup) {ps ps' : List P} {s s' : S}
    (h : crossPairs env c is ps s = some (.ok ps', s')) :
    ps'.length = ps.length ∧
    (∀ j, (∀ i ∈ is, j ≠ 2 * i ∧ j ≠ 2 * i + 1) → ps'[j]? = ps[j]?) ∧
    ∀ i ∈ is, ∃ a b, ps[2 * i]? = some a ∧ ps[2 * i + 1]? = some b ∧ ∃ l t t' p q t1 t2 t3,
      cross env c a b t = some (.ok l, t') ∧ env.serve l.1 t1 = (.ok p, t2) ∧ env.serve l.2 t2 = (.ok q, t3) ∧
      ps'[2 * i]? = some p ∧ ps'[2 * i + 1]? = some q := by
  induction is generalizing ps s with
  | nil =>
    obtain ⟨rfl, -⟩ := Run.pure_ok.1 h
    simp
  | cons i is ih =>
    obtain ⟨hi, hn⟩ := List.nodup_cons.1 hn
    obtain ⟨ps1, s1, h1, h2⟩ := Run.bind_ok.1 h
    obtain ⟨k1, k2, k3⟩ := ih hn h2
    obtain ⟨a, b, ha, hb, l, t, t', p, q, t1, t2, t3, e1, e2, e3, rfl⟩ := crossPair_ok h1
    have hother : ∀ j, j ≠ 2 * i → j ≠ 2 * i + 1 → ((ps.set (2 * i) p).set (2 * i + 1) q)[j]? = ps[j]? := by
      intro j h3 h4
      rw [List.getElem?_set_ne (Ne.symm h4), List.getElem?_set_ne (Ne.symm h3)]
    refine ⟨by simpa using k1, ?_, ?_⟩
    · intro j hj
      rw [k2 j (fun i' hi' => hj i' (by simp [hi']))]
      exact hother j (hj i (by simp)).1 (hj i (by simp)).2
    · intro j hj
      rcases List.mem_cons.1 hj with rfl | hj
      · have hl : 2 * j + 1 < ps.length := (List.getElem?_eq_some_iff.1 hb).1
        refine ⟨a, b, ha, hb, l, t, t', p, q, t1, t2, t3, e1, e2, e3, ?_, ?_⟩
        · rw [k2 (2 * j) (by
            intro i' hi'
            have : i' ≠ j := fun e => hi (e ▸ hi')
            omega)]
          rw [List.getElem?_set_ne (by omega), List.getElem?_set_self (by omega)]
        · rw [k2 (2 * j + 1) (by
            intro i' hi'
            have : i' ≠ j := fun e => hi (e ▸ hi')
            omega)]
          rw [List.getElem?_set_self (by simpa using hl)]
      · obtain ⟨a', b', ha', hb', r⟩ := k3 j hj
        have hne : j ≠ i := fun e => hi (e ▸ hj)
        rw [hother _ (by omega) (by omega)] at ha' hb'
        exact ⟨a', b', ha', hb', r⟩

/-- **C71**, the population: crossover keeps its size; the pairs drawn (individuals `2 i` and `2 i + 1`) are replaced by
their two children, each parent by one, and everybody else stays. -/
theorem C71_population {env : GaEnv S N K P} (hh : Honest env) {set : Settings K} {ps ps' : List P} {s s' : S}
    (h : crossover env set ps s = some (.ok ps', s')) :
    ∃ is s1, env.binomial set.pCro (ps.length / 2) s = (.ok is, s1) ∧ ps'.length = ps.length ∧
    (∀ j, j / 2 ∉ is → ps'[j]? = ps[j]?) ∧
    ∀ i ∈ is, ∃ a b, ps[2 * i]? = some a ∧ ps[2 * i + 1]? = some b ∧ ∃ l t t' p q t1 t2 t3,
      cross env set.cro a b t = some (.ok l, t') ∧ env.serve l.1 t1 = (.ok p, t2) ∧ env.serve l.2 t2 = (.ok q, t3) ∧
      ps'[2 * i]? = some p ∧ ps'[2 * i + 1]? = some q := by
  unfold crossover at h
  obtain ⟨is, s1, h1, h2⟩ := Run.bind_ok.1 h
  have h1 := Run.lift_ok.1 h1
  obtain ⟨b1, -⟩ := hh.binomial _ _ _ _ _ h1
  obtain ⟨k1, k2, k3⟩ := crossPairs_ok (b1.imp (fun h => Nat.ne_of_lt h)) h2
  refine ⟨is, s1, h1, k1, ?_, k3⟩
  intro j hj
  apply k2
  intro i hi
  constructor
  · rintro rfl
    exact hj (by rwa [show 2 * i / 2 = i by omega])
  · rintro rfl
    exact hj (by rwa [show (2 * i + 1) / 2 = i by omega])

/-- The odd one out stays. -/
example : Honest exGa ∧ (crossover exGa ⟨3, 4, 2, .fin (1 / 10), .fin (4 / 5), .shuffle, .tour 2, true⟩ [2, 8, 4] 0).map (·.1) =
    some (.ok [8, 2, 4]) := ⟨exGa_honest, by decide +kernel⟩

/-! ### C72: mutation stays inside the domain -/

/-- Rounding applied to numbers; infinite ones and NaN stay. -/
def onFin (r : K → K) : XR K → XR K
  | .fin x => .fin (r x)
  | x => x

theorem clamp_inside {env : GaEnv S N K P} {r : K → K} (hr : env.rnd = onFin r) {d : GaDom N K}
    (hl : d.lower = .ninf ∨ ∃ l, d.lower = .fin l ∧ l < r (l + env.eps))
    (hu : d.upper = .pinf ∨ ∃ u, d.upper = .fin u ∧ r (u - env.eps) < u)
    (hlu : ∀ l u, d.lower = .fin l → d.upper = .fin u → r (l + env.eps) ≤ r (u - env.eps)) (x : K) :
    ∃ y, clamp env d (.fin x) = .fin y ∧ XR.lt d.lower (.fin y) = true ∧ XR.lt (.fin y) d.upper = true := by
  obtain ⟨n, lo, up⟩ := d
  simp only at hl hu hlu
  unfold clamp pyMax pyMin
  rw [hr]
  rcases hl with rfl | ⟨l, rfl, hl⟩ <;> rcases hu with rfl | ⟨u, rfl, hu⟩
  · exact ⟨x, rfl, rfl, rfl⟩
  · have e : onFin r (XR.fin u - XR.fin env.eps) = .fin (r (u - env.eps)) := by
      show XR.fin (r (u + -env.eps)) = _
      rw [sub_eq_add_neg]
    have e' : onFin r ((XR.ninf : XR K) + XR.fin env.eps) = .ninf := rfl
    rw [e, e']
    by_cases h : r (u - env.eps) < x
    · refine ⟨r (u - env.eps), ?_, rfl, by simpa using hu⟩
      simp only [XR.lt_fin, h, decide_true, if_true]
      rfl
    · refine ⟨x, ?_, rfl, by simpa using lt_of_le_of_lt (not_lt.1 h) hu⟩
      simp only [XR.lt_fin, h, decide_false]
      rfl
  · have e : onFin r (XR.fin l + XR.fin env.eps) = .fin (r (l + env.eps)) := rfl
    have e' : onFin r ((XR.pinf : XR K) - XR.fin env.eps) = .pinf := rfl
    rw [e, e']
    by_cases h : x < r (l + env.eps)
    · refine ⟨r (l + env.eps), ?_, by simpa using hl, rfl⟩
      show (if XR.lt (XR.fin x) (XR.fin (r (l + env.eps))) = true then _ else _) = _
      rw [if_pos (by simpa using h)]
    · refine ⟨x, ?_, by simpa using lt_of_lt_of_le hl (not_lt.1 h), rfl⟩
      show (if XR.lt (XR.fin x) (XR.fin (r (l + env.eps))) = true then _ else _) = _
      rw [if_neg (by simpa using h)]
      rfl
  · have e : onFin r (XR.fin u - XR.fin env.eps) = .fin (r (u - env.eps)) := by
      show XR.fin (r (u + -env.eps)) = _
      rw [sub_eq_add_neg]
    have e' : onFin r (XR.fin l + XR.fin env.eps) = .fin (r (l + env.eps)) := rfl
    have hle := hlu l u rfl rfl
    rw [e, e']
    by_cases h : r (u - env.eps) < x
    · refine ⟨r (u - env.eps), ?_, by simpa using lt_of_lt_of_le hl hle, by simpa using hu⟩
      simp only [XR.lt_fin, h, decide_true, if_true, hle.not_gt, decide_false]
      rfl
    · by_cases h' : x < r (l + env.eps)
      · refine ⟨r (l + env.eps), ?_, by simpa using hl, by simpa using lt_of_le_of_lt hle hu⟩
        simp [XR.lt_fin, h, h']
      · refine ⟨x, ?_, by simpa using lt_of_lt_of_le hl (not_lt.1 h'), by simpa using lt_of_le_of_lt (not_lt.1 h) hu⟩
        simp [XR.lt_fin, h, h']

/-- **C72**, in exact arithmetic: on a domain at least two epsilons wide every proposed value lies strictly inside. -/
theorem C72_exact_partial {env : GaEnv S N K P} (hr : env.rnd = id) (he : 0 < env.eps) {d : GaDom N K}
    (hl : d.lower = .ninf ∨ ∃ l, d.lower = .fin l) (hu : d.upper = .pinf ∨ ∃ u, d.upper = .fin u)
    (hlu : ∀ l u, d.lower = .fin l → d.upper = .fin u → 2 * env.eps ≤ u - l) (x : K) :
    ∃ y, clamp env d (.fin x) = .fin y ∧ XR.lt d.lower (.fin y) = true ∧ XR.lt (.fin y) d.upper = true := by
  refine clamp_inside (r := id) ?_ ?_ ?_ ?_ x
  · rw [hr]
    funext x
    cases x <;> rfl
  · rcases hl with h | ⟨l, h⟩
    · exact .inl h
    · exact .inr ⟨l, h, by simpa using he⟩
  · rcases hu with h | ⟨u, h⟩
    · exact .inl h
    · exact .inr ⟨u, h, by simpa using he⟩
  · intro l u h1 h2
    have := hlu l u h1 h2
    simp only [id]
    linarith

/-- **C72**, in double precision: the same, if the finite ends lie between -2 and 2. -/
theorem C72_partial {env : GaEnv S N K P} {r : K → K} (hR : Lemmas.Rounding r) (hr : env.rnd = onFin r)
    (he : env.eps = 2 ^ (-52 : ℤ)) {d : GaDom N K}
    (hl : d.lower = .ninf ∨ ∃ l, d.lower = .fin l ∧ Lemmas.IsDouble l ∧ -2 ≤ l ∧ l < 2)
    (hu : d.upper = .pinf ∨ ∃ u, d.upper = .fin u ∧ Lemmas.IsDouble u ∧ -2 < u ∧ u ≤ 2)
    (hlu : ∀ l u, d.lower = .fin l → d.upper = .fin u → 2 * env.eps ≤ u - l) (x : K) :
    ∃ y, clamp env d (.fin x) = .fin y ∧ XR.lt d.lower (.fin y) = true ∧ XR.lt (.fin y) d.upper = true := by
  refine clamp_inside hr ?_ ?_ ?_ x
  · rcases hl with h | ⟨l, h, h1, h2, h3⟩
    · exact .inl h
    · exact .inr ⟨l, h, by rw [he]; exact hR.add_eps h1 h2 h3⟩
  · rcases hu with h | ⟨u, h, h1, h2, h3⟩
    · exact .inl h
    · exact .inr ⟨u, h, by rw [he]; exact hR.sub_eps h1 h2 h3⟩
  · intro l u h1 h2
    have := hlu l u h1 h2
    exact hR.mono _ _ (by linarith)

/-- The same objective in double precision. -/
def doubleGa : GaEnv Nat String ℚ ℚ := { exGa with rnd := onFin Lemmas.roundDouble }

example : Lemmas.Rounding Lemmas.roundDouble ∧ doubleGa.rnd = onFin Lemmas.roundDouble ∧
    Lemmas.IsDouble (0 : ℚ) ∧ Lemmas.IsDouble (1 : ℚ) ∧
    clamp doubleGa ⟨"x", .fin 0, .fin 1⟩ (.fin 7) = .fin (1 - 2 ^ (-52 : ℤ)) :=
  ⟨Lemmas.roundDouble_rounding, rfl, ⟨0, 0, by norm_num, by norm_num⟩, ⟨1, 0, by norm_num, by norm_num⟩,
    by decide +kernel⟩

/-- **C72** is false in double precision: on [0, 20] a step beyond the upper end proposes the upper end itself. -/
theorem C72_refuted : clamp doubleGa ⟨"x", .fin 0, .fin 20⟩ (.fin 21) = .fin 20 := by decide +kernel

theorem propose_ok {env : GaEnv S N K P} {scs : Dict N (XR K)} {p : P} {ds : List (GaDom N K)} {l0 l : Dict N (XR K)}
    {s s' : S} (h : proposeNodes env scs p l0 ds s = some (.ok l, s')) :
    (∀ n, n ∈ l.keys ↔ n ∈ l0.keys ∨ n ∈ ds.map (·.name)) ∧
    (∀ n, n ∈ ds.map (·.name) → ∃ d v, d ∈ ds ∧ d.name = n ∧ l.get? n = some (clamp env d v) ∧
      ∃ x sc t t', env.get p n = some x ∧ scs.get? n = some sc ∧ env.normal x sc t = (.ok v, t')) ∧
    (∀ n, n ∉ ds.map (·.name) → l.get? n = l0.get? n) := by
  induction ds generalizing l0 s with
  | nil =>
    obtain ⟨rfl, -⟩ := Run.pure_ok.1 h
    simp
  | cons d ds ih =>
    unfold proposeNodes at h
    obtain ⟨x, s1, h1, h⟩ := Run.bind_ok.1 h
    obtain ⟨sc, s2, h2, h⟩ := Run.bind_ok.1 h
    obtain ⟨v, s3, h3, h⟩ := Run.bind_ok.1 h
    obtain ⟨k1, k2, k3⟩ := ih h
    have hsc : scs.get? d.name = some sc := by
      have := (Run.ofResult_ok.1 h2).1
      split at this
      · rename_i w hw
        rw [hw, ← Except.ok.inj this]
      · cases this
    refine ⟨?_, ?_, ?_⟩
    · intro n
      rw [k1, Dict.mem_keys_set]
      simp only [List.map_cons, List.mem_cons]
      tauto
    · intro n hn
      by_cases hm : n ∈ ds.map (·.name)
      · obtain ⟨d', v', hd', r⟩ := k2 n hm
        exact ⟨d', v', by simp [hd'], r⟩
      · obtain rfl : n = d.name := by
          rcases List.mem_cons.1 hn with h | h
          · exact h
          · exact absurd h hm
        exact ⟨d, v, by simp, rfl, by rw [k3 _ hm, Dict.get?_set_self], x, sc, _, _,
          item_ok.1 (Run.ofResult_ok.1 h1).1, hsc, Run.lift_ok.1 h3⟩
    · intro n hn
      simp only [List.map_cons, List.mem_cons, not_or] at hn
      rw [k3 n hn.2, Dict.get?_set_ne _ _ (Ne.symm hn.1)]

/-- **C72**, the whole proposal: it has exactly the parameters of the domain, each a normal draw around the parent's
value with the scale of the parameter, moved inside the domain. -/
theorem C72_propose {env : GaEnv S N K P} {scs : Dict N (XR K)} {p : P} {s s' : S} {l : Dict N (XR K)}
    (h : propose env scs p s = some (.ok l, s')) :
    ∃ ds s1, env.domain s = (.ok ds, s1) ∧ (∀ n, n ∈ l.keys ↔ n ∈ ds.map (·.name)) ∧
      ∀ n ∈ ds.map (·.name), ∃ d v, d ∈ ds ∧ d.name = n ∧ l.get? n = some (clamp env d v) ∧
        ∃ x sc t t', env.get p n = some x ∧ scs.get? n = some sc ∧ env.normal x sc t = (.ok v, t') := by
  unfold propose at h
  obtain ⟨ds, s1, h1, h⟩ := Run.bind_ok.1 h
  obtain ⟨k1, k2, -⟩ := propose_ok h
  exact ⟨ds, s1, Run.lift_ok.1 h1, fun n => by rw [k1]; simp, k2⟩

example : propose exGa [("x", .fin 1)] 3 0 = some (.ok [("x", .fin 4)], 2) := by decide +kernel

/-! ### C102: scales -/

theorem scaleOf_pos {env : GaEnv S N K P} {xs : List (XR K)} {a b c : K} (ha : env.iqr xs = .fin a) (ha0 : 0 ≤ a)
    (hb : env.std xs = .fin b) (hb0 : 0 ≤ b) (hc : env.fifth xs.length = .fin c) (hc0 : 0 < c) :
    ∃ y, scaleOf env xs = .fin y ∧ 0 < y := by
  have hdiv : (XR.fin a / XR.fin (67 / 50) : XR K) = .fin (a / (67 / 50)) :=
    XR.fin_div_fin_of_ne a (by norm_num)
  have hmul : ∀ x y : K, (XR.fin x * XR.fin y : XR K) = .fin (x * y) := fun x y => rfl
  have hmin : ∃ m, pyMin (XR.fin a) (XR.fin (a / (67 / 50)) : XR K) = .fin m ∧ 0 ≤ m := by
    unfold pyMin
    split
    · exact ⟨_, rfl, div_nonneg ha0 (by norm_num)⟩
    · exact ⟨_, rfl, ha0⟩
  obtain ⟨m, hm, hm0⟩ := hmin
  unfold scaleOf
  simp only [ha, hb, hc, hdiv, hm]
  by_cases h1 : m = 0
  · subst h1
    by_cases h2 : b = 0
    · subst h2
      refine ⟨9 / 10 * (1 / 10) * c, ?_, by positivity⟩
      simp only [if_true, hmul]
    · refine ⟨9 / 10 * b * c, ?_, by have := lt_of_le_of_ne hb0 (Ne.symm h2); positivity⟩
      simp only [if_true, XR.fin.injEq, h2, if_false, hmul]
  · refine ⟨9 / 10 * m * c, ?_, by have := lt_of_le_of_ne hm0 (Ne.symm h1); positivity⟩
    simp only [XR.fin.injEq, h1, if_false, hmul]

theorem scales_ok {env : GaEnv S N K P} {ps : List P} {ds : List (GaDom N K)} {acc scs : Dict N (XR K)}
    (h : scales env ps acc ds = .ok scs) :
    (∀ n, n ∈ ds.map (·.name) → ∃ xs, ps.mapM (fun p => item env p n) = .ok xs ∧
      scs.get? n = some (scaleOf env xs)) ∧ (∀ n, n ∉ ds.map (·.name) → scs.get? n = acc.get? n) := by
  induction ds generalizing acc with
  | nil =>
    simp only [scales, Except.ok.injEq] at h
    subst h
    simp
  | cons d ds ih =>
    unfold scales at h
    cases hx : ps.mapM (fun p => item env p d.name) with
    | error e => simp [hx, bind, Except.bind] at h
    | ok xs =>
      simp only [hx, bind, Except.bind] at h
      obtain ⟨h1, h2⟩ := ih h
      constructor
      · intro n hn
        by_cases hm : n ∈ ds.map (·.name)
        · exact h1 n hm
        · obtain rfl : n = d.name := by
            rcases List.mem_cons.1 hn with h | h
            · exact h
            · exact absurd h hm
          exact ⟨xs, hx, by rw [h2 _ hm, Dict.get?_set_self]⟩
      · intro n hn
        simp only [List.map_cons, List.mem_cons, not_or] at hn
        rw [h2 n hn.2, Dict.get?_set_ne _ _ (Ne.symm hn.1)]

/-- **C102**: every parameter of the domain gets a positive scale, also when the population agrees on it. -/
theorem C102 {env : GaEnv S N K P} (hstd : ∀ xs, ∃ b, env.std xs = .fin b ∧ 0 ≤ b)
    (hiqr : ∀ xs, ∃ a, env.iqr xs = .fin a ∧ 0 ≤ a) (h5 : ∀ n, ∃ c, env.fifth n = .fin c ∧ 0 < c)
    {ps : List P} {old scs : Dict N (XR K)} {s s' : S} (h : setScales env ps old s = some (.ok scs, s')) :
    ∃ ds s1, env.domain s = (.ok ds, s1) ∧ ∀ n ∈ ds.map (·.name), ∃ y, scs.get? n = some (.fin y) ∧ 0 < y := by
  unfold setScales at h
  obtain ⟨ds, s1, h1, h⟩ := Run.bind_ok.1 h
  obtain ⟨k1, -⟩ := scales_ok (Run.ofResult_ok.1 h).1
  refine ⟨ds, s1, Run.lift_ok.1 h1, fun n hn => ?_⟩
  obtain ⟨xs, -, hx⟩ := k1 n hn
  obtain ⟨b, hb, hb0⟩ := hstd xs
  obtain ⟨a, ha, ha0⟩ := hiqr xs
  obtain ⟨c, hc, hc0⟩ := h5 xs.length
  obtain ⟨y, hy, hy0⟩ := scaleOf_pos ha ha0 hb hb0 hc hc0
  exact ⟨y, by rw [hx, hy], hy0⟩

example : (∀ xs, ∃ b, exGa.std xs = .fin b ∧ 0 ≤ b) ∧ (∀ xs, ∃ a, exGa.iqr xs = .fin a ∧ 0 ≤ a) ∧
    (∀ n, ∃ c, exGa.fifth n = .fin c ∧ 0 < c) ∧
    setScales exGa [1, 2, 3] [] 0 = some (.ok [("x", .fin (9 / 10 * (50 / 67) * (1 / 2)))], 1) ∧
    setScales { exGa with iqr := fun _ => .fin 0, std := fun _ => .fin 0 } [1, 1, 1] [] 0 =
      some (.ok [("x", .fin (9 / 10 * (1 / 10) * (1 / 2)))], 1) :=
  ⟨fun _ => ⟨2, rfl, by norm_num⟩, fun _ => ⟨1, rfl, by norm_num⟩, fun _ => ⟨1 / 2, rfl, by norm_num⟩,
    by decide +kernel, by decide +kernel⟩

/-! ### C73: selection -/

theorem maxBy_ok {f : P → XR K} {ps : List P} {b : P} (h : maxBy f ps = .ok b) :
    b ∈ ps ∧ ∀ p ∈ ps, XR.lt (f b) (f p) = false := by
  cases ps with
  | nil => cases h
  | cons x xs =>
    simp only [maxBy, Except.ok.injEq] at h
    subst h
    have trans : ∀ a b c : XR K, XR.lt a b = true → XR.lt b c = true → XR.lt a c = true := by
      intro a b c h1 h2
      exact XR.lt_of_lt_of_le h1 (XR.le_of_lt h2)
    have key : ∀ (xs : List P) (x : P),
        (xs.foldl (fun a b => if XR.lt (f a) (f b) then b else a) x ∈ x :: xs) ∧
        XR.lt (f (xs.foldl (fun a b => if XR.lt (f a) (f b) then b else a) x)) (f x) = false ∧
        (∀ p ∈ xs, XR.lt (f (xs.foldl (fun a b => if XR.lt (f a) (f b) then b else a) x)) (f p) = false) ∧
        (xs.foldl (fun a b => if XR.lt (f a) (f b) then b else a) x = x ∨
          XR.lt (f x) (f (xs.foldl (fun a b => if XR.lt (f a) (f b) then b else a) x)) = true) := by
      intro xs
      induction xs with
      | nil => intro x; exact ⟨by simp, XR.lt_irrefl _, by simp, .inl rfl⟩
      | cons y ys ih =>
        intro x
        rw [List.foldl_cons]
        by_cases hxy : XR.lt (f x) (f y) = true
        · rw [if_pos hxy]
          obtain ⟨h1, h2, h3, h4⟩ := ih y
          generalize ys.foldl (fun a b => if XR.lt (f a) (f b) then b else a) y = w at *
          have hxw : XR.lt (f x) (f w) = true := by
            rcases h4 with rfl | h4
            · exact hxy
            · exact trans _ _ _ hxy h4
          refine ⟨List.mem_cons_of_mem _ h1, ?_, ?_, .inr hxw⟩
          · by_contra hc
            have := trans _ _ _ hxw (by simpa using hc)
            rw [XR.lt_irrefl] at this
            cases this
          · intro p hp
            rcases List.mem_cons.1 hp with rfl | hp
            · exact h2
            · exact h3 p hp
        · rw [if_neg hxy]
          obtain ⟨h1, h2, h3, h4⟩ := ih x
          generalize ys.foldl (fun a b => if XR.lt (f a) (f b) then b else a) x = w at *
          refine ⟨?_, h2, ?_, h4⟩
          · rcases List.mem_cons.1 h1 with h | h
            · simp [h]
            · simp [h]
          · intro p hp
            rcases List.mem_cons.1 hp with rfl | hp
            · rcases h4 with rfl | h4
              · simpa using hxy
              · by_contra hc
                exact hxy (trans _ _ _ h4 (by simpa using hc))
            · exact h3 p hp
    obtain ⟨h1, h2, h3, -⟩ := key xs x
    refine ⟨h1, ?_⟩
    intro p hp
    rcases List.mem_cons.1 hp with rfl | hp
    · exact h2
    · exact h3 p hp

theorem select_ok {A : Type} {xs ys : List A} {is : List Nat} (h : Model.select xs is = .ok ys) :
    List.Forall₂ (fun i y => xs[i]? = some y) is ys := by
  unfold Model.select at h
  induction is generalizing ys with
  | nil =>
    simp [pure, Except.pure] at h
    subst h
    exact .nil
  | cons i is ih =>
    rw [List.mapM_cons] at h
    cases hi : xs[i]? with
    | none => simp [hi, bind, Except.bind] at h
    | some x =>
      simp only [hi, bind, Except.bind] at h
      split at h
      · cases h
      · rename_i ys' h'
        simp only [pure, Except.pure, Except.ok.injEq] at h
        subst h
        exact .cons hi (ih h')

theorem mem_eligible {env : GaEnv S N K P} {ps : List P} {p : P} :
    p ∈ eligible env ps ↔ p ∈ ps ∧ (env.lik p).isFinite = true := by
  unfold eligible
  rw [List.mem_filter]

/-- One member selected by tournament: the winner among `k` members at different places of the eligible population,
which no competitor beats. -/
theorem tournament_ok {env : GaEnv S N K P} (hh : Honest env) {k : Nat} {m : Bool} {el : List P} {s s' : S} {w : P}
    (h : tournament env k m el s = some (.ok w, s')) :
    ∃ (is : List Nat) (cs : List P) (b : P), is.length = k ∧ is.Nodup ∧
      List.Forall₂ (fun i c => el[i]? = some c) is cs ∧ b ∈ cs ∧ w = env.clone b ∧
      ∀ c ∈ cs, XR.lt (fitness env m b) (fitness env m c) = false := by
  unfold tournament at h
  obtain ⟨is, s1, h1, h⟩ := Run.bind_ok.1 h
  obtain ⟨cs, s2, h2, h⟩ := Run.bind_ok.1 h
  obtain ⟨b, s3, h3, h⟩ := Run.bind_ok.1 h
  obtain ⟨rfl, -⟩ := Run.pure_ok.1 h
  obtain ⟨d1, d2, -⟩ := hh.distinct _ _ _ _ _ (Run.lift_ok.1 h1)
  obtain ⟨m1, m2⟩ := maxBy_ok (Run.ofResult_ok.1 h3).1
  exact ⟨is, cs, b, d1, d2, select_ok (Run.ofResult_ok.1 h2).1, m1, rfl, m2⟩

/-- **C73**, tournaments: as many members as given, each a clone of the winner of a tournament among `k` different
places of the population with finite likelihood; no competitor is fitter, so the winner is at least as fit as all
competitors unless a fitness is NaN. -/
theorem C73_tour {env : GaEnv S N K P} (hh : Honest env) {k : Nat} {m : Bool} {ps sel : List P} {s s' : S}
    (h : tour env k m ps s = some (.ok sel, s')) :
    sel.length = ps.length ∧ ∀ w ∈ sel, ∃ (is : List Nat) (cs : List P) (b : P), is.length = k ∧ is.Nodup ∧
      List.Forall₂ (fun i c => (eligible env ps)[i]? = some c) is cs ∧ b ∈ cs ∧ w = env.clone b ∧
      b ∈ ps ∧ (env.lik b).isFinite = true ∧
      (∀ c ∈ cs, XR.lt (fitness env m b) (fitness env m c) = false) ∧
      ((∀ c ∈ cs, fitness env m c ≠ .nan) → ∀ c ∈ cs, XR.le (fitness env m c) (fitness env m b) = true) := by
  unfold tour at h
  split at h
  · obtain ⟨h1, h2⟩ := Run.times_ok h
    refine ⟨h1, ?_⟩
    intro w hw
    obtain ⟨t, t', ht⟩ := h2 w hw
    obtain ⟨is, cs, b, k1, k2, k3, k4, k5, k6⟩ := tournament_ok hh ht
    have hb : b ∈ eligible env ps := by
      obtain ⟨i, hi, rfl⟩ := List.getElem_of_mem k4
      have := (List.forall₂_iff_get.1 k3).2 i (by rw [k3.length_eq]; exact hi) hi
      exact List.mem_of_getElem? this
    obtain ⟨e1, e2⟩ := mem_eligible.1 hb
    exact ⟨is, cs, b, k1, k2, k3, k4, k5, e1, e2, k6,
      fun hn c hc => XR.le_of_not_lt (hn b k4) (hn c hc) (k6 c hc)⟩
  · exact absurd h Run.fail_ok

example : Honest exGa ∧ tour exGa 2 true [9, 4, 1] 0 = some (.ok [4, 4, 4], 3) :=
  ⟨exGa_honest, by decide +kernel⟩

/-- **C73**, importance selection: as many members as given, each a clone of a member with finite likelihood and
positive weight. -/
theorem C73_importance {env : GaEnv S N K P} (hh : Honest env) {m : Bool} {ps sel : List P} {s s' : S}
    (h : importance env m ps s = some (.ok sel, s')) :
    sel.length = ps.length ∧ ∀ w ∈ sel, ∃ (i : Nat) (b : P) (x : XR K), (eligible env ps)[i]? = some b ∧
      w = env.clone b ∧ b ∈ ps ∧ (env.lik b).isFinite = true ∧
      (env.softmax ((eligible env ps).map (fitness env m)))[i]? = some x ∧ XR.lt (.fin 0) x = true := by
  unfold importance at h
  split at h
  · obtain ⟨is, s1, h1, h⟩ := Run.bind_ok.1 h
    obtain ⟨cs, s2, h2, h⟩ := Run.bind_ok.1 h
    obtain ⟨rfl, -⟩ := Run.pure_ok.1 h
    have h1 := Run.lift_ok.1 h1
    unfold Rand.choice at h1
    split at h1
    · rename_i hv
      simp only [Prod.mk.injEq, Except.ok.injEq] at h1
      have hlen := hh.rng.size _ ps.length s hv
      have hsup := hh.rng.support _ ps.length s hv
      rw [h1.1] at hlen hsup
      have hf := select_ok (Run.ofResult_ok.1 h2).1
      refine ⟨by rw [List.length_map, ← hf.length_eq, hlen], ?_⟩
      intro w hw
      obtain ⟨b, hb, rfl⟩ := List.mem_map.1 hw
      obtain ⟨j, hj, rfl⟩ := List.getElem_of_mem hb
      have hj' : j < is.length := by rw [hf.length_eq]; exact hj
      have hget := (List.forall₂_iff_get.1 hf).2 j hj' hj
      simp only [List.get_eq_getElem] at hget
      obtain ⟨e1, e2⟩ := mem_eligible.1 (List.mem_of_getElem? hget)
      obtain ⟨x, hx, hpos⟩ := hsup _ (List.getElem_mem hj')
      exact ⟨is[j], cs[j], x, hget, rfl, e1, e2, hx, hpos⟩
    · simp at h1
  · exact absurd h Run.fail_ok

example : Honest exGa ∧ importance exGa true [9, 4, 1, 2, 3, 7] 0 = some (.ok [9, 9, 9, 9, 9, 9], 1) :=
  ⟨exGa_honest, by decide +kernel⟩

/-- The weights of the importance selection, for log posteriors that are numbers or minus infinity, not all of the
latter: they form a probability vector, and they are positive exactly for the numbers. -/
theorem gaSoftmax_valid {ws : List (XR ℝ)} (h : ∀ w ∈ ws, w = .ninf ∨ ∃ x, w = .fin x) (hf : ∃ x, XR.fin x ∈ ws) :
    validProbs (gaSoftmax ws) = true ∧ (gaSoftmax ws).length = ws.length ∧
    ∀ (i : Nat) (w y : XR ℝ), ws[i]? = some w → (gaSoftmax ws)[i]? = some y → (XR.lt (XR.fin 0) y = true ↔ ∃ x : ℝ, w = XR.fin x) := by
  have hc : (ws.all (fun w => w.isFinite || decide (w = .ninf)) && ws.any (·.isFinite)) = true := by
    rw [Bool.and_eq_true, List.all_eq_true, List.any_eq_true]
    constructor
    · intro w hw
      rcases h w hw with rfl | ⟨x, rfl⟩ <;> simp [XR.isFinite]
    · obtain ⟨x, hx⟩ := hf
      exact ⟨_, hx, rfl⟩
  have hg : gaSoftmax ws = ws.map (fun w => match w with
      | .fin x => .fin (Real.exp (x - logsumexp (finite ws)))
      | _ => .fin 0) := by
    unfold gaSoftmax
    rw [if_pos hc]
    rfl
  have hsum : ∀ (l : List (XR ℝ)) (c : ℝ), (∀ w ∈ l, w = .ninf ∨ ∃ x, w = .fin x) →
      (l.map (fun w => match w with
        | .fin x => (XR.fin (Real.exp (x - c)) : XR ℝ)
        | _ => .fin 0)).sum = .fin (((finite l).map Real.exp).sum / Real.exp c) := by
    intro l c
    induction l with
    | nil => intro _; simp [finite, XR.zero_def]
    | cons w l ih =>
      intro hl
      rw [List.map_cons, List.sum_cons, ih (fun v hv => hl v (by simp [hv]))]
      rcases hl w (by simp) with rfl | ⟨x, rfl⟩
      · show XR.fin (0 + _) = _
        rw [zero_add]
        rfl
      · show XR.fin (Real.exp (x - c) + _) = XR.fin ((Real.exp x + _) / _)
        rw [Real.exp_sub, add_div]
        rfl
  have hpos : 0 < ((finite ws).map Real.exp).sum := by
    have hne : finite ws ≠ [] := by
      obtain ⟨x, hx⟩ := hf
      clear hg hc h
      induction ws with
      | nil => simp at hx
      | cons w l ih =>
        cases w with
        | fin y => simp [finite]
        | _ =>
          rw [finite]
          · exact ih (by simpa using hx)
          · simp
    apply List.sum_pos
    · intro y hy
      obtain ⟨x, -, rfl⟩ := List.mem_map.1 hy
      exact Real.exp_pos x
    · simpa using hne
  refine ⟨?_, by rw [hg, List.length_map], ?_⟩
  · unfold validProbs
    rw [Bool.and_eq_true, List.all_eq_true, decide_eq_true_eq, hg]
    constructor
    · intro y hy
      obtain ⟨w, hw, rfl⟩ := List.mem_map.1 hy
      rcases h w hw with rfl | ⟨x, rfl⟩
      · simp [XR.isFinite]
      · simp [XR.isFinite, (Real.exp_pos _).le]
    · rw [hsum ws _ h]
      unfold logsumexp
      rw [Real.exp_log hpos, div_self hpos.ne']
  · intro i w y hw hy
    rw [hg, List.getElem?_map, hw, Option.map_some, Option.some.injEq] at hy
    subst hy
    rcases h w (List.mem_of_getElem? hw) with rfl | ⟨x, rfl⟩
    · simp
    · simp [Real.exp_pos]

/-- **C73**, importance selection over the reals: with more than five members of finite likelihood, whose posteriors
are numbers or minus infinity and not all the latter, it never fails, and only members of finite posterior survive. -/
theorem C73_survivors {env : GaEnv S N ℝ P} (hh : Honest env) (hs : env.softmax = gaSoftmax) {m : Bool} {ps : List P}
    (h5 : 5 < (eligible env ps).length)
    (hw : ∀ p ∈ eligible env ps, fitness env m p = .ninf ∨ ∃ x, fitness env m p = .fin x)
    (hf : ∃ p ∈ eligible env ps, ∃ x, fitness env m p = .fin x) (s : S) :
    ∃ sel s', importance env m ps s = some (.ok sel, s') ∧ ∀ w ∈ sel, ∃ b ∈ ps, w = env.clone b ∧
      ∃ x, fitness env m b = .fin x := by
  have h1 : ∀ w ∈ (eligible env ps).map (fitness env m), w = .ninf ∨ ∃ x, w = .fin x := by
    intro w hw'
    obtain ⟨p, hp, rfl⟩ := List.mem_map.1 hw'
    exact hw p hp
  have h2 : ∃ x, XR.fin x ∈ (eligible env ps).map (fitness env m) := by
    obtain ⟨p, hp, x, hx⟩ := hf
    exact ⟨x, by rw [← hx]; exact List.mem_map.2 ⟨p, hp, rfl⟩⟩
  obtain ⟨v1, v2, v3⟩ := gaSoftmax_valid h1 h2
  have hsup := hh.rng.support _ ps.length s v1
  have hsel : ∀ is : List Nat, (∀ i ∈ is, i < (eligible env ps).length) →
      ∃ cs, Model.select (eligible env ps) is = .ok cs := by
    intro is his
    induction is with
    | nil => exact ⟨[], rfl⟩
    | cons i is ih =>
      obtain ⟨cs, hcs⟩ := ih (fun j hj => his j (by simp [hj]))
      refine ⟨(eligible env ps)[i]'(his i (by simp)) :: cs, ?_⟩
      unfold Model.select at hcs ⊢
      rw [List.mapM_cons, List.getElem?_eq_getElem (his i (by simp)), hcs]
      rfl
  obtain ⟨cs, hcs⟩ := hsel (env.rng.pick (gaSoftmax ((eligible env ps).map (fitness env m))) ps.length s).1 (by
    intro i hi
    obtain ⟨w, hw, -⟩ := hsup i hi
    have := (List.getElem?_eq_some_iff.1 hw).1
    simpa [v2] using this)
  have hrun : importance env m ps s = some (.ok (cs.map env.clone),
      (env.rng.pick (gaSoftmax ((eligible env ps).map (fitness env m))) ps.length s).2) := by
    unfold importance
    simp only [h5, if_true]
    rw [Run.bind_apply]
    simp only [Run.lift, Rand.choice, hs, v1, if_true]
    rw [Run.bind_apply]
    simp only [Run.ofResult, hcs]
    rfl
  refine ⟨_, _, hrun, ?_⟩
  intro w hw'
  obtain ⟨-, h4⟩ := C73_importance hh hrun
  obtain ⟨i, b, x, b1, b2, b3, -, b5, b6⟩ := h4 w hw'
  rw [hs] at b5
  have := (v3 i (fitness env m b) x (by rw [List.getElem?_map, b1]; rfl) b5).1 b6
  exact ⟨b, b3, b2, this⟩

/-- An objective over the reals whose individuals above 100 have posterior density zero. -/
noncomputable def realGa : GaEnv Nat String ℝ Nat where
  domain := fun s => (.ok [], s)
  get := fun _ _ => none
  draw := fun s => (.ok s, s + 1)
  serve := fun _ s => (.ok 0, s)
  lik := fun _ => .fin 1
  post := fun p => if p ≤ 100 then .fin p else .ninf
  clone := id
  rng := Lemmas.firstRand
  binomial := fun _ n s => (.ok (List.range n), s)
  normal := fun x _ s => (.ok x, s)
  distinct := fun n k s => (if k ≤ n then .ok (List.range k) else .error .ValueError, s)
  std := fun _ => .fin 1
  iqr := fun _ => .fin 1
  fifth := fun _ => .fin 1
  softmax := gaSoftmax
  rnd := id
  eps := 1

example : Honest realGa ∧ realGa.softmax = gaSoftmax ∧ 5 < (eligible realGa [200, 1, 2, 3, 4, 5]).length ∧
    (∀ p ∈ eligible realGa [200, 1, 2, 3, 4, 5],
      fitness realGa true p = .ninf ∨ ∃ x, fitness realGa true p = .fin x) ∧
    (∃ p ∈ eligible realGa [200, 1, 2, 3, 4, 5], ∃ x, fitness realGa true p = .fin x) := by
  refine ⟨⟨Lemmas.firstRand_honest, ?_, ?_⟩, rfl, by simp [eligible, realGa, XR.isFinite], ?_, ?_⟩
  · intro p n s is s' h
    simp only [realGa, Prod.mk.injEq, Except.ok.injEq] at h
    rw [← h.1]
    exact ⟨pairwise_range n, fun i hi => List.mem_range.1 hi⟩
  · intro n k s is s' h
    simp only [realGa, Prod.mk.injEq] at h
    obtain ⟨h, -⟩ := h
    split at h
    · rename_i hk
      rw [Except.ok.injEq] at h
      rw [← h]
      exact ⟨List.length_range, List.nodup_range, fun i hi => lt_of_lt_of_le (List.mem_range.1 hi) hk⟩
    · cases h
  · intro p _
    simp only [fitness, if_true, realGa]
    split
    · exact .inr ⟨_, rfl⟩
    · exact .inl rfl
  · refine ⟨1, by simp [eligible, realGa, XR.isFinite], 1, ?_⟩
    simp [fitness, realGa]

/-! ### C74: mutation replaces -/

theorem replace_length (env : GaEnv S N K P) (r : List (Nat × P)) (ps : List P) :
    (Model.Ga.replace env r ps).length = ps.length := by
  induction r generalizing ps with
  | nil => rfl
  | cons x r ih =>
    obtain ⟨i, p⟩ := x
    rw [Model.Ga.replace, ih]
    split <;> simp

theorem replace_get {env : GaEnv S N K P} {r : List (Nat × P)} {ps : List P} {i : Nat} {q : P}
    (h : (Model.Ga.replace env r ps)[i]? = some q) :
    ps[i]? = some q ∨ ((i, q) ∈ r ∧ (env.lik q).isFinite = true) := by
  induction r generalizing ps with
  | nil => exact .inl h
  | cons x r ih =>
    obtain ⟨j, p⟩ := x
    rw [Model.Ga.replace] at h
    rcases ih h with h1 | ⟨h1, h2⟩
    · split at h1
      · rename_i hf
        rw [List.getElem?_set] at h1
        split at h1
        · rename_i hij
          split at h1
          · rw [Option.some.injEq] at h1
            subst hij h1
            exact .inr ⟨by simp, hf⟩
          · cases h1
        · exact .inl h1
      · exact .inl h1
    · exact .inr ⟨by simp [h1], h2⟩

theorem le_of_pairwise {is : List Nat} (h : is.Pairwise (· < ·)) {j : Nat} (hj : j < is.length) : j ≤ is[j] := by
  induction j with
  | zero => omega
  | succ j ih =>
    have h1 := ih (by omega)
    have h2 := List.pairwise_iff_getElem.1 h j (j + 1) (by omega) hj (by omega)
    omega

/-- **C74**, what holds: the population keeps its size, and the individual at position `i` is kept or replaced by the
evaluated proposal of an individual at a position `j ≤ i`, where `i` is the `j`-th of the positions drawn; so
the proposal is its own when all positions up to `i` were drawn. -/
theorem C74_partial {env : GaEnv S N K P} (hh : Honest env) {set : Settings K} {old scs : Dict N (XR K)}
    {ps ps' : List P} {s s' : S} (h : mutation env set old ps s = some (.ok (ps', scs), s')) :
    ps'.length = ps.length ∧ ∃ (nxt : List Nat) (t0 t1 : S), env.binomial set.pMut ps.length t0 = (.ok nxt, t1) ∧
      ∀ (i : Nat) (q : P), ps'[i]? = some q → ps[i]? = some q ∨
        ∃ (j : Nat) (p : P) (l : Dict N (XR K)), j ≤ i ∧ nxt[j]? = some i ∧ ps[j]? = some p ∧
          (∃ t t', propose env scs p t = some (.ok l, t')) ∧ (∃ t t', env.serve l t = (.ok q, t')) ∧
          (env.lik q).isFinite = true := by
  unfold mutation at h
  obtain ⟨scs', s1, h1, h⟩ := Run.bind_ok.1 h
  obtain ⟨nxt, s2, h2, h⟩ := Run.bind_ok.1 h
  obtain ⟨loci, s3, h3, h⟩ := Run.bind_ok.1 h
  obtain ⟨pr, s4, h4, h⟩ := Run.bind_ok.1 h
  obtain ⟨h, -⟩ := Run.pure_ok.1 h
  simp only [Prod.mk.injEq] at h
  obtain ⟨rfl, rfl⟩ := h
  refine ⟨replace_length env _ _, nxt, s1, s2, Run.lift_ok.1 h2, ?_⟩
  intro i q hq
  rcases replace_get hq with h5 | ⟨h5, h6⟩
  · exact .inl h5
  · obtain ⟨j, hj⟩ := List.mem_iff_getElem?.1 h5
    rw [List.getElem?_zip_eq_some] at hj
    obtain ⟨j1, j2⟩ := hj
    have f1 := Run.each_ok h3
    have f2 := Run.each_ok h4
    have l2 : j < pr.length := (List.getElem?_eq_some_iff.1 j2).1
    have l1 : j < loci.length := by rw [f2.length_eq]; exact l2
    have l0 : j < ps.length := by rw [f1.length_eq]; exact l1
    obtain ⟨t, t', ht⟩ := (List.forall₂_iff_get.1 f1).2 j l0 l1
    obtain ⟨u, u', hu⟩ := (List.forall₂_iff_get.1 f2).2 j l1 l2
    simp only [List.get_eq_getElem] at ht hu
    have hpr : pr[j] = q := by
      rw [List.getElem?_eq_getElem l2, Option.some.injEq] at j2
      exact j2
    rw [hpr] at hu
    obtain ⟨hnx, hnxt⟩ := List.getElem?_eq_some_iff.1 j1
    have hle := le_of_pairwise (hh.binomial _ _ _ _ _ (Run.lift_ok.1 h2)).1 hnx
    rw [hnxt] at hle
    exact .inr ⟨j, ps[j], loci[j], hle, j1, List.getElem?_eq_getElem l0, ⟨t, t', ht⟩, ⟨u, u', Run.lift_ok.1 hu⟩, h6⟩

/-- Settings to try things with. -/
def exSet : Settings ℚ where
  nCollect := 3
  maxRound := 4
  maxStay := 2
  pMut := .fin (1 / 10)
  pCro := .fin (4 / 5)
  cro := .average
  sel := .tour 2
  isMap := true

example : Honest exGa ∧ mutation exGa exSet [] [2, 8] 0 =
    some (.ok ([3, 9], [("x", .fin (9 / 10 * (50 / 67) * (1 / 2)))]), 6) := ⟨exGa_honest, by decide +kernel⟩

/-- The same objective with only the second individual drawn for mutation. -/
def secondGa : GaEnv Nat String ℚ ℚ := { exGa with binomial := fun _ n s => (.ok ([1].filter (· < n)), s + 1) }

/-- **C74** is false: the second individual, 8, is replaced by the proposal made from the first one, 2, though its own
proposal is 9. -/
theorem C74_refuted : mutation secondGa exSet [] [2, 8] 0 =
      some (.ok ([2, 3], [("x", .fin (9 / 10 * (50 / 67) * (1 / 2)))]), 6) ∧
    propose secondGa [("x", .fin (9 / 10 * (50 / 67) * (1 / 2)))] 8 0 = some (.ok [("x", .fin 9)], 2) := by
  decide +kernel

/-! ### C75: the end of the run -/

theorem findElitism_ok {env : GaEnv S N K P} {set : Settings K} {st st' : State N K P}
    (h : findElitism env set st = .ok st') :
    st'.generation = st.generation ∧ st'.ps = st.ps ∧
    (∃ b, st'.best = some b ∧ b ∈ st.ps ∧ st'.maxFit = fitness env set.isMap b ∧
      ∀ p ∈ st.ps, XR.lt st'.maxFit (fitness env set.isMap p) = false) ∧
    st'.stay = if XR.le st'.maxFit st.maxFit then st.stay + 1 else 0 := by
  unfold findElitism at h
  cases hb : maxBy (fitness env set.isMap) st.ps with
  | error e => simp [hb, bind, Except.bind] at h
  | ok b =>
    simp only [hb, bind, Except.bind, pure, Except.pure, Except.ok.injEq] at h
    subst h
    obtain ⟨h1, h2⟩ := maxBy_ok hb
    exact ⟨rfl, rfl, ⟨b, rfl, h1, rfl, h2⟩, rfl⟩

theorem generation_ok {env : GaEnv S N K P} {set : Settings K} {st st' : State N K P} {s s' : S}
    (h : generation env set st s = some (.ok st', s')) :
    st'.generation = st.generation + 1 ∧
    (∃ b, st'.best = some b ∧ b ∈ st'.ps ∧ st'.maxFit = fitness env set.isMap b ∧
      ∀ p ∈ st'.ps, XR.lt st'.maxFit (fitness env set.isMap p) = false) ∧
    st'.stay = if XR.le st'.maxFit st.maxFit then st.stay + 1 else 0 := by
  unfold generation at h
  obtain ⟨ps1, s1, -, h⟩ := Run.bind_ok.1 h
  obtain ⟨r, s2, -, h⟩ := Run.bind_ok.1 h
  obtain ⟨ps3, s3, -, h⟩ := Run.bind_ok.1 h
  obtain ⟨h1, h2, ⟨b, b1, b2, b3, b4⟩, h4⟩ := findElitism_ok (Run.ofResult_ok.1 h).1
  simp only at h1 h2 b2 b4 h4
  exact ⟨h1, ⟨b, b1, by rw [h2]; exact b2, b3, by rw [h2]; exact b4⟩, h4⟩

/-- The states of a run, the latest first: each follows from the one before by a generation. -/
inductive Trace (env : GaEnv S N K P) (set : Settings K) : List (State N K P) → Prop
  | start (st : State N K P) : Trace env set [st]
  | next {st st' : State N K P} {l : List (State N K P)} {s s' : S} : Trace env set (st :: l) →
      generation env set st s = some (.ok st', s') → Trace env set (st' :: st :: l)

theorem Trace.stay {env : GaEnv S N K P} {set : Settings K} {st : State N K P} {l : List (State N K P)}
    (h : Trace env set (st :: l)) (h0 : ∀ x, (st :: l).getLast? = some x → x.stay = 0) :
    ∀ j < st.stay, ∃ a b : State N K P, (st :: l)[j]? = some a ∧ (st :: l)[j + 1]? = some b ∧
      XR.le a.maxFit b.maxFit = true := by
  generalize hl : st :: l = tr at h h0
  induction h generalizing st l with
  | start x =>
    cases hl
    intro j hj
    rw [h0 x rfl] at hj
    omega
  | @next x y l' s s' ht hg ih =>
    cases hl
    obtain ⟨-, -, hs⟩ := generation_ok hg
    intro j hj
    rw [hs] at hj
    split at hj
    · rename_i hle
      cases j with
      | zero => exact ⟨_, _, rfl, rfl, hle⟩
      | succ j =>
        obtain ⟨a, b, h1, h2, h3⟩ := ih rfl (fun z hz => h0 z (by rw [List.getLast?_cons_cons]; exact hz)) j (by omega)
        exact ⟨a, b, by simpa using h1, by simpa using h2, h3⟩
    · omega

theorem update_trace {env : GaEnv S N K P} {set : Settings K} {k : Nat} {st st' : State N K P} {s s' : S}
    {l : List (State N K P)} (hl : Trace env set (st :: l)) (h : update env set k st s = some (.ok st', s')) :
    terminated set st' = true ∧ ∃ m : List (State N K P), Trace env set (st' :: m ++ st :: l) ∧
      st'.generation = st.generation + m.length + 1 ∧ ∀ x ∈ m, terminated set x = false := by
  induction k generalizing st s l with
  | zero => exact absurd h Run.more_ok
  | succ k ih =>
    rw [update] at h
    obtain ⟨st1, s1, h1, h⟩ := Run.bind_ok.1 h
    split at h
    · rename_i ht
      obtain ⟨rfl, -⟩ := Run.pure_ok.1 h
      exact ⟨ht, [], .next hl h1, by rw [(generation_ok h1).1]; rfl, by simp⟩
    · rename_i ht
      obtain ⟨h2, m, h3, h4, h5⟩ := ih (.next hl h1) h
      refine ⟨h2, m ++ [st1], ?_, ?_, ?_⟩
      · simpa using h3
      · rw [h4, (generation_ok h1).1]
        simp
        omega
      · intro x hx
        rcases List.mem_append.1 hx with hx | hx
        · exact h5 x hx
        · rw [List.mem_singleton.1 hx]
          simpa using ht

/-- **C75**, what holds: a run takes at most `max_round + 1` generations (one if `max_round` is negative).  If it stops
before, the last `max_stay + 1` generations brought no improvement on the generation before each of them - provided
that the first population had a fitness above minus infinity. -/
theorem C75_partial {env : GaEnv S N K P} {set : Settings K} {k : Nat} {st st' : State N K P} {s s' : S}
    (hg : st.generation = 0) (h0 : st.stay = 0)
    (h : update env set k st s = some (.ok st', s')) :
    st'.generation ≤ max 1 (set.maxRound + 1).toNat ∧
    ∃ m : List (State N K P), Trace env set (st' :: m ++ [st]) ∧ st'.generation = m.length + 1 ∧
      (st'.generation ≤ set.maxRound → set.maxStay < st'.stay ∧ ∀ j : Nat, j ≤ set.maxStay →
        ∃ a b : State N K P, (st' :: m ++ [st])[j]? = some a ∧ (st' :: m ++ [st])[j + 1]? = some b ∧
          XR.le a.maxFit b.maxFit = true) := by
  obtain ⟨h1, m, h2, h3, h4⟩ := update_trace (.start st) h
  rw [hg, Nat.zero_add] at h3
  constructor
  · rw [h3]
    cases m with
    | nil => simp
    | cons x m =>
      have hx := h4 x (by simp)
      have hgx : st'.generation = x.generation + 1 := by
        cases h2 with
        | next _ hgen => exact (generation_ok hgen).1
      unfold terminated at hx
      simp only [Bool.or_eq_false_iff, decide_eq_false_iff_not, not_lt] at hx
      have := hx.2
      rw [← h3]
      omega
  · refine ⟨m, h2, h3, fun hle => ?_⟩
    unfold terminated at h1
    simp only [Bool.or_eq_true, decide_eq_true_eq] at h1
    have hst : set.maxStay < st'.stay := by
      rcases h1 with h | h
      · exact h
      · omega
    refine ⟨hst, fun j hj => ?_⟩
    have := Trace.stay (st := st') (l := m ++ [st]) h2 (by
      intro x hx
      have : (st' :: (m ++ [st])).getLast? = some st := by
        rw [← List.cons_append, List.getLast?_append]
        simp
      rw [this, Option.some.injEq] at hx
      rw [← hx, h0]) j (by omega)
    simpa using this

theorem shuffle_total (env : GaEnv S N K P) (p1 p2 : P) (l : Dict N (XR K) × Dict N (XR K)) (ds : List (GaDom N K)) :
    Lemmas.Total (shuffle env p1 p2 l ds) := by
  induction ds generalizing l with
  | nil => exact Lemmas.total_pure _
  | cons d ds ih =>
    refine Lemmas.Total.bind ?_ (fun l' => ih l')
    unfold shuffleOne
    refine (Lemmas.total_lift _).bind (fun u => ?_)
    split
    · exact (Lemmas.total_ofResult _).bind (fun _ => (Lemmas.total_ofResult _).bind (fun _ => Lemmas.total_pure _))
    · exact (Lemmas.total_ofResult _).bind (fun _ => (Lemmas.total_ofResult _).bind (fun _ => Lemmas.total_pure _))

theorem crossPairs_total (env : GaEnv S N K P) (c : Cross) (is : List Nat) (ps : List P) :
    Lemmas.Total (crossPairs env c is ps) := by
  induction is generalizing ps with
  | nil => exact Lemmas.total_pure _
  | cons i is ih =>
    refine Lemmas.Total.bind ?_ (fun ps' => ih ps')
    unfold crossPair
    split
    · refine Lemmas.Total.bind ?_ (fun _ => (Lemmas.total_lift _).bind (fun _ => (Lemmas.total_lift _).bind
        (fun _ => Lemmas.total_pure _)))
      unfold cross
      split
      · exact (Lemmas.total_lift _).bind (fun _ => (Lemmas.total_ofResult _).bind (fun _ => Lemmas.total_pure _))
      · exact (Lemmas.total_lift _).bind (fun _ => shuffle_total _ _ _ _ _)
    · exact Lemmas.total_fail _

theorem propose_total (env : GaEnv S N K P) (scs : Dict N (XR K)) (p : P) : Lemmas.Total (propose env scs p) := by
  refine (Lemmas.total_lift _).bind (fun ds => ?_)
  generalize ([] : Dict N (XR K)) = l
  induction ds generalizing l with
  | nil => exact Lemmas.total_pure _
  | cons d ds ih =>
    exact (Lemmas.total_ofResult _).bind (fun _ => (Lemmas.total_ofResult _).bind (fun _ =>
      (Lemmas.total_lift _).bind (fun _ => ih _)))

theorem selection_total (env : GaEnv S N K P) (set : Settings K) (ps : List P) :
    Lemmas.Total (selection env set ps) := by
  unfold selection
  split
  · unfold tour
    dsimp only
    split
    · exact Lemmas.total_times ((Lemmas.total_lift _).bind (fun _ => (Lemmas.total_ofResult _).bind (fun _ =>
        (Lemmas.total_ofResult _).bind (fun _ => Lemmas.total_pure _)))) _
    · exact Lemmas.total_fail _
  · unfold importance
    dsimp only
    split
    · exact (Lemmas.total_lift _).bind (fun _ => (Lemmas.total_ofResult _).bind (fun _ => Lemmas.total_pure _))
    · exact Lemmas.total_fail _

theorem generation_total (env : GaEnv S N K P) (set : Settings K) (st : State N K P) :
    Lemmas.Total (generation env set st) := by
  unfold generation
  refine Lemmas.Total.bind ((Lemmas.total_lift _).bind (fun _ => crossPairs_total _ _ _ _)) (fun _ =>
    Lemmas.Total.bind ?_ (fun _ => (selection_total _ _ _).bind (fun _ => Lemmas.total_ofResult _)))
  exact ((Lemmas.total_lift _).bind (fun _ => Lemmas.total_ofResult _)).bind (fun _ => (Lemmas.total_lift _).bind
    (fun _ => (Lemmas.total_each (propose_total env _) _).bind (fun _ =>
      (Lemmas.total_each (fun _ => Lemmas.total_lift _) _).bind (fun _ => Lemmas.total_pure _))))

/-- **C75**, it stops: no run outlasts `max(1, max_round + 1)` generations. -/
theorem C75_stops {env : GaEnv S N K P} {set : Settings K} {st : State N K P} (hg : st.generation = 0) (s : S) :
    update env set (max 1 (set.maxRound + 1).toNat) st s ≠ none := by
  have key : ∀ (k : Nat) (st : State N K P) s, 1 ≤ k → set.maxRound + 1 ≤ st.generation + k →
      update env set k st s ≠ none := by
    intro k
    induction k with
    | zero => intro st s h; omega
    | succ k ih =>
      intro st s _ hm
      rw [update, Run.bind_apply]
      rcases hs : generation env set st s with _ | ⟨_ | st1, s1⟩
      · exact absurd hs (generation_total env set st s)
      · simp
      · have hw := (generation_ok hs).1
        simp only
        split
        · simp [pure]
        · rename_i hc
          unfold terminated at hc
          simp only [Bool.or_eq_true, decide_eq_true_eq, not_or, not_lt] at hc
          push_cast at hm
          apply ih
          · omega
          · omega
  exact key _ st s (by omega) (by omega)

/-- The first states of a run. -/
def exSt0 : State String ℚ ℚ := ⟨0, 0, .fin (-9), some 2, [0, 1, 2], []⟩


/-- The state after one generation. -/
def exSt1 : State String ℚ ℚ :=
  ⟨1, 1, .fin (-(49 / 4)), some (3 / 2), [3 / 2, 3 / 2, 3 / 2], [("x", .fin (9 / 10 * (50 / 67) * (1 / 2)))]⟩

theorem exGa_init : initialise exGa exSet [] 0 = some (.ok exSt0, 3) := by decide +kernel
theorem exGa_gen : ∃ s', generation exGa exSet exSt0 3 = some (.ok exSt1, s') := ⟨16, by decide +kernel⟩

/-- The same objective without mutation steps. -/
def stillGa : GaEnv Nat String ℚ ℚ := { exGa with normal := fun x _ s => (.ok x, s + 1) }

example : exSt0.generation = 0 ∧ exSt0.stay = 0 ∧
    (update exGa exSet 5 exSt0 3).map (fun r => r.1.map (fun st => (st.generation, st.stay))) = some (.ok (5, 1)) ∧
    (update stillGa exSet 5 exSt0 3).map (fun r => r.1.map (fun st => (st.generation, st.stay))) =
      some (.ok (3, 3)) := by
  decide +kernel

/-- An objective without parameters whose posterior density is always zero. -/
def voidGa : GaEnv Nat String ℚ ℚ :=
  { exGa with domain := fun s => (.ok [], s + 1), serve := fun _ s => (.ok 0, s), post := fun _ => .ninf }

/-- **C75** is false: when the first population has fitness minus infinity, that counts as one generation without
improvement, and the run stops after `max_stay` generations. -/
theorem C75_refuted : ∃ st st' : State String ℚ ℚ, ∃ s s', initialise voidGa exSet [] 0 = some (.ok st, s) ∧
    update voidGa exSet 5 st s = some (.ok st', s') ∧ (st'.generation : Int) = exSet.maxStay ∧
    (st'.generation : Int) ≤ exSet.maxRound :=
  ⟨⟨0, 1, .ninf, some 0, [0, 1, 2], []⟩, ⟨2, 3, .ninf, some 0, [0, 0, 0], []⟩, 3, 23, by decide +kernel,
    by decide +kernel, by decide +kernel, by decide +kernel⟩

/-! ### C103 and C104: what is selected and kept -/

/-- **C103**, what holds: with the target MAP the best individual is found by the criterion of the selection. -/
theorem C103_partial {env : GaEnv S N K P} {set : Settings K} {st st' : State N K P} (hm : set.isMap = true)
    (h : findElitism env set st = .ok st') : ∃ b ∈ st.ps, st'.best = some b ∧
      (∀ p ∈ st.ps, XR.lt (env.post b) (env.post p) = false) := by
  obtain ⟨-, -, ⟨b, b1, b2, b3, b4⟩, -⟩ := findElitism_ok h
  rw [b3] at b4
  rw [hm] at b4
  exact ⟨b, b2, b1, b4⟩

example : findElitism exGa exSet ⟨0, 0, .ninf, none, [0, 1, 2], []⟩ = .ok exSt0 := by decide +kernel

/-- An objective with a prior that favours large numbers. -/
def priorGa : GaEnv Nat String ℚ ℚ := { exGa with post := fun p => .fin p }

/-- **C103** is false: the target plays no role in the selection; with the target MLE the tournament between 9 and 5 is
won by 9, which has the smaller likelihood. -/
theorem C103_refuted : (∀ (env : GaEnv S N K P) (set : Settings K) (b : Bool) (ps : List P),
      selection env { set with isMap := b } ps = selection env set ps) ∧
    selection priorGa { exSet with isMap := false } [9, 5, 1] 0 = some (.ok [9, 9, 9], 3) ∧
    XR.lt (priorGa.lik 9) (priorGa.lik 5) = true :=
  ⟨fun _ _ _ _ => rfl, by decide +kernel, by decide +kernel⟩

/-- **C104**, what holds: after every generation the best individual is a member of the population, none of which is
fitter, and its fitness is the one reported. -/
theorem C104_partial {env : GaEnv S N K P} {set : Settings K} {st st' : State N K P} {s s' : S}
    (h : generation env set st s = some (.ok st', s')) : ∃ b, st'.best = some b ∧ b ∈ st'.ps ∧
      st'.maxFit = fitness env set.isMap b ∧ ∀ p ∈ st'.ps, XR.lt st'.maxFit (fitness env set.isMap p) = false :=
  (generation_ok h).2.1

example : ∃ s', generation exGa exSet exSt0 3 = some (.ok exSt1, s') := exGa_gen

/-- **C104** is false: the best individual found is not kept, and the fitness reported falls. -/
theorem C104_refuted : ∃ (st st' : State String ℚ ℚ) (s s' : Nat), initialise exGa exSet [] 0 = some (.ok st, s) ∧
    generation exGa exSet st s = some (.ok st', s') ∧ XR.lt st'.maxFit st.maxFit = true ∧
    ∀ b, st.best = some b → b ∉ st'.ps := by
  obtain ⟨s', h⟩ := exGa_gen
  refine ⟨exSt0, exSt1, 3, s', exGa_init, h, by decide +kernel, ?_⟩
  intro b hb
  simp only [exSt0, Option.some.injEq] at hb
  subst hb
  decide +kernel

end Props.Ga
