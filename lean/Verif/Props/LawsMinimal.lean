import Verif.Props.Laws

/-!
# The law of what is drawn minimally: C207
-/

namespace Props.Laws

set_option linter.unusedSectionVars false

open Py Spec Relation Model Model.Digraph Model.BN Props.BN Props.Sampling MeasureTheory

variable {N V C O S : Type} [DecidableEq N] [MeasurableSpace S]

theorem chance_exists {ι : Type} [Countable ι] {μ : Measure S} {E : ι → S → S → Prop} {p : ι → ENNReal}
    (h : ∀ k, Chance μ (E k) (p k)) (hd : ∀ j k s m m', E j s m → E k s m' → j = k) :
    Chance μ (fun s s' => ∃ k, E k s s') (∑' k, p k) := by
  intro B hB
  have : {s | ∃ s' ∈ B, ∃ k, E k s s'} = ⋃ k, {s | ∃ s' ∈ B, E k s s'} := by
    ext s; simp only [Set.mem_ofPred_eq, Set.mem_iUnion]
    constructor
    · rintro ⟨s', hs, k, h⟩; exact ⟨k, s', hs, h⟩
    · rintro ⟨k, s', hs, h⟩; exact ⟨s', hs, k, h⟩
  rw [this]
  refine ⟨MeasurableSet.iUnion (fun k => (h k B hB).1), ?_⟩
  rw [measure_iUnion _ (fun k => (h k B hB).1), ← ENNReal.tsum_mul_right]
  · exact tsum_congr (fun k => (h k B hB).2)
  · intro j k hjk
    rw [Function.onFun, Set.disjoint_left]
    rintro s ⟨m, -, hm⟩ ⟨m', -, hm'⟩
    exact hjk (hd j k s m m' hm hm')

theorem chance_unique {μ : Measure S} [IsProbabilityMeasure μ] {E : S → S → Prop} {p q : ENNReal} (hp : Chance μ E p)
    (hq : Chance μ E q) : p = q := by
  have h1 := (hp _ MeasurableSet.univ).2
  have h2 := (hq _ MeasurableSet.univ).2
  rw [h1, measure_univ, mul_one, mul_one] at h2
  exact h2

/-- The values that the variables of a network can take, countably many each: every node that is not given gets, from
parents with such values, one of its own, with certain probabilities, and never fails. -/
structure Values (μ : Measure S) (sem : Sem N V C O S (XR ℝ)) (bn : BN N V C O) (cond : Dict N V)
    (can : N → V → Prop) : Prop where
  countable : ∀ x, {v | can x v}.Countable
  given : ∀ x v, cond.get? x = some v → can x v
  law : ∀ x l, bn.loci.get? x = some l → x ∉ cond.keys → ∀ ρ : Dict N V, (∀ p ∈ l.parents, p ∈ ρ.keys) →
    (∀ y w, ρ.get? y = some w → can y w) →
    (∀ s v s', l.render sem ρ.get? s = (.ok v, s') → can x v) ∧
    ∃ p : V → ENNReal, (∀ v, Chance μ (fun s s' => l.render sem ρ.get? s = (.ok v, s')) (p v)) ∧
      ∑' v : {v // can x v}, p v = 1

theorem can_set {can : N → V → Prop} {res : Dict N V} (h : ∀ y w, res.get? y = some w → can y w) {x : N} {v : V}
    (hv : can x v) : ∀ y w, (res.set x v).get? y = some w → can y w := by
  intro y w hy
  rw [Dict.get?_set] at hy
  split at hy
  · rename_i e; subst e; cases hy; exact hv
  · exact h y w hy

/-- A step of the sampling loop at a node that is drawn. -/
theorem draw_step {μ : Measure S} (sem : Sem N V C O S (XR ℝ)) {bn : BN N V C O} {sel : N → Bool}
    {can : N → V → Prop} {x : N} (hc : {v | can x v}.Countable) {l : Loci N V C O} (hl : bn.loci.get? x = some l)
    {res : Dict N V} (hx : x ∉ res.keys) (hsel : sel x = true)
    (hcan : ∀ s v s', l.render sem res.get? s = (.ok v, s') → can x v) {p q : V → ENNReal}
    (hp : ∀ v, Chance μ (fun s s' => l.render sem res.get? s = (.ok v, s')) (p v)) {xs : List N}
    {Q : Dict N V → Prop}
    (hq : ∀ v, can x v → Chance μ (fun s s' => ∃ r', sampleLoop sem bn sel xs (res.set x v) s = (.ok r', s') ∧ Q r')
      (q v)) :
    Chance μ (fun s s' => ∃ r', sampleLoop sem bn sel (x :: xs) res s = (.ok r', s') ∧ Q r')
      (∑' v : {v // can x v}, p v * q v) := by
  have : Countable {v // can x v} := hc.to_subtype
  have h := chance_exists (ι := {v // can x v}) (fun v => (hp v).comp (hq v v.2)) (by
    rintro j k s m m' ⟨m1, h1, -⟩ ⟨m2, h2, -⟩
    rw [h1] at h2
    simp only [Prod.mk.injEq, Except.ok.injEq] at h2
    exact Subtype.ext h2.1)
  refine h.congr (fun s s' => ?_)
  simp only [sampleLoop]
  rw [if_pos (by simp [hsel, hx]), get_ok hl]
  constructor
  · rintro ⟨v, m, h1, r', h2, h3⟩
    simp only [h1]
    exact ⟨r', h2, h3⟩
  · rintro ⟨r', h2, h3⟩
    rcases hre : l.render sem res.get? s with ⟨o, m⟩
    simp only [hre] at h2
    cases o with
    | error e => cases h2
    | ok v => exact ⟨⟨v, hcan s v m hre⟩, m, rfl, r', h2, h3⟩

/-- Drawing all nodes, or only those selected: what is selected has the same law. -/
theorem loop_marginal {μ : Measure S} [IsProbabilityMeasure μ] (sem : Sem N V C O S (XR ℝ))
    (hcl : ∀ c, (sem.reparse c).names = []) {bn : BN N V C O} (hw : bn.Well) {cond : Dict N V}
    (hns : NoShadow bn cond.keys) (hs : ∀ x, Exogenous bn x → x ∈ cond.keys) {can : N → V → Prop}
    (hv : Values μ sem bn cond can) {sel : N → Bool}
    (hsel : ∀ x l, bn.loci.get? x = some l → sel x = true → x ∉ cond.keys → ∀ p ∈ l.parents, sel p = true)
    {od : List N} (ht : TopologicalOrder (· ∈ bn.dag.nodes) bn.dag.E od) {Q : Dict N V → Prop}
    (hQ : ∀ r r' : Dict N V, (∀ x, sel x = true → x ∈ bn.dag.nodes → r.get? x = r'.get? x) → (Q r ↔ Q r')) :
    ∀ (xs pre : List N) (r1 r2 : Dict N V), od = pre ++ xs →
      (∀ y, y ∈ r1.keys ↔ y ∈ cond.keys ∨ (y ∈ pre ∧ sel y = true)) →
      (∀ y, y ∈ r2.keys ↔ y ∈ cond.keys ∨ y ∈ pre) → (∀ y, y ∈ r1.keys → r1.get? y = r2.get? y) →
      (∀ y w, r1.get? y = some w → can y w) → (∀ y w, r2.get? y = some w → can y w) →
      ∃ p, Chance μ (fun s s' => ∃ r', sampleLoop sem bn sel xs r1 s = (.ok r', s') ∧ Q r') p ∧
        Chance μ (fun s s' => ∃ r', sampleLoop sem bn (fun _ => true) xs r2 s = (.ok r', s') ∧ Q r') p := by
  intro xs
  induction xs with
  | nil =>
    intro pre r1 r2 e k1 k2 hag c1 c2
    have hq : Q r1 ↔ Q r2 := by
      refine hQ _ _ (fun x hx hn => hag x ((k1 x).2 ?_))
      have := (ht.complete x).2 hn
      rw [e] at this
      exact Or.inr ⟨by simpa using this, hx⟩
    by_cases h : Q r1
    · refine ⟨1, Chance.refl.congr (fun s s' => ?_), Chance.refl.congr (fun s s' => ?_)⟩
      · simp only [sampleLoop]
        exact ⟨fun e => ⟨r1, by rw [e], h⟩, by rintro ⟨r, e, -⟩; simpa using (Prod.mk.inj e).2⟩
      · simp only [sampleLoop]
        exact ⟨fun e => ⟨r2, by rw [e], hq.1 h⟩, by rintro ⟨r, e, -⟩; simpa using (Prod.mk.inj e).2⟩
    · refine ⟨0, Chance.never ?_, Chance.never ?_⟩
      · rintro s s' ⟨r, e, hr⟩
        simp only [sampleLoop, Prod.mk.injEq, Except.ok.injEq] at e
        exact h (e.1 ▸ hr)
      · rintro s s' ⟨r, e, hr⟩
        simp only [sampleLoop, Prod.mk.injEq, Except.ok.injEq] at e
        exact h (hq.2 (e.1 ▸ hr))
  | cons x xs ih =>
    intro pre r1 r2 e k1 k2 hag c1 c2
    have e' : od = (pre ++ [x]) ++ xs := by rw [e]; simp
    have hxn : x ∈ bn.dag.nodes := (ht.complete x).1 (by rw [e]; simp)
    have hxp : x ∉ pre := by
      have := ht.nodup
      rw [e, List.nodup_append] at this
      exact fun hh => this.2.2 x hh x (by simp) rfl
    obtain ⟨l, hl⟩ := (hw.defined x).2 hxn
    by_cases hx : x ∈ cond.keys
    · have m1 : x ∈ r1.keys := (k1 x).2 (Or.inl hx)
      have m2 : x ∈ r2.keys := (k2 x).2 (Or.inl hx)
      obtain ⟨p, h1, h2⟩ := ih (pre ++ [x]) r1 r2 e'
        (by
          intro y
          rw [k1, List.mem_append, List.mem_singleton]
          constructor
          · rintro (h | ⟨h, h'⟩)
            · exact Or.inl h
            · exact Or.inr ⟨Or.inl h, h'⟩
          · rintro (h | ⟨h | rfl, h'⟩)
            · exact Or.inl h
            · exact Or.inr ⟨h, h'⟩
            · exact Or.inl hx)
        (by
          intro y
          rw [k2, List.mem_append, List.mem_singleton]
          constructor
          · rintro (h | h)
            · exact Or.inl h
            · exact Or.inr (Or.inl h)
          · rintro (h | h | rfl)
            · exact Or.inl h
            · exact Or.inr h
            · exact Or.inl hx) hag c1 c2
      refine ⟨p, h1.congr (fun s s' => ?_), h2.congr (fun s s' => ?_)⟩
      · simp only [sampleLoop]
        rw [if_neg (by simp [m1])]
      · simp only [sampleLoop]
        rw [if_neg (by simp [m2])]
    · have m2 : x ∉ r2.keys := fun h => ((k2 x).1 h).elim hx hxp
      have par2 : ∀ p ∈ l.parents, p ∈ r2.keys := fun p hp =>
        (k2 p).2 (Or.inr (ht.parentsFirst pre x xs e p ((hw.edges p x).2 ⟨l, hl, hp⟩)))
      obtain ⟨hcan2, p, hp2, hsum⟩ := hv.law x l hl hx r2 par2 c2
      have k2' : ∀ v y, y ∈ (r2.set x v).keys ↔ y ∈ cond.keys ∨ y ∈ pre ++ [x] := by
        intro v y
        rw [Dict.mem_keys_set, k2, List.mem_append, List.mem_singleton]
        tauto
      by_cases hxs : sel x = true
      · have m1 : x ∉ r1.keys := fun h => ((k1 x).1 h).elim hx (fun h => hxp h.1)
        have par1 : ∀ p ∈ l.parents, p ∈ r1.keys := fun p hp =>
          (k1 p).2 (Or.inr ⟨ht.parentsFirst pre x xs e p ((hw.edges p x).2 ⟨l, hl, hp⟩), hsel x l hl hxs hx p hp⟩)
        have hsame : ∀ s, l.render sem r1.get? s = l.render sem r2.get? s := by
          intro s
          refine render_final sem hcl hns hl (fun hh => hx (hs x hh)) ?_ par1 ?_ s
          · intro y w hy
            rw [← hag y ((Dict.mem_keys_iff_exists _ _).2 ⟨w, hy⟩), hy]
          · intro k hk
            rcases (k2 k).1 hk with h | h
            · exact Or.inl h
            · exact Or.inr ((ht.complete k).1 (by rw [e]; simp [h]))
        have k1' : ∀ v y, y ∈ (r1.set x v).keys ↔ y ∈ cond.keys ∨ (y ∈ pre ++ [x] ∧ sel y = true) := by
          intro v y
          rw [Dict.mem_keys_set, k1, List.mem_append, List.mem_singleton]
          constructor
          · rintro (rfl | h | ⟨h, h'⟩)
            · exact Or.inr ⟨Or.inr rfl, hxs⟩
            · exact Or.inl h
            · exact Or.inr ⟨Or.inl h, h'⟩
          · rintro (h | ⟨h | h, h'⟩)
            · exact Or.inr (Or.inl h)
            · exact Or.inr (Or.inr ⟨h, h'⟩)
            · exact Or.inl h
        have hih : ∀ v, ∃ q, can x v →
            Chance μ (fun s s' => ∃ r', sampleLoop sem bn sel xs (r1.set x v) s = (.ok r', s') ∧ Q r') q ∧
            Chance μ (fun s s' => ∃ r', sampleLoop sem bn (fun _ => true) xs (r2.set x v) s = (.ok r', s') ∧ Q r') q := by
          intro v
          by_cases hcv : can x v
          · obtain ⟨q, hq⟩ := ih (pre ++ [x]) (r1.set x v) (r2.set x v) e' (k1' v) (k2' v) (by
              intro y hy
              rw [Dict.get?_set, Dict.get?_set]
              split
              · rfl
              · rename_i hne
                exact hag y (((Dict.mem_keys_set _ _ _ _).1 hy).resolve_left (by
                  first | exact hne | exact fun h => hne h.symm))) (can_set c1 hcv) (can_set c2 hcv)
            exact ⟨q, fun _ => hq⟩
          · exact ⟨0, fun h => absurd h hcv⟩
        choose q hq using hih
        refine ⟨_, draw_step sem (hv.countable x) hl m1 hxs (fun s v s' h => hcan2 s v s' (by rw [← hsame]; exact h))
          (fun v => (hp2 v).congr (fun s s' => by rw [hsame])) (fun v h => (hq v h).1),
          draw_step sem (hv.countable x) hl m2 rfl hcan2 hp2 (fun v h => (hq v h).2)⟩
      · have hxs' : sel x = false := by simpa using hxs
        have k1' : ∀ y, y ∈ r1.keys ↔ y ∈ cond.keys ∨ (y ∈ pre ++ [x] ∧ sel y = true) := by
          intro y
          rw [k1, List.mem_append, List.mem_singleton]
          constructor
          · rintro (h | ⟨h, h'⟩)
            · exact Or.inl h
            · exact Or.inr ⟨Or.inl h, h'⟩
          · rintro (h | ⟨h | rfl, h'⟩)
            · exact Or.inl h
            · exact Or.inr ⟨h, h'⟩
            · exact absurd h' hxs
        have m1 : x ∉ r1.keys := fun h => ((k1 x).1 h).elim hx (fun h => hxp h.1)
        have hih : ∀ v, can x v → ∃ q,
            Chance μ (fun s s' => ∃ r', sampleLoop sem bn sel xs r1 s = (.ok r', s') ∧ Q r') q ∧
            Chance μ (fun s s' => ∃ r', sampleLoop sem bn (fun _ => true) xs (r2.set x v) s = (.ok r', s') ∧ Q r') q := by
          intro v hcv
          refine ih (pre ++ [x]) r1 (r2.set x v) e' k1' (k2' v) (fun y hy => ?_) c1 (can_set c2 hcv)
          rw [hag y hy, Dict.get?_set, if_neg (by rintro rfl; exact m1 hy)]
        obtain ⟨v0, hv0⟩ : ∃ v, can x v := by
          by_contra hno
          push Not at hno
          have : IsEmpty {v // can x v} := ⟨fun v => hno v v.2⟩
          rw [tsum_empty] at hsum
          exact zero_ne_one hsum
        obtain ⟨q, hq1, -⟩ := hih v0 hv0
        refine ⟨q, hq1.congr (fun s s' => ?_), ?_⟩
        · simp only [sampleLoop]
          rw [if_neg (by simp [hxs'])]
        · have h := draw_step sem (sel := fun _ => true) (Q := Q) (xs := xs) (q := fun _ => q) (hv.countable x) hl m2 rfl
            hcan2 hp2 (fun v hcv => by
              obtain ⟨q', h1, h2⟩ := hih v hcv
              rw [chance_unique hq1 h1]
              exact h2)
          rw [ENNReal.tsum_mul_right, hsum, one_mul] at h
          exact h

/-- Both programs run through the same order of the nodes. -/
theorem both_loops (sem : Sem N V C O S (XR ℝ)) {bn : BN N V C O} (hr : Ready bn) {cond : Dict N V}
    (hs : ∀ x, Exogenous bn x → x ∈ cond.keys) {included : List N} (hne : included ≠ [])
    (hinc : ∀ x ∈ included, x ∈ bn.dag.nodes) (hgiv : ∀ x ∈ cond.keys, x ∈ bn.dag.nodes) :
    ∃ (sel : N → Bool) (od : List N), (∀ x, sel x = true ↔ Needed bn included cond.keys x) ∧
      TopologicalOrder (· ∈ bn.dag.nodes) bn.dag.E od ∧
      (∀ s, sampleMinimally sem bn included cond s = match sampleLoop sem bn sel od cond s with
          | (.error e, s') => (.error e, s')
          | (.ok res, s') => (.ok (res.filterItems (fun k _ => k ∈ included),
              res.filterItems (fun k _ => k ∉ included)), s')) ∧
      (∀ s, sample sem bn cond s = sampleLoop sem bn (fun _ => true) od cond s) ∧
      (∀ x l, bn.loci.get? x = some l → sel x = true → x ∉ cond.keys → ∀ p ∈ l.parents, sel p = true) := by
  obtain ⟨hw, ⟨od, ho, ht⟩, he⟩ := hr.facts
  obtain ⟨suf, hsuf, hmem⟩ := Props.Dag.C07_sufficient hw.wf (given := some cond.keys) hne hinc hgiv
  have hleast := (Props.Dag.C07_least hw.wf hsuf hne hinc hgiv).1.2
  refine ⟨fun x => x ∈ suf, od, fun x => ?_, ht, ?_, ?_, ?_⟩
  · rw [decide_eq_true_iff]; exact hmem x
  · intro s
    have hno : ¬ ((bn.dag.nodes.filter bn.exoB).filter (· ∈ suf)).any (· ∉ cond.keys) = true := by
      rw [List.any_eq_true]
      rintro ⟨x, hx, hn⟩
      obtain ⟨h1, h2⟩ := List.mem_filter.1 hx
      exact absurd (hs x ((exoB_iff bn x).1 (List.mem_filter.1 h1).2)) (by simpa using hn)
    simp only [sampleMinimally, hsuf, he, ho]
    rw [if_neg hno]
    rcases sampleLoop sem bn (fun x => decide (x ∈ suf)) od cond s with ⟨_ | _, _⟩ <;> rfl
  · intro s
    unfold sample
    rw [he, ho]
    simp only
    rw [if_neg]
    rw [List.any_eq_true]
    rintro ⟨x, hx, hn⟩
    exact absurd (hs x ((exoB_iff bn x).1 (List.mem_filter.1 hx).2)) (by simpa using hn)
  · intro x l hl hs hxc p hp
    have : p ∈ suf := hleast x (by simpa using hs) hxc p ((hw.edges p x).2 ⟨l, hl, hp⟩)
    simpa using this

/-- **C207**: `sample_minimally` draws the included variables, given values of others, from the same law as `sample`
does, although it draws only those needed. -/
theorem C207 {μ : Measure S} [IsProbabilityMeasure μ] (sem : Sem N V C O S (XR ℝ))
    (hcl : ∀ c, (sem.reparse c).names = []) {bn : BN N V C O} (hr : Ready bn) {cond : Dict N V}
    (hns : NoShadow bn cond.keys) (hs : ∀ x, Exogenous bn x → x ∈ cond.keys) {can : N → V → Prop}
    (hv : Values μ sem bn cond can) {included : List N} (hne : included ≠ [])
    (hinc : ∀ x ∈ included, x ∈ bn.dag.nodes) (hgiv : ∀ x ∈ cond.keys, x ∈ bn.dag.nodes) (vals : N → Set V) :
    ∃ p,
      Chance μ (fun s s' => ∃ sinks med, sampleMinimally sem bn included cond s = (.ok (sinks, med), s') ∧
        ∀ x ∈ included, ∃ v ∈ vals x, sinks.get? x = some v) p ∧
      Chance μ (fun s s' => ∃ r, sample sem bn cond s = (.ok r, s') ∧
        ∀ x ∈ included, ∃ v ∈ vals x, r.get? x = some v) p := by
  obtain ⟨sel, od, hsel, ht, h1, h2, hpar⟩ := both_loops sem hr hs hne hinc hgiv
  obtain ⟨p, h3, h4⟩ := loop_marginal sem hcl hr.facts.1 hns hs hv hpar ht
    (Q := fun r => ∀ x ∈ included, ∃ v ∈ vals x, r.get? x = some v)
    (fun r r' h => forall₂_congr (fun x hx => by rw [h x ((hsel x).2 (Or.inl hx)) (hinc x hx)]))
    od [] cond cond rfl (by simp) (by simp) (fun _ _ => rfl) hv.given hv.given
  refine ⟨p, h3.congr (fun s s' => ?_), h4.congr (fun s s' => by rw [h2])⟩
  rw [h1]
  rcases sampleLoop sem bn sel od cond s with ⟨_ | r, m⟩
  · simp
  · constructor
    · rintro ⟨r', h, h5⟩
      cases h
      refine ⟨_, _, rfl, fun x hx => ?_⟩
      obtain ⟨v, hv, h6⟩ := h5 x hx
      exact ⟨v, hv, by rw [Dict.get?_filterItems_key, if_pos (by simpa using hx)]; exact h6⟩
    · rintro ⟨sinks, med, h, h5⟩
      cases h
      refine ⟨r, rfl, fun x hx => ?_⟩
      obtain ⟨v, hv, h6⟩ := h5 x hx
      rw [Dict.get?_filterItems_key, if_pos (by simpa using hx)] at h6
      exact ⟨v, hv, h6⟩

/-! ## An example: the first coin alone -/

/-- What the coins can show. -/
def coinCan (x : String) (v : Toy.TV) : Prop := (x = "a" ∨ x = "b") ∧ (v = .num 0 ∨ v = .num 1)

theorem coin_known {ρ : Dict String Toy.TV} (h : ∀ y w, ρ.get? y = some w → coinCan y w) :
    ρ.get? = fun x => if x = "a" then ρ.get? "a" else if x = "b" then ρ.get? "b" else none := by
  funext x
  by_cases ha : x = "a"
  · rw [if_pos ha, ha]
  · rw [if_neg ha]
    by_cases hb : x = "b"
    · rw [if_pos hb, hb]
    · rw [if_neg hb]
      cases hx : ρ.get? x with
      | none => rfl
      | some w => exact ((h x w hx).1.elim ha hb).elim

theorem bern_law {k : Int} (h0 : 0 < k) (h1 : k < 4) {x : String} (hx : x = "a" ∨ x = "b") :
    (∀ s v s', (bern k).sample s = (.ok v, s') → coinCan x v) ∧
    ∃ p : Toy.TV → ENNReal, (∀ v, Chance uniform01 (fun s s' => (bern k).sample s = (.ok v, s')) (p v)) ∧
      ∑' v : {v // coinCan x v}, p v = 1 := by
  have hcan : ∀ s v s', (bern k).sample s = (.ok v, s') → coinCan x v := by
    intro s v s' h
    simp only [bern, Prod.mk.injEq, Except.ok.injEq] at h
    refine ⟨hx, ?_⟩
    rw [← h.1]
    split
    · exact Or.inr rfl
    · exact Or.inl rfl
  refine ⟨hcan, ?_⟩
  have hf := bern_fair h0 h1
  have hlaw : ∀ v, ∃ q, Chance uniform01 (fun s s' => (bern k).sample s = (.ok v, s')) q := by
    intro v
    by_cases hv : coinCan x v
    · rcases hv.2 with rfl | rfl
      · exact ⟨_, (hf _).1 _ rfl⟩
      · exact ⟨_, (hf _).1 _ rfl⟩
    · exact ⟨0, Chance.never (fun s s' h => hv (hcan s v s' h))⟩
  choose p hp using hlaw
  refine ⟨p, hp, ?_⟩
  have : Countable {v // coinCan x v} := Set.Countable.to_subtype (s := {v | coinCan x v})
    (((Set.countable_singleton (Toy.TV.num 1)).insert (Toy.TV.num 0)).mono (by
      rintro v ⟨-, h⟩; simpa using h))
  have h := chance_exists (ι := {v // coinCan x v}) (fun v => hp v) (by
    intro j i s m m' h1 h2
    rw [h1] at h2
    simp only [Prod.mk.injEq, Except.ok.injEq] at h2
    exact Subtype.ext h2.1)
  have h1 := (h _ MeasurableSet.univ).2
  have e : {s | ∃ s' ∈ Set.univ, ∃ v : {v // coinCan x v}, (bern k).sample s = (.ok v.1, s')} = Set.univ := by
    ext s
    simp only [Set.mem_ofPred_eq, Set.mem_univ, true_and, iff_true]
    exact ⟨_, ⟨_, hcan s _ _ rfl⟩, rfl⟩
  rw [e, measure_univ, mul_one] at h1
  exact h1.symm

theorem coin_values : Values uniform01 coinSem coinBN [] coinCan where
  countable := fun x => ((Set.countable_singleton (Toy.TV.num 1)).insert (Toy.TV.num 0)).mono (by
      rintro v ⟨-, h⟩; simpa using h)
  given := by intro x v h; cases h
  law := by
    intro x l hl _ ρ hpar hρ
    have hk := coin_known hρ
    rcases coin_loci hl with ⟨rfl, rfl⟩ | ⟨rfl, rfl⟩
    · have e : ∀ s, Loci.render coinSem (.dist "a" (Toy.app "bern" [] [("q", Toy.int 2)]) []) ρ.get? s =
          (bern 2).sample s := by
        intro s
        have : getDistribution coinSem (Toy.app "bern" [] [("q", Toy.int 2)]) ρ.get? = .ok (bern 2) := by
          rw [hk]; rfl
        simp only [Loci.render, this]
      simp only [e]
      exact bern_law (by decide) (by decide) (Or.inl rfl)
    · obtain ⟨w, hw⟩ := (Dict.mem_keys_iff_exists _ _).1 (hpar "a" (by simp [Loci.parents]))
      rw [hw] at hk
      rcases (hρ "a" w hw).2 with rfl | rfl
      · have e : ∀ s, Loci.render coinSem (.dist "b" (Toy.app "bern" [] [("q", Toy.plus (Toy.int 1)
            (Toy.plus (Toy.var "a") (Toy.var "a")))]) ["a"]) ρ.get? s = (bern 1).sample s := by
          intro s
          have : getDistribution coinSem (Toy.app "bern" [] [("q", Toy.plus (Toy.int 1)
            (Toy.plus (Toy.var "a") (Toy.var "a")))]) ρ.get? = .ok (bern 1) := by
            rw [hk]; rfl
          simp only [Loci.render, this]
        simp only [e]
        exact bern_law (by decide) (by decide) (Or.inr rfl)
      · have e : ∀ s, Loci.render coinSem (.dist "b" (Toy.app "bern" [] [("q", Toy.plus (Toy.int 1)
            (Toy.plus (Toy.var "a") (Toy.var "a")))]) ["a"]) ρ.get? s = (bern 3).sample s := by
          intro s
          have : getDistribution coinSem (Toy.app "bern" [] [("q", Toy.plus (Toy.int 1)
            (Toy.plus (Toy.var "a") (Toy.var "a")))]) ρ.get? = .ok (bern 3) := by
            rw [hk]; rfl
          simp only [Loci.render, this]
        simp only [e]
        exact bern_law (by decide) (by decide) (Or.inr rfl)

example : ∃ p,
    Chance uniform01 (fun s s' => ∃ sinks med, sampleMinimally coinSem coinBN ["a"] [] s = (.ok (sinks, med), s') ∧
      ∀ x ∈ ["a"], ∃ v ∈ ({.num 1} : Set Toy.TV), sinks.get? x = some v) p ∧
    Chance uniform01 (fun s s' => ∃ r, sample coinSem coinBN [] s = (.ok r, s') ∧
      ∀ x ∈ ["a"], ∃ v ∈ ({.num 1} : Set Toy.TV), r.get? x = some v) p :=
  C207 coinSem (fun _ => rfl) coinBuilt (coin_shadow (Or.inl rfl)) (fun x h => absurd h (coin_exo x)) coin_values
    (by decide) (by decide) (by simp [Dict.keys]) (fun _ => {.num 1})

end Props.Laws
