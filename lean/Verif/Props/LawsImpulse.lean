import Verif.Props.LawsMinimal
import Verif.Props.Chromosome

/-!
# The laws of interventions: C228, C229
-/

namespace Props.LawsImpulse

set_option linter.unusedSectionVars false

open Py Spec Relation Model Model.Digraph Model.BN Model.Chromosome Props.BN Props.Sampling Props.Chromosome Props.Laws MeasureTheory

variable {N V C O S : Type} [DecidableEq N] [MeasurableSpace S]

/-! ## Drawing in turn -/

/-- The listed nodes are drawn one after the other, each from its definition on the values `r`, with the values they have
in `r`. -/
def Steps (sem : Sem N V C O S (XR ℝ)) (bn : BN N V C O) (r : Dict N V) : List N → S → S → Prop
  | [], s, s' => s = s'
  | x :: xs, s, s' => ∃ l v m, bn.loci.get? x = some l ∧ r.get? x = some v ∧ l.render sem r.get? s = (.ok v, m) ∧
      Steps sem bn r xs m s'

/-- The values `r` may be drawn for the nodes `A`: definitions that leave nothing to chance are followed, the others have
distributions that sample by their densities. -/
structure Drawable (μ : Measure S) (sem : Sem N V C O S (XR ℝ)) (bn : BN N V C O) (r : Dict N V) (A : N → Prop) : Prop where
  held : ∀ x, A x → x ∈ r.keys
  fixed : ∀ x l, A x → bn.loci.get? x = some l → l.isDist = false → ∃ v, r.get? x = some v ∧ ∀ s, l.render sem r.get? s = (.ok v, s)
  fair : ∀ x n f ps d, A x → bn.loci.get? x = some (.dist n f ps) → getDistribution sem f r.get? = .ok d → Fair μ d

theorem render_law {μ : Measure S} (sem : Sem N V C O S (XR ℝ)) {bn : BN N V C O} {r : Dict N V} {A : N → Prop}
    (h : Drawable μ sem bn r A) {x : N} (ha : A x) {l : Loci N V C O} (hl : bn.loci.get? x = some l) {v : V} (hv : r.get? x = some v)
    {p : ENNReal} (hp1 : bn.Rv x → ∃ k, LogDensity sem bn r x k ∧ p = expX k) (hp2 : ¬ bn.Rv x → p = 1) :
    Chance μ (fun s s' => l.render sem r.get? s = (.ok v, s')) p := by
  cases hi : l.isDist with
  | false =>
    obtain ⟨w, hw', hr⟩ := h.fixed x l ha hl hi
    rw [hv] at hw'
    cases hw'
    rw [hp2 (by rintro ⟨l', hl', h⟩; rw [hl] at hl'; cases hl'; rw [hi] at h; cases h)]
    exact Chance.refl.congr (fun s s' => by rw [hr s]; simp)
  | true =>
    obtain ⟨k, ⟨n, f, ps, v', hl', hv', hd⟩, hk⟩ := hp1 ⟨l, hl, hi⟩
    rw [hl] at hl'
    cases hl'
    rw [hv] at hv'
    cases hv'
    rw [hk]
    rcases hd with ⟨d, hg, hd⟩ | ⟨hg, h0⟩
    · have hfd := h.fair x n f ps d ha hl hg v
      have e : ∀ s, Loci.render sem (.dist n f ps) r.get? s = d.sample s := by
        intro s; simp only [Loci.render, hg]
      rcases hd with hd | ⟨hd, h0⟩
      · exact (hfd.1 _ hd).congr (fun s s' => by rw [e])
      · rw [h0]
        exact (hfd.2 hd).congr (fun s s' => by rw [e])
    · rw [h0]
      refine Chance.never (fun s s' h => ?_)
      simp only [Loci.render, hg] at h
      cases h

theorem steps_chance {μ : Measure S} (sem : Sem N V C O S (XR ℝ)) {bn : BN N V C O} {r : Dict N V} {A : N → Prop}
    (h : Drawable μ sem bn r A) {p : N → ENNReal} : ∀ xs : List N, (∀ x ∈ xs, A x) → (∀ x ∈ xs, ∃ l, bn.loci.get? x = some l) →
    (∀ x ∈ xs, bn.Rv x → ∃ k, LogDensity sem bn r x k ∧ p x = expX k) → (∀ x ∈ xs, ¬ bn.Rv x → p x = 1) →
    Chance μ (Steps sem bn r xs) ((xs.map p).prod) := by
  intro xs
  induction xs with
  | nil => intro _ _ _ _; exact Chance.refl
  | cons x xs ih =>
    intro h1 h2 h3 h4
    obtain ⟨l, hl⟩ := h2 x (by simp)
    obtain ⟨v, hv⟩ := (Dict.mem_keys_iff_exists _ _).1 (h.held x (h1 x (by simp)))
    rw [List.map_cons, List.prod_cons]
    refine ((render_law sem h (h1 x (by simp)) hl hv (h3 x (by simp)) (h4 x (by simp))).comp
      (ih (fun y hy => h1 y (.tail _ hy)) (fun y hy => h2 y (.tail _ hy)) (fun y hy => h3 y (.tail _ hy))
        (fun y hy => h4 y (.tail _ hy)))).congr (fun s s' => ?_)
    constructor
    · rintro ⟨m, h5, h6⟩
      exact ⟨l, v, m, hl, hv, h5, h6⟩
    · rintro ⟨l', v', m, hl', hv', h5, h6⟩
      rw [hl] at hl'; cases hl'
      rw [hv] at hv'; cases hv'
      exact ⟨m, h5, h6⟩

/-- The loop of `impulse` leads to `r` exactly if what it draws are the values of `r`. -/
theorem renderLoop_steps (sem : Sem N V C O S (XR ℝ)) (hcl : ∀ c, (sem.reparse c).names = []) {bn : BN N V C O} (hw : bn.Well)
    {given : List N} (hns : NoShadow bn given) {r : Dict N V} {sh od : List N} (ht : TopologicalOrder (· ∈ bn.dag.nodes) bn.dag.E od)
    (hex : ∀ x ∈ sh, ¬ Exogenous bn x) :
    ∀ (xs pre : List N) (ch : Chromosome N V ℝ), od = pre ++ xs → (∀ y, y ∉ xs ∨ y ∉ sh → ch.locus.get? y = r.get? y) →
      (∀ x ∈ sh, x ∈ ch.locus.keys) → ∀ s s',
      (∃ ch', renderLoop sem bn sh xs ch s = (ch', s', .ok ()) ∧ ∀ x, ch'.locus.get? x = r.get? x) ↔
        Steps sem bn r (xs.filter (· ∈ sh)) s s' := by
  intro xs
  induction xs with
  | nil =>
    intro pre ch e hag _ s s'
    simp only [renderLoop, List.filter_nil, Steps, Prod.mk.injEq, and_true]
    constructor
    · rintro ⟨ch', ⟨-, h⟩, -⟩; exact h
    · intro h; exact ⟨ch, ⟨rfl, h⟩, fun x => hag x (.inl (by simp))⟩
  | cons x xs ih =>
    intro pre ch e hag hk s s'
    have e' : od = (pre ++ [x]) ++ xs := by rw [e]; simp
    have hnd : (pre ++ x :: xs).Nodup := e ▸ ht.nodup
    have hxx : x ∉ xs := (List.nodup_cons.1 (List.nodup_append.1 hnd).2.1).1
    by_cases hx : x ∈ sh
    · have hxn : x ∈ bn.dag.nodes := (ht.complete x).1 (by rw [e]; simp)
      obtain ⟨l, hl⟩ := (hw.defined x).2 hxn
      have hread : ∀ y, (y ∉ bn.dag.nodes ∨ bn.dag.E y x) → ch.locus.get? y = r.get? y := by
        intro y hy
        refine hag y (.inl (fun hm => ?_))
        rcases hy with hy | hy
        · exact hy ((ht.complete y).1 (by rw [e]; exact List.mem_append_right _ hm))
        · have := ht.parentsFirst pre x xs e y hy
          exact (List.nodup_append.1 hnd).2.2 y this y hm rfl
      have hren : ∀ s, l.render sem ch.locus.get? s = l.render sem r.get? s := by
        intro s
        refine Loci.render_congr sem hcl l (fun y hy => hread y (.inr ((hw.edges y x).2 ⟨l, hl, hy⟩))) (fun n f ps e y hy => ?_)
          (fun n e => ?_) s
        · subst e
          rcases hns x n f ps hl y ((Expr.mem_names y f).1 hy) with h | ⟨h, -⟩
          · exact hread y (.inr ((hw.edges y x).2 ⟨_, hl, h⟩))
          · exact hread y (.inl h)
        · subst e
          have : n = x := hw.named x _ hl
          subst this
          exact absurd ⟨n, hl⟩ (hex n hx)
      have hstep : ∀ v m, r.get? x = some v → ((∃ ch', renderLoop sem bn sh xs (ch.set x v) m = (ch', s', .ok ()) ∧
          ∀ x, ch'.locus.get? x = r.get? x) ↔ Steps sem bn r (xs.filter (· ∈ sh)) m s') := by
        intro v m hv
        refine ih (pre ++ [x]) (ch.set x v) e' (fun y hy => ?_) (fun y hy => ?_) m s'
        · show (ch.locus.set x v).get? y = _
          rw [Dict.get?_set]
          split
          · rename_i h; subst h; exact hv.symm
          · rename_i h
            refine hag y ?_
            rcases hy with hy | hy
            · exact .inl (fun hm => (List.mem_cons.1 hm).elim (fun h' => h h'.symm) hy)
            · exact .inr hy
        · show y ∈ (ch.locus.set x v).keys
          rw [Dict.mem_keys_set]
          exact .inr (hk y hy)
      rw [List.filter_cons, if_pos (by simpa using hx)]
      simp only [renderLoop, Steps]
      rw [if_pos (by simpa using hx), get_ok hl]
      simp only [hren s]
      constructor
      · rintro ⟨ch', h1, h2⟩
        rcases hre : l.render sem r.get? s with ⟨_ | v, m⟩
        · rw [hre] at h1; simp at h1
        · rw [hre] at h1
          simp only at h1
          have hrx : r.get? x = some v := by
            have h3 := (renderLoop_ok sem bn sh xs (List.nodup_cons.1 (List.nodup_append.1 hnd).2.1).2 h1 (by
              intro k hk'
              show k ∈ (ch.locus.set x v).keys
              rw [Dict.mem_keys_set]; exact .inr (hk k hk'))).2.1 x (.inr hxx)
            rw [← h2 x, h3]
            exact Dict.get?_set_self _ _ _
          exact ⟨l, v, m, hl, hrx, hre, (hstep v m hrx).1 ⟨ch', h1, h2⟩⟩
      · rintro ⟨l', v, m, hl', hv, h1, h2⟩
        rw [hl] at hl'; cases hl'
        rw [h1]
        exact (hstep v m hv).2 h2
    · rw [List.filter_cons, if_neg (by simpa using hx)]
      simp only [renderLoop]
      rw [if_neg (by simpa using hx)]
      refine ih (pre ++ [x]) ch e' (fun y hy => hag y ?_) hk s s'
      rcases hy with hy | hy
      · by_cases h : y = x
        · subst h; exact .inr hx
        · exact .inl (fun hm => (List.mem_cons.1 hm).elim h hy)
      · exact .inr hy

/-- An impulse leads to `r` exactly if what stays is as in `r` and what is drawn are the values of `r`. -/
theorem impulse_steps (isNone : V → Bool) (sem : Sem N V C O S (XR ℝ)) (hcl : ∀ c, (sem.reparse c).names = []) {bn : BN N V C O}
    (hr : Ready bn) {given : List N} (hns : NoShadow bn given) {od : List N} (ho : bn.order = .ok od) (ch : Chromosome N V ℝ)
    {new : Dict N V} (hn : new.WF) (hh : ∃ k ∈ new.keys, k ∈ ch.locus.keys)
    (hnodes : ∀ k ∈ new.keys, k ∈ ch.locus.keys → k ∈ bn.dag.nodes) (hex : ∀ x, Shocked isNone bn ch new x → ¬ Exogenous bn x)
    {r : Dict N V} (hput : ∀ x v, x ∈ ch.locus.keys → new.get? x = some v → isNone v = false → r.get? x = some v) {sel : N → Bool}
    (hsel : ∀ x, sel x = true ↔ Shocked isNone bn ch new x) (s s' : S) :
    (∃ ch', impulse isNone sem bn ch new s = (ch', s', .ok ()) ∧ ∀ x, ch'.locus.get? x = r.get? x) ↔
      (∀ x, ¬ Intervened isNone ch new x → ¬ Shocked isNone bn ch new x → ch.locus.get? x = r.get? x) ∧
        Steps sem bn r (od.filter sel) s s' := by
  obtain ⟨imp, sh, od', hiw, himp, hsh, ho', ht, he⟩ := impulse_cases isNone sem hr ch hn hh hnodes s
  rw [ho] at ho'
  cases ho'
  have hkeys : (ch.locus.update imp).keys = ch.locus.keys := by
    refine Dict.keys_update_of_subset _ _ (fun x hx => ?_)
    obtain ⟨v, hv⟩ := (Dict.mem_keys_iff_exists _ _).1 hx
    rw [himp] at hv
    by_contra hc
    rw [if_neg hc] at hv; cases hv
  have hfil : od.filter sel = od.filter (· ∈ sh) := List.filter_congr (fun x _ => by
    rw [Bool.eq_iff_iff, hsel, decide_eq_true_iff, hsh])
  rw [hfil]
  have hfin : (∃ ch', impulse isNone sem bn ch new s = (ch', s', .ok ()) ∧ ∀ x, ch'.locus.get? x = r.get? x) ↔
      ∃ ch', renderLoop sem bn sh od { ch with locus := ch.locus.update imp } s = (ch', s', .ok ()) ∧ ∀ x, ch'.locus.get? x = r.get? x := by
    rw [he]
    rcases renderLoop sem bn sh od { ch with locus := ch.locus.update imp } s with ⟨ch2, m, _ | _⟩
    · simp
    · simp only [Prod.mk.injEq, and_true]
      constructor
      · rintro ⟨ch', ⟨h1, h2⟩, h3⟩
        refine ⟨ch2, ⟨rfl, h2⟩, fun x => ?_⟩
        rw [← h3 x, ← h1]
        split <;> rfl
      · rintro ⟨ch', ⟨rfl, h2⟩, h3⟩
        refine ⟨_, ⟨rfl, h2⟩, fun x => ?_⟩
        rw [← h3 x]
        split <;> rfl
  have hint : ∀ x, Intervened isNone ch new x → (ch.locus.update imp).get? x = r.get? x := by
    rintro x ⟨hx, v, hv, hv'⟩
    rw [Dict.get?_update _ _ hiw, himp, if_pos hx, hv, hput x v hx hv hv']
    simp [Option.filter, hv']
  have hnint : ∀ x, ¬ Intervened isNone ch new x → (ch.locus.update imp).get? x = ch.locus.get? x := by
    intro x hx
    rw [Dict.get?_update _ _ hiw, himp]
    split
    · rename_i hxk
      cases hv : new.get? x with
      | none => rfl
      | some v =>
        have : isNone v = true := by
          by_contra hc
          exact hx ⟨hxk, v, hv, by simpa using hc⟩
        simp [Option.filter, this]
    · rfl
  have hshk : ∀ x ∈ sh, x ∈ (ch.locus.update imp).keys := fun x hx => by rw [hkeys]; exact ((hsh x).1 hx).1
  have hall : ∀ x, Shocked isNone bn ch new x → x ∈ od := fun x hx => (ht.complete x).2 (shocked_mem hr hnodes hx)
  rw [hfin]
  constructor
  · rintro ⟨ch', h1, h2⟩
    have hsame : ∀ x, ¬ Intervened isNone ch new x → ¬ Shocked isNone bn ch new x → ch.locus.get? x = r.get? x := by
      intro x hx hx'
      have := (renderLoop_ok sem bn sh od ht.nodup h1 hshk).2.1 x (.inl (fun h => hx' ((hsh x).1 h)))
      rw [← h2 x, this, hnint x hx]
    refine ⟨hsame, (renderLoop_steps sem hcl hr.facts.1 hns ht (fun x hx => hex x ((hsh x).1 hx)) od [] _ rfl (fun y hy => ?_) hshk
      s s').1 ⟨ch', h1, h2⟩⟩
    have hy' : ¬ Shocked isNone bn ch new y := fun h => hy.elim (fun hy => hy (hall y h)) (fun hy => hy ((hsh y).2 h))
    by_cases hi : Intervened isNone ch new y
    · exact hint y hi
    · rw [hnint y hi]; exact hsame y hi hy'
  · rintro ⟨hsame, h⟩
    refine (renderLoop_steps sem hcl hr.facts.1 hns ht (fun x hx => hex x ((hsh x).1 hx)) od [] _ rfl (fun y hy => ?_) hshk
      s s').2 h
    have hy' : ¬ Shocked isNone bn ch new y := fun h => hy.elim (fun hy => hy (hall y h)) (fun hy => hy ((hsh y).2 h))
    by_cases hi : Intervened isNone ch new y
    · exact hint y hi
    · rw [hnint y hi]; exact hsame y hi hy'

theorem perm_prod {p : N → ENNReal} {od drawn : List N} (hod : od.Nodup) (hn : drawn.Nodup) {sel : N → Bool}
    (hmem : ∀ x ∈ drawn, x ∈ od ∧ sel x = true) (hone : ∀ x ∈ od, sel x = true → x ∉ drawn → p x = 1) :
    ((od.filter sel).map p).prod = (drawn.map p).prod := by
  rw [prod_filter_of_one (fun x => x ∈ drawn) (od.filter sel) (fun x hx h => by
    obtain ⟨h1, h2⟩ := List.mem_filter.1 hx
    exact hone x h1 h2 (by simpa using h))]
  have hperm : ((od.filter sel).filter (fun x => x ∈ drawn)).Perm drawn := by
    refine (List.perm_ext_iff_of_nodup ((hod.filter _).filter _) hn).2 (fun x => ?_)
    rw [List.mem_filter, List.mem_filter]
    constructor
    · rintro ⟨-, h⟩; simpa using h
    · intro h; exact ⟨hmem x h, by simpa using h⟩
  exact (hperm.map _).prod_eq

/-! ## C228 -/

open Classical in
/-- **C228**: an impulse on a chromosome leaves given values with the product of the probabilities of the random variables
that are drawn again, each with the parameters that these values give its parents. -/
theorem C228 {μ : Measure S} (isNone : V → Bool) (sem : Sem N V C O S (XR ℝ)) (hcl : ∀ c, (sem.reparse c).names = [])
    {bn : BN N V C O} (hr : Ready bn) (hns : NoShadow bn []) (ch : Chromosome N V ℝ) {new : Dict N V} (hn : new.WF)
    (hh : ∃ k ∈ new.keys, k ∈ ch.locus.keys) (hnodes : ∀ k ∈ new.keys, k ∈ ch.locus.keys → k ∈ bn.dag.nodes)
    (hex : ∀ x, Shocked isNone bn ch new x → ¬ Exogenous bn x) {r : Dict N V}
    (hput : ∀ x v, x ∈ ch.locus.keys → new.get? x = some v → isNone v = false → r.get? x = some v)
    (hsame : ∀ x, ¬ Intervened isNone ch new x → ¬ Shocked isNone bn ch new x → r.get? x = ch.locus.get? x)
    (hd : Drawable μ sem bn r (Shocked isNone bn ch new)) {drawn : List N} (hdn : drawn.Nodup)
    (hdm : ∀ x, x ∈ drawn ↔ bn.Rv x ∧ Shocked isNone bn ch new x) {lp : N → XR ℝ}
    (hlp : ∀ x ∈ drawn, LogDensity sem bn r x (lp x)) :
    Chance μ (fun s s' => ∃ ch', impulse isNone sem bn ch new s = (ch', s', .ok ()) ∧ ∀ x, ch'.locus.get? x = r.get? x)
      ((drawn.map (fun x => expX (lp x))).prod) := by
  obtain ⟨hw, ⟨od, ho, ht⟩, -⟩ := hr.facts
  have h := steps_chance (μ := μ) sem hd (p := fun x => if x ∈ drawn then expX (lp x) else 1)
    (od.filter (fun x => decide (Shocked isNone bn ch new x))) (fun x hx => by simpa using (List.mem_filter.1 hx).2)
    (fun x hx => (hw.defined x).2 ((ht.complete x).1 (List.mem_filter.1 hx).1))
    (fun x hx hrv => by
      have hm : x ∈ drawn := (hdm x).2 ⟨hrv, by simpa using (List.mem_filter.1 hx).2⟩
      exact ⟨lp x, hlp x hm, if_pos hm⟩)
    (fun x hx hrv => if_neg (fun hm => hrv ((hdm x).1 hm).1))
  rw [perm_prod ht.nodup hdn (fun x hx => ⟨(ht.complete x).2 (shocked_mem hr hnodes ((hdm x).1 hx).2), by
    simpa using ((hdm x).1 hx).2⟩) (fun x _ _ hx => if_neg hx)] at h
  rw [show drawn.map (fun x => if x ∈ drawn then expX (lp x) else 1) = drawn.map (fun x => expX (lp x)) from
    List.map_congr_left (fun x hx => if_pos hx)] at h
  refine h.congr (fun s s' => ?_)
  rw [impulse_steps isNone sem hcl hr hns ho ch hn hh hnodes hex hput (sel := fun x => decide (Shocked isNone bn ch new x))
    (fun x => by simp) s s']
  exact ⟨fun h => ⟨fun x h1 h2 => (hsame x h1 h2).symm, h⟩, fun h => h.2⟩

/-! ## C229 -/

/-- The intervention `new` gives `x` a value. -/
def Put (isNone : V → Bool) (new : Dict N V) (x : N) : Prop := ∃ v, new.get? x = some v ∧ isNone v = false

/-- The intervention has `x` drawn again: it gives `x` as None, or `x` is below something it names. -/
def Again (isNone : V → Bool) (bn : BN N V C O) (new : Dict N V) (x : N) : Prop :=
  ¬ Put isNone new x ∧ (x ∈ new.keys ∨ ∃ k ∈ new.keys, TransGen bn.dag.E k x)

theorem intervened_iff {isNone : V → Bool} {ch : Chromosome N V ℝ} {new : Dict N V} (h : ∀ k ∈ new.keys, k ∈ ch.locus.keys) (x : N) :
    Intervened isNone ch new x ↔ Put isNone new x :=
  ⟨fun h => h.2, fun ⟨v, h1, h2⟩ => ⟨h x ((Dict.mem_keys_iff_exists _ _).2 ⟨v, h1⟩), v, h1, h2⟩⟩

theorem shocked_iff {isNone : V → Bool} {bn : BN N V C O} (hw : bn.Well) {ch : Chromosome N V ℝ} {new : Dict N V}
    (h : ∀ k ∈ new.keys, k ∈ bn.dag.nodes) (hk : ∀ x ∈ bn.dag.nodes, x ∈ ch.locus.keys) (x : N) :
    Shocked isNone bn ch new x ↔ Again isNone bn new x := by
  unfold Shocked Again
  rw [intervened_iff (fun k h' => hk k (h k h'))]
  constructor
  · rintro ⟨-, h1, h2 | ⟨k, h2, -, h3⟩⟩
    · exact ⟨h1, .inl h2⟩
    · exact ⟨h1, .inr ⟨k, h2, h3⟩⟩
  · rintro ⟨h1, h2 | ⟨k, h2, h3⟩⟩
    · exact ⟨hk x (h x h2), h1, .inl h2⟩
    · exact ⟨hk x (Digraph.mem_nodes_of_trans_right hw.wf h3), h1, .inr ⟨k, h2, hk k (h k h2), h3⟩⟩

/-- Sampling some nodes leads to the values of `r` exactly if these are drawn. -/
theorem sampleLoop_steps (sem : Sem N V C O S (XR ℝ)) (hcl : ∀ c, (sem.reparse c).names = []) {bn : BN N V C O} (hw : bn.Well)
    {cond r : Dict N V} (hns : NoShadow bn cond.keys) (hs : ∀ x, Exogenous bn x → x ∈ cond.keys)
    (hrk : ∀ x, x ∈ r.keys → x ∈ cond.keys ∨ x ∈ bn.dag.nodes) {sel : N → Bool}
    (hsel : ∀ x l, bn.loci.get? x = some l → sel x = true → x ∉ cond.keys → ∀ p ∈ l.parents, sel p = true)
    {od : List N} (ht : TopologicalOrder (· ∈ bn.dag.nodes) bn.dag.E od) :
    ∀ (xs pre : List N) (res : Dict N V), od = pre ++ xs → (∀ y, y ∈ res.keys ↔ y ∈ cond.keys ∨ (y ∈ pre ∧ sel y = true)) →
      (∀ y, sel y = true → y ∈ cond.keys ∨ y ∈ pre → res.get? y = r.get? y) → ∀ s s',
      (∃ r', sampleLoop sem bn sel xs res s = (.ok r', s') ∧ ∀ x, sel x = true → x ∈ bn.dag.nodes → r'.get? x = r.get? x) ↔
        Steps sem bn r (xs.filter (fun x => sel x && decide (x ∉ cond.keys))) s s' := by
  intro xs
  induction xs with
  | nil =>
    intro pre res e hk hag s s'
    simp only [sampleLoop, List.filter_nil, Steps, Prod.mk.injEq, Except.ok.injEq]
    constructor
    · rintro ⟨r', ⟨-, h⟩, -⟩; exact h
    · intro h
      refine ⟨res, ⟨rfl, h⟩, fun x hx hxn => hag x hx (.inr ?_)⟩
      have := (ht.complete x).2 hxn
      rw [e] at this
      simpa using this
  | cons x xs ih =>
    intro pre res e hk hag s s'
    have e' : od = (pre ++ [x]) ++ xs := by rw [e]; simp
    have hxn : x ∈ bn.dag.nodes := (ht.complete x).1 (by rw [e]; simp)
    have hxp : x ∉ pre := by
      have := ht.nodup
      rw [e, List.nodup_append] at this
      exact fun hh => this.2.2 x hh x (by simp) rfl
    obtain ⟨l, hl⟩ := (hw.defined x).2 hxn
    by_cases hx : sel x = true ∧ x ∉ cond.keys
    · obtain ⟨hxs, hxc⟩ := hx
      have hres : x ∉ res.keys := fun h => ((hk x).1 h).elim hxc (fun h => hxp h.1)
      have hpar : ∀ p ∈ l.parents, res.get? p = r.get? p := fun p hp =>
        hag p (hsel x l hl hxs hxc p hp) (.inr (ht.parentsFirst pre x xs e p ((hw.edges p x).2 ⟨l, hl, hp⟩)))
      have hren : ∀ s, l.render sem res.get? s = l.render sem r.get? s := by
        intro s
        refine Loci.render_congr sem hcl l hpar (fun n f ps e1 y hy => ?_) (fun n e1 => ?_) s
        · subst e1
          rcases hns x n f ps hl y ((Expr.mem_names y f).1 hy) with h | ⟨h, h'⟩
          · exact hpar y h
          · rw [(Dict.get?_eq_none_iff _ _).2 (fun h1 => (hrk y h1).elim h' h), (Dict.get?_eq_none_iff _ _).2 (fun h1 => ?_)]
            rcases (hk y).1 h1 with h2 | ⟨h2, -⟩
            · exact h' h2
            · exact h ((ht.complete y).1 (by rw [e]; simp [h2]))
        · subst e1
          have : n = x := hw.named x _ hl
          subst this
          exact absurd (hs n ⟨n, hl⟩) hxc
      have hstep : ∀ v m, r.get? x = some v → ((∃ r', sampleLoop sem bn sel xs (res.set x v) m = (.ok r', s') ∧
          ∀ x, sel x = true → x ∈ bn.dag.nodes → r'.get? x = r.get? x) ↔
            Steps sem bn r (xs.filter (fun x => sel x && decide (x ∉ cond.keys))) m s') := by
        intro v m hv
        refine ih (pre ++ [x]) (res.set x v) e' (fun y => ?_) (fun y hy hy' => ?_) m s'
        · rw [Dict.mem_keys_set, hk, List.mem_append, List.mem_singleton]
          constructor
          · rintro (rfl | h | ⟨h, h'⟩)
            · exact .inr ⟨.inr rfl, hxs⟩
            · exact .inl h
            · exact .inr ⟨.inl h, h'⟩
          · rintro (h | ⟨h | h, h'⟩)
            · exact .inr (.inl h)
            · exact .inr (.inr ⟨h, h'⟩)
            · exact .inl h
        · rw [Dict.get?_set]
          split
          · rename_i h; subst h; exact hv.symm
          · rename_i h
            refine hag y hy ?_
            rcases hy' with h' | h'
            · exact .inl h'
            · rcases List.mem_append.1 h' with h' | h'
              · exact .inr h'
              · exact absurd (List.mem_singleton.1 h').symm h
      rw [List.filter_cons, if_pos (by simp [hxs, hxc])]
      simp only [sampleLoop, Steps]
      rw [if_pos (by simp [hxs, hres]), get_ok hl]
      simp only [hren s]
      constructor
      · rintro ⟨r', h1, h2⟩
        rcases hre : l.render sem r.get? s with ⟨_ | v, m⟩
        · rw [hre] at h1; simp at h1
        · rw [hre] at h1
          simp only at h1
          have hrx : r.get? x = some v := by
            rw [← h2 x hxs hxn]
            exact (sampleLoop_ok sem bn sel xs h1).2.1 x v (Dict.get?_set_self _ _ _)
          exact ⟨l, v, m, hl, hrx, hre, (hstep v m hrx).1 ⟨r', h1, h2⟩⟩
      · rintro ⟨l', v, m, hl', hv, h1, h2⟩
        rw [hl] at hl'; cases hl'
        rw [h1]
        exact (hstep v m hv).2 h2
    · rw [List.filter_cons, if_neg (by simpa using hx)]
      have hno : ¬ (decide (x ∉ res.keys) && sel x) = true := by
        intro h
        simp only [Bool.and_eq_true, decide_eq_true_eq] at h
        exact hx ⟨h.2, fun hc => h.1 ((hk x).2 (.inl hc))⟩
      simp only [sampleLoop]
      rw [if_neg (by
        intro h
        refine hno ?_
        simp only [Bool.and_eq_true, decide_eq_true_eq] at h ⊢
        tauto)]
      refine ih (pre ++ [x]) res e' (fun y => ?_) (fun y hy hy' => ?_) s s'
      · rw [hk, List.mem_append, List.mem_singleton]
        constructor
        · rintro (h | ⟨h, h'⟩)
          · exact .inl h
          · exact .inr ⟨.inl h, h'⟩
        · rintro (h | ⟨h | rfl, h'⟩)
          · exact .inl h
          · exact .inr ⟨h, h'⟩
          · by_cases hc : y ∈ cond.keys
            · exact .inl hc
            · exact absurd ⟨h', hc⟩ hx
      · rcases hy' with h' | h'
        · exact hag y hy (.inl h')
        · rcases List.mem_append.1 h' with h' | h'
          · exact hag y hy (.inr h')
          · rw [List.mem_singleton.1 h'] at hy ⊢
            by_cases hc : x ∈ cond.keys
            · exact hag x hy (.inl hc)
            · exact absurd ⟨hy, hc⟩ hx

/-- What `r` must be like to be reached by sampling given `cond`, and then intervening. -/
structure Reached (μ : Measure S) (isNone : V → Bool) (sem : Sem N V C O S (XR ℝ)) (bn : BN N V C O) (cond new r : Dict N V) : Prop where
  keys : ∀ x, x ∈ r.keys ↔ x ∈ cond.keys ∨ x ∈ bn.dag.nodes
  put : ∀ x v, new.get? x = some v → isNone v = false → r.get? x = some v
  given : ∀ x v, cond.get? x = some v → ¬ Put isNone new x → ¬ Again isNone bn new x → r.get? x = some v
  drawn : Drawable μ sem bn r (fun x => x ∈ bn.dag.nodes ∧ ¬ Put isNone new x ∧ (x ∈ cond.keys → Again isNone bn new x))

open Classical in
/-- **C229** (interventions): a fresh sample on which an impulse is made has given values with the product of the
probabilities of all random variables that the impulse does not set, each with the parameters that these values give its
parents, and no factor for those it sets. -/
theorem C229 {μ : Measure S} [IsProbabilityMeasure μ] (isNone : V → Bool) (sem : Sem N V C O S (XR ℝ))
    (hcl : ∀ c, (sem.reparse c).names = []) {bn : BN N V C O} (hr : Ready bn) {cond : Dict N V} (hns : NoShadow bn cond.keys)
    (hs : ∀ x, Exogenous bn x → x ∈ cond.keys) {can : N → V → Prop} (hv : Values μ sem bn cond can) {new : Dict N V} (hn : new.WF)
    (hne : new.keys ≠ []) (hnn : ∀ k ∈ new.keys, k ∈ bn.dag.nodes) (hex : ∀ x, Again isNone bn new x → ¬ Exogenous bn x)
    {r : Dict N V} (h : Reached μ isNone sem bn cond new r) {drawn : List N} (hdn : drawn.Nodup)
    (hdm : ∀ x, x ∈ drawn ↔ bn.Rv x ∧ ¬ Put isNone new x ∧ (x ∈ cond.keys → Again isNone bn new x)) {lp : N → XR ℝ}
    (hlp : ∀ x ∈ drawn, LogDensity sem bn r x (lp x)) (lp0 : Dict N V → XR ℝ) :
    Chance μ (fun s s' => ∃ d m ch', sample sem bn cond s = (.ok d, m) ∧
        impulse isNone sem bn ⟨d, lp0 d⟩ new m = (ch', s', .ok ()) ∧ ∀ x, ch'.locus.get? x = r.get? x)
      ((drawn.map (fun x => expX (lp x))).prod) := by
  obtain ⟨hw, ⟨od, ho, ht⟩, he⟩ := hr.facts
  have hsample : ∀ s, sample sem bn cond s = sampleLoop sem bn (fun _ => true) od cond s := by
    intro s
    unfold sample
    rw [he, ho]
    simp only
    rw [if_neg]
    rw [List.any_eq_true]
    rintro ⟨x, hx, hn⟩
    exact absurd (hs x ((exoB_iff bn x).1 (List.mem_filter.1 hx).2)) (by simpa using hn)
  set sel : N → Bool := fun x => decide (¬ Put isNone new x ∧ ¬ Again isNone bn new x) with hseld
  have hseli : ∀ x, sel x = true ↔ ¬ Put isNone new x ∧ ¬ Again isNone bn new x := fun x => by simp [hseld]
  have hpar : ∀ x l, bn.loci.get? x = some l → sel x = true → x ∉ cond.keys → ∀ p ∈ l.parents, sel p = true := by
    intro x l hl hx _ p hp
    obtain ⟨h1, h2⟩ := (hseli x).1 hx
    have hE := (hw.edges p x).2 ⟨l, hl, hp⟩
    refine (hseli p).2 ⟨fun h3 => ?_, fun h3 => ?_⟩
    · obtain ⟨v, h3, -⟩ := h3
      exact h2 ⟨h1, .inr ⟨p, (Dict.mem_keys_iff_exists _ _).2 ⟨v, h3⟩, .single hE⟩⟩
    · rcases h3.2 with h3 | ⟨k, hk, h3⟩
      · exact h2 ⟨h1, .inr ⟨p, h3, .single hE⟩⟩
      · exact h2 ⟨h1, .inr ⟨k, hk, h3.tail hE⟩⟩
  set f : N → ENNReal := fun x => if x ∈ drawn then expX (lp x) else 1 with hf
  have hchance : ∀ L : List N, (∀ x ∈ L, x ∈ bn.dag.nodes ∧ ¬ Put isNone new x ∧ (x ∈ cond.keys → Again isNone bn new x)) →
      Chance μ (Steps sem bn r L) ((L.map f).prod) := by
    intro L hL
    refine steps_chance sem h.drawn L hL (fun x hx => (hw.defined x).2 (hL x hx).1) (fun x hx hrv => ?_)
      (fun x hx hrv => if_neg (fun hm => hrv ((hdm x).1 hm).1))
    have hm : x ∈ drawn := (hdm x).2 ⟨hrv, (hL x hx).2⟩
    exact ⟨lp x, hlp x hm, if_pos hm⟩
  set L1 := od.filter (fun x => sel x && decide (x ∉ cond.keys)) with hL1
  set L2 := od.filter (fun x => decide (Again isNone bn new x)) with hL2
  have m1 : ∀ x, x ∈ L1 ↔ x ∈ bn.dag.nodes ∧ (¬ Put isNone new x ∧ ¬ Again isNone bn new x) ∧ x ∉ cond.keys := by
    intro x
    rw [hL1, List.mem_filter, ht.complete, Bool.and_eq_true, hseli, decide_eq_true_eq]
  have m2 : ∀ x, x ∈ L2 ↔ x ∈ bn.dag.nodes ∧ Again isNone bn new x := by
    intro x
    rw [hL2, List.mem_filter, ht.complete, decide_eq_true_eq]
  have hc1 := hchance L1 (fun x hx => by
    obtain ⟨h1, h2, h3⟩ := (m1 x).1 hx
    exact ⟨h1, h2.1, fun h => absurd h h3⟩)
  have hc2 := hchance L2 (fun x hx => by
    obtain ⟨h1, h2⟩ := (m2 x).1 hx
    exact ⟨h1, h2.1, fun _ => h2⟩)
  obtain ⟨p, hp1, hp2⟩ := loop_marginal sem hcl hw hns hs hv hpar ht
    (Q := fun d => ∀ x, sel x = true → x ∈ bn.dag.nodes → d.get? x = r.get? x)
    (fun d d' h => forall_congr' (fun x => imp_congr_right (fun hx => imp_congr_right (fun hx' => by rw [h x hx hx']))))
    od [] cond cond rfl (by simp) (by simp) (fun _ _ => rfl) hv.given hv.given
  have hp : p = (L1.map f).prod := by
    refine chance_unique (hp1.congr (fun s s' => ?_)) hc1
    refine sampleLoop_steps sem hcl hw hns hs (fun x hx => (h.keys x).1 hx) hpar ht od [] cond rfl (by simp) (fun y hy hy' => ?_) s s'
    have hy' : y ∈ cond.keys := by simpa using hy'
    obtain ⟨v, hv⟩ := (Dict.mem_keys_iff_exists _ _).1 hy'
    obtain ⟨h1, h2⟩ := (hseli y).1 hy
    rw [hv, h.given y v hv h1 h2]
  have hprod : (drawn.map (fun x => expX (lp x))).prod = (L1.map f).prod * (L2.map f).prod := by
    rw [← List.prod_append, ← List.map_append]
    have hnd : (L1 ++ L2).Nodup := by
      refine List.nodup_append.2 ⟨ht.nodup.filter _, ht.nodup.filter _, ?_⟩
      rintro x h1 y h2 rfl
      exact ((m1 x).1 h1).2.1.2 ((m2 x).1 h2).2
    have h3 := perm_prod (p := f) hnd hdn (sel := fun _ => true) (fun x hx => by
      obtain ⟨⟨l, hl, -⟩, h2, h3⟩ := (hdm x).1 hx
      have hxn := (hw.defined x).1 ⟨l, hl⟩
      refine ⟨List.mem_append.2 ?_, rfl⟩
      by_cases ha : Again isNone bn new x
      · exact .inr ((m2 x).2 ⟨hxn, ha⟩)
      · exact .inl ((m1 x).2 ⟨hxn, ⟨h2, ha⟩, fun hc => ha (h3 hc)⟩)) (fun x _ _ hx => if_neg hx)
    rw [List.filter_true] at h3
    rw [h3]
    exact congrArg List.prod (List.map_congr_left (fun x hx => (if_pos hx).symm))
  rw [hprod, ← hp]
  refine (hp2.comp hc2).congr (fun s s' => ?_)
  have hkey : ∀ d m, sampleLoop sem bn (fun _ => true) od cond s = (.ok d, m) →
      ((∃ ch', impulse isNone sem bn ⟨d, lp0 d⟩ new m = (ch', s', .ok ()) ∧ ∀ x, ch'.locus.get? x = r.get? x) ↔
        (∀ x, sel x = true → x ∈ bn.dag.nodes → d.get? x = r.get? x) ∧ Steps sem bn r L2 m s') := by
    intro d m hd
    obtain ⟨k1, k2, -⟩ := sampleLoop_ok sem bn _ _ hd
    have hdk : ∀ x, x ∈ d.keys ↔ x ∈ cond.keys ∨ x ∈ bn.dag.nodes := fun x => by rw [k1, ht.complete]; simp
    have hnod : ∀ x ∈ bn.dag.nodes, x ∈ d.keys := fun x hx => (hdk x).2 (.inr hx)
    have hi := intervened_iff (isNone := isNone) (ch := (⟨d, lp0 d⟩ : Chromosome N V ℝ)) (new := new) (fun k hk => hnod k (hnn k hk))
    have hsk := shocked_iff (isNone := isNone) hw (ch := (⟨d, lp0 d⟩ : Chromosome N V ℝ)) hnn hnod
    rw [impulse_steps isNone sem hcl hr hns ho ⟨d, lp0 d⟩ hn (by
        obtain ⟨k, hk⟩ := List.exists_mem_of_ne_nil _ hne
        exact ⟨k, hk, hnod k (hnn k hk)⟩) (fun k hk _ => hnn k hk) (fun x hx => hex x ((hsk x).1 hx))
      (fun x v _ h1 h2 => h.put x v h1 h2) (sel := fun x => decide (Again isNone bn new x)) (fun x => by simp [hsk]) m s']
    simp only [hi, hsk]
    refine and_congr_left (fun _ => ⟨fun h1 x hx _ => h1 x ((hseli x).1 hx).1 ((hseli x).1 hx).2, fun h1 x hx hx' => ?_⟩)
    by_cases hxn : x ∈ bn.dag.nodes
    · exact h1 x ((hseli x).2 ⟨hx, hx'⟩) hxn
    · cases hc : cond.get? x with
      | some v => rw [k2 x v hc, h.given x v hc hx hx']
      | none =>
        have hxc := (Dict.get?_eq_none_iff _ _).1 hc
        rw [(Dict.get?_eq_none_iff _ _).2 (fun h2 => ((hdk x).1 h2).elim hxc hxn),
          (Dict.get?_eq_none_iff _ _).2 (fun h2 => ((h.keys x).1 h2).elim hxc hxn)]
  constructor
  · rintro ⟨m, ⟨d, h1, h2⟩, h3⟩
    obtain ⟨ch', h4, h5⟩ := (hkey d m h1).2 ⟨h2, h3⟩
    exact ⟨d, m, ch', by rw [hsample]; exact h1, h4, h5⟩
  · rintro ⟨d, m, ch', h1, h4, h5⟩
    rw [hsample] at h1
    obtain ⟨h2, h3⟩ := (hkey d m h1).1 ⟨ch', h4, h5⟩
    exact ⟨m, ⟨d, h1, h2⟩, h3⟩

/-- **C229** (two ways to intervene): making an impulse on a fresh sample and sampling with the values of the impulse
given have the same law. -/
theorem C229_given {μ : Measure S} [IsProbabilityMeasure μ] (isNone : V → Bool) (sem : Sem N V C O S (XR ℝ))
    (hcl : ∀ c, (sem.reparse c).names = []) {bn : BN N V C O} (hr : Ready bn) {cond : Dict N V} (hns : NoShadow bn cond.keys)
    (hs : ∀ x, Exogenous bn x → x ∈ cond.keys) {can : N → V → Prop} (hv : Values μ sem bn cond can) {new : Dict N V} (hn : new.WF)
    (hne : new.keys ≠ []) (hnn : ∀ k ∈ new.keys, k ∈ bn.dag.nodes) (hnew : ∀ x v, new.get? x = some v → isNone v = false)
    (hc : ∀ x ∈ cond.keys, ¬ Again isNone bn new x) {r : Dict N V} (hwf : r.WF) (h : Reached μ isNone sem bn cond new r)
    (hf : ∀ x n f ps d, bn.loci.get? x = some (.dist n f ps) → getDistribution sem f r.get? = .ok d → Fair μ d)
    {lp : N → XR ℝ} (hlp : ∀ x, bn.Rv x → x ∉ new.keys → x ∉ cond.keys → LogDensity sem bn r x (lp x)) (lp0 : Dict N V → XR ℝ) :
    ∃ p, Chance μ (fun s s' => ∃ d m ch', sample sem bn cond s = (.ok d, m) ∧
        impulse isNone sem bn ⟨d, lp0 d⟩ new m = (ch', s', .ok ()) ∧ ∀ x, ch'.locus.get? x = r.get? x) p ∧
      Chance μ (fun s s' => ∃ d, sample sem bn (cond.update new) s = (.ok d, s') ∧ ∀ x, d.get? x = r.get? x) p := by
  classical
  obtain ⟨hw, -, -⟩ := hr.facts
  have hput : ∀ x, Put isNone new x ↔ x ∈ new.keys := fun x => by
    rw [Dict.mem_keys_iff_exists]
    exact ⟨fun ⟨v, h1, _⟩ => ⟨v, h1⟩, fun ⟨v, h1⟩ => ⟨v, h1, hnew x v h1⟩⟩
  have hget := Dict.get?_update cond new hn
  have hkeys : ∀ x, x ∈ (cond.update new).keys ↔ x ∈ new.keys ∨ x ∈ cond.keys := fun x => by
    rw [Dict.mem_keys_iff_exists, Dict.mem_keys_iff_exists, Dict.mem_keys_iff_exists, hget]
    cases h1 : new.get? x <;> simp
  set drawn := (bn.dag.nodes.dedup).filter (fun x => decide (bn.Rv x ∧ x ∉ (cond.update new).keys)) with hdr
  have hdm : ∀ x, x ∈ drawn ↔ bn.Rv x ∧ x ∉ (cond.update new).keys := fun x => by
    rw [hdr, List.mem_filter, List.mem_dedup, decide_eq_true_eq]
    exact ⟨fun h => h.2, fun h => ⟨by obtain ⟨l, hl, -⟩ := h.1; exact (hw.defined x).1 ⟨l, hl⟩, h⟩⟩
  have hdn : drawn.Nodup := (List.nodup_dedup _).filter _
  have hlp' : ∀ x ∈ drawn, LogDensity sem bn r x (lp x) := fun x hx => by
    obtain ⟨h1, h2⟩ := (hdm x).1 hx
    rw [hkeys] at h2
    exact hlp x h1 (fun h3 => h2 (.inl h3)) (fun h3 => h2 (.inr h3))
  refine ⟨_, C229 isNone sem hcl hr hns hs hv hn hne hnn (fun x hx he => hc x (hs x he) hx) h hdn (fun x => ?_)
    (fun x hx => hlp' x hx) lp0, C200_law sem hcl hr (fun x n f ps hl y hy => ?_) (fun x hx => (hkeys x).2 (.inr (hs x hx)))
    (fun x n f ps d hl hd => ?_) ⟨hwf, fun x => ?_, fun x v hx => ?_, fun x l hl hx hi => ?_⟩ hdn hdm hlp'⟩
  · rw [hdm, hkeys, hput]
    constructor
    · rintro ⟨h1, h2⟩; exact ⟨h1, fun h3 => h2 (.inl h3), fun h3 => absurd (.inr h3) h2⟩
    · rintro ⟨h1, h2, h3⟩; exact ⟨h1, fun h4 => h4.elim h2 (fun h4 => hc x h4 (h3 h4))⟩
  · rcases hns x n f ps hl y hy with h1 | ⟨h1, h2⟩
    · exact .inl h1
    · exact .inr ⟨h1, fun h3 => ((hkeys y).1 h3).elim (fun h3 => h1 (hnn y h3)) h2⟩
  · exact hf x n f ps d hl hd
  · rw [h.keys, hkeys]
    constructor
    · rintro (h1 | h1)
      · exact .inl (.inr h1)
      · exact .inr h1
    · rintro ((h1 | h1) | h1)
      · exact .inr (hnn x h1)
      · exact .inl h1
      · exact .inr h1
  · rw [hget] at hx
    cases h1 : new.get? x with
    | some w => rw [h1] at hx; cases hx; exact h.put x _ h1 (hnew x _ h1)
    | none =>
      rw [h1] at hx
      have hx : cond.get? x = some v := hx
      have hxc := (Dict.mem_keys_iff_exists _ _).2 ⟨v, hx⟩
      exact h.given x v hx (fun h2 => by rw [hput, Dict.mem_keys_iff_exists, h1] at h2; simp at h2) (hc x hxc)
  · rw [hkeys] at hx
    exact h.drawn.fixed x l ⟨(hw.defined x).1 ⟨l, hl⟩, fun h2 => hx (.inl ((hput x).1 h2)), fun h2 => absurd (.inr h2) hx⟩ hl hi

/-! ## Examples: turning a coin -/

/-- The coin `a` is put. -/
def putA (a : Int) : Dict String Toy.TV := [("a", .num a)]

theorem putA_get (a : Int) (x : String) : (putA a).get? x = if x = "a" then some (.num a) else none := by
  by_cases h : x = "a"
  · subst h; rfl
  · have h1 : ("a" : String) ≠ x := fun h' => h h'.symm
    simp [putA, Dict.get?_cons, h, h1]

theorem putA_put (a : Int) (x : String) : Put exNone (putA a) x ↔ x = "a" := by
  constructor
  · rintro ⟨v, h, -⟩
    by_contra hx
    rw [putA_get, if_neg hx] at h
    cases h
  · rintro rfl; exact ⟨.num a, rfl, rfl⟩

theorem coin_edges {y x : String} (h : coinBN.dag.E y x) : y = "a" ∧ x = "b" := by
  obtain ⟨l, hl, hy⟩ := (coinBuilt.facts.1.edges y x).1 h
  rcases coin_loci hl with ⟨rfl, rfl⟩ | ⟨rfl, rfl⟩
  · cases hy
  · exact ⟨List.mem_singleton.1 hy, rfl⟩

theorem putA_again (a : Int) (x : String) : Again exNone coinBN (putA a) x ↔ x = "b" := by
  unfold Again
  rw [putA_put]
  constructor
  · rintro ⟨h1, h2 | ⟨k, -, h2⟩⟩
    · exact absurd (List.mem_singleton.1 h2) h1
    · obtain ⟨z, -, h3⟩ := TransGen.tail'_iff.1 h2
      exact (coin_edges h3).2
  · rintro rfl
    exact ⟨by decide, .inr ⟨"a", List.mem_singleton.2 rfl, .single ((coinBuilt.facts.1.edges "a" "b").2 ⟨_, rfl, List.mem_singleton.2 rfl⟩)⟩⟩

theorem coin_drawable {a b : Int} (ha : a = 0 ∨ a = 1) {A : String → Prop} (hA : ∀ x, A x → x = "a" ∨ x = "b") :
    Drawable uniform01 coinSem coinBN (sides a b) A where
  held := fun x hx => by rcases hA x hx with rfl | rfl <;> simp [sides, Dict.keys]
  fixed := fun x l _ hl hi => by rcases coin_loci hl with ⟨-, rfl⟩ | ⟨-, rfl⟩ <;> cases hi
  fair := fun x n f ps d _ hl hd => coin_fair a b ha x n f ps d hl hd

theorem coin_reached {a b : Int} (ha : a = 0 ∨ a = 1) : Reached uniform01 exNone coinSem coinBN [] (putA a) (sides a b) where
  keys := fun x => by
    show x ∈ ["a", "b"] ↔ x ∈ [] ∨ x ∈ ["a", "b"]
    simp
  put := fun x v hx _ => by
    rw [putA_get] at hx
    split at hx
    · rename_i h; subst h; cases hx; rfl
    · cases hx
  given := fun x v hx => by cases hx
  drawn := coin_drawable ha (fun x hx => by
    have := hx.1
    rw [show coinBN.dag.nodes = ["a", "b"] from rfl] at this
    simpa using this)

/-- C228: the coin `b` is thrown again. -/
example {a b a0 b0 : Int} (ha : a = 0 ∨ a = 1) (hb : b = 0 ∨ b = 1) :
    Chance uniform01 (fun s s' => ∃ ch' : Chromosome String Toy.TV ℝ, impulse exNone coinSem coinBN ⟨sides a0 b0, .nan⟩ (putA a) s = (ch', s', .ok ()) ∧
      ∀ x, ch'.locus.get? x = (sides a b).get? x) (ENNReal.ofReal (if a = b then 3 / 4 else 1 / 4)) := by
  have hn : ∀ k ∈ (putA a).keys, k ∈ coinBN.dag.nodes := fun k hk => by
    rw [List.mem_singleton.1 (show k ∈ ["a"] from hk)]; decide
  have hsh : ∀ x, Shocked exNone coinBN (⟨sides a0 b0, .nan⟩ : Chromosome String Toy.TV ℝ) (putA a) x ↔ x = "b" := fun x =>
    (shocked_iff (ch := (⟨sides a0 b0, .nan⟩ : Chromosome String Toy.TV ℝ)) coinBuilt.facts.1 hn (fun y hy => hy) x).trans (putA_again a x)
  have hin : ∀ x, Intervened exNone (⟨sides a0 b0, .nan⟩ : Chromosome String Toy.TV ℝ) (putA a) x ↔ x = "a" := fun x =>
    (intervened_iff (ch := (⟨sides a0 b0, .nan⟩ : Chromosome String Toy.TV ℝ)) (fun k hk => hn k hk) x).trans (putA_put a x)
  have h := C228 (μ := uniform01) exNone coinSem (fun _ => rfl) coinBuilt (coin_shadow (cond := []) (.inl rfl)) ⟨sides a0 b0, .nan⟩
    (new := putA a) (by simp [putA, Dict.WF, Dict.keys]) ⟨"a", List.mem_singleton.2 rfl, by simp [sides, Dict.keys]⟩ (fun k hk _ => hn k hk)
    (fun x _ => coin_exo x) (r := sides a b) (fun x v _ h1 h2 => (coin_reached ha).put x v h1 h2) (fun x h1 h2 => by
      rw [hin] at h1
      rw [hsh] at h2
      have h3 : ("a" : String) ≠ x := fun h' => h1 h'.symm
      have h4 : ("b" : String) ≠ x := fun h' => h2 h'.symm
      simp [sides, Dict.get?_cons, h3, h4]) (coin_drawable ha (fun x hx => .inr ((hsh x).1 hx))) (drawn := ["b"]) (by decide) (fun x => by
      rw [coin_rv, hsh, List.mem_singleton]; exact ⟨fun h => ⟨.inr h, h⟩, fun h => h.2⟩) (lp := fun _ => .fin (Real.log (if a = b then 3 / 4 else 1 / 4))) (fun x hx => by
      rw [List.mem_singleton.1 hx]; exact coin_b ha hb)
  refine cast ?_ h
  congr 1
  simp only [List.map_cons, List.map_nil, List.prod_cons, List.prod_nil, expX]
  rw [Real.exp_log (by split <;> norm_num), mul_one]

/-- C229: two coins are thrown, then the first is turned to the side `a`. -/
example {a b : Int} (ha : a = 0 ∨ a = 1) (hb : b = 0 ∨ b = 1) :
    Chance uniform01 (fun s s' => ∃ d m, ∃ ch' : Chromosome String Toy.TV ℝ, sample coinSem coinBN [] s = (.ok d, m) ∧
      impulse exNone coinSem coinBN ⟨d, .nan⟩ (putA a) m = (ch', s', .ok ()) ∧ ∀ x, ch'.locus.get? x = (sides a b).get? x)
      (ENNReal.ofReal (if a = b then 3 / 4 else 1 / 4)) := by
  have h := C229 (μ := uniform01) exNone coinSem (fun _ => rfl) coinBuilt (coin_shadow (cond := []) (.inl rfl))
    (fun x h => absurd h (coin_exo x)) coin_values (new := putA a) (by simp [putA, Dict.WF, Dict.keys]) (by simp [putA, Dict.keys])
    (fun k hk => by rw [List.mem_singleton.1 (show k ∈ ["a"] from hk)]; decide) (fun x _ => coin_exo x) (coin_reached ha)
    (drawn := ["b"]) (by decide) (fun x => by
      rw [coin_rv, putA_put]
      simp only [List.mem_singleton, Dict.keys, List.map_nil, List.not_mem_nil, false_imp_iff, and_true]
      constructor
      · rintro rfl; exact ⟨.inr rfl, by decide⟩
      · rintro ⟨h | h, h'⟩
        · exact absurd h h'
        · exact h) (lp := fun _ => .fin (Real.log (if a = b then 3 / 4 else 1 / 4))) (fun x hx => by
      rw [List.mem_singleton.1 hx]; exact coin_b ha hb) (fun _ => .nan)
  refine cast ?_ h
  congr 1
  simp only [List.map_cons, List.map_nil, List.prod_cons, List.prod_nil, expX]
  rw [Real.exp_log (by split <;> norm_num), mul_one]

/-- C229: it is the same to throw the second coin with the first one given. -/
example {a b : Int} (ha : a = 0 ∨ a = 1) (hb : b = 0 ∨ b = 1) :
    ∃ p, Chance uniform01 (fun s s' => ∃ d m, ∃ ch' : Chromosome String Toy.TV ℝ, sample coinSem coinBN [] s = (.ok d, m) ∧
        impulse exNone coinSem coinBN ⟨d, .nan⟩ (putA a) m = (ch', s', .ok ()) ∧ ∀ x, ch'.locus.get? x = (sides a b).get? x) p ∧
      Chance uniform01 (fun s s' => ∃ d, sample coinSem coinBN (putA a) s = (.ok d, s') ∧ ∀ x, d.get? x = (sides a b).get? x) p :=
  C229_given (μ := uniform01) exNone coinSem (fun _ => rfl) coinBuilt (coin_shadow (cond := []) (.inl rfl))
    (fun x h => absurd h (coin_exo x)) coin_values (new := putA a) (by simp [putA, Dict.WF, Dict.keys]) (by simp [putA, Dict.keys])
    (fun k hk => by rw [List.mem_singleton.1 (show k ∈ ["a"] from hk)]; decide) (fun x v h => by
      rw [putA_get] at h
      split at h
      · cases h; rfl
      · cases h) (fun x hx => by cases hx) (show (Dict.keys (sides a b)).Nodup from show ["a", "b"].Nodup by decide)
    (coin_reached ha) (coin_fair a b ha) (lp := fun _ => .fin (Real.log (if a = b then 3 / 4 else 1 / 4))) (fun x hx hx' _ => by
      rcases (coin_rv x).1 hx with rfl | rfl
      · exact absurd (List.mem_singleton.2 rfl) hx'
      · exact coin_b ha hb) (fun _ => .nan)

end Props.LawsImpulse
