import Verif.Props.Laws
import Verif.Props.SimBred
import Verif.Props.SimActor

/-!
# The laws of simulation cores and of their samplers: C221, C222, C223, C224
-/

namespace Props.LawsSim

set_option linter.unusedSectionVars false

open Py Spec Relation Model Model.Digraph Model.BN Props.BN Props.Sampling Props.SimCore Props.Laws MeasureTheory

variable {N V C O S : Type} [DecidableEq N] [MeasurableSpace S]

/-- Nodes in an order in which each finds its parents among the ones that are given or come before. -/
structure Ordered (bn : BN N V C O) (given ds : List N) : Prop where
  nodup : ds.Nodup
  nodes : ∀ x ∈ ds, x ∈ bn.dag.nodes
  parents : ∀ pre d suf, ds = pre ++ d :: suf → ∀ y, bn.dag.E y d → y ∈ given ∨ y ∈ pre
  open' : ∀ x ∈ ds, Exogenous bn x → x ∈ given

/-- An assignment to the nodes `ds` on top of given values, which agrees with the definitions that leave nothing to
chance, whose random variables have distributions that sample by their densities, and the log densities that the
definitions give to its values. -/
structure Fills (μ : Measure S) (sem : Sem N V C O S (XR ℝ)) (bn : BN N V C O) (vs : Dict N V) (ds : List N) (r : Dict N V)
    (lp : N → XR ℝ) : Prop where
  keys : ∀ x, x ∈ r.keys ↔ x ∈ vs.keys ∨ x ∈ ds
  kept : ∀ x v, vs.get? x = some v → r.get? x = some v
  sure : ∀ x ∈ ds, x ∉ vs.keys → ∀ l, bn.loci.get? x = some l → l.isDist = false →
    ∃ v, r.get? x = some v ∧ ∀ s, l.render sem r.get? s = (.ok v, s)
  weight : ∀ x ∈ ds, ∀ l, bn.loci.get? x = some l → l.evaluate sem r.get? = .ok (lp x)
  fair : ∀ x ∈ ds, ∀ n f ps d, bn.loci.get? x = some (.dist n f ps) → getDistribution sem f r.get? = .ok d → Fair μ d

theorem render_chance {μ : Measure S} (sem : Sem N V C O S (XR ℝ)) {bn : BN N V C O} (hw : bn.Well) {r : Dict N V}
    {x : N} (hf : ∀ n f ps d, bn.loci.get? x = some (.dist n f ps) → getDistribution sem f r.get? = .ok d → Fair μ d)
    {l : Loci N V C O} (hl : bn.loci.get? x = some l) {v : V} (hv : r.get? x = some v)
    (hs : l.isDist = false → ∃ v, r.get? x = some v ∧ ∀ s, l.render sem r.get? s = (.ok v, s)) {lp : XR ℝ}
    (he : l.evaluate sem r.get? = .ok lp) :
    Chance μ (fun s s' => l.render sem r.get? s = (.ok v, s')) (expX lp) := by
  have hx : x ∈ r.keys := (Dict.mem_keys_iff_exists _ _).2 ⟨v, hv⟩
  rcases evaluate_dist sem hw hl hx he with ⟨hno, rfl⟩ | ⟨-, n, f, ps, v', hl', hv', hd⟩
  · have hi : l.isDist = false := by
      cases hi : l.isDist with
      | false => rfl
      | true => exact absurd ⟨l, hl, hi⟩ hno
    obtain ⟨w, hw', hr⟩ := hs hi
    rw [hv] at hw'
    cases hw'
    rw [expX_zero]
    exact Chance.refl.congr (fun s s' => by rw [hr s]; simp)
  · rw [hl] at hl'
    cases hl'
    rw [hv] at hv'
    cases hv'
    rcases hd with ⟨d, hg, hd⟩ | ⟨hg, h0⟩
    · have hfd := hf n f ps d hl hg v
      have e : ∀ s, Loci.render sem (.dist n f ps) r.get? s = d.sample s := by
        intro s; simp only [Loci.render, hg]
      rcases hd with hd | ⟨hd, h0⟩
      · exact (hfd.1 _ hd).congr (fun s s' => by rw [e])
      · rw [h0]
        exact (hfd.2 hd).congr (fun s s' => by rw [e])
    · rw [h0]
      refine Chance.never (fun s s' h => ?_)
      simp only [Loci.render, hg] at h
      cases h

theorem fill_chance {μ : Measure S} (sem : Sem N V C O S (XR ℝ)) (hcl : ∀ c, (sem.reparse c).names = [])
    {bn : BN N V C O} (hw : bn.Well) {given : List N} (hns : NoShadow bn given) {r : Dict N V}
    (lp : N → XR ℝ) : ∀ (ds : List N) (vs : Dict N V), Ordered bn vs.keys ds → Fills μ sem bn vs ds r lp →
    (∀ k ∈ vs.keys, k ∈ given ∨ k ∈ bn.dag.nodes) →
      Chance μ (fun s s' => ∃ r', sampleLoop sem bn (fun _ => true) ds vs s = (.ok r', s') ∧ ∀ y, r'.get? y = r.get? y)
        ((ds.map (fun x => if x ∈ vs.keys then 1 else expX (lp x))).prod) := by
  intro ds
  induction ds with
  | nil =>
    intro vs ho hr hk
    refine Chance.refl.congr (fun s s' => ?_)
    simp only [sampleLoop]
    constructor
    · rintro rfl
      refine ⟨vs, rfl, same_of hr.kept (fun y hy => ?_)⟩
      rcases (hr.keys y).1 hy with h | h
      · exact h
      · cases h
    · rintro ⟨r', h, -⟩
      simp only [Prod.mk.injEq] at h
      exact h.2
  | cons x xs ih =>
    intro vs ho hr hk
    obtain ⟨hxx, hnd⟩ := List.nodup_cons.1 ho.nodup
    have hxn := ho.nodes x (by simp)
    obtain ⟨l, hl⟩ := (hw.defined x).2 hxn
    have hpar : ∀ p ∈ l.parents, p ∈ vs.keys := by
      intro p hp
      rcases ho.parents [] x xs rfl p ((hw.edges p x).2 ⟨l, hl, hp⟩) with h | h
      · exact h
      · cases h
    rw [List.map_cons, List.prod_cons]
    by_cases hx : x ∈ vs.keys
    · rw [if_pos hx, one_mul]
      refine (ih vs ⟨hnd, fun y hy => ho.nodes y (.tail _ hy), fun pre d suf e y hy => ?_, fun y hy => ho.open' y (.tail _ hy)⟩
        ⟨fun y => ?_, hr.kept, fun y hy => hr.sure y (.tail _ hy), fun y hy => hr.weight y (.tail _ hy),
          fun y hy => hr.fair y (.tail _ hy)⟩ hk).congr (fun s s' => ?_)
      · rcases ho.parents (x :: pre) d suf (by rw [e]; rfl) y hy with h | h
        · exact .inl h
        · rcases List.mem_cons.1 h with rfl | h
          · exact .inl hx
          · exact .inr h
      · rw [hr.keys, List.mem_cons]
        constructor
        · rintro (h | rfl | h)
          · exact .inl h
          · exact .inl hx
          · exact .inr h
        · rintro (h | h)
          · exact .inl h
          · exact .inr (.inr h)
      · simp only [sampleLoop]
        rw [if_neg]
        simpa using hx
    · rw [if_neg hx]
      obtain ⟨v, hv⟩ := (Dict.mem_keys_iff_exists _ _).1 ((hr.keys x).2 (.inr (by simp)))
      have hset : ∀ k, k ∈ (vs.set x v).keys ↔ k = x ∨ k ∈ vs.keys := fun k => Dict.mem_keys_set _ _ _ _
      have hfin : ∀ s, l.render sem vs.get? s = l.render sem r.get? s := by
        intro s
        refine render_final sem hcl hns hl (fun hh => hx (ho.open' x (by simp) hh)) hr.kept hpar (fun k hkr => ?_) s
        rcases (hr.keys k).1 hkr with h | h
        · exact hk k h
        · exact .inr (ho.nodes k h)
      have hstep := render_chance sem hw (hr.fair x (by simp)) hl hv (hr.sure x (by simp) hx l hl) (hr.weight x (by simp) l hl)
      have hrest := ih (vs.set x v) ⟨hnd, fun y hy => ho.nodes y (.tail _ hy), fun pre d suf e y hy => by
          rcases ho.parents (x :: pre) d suf (by rw [e]; rfl) y hy with h | h
          · exact .inl ((hset y).2 (.inr h))
          · rcases List.mem_cons.1 h with rfl | h
            · exact .inl ((hset y).2 (.inl rfl))
            · exact .inr h, fun y hy h => (hset y).2 (.inr (ho.open' y (.tail _ hy) h))⟩
        ⟨fun y => by
          rw [hr.keys, hset, List.mem_cons]
          tauto, fun y w hy => by
          rw [Dict.get?_set] at hy
          split at hy
          · rename_i h
            subst h
            cases hy
            exact hv
          · exact hr.kept y w hy, fun y hy h => hr.sure y (.tail _ hy) (fun hh => h ((hset y).2 (.inr hh))),
          fun y hy => hr.weight y (.tail _ hy), fun y hy => hr.fair y (.tail _ hy)⟩ (fun k h => by
          rcases (hset k).1 h with rfl | h
          · exact .inr hxn
          · exact hk k h)
      have emap : xs.map (fun y => if y ∈ (vs.set x v).keys then 1 else expX (lp y)) =
          xs.map (fun y => if y ∈ vs.keys then 1 else expX (lp y)) := by
        refine List.map_congr_left (fun y hy => ?_)
        have hyx : y ≠ x := fun h => hxx (h ▸ hy)
        simp only [hset, hyx, false_or]
      rw [emap] at hrest
      refine (hstep.comp hrest).congr (fun s s' => ?_)
      simp only [sampleLoop]
      rw [if_pos (by simpa using hx), get_ok hl]
      simp only [hfin s]
      constructor
      · rintro ⟨m, h3, r', h4, h5⟩
        rw [h3]
        exact ⟨r', h4, h5⟩
      · rintro ⟨r', h4, h5⟩
        rcases hre : l.render sem r.get? s with ⟨o, m⟩
        rw [hre] at h4
        cases o with
        | error err => cases h4
        | ok w =>
          simp only at h4
          have hw' := (sampleLoop_ok sem bn _ _ h4).2.1 x w (Dict.get?_set_self _ _ _)
          rw [h5, hv] at hw'
          cases hw'
          exact ⟨m, rfl, r', h4, h5⟩

/-! ## C221 -/

theorem readExo_same (sem : Sem N V C O S (XR ℝ)) (noneV : V) (bn : BN N V C O) (up : List (Dict N V)) : ∀ (ds : List N)
    (vs : Dict N V), (∀ d ∈ ds, d ∈ vs.keys ∨ ∃ v, chainGet up d = .ok v) →
    ∃ r, (∀ s, Core.readExo sem noneV bn up ds vs s = (.ok r, s)) ∧
      ∀ k, r.get? k = (vs.get? k).or (if k ∈ ds then chainMap up k else none) := by
  intro ds
  induction ds with
  | nil => intro vs _; exact ⟨vs, fun _ => rfl, by simp⟩
  | cons d ds ih =>
    intro vs h
    simp only [Core.readExo]
    by_cases hd : d ∈ vs.keys
    · obtain ⟨r, h1, h2⟩ := ih vs (fun x hx => h x (.tail _ hx))
      refine ⟨r, fun s => by rw [if_pos hd]; exact h1 s, fun k => ?_⟩
      rw [h2]
      by_cases e : k = d
      · subst e
        obtain ⟨v, hv⟩ := (Dict.mem_keys_iff_exists _ _).1 hd
        rw [hv]; rfl
      · simp [e]
    · obtain ⟨v, hv⟩ := (h d (by simp)).resolve_left hd
      obtain ⟨r, h1, h2⟩ := ih (vs.set d v) (fun x hx => by
        rcases h x (.tail _ hx) with h | h
        · exact .inl ((Dict.mem_keys_set _ _ _ _).2 (.inr h))
        · exact .inr h)
      refine ⟨r, fun s => by rw [if_neg hd, hv]; exact h1 s, fun k => ?_⟩
      rw [h2, Dict.get?_set]
      by_cases e : d = k
      · subst e
        rw [if_pos rfl, (Dict.get?_eq_none_iff _ _).2 hd]
        simp [chainMap, hv, Except.toOption]
      · rw [if_neg e]
        have : k ≠ d := fun h => e h.symm
        simp [this]

/-- What a core of a group is given: the values handed to `generate`, and what the group takes from the cores above. -/
structure Taken (g : Model.Group N) (up : List (Dict N V)) (exo vs : Dict N V) : Prop where
  readable : ∀ x ∈ g.exogenous, x ∈ exo.keys ∨ ∃ v, chainGet up x = .ok v
  is : ∀ x, vs.get? x = (exo.get? x).or (if x ∈ g.exogenous then chainMap up x else none)

theorem Taken.keys {g : Model.Group N} {up : List (Dict N V)} {exo vs : Dict N V} (h : Taken g up exo vs) (x : N) :
    x ∈ vs.keys ↔ x ∈ exo.keys ∨ x ∈ g.exogenous := by
  rw [← Dict.get?_isSome_iff, h.is, ← Dict.get?_isSome_iff]
  by_cases hx : x ∈ g.exogenous
  · rcases h.readable x hx with h1 | ⟨v, hv⟩
    · rw [← Dict.get?_isSome_iff] at h1
      cases he : exo.get? x with
      | none => rw [he] at h1; cases h1
      | some w => simp
    · simp [hx, chainMap, hv, Except.toOption]
  · simp [hx]

theorem generate_core {μ : Measure S} (sem : Sem N V C O S (XR ℝ)) (hcl : ∀ c, (sem.reparse c).names = []) (noneV : V)
    {bn : BN N V C O} (hr : Ready bn) {g : Model.Group N} (nick : N) {up : List (Dict N V)} {exo vs : Dict N V}
    (he : exo.WF) (hv : Taken g up exo vs) (hns : NoShadow bn vs.keys) (ho : Ordered bn vs.keys g.fixed) {r : Dict N V}
    {lp : N → XR ℝ} (hfill : Fills μ sem bn vs g.fixed r lp) :
    ∃ L : S → S → Prop, Chance μ L
        ((g.fixed.map (fun x => if x ∈ exo.keys ∨ x ∈ g.exogenous then 1 else expX (lp x))).prod) ∧
      (∀ s s', L s s' → ∃ c : Core N V C O S ℝ, Core.generate sem noneV bn g nick up exo s = (.ok c, s') ∧
        (∀ x, c.locus.get? x = if x ∈ exo.keys ∨ x ∈ g.fixed then r.get? x else none) ∧
        c.logProb = (g.fixed.map lp).sum) ∧
      ∀ s s' (c : Core N V C O S ℝ), Core.generate sem noneV bn g nick up exo s = (.ok c, s') →
        (∀ x, c.locus.get? x = if x ∈ exo.keys ∨ x ∈ g.fixed then r.get? x else none) → L s s' := by
  have hw := hr.facts.1
  obtain ⟨r0, e1, e2⟩ := readExo_same sem noneV bn up g.exogenous exo hv.readable
  have e0 : ∀ x, r0.get? x = vs.get? x := fun x => (e2 x).trans (hv.is x).symm
  have ek : ∀ x, x ∈ r0.keys ↔ x ∈ vs.keys := fun x => by
    rw [← Dict.get?_isSome_iff, e0, Dict.get?_isSome_iff]
  have ho0 : Ordered bn r0.keys g.fixed := ⟨ho.nodup, ho.nodes, fun pre d suf e y hy => by
    rw [ek]; exact ho.parents pre d suf e y hy, fun x hx h => (ek x).2 (ho.open' x hx h)⟩
  have hfill0 : Fills μ sem bn r0 g.fixed r lp := ⟨fun x => by rw [ek]; exact hfill.keys x, fun x v h => by
    rw [e0] at h; exact hfill.kept x v h, fun x hx h => hfill.sure x hx (fun hh => h ((ek x).2 hh)), hfill.weight, hfill.fair⟩
  have hk0 : ∀ k ∈ r0.keys, k ∈ vs.keys ∨ k ∈ bn.dag.nodes := fun k hk => .inl ((ek k).1 hk)
  have h := fill_chance sem hcl hw hns lp g.fixed r0 ho0 hfill0 hk0
  simp only [ek, hv.keys] at h
  suffices hh : ∀ s s', _ ∧ _ from ⟨_, h, fun s s' => (hh s s').1, fun s s' => (hh s s').2⟩
  intro s s'
  have key := fun q r' => lockstep sem hcl hw hns g.fixed r0 0 s ho0.nodup ho0.nodes ho0.parents hk0 r' q s'
  have hev : ∀ r' : Dict N V, (∀ y, r'.get? y = r.get? y) → ∀ x ∈ g.fixed,
      (do (← bn.get x).evaluate sem r'.get? : Result (XR ℝ)) = .ok (lp x) := by
    intro r' hr' x hx
    obtain ⟨l, hl⟩ := (hw.defined x).2 (ho.nodes x hx)
    rw [get_ok hl, show r'.get? = r.get? from funext hr']
    exact hfill.weight x hx l hl
  have hterm : ∀ r' : Dict N V, (∀ y, r'.get? y = r.get? y) → ∀ x ∈ g.fixed, term sem bn r' x = lp x := by
    intro r' hr' x hx
    unfold term
    rw [hev r' hr' x hx]
  have hsum : ∀ r' : Dict N V, (∀ y, r'.get? y = r.get? y) → (g.fixed.map (term sem bn r')).sum = (g.fixed.map lp).sum :=
    fun r' hr' => congrArg List.sum (List.map_congr_left (hterm r' hr'))
  have hloc : ∀ r' : Dict N V, (∀ k v, r0.get? k = some v → r'.get? k = some v) → ∀ x,
      ((r'.filterItems (fun k _ => k ∈ g.fixed)).update exo).get? x = if x ∈ exo.keys ∨ x ∈ g.fixed then r'.get? x else none := by
    intro r' h1 x
    rw [Dict.get?_update _ _ he, Dict.get?_filterItems_key]
    cases hx : exo.get? x with
    | some v =>
      have hk : x ∈ exo.keys := (Dict.mem_keys_iff_exists _ _).2 ⟨v, hx⟩
      have hh : r'.get? x = some v := h1 x v (by rw [e2, hx]; rfl)
      simp [hk, hh]
    | none =>
      have : x ∉ exo.keys := (Dict.get?_eq_none_iff _ _).1 hx
      simp [this]
  unfold Core.generate
  rw [e1 s]
  constructor
  · rintro ⟨r', h1, h2⟩
    obtain ⟨h3, -⟩ := (key _ r').2 ⟨h1, fun x hx => by rw [hterm r' h2 x hx]; exact hev r' h2 x hx, rfl⟩
    simp only [h3]
    refine ⟨_, rfl, fun x => ?_, by rw [zero_add]; exact hsum r' h2⟩
    rw [hloc r' (sampleLoop_ok sem bn _ _ h1).2.1, h2]
  · intro c h1 h2
    simp only at h1
    rcases h3 : Core.fillFixed sem bn g.fixed r0 0 s with ⟨o, m⟩
    rw [h3] at h1
    cases o with
    | error e => cases h1
    | ok o =>
      obtain ⟨r', q⟩ := o
      simp only [Prod.mk.injEq, Except.ok.injEq] at h1
      obtain ⟨rfl, rfl⟩ := h1
      obtain ⟨f1, f2⟩ := fillFixed_frame sem bn _ _ _ _ h3
      have h4 : ∀ x, (if x ∈ exo.keys ∨ x ∈ g.fixed then r'.get? x else none) =
          if x ∈ exo.keys ∨ x ∈ g.fixed then r.get? x else none := fun x => (hloc r' f1 x).symm.trans (h2 x)
      have h5 : ∀ x ∈ g.fixed, r'.get? x = r.get? x := by
        intro x hx
        have := h4 x
        rwa [if_pos (.inr hx), if_pos (.inr hx)] at this
      have h6 : ∀ x ∈ g.fixed, x ∈ r'.keys := by
        intro x hx
        rw [← Dict.get?_isSome_iff, h5 x hx, Dict.get?_isSome_iff]
        exact (hfill.keys x).2 (.inr hx)
      refine ⟨r', ((key q r').1 ⟨h3, h6⟩).1, fun x => ?_⟩
      by_cases hx : x ∈ r0.keys
      · obtain ⟨v, hv'⟩ := (Dict.mem_keys_iff_exists _ _).1 hx
        rw [f1 x v hv', hfill0.kept x v hv']
      · by_cases hx' : x ∈ g.fixed
        · exact h5 x hx'
        · rw [(Dict.get?_eq_none_iff _ _).2 (fun hh => (f2 x hh).elim hx hx'),
            (Dict.get?_eq_none_iff _ _).2 (fun hh => ((hfill0.keys x).1 hh).elim hx hx')]

/-- **C221**: a core is generated with given values of its fixed variables with the product of their probabilities under
their definitions, read on the values themselves and on what the core takes from above; its log probability is the sum of
their log densities. -/
theorem C221 {μ : Measure S} (sem : Sem N V C O S (XR ℝ)) (hcl : ∀ c, (sem.reparse c).names = []) (noneV : V)
    {bn : BN N V C O} (hr : Ready bn) {g : Model.Group N} (nick : N) {up : List (Dict N V)} {exo vs : Dict N V}
    (he : exo.WF) (hv : Taken g up exo vs) (hns : NoShadow bn vs.keys) (ho : Ordered bn vs.keys g.fixed) {r : Dict N V}
    {lp : N → XR ℝ} (hfill : Fills μ sem bn vs g.fixed r lp) :
    Chance μ (fun s s' => ∃ c : Core N V C O S ℝ, Core.generate sem noneV bn g nick up exo s = (.ok c, s') ∧
        (∀ x, c.locus.get? x = if x ∈ exo.keys ∨ x ∈ g.fixed then r.get? x else none) ∧
        c.logProb = (g.fixed.map lp).sum)
      ((g.fixed.map (fun x => if x ∈ exo.keys ∨ x ∈ g.exogenous then 1 else expX (lp x))).prod) := by
  obtain ⟨L, h1, h2, h3⟩ := generate_core sem hcl noneV hr nick he hv hns ho hfill
  exact h1.congr (fun s s' => ⟨h2 s s', fun ⟨c, h4, h5, _⟩ => h3 s s' c h4 h5⟩)

theorem generate_weight {μ : Measure S} (sem : Sem N V C O S (XR ℝ)) (hcl : ∀ c, (sem.reparse c).names = []) (noneV : V)
    {bn : BN N V C O} (hr : Ready bn) {g : Model.Group N} (nick : N) {up : List (Dict N V)} {exo vs : Dict N V}
    (he : exo.WF) (hv : Taken g up exo vs) (hns : NoShadow bn vs.keys) (ho : Ordered bn vs.keys g.fixed) {r : Dict N V}
    {lp : N → XR ℝ} (hfill : Fills μ sem bn vs g.fixed r lp) {s s' : S} {c : Core N V C O S ℝ}
    (h : Core.generate sem noneV bn g nick up exo s = (.ok c, s'))
    (hc : ∀ x, c.locus.get? x = if x ∈ exo.keys ∨ x ∈ g.fixed then r.get? x else none) :
    c.logProb = (g.fixed.map lp).sum := by
  obtain ⟨L, h1, h2, h3⟩ := generate_core sem hcl noneV hr nick he hv hns ho hfill
  obtain ⟨c', h4, -, h5⟩ := h2 s s' (h3 s s' c h hc)
  rw [h] at h4
  cases h4
  exact h5

/-- **C221** (the log probability): when no random variable that the group fixes is given or taken from above, the
probability of the values is the one whose log the core carries. -/
theorem C221_logProb {μ : Measure S} (sem : Sem N V C O S (XR ℝ)) (hcl : ∀ c, (sem.reparse c).names = []) (noneV : V)
    {bn : BN N V C O} (hr : Ready bn) {g : Model.Group N} (nick : N) {up : List (Dict N V)} {exo vs : Dict N V}
    (he : exo.WF) (hv : Taken g up exo vs) (hns : NoShadow bn vs.keys) (ho : Ordered bn vs.keys g.fixed) {r : Dict N V}
    {lp : N → XR ℝ} (hfill : Fills μ sem bn vs g.fixed r lp)
    (hnot : ∀ x ∈ g.fixed, bn.Rv x → x ∉ exo.keys ∧ x ∉ g.exogenous) {p : XR ℝ} (hp : p = (g.fixed.map lp).sum) :
    Chance μ (fun s s' => ∃ c : Core N V C O S ℝ, Core.generate sem noneV bn g nick up exo s = (.ok c, s') ∧
        (∀ x, c.locus.get? x = if x ∈ exo.keys ∨ x ∈ g.fixed then r.get? x else none) ∧ c.logProb = p) (expX p) := by
  have h := C221 sem hcl noneV hr nick he hv hns ho hfill
  rw [← hp] at h
  refine cast ?_ h
  congr 1
  rw [hp, expX_sum, List.map_map]
  congr 1
  refine List.map_congr_left (fun x hx => ?_)
  split
  · rename_i hh
    obtain ⟨l, hl⟩ := (hr.facts.1.defined x).2 (ho.nodes x hx)
    rcases evaluate_dist sem hr.facts.1 hl ((hfill.keys x).2 (.inr hx)) (hfill.weight x hx l hl) with ⟨-, h0⟩ | ⟨h1, -⟩
    · simp only [Function.comp, h0, expX_zero]
    · obtain ⟨h2, h3⟩ := hnot x hx h1
      exact absurd hh (by tauto)
  · rfl


/-! ## C222 -/

/-- The definitions of a list of nodes. -/
def Defines (bn : BN N V C O) (ds : List N) (ls : List (Loci N V C O)) : Prop :=
  List.Forall₂ (fun d l => bn.loci.get? d = some l) ds ls

theorem defines_of_mapM {bn : BN N V C O} : ∀ {ds : List N} {ls : List (Loci N V C O)}, ds.mapM bn.get = .ok ls → Defines bn ds ls := by
  intro ds
  induction ds with
  | nil => intro ls h; cases h; exact .nil
  | cons d ds ih =>
    intro ls h
    rw [List.mapM_cons] at h
    cases h1 : bn.get d with
    | error e => rw [h1] at h; cases h
    | ok l =>
      rw [h1] at h
      cases h2 : ds.mapM bn.get with
      | error e => simp only [h2, bind, Except.bind] at h; cases h
      | ok ls' =>
        simp only [h2, bind, Except.bind, pure, Except.pure, Except.ok.injEq] at h
        subst h
        refine .cons ?_ (ih h2)
        unfold BN.get at h1
        cases h3 : bn.loci.get? d with
        | none => rw [h3] at h1; cases h1
        | some l' => rw [h3] at h1; cases h1; rfl

theorem flow_append (sem : Sem N V C O S (XR ℝ)) (l : Loci N V C O) : ∀ (ls : List (Loci N V C O)) (vs res : Dict N V) (s : S),
    Actor.flowLoop2 sem (ls ++ [l]) vs res s = match Actor.flowLoop2 sem ls vs res s with
      | (.error e, s') => (.error e, s')
      | (.ok (up, res), s') => match l.render sem up.get? s' with
        | (.error e, s'') => (.error e, s'')
        | (.ok v, s'') => (.ok (up.set l.name v, res.set l.name v), s'') := by
  intro ls
  induction ls with
  | nil =>
    intro vs res s
    simp only [List.nil_append, Actor.flowLoop2]
    rfl
  | cons a ls ih =>
    intro vs res s
    simp only [List.cons_append, Actor.flowLoop2]
    rcases a.render sem vs.get? s with ⟨_ | v, s1⟩
    · rfl
    · exact ih _ _ _

/-- The loop of an actor over definitions is the loop of `sample` over their names. -/
theorem flow_sample (sem : Sem N V C O S (XR ℝ)) {bn : BN N V C O} (hw : bn.Well) : ∀ (ds : List N) (ls : List (Loci N V C O))
    (vs res : Dict N V) (s : S), Defines bn ds ls → ds.Nodup → (∀ d ∈ ds, d ∉ vs.keys) → ∀ r' s',
    (sampleLoop sem bn (fun _ => true) ds vs s = (.ok r', s') ↔ ∃ res', Actor.flowLoop2 sem ls vs res s = (.ok (r', res'), s')) ∧
    ∀ res', Actor.flowLoop2 sem ls vs res s = (.ok (r', res'), s') →
      ∀ x, res'.get? x = if x ∈ ds then r'.get? x else res.get? x := by
  intro ds
  induction ds with
  | nil =>
    intro ls vs res s hd _ _ r' s'
    cases hd
    simp only [sampleLoop, Actor.flowLoop2, Prod.mk.injEq, Except.ok.injEq]
    refine ⟨⟨fun h => ⟨res, ⟨h.1, rfl⟩, h.2⟩, fun ⟨_, h⟩ => ⟨h.1.1, h.2⟩⟩, ?_⟩
    rintro res' ⟨⟨-, rfl⟩, -⟩ x
    simp
  | cons d ds ih =>
    intro ls vs res s hd hn hv r' s'
    cases hd with
    | @cons _ l _ ls hl hd =>
    obtain ⟨hdd, hn⟩ := List.nodup_cons.1 hn
    have hname : l.name = d := hw.named d l hl
    simp only [sampleLoop, Actor.flowLoop2]
    rw [if_pos (by simpa using hv d (by simp)), get_ok hl]
    simp only [hname]
    rcases l.render sem vs.get? s with ⟨_ | v, s1⟩
    · simp
    · simp only
      obtain ⟨h1, h2⟩ := ih ls (vs.set d v) (res.set d v) s1 hd hn (fun x hx h => by
        rcases (Dict.mem_keys_set _ _ _ _).1 h with rfl | h
        · exact hdd hx
        · exact hv x (.tail _ hx) h) r' s'
      refine ⟨h1, fun res' h x => ?_⟩
      rw [h2 res' h x]
      by_cases hx : x ∈ ds
      · simp [hx]
      · simp only [hx, if_false, List.mem_cons, or_false]
        rw [Dict.get?_set]
        by_cases e : d = x
        · subst e
          rw [if_pos rfl, if_pos rfl]
          exact ((sampleLoop_ok sem bn _ _ (h1.2 ⟨res', h⟩)).2.1 d v (Dict.get?_set_self _ _ _)).symm
        · rw [if_neg e, if_neg (fun h => e h.symm)]

/-- **C222**: a compound sampler with its mediators draws values with the product of their probabilities under the
definitions, read on the values themselves and on what the sampler reads. -/
theorem C222 {μ : Measure S} (sem : Sem N V C O S (XR ℝ)) (hcl : ∀ c, (sem.reparse c).names = []) {bn : BN N V C O}
    (hr : Ready bn) {b : Blueprint N} {a : Actor N V C O S ℝ} (hb : b.type = .compound) (ha : b.compose bn = .ok a)
    {pas : N → Option V} {vs : Dict N V} (hv : ∀ x, vs.get? x = if x ∈ b.toRead then pas x else none)
    (hns : NoShadow bn vs.keys) (ho : Ordered bn vs.keys (b.toSample ++ [b.name]))
    (hd : ∀ x ∈ b.toSample ++ [b.name], x ∉ vs.keys) {r : Dict N V} {lp : N → XR ℝ}
    (hfill : Fills μ sem bn vs (b.toSample ++ [b.name]) r lp) :
    Chance μ (fun s s' => ∃ m, a.sampleWithMediators sem pas s = (.ok m, s') ∧
        ∀ x, m.get? x = if x ∈ b.toSample ++ [b.name] then r.get? x else none)
      (((b.toSample ++ [b.name]).map (fun x => expX (lp x))).prod) := by
  have hw := hr.facts.1
  obtain ⟨flow, l, h1, h2, rfl⟩ : ∃ flow l, b.toSample.mapM bn.get = .ok flow ∧ bn.get b.name = .ok l ∧
      a = ⟨b.name, .compound, l, b.toRead, flow, none⟩ := by
    unfold Blueprint.compose at ha
    rw [hb] at ha
    cases h1 : b.toSample.mapM bn.get with
    | error e => simp only [h1, bind, Except.bind] at ha; cases ha
    | ok flow =>
      cases h2 : bn.get b.name with
      | error e => simp only [h1, h2, bind, Except.bind] at ha; cases ha
      | ok l =>
        simp only [h1, h2, bind, Except.bind, pure, Except.pure, Except.ok.injEq] at ha
        exact ⟨flow, l, rfl, rfl, ha.symm⟩
  have hl : bn.loci.get? b.name = some l := by
    have : ([b.name] : List N).mapM bn.get = .ok [l] := by
      rw [List.mapM_cons, h2]; rfl
    cases defines_of_mapM this with
    | cons h _ => exact h
  have hD : Defines bn (b.toSample ++ [b.name]) (flow ++ [l]) :=
    List.rel_append (defines_of_mapM h1) (.cons hl .nil)
  have hname : l.name = b.name := hw.named _ l hl
  set r0 := Actor.readUpstream b.toRead pas with hr0
  have e0 : ∀ x, r0.get? x = vs.get? x := fun x => by rw [hr0, Actor.readUpstream_eq, hv]
  have ek : ∀ x, x ∈ r0.keys ↔ x ∈ vs.keys := fun x => by
    rw [← Dict.get?_isSome_iff, e0, Dict.get?_isSome_iff]
  have ho0 : Ordered bn r0.keys (b.toSample ++ [b.name]) := ⟨ho.nodup, ho.nodes, fun pre d suf e y hy => by
    rw [ek]; exact ho.parents pre d suf e y hy, fun x hx h => (ek x).2 (ho.open' x hx h)⟩
  have hfill0 : Fills μ sem bn r0 (b.toSample ++ [b.name]) r lp := ⟨fun x => by rw [ek]; exact hfill.keys x, fun x v h => by
    rw [e0] at h; exact hfill.kept x v h, fun x hx h => hfill.sure x hx (fun hh => h ((ek x).2 hh)), hfill.weight, hfill.fair⟩
  have h := fill_chance sem hcl hw hns lp _ r0 ho0 hfill0 (fun k hk => .inl ((ek k).1 hk))
  rw [List.map_congr_left (g := fun x => expX (lp x)) (fun x hx => by rw [if_neg (fun hh => hd x hx ((ek x).1 hh))])] at h
  refine h.congr (fun s s' => ?_)
  have key := fun r' => flow_sample sem hw (b.toSample ++ [b.name]) (flow ++ [l]) r0 [] s hD ho.nodup
    (fun x hx hh => hd x hx ((ek x).1 hh)) r' s'
  have hsw : ∀ m, Actor.sampleWithMediators (K := ℝ) sem ⟨b.name, .compound, l, b.toRead, flow, none⟩ pas s = (.ok m, s') ↔
      ∃ r', Actor.flowLoop2 sem (flow ++ [l]) r0 [] s = (.ok (r', m), s') := by
    intro m
    rw [flow_append]
    unfold Actor.sampleWithMediators
    simp only [← hr0]
    rcases Actor.flowLoop2 sem flow r0 [] s with ⟨_ | ⟨up, res⟩, s1⟩
    · simp
    · simp only
      rcases l.render sem up.get? s1 with ⟨_ | v, s2⟩
      · simp
      · simp only [hname, Prod.mk.injEq, Except.ok.injEq]
        exact ⟨fun h => ⟨_, ⟨rfl, h.1⟩, h.2⟩, fun ⟨_, h⟩ => ⟨h.1.2, h.2⟩⟩
  constructor
  · rintro ⟨r', h3, h4⟩
    obtain ⟨m, hm⟩ := (key r').1.1 h3
    refine ⟨m, (hsw m).2 ⟨r', hm⟩, fun x => ?_⟩
    rw [(key r').2 m hm x, h4]
    rfl
  · rintro ⟨m, h3, h4⟩
    obtain ⟨r', hm⟩ := (hsw m).1 h3
    have h5 := (key r').1.2 ⟨m, hm⟩
    refine ⟨r', h5, fun x => ?_⟩
    have h6 := (key r').2 m hm x
    rw [h4] at h6
    by_cases hx : x ∈ b.toSample ++ [b.name]
    · rw [if_pos hx, if_pos hx] at h6
      exact h6.symm
    · obtain ⟨f0, f1, f2⟩ := sampleLoop_ok sem bn _ _ h5
      by_cases hk : x ∈ r0.keys
      · obtain ⟨v, hv'⟩ := (Dict.mem_keys_iff_exists _ _).1 hk
        rw [f1 x v hv', hfill0.kept x v hv']
      · rw [(Dict.get?_eq_none_iff _ _).2 (fun hh => ((f0 x).1 hh).elim hk (fun h => hx h.1)),
          (Dict.get?_eq_none_iff _ _).2 (fun hh => ((hfill0.keys x).1 hh).elim hk hx)]

theorem composed {bn : BN N V C O} (hw : bn.Well) {b : Blueprint N} {a : Actor N V C O S ℝ} (hb : b.type = .compound)
    (ha : b.compose bn = .ok a) : a.field = b.name ∧ a.type = .compound ∧
      ∀ x, (∃ l ∈ a.flow, x = l.name) ↔ x ∈ b.toSample := by
  unfold Blueprint.compose at ha
  rw [hb] at ha
  cases h1 : b.toSample.mapM bn.get with
  | error e => simp only [h1, bind, Except.bind] at ha; cases ha
  | ok flow =>
    cases h2 : bn.get b.name with
    | error e => simp only [h1, h2, bind, Except.bind] at ha; cases ha
    | ok l =>
      simp only [h1, h2, bind, Except.bind, pure, Except.pure, Except.ok.injEq] at ha
      subst ha
      refine ⟨rfl, rfl, fun x => ?_⟩
      have : ∀ {ds : List N} {ls : List (Loci N V C O)}, Defines bn ds ls → ((∃ l ∈ ls, x = l.name) ↔ x ∈ ds) := by
        intro ds ls h
        induction h with
        | nil => simp
        | cons h _ ih => simp [ih, hw.named _ _ h]
      exact this (defines_of_mapM h1)

theorem mediators_keys (sem : Sem N V C O S (XR ℝ)) {bn : BN N V C O} (hw : bn.Well) {b : Blueprint N}
    {a : Actor N V C O S ℝ} (hb : b.type = .compound) (ha : b.compose bn = .ok a) {pas : N → Option V} {m : Dict N V}
    {s s' : S} (h : a.sampleWithMediators sem pas s = (.ok m, s')) (x : N) (hx : x ∉ b.toSample ++ [b.name]) :
    m.get? x = none := by
  obtain ⟨hf, ht, hfl⟩ : a.field = b.name ∧ a.type = .compound ∧ ∀ x, (∃ l ∈ a.flow, x = l.name) ↔ x ∈ b.toSample :=
    composed hw hb ha
  have noneV : V := by
    unfold Actor.sampleWithMediators at h
    split at h
    · cases h
    · split at h
      · cases h
      · rename_i v _ _; exact v
  obtain ⟨k1, k2⟩ := C53_mediators sem noneV a ht pas s
  rcases hs : a.sample sem noneV pas s with ⟨e | v', s1⟩
  · rw [(k2 e s1).1 hs] at h
    cases h
  · obtain ⟨m', h3, -, h5⟩ := k1 v' s1 hs
    rw [h] at h3
    simp only [Prod.mk.injEq, Except.ok.injEq] at h3
    obtain ⟨rfl, rfl⟩ := h3
    refine (Dict.get?_eq_none_iff _ _).2 (fun hk => ?_)
    rcases (h5 x).1 hk with h | h
    · exact hx (by simp [h, hf])
    · exact hx (by simp [(hfl x).1 h])

/-- **C222** (the value alone): what a compound sampler draws for its own variable has the sum of the probabilities of
the ways its mediators can come out. -/
theorem C222_value {μ : Measure S} (sem : Sem N V C O S (XR ℝ)) (hcl : ∀ c, (sem.reparse c).names = []) (noneV : V)
    {bn : BN N V C O} (hr : Ready bn) {b : Blueprint N} {a : Actor N V C O S ℝ} (hb : b.type = .compound)
    (ha : b.compose bn = .ok a) {pas : N → Option V} {vs : Dict N V}
    (hv : ∀ x, vs.get? x = if x ∈ b.toRead then pas x else none) (hns : NoShadow bn vs.keys)
    (ho : Ordered bn vs.keys (b.toSample ++ [b.name])) (hd : ∀ x ∈ b.toSample ++ [b.name], x ∉ vs.keys) {v : V}
    {ways : List (Dict N V × (N → XR ℝ))} (hfill : ∀ w ∈ ways, Fills μ sem bn vs (b.toSample ++ [b.name]) w.1 w.2)
    (hval : ∀ w ∈ ways, w.1.get? b.name = some v)
    (hdif : ways.Pairwise (fun w u => ∃ x ∈ b.toSample, w.1.get? x ≠ u.1.get? x))
    (hall : ∀ m s s', a.sampleWithMediators sem pas s = (.ok m, s') → m.get? b.name = some v →
      ∃ w ∈ ways, ∀ x ∈ b.toSample, m.get? x = w.1.get? x) :
    Chance μ (fun s s' => a.sample sem noneV pas s = (.ok v, s'))
      ((ways.map (fun w => ((b.toSample ++ [b.name]).map (fun x => expX (w.2 x))).prod)).sum) := by
  have hlaw : ∀ ws : List (Dict N V × (N → XR ℝ)), (∀ w ∈ ws, w ∈ ways) →
      ws.Pairwise (fun w u => ∃ x ∈ b.toSample, w.1.get? x ≠ u.1.get? x) →
      Chance μ (fun s s' => ∃ w ∈ ws, ∃ m, a.sampleWithMediators sem pas s = (.ok m, s') ∧
        ∀ x, m.get? x = if x ∈ b.toSample ++ [b.name] then w.1.get? x else none)
        ((ws.map (fun w => ((b.toSample ++ [b.name]).map (fun x => expX (w.2 x))).prod)).sum) := by
    intro ws
    induction ws with
    | nil => intro _ _; exact Chance.never (fun s s' ⟨w, hw, _⟩ => by cases hw)
    | cons w ws ih =>
      intro hin hp
      obtain ⟨hp1, hp2⟩ := List.pairwise_cons.1 hp
      rw [List.map_cons, List.sum_cons]
      refine ((C222 sem hcl hr hb ha hv hns ho hd (hfill w (hin w (by simp)))).or
        (ih (fun u hu => hin u (.tail _ hu)) hp2) ?_).congr (fun s s' => by simp)
      rintro s m m' ⟨d, h1, h2⟩ ⟨u, hu, d', h3, h4⟩
      rw [h1] at h3
      simp only [Prod.mk.injEq, Except.ok.injEq] at h3
      obtain ⟨rfl, -⟩ := h3
      obtain ⟨x, hx, hne⟩ := hp1 u hu
      have hx' : x ∈ b.toSample ++ [b.name] := by simp [hx]
      have e1 := h2 x
      rw [h4, if_pos hx', if_pos hx'] at e1
      exact hne e1.symm
  refine (hlaw ways (fun _ h => h) hdif).congr (fun s s' => ?_)
  obtain ⟨hf, ht, hfl⟩ : a.field = b.name ∧ a.type = .compound ∧ ∀ x, (∃ l ∈ a.flow, x = l.name) ↔ x ∈ b.toSample :=
    composed hr.facts.1 hb ha
  obtain ⟨k1, k2⟩ := C53_mediators sem noneV a ht pas s
  constructor
  · rintro ⟨w, hw, m, h1, h2⟩
    rcases hs : a.sample sem noneV pas s with ⟨e | v', s1⟩
    · rw [(k2 e s1).1 hs] at h1
      cases h1
    · obtain ⟨m', h3, h4, -⟩ := k1 v' s1 hs
      rw [h1] at h3
      simp only [Prod.mk.injEq, Except.ok.injEq] at h3
      obtain ⟨rfl, rfl⟩ := h3
      have := h2 b.name
      rw [if_pos (by simp), hval w hw, ← hf, h4] at this
      cases this
      rfl
  · intro hs
    obtain ⟨m, h3, h4, h5⟩ := k1 v s' hs
    rw [hf] at h4
    obtain ⟨w, hw, h6⟩ := hall m s s' h3 h4
    refine ⟨w, hw, m, h3, fun x => ?_⟩
    by_cases hx : x ∈ b.toSample
    · rw [h6 x hx, if_pos (by simp [hx])]
    · by_cases hxn : x = b.name
      · subst hxn
        rw [if_pos (by simp), h4, hval w hw]
      · rw [if_neg (by simp [hx, hxn])]
        refine (Dict.get?_eq_none_iff _ _).2 (fun hk => ?_)
        rcases (h5 x).1 hk with h | h
        · exact hxn (h.trans hf)
        · exact hx ((hfl x).1 h)

/-- **C222** (single samplers): a sampler without mediators draws a value with its probability under the definition, read
on what the sampler reads. -/
theorem C222_single {μ : Measure S} (sem : Sem N V C O S (XR ℝ)) (noneV : V) {bn : BN N V C O}
    {b : Blueprint N} {a : Actor N V C O S ℝ} (hb : b.type = .single) (ha : b.compose bn = .ok a) {pas : N → Option V}
    {d : Dist V S (XR ℝ)} (hd : ∃ n f ps, bn.loci.get? b.name = some (.dist n f ps) ∧
      getDistribution sem f (fun x => if x ∈ b.toRead then pas x else none) = .ok d) (hf : Fair μ d) {v : V} {lp : XR ℝ}
    (hlp : d.logpdf v = .ok lp) : Chance μ (fun s s' => a.sample sem noneV pas s = (.ok v, s')) (expX lp) := by
  obtain ⟨n, f, ps, hl, hg⟩ := hd
  refine ((hf v).1 lp hlp).congr (fun s s' => ?_)
  unfold Blueprint.compose at ha
  rw [hb] at ha
  simp only [get_ok hl, bind, Except.bind, pure, Except.pure, Except.ok.injEq] at ha
  subst ha
  simp only [Actor.sample, Actor.readUpstream_eq, Loci.render, hg]

/-- **C222** (frozen samplers): a frozen sampler that reflects the values draws a value with its probability under the
definition, whatever it is passed. -/
theorem C222_frozen {μ : Measure S} (sem : Sem N V C O S (XR ℝ)) (noneV : V) {a : Actor N V C O S ℝ} (hfz : a.isFrozen = true)
    {pas : N → Option V} (hre : a.Reflects sem pas) {d : Dist V S (XR ℝ)} (hd : ∃ n f ps, a.loci = .dist n f ps ∧
      getDistribution sem f (fun x => if x ∈ ps then pas x else none) = .ok d) (hf : Fair μ d) {v : V} {lp : XR ℝ}
    (hlp : d.logpdf v = .ok lp) (pas' : N → Option V) : Chance μ (fun s s' => a.sample sem noneV pas' s = (.ok v, s')) (expX lp) := by
  obtain ⟨n, f, ps, hl, hg⟩ := hd
  refine ((hf v).1 lp hlp).congr (fun s s' => ?_)
  rw [reflects_draws hfz (by rw [hl]; rfl) hre]
  simp only [hl, Loci.render, Loci.parents, hg]

/-! ## C223 -/

/-- Part of an assignment. -/
theorem Fills.part {μ : Measure S} {sem : Sem N V C O S (XR ℝ)} (hcl : ∀ c, (sem.reparse c).names = [])
    {bn : BN N V C O} (hw : bn.Well) {vs r : Dict N V} {ds : List N} {lp : N → XR ℝ} (h : Fills μ sem bn vs ds r lp)
    (hnd : ∀ x ∈ ds, x ∈ bn.dag.nodes) (hns : NoShadow bn vs.keys) {vs' : Dict N V} {ds' : List N}
    (hsub : ∀ x ∈ ds', x ∈ ds) (ho : Ordered bn vs'.keys ds') (hle : ∀ x v, vs'.get? x = some v → r.get? x = some v)
    (hgiven : ∀ x ∈ ds', x ∈ vs.keys → x ∈ vs'.keys) :
    Fills μ sem bn vs' ds' (r.filterItems (fun k _ => decide (k ∈ vs'.keys ∨ k ∈ ds'))) lp := by
  set q := r.filterItems (fun k _ => decide (k ∈ vs'.keys ∨ k ∈ ds')) with hq
  have eq : ∀ x, q.get? x = if x ∈ vs'.keys ∨ x ∈ ds' then r.get? x else none := fun x => by
    rw [hq, Dict.get?_filterItems_key]; simp
  have hqr : ∀ y w, q.get? y = some w → r.get? y = some w := fun y w hy => by
    rw [eq] at hy
    split at hy
    · exact hy
    · cases hy
  have hkey : ∀ x, x ∈ q.keys ↔ x ∈ vs'.keys ∨ x ∈ ds' := by
    intro x
    rw [← Dict.get?_isSome_iff, eq]
    constructor
    · intro hx
      by_contra hh
      rw [if_neg hh] at hx
      cases hx
    · intro hx
      rw [if_pos hx]
      rcases hx with hx | hx
      · obtain ⟨v, hv⟩ := (Dict.mem_keys_iff_exists _ _).1 hx
        rw [hle x v hv]; rfl
      · exact (Dict.get?_isSome_iff _ _).2 ((h.keys x).2 (.inr (hsub x hx)))
  have hrk : ∀ k ∈ r.keys, k ∈ vs.keys ∨ k ∈ bn.dag.nodes := fun k hk =>
    ((h.keys k).1 hk).imp id (hnd k)
  have hpar : ∀ x ∈ ds', ∀ l, bn.loci.get? x = some l → ∀ p ∈ l.parents, p ∈ q.keys := by
    intro x hx l hl p hp
    obtain ⟨pre, suf, e⟩ := List.append_of_mem hx
    rcases ho.parents pre x suf e p ((hw.edges p x).2 ⟨l, hl, hp⟩) with h1 | h1
    · exact (hkey p).2 (.inl h1)
    · exact (hkey p).2 (.inr (by rw [e]; simp [h1]))
  refine ⟨hkey, fun x v hx => ?_, fun x hx hxv l hl hi => ?_, fun x hx l hl => ?_, fun x hx n f ps d hl hd => ?_⟩
  · rw [eq, if_pos (.inl ((Dict.mem_keys_iff_exists _ _).2 ⟨v, hx⟩))]
    exact hle x v hx
  · obtain ⟨v, h1, h2⟩ := h.sure x (hsub x hx) (fun hh => hxv (hgiven x hx hh)) l hl hi
    refine ⟨v, by rw [eq, if_pos (.inr hx), h1], fun s => ?_⟩
    rw [render_final sem hcl hns hl (fun hh => hxv (ho.open' x hx hh)) hqr (hpar x hx l hl) hrk]
    exact h2 s
  · rw [evaluate_final sem hcl hw hns hl hqr ((hkey x).2 (.inr hx)) (hpar x hx l hl) hrk]
    exact h.weight x (hsub x hx) l hl
  · refine h.fair x (hsub x hx) n f ps d hl ?_
    rw [← hd]
    refine Props.Expr.getDistribution_congr sem hcl (fun y hy => ?_)
    have hpq : ∀ p ∈ q.keys, q.get? p = r.get? p := by
      intro p hp
      obtain ⟨v, hv⟩ := (Dict.mem_keys_iff_exists _ _).1 hp
      rw [hv, hqr p v hv]
    rcases hns x n f ps hl y ((Expr.mem_names y f).1 hy) with h1 | ⟨h1, h2⟩
    · exact (hpq y (hpar x hx _ hl y h1)).symm
    · have hr : y ∉ r.keys := fun hh => (hrk y hh).elim h2 h1
      have hyq : y ∉ q.keys := by
        intro hh
        obtain ⟨v, hv⟩ := (Dict.mem_keys_iff_exists _ _).1 hh
        exact hr ((Dict.mem_keys_iff_exists _ _).2 ⟨v, hqr y v hv⟩)
      rw [(Dict.get?_eq_none_iff _ _).2 hr, (Dict.get?_eq_none_iff _ _).2 hyq]

/-- **C223**: generating a core and then drawing from one of its compound samplers gives the fixed variables, the mediators
and the sampler's own variable with the product of their probabilities under their definitions. -/
theorem C223 {μ : Measure S} (sem : Sem N V C O S (XR ℝ)) (hcl : ∀ c, (sem.reparse c).names = []) (noneV : V)
    {bn : BN N V C O} (hr : Ready bn) {g : Model.Group N} (nick : N) {up : List (Dict N V)} {exo vs : Dict N V}
    (he : exo.WF) (hv : Taken g up exo vs) (hns : NoShadow bn vs.keys) (ho : Ordered bn vs.keys g.fixed)
    {b : Blueprint N} {a : Actor N V C O S ℝ} (hb : b.type = .compound) (ha : b.compose bn = .ok a)
    (hread : ∀ x ∈ b.toRead, x ∈ vs.keys ∨ x ∈ g.fixed) (ho' : Ordered bn b.toRead (b.toSample ++ [b.name]))
    (hd : ∀ x ∈ b.toSample ++ [b.name], x ∉ b.toRead ∧ x ∉ vs.keys) {r : Dict N V} {lp : N → XR ℝ}
    (hfill : Fills μ sem bn vs (g.fixed ++ (b.toSample ++ [b.name])) r lp) :
    Chance μ (fun s s' => ∃ (c : Core N V C O S ℝ) (m : Dict N V) (t : S),
        Core.generate sem noneV bn g nick up exo s = (.ok c, t) ∧
        a.sampleWithMediators sem (chainMap (c.locus :: up)) t = (.ok m, s') ∧
        (∀ x, c.locus.get? x = if x ∈ exo.keys ∨ x ∈ g.fixed then r.get? x else none) ∧
        ∀ x, m.get? x = if x ∈ b.toSample ++ [b.name] then r.get? x else none)
      (((g.fixed ++ (b.toSample ++ [b.name])).map (fun x => if x ∈ vs.keys then 1 else expX (lp x))).prod) := by
  have hw := hr.facts.1
  have hnodes : ∀ x ∈ g.fixed ++ (b.toSample ++ [b.name]), x ∈ bn.dag.nodes := fun x hx =>
    (List.mem_append.1 hx).elim (ho.nodes x) (ho'.nodes x)
  have p1 := hfill.part hcl hw hnodes hns (vs' := vs) (ds' := g.fixed) (fun x hx => List.mem_append.2 (.inl hx)) ho
    hfill.kept (fun x _ h => h)
  have h1 := C221 sem hcl noneV hr nick he hv hns ho p1
  set pas : N → Option V := fun x => (if x ∈ exo.keys ∨ x ∈ g.fixed then r.get? x else none).or (chainMap up x) with hpas
  have hpr : ∀ x ∈ b.toRead, ∃ v, pas x = some v ∧ r.get? x = some v := by
    intro x hx
    have hk : x ∈ r.keys := (hfill.keys x).2 ((hread x hx).imp id (fun h => List.mem_append.2 (.inl h)))
    obtain ⟨v, hrv⟩ := (Dict.mem_keys_iff_exists _ _).1 hk
    refine ⟨v, ?_, hrv⟩
    simp only [hpas]
    by_cases hx' : x ∈ exo.keys ∨ x ∈ g.fixed
    · rw [if_pos hx', hrv]; rfl
    · rw [if_neg hx']
      push Not at hx'
      have hvk : x ∈ vs.keys := (hread x hx).resolve_right hx'.2
      obtain ⟨w, hw'⟩ := (Dict.mem_keys_iff_exists _ _).1 hvk
      have e : w = v := Option.some.inj ((hfill.kept x w hw').symm.trans hrv)
      rw [hv.is, (Dict.get?_eq_none_iff _ _).2 hx'.1, e] at hw'
      split at hw'
      · simpa using hw'
      · cases hw'
  set vs2 := Actor.readUpstream b.toRead pas with hvs2
  have e2 : ∀ x, vs2.get? x = if x ∈ b.toRead then pas x else none := fun x => by rw [hvs2, Actor.readUpstream_eq]
  have k2 : ∀ x, x ∈ vs2.keys ↔ x ∈ b.toRead := by
    intro x
    rw [← Dict.get?_isSome_iff, e2]
    by_cases hx : x ∈ b.toRead
    · obtain ⟨v, h, -⟩ := hpr x hx
      simp [hx, h]
    · simp [hx]
  have ho2 : Ordered bn vs2.keys (b.toSample ++ [b.name]) := ⟨ho'.nodup, ho'.nodes, fun pre d suf e y hy => by
    rw [k2]; exact ho'.parents pre d suf e y hy, fun x hx h => (k2 x).2 (ho'.open' x hx h)⟩
  have p2 := hfill.part hcl hw hnodes hns (vs' := vs2) (ds' := b.toSample ++ [b.name])
    (fun x hx => List.mem_append.2 (.inr hx)) ho2 (fun x v h => by
      rw [e2] at h
      split at h
      · rename_i hx
        obtain ⟨w, h1, h2⟩ := hpr x hx
        rw [h1] at h
        cases h
        exact h2
      · cases h) (fun x hx h => absurd h (hd x hx).2)
  have hns2 : NoShadow bn vs2.keys := by
    intro x n f ps hl y hy
    rcases hns x n f ps hl y hy with h | ⟨h, h'⟩
    · exact .inl h
    · refine .inr ⟨h, fun hh => ?_⟩
      rcases hread y ((k2 y).1 hh) with h2 | h2
      · exact h' h2
      · exact h (ho.nodes y h2)
  have h2 := C222 sem hcl hr hb ha e2 hns2 ho2 (fun x hx h => (hd x hx).1 ((k2 x).1 h)) p2
  have hval : (((g.fixed ++ (b.toSample ++ [b.name])).map (fun x => if x ∈ vs.keys then 1 else expX (lp x))).prod) =
      (g.fixed.map (fun x => if x ∈ exo.keys ∨ x ∈ g.exogenous then 1 else expX (lp x))).prod *
      (((b.toSample ++ [b.name]).map (fun x => expX (lp x))).prod) := by
    rw [List.map_append, List.prod_append]
    congr 2
    · exact List.map_congr_left (fun x _ => by simp only [hv.keys])
    · exact List.map_congr_left (fun x hx => if_neg (hd x hx).2)
  rw [hval]
  refine (h1.comp h2).congr (fun s s' => ?_)
  have q1 : ∀ x, (if x ∈ exo.keys ∨ x ∈ g.fixed then
      Dict.get? (r.filterItems (fun k _ => decide (k ∈ vs.keys ∨ k ∈ g.fixed))) x else none) =
      if x ∈ exo.keys ∨ x ∈ g.fixed then r.get? x else none := by
    intro x
    by_cases hx : x ∈ exo.keys ∨ x ∈ g.fixed
    · rw [if_pos hx, if_pos hx, Dict.get?_filterItems_key, if_pos]
      simp only [hv.keys, decide_eq_true_eq]
      tauto
    · rw [if_neg hx, if_neg hx]
  have q2 : ∀ x, (if x ∈ b.toSample ++ [b.name] then
      Dict.get? (r.filterItems (fun k _ => decide (k ∈ vs2.keys ∨ k ∈ b.toSample ++ [b.name]))) x else none) =
      if x ∈ b.toSample ++ [b.name] then r.get? x else none := by
    intro x
    by_cases hx : x ∈ b.toSample ++ [b.name]
    · rw [if_pos hx, if_pos hx, Dict.get?_filterItems_key, if_pos (by simp [hx])]
    · rw [if_neg hx, if_neg hx]
  have q3 : ∀ c : Core N V C O S ℝ, (∀ x, c.locus.get? x = if x ∈ exo.keys ∨ x ∈ g.fixed then r.get? x else none) →
      chainMap (c.locus :: up) = pas := fun c hc => funext (fun x => by rw [chainMap_cons, hc])
  constructor
  · rintro ⟨t, ⟨c, h3, h4, -⟩, m, h5, h6⟩
    have h4' := fun x => (h4 x).trans (q1 x)
    exact ⟨c, m, t, h3, by rw [q3 c h4']; exact h5, h4', fun x => (h6 x).trans (q2 x)⟩
  · rintro ⟨c, m, t, h3, h5, h4, h6⟩
    rw [q3 c h4] at h5
    refine ⟨t, ⟨c, h3, fun x => (h4 x).trans (q1 x).symm, ?_⟩, m, h5, fun x => (h6 x).trans (q2 x).symm⟩
    exact generate_weight sem hcl noneV hr nick he hv hns ho p1 h3 (fun x => (h4 x).trans (q1 x).symm)

open Classical in
theorem sample_chance {μ : Measure S} (sem : Sem N V C O S (XR ℝ)) (hcl : ∀ c, (sem.reparse c).names = [])
    {bn : BN N V C O} (hr : Ready bn) {exo : Dict N V} (hns : NoShadow bn exo.keys) (hs : ∀ x, Exogenous bn x → x ∈ exo.keys)
    {L : List N} (hn : L.Nodup) (hall : ∀ x, x ∈ L ↔ x ∈ bn.dag.nodes) {r : Dict N V} (hwf : r.WF) {lp : N → XR ℝ}
    (hfill : Fills μ sem bn exo L r lp) :
    Chance μ (fun s s' => ∃ r', sample sem bn exo s = (.ok r', s') ∧ ∀ x, r'.get? x = r.get? x)
      ((L.map (fun x => if x ∈ exo.keys then 1 else expX (lp x))).prod) := by
  have hw := hr.facts.1
  have hev : ∀ x ∈ bn.dag.nodes, (¬ bn.Rv x ∧ lp x = 0) ∨ (bn.Rv x ∧ LogDensity sem bn r x (lp x)) := by
    intro x hx
    obtain ⟨l, hl⟩ := (hw.defined x).2 hx
    exact evaluate_dist sem hw hl ((hfill.keys x).2 (.inr ((hall x).2 hx))) (hfill.weight x ((hall x).2 hx) l hl)
  have hout : Outcome sem bn exo r := ⟨hwf, fun x => (hfill.keys x).trans (or_congr_right (hall x)), hfill.kept,
    fun x l hl hx hi => hfill.sure x ((hall x).2 ((hw.defined x).1 ⟨l, hl⟩)) hx l hl hi⟩
  have h := C200_law (μ := μ) sem hcl hr hns hs
    (fun x n f ps d hl => hfill.fair x ((hall x).2 ((hw.defined x).1 ⟨_, hl⟩)) n f ps d hl) hout
    (drawn := L.filter (fun x => decide (bn.Rv x ∧ x ∉ exo.keys))) (hn.filter _)
    (fun x => by
      rw [List.mem_filter]
      simp only [decide_eq_true_eq, and_iff_right_iff_imp]
      rintro ⟨⟨l, hl, -⟩, -⟩
      exact (hall x).2 ((hw.defined x).1 ⟨l, hl⟩)) (lp := lp) (fun x hx => by
      obtain ⟨h1, h2⟩ := List.mem_filter.1 hx
      simp only [decide_eq_true_eq] at h2
      exact ((hev x ((hall x).1 h1)).resolve_left (fun h => h.1 h2.1)).2)
  rw [prod_filter_of_one (fun x => decide (bn.Rv x ∧ x ∉ exo.keys)) _ (fun x hx hh => by
    simp only [decide_eq_false_iff_not, not_and, not_not] at hh
    rcases hev x ((hall x).1 hx) with ⟨-, h0⟩ | ⟨h1, -⟩
    · rw [h0, expX_zero]; simp
    · rw [if_pos (hh h1)])]
  rw [List.map_congr_left (g := fun x => expX (lp x)) (fun x hx => by
    have h2 := (List.mem_filter.1 hx).2
    simp only [decide_eq_true_eq] at h2
    rw [if_neg h2.2])]
  exact h

theorem generate_keys (sem : Sem N V C O S (XR ℝ)) (noneV : V) {bn : BN N V C O} {g : Model.Group N} {nick : N}
    {up : List (Dict N V)} {exo : Dict N V} (he : exo.WF) {s s' : S} {c : Core N V C O S ℝ}
    (h : Core.generate sem noneV bn g nick up exo s = (.ok c, s')) (x : N) (hx : x ∉ exo.keys) (hx' : x ∉ g.fixed) :
    c.locus.get? x = none := by
  unfold Core.generate at h
  split at h
  · cases h
  · split at h
    · cases h
    · cases h
      rw [Dict.get?_update _ _ he, Dict.get?_filterItems_key, (Dict.get?_eq_none_iff _ _).2 hx]
      simp [hx']

/-- **C223** (the whole network): a core without a parent and one of its compound samplers, when they cover the network
between them, give an assignment with the probability with which `sample` draws it. -/
theorem C223_joint {μ : Measure S} (sem : Sem N V C O S (XR ℝ)) (hcl : ∀ c, (sem.reparse c).names = []) (noneV : V)
    {bn : BN N V C O} (hr : Ready bn) {g : Model.Group N} (nick : N) {exo : Dict N V}
    (he : exo.WF) (hg : ∀ x ∈ g.exogenous, x ∈ exo.keys) (hns : NoShadow bn exo.keys) (ho : Ordered bn exo.keys g.fixed)
    {b : Blueprint N} {a : Actor N V C O S ℝ} (hb : b.type = .compound) (ha : b.compose bn = .ok a)
    (hread : ∀ x ∈ b.toRead, x ∈ exo.keys ∨ x ∈ g.fixed) (ho' : Ordered bn b.toRead (b.toSample ++ [b.name]))
    (hd : ∀ x ∈ b.toSample ++ [b.name], x ∉ b.toRead ∧ x ∉ exo.keys)
    (hall : (g.fixed ++ (b.toSample ++ [b.name])).Nodup ∧ ∀ x ∈ bn.dag.nodes, x ∈ g.fixed ++ (b.toSample ++ [b.name]))
    {r : Dict N V} (hwf : r.WF) {lp : N → XR ℝ} (hfill : Fills μ sem bn exo (g.fixed ++ (b.toSample ++ [b.name])) r lp) :
    ∃ p, Chance μ (fun s s' => ∃ (c : Core N V C O S ℝ) (m : Dict N V) (t : S),
        Core.generate sem noneV bn g nick [] exo s = (.ok c, t) ∧
        a.sampleWithMediators sem c.locus.get? t = (.ok m, s') ∧
        ∀ x, (c.locus.get? x).or (m.get? x) = r.get? x) p ∧
      Chance μ (fun s s' => ∃ r', sample sem bn exo s = (.ok r', s') ∧ ∀ x, r'.get? x = r.get? x) p := by
  have hw := hr.facts.1
  have hnodes : ∀ x ∈ g.fixed ++ (b.toSample ++ [b.name]), x ∈ bn.dag.nodes := fun x hx =>
    (List.mem_append.1 hx).elim (ho.nodes x) (ho'.nodes x)
  have hv : Taken g [] exo exo := ⟨fun x hx => .inl (hg x hx), fun x => by simp [chainMap_nil]⟩
  refine ⟨_, (C223 sem hcl noneV hr nick he hv hns ho hb ha hread ho' hd hfill).congr (fun s s' => ?_), ?_⟩
  · have ec : ∀ c : Core N V C O S ℝ, chainMap [c.locus] = c.locus.get? := fun c => funext (fun x => by
      rw [chainMap_cons, chainMap_nil, Option.or_none])
    have hdis : ∀ x ∈ g.fixed, x ∉ b.toSample ++ [b.name] := fun x hx hx' => (List.nodup_append.1 hall.1).2.2 x hx x hx' rfl
    have hnone : ∀ x, x ∉ exo.keys → x ∉ g.fixed → x ∉ b.toSample ++ [b.name] → r.get? x = none := by
      intro x h1 h2 h3
      refine (Dict.get?_eq_none_iff _ _).2 (fun hk => ?_)
      rcases (hfill.keys x).1 hk with h | h
      · exact h1 h
      · exact (List.mem_append.1 h).elim h2 h3
    refine exists_congr (fun c => exists_congr (fun m => exists_congr (fun t => and_congr_right (fun h1 => ?_))))
    rw [ec]
    refine and_congr_right (fun h2 => ?_)
    constructor
    · rintro ⟨h3, h4⟩ x
      rw [h3, h4]
      by_cases hx : x ∈ exo.keys ∨ x ∈ g.fixed
      · rw [if_pos hx]
        have hk : x ∈ r.keys := (hfill.keys x).2 (hx.imp id (fun h => List.mem_append.2 (.inl h)))
        obtain ⟨v, hv⟩ := (Dict.mem_keys_iff_exists _ _).1 hk
        rw [hv]; rfl
      · rw [if_neg hx, Option.none_or]
        split
        · rfl
        · rename_i hx2
          push Not at hx
          exact (hnone x hx.1 hx.2 hx2).symm
    · intro h3
      have hm : ∀ x, x ∉ b.toSample ++ [b.name] → m.get? x = none := by
        intro x hx
        exact mediators_keys sem hw hb ha h2 x hx
      refine ⟨fun x => ?_, fun x => ?_⟩
      · by_cases hx : x ∈ exo.keys ∨ x ∈ g.fixed
        · rw [if_pos hx, ← h3 x, hm x (fun h => hx.elim (hd x h).2 (fun hh => hdis x hh h)), Option.or_none]
        · push Not at hx
          rw [if_neg (by tauto)]
          exact generate_keys sem noneV he h1 x hx.1 hx.2
      · by_cases hx : x ∈ b.toSample ++ [b.name]
        · rw [if_pos hx, ← h3 x, generate_keys sem noneV he h1 x (hd x hx).2 (fun hh => hdis x hh hx), Option.none_or]
        · rw [if_neg hx, hm x hx]
  · exact sample_chance sem hcl hr hns (fun x hx => by
      obtain ⟨n, hl⟩ := id hx
      rcases List.mem_append.1 (hall.2 x ((hw.defined x).1 ⟨_, hl⟩)) with h | h
      · exact ho.open' x h hx
      · exact absurd (ho'.open' x h hx) (hd x h).1) hall.1 (fun x => ⟨hnodes x, hall.2 x⟩) hwf hfill

/-! ## C224 -/

/-- Each group takes what groups before it fix, or what is known from the start. -/
def Descends (bn : BN N V C O) : List N → List (Model.Group N) → Prop
  | _, [] => True
  | known, g :: gs => (∀ x ∈ g.exogenous, x ∈ known) ∧ Ordered bn g.exogenous g.fixed ∧ (∀ x ∈ g.fixed, x ∉ g.exogenous) ∧
      Descends bn (known ++ g.fixed) gs

/-- Cores of these groups are generated, each under the one before, and the values are those of `r`. -/
def Line (sem : Sem N V C O S (XR ℝ)) (noneV : V) (bn : BN N V C O) (nick : N) (r : Dict N V) :
    List (Model.Group N) → List (Dict N V) → S → S → Prop
  | [], _, s, s' => s = s'
  | g :: gs, up, s, s' => ∃ (c : Core N V C O S ℝ) (t : S), Core.generate sem noneV bn g nick up [] s = (.ok c, t) ∧
      (∀ x, c.locus.get? x = if x ∈ g.fixed then r.get? x else none) ∧ Line sem noneV bn nick r gs (c.locus :: up) t s'

theorem readExo_up (sem : Sem N V C O S (XR ℝ)) (noneV : V) (bn : BN N V C O) {up up' : List (Dict N V)}
    (h : ∀ x, chainGet up x = chainGet up' x) : ∀ (ds : List N) (vs : Dict N V) (s : S),
    Core.readExo sem noneV bn up ds vs s = Core.readExo sem noneV bn up' ds vs s := by
  intro ds
  induction ds with
  | nil => intro vs s; rfl
  | cons d ds ih =>
    intro vs s
    simp only [Core.readExo, h, ih]

theorem generate_up (sem : Sem N V C O S (XR ℝ)) (noneV : V) (bn : BN N V C O) {up up' : List (Dict N V)}
    (h : ∀ x, chainGet up x = chainGet up' x) (g : Model.Group N) (nick : N) (exo : Dict N V) (s : S) :
    Core.generate (K := ℝ) sem noneV bn g nick up exo s = Core.generate sem noneV bn g nick up' exo s := by
  unfold Core.generate
  rw [readExo_up sem noneV bn h]

theorem chainGet_same {d d' : Dict N V} (hd : ∀ x, d.get? x = d'.get? x) {up up' : List (Dict N V)}
    (h : ∀ x, chainGet up x = chainGet up' x) (x : N) : chainGet (d :: up) x = chainGet (d' :: up') x := by
  rw [chainGet_cons, chainGet_cons, hd, h]

theorem line_up (sem : Sem N V C O S (XR ℝ)) (noneV : V) (bn : BN N V C O) (nick : N) (r : Dict N V) :
    ∀ (gs : List (Model.Group N)) (up up' : List (Dict N V)), (∀ x, chainGet up x = chainGet up' x) → ∀ s s',
    Line sem noneV bn nick r gs up s s' ↔ Line sem noneV bn nick r gs up' s s' := by
  intro gs
  induction gs with
  | nil => intro up up' _ s s'; rfl
  | cons g gs ih =>
    intro up up' h s s'
    simp only [Line]
    refine exists_congr (fun c => exists_congr (fun t => ?_))
    rw [generate_up sem noneV bn h, ih (c.locus :: up) (c.locus :: up') (chainGet_same (fun _ => rfl) h)]

/-- **C224**: cores generated one under another have given values of their fixed variables with the product of the
probabilities of these under their definitions. -/
theorem C224 {μ : Measure S} (sem : Sem N V C O S (XR ℝ)) (hcl : ∀ c, (sem.reparse c).names = []) (noneV : V)
    {bn : BN N V C O} (hr : Ready bn) (nick : N) {vs r : Dict N V} {ds : List N} {lp : N → XR ℝ}
    (hfill : Fills μ sem bn vs ds r lp) (hnd : ∀ x ∈ ds, x ∈ bn.dag.nodes) (hns : NoShadow bn vs.keys) :
    ∀ (gs : List (Model.Group N)) (known : List N) (up : List (Dict N V)), Descends bn known gs →
    (∀ x ∈ known, x ∈ r.keys ∧ chainMap up x = r.get? x) → (∀ g ∈ gs, ∀ x ∈ g.fixed, x ∈ ds ∧ x ∉ vs.keys) →
    Chance μ (Line sem noneV bn nick r gs up) (((gs.flatMap (·.fixed)).map (fun x => expX (lp x))).prod) := by
  intro gs
  have hw := hr.facts.1
  induction gs with
  | nil => intro known up _ _ _; exact Chance.refl
  | cons g gs ih =>
    rintro known up ⟨h1, h2, h3, h4⟩ hup hgs
    have hx1 : ∀ x ∈ g.exogenous, ∃ v, chainMap up x = some v ∧ r.get? x = some v := by
      intro x hx
      obtain ⟨h5, h6⟩ := hup x (h1 x hx)
      obtain ⟨v, hv⟩ := (Dict.mem_keys_iff_exists _ _).1 h5
      exact ⟨v, by rw [h6, hv], hv⟩
    obtain ⟨e, he0, he⟩ := readExo_same sem noneV bn up g.exogenous ([] : Dict N V) (fun x hx => .inr (by
      obtain ⟨v, hv, -⟩ := hx1 x hx
      unfold chainMap at hv
      cases hc : chainGet up x with
      | error _ => rw [hc] at hv; cases hv
      | ok w => exact ⟨w, rfl⟩))
    have he' : ∀ x, e.get? x = if x ∈ g.exogenous then chainMap up x else none := fun x => by
      rw [he]; rfl
    have hek : ∀ x, x ∈ e.keys ↔ x ∈ g.exogenous := by
      intro x
      rw [← Dict.get?_isSome_iff, he']
      by_cases hx : x ∈ g.exogenous
      · obtain ⟨v, hv, -⟩ := hx1 x hx
        simp [hx, hv]
      · simp [hx]
    have ht : Taken g up ([] : Dict N V) e := ⟨fun x hx => .inr (by
      obtain ⟨v, hv, -⟩ := hx1 x hx
      unfold chainMap at hv
      cases hc : chainGet up x with
      | error _ => rw [hc] at hv; cases hv
      | ok w => exact ⟨w, rfl⟩), he⟩
    have hrk : ∀ k ∈ r.keys, k ∈ vs.keys ∨ k ∈ bn.dag.nodes := fun k hk => ((hfill.keys k).1 hk).imp id (hnd k)
    have hns' : NoShadow bn e.keys := by
      intro x n f ps hl y hy
      rcases hns x n f ps hl y hy with h | ⟨h, h'⟩
      · exact .inl h
      · exact .inr ⟨h, fun hh => (hrk y (hup y (h1 y ((hek y).1 hh))).1).elim h' h⟩
    have ho : Ordered bn e.keys g.fixed := ⟨h2.nodup, h2.nodes, fun pre d suf e' y hy => by
      rw [hek]; exact h2.parents pre d suf e' y hy, fun x hx h => (hek x).2 (h2.open' x hx h)⟩
    have hp := hfill.part hcl hw hnd hns (vs' := e) (ds' := g.fixed) (fun x hx => (hgs g (by simp) x hx).1) ho
      (fun x v hx => by
        have hxe : x ∈ g.exogenous := (hek x).1 ((Dict.mem_keys_iff_exists _ _).2 ⟨v, hx⟩)
        obtain ⟨w, h5, h6⟩ := hx1 x hxe
        rw [he', if_pos hxe, h5] at hx
        cases hx
        exact h6) (fun x hx h => absurd h (hgs g (by simp) x hx).2)
    have hg := C221 sem hcl noneV hr nick (exo := []) List.nodup_nil ht hns' ho hp
    set loc : Dict N V := r.filterItems (fun k _ => decide (k ∈ g.fixed)) with hloc
    have hlg : ∀ x, loc.get? x = if x ∈ g.fixed then r.get? x else none := fun x => by
      rw [hloc, Dict.get?_filterItems_key]; simp
    have hrest := ih (known ++ g.fixed) (loc :: up) h4 (fun x hx => by
      have hxf : x ∈ g.fixed → x ∈ r.keys := fun h => (hfill.keys x).2 (.inr (hgs g (by simp) x h).1)
      refine ⟨(List.mem_append.1 hx).elim (fun h => (hup x h).1) hxf, ?_⟩
      rw [chainMap_cons, hlg]
      by_cases hf : x ∈ g.fixed
      · rw [if_pos hf]
        obtain ⟨v, hv⟩ := (Dict.mem_keys_iff_exists _ _).1 (hxf hf)
        rw [hv]; rfl
      · rw [if_neg hf, Option.none_or]
        exact (hup x ((List.mem_append.1 hx).resolve_right hf)).2) (fun g' hg' => hgs g' (.tail _ hg'))
    have hval : (((g :: gs).flatMap (·.fixed)).map (fun x => expX (lp x))).prod =
        (g.fixed.map (fun x => if x ∈ Dict.keys ([] : Dict N V) ∨ x ∈ g.exogenous then 1 else expX (lp x))).prod *
        ((gs.flatMap (·.fixed)).map (fun x => expX (lp x))).prod := by
      rw [List.flatMap_cons, List.map_append, List.prod_append]
      congr 2
      refine List.map_congr_left (fun x hx => (if_neg ?_).symm)
      rintro (h | h)
      · cases h
      · exact h3 x hx h
    rw [hval]
    have hq : ∀ x, (if x ∈ Dict.keys ([] : Dict N V) ∨ x ∈ g.fixed then
        Dict.get? (r.filterItems (fun k _ => decide (k ∈ e.keys ∨ k ∈ g.fixed))) x else none) =
        if x ∈ g.fixed then r.get? x else none := by
      intro x
      have : x ∉ Dict.keys ([] : Dict N V) := fun h => by cases h
      by_cases hx : x ∈ g.fixed
      · rw [if_pos (.inr hx), if_pos hx, Dict.get?_filterItems_key, if_pos (by simp [hx])]
      · rw [if_neg (by tauto), if_neg hx]
    have hcg : ∀ c : Core N V C O S ℝ, (∀ x, c.locus.get? x = if x ∈ g.fixed then r.get? x else none) →
        ∀ x, chainGet (c.locus :: up) x = chainGet (loc :: up) x := fun c hc =>
      chainGet_same (fun x => by rw [hc, hlg]) (fun _ => rfl)
    refine (hg.comp hrest).congr (fun s s' => ?_)
    simp only [Line]
    constructor
    · rintro ⟨t, ⟨c, h5, h6, -⟩, h7⟩
      have h6' := fun x => (h6 x).trans (hq x)
      exact ⟨c, t, h5, h6', (line_up sem noneV bn nick r gs _ _ (hcg c h6') t s').2 h7⟩
    · rintro ⟨c, t, h5, h6, h7⟩
      refine ⟨t, ⟨c, h5, fun x => (h6 x).trans (hq x).symm, ?_⟩, (line_up sem noneV bn nick r gs _ _ (hcg c h6) t s').1 h7⟩
      exact generate_weight sem hcl noneV hr nick (exo := []) List.nodup_nil ht hns' ho hp h5 (fun x => (h6 x).trans (hq x).symm)

/-- **C224** (the whole network): cores generated one under another that fix the network between them give an assignment
with the probability with which `sample` draws it. -/
theorem C224_sample {μ : Measure S} (sem : Sem N V C O S (XR ℝ)) (hcl : ∀ c, (sem.reparse c).names = []) (noneV : V)
    {bn : BN N V C O} (hr : Ready bn) (nick : N) (hexo : ∀ x, ¬ Exogenous bn x) (hns : NoShadow bn []) {gs : List (Model.Group N)}
    (hgs : Descends bn [] gs) (hnd : (gs.flatMap (·.fixed)).Nodup) (hall : ∀ x, x ∈ gs.flatMap (·.fixed) ↔ x ∈ bn.dag.nodes)
    {r : Dict N V} (hwf : r.WF) {lp : N → XR ℝ} (hfill : Fills μ sem bn [] (gs.flatMap (·.fixed)) r lp) :
    ∃ p, Chance μ (Line sem noneV bn nick r gs []) p ∧
      Chance μ (fun s s' => ∃ r', sample sem bn [] s = (.ok r', s') ∧ ∀ x, r'.get? x = r.get? x) p := by
  refine ⟨_, C224 sem hcl noneV hr nick hfill (fun x hx => (hall x).1 hx) hns gs [] [] hgs (fun x hx => by cases hx)
    (fun g hg x hx => ⟨List.mem_flatMap.2 ⟨g, hg, hx⟩, fun h => by cases h⟩), ?_⟩
  have h := sample_chance sem hcl hr (exo := []) hns (fun x hx => absurd hx (hexo x)) hnd hall hwf hfill
  have e : (fun x => if x ∈ Dict.keys ([] : Dict N V) then 1 else expX (lp x)) = fun x => expX (lp x) :=
    funext (fun x => if_neg (fun h => by cases h))
  rw [e] at h
  exact h

/-! ## An example: three coins -/

/-- Three coins in a row: `a` is fair, `b` shows the side of `a` with probability 3/4, `c` that of `b`. -/
def rowBN : BN String Toy.TV Toy.TC Unit := defineAll (.empty "c") (coinDefs ++
  [.dist "c" (Toy.app "bern" [] [("q", Toy.plus (Toy.int 1) (Toy.plus (Toy.var "b") (Toy.var "b")))]) ["b"]])

theorem rowBuilt : Ready rowBN :=
  ⟨_, _, ((((Built.empty "c").step _ (by decide)).step _ (by decide)).step _ (by decide)), Or.inl rfl⟩

/-- The coins show given sides. -/
def row (a b c : Int) : Dict String Toy.TV := [("a", .num a), ("b", .num b), ("c", .num c)]

/-- The log densities. -/
noncomputable def rowLp (a b c : Int) (x : String) : XR ℝ :=
  .fin (Real.log (if x = "a" then 1 / 2 else if x = "b" then (if a = b then 3 / 4 else 1 / 4) else if b = c then 3 / 4 else 1 / 4))

theorem row_loci {x : String} {l : Toy.TL} (h : rowBN.loci.get? x = some l) :
    (x = "a" ∧ l = .dist "a" (Toy.app "bern" [] [("q", Toy.int 2)]) []) ∨ (x = "b" ∧ l =
      .dist "b" (Toy.app "bern" [] [("q", Toy.plus (Toy.int 1) (Toy.plus (Toy.var "a") (Toy.var "a")))]) ["a"]) ∨ (x = "c" ∧ l =
      .dist "c" (Toy.app "bern" [] [("q", Toy.plus (Toy.int 1) (Toy.plus (Toy.var "b") (Toy.var "b")))]) ["b"]) := by
  have h1 := Dict.mem_of_get? h
  have e : rowBN.loci = [("a", .dist "a" (Toy.app "bern" [] [("q", Toy.int 2)]) []), ("b",
      .dist "b" (Toy.app "bern" [] [("q", Toy.plus (Toy.int 1) (Toy.plus (Toy.var "a") (Toy.var "a")))]) ["a"]), ("c",
      .dist "c" (Toy.app "bern" [] [("q", Toy.plus (Toy.int 1) (Toy.plus (Toy.var "b") (Toy.var "b")))]) ["b"])] := rfl
  rw [e] at h1
  simpa using h1

theorem evaluate_of {sem : Sem N V C O S (XR ℝ)} {n : N} {f : Expr N C O} {ps : List N} {ρ : N → Option V}
    {d : Dist V S (XR ℝ)} (h1 : getDistribution sem f ρ = .ok d) {v : V} (h2 : ρ n = some v) {lp : XR ℝ}
    (h3 : d.logpdf v = .ok lp) : Loci.evaluate sem (.dist n f ps) ρ = .ok lp := by
  simp only [Loci.evaluate, h1, h2, h3, bind, Except.bind]

theorem row_fills {a b c : Int} (ha : a = 0 ∨ a = 1) (hb : b = 0 ∨ b = 1) (hc : c = 0 ∨ c = 1) :
    Fills uniform01 coinSem rowBN [] ["a", "b", "c"] (row a b c) (rowLp a b c) where
  keys := fun x => by
    have e : Dict.keys (row a b c) = ["a", "b", "c"] := rfl
    rw [e]
    exact ⟨.inr, fun h => h.elim (fun h => by cases h) id⟩
  kept := fun x v h => by cases h
  sure := fun x _ _ l hl hi => by
    rcases row_loci hl with ⟨-, rfl⟩ | ⟨-, rfl⟩ | ⟨-, rfl⟩ <;> cases hi
  weight := fun x _ l hl => by
    rcases row_loci hl with ⟨rfl, rfl⟩ | ⟨rfl, rfl⟩ | ⟨rfl, rfl⟩
    · refine evaluate_of (d := bern 2) (v := .num a) ?_ ?_ ?_
      · rfl
      · rfl
      rcases ha with rfl | rfl <;> simp only [bern, rowLp] <;> norm_num
    · rcases ha with rfl | rfl
      · refine evaluate_of (d := bern 1) (v := .num b) ?_ ?_ ?_
        · rfl
        · rfl
        rcases hb with rfl | rfl <;> simp only [bern, rowLp] <;> norm_num <;> simp
      · refine evaluate_of (d := bern 3) (v := .num b) ?_ ?_ ?_
        · rfl
        · rfl
        rcases hb with rfl | rfl <;> simp only [bern, rowLp] <;> norm_num <;> simp
    · rcases hb with rfl | rfl
      · refine evaluate_of (d := bern 1) (v := .num c) ?_ ?_ ?_
        · rfl
        · rfl
        rcases hc with rfl | rfl <;> simp only [bern, rowLp] <;> norm_num <;> simp
      · refine evaluate_of (d := bern 3) (v := .num c) ?_ ?_ ?_
        · rfl
        · rfl
        rcases hc with rfl | rfl <;> simp only [bern, rowLp] <;> norm_num <;> simp
  fair := fun x _ n f ps d hl hd => by
    rcases row_loci hl with ⟨-, h⟩ | ⟨-, h⟩ | ⟨-, h⟩
    · cases h
      have e : getDistribution coinSem (Toy.app "bern" [] [("q", Toy.int 2)]) (row a b c).get? = .ok (bern 2) := rfl
      rw [e] at hd
      cases hd
      exact bern_fair (by decide) (by decide)
    · cases h
      rcases ha with rfl | rfl
      · have e : getDistribution coinSem (Toy.app "bern" [] [("q", Toy.plus (Toy.int 1)
          (Toy.plus (Toy.var "a") (Toy.var "a")))]) (row 0 b c).get? = .ok (bern 1) := rfl
        rw [e] at hd
        cases hd
        exact bern_fair (by decide) (by decide)
      · have e : getDistribution coinSem (Toy.app "bern" [] [("q", Toy.plus (Toy.int 1)
          (Toy.plus (Toy.var "a") (Toy.var "a")))]) (row 1 b c).get? = .ok (bern 3) := rfl
        rw [e] at hd
        cases hd
        exact bern_fair (by decide) (by decide)
    · cases h
      rcases hb with rfl | rfl
      · have e : getDistribution coinSem (Toy.app "bern" [] [("q", Toy.plus (Toy.int 1)
          (Toy.plus (Toy.var "b") (Toy.var "b")))]) (row a 0 c).get? = .ok (bern 1) := rfl
        rw [e] at hd
        cases hd
        exact bern_fair (by decide) (by decide)
      · have e : getDistribution coinSem (Toy.app "bern" [] [("q", Toy.plus (Toy.int 1)
          (Toy.plus (Toy.var "b") (Toy.var "b")))]) (row a 1 c).get? = .ok (bern 3) := rfl
        rw [e] at hd
        cases hd
        exact bern_fair (by decide) (by decide)

theorem row_shadow : NoShadow rowBN [] := noShadow_of_check (by decide)

theorem row_exo (x : String) : ¬ Exogenous rowBN x := by
  rintro ⟨n, h⟩
  rcases row_loci h with ⟨-, h⟩ | ⟨-, h⟩ | ⟨-, h⟩ <;> cases h

theorem row_edges {y x : String} (h : rowBN.dag.E y x) : (y = "a" ∧ x = "b") ∨ (y = "b" ∧ x = "c") := by
  obtain ⟨l, hl, hp⟩ := (rowBuilt.facts.1.edges y x).1 h
  rcases row_loci hl with ⟨rfl, rfl⟩ | ⟨rfl, rfl⟩ | ⟨rfl, rfl⟩ <;> simp_all [Loci.parents]

/-- The group that fixes `a` and lets `b` and `c` float, and its sampler of `c`. -/
def rowTop : Model.Group String := ⟨"root", [], [], [], ["a"], ["b", "c"], [], []⟩

/-- The sampler of `c`. -/
def rowC : Blueprint String := ⟨"c", .compound, ["a"], ["b"]⟩

/-- This is what `as_simulation_core` makes of the network when `a` is to be fixed and `c` to float. -/
example : ∃ b, NSet.inject rowBN (.node (NSet.new "root" ["a"] ["c"]) []) = .ok (.node b []) ∧ b.fixed = rowTop.fixed ∧
    b.exo = rowTop.exogenous ∧ b.localS.get? "c" = some rowC :=
  Props.NodeSet.of_single (P := fun b => b.fixed = rowTop.fixed ∧ b.exo = rowTop.exogenous ∧ b.localS.get? "c" = some rowC)
    (fun _ => inferInstance) (by decide +kernel)

theorem ordered_of {bn : BN String Toy.TV Toy.TC Unit} {given ds : List String} (hn : ds.Nodup)
    (h1 : ∀ x ∈ ds, x ∈ bn.dag.nodes) (h2 : ∀ x, ¬ Exogenous bn x)
    (h3 : ∀ d ∈ ds, ∀ y, bn.dag.E y d → y ∈ given ∨ ∃ pre suf, ds = pre ++ d :: suf ∧ y ∈ pre) : Ordered bn given ds := by
  refine ⟨hn, h1, fun pre d suf e y hy => ?_, fun x _ hx => absurd hx (h2 x)⟩
  rcases h3 d (by rw [e]; simp) y hy with h | ⟨pre', suf', e', hy'⟩
  · exact .inl h
  · right
    have : pre = pre' := by
      have hd : d ∉ pre := fun h => by
        rw [e] at hn
        exact (List.nodup_append.1 hn).2.2 d h d (by simp) rfl
      have hd' : d ∉ pre' := fun h => by
        rw [e'] at hn
        exact (List.nodup_append.1 hn).2.2 d h d (by simp) rfl
      rw [e] at e'
      have := congrArg (List.takeWhile (fun x => decide (x ≠ d))) e'
      rwa [List.takeWhile_append_of_pos (by
        intro x hx; simp only [decide_eq_true_eq]; rintro rfl; exact hd hx), List.takeWhile_append_of_pos (by
        intro x hx; simp only [decide_eq_true_eq]; rintro rfl; exact hd' hx), List.takeWhile_cons_of_neg (by simp),
        List.takeWhile_cons_of_neg (by simp), List.append_nil, List.append_nil] at this
    rw [this]
    exact hy'

theorem rowOrderedA : Ordered rowBN [] ["a"] := ordered_of (by decide) (by decide) row_exo (fun d hd y hy => by
  simp only [List.mem_singleton] at hd
  subst hd
  rcases row_edges hy with ⟨-, h⟩ | ⟨-, h⟩ <;> simp at h)

theorem rowOrderedBC : Ordered rowBN ["a"] ["b", "c"] := ordered_of (by decide) (by decide) row_exo (fun d _ y hy => by
  rcases row_edges hy with ⟨rfl, rfl⟩ | ⟨rfl, rfl⟩
  · exact .inl (by simp)
  · exact .inr ⟨["b"], [], rfl, by simp⟩)

theorem row_top_fills {a : Int} (ha : a = 0 ∨ a = 1) :
    Fills uniform01 coinSem rowBN [] ["a"] [("a", .num a)] (rowLp a 0 0) :=
  (row_fills ha (.inl rfl) (.inl rfl)).part (fun _ => rfl) rowBuilt.facts.1 (by decide) row_shadow (vs' := []) (ds' := ["a"])
    (by simp) rowOrderedA (fun x v h => by cases h) (fun x _ h => h)

/-- C221: the fair coin, alone in a core. -/
example {a : Int} (ha : a = 0 ∨ a = 1) : Chance uniform01 (fun s s' => ∃ c : Core String Toy.TV Toy.TC Unit ℝ ℝ,
    Core.generate coinSem (.str "None") rowBN rowTop "A" [] [] s = (.ok c, s') ∧
    (∀ x, c.locus.get? x = if x = "a" then some (.num a) else none) ∧ c.logProb = .fin (Real.log (1 / 2)))
    (ENNReal.ofReal (1 / 2)) := by
  have h := C221_logProb (μ := uniform01) coinSem (fun _ => rfl) (.str "None") rowBuilt (g := rowTop) "A" (up := [])
    (exo := []) (vs := []) List.nodup_nil ⟨fun x hx => by (cases hx), fun x => rfl⟩ row_shadow rowOrderedA (row_top_fills ha)
    (fun x _ _ => ⟨fun h => by (cases h), fun h => by (cases h)⟩) (p := .fin (Real.log (1 / 2))) (by
      simp [rowTop, rowLp])
  rw [show expX (.fin (Real.log (1 / 2))) = ENNReal.ofReal (1 / 2) by simp only [expX]; rw [Real.exp_log (by norm_num)]] at h
  refine h.congr (fun s s' => ?_)
  have e : ∀ x, (if x ∈ Dict.keys ([] : Dict String Toy.TV) ∨ x ∈ rowTop.fixed then
      Dict.get? ([("a", .num a)] : Dict String Toy.TV) x else none) = if x = "a" then some (.num a) else none := by
    intro x
    by_cases hx : x = "a"
    · subst hx; rfl
    · simp [Dict.keys, rowTop, hx]
  simp only [e]

theorem rowC_composed : rowC.compose (S := ℝ) (K := ℝ) rowBN = .ok ⟨"c", .compound,
    .dist "c" (Toy.app "bern" [] [("q", Toy.plus (Toy.int 1) (Toy.plus (Toy.var "b") (Toy.var "b")))]) ["b"], ["a"],
    [.dist "b" (Toy.app "bern" [] [("q", Toy.plus (Toy.int 1) (Toy.plus (Toy.var "a") (Toy.var "a")))]) ["a"]], none⟩ := rfl

theorem row_bc_fills {a b c : Int} (ha : a = 0 ∨ a = 1) (hb : b = 0 ∨ b = 1) (hc : c = 0 ∨ c = 1) :
    Fills uniform01 coinSem rowBN [("a", .num a)] ["b", "c"] (row a b c) (rowLp a b c) :=
  (row_fills ha hb hc).part (fun _ => rfl) rowBuilt.facts.1 (by decide) row_shadow (vs' := [("a", .num a)]) (ds' := ["b", "c"])
    (by simp) rowOrderedBC (fun x v h => by
      have hx : x ∈ Dict.keys ([("a", .num a)] : Dict String Toy.TV) := (Dict.mem_keys_iff_exists _ _).2 ⟨v, h⟩
      have hx : x = "a" := by simpa [Dict.keys] using hx
      subst hx
      exact h) (fun x _ h => by cases h)

theorem row_shadowA {a : Int} : NoShadow rowBN (Dict.keys ([("a", .num a)] : Dict String Toy.TV)) :=
  noShadow_of_check (show noShadowB rowBN ["a"] = true by decide)

theorem ofReal_log {p : ℝ} (h : 0 < p) : expX (.fin (Real.log p)) = ENNReal.ofReal p := by
  simp only [expX]
  rw [Real.exp_log h]

/-- C222: the coin `c` through the coin `b`, when `a` shows 1. -/
example {b c : Int} (hb : b = 0 ∨ b = 1) (hc : c = 0 ∨ c = 1) {act : Actor String Toy.TV Toy.TC Unit ℝ ℝ}
    (ha : rowC.compose rowBN = .ok act) : Chance uniform01 (fun s s' => ∃ m,
      act.sampleWithMediators coinSem (Dict.get? [("a", .num 1)]) s = (.ok m, s') ∧
      ∀ x, m.get? x = if x ∈ ["b", "c"] then (row 1 b c).get? x else none)
    (ENNReal.ofReal (if 1 = b then 3 / 4 else 1 / 4) * ENNReal.ofReal (if b = c then 3 / 4 else 1 / 4)) := by
  have h := C222 (μ := uniform01) coinSem (fun _ => rfl) rowBuilt (b := rowC) rfl ha (pas := Dict.get? [("a", .num 1)])
    (vs := [("a", .num 1)]) (fun x => by
      by_cases hx : x = "a"
      · subst hx; rfl
      · have : "a" ≠ x := fun h => hx h.symm
        simp [rowC, Dict.get?, hx, this]) row_shadowA rowOrderedBC (by decide) (row_bc_fills (.inr rfl) hb hc)
  refine cast ?_ h
  congr 1
  have e1 := ofReal_log (p := if 1 = b then 3 / 4 else 1 / 4) (by split <;> norm_num)
  have e2 := ofReal_log (p := if b = c then 3 / 4 else 1 / 4) (by split <;> norm_num)
  rw [← e1, ← e2]
  simp [rowC, rowLp]

theorem row_mediator {act : Actor String Toy.TV Toy.TC Unit ℝ ℝ} (ha : rowC.compose rowBN = .ok act) {m : Dict String Toy.TV}
    {s s' : ℝ} (h : act.sampleWithMediators coinSem (Dict.get? [("a", .num 1)]) s = (.ok m, s')) :
    m.get? "b" = some (.num 1) ∨ m.get? "b" = some (.num 0) := by
  rw [rowC_composed] at ha
  cases ha
  have e1 : Loci.render coinSem (.dist "b" (Toy.app "bern" [] [("q", Toy.plus (Toy.int 1)
      (Toy.plus (Toy.var "a") (Toy.var "a")))]) ["a"]) (Dict.get? [("a", .num 1)]) s = (bern 3).sample s := rfl
  have e0 : Actor.readUpstream ["a"] (Dict.get? [("a", .num 1)]) = [("a", Toy.TV.num 1)] := rfl
  simp only [Actor.sampleWithMediators, Actor.flowLoop2, e0, e1] at h
  simp only [bern] at h
  split at h
  · cases h
  · cases h
    rw [Dict.get?_set, if_neg (by decide), Loci.name, Dict.get?_set_self]
    split
    · exact .inl rfl
    · exact .inr rfl

/-- C222: with the side of `a` known, `c` shows the same with probability 5/8. -/
example {act : Actor String Toy.TV Toy.TC Unit ℝ ℝ} (ha : rowC.compose rowBN = .ok act) :
    Chance uniform01 (fun s s' => act.sample coinSem (.str "None") (Dict.get? [("a", .num 1)]) s = (.ok (.num 1), s'))
      (ENNReal.ofReal (5 / 8)) := by
  have h := C222_value (μ := uniform01) coinSem (fun _ => rfl) (.str "None") rowBuilt (b := rowC) rfl ha
    (pas := Dict.get? [("a", .num 1)]) (vs := [("a", .num 1)]) (fun x => by
      by_cases hx : x = "a"
      · subst hx; rfl
      · have : "a" ≠ x := fun h => hx h.symm
        simp [rowC, Dict.get?, hx, this]) row_shadowA rowOrderedBC (by decide) (v := .num 1)
    (ways := [(row 1 1 1, rowLp 1 1 1), (row 1 0 1, rowLp 1 0 1)]) (fun w hw => by
      simp only [List.mem_cons, List.not_mem_nil, or_false] at hw
      rcases hw with rfl | rfl
      · exact row_bc_fills (.inr rfl) (.inr rfl) (.inr rfl)
      · exact row_bc_fills (.inr rfl) (.inl rfl) (.inr rfl)) (fun w hw => by
      simp only [List.mem_cons, List.not_mem_nil, or_false] at hw
      rcases hw with rfl | rfl <;> rfl) (by
      simp only [List.pairwise_cons, List.mem_singleton, forall_eq, List.not_mem_nil, false_imp_iff, implies_true, List.Pairwise.nil,
        and_true]
      exact ⟨"b", by simp [rowC], by decide⟩) (fun m s s' hm hv => by
      rcases row_mediator ha hm with h | h
      · exact ⟨_, .head _, fun x hx => by
          have : x = "b" := by simpa [rowC] using hx
          subst this
          exact h⟩
      · exact ⟨_, .tail _ (.head _), fun x hx => by
          have : x = "b" := by simpa [rowC] using hx
          subst this
          exact h⟩)
  refine cast ?_ h
  congr 1
  have e1 := ofReal_log (p := 3 / 4) (by norm_num)
  have e2 := ofReal_log (p := 1 / 4) (by norm_num)
  simp only [List.map_cons, List.map_nil, List.sum_cons, List.sum_nil, rowC, List.cons_append, List.nil_append, List.prod_cons,
    List.prod_nil, rowLp, String.reduceEq, if_false, if_true, zero_ne_one, one_ne_zero, e1, e2]
  rw [mul_one, mul_one, add_zero, ← ENNReal.ofReal_mul (by norm_num), ← ENNReal.ofReal_mul (by norm_num),
    ← ENNReal.ofReal_add (by norm_num) (by norm_num)]
  norm_num

/-- C222: the sampler of `b` under a core that has `a`, and the same sampler frozen while `a` shows 1. -/
example : Chance uniform01 (fun s s' => Actor.sample (K := ℝ) coinSem (.str "None") ⟨"b", .single,
      .dist "b" (Toy.app "bern" [] [("q", Toy.plus (Toy.int 1) (Toy.plus (Toy.var "a") (Toy.var "a")))]) ["a"], ["a"], [], none⟩
      (Dict.get? [("a", .num 1)]) s = (.ok (.num 1), s')) (ENNReal.ofReal (3 / 4)) ∧
    Chance uniform01 (fun s s' => Actor.sample (K := ℝ) coinSem (.str "None") ⟨"b", .frozen,
      .dist "b" (Toy.app "bern" [] [("q", Toy.plus (Toy.int 1) (Toy.plus (Toy.var "a") (Toy.var "a")))]) ["a"], ["a"], [],
      some (.dist (bern 3))⟩ (fun _ => none) s = (.ok (.num 1), s')) (ENNReal.ofReal (3 / 4)) := by
  have hl : (bern 3).logpdf (.num 1) = .ok (.fin (Real.log (3 / 4))) := by simp only [bern]; norm_num
  rw [← ofReal_log (by norm_num)]
  constructor
  · exact C222_single coinSem (.str "None") (bn := rowBN) (b := ⟨"b", .single, ["a"], []⟩) rfl rfl ⟨_, _, _, rfl, rfl⟩
      (bern_fair (by decide) (by decide)) hl
  · exact C222_frozen coinSem (.str "None") rfl (pas := Dict.get? [("a", .num 1)]) ⟨fun n f ps h => by
      cases h
      exact ⟨_, rfl, rfl⟩, fun h => by cases h⟩ ⟨_, _, _, rfl, rfl⟩ (bern_fair (by decide) (by decide)) hl _

/-- The three groups of the coins, one under another. -/
def rowLine : List (Model.Group String) := [⟨"root", ["kid"], [], [], ["a"], [], [], []⟩, ⟨"kid", ["leaf"], ["a"], ["a"], ["b"], [], [], []⟩,
  ⟨"leaf", [], ["b"], ["b"], ["c"], [], [], []⟩]

/-- C224: the three coins, one core under another. -/
example {a b c : Int} (ha : a = 0 ∨ a = 1) (hb : b = 0 ∨ b = 1) (hc : c = 0 ∨ c = 1) :
    Chance uniform01 (Line coinSem (.str "None") rowBN "A" (row a b c) rowLine []) (ENNReal.ofReal (1 / 2) *
      (ENNReal.ofReal (if a = b then 3 / 4 else 1 / 4) * ENNReal.ofReal (if b = c then 3 / 4 else 1 / 4))) ∧
    ∃ p, Chance uniform01 (Line coinSem (.str "None") rowBN "A" (row a b c) rowLine []) p ∧
      Chance uniform01 (fun s s' => ∃ r', sample coinSem rowBN [] s = (.ok r', s') ∧ ∀ x, r'.get? x = (row a b c).get? x) p := by
  have hd : Descends rowBN [] rowLine := by
    refine ⟨by simp, rowOrderedA, by simp, by simp, ordered_of (by decide) (by decide) row_exo (fun d hd y hy => ?_),
      by simp, by simp, ordered_of (by decide) (by decide) row_exo (fun d hd y hy => ?_), by simp, trivial⟩
    · simp only [List.mem_singleton] at hd
      subst hd
      rcases row_edges hy with ⟨rfl, -⟩ | ⟨-, h⟩
      · exact .inl (by simp)
      · simp at h
    · simp only [List.mem_singleton] at hd
      subst hd
      rcases row_edges hy with ⟨-, h⟩ | ⟨rfl, -⟩
      · simp at h
      · exact .inl (by simp)
  refine ⟨?_, C224_sample coinSem (fun _ => rfl) (.str "None") rowBuilt "A" row_exo row_shadow hd (by decide) (fun x => by
    rw [show rowBN.dag.nodes = ["a", "b", "c"] from rfl]; rfl) (r := row a b c) (show (Dict.keys (row a b c)).Nodup from show ["a", "b", "c"].Nodup by decide) (row_fills ha hb hc)⟩
  have h := C224 coinSem (fun _ => rfl) (.str "None") rowBuilt "A" (row_fills ha hb hc) (by decide) row_shadow rowLine [] []
    hd (fun x hx => by cases hx) (by decide)
  refine cast ?_ h
  congr 1
  have e1 := ofReal_log (p := if a = b then 3 / 4 else 1 / 4) (by split <;> norm_num)
  have e2 := ofReal_log (p := if b = c then 3 / 4 else 1 / 4) (by split <;> norm_num)
  have e3 := ofReal_log (p := 1 / 2) (by norm_num)
  rw [← e1, ← e2, ← e3]
  simp [rowLine, rowLp]

/-- C223: a core that fixes `a`, and its sampler of `c` with the mediator `b`. -/
example {a b c : Int} (ha : a = 0 ∨ a = 1) (hb : b = 0 ∨ b = 1) (hc : c = 0 ∨ c = 1) {act : Actor String Toy.TV Toy.TC Unit ℝ ℝ}
    (hact : rowC.compose rowBN = .ok act) : ∃ p,
    Chance uniform01 (fun s s' => ∃ (k : Core String Toy.TV Toy.TC Unit ℝ ℝ) (m : Dict String Toy.TV) (t : ℝ),
      Core.generate coinSem (.str "None") rowBN rowTop "A" [] [] s = (.ok k, t) ∧
      act.sampleWithMediators coinSem k.locus.get? t = (.ok m, s') ∧ ∀ x, (k.locus.get? x).or (m.get? x) = (row a b c).get? x) p ∧
    Chance uniform01 (fun s s' => ∃ r', sample coinSem rowBN [] s = (.ok r', s') ∧ ∀ x, r'.get? x = (row a b c).get? x) p :=
  C223_joint coinSem (fun _ => rfl) (.str "None") rowBuilt (g := rowTop) "A" (exo := []) List.nodup_nil (by simp [rowTop]) row_shadow rowOrderedA rfl
    hact (by simp [rowTop, rowC]) rowOrderedBC (by decide) ⟨by decide, by decide⟩
    (show (Dict.keys (row a b c)).Nodup from show ["a", "b", "c"].Nodup by decide) (row_fills ha hb hc)

end Props.LawsSim
