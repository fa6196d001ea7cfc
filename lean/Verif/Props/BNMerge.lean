import Verif.Props.BNCopy

/-!
# Properties of networks: merge (C20) and extend (C22)
-/

namespace Props.BN

set_option linter.unusedSectionVars false

open Py Spec Relation Model Model.Digraph Model.BN

variable {N V C O S L : Type} [DecidableEq N]

/-- `x` is a node that `sub` really defines: neither exogenous nor pseudo (`not sub.is_exogenous(x)`). -/
def Defines (sub : BN N V C O) (x : N) : Prop :=
  ∃ l, sub.loci.get? x = some l ∧ l.isExo = false ∧ l.isPseudo = false

/-! ## The first loop of `merge` -/

/-- State after the nodes `pre` of `sub` have been merged. -/
structure Merging (me sub : BN N V C O) (pre : List N) (b : BN N V C O) : Prop where
  rep : b.Rep
  unfrozen : b.frozen = false
  acyclic : Acyclic b.dag.E
  mem : ∀ x, x ∈ b.dag.nodes ↔
    x ∈ me.dag.nodes ∨ ∃ y ∈ pre, Defines sub y ∧ (x = y ∨ sub.dag.E x y)
  done : ∀ x ∈ pre, Defines sub x →
    b.loci.get? x = sub.loci.get? x ∧ ∀ p, b.dag.E p x ↔ sub.dag.E p x
  keep : ∀ x ∈ me.dag.nodes, ¬ Defines sub x →
    b.loci.get? x = me.loci.get? x ∧ ∀ p, b.dag.E p x ↔ me.dag.E p x
  exo : ∀ x ∈ b.dag.nodes, ¬ (x ∈ pre ∧ Defines sub x) → x ∉ me.dag.nodes →
    b.loci.get? x = some (.exo x) ∧ ∀ p, ¬ b.dag.E p x

theorem isExogenous_ok {bn : BN N V C O} (hr : bn.Rep) {x : N} (hx : x ∈ bn.dag.nodes) :
    (bn.isExogenous x = .ok true ∧ ¬ Defines bn x) ∨ (bn.isExogenous x = .ok false ∧ Defines bn x) := by
  obtain ⟨l, hl⟩ := hr.exists_loci hx
  have h1 : bn.isExogenous x = .ok (l.isPseudo || l.isExo) := by
    simp only [isExogenous, get_ok hl]
    rfl
  have h2 : Defines bn x ↔ (l.isPseudo || l.isExo) = false := by
    unfold Defines
    rw [hl]
    constructor
    · rintro ⟨l', e, h3, h4⟩
      cases e
      simp [h3, h4]
    · intro h
      simp only [Bool.or_eq_false_iff] at h
      exact ⟨l, rfl, h.2, h.1⟩
  cases hb : (l.isPseudo || l.isExo) with
  | true => exact Or.inl ⟨by rw [h1, hb], by rw [h2, hb]; simp⟩
  | false => exact Or.inr ⟨by rw [h1, hb], by rw [h2, hb]⟩

theorem remove_if_present {b : BN N V C O} (hr : b.Rep) (x : N) :
    ∃ b1, (if x ∈ b.dag.nodes then b.removeNode x else (b, .ok ())) = (b1, .ok ()) ∧ b1.Rep ∧
      b1.other = b.other ∧ (∀ y, y ∈ b1.dag.nodes ↔ y ∈ b.dag.nodes ∧ y ≠ x) ∧
      (∀ u v, b1.dag.E u v ↔ b.dag.E u v ∧ u ≠ x ∧ v ≠ x) ∧
      (∀ y, y ≠ x → b1.loci.get? y = b.loci.get? y) := by
  by_cases hx : x ∈ b.dag.nodes
  · obtain ⟨b1, h1, h2, h3, h4, h5, h6⟩ := removeNode_spec hr hx
    refine ⟨b1, by rw [if_pos hx, h1], h2, h3, h4, h5, fun y hy => by rw [h6, if_neg hy]⟩
  · refine ⟨b, by rw [if_neg hx], hr, rfl, ?_, ?_, fun _ _ => rfl⟩
    · intro y; exact ⟨fun h => ⟨h, fun e => hx (e ▸ h)⟩, fun h => h.1⟩
    · intro u v
      refine ⟨fun h => ⟨h, ?_, ?_⟩, fun h => h.1⟩
      · rintro rfl; exact hx (hr.wf.left_mem h)
      · rintro rfl; exact hx (hr.wf.right_mem h)

theorem mergeLoop_ok (f : N) (sem : Sem N V C O S L) {self sub : BN N V C O} (hs : sub.Well)
    (hrel : ∀ x l, sub.loci.get? x = some l → Reloadable sem f l)
    (H1 : ∀ a c, Defines sub a → self.dag.E a c → Defines sub c) {od : List N}
    (ht : TopologicalOrder (· ∈ sub.dag.nodes) sub.dag.E od) :
    ∀ (suf pre : List N) (b : BN N V C O), od = pre ++ suf → Merging self sub pre b →
    ∃ b', mergeLoop f sem sub suf b = (b', .ok ()) ∧ b'.other = b.other ∧ Merging self sub od b' := by
  intro suf
  induction suf with
  | nil => intro pre b e h; exact ⟨b, rfl, rfl, by rw [e, List.append_nil]; exact h⟩
  | cons x suf ih =>
    intro pre b e h
    have hxod : x ∈ od := by rw [e]; simp
    have hxn : x ∈ sub.dag.nodes := (ht.complete x).1 hxod
    have hxpre : x ∉ pre := by
      have := ht.nodup
      rw [e, List.nodup_append] at this
      intro hx
      exact this.2.2 x hx x (by simp) rfl
    rcases isExogenous_ok hs.toRep hxn with ⟨he, hd⟩ | ⟨he, hd⟩
    · -- skipped
      have hstep : mergeLoop f sem sub (x :: suf) b = mergeLoop f sem sub suf b := by
        rw [mergeLoop, he]
      rw [hstep]
      refine ih (pre ++ [x]) b (by rw [e]; simp) ⟨h.rep, h.unfrozen, h.acyclic, ?_, ?_, h.keep, ?_⟩
      · intro y
        rw [h.mem]
        constructor
        · rintro (h1 | ⟨z, h1, h2⟩)
          · exact Or.inl h1
          · exact Or.inr ⟨z, by simp [h1], h2⟩
        · rintro (h1 | ⟨z, h1, h2, h3⟩)
          · exact Or.inl h1
          · rcases List.mem_append.1 h1 with h1 | h1
            · exact Or.inr ⟨z, h1, h2, h3⟩
            · simp at h1; subst h1; exact absurd h2 hd
      · intro y hy hdy
        rcases List.mem_append.1 hy with h1 | h1
        · exact h.done y h1 hdy
        · simp at h1; subst h1; exact absurd hdy hd
      · intro y hy hny hys
        exact h.exo y hy (fun hh => hny ⟨by simp [hh.1], hh.2⟩) hys
    · -- merged
      obtain ⟨l, hl⟩ := hs.toRep.exists_loci hxn
      have hname : l.name = x := hs.named x l hl
      obtain ⟨b1, e1, r1, o1, m1, E1, g1⟩ := remove_if_present h.rep x
      have hf1 : b1.frozen = false := by rw [frozen_of_other o1]; exact h.unfrozen
      have hac1 : Acyclic b1.dag.E := acyclic_mono (fun u v hh => ((E1 u v).1 hh).1) h.acyclic
      have hx1 : l.name ∉ b1.dag.nodes := by rw [hname, m1]; simp
      have hpar : ∀ p, p ∈ l.parents ↔ sub.dag.E p x := by
        intro p
        rw [hs.edges]
        constructor
        · intro hp; exact ⟨l, hl, hp⟩
        · rintro ⟨l', e', hp⟩
          rw [hl] at e'
          cases e'
          exact hp
      have hnself : l.name ∉ l.parents := by
        rw [hname, hpar]
        intro hh
        exact hs.acyclic x (.single hh)
      obtain ⟨b2, e2, hacc⟩ := appendLoci_accept r1 hf1 none
        (no_in_edges_of_not_mem r1.wf hx1) (acyclic_plus_of_fresh r1.wf hac1 hx1 hnself)
      have hstep : mergeLoop f sem sub (x :: suf) b = mergeLoop f sem sub suf b2 := by
        rw [mergeLoop, he]
        simp only [e1, get_ok hl]
        have : b1.appendFromJs sem (l.toJson f) = (b2, .ok ()) := by
          simp only [appendFromJs, show lociFromJson sem (l.toJson f) = .ok l from hrel x l hl]
          exact e2
        rw [this]
      rw [hstep]
      -- parents of processed nodes are processed before
      have hbefore : ∀ y ∈ pre, ¬ sub.dag.E x y := by
        intro y hy hxy
        obtain ⟨p1, p2, hp⟩ := List.append_of_mem hy
        have := ht.parentsFirst p1 y (p2 ++ x :: suf) (by rw [e, hp]; simp) x hxy
        exact hxpre (by rw [hp]; simp [this])
      have hget2 : ∀ y, y ≠ x → y ∈ b.dag.nodes → b2.loci.get? y = b.loci.get? y := by
        intro y hy hyb
        rw [hacc.old y ((m1 y).2 ⟨hyb, hy⟩) (by rw [hname]; exact hy), g1 y hy]
      have hE2 : ∀ p y, y ≠ x → (b2.dag.E p y ↔ b.dag.E p y ∧ p ≠ x) := by
        intro p y hy
        rw [hacc.edge]
        unfold PlusE
        rw [E1, hname]
        tauto
      have hoth : b2.other = b.other := by rw [hacc.other_eq, o1]
      rw [← hoth]
      refine ih (pre ++ [x]) b2 (by rw [e]; simp) ⟨hacc.rep, ?_, hacc.acyclic, ?_, ?_, ?_, ?_⟩
      · rw [frozen_of_other hacc.other_eq]; exact hf1
      · intro y
        rw [hacc.mem, m1, h.mem, hname, hpar]
        constructor
        · rintro (⟨h1 | ⟨z, h1, h2, h3⟩, h4⟩ | rfl | h1)
          · exact Or.inl h1
          · exact Or.inr ⟨z, by simp [h1], h2, h3⟩
          · exact Or.inr ⟨y, by simp, hd, Or.inl rfl⟩
          · exact Or.inr ⟨x, by simp, hd, Or.inr h1⟩
        · intro hh
          by_cases hyx : y = x
          · exact Or.inr (Or.inl hyx)
          · rcases hh with h1 | ⟨z, h1, h2, h3⟩
            · exact Or.inl ⟨Or.inl h1, hyx⟩
            · rcases List.mem_append.1 h1 with h1 | h1
              · exact Or.inl ⟨Or.inr ⟨z, h1, h2, h3⟩, hyx⟩
              · simp at h1; subst h1
                rcases h3 with h3 | h3
                · exact absurd h3 hyx
                · exact Or.inr (Or.inr h3)
      · intro y hy hdy
        by_cases hyx : y = x
        · subst hyx
          refine ⟨?_, ?_⟩
          · have := hacc.self
            rw [hname] at this
            rw [this, hl]
          · intro p
            rw [hacc.edge]
            unfold PlusE
            rw [E1, hname, hpar]
            constructor
            · rintro (⟨-, -, hh⟩ | ⟨-, hh⟩)
              · exact absurd rfl hh
              · exact hh
            · intro hh; exact Or.inr ⟨rfl, hh⟩
        · have hypre : y ∈ pre := by
            rcases List.mem_append.1 hy with h1 | h1
            · exact h1
            · simp at h1; exact absurd h1 hyx
          obtain ⟨h1, h2⟩ := h.done y hypre hdy
          refine ⟨?_, ?_⟩
          · rw [hget2 y hyx ((h.mem y).2 (Or.inr ⟨y, hypre, hdy, Or.inl rfl⟩)), h1]
          · intro p
            rw [hE2 p y hyx, h2]
            refine ⟨fun hh => hh.1, fun hh => ⟨hh, ?_⟩⟩
            rintro rfl
            exact hbefore y hypre hh
      · intro y hy hdy
        have hyx : y ≠ x := by rintro rfl; exact hdy hd
        obtain ⟨h1, h2⟩ := h.keep y hy hdy
        refine ⟨?_, ?_⟩
        · rw [hget2 y hyx ((h.mem y).2 (Or.inl hy)), h1]
        · intro p
          rw [hE2 p y hyx, h2]
          refine ⟨fun hh => hh.1, fun hh => ⟨hh, ?_⟩⟩
          rintro rfl
          exact hdy (H1 p y hd hh)
      · intro y hy hny hys
        have hyx : y ≠ x := by rintro rfl; exact hny ⟨by simp, hd⟩
        have hny' : ¬ (y ∈ pre ∧ Defines sub y) := fun hh => hny ⟨by simp [hh.1], hh.2⟩
        by_cases hyb : y ∈ b.dag.nodes
        · obtain ⟨h1, h2⟩ := h.exo y hyb hny' hys
          refine ⟨by rw [hget2 y hyx hyb, h1], fun p hp => h2 p ((hE2 p y hyx).1 hp).1⟩
        · have hyp : y ∈ l.parents := by
            rcases (hacc.mem y).1 hy with h1 | h1 | h1
            · exact absurd ((m1 y).1 h1).1 hyb
            · rw [hname] at h1; exact absurd h1 hyx
            · exact h1
          refine ⟨hacc.fresh y hyp (by rw [hname]; exact hyx) (fun hh => hyb ((m1 y).1 hh).1), ?_⟩
          intro p hp
          exact hyb (h.rep.wf.right_mem ((hE2 p y hyx).1 hp).1)

/-! ## The clean-up of `merge` -/

theorem checkEdgesLoop_well {b : BN N V C O} (hw : b.Well) : ∀ xs : List N, (∀ x ∈ xs, x ∈ b.dag.nodes) →
    checkEdgesLoop xs b [] = (b, .ok []) := by
  intro xs
  induction xs with
  | nil => intro _; rfl
  | cons x xs ih =>
    intro hs
    obtain ⟨l, hl⟩ := hw.toRep.exists_loci (hs x (by simp))
    have hpar : ∀ p, p ∈ l.parents ↔ b.dag.E p x := by
      intro p
      rw [hw.edges]
      constructor
      · intro hp; exact ⟨l, hl, hp⟩
      · rintro ⟨l', e', hp⟩
        rw [hl] at e'
        cases e'
        exact hp
    have h1 : (b.dag.preds x).filter (· ∉ l.parents) = [] := by
      rw [List.filter_eq_nil_iff]
      intro p hp
      simp [(hpar p).2 ((mem_preds _ _ _).1 hp)]
    have h2 : l.parents.filter (· ∉ b.dag.preds x) = [] := by
      rw [List.filter_eq_nil_iff]
      intro p hp
      simp [(mem_preds b.dag p x).2 ((hpar p).1 hp)]
    rw [checkEdgesLoop, get_ok hl]
    simp only [h1, List.map_nil, removeEdges, h2, List.append_nil]
    exact ih (fun y hy => hs y (by simp [hy]))

theorem dropChildless_well : ∀ (xs : List N) {b : BN N V C O}, b.Well → xs.Nodup →
    (∀ x ∈ xs, b.loci.get? x = some (.exo x)) →
    ∃ b', dropChildless xs b = (b', .ok ()) ∧ b'.Well ∧ b'.other = b.other ∧
      (∀ y, y ∈ b'.dag.nodes ↔ y ∈ b.dag.nodes ∧ ¬ (y ∈ xs ∧ ∀ c, ¬ b.dag.E y c)) ∧
      (∀ u v, b'.dag.E u v ↔ b.dag.E u v) ∧
      (∀ y ∈ b'.dag.nodes, b'.loci.get? y = b.loci.get? y) := by
  intro xs
  induction xs with
  | nil => intro b hw _ _; exact ⟨b, rfl, hw, rfl, by simp, by simp, by simp⟩
  | cons x xs ih =>
    intro b hw hnd hexo
    rw [List.nodup_cons] at hnd
    have hxl := hexo x (by simp)
    have hx : x ∈ b.dag.nodes := (hw.defined x).1 ⟨_, hxl⟩
    have hch : b.dag.children x = .ok (b.dag.succs x) := by simp [children, hx]
    cases hsu : b.dag.succs x with
    | cons c cs =>
      have hxc : b.dag.E x c := (mem_succs b.dag x c).1 (by rw [hsu]; simp)
      obtain ⟨b', h1, h2, h3, h4, h5, h6⟩ := ih hw hnd.2 (fun y hy => hexo y (by simp [hy]))
      refine ⟨b', ?_, h2, h3, ?_, h5, h6⟩
      · rw [dropChildless, hch, hsu]; exact h1
      · intro y
        rw [h4]
        constructor
        · rintro ⟨hy, hn⟩
          refine ⟨hy, ?_⟩
          rintro ⟨hh, hc⟩
          rcases List.mem_cons.1 hh with rfl | hh
          · exact hc c hxc
          · exact hn ⟨hh, hc⟩
        · rintro ⟨hy, hn⟩
          exact ⟨hy, fun hh => hn ⟨by simp [hh.1], hh.2⟩⟩
    | nil =>
      have hnochild : ∀ c, ¬ b.dag.E x c := by
        intro c hc
        have := (mem_succs b.dag x c).2 hc
        rw [hsu] at this
        cases this
      have hnopar : ∀ p, ¬ b.dag.E p x := by
        intro p hp
        obtain ⟨l, hl, hpl⟩ := (hw.edges p x).1 hp
        rw [hxl] at hl
        cases hl
        simp [Loci.parents] at hpl
      obtain ⟨b1, e1, r1, o1, m1, E1, g1⟩ := removeNode_spec hw.toRep hx
      have hEsame : ∀ u v, b1.dag.E u v ↔ b.dag.E u v := by
        intro u v
        rw [E1]
        refine ⟨fun h => h.1, fun h => ⟨h, ?_, ?_⟩⟩
        · rintro rfl; exact hnochild v h
        · rintro rfl; exact hnopar u h
      have hw1 : b1.Well := by
        refine ⟨r1, acyclic_mono (fun u v h => (hEsame u v).1 h) hw.acyclic, ?_⟩
        intro p y
        rw [hEsame, hw.edges, g1]
        by_cases hy : y = x
        · subst hy
          simp only [if_true]
          constructor
          · rintro h; exact absurd ((hw.edges p y).2 h) (hnopar p)
          · rintro ⟨l, h, -⟩; cases h
        · rw [if_neg hy]
      obtain ⟨b', h1, h2, h3, h4, h5, h6⟩ := ih hw1 hnd.2 (fun y hy => by
        rw [g1, if_neg (by rintro rfl; exact hnd.1 hy)]
        exact hexo y (by simp [hy]))
      refine ⟨b', ?_, h2, by rw [h3, o1], ?_, ?_, ?_⟩
      · rw [dropChildless, hch, hsu]
        simp only [e1]
        exact h1
      · intro y
        rw [h4, m1]
        constructor
        · rintro ⟨⟨hy, hne⟩, hn⟩
          refine ⟨hy, ?_⟩
          rintro ⟨hh, hc⟩
          rcases List.mem_cons.1 hh with hh | hh
          · exact hne hh
          · exact hn ⟨hh, fun c hc' => hc c ((hEsame _ _).1 hc')⟩
        · rintro ⟨hy, hn⟩
          refine ⟨⟨hy, ?_⟩, ?_⟩
          · rintro rfl; exact hn ⟨by simp, hnochild⟩
          · rintro ⟨hh, hc⟩
            exact hn ⟨by simp [hh], fun c hc' => hc c ((hEsame _ _).2 hc')⟩
      · intro u v; rw [h5, hEsame]
      · intro y hy
        rw [h6 y hy, g1, if_neg]
        rintro rfl
        exact ((m1 y).1 (((h4 y).1 hy).1)).2 rfl

theorem exoB_iff {b : BN N V C O} (hr : b.Rep) (x : N) :
    b.exoB x = true ↔ b.loci.get? x = some (.exo x) := by
  unfold exoB
  cases hl : b.loci.get? x with
  | none => simp
  | some l =>
    have hn := hr.named x l hl
    simp only [Option.some.injEq]
    cases l <;> simp [Loci.isExo]
    simpa [Loci.name] using hn

theorem checkEdges_well {b : BN N V C O} (hw : b.Well) :
    ∃ b', b.checkEdges = (b', .ok ()) ∧ b'.Well ∧ b'.other = b.other ∧
      (∀ y, y ∈ b'.dag.nodes ↔ y ∈ b.dag.nodes ∧
        ¬ (b.loci.get? y = some (.exo y) ∧ ∀ c, ¬ b.dag.E y c)) ∧
      (∀ u v, b'.dag.E u v ↔ b.dag.E u v) ∧
      (∀ y ∈ b'.dag.nodes, b'.loci.get? y = b.loci.get? y) := by
  obtain ⟨od, ho, ht⟩ := order_ok_of_acyclic hw.wf hw.acyclic
  have h1 := checkEdgesLoop_well hw od (fun x hx => (ht.complete x).1 hx)
  obtain ⟨b', e, h2, h3, h4, h5, h6⟩ := dropChildless_well (b.dag.nodes.filter b.exoB) hw
    (hw.wf.nodup_nodes.filter _) (fun x hx => (exoB_iff hw.toRep x).1 (List.mem_filter.1 hx).2)
  refine ⟨b', ?_, h2, h3, ?_, h5, h6⟩
  · unfold checkEdges
    rw [ho]
    simp only [h1, List.dedup_nil, appendExos, findExo_ok hw.toRep]
    exact e
  · intro y
    rw [h4, List.mem_filter, exoB_iff hw.toRep]
    tauto

/-! ## C20 -/

/-- **C20**, for overlays in which every child (in `self`) of an overridden node is overridden too, and
reloadable definitions: `merge` succeeds and yields a well formed network (acyclic, edges = parents, all parents
present); what `sub` defines is defined as in `sub`, every other node of `self` that has a definition keeps it,
nothing else appears except exogenous parents, and no exogenous node without children is left.
Missing: overlays that override a node but not its children (`C20_refuted`), which is the usual case. -/
theorem C20_merge_partial (f : N) (sem : Sem N V C O S L) {self sub : BN N V C O} (hself : self.Well)
    (hcs : CacheInv f self) (hsub : sub.Well) (hcb : CacheInv f sub)
    (hrs : ∀ x l, self.loci.get? x = some l → Reloadable sem f l)
    (hrb : ∀ x l, sub.loci.get? x = some l → Reloadable sem f l)
    (H1 : ∀ a c, Defines sub a → self.dag.E a c → Defines sub c)
    {nn : N} (hn1 : nn ≠ self.name) (hn2 : nn ≠ sub.name) :
    ∃ m, self.merge f sem nn sub = .ok m ∧ m.Well ∧ m.frozen = false ∧ m.name = nn ∧
      (∀ x, Defines sub x → m.loci.get? x = sub.loci.get? x) ∧
      (∀ x ∈ self.dag.nodes, ¬ Defines sub x → self.loci.get? x ≠ some (.exo x) →
        m.loci.get? x = self.loci.get? x) ∧
      (∀ x l p, m.loci.get? x = some l → p ∈ l.parents → p ∈ m.dag.nodes) ∧
      (∀ x, m.loci.get? x = some (.exo x) → ∃ c, m.dag.E x c) ∧
      (∀ x ∈ m.dag.nodes, x ∈ self.dag.nodes ∨ x ∈ sub.dag.nodes) := by
  obtain ⟨b0, e0, hs0, hu0, hname0, hf0, hw0, -⟩ := C19_copy_partial sem hself hcs hrs (some nn)
  obtain ⟨od, ho, ht⟩ := order_ok_of_acyclic hsub.wf hsub.acyclic
  have hsord : sub.order = .ok od := by
    rw [(faithful_of_cacheInv hcb hsub.acyclic).1]
    exact ho
  have hw1 : b0.defrost.Well := ⟨rep_congr hw0.toRep rfl rfl, hw0.acyclic, hw0.edges⟩
  have hm0 : Merging self sub [] b0.defrost := by
    refine ⟨hw1.toRep, rfl, hw1.acyclic, ?_, by simp, ?_, ?_⟩
    · intro x; simp only [List.not_mem_nil, false_and, exists_false, or_false]; exact hs0.1 x
    · intro x _ _; exact ⟨hs0.2.1 x, fun p => hs0.2.2 p x⟩
    · intro x hx _ hxs; exact absurd ((hs0.1 x).1 hx) hxs
  obtain ⟨b2, e2, o2, hm2⟩ := mergeLoop_ok f sem hsub hrb H1 ht od [] b0.defrost (by simp) hm0
  have hdod : ∀ x, Defines sub x → x ∈ od := by
    rintro x ⟨l, hl, -⟩
    exact (ht.complete x).2 ((hsub.defined x).1 ⟨l, hl⟩)
  have hw2 : b2.Well := by
    refine ⟨hm2.rep, hm2.acyclic, ?_⟩
    intro p x
    by_cases hd : Defines sub x
    · obtain ⟨h1, h2⟩ := hm2.done x (hdod x hd) hd
      rw [h1, h2, hsub.edges]
    · by_cases hxs : x ∈ self.dag.nodes
      · obtain ⟨h1, h2⟩ := hm2.keep x hxs hd
        rw [h1, h2, hself.edges]
      · by_cases hxb : x ∈ b2.dag.nodes
        · obtain ⟨h1, h2⟩ := hm2.exo x hxb (fun h => hd h.2) hxs
          rw [h1]
          constructor
          · intro h; exact absurd h (h2 p)
          · rintro ⟨l, e, h⟩; cases e; simp [Loci.parents] at h
        · rw [hm2.rep.get?_none hxb]
          constructor
          · intro h; exact absurd (hm2.rep.wf.right_mem h) hxb
          · rintro ⟨l, e, -⟩; cases e
  obtain ⟨b3, e3, hw3, o3, m3, E3, g3⟩ := checkEdges_well hw2
  have hkeep : ∀ x ∈ b2.dag.nodes, b2.loci.get? x ≠ some (.exo x) →
      b3.loci.get? x = b2.loci.get? x := fun x hx hne =>
    g3 x ((m3 x).2 ⟨hx, fun h => hne h.1⟩)
  refine ⟨{ b3 with udf := (b3.udf ++ self.udf ++ sub.udf).dedup }, ?_, ?_, ?_, ?_, ?_, ?_, ?_, ?_, ?_⟩
  · unfold BN.merge
    rw [if_neg (by rintro (h | h); exacts [hn1 h, hn2 h]), e0]
    show (do
      let od ← sub.order
      match mergeLoop f sem sub od b0.defrost with
      | (_, .error e) => .error e
      | (b2, .ok ()) =>
        match b2.checkEdges with
        | (_, .error e) => .error e
        | (b3, .ok ()) => Except.ok { b3 with udf := (b3.udf ++ self.udf ++ sub.udf).dedup } :
          Result (BN N V C O)) = _
    rw [hsord]
    show (match mergeLoop f sem sub od b0.defrost with
      | (_, .error e) => .error e
      | (b2, .ok ()) =>
        match b2.checkEdges with
        | (_, .error e) => .error e
        | (b3, .ok ()) => Except.ok { b3 with udf := (b3.udf ++ self.udf ++ sub.udf).dedup } :
          Result (BN N V C O)) = _
    rw [e2]
    simp only [e3]
  · exact ⟨rep_congr hw3.toRep rfl rfl, hw3.acyclic, hw3.edges⟩
  · show b3.frozen = false
    rw [frozen_of_other o3]; exact hm2.unfrozen
  · show b3.name = nn
    have h1 : b3.name = b2.name := congrArg (fun t => t.1) o3
    have h2 : b2.name = b0.name := congrArg (fun t => t.1) o2
    rw [h1, h2, hname0]; rfl
  · intro x hd
    show b3.loci.get? x = _
    obtain ⟨h1, -⟩ := hm2.done x (hdod x hd) hd
    obtain ⟨l, hl, he, -⟩ := hd
    rw [hkeep x ((hm2.rep.defined x).1 ⟨l, by rw [h1]; exact hl⟩) (by
      rw [h1, hl]; intro h; cases h; simp [Loci.isExo] at he), h1]
  · intro x hxs hd hne
    show b3.loci.get? x = _
    obtain ⟨h1, -⟩ := hm2.keep x hxs hd
    rw [hkeep x ((hm2.mem x).2 (Or.inl hxs)) (by rw [h1]; exact hne), h1]
  · intro x l p hl hp
    exact hw3.wf.left_mem ((hw3.edges p x).2 ⟨l, hl, hp⟩)
  · intro x hx
    have hx3 : x ∈ b3.dag.nodes := (hw3.defined x).1 ⟨_, hx⟩
    have hx2 : b2.loci.get? x = some (.exo x) := by rw [← g3 x hx3]; exact hx
    by_contra hno
    apply ((m3 x).1 hx3).2
    refine ⟨hx2, fun c hc => hno ⟨c, (E3 x c).2 hc⟩⟩
  · intro x hx
    rcases (hm2.mem x).1 ((m3 x).1 hx).1 with h | ⟨y, h1, -, rfl | h3⟩
    · exact Or.inl h
    · exact Or.inr ((ht.complete x).1 h1)
    · exact Or.inr (hsub.wf.left_mem h3)

/-- `self`: `c = p + 1` with `p` exogenous.  `sub`: `p = 3`. -/
def mself : XBN := defineAll (.empty "m") [.func "c" (succOf "p") ["p"]]
/-- See `mself`. -/
def msub : XBN := defineAll (.empty "s") [.value "p" 3]

/-- **C20 is false**: supplying a value for the exogenous parent `p` of `c`, the main purpose of `merge`, loses
`p` altogether: the result contains `c = p + 1` but neither the definition `p = 3` nor the node `p`. -/
theorem C20_refuted : ∃ m, mself.merge "f" xsem "new" msub = .ok m ∧ m.dag.nodes = ["c"] ∧
    m.loci.get? "p" = none ∧ m.loci.get? "c" = some (.func "c" (succOf "p") ["p"]) :=
  ⟨_, rfl, by rfl, by rfl, by rfl⟩

/-- Hypotheses of `C20_merge_partial` on an overlay that redefines `c` (a leaf) with a new parent `q`. -/
example : ∃ m, mself.merge "f" xsem "new" (defineAll (.empty "s") [.func "c" (succOf "q") ["q"]]) = .ok m ∧
    m.dag.nodes = ["c", "q"] := ⟨_, rfl, by rfl⟩

example : (∀ a c, Defines (defineAll (.empty "s") [.func "c" (succOf "q") ["q"]] : XBN) a →
    mself.dag.E a c → Defines (defineAll (.empty "s") [.func "c" (succOf "q") ["q"]] : XBN) c) ∧
    mself.Well ∧ CacheInv "f" mself := by
  refine ⟨?_, (built_inv ((Built.empty "m").step (.func "c" (succOf "p") ["p"]) (by decide))).1,
    cacheInv_runOps "f" [.define (.func "c" (succOf "p") ["p"]) none] (cacheInv_empty "f" "m")⟩
  rintro a c - h
  have h1 : (a, c) ∈ mself.dag.edges := h
  have h2 : mself.dag.edges = [("p", "c")] := by decide
  rw [h2] at h1
  simp at h1
  obtain ⟨-, rfl⟩ := h1
  exact ⟨.func "c" (succOf "q") ["q"], by decide, rfl, rfl⟩

/-! ## C22 -/

theorem extendLoop_built (ov : Bool) : ∀ (xs : List N) (ds : List (Loci N V C O)) (b : BN N V C O),
    Built ds b → (∀ x ∈ xs, x ∉ b.dag.nodes) → xs.Nodup →
    ∃ b', extendLoop ov [] xs b = (b', .ok ()) ∧ Built (ds ++ xs.map .exo) b' := by
  intro xs
  induction xs with
  | nil => intro ds b hb _ _; exact ⟨b, rfl, by simpa using hb⟩
  | cons x xs ih =>
    intro ds b hb hfresh hnd
    rw [List.nodup_cons] at hnd
    have hok : (b.appendLoci (.exo x) none).2 = .ok () :=
      C12_fresh_accepted hb (.exo x) none (hfresh x (by simp)) (by simp [Loci.parents])
    obtain ⟨hw, hf, -, -⟩ := built_inv hb
    have e1 : b.appendLoci (.exo x) none = ((b.appendLoci (.exo x) none).1, .ok ()) := Prod.ext rfl hok
    obtain ⟨hacc, -, -⟩ := accepted_of_ok hw.toRep hf hw.acyclic e1
    obtain ⟨b', h1, h2⟩ := ih (ds ++ [.exo x]) _ (hb.step (.exo x) hok) (by
      intro y hy hy'
      rcases (hacc.mem y).1 hy' with h | h | h
      · exact hfresh y (by simp [hy]) h
      · have h' : y = x := h
        exact hnd.1 (h' ▸ hy)
      · simp [Loci.parents] at h) hnd.2
    refine ⟨b', ?_, by simpa using h2⟩
    rw [extendLoop]
    simp only [List.not_mem_nil, not_false_eq_true, decide_true, Bool.or_true, if_true]
    rw [e1]
    exact h1

theorem extend_fresh {f : N} {bn : BN N V C O} (hr : bn.Rep) (ha : Acyclic bn.dag.E)
    (hfa : Faithful f bn) (ov : Bool) :
    ∃ b', bn.extend f none ov = .ok b' ∧ (∀ x, x ∈ b'.dag.nodes ↔ x ∈ bn.dag.nodes) ∧
      b'.frozen = true ∧ ∀ x ∈ bn.dag.nodes, b'.loci.get? x = some (.exo x) := by
  obtain ⟨od, ho, ht⟩ := order_ok_of_acyclic hr.wf ha
  have hord : bn.order = .ok od := by rw [hfa.1]; exact ho
  obtain ⟨b1, e1, hb1⟩ := extendLoop_built ov od [] (BN.empty bn.name) (Built.empty bn.name)
    (by simp [BN.empty, Digraph.empty]) ht.nodup
  simp only [List.nil_append] at hb1
  obtain ⟨hw1, -, -, -⟩ := built_inv hb1
  obtain ⟨hac, hm, hd, -, -⟩ := C12_well_formed hb1
  obtain ⟨od1, ho1, -⟩ := order_ok_of_acyclic hw1.wf hac
  refine ⟨b1.completed f od1, ?_, ?_, rfl, ?_⟩
  · unfold BN.extend
    rw [hord]
    show (match extendLoop ov [] od (BN.empty bn.name) with
      | (_, .error e) => .error e
      | (b1, .ok ()) =>
        match b1.complete f with
        | (_, .error e) => .error e
        | (b2, .ok ()) => Except.ok b2 : Result (BN N V C O)) = _
    rw [e1]
    simp only
    rw [complete_ok hw1.toRep ho1]
  · intro x
    show x ∈ b1.dag.nodes ↔ _
    rw [hm, ← ht.complete]
    constructor
    · rintro ⟨l, hl, h⟩
      obtain ⟨y, hy, rfl⟩ := List.mem_map.1 hl
      rcases h with rfl | h
      · exact hy
      · simp [Loci.parents] at h
    · intro hx
      exact ⟨.exo x, List.mem_map.2 ⟨x, hx, rfl⟩, Or.inl rfl⟩
  · intro x hx
    refine hd x (.exo x) ?_
    have hnd : ((od.map (Loci.exo : N → Loci N V C O)).map Loci.name).Nodup := by
      rw [List.map_map]
      have : (Loci.name ∘ (Loci.exo : N → Loci N V C O)) = id := by funext x; rfl
      rw [this, List.map_id]
      exact ht.nodup
    exact lastDef_of_nodup hnd (List.mem_map.2 ⟨x, (ht.complete x).2 hx, rfl⟩)

/-- **C22 is false**: `bn.extend()` turns every node into an exogenous one; no definition is carried over. -/
theorem C22_refuted (f n : N) (ops : List (Op N V C O)) (ov : Bool)
    (ha : Acyclic (runOps f ops (BN.empty n)).dag.E) :
    ∃ b', (runOps f ops (BN.empty n)).extend f none ov = .ok b' ∧
      ∀ x l, (runOps f ops (BN.empty n)).loci.get? x = some l → b'.loci.get? x = some (.exo x) := by
  obtain ⟨hr, hfa⟩ := C16_hypotheses f n ops ha
  obtain ⟨b', h1, -, -, h4⟩ := extend_fresh hr ha hfa ov
  exact ⟨b', h1, fun x l hl => h4 x ((hr.defined x).1 ⟨l, hl⟩)⟩

/-- **C22**, the part that holds: `bn.extend()` succeeds, is completed, and has the nodes of `bn`.
Missing: the definitions (`C22_refuted`), and extending a given network. -/
theorem C22_extend_partial (f n : N) (ops : List (Op N V C O)) (ov : Bool)
    (ha : Acyclic (runOps f ops (BN.empty n)).dag.E) :
    ∃ b', (runOps f ops (BN.empty n)).extend f none ov = .ok b' ∧ b'.frozen = true ∧
      ∀ x, x ∈ b'.dag.nodes ↔ x ∈ (runOps f ops (BN.empty n)).dag.nodes := by
  obtain ⟨hr, hfa⟩ := C16_hypotheses f n ops ha
  obtain ⟨b', h1, h2, h3, -⟩ := extend_fresh hr ha hfa ov
  exact ⟨b', h1, h3, h2⟩

example : Acyclic (runOps "f" exOps2 (BN.empty "m")).dag.E := exOps2_well.acyclic

end Props.BN
