import Verif.Model.BN
import Verif.Props.Dag

/-! # Lemmas about networks -/

namespace Model.BN

set_option linter.unusedSectionVars false

open Py Spec Relation Model.Digraph

variable {N V C O S L : Type} [DecidableEq N]

/-- Representation invariant: attributes belong to nodes, every node has a definition under its own name. -/
structure Rep (bn : BN N V C O) : Prop where
  wf : bn.dag.WF
  defined : ∀ x, (∃ l, bn.loci.get? x = some l) ↔ x ∈ bn.dag.nodes
  named : ∀ x l, bn.loci.get? x = some l → l.name = x

/-- A well formed network: acyclic, and the edges are exactly the parents of the definitions. -/
structure Well (bn : BN N V C O) : Prop extends Rep bn where
  acyclic : Acyclic bn.dag.E
  edges : ∀ p x, bn.dag.E p x ↔ ∃ l, bn.loci.get? x = some l ∧ p ∈ l.parents

/-- Everything except the graph and its attributes. -/
def other (bn : BN N V C O) :=
  (bn.name, bn.udf, bn.frozen, bn.cOrder, bn.cRoots, bn.cRvRoots, bn.cLeaves, bn.cExo, bn.json)

theorem well_empty (n : N) : (BN.empty n : BN N V C O).Well where
  wf := Props.Dag.wf_empty
  defined := by intro x; simp [BN.empty, Digraph.empty]
  named := by intro x l h; simp [BN.empty] at h
  acyclic := by
    intro x hx
    obtain ⟨y, h, -⟩ := (TransGen.head'_iff).1 hx
    simp [BN.empty, Digraph.empty, E] at h
  edges := by intro p x; simp [BN.empty, Digraph.empty, E]

/-! ### Acyclicity of smaller graphs -/

theorem acyclic_mono {E E' : N → N → Prop} (h : ∀ a b, E' a b → E a b) (ha : Acyclic E) : Acyclic E' :=
  fun x hx => ha x (TransGen.mono h _ _ hx)

/-! ### `appendExo` -/

theorem mem_addNode' (g : Digraph N) (x y : N) : y ∈ (g.addNode x).nodes ↔ y ∈ g.nodes ∨ y = x := by
  rw [mem_nodes_addNode]; tauto

theorem mem_addEdge' (g : Digraph N) (u v y : N) :
    y ∈ (g.addEdge u v).nodes ↔ y ∈ g.nodes ∨ y = u ∨ y = v := by
  rw [mem_nodes_addEdge]; tauto

theorem E_addEdge' (g : Digraph N) (u v a b : N) :
    (g.addEdge u v).E a b ↔ g.E a b ∨ (a = u ∧ b = v) := by
  rw [E_addEdge]; tauto

theorem addNode_of_mem {g : Digraph N} {x : N} (h : x ∈ g.nodes) : g.addNode x = g := by
  simp [addNode, h]

theorem no_in_edges_of_not_mem {g : Digraph N} (hg : g.WF) {x : N} (h : x ∉ g.nodes) (p : N) :
    ¬ g.E p x := fun hp => h (hg.right_mem hp)

theorem E_addNode_iff (g : Digraph N) (x a b : N) : (g.addNode x).E a b ↔ g.E a b := by
  unfold addNode
  split <;> rfl

theorem filter_ne_append_self {l : List N} {x : N} (h : x ∉ l) : (l ++ [x]).filter (· ≠ x) = l := by
  rw [List.filter_append]
  have : l.filter (· ≠ x) = l := by
    rw [List.filter_eq_self]
    intro a ha
    simp only [ne_eq, decide_not, Bool.not_eq_eq_eq_not, Bool.not_true, decide_eq_false_iff_not]
    rintro rfl
    exact h ha
  rw [this]
  simp

theorem removeNode_addNode {g : Digraph N} (hg : g.WF) {x : N} (h : x ∉ g.nodes) :
    (g.addNode x).removeNode x = .ok g := by
  have h1 : g.addNode x = ⟨g.nodes ++ [x], g.edges⟩ := by simp [addNode, h]
  rw [h1]
  unfold Digraph.removeNode
  rw [if_pos (by simp)]
  simp only
  rw [filter_ne_append_self h]
  have : g.edges.filter (fun e => decide (e.1 ≠ x ∧ e.2 ≠ x)) = g.edges := by
    rw [List.filter_eq_self]
    intro e he
    rw [decide_eq_true_eq]
    constructor
    · rintro rfl; exact h (hg.left_mem he)
    · rintro rfl; exact h (hg.right_mem he)
  rw [this]

theorem erase_set_get? {ν : Type} (d : Dict N ν) (x : N) (v : ν) (h : d.get? x = none) (y : N) :
    ((d.set x v).erase x).get? y = d.get? y := by
  rw [Dict.get?_erase, Dict.get?_set]
  by_cases hy : y = x
  · subst hy; simp [h]
  · have : ¬ x = y := fun e => hy e.symm
    simp [hy, this]

theorem appendExo_acyclic {bn : BN N V C O} (hg : bn.dag.WF) {pa : N} (hpa : pa ∉ bn.dag.nodes)
    (ha : Acyclic bn.dag.E) :
    bn.appendExo pa = ({ bn with dag := bn.dag.addNode pa, loci := bn.loci.set pa (.exo pa) }, .ok ()) := by
  have hw := hg.addNode pa
  have hno : ∀ p, ¬ (bn.dag.addNode pa).E p pa := by
    intro p hp
    rw [E_addNode_iff] at hp
    exact no_in_edges_of_not_mem hg hpa p hp
  have hrem : (bn.dag.addNode pa).removeInEdges pa = (bn.dag.addNode pa, .ok ()) :=
    Props.Dag.C10_remove_in_edges_partial (by simp) hno
  have hacy : (bn.dag.addNode pa).checkAcyclic = true :=
    (checkAcyclic_iff hw).2 (acyclic_mono (fun a b h => (E_addNode_iff _ _ _ _).1 h) ha)
  simp only [appendExo, addNodeAttr, Loci.name, hrem, hacy, if_true]

theorem appendExo_cyclic {bn : BN N V C O} (hg : bn.dag.WF) {pa : N} (hpa : pa ∉ bn.dag.nodes)
    (hl : bn.loci.get? pa = none) (ha : ¬ Acyclic bn.dag.E) :
    ∃ b', bn.appendExo pa = (b', .error .AttributeError) ∧ b'.dag = bn.dag ∧
      (∀ x, b'.loci.get? x = bn.loci.get? x) ∧ b'.other = bn.other := by
  have hw := hg.addNode pa
  have hno : ∀ p, ¬ (bn.dag.addNode pa).E p pa := by
    intro p hp
    rw [E_addNode_iff] at hp
    exact no_in_edges_of_not_mem hg hpa p hp
  have hrem : (bn.dag.addNode pa).removeInEdges pa = (bn.dag.addNode pa, .ok ()) :=
    Props.Dag.C10_remove_in_edges_partial (by simp) hno
  have hacy : ¬ (bn.dag.addNode pa).checkAcyclic = true := by
    rw [checkAcyclic_iff hw]
    intro h
    exact ha (acyclic_mono (fun a b h => (E_addNode_iff _ _ _ _).2 h) h)
  simp only [appendExo, addNodeAttr, Loci.name, hrem, hacy]
  simp only [removeNode, removeNode_addNode hg hpa]
  exact ⟨_, rfl, rfl, erase_set_get? _ _ _ hl, rfl⟩

/-! ### The loop over the parents -/

/-- Edges after adding `p → name` for the listed parents. -/
def PlusE (E : N → N → Prop) (name : N) (ps : List N) (a b : N) : Prop :=
  E a b ∨ (b = name ∧ a ∈ ps)

theorem Rep.get?_none {bn : BN N V C O} (h : bn.Rep) {x : N} (hx : x ∉ bn.dag.nodes) :
    bn.loci.get? x = none := by
  cases hl : bn.loci.get? x with
  | none => rfl
  | some l => exact absurd ((h.defined x).1 ⟨l, hl⟩) hx

/-- What a completed loop over the parents yields. -/
structure ParentsAdded (name : N) (ps : List N) (bn b' : BN N V C O) (new new' : List N) : Prop where
  rep : b'.Rep
  other_eq : b'.other = bn.other
  mem : ∀ x, x ∈ b'.dag.nodes ↔ x ∈ bn.dag.nodes ∨ x ∈ ps
  edge : ∀ a b, b'.dag.E a b ↔ PlusE bn.dag.E name ps a b
  old : ∀ x ∈ bn.dag.nodes, b'.loci.get? x = bn.loci.get? x
  fresh : ∀ x ∈ ps, x ∉ bn.dag.nodes → b'.loci.get? x = some (.exo x)
  new_mem : ∀ x, x ∈ new' ↔ x ∈ new ∨ (x ∈ ps ∧ x ∉ bn.dag.nodes)
  new_nodup : new.Nodup → (∀ x ∈ new, x ∈ bn.dag.nodes) → new'.Nodup

theorem rep_addEdge {bn : BN N V C O} (h : bn.Rep) {u v : N} (hu : u ∈ bn.dag.nodes)
    (hv : v ∈ bn.dag.nodes) : ({ bn with dag := bn.dag.addEdge u v } : BN N V C O).Rep where
  wf := h.wf.addEdge u v
  defined := by
    intro x
    show (∃ l, bn.loci.get? x = some l) ↔ x ∈ (bn.dag.addEdge u v).nodes
    rw [h.defined, mem_addEdge']
    constructor
    · intro hx; simp [hx]
    · rintro (hx | rfl | rfl)
      · exact hx
      · exact hu
      · exact hv
  named := h.named

theorem rep_addExo {bn : BN N V C O} (h : bn.Rep) (l : Loci N V C O) :
    ({ bn with dag := bn.dag.addNode l.name, loci := bn.loci.set l.name l } : BN N V C O).Rep where
  wf := h.wf.addNode _
  defined := by
    intro x
    show (∃ l', (bn.loci.set l.name l).get? x = some l') ↔ x ∈ (bn.dag.addNode l.name).nodes
    rw [mem_addNode', Dict.get?_set]
    by_cases hx : l.name = x
    · subst hx; simp
    · rw [if_neg hx, h.defined]
      constructor
      · intro h; simp [h]
      · rintro (h | h)
        · exact h
        · exact absurd h.symm hx
  named := by
    intro x l' hl'
    replace hl' : (bn.loci.set l.name l).get? x = some l' := hl'
    rw [Dict.get?_set] at hl'
    split at hl'
    · rename_i hx; cases hl'; exact hx
    · exact h.named x l' hl'

theorem addParents_spec (name : N) : ∀ (ps : List N) (bn : BN N V C O) (new : List N), bn.Rep →
    name ∈ bn.dag.nodes →
    (∃ b' new', addParents name ps bn new = (b', new', .ok ()) ∧ ParentsAdded name ps bn b' new new') ∨
    (∃ b' new', addParents name ps bn new = (b', new', .error .AttributeError) ∧ b'.Rep ∧
      b'.other = bn.other ∧ ¬ Acyclic b'.dag.E ∧ (∀ a b, b'.dag.E a b → PlusE bn.dag.E name ps a b) ∧
      (∃ p ∈ ps, p ∉ bn.dag.nodes)) := by
  intro ps
  induction ps with
  | nil =>
    intro bn new h hn
    refine Or.inl ⟨bn, new, rfl, h, rfl, by simp, ?_, fun _ _ => rfl, by simp, by simp, fun h _ => h⟩
    intro a b; simp [PlusE]
  | cons pa ps ih =>
    intro bn new h hn
    by_cases hpa : pa ∈ bn.dag.nodes
    · have hrep := rep_addEdge h hpa hn
      have hmem1 : ∀ x, x ∈ (bn.dag.addEdge pa name).nodes ↔ x ∈ bn.dag.nodes := by
        intro x
        rw [mem_addEdge']
        constructor
        · rintro (hx | rfl | rfl)
          · exact hx
          · exact hpa
          · exact hn
        · intro hx; simp [hx]
      have hstep : addParents name (pa :: ps) bn new =
          addParents name ps { bn with dag := bn.dag.addEdge pa name } new := by
        rw [addParents, if_pos hpa]
      rw [hstep]
      rcases ih { bn with dag := bn.dag.addEdge pa name } new hrep ((hmem1 name).2 hn) with
        ⟨b', new', e, hp⟩ | ⟨b', new', e, hr, ho, hc, hs, hm⟩
      · refine Or.inl ⟨b', new', e, hp.rep, hp.other_eq, ?_, ?_, ?_, ?_, ?_, ?_⟩
        · intro x
          rw [hp.mem]
          show x ∈ (bn.dag.addEdge pa name).nodes ∨ x ∈ ps ↔ _
          rw [hmem1, List.mem_cons]
          constructor
          · rintro (h | h)
            · exact Or.inl h
            · exact Or.inr (Or.inr h)
          · rintro (h | rfl | h)
            · exact Or.inl h
            · exact Or.inl hpa
            · exact Or.inr h
        · intro a b
          rw [hp.edge]
          unfold PlusE
          show (bn.dag.addEdge pa name).E a b ∨ _ ↔ _
          rw [E_addEdge', List.mem_cons]
          constructor
          · rintro ((h | ⟨rfl, rfl⟩) | ⟨h1, h2⟩)
            · exact Or.inl h
            · exact Or.inr ⟨rfl, Or.inl rfl⟩
            · exact Or.inr ⟨h1, Or.inr h2⟩
          · rintro (h | ⟨rfl, rfl | h⟩)
            · exact Or.inl (Or.inl h)
            · exact Or.inl (Or.inr ⟨rfl, rfl⟩)
            · exact Or.inr ⟨rfl, h⟩
        · intro x hx
          exact hp.old x ((hmem1 x).2 hx)
        · intro x hx hxn
          rcases List.mem_cons.1 hx with rfl | hx
          · exact absurd hpa hxn
          · exact hp.fresh x hx (fun h => hxn ((hmem1 x).1 h))
        · intro x
          rw [hp.new_mem]
          show x ∈ new ∨ x ∈ ps ∧ x ∉ (bn.dag.addEdge pa name).nodes ↔ _
          rw [hmem1, List.mem_cons]
          constructor
          · rintro (h | ⟨h1, h2⟩)
            · exact Or.inl h
            · exact Or.inr ⟨Or.inr h1, h2⟩
          · rintro (h | ⟨rfl | h1, h2⟩)
            · exact Or.inl h
            · exact absurd hpa h2
            · exact Or.inr ⟨h1, h2⟩
        · intro h1 h2
          exact hp.new_nodup h1 (fun x hx => (hmem1 x).2 (h2 x hx))
      · refine Or.inr ⟨b', new', e, hr, ho, hc, ?_, ?_⟩
        · intro a b hab
          rcases hs a b hab with h | ⟨h1, h2⟩
          · rcases (E_addEdge' _ _ _ _ _).1 h with h | ⟨rfl, rfl⟩
            · exact Or.inl h
            · exact Or.inr ⟨rfl, by simp⟩
          · exact Or.inr ⟨h1, by simp [h2]⟩
        · obtain ⟨p, hp, hpn⟩ := hm
          exact ⟨p, by simp [hp], fun h => hpn ((hmem1 p).2 h)⟩
    · by_cases ha : Acyclic bn.dag.E
      · have hexo := appendExo_acyclic (bn := bn) h.wf hpa ha
        have hrep1 := rep_addExo h (.exo pa : Loci N V C O)
        have hpa1 : pa ∈ (bn.dag.addNode pa).nodes := by simp
        have hn1 : name ∈ (bn.dag.addNode pa).nodes := by simp [hn]
        have hrep2 := rep_addEdge hrep1 (u := pa) (v := name) hpa1 hn1
        have hmem1 : ∀ x, x ∈ ((bn.dag.addNode pa).addEdge pa name).nodes ↔
            x ∈ bn.dag.nodes ∨ x = pa := by
          intro x
          rw [mem_addEdge', mem_addNode']
          constructor
          · rintro (hx | rfl | rfl)
            · exact hx
            · exact Or.inr rfl
            · exact Or.inl hn
          · intro hx; exact Or.inl hx
        have hget : ∀ x, x ≠ pa → (bn.loci.set pa (.exo pa : Loci N V C O)).get? x = bn.loci.get? x :=
          fun x hx => Dict.get?_set_ne _ _ (Ne.symm hx)
        have hstep : addParents name (pa :: ps) bn new =
            addParents name ps { bn with dag := (bn.dag.addNode pa).addEdge pa name,
                                         loci := bn.loci.set pa (.exo pa) } (new ++ [pa]) := by
          rw [addParents, if_neg hpa, hexo]
        rw [hstep]
        rcases ih _ (new ++ [pa]) hrep2 ((hmem1 name).2 (Or.inl hn)) with
          ⟨b', new', e, hp⟩ | ⟨b', new', e, hr, ho, hc, hs, hm⟩
        · refine Or.inl ⟨b', new', e, hp.rep, hp.other_eq, ?_, ?_, ?_, ?_, ?_, ?_⟩
          · intro x
            rw [hp.mem]
            show x ∈ ((bn.dag.addNode pa).addEdge pa name).nodes ∨ x ∈ ps ↔ _
            rw [hmem1, List.mem_cons]
            tauto
          · intro a b
            rw [hp.edge]
            unfold PlusE
            show ((bn.dag.addNode pa).addEdge pa name).E a b ∨ _ ↔ _
            rw [E_addEdge', E_addNode_iff, List.mem_cons]
            constructor
            · rintro ((h | ⟨rfl, rfl⟩) | ⟨h1, h2⟩)
              · exact Or.inl h
              · exact Or.inr ⟨rfl, Or.inl rfl⟩
              · exact Or.inr ⟨h1, Or.inr h2⟩
            · rintro (h | ⟨rfl, rfl | h⟩)
              · exact Or.inl (Or.inl h)
              · exact Or.inl (Or.inr ⟨rfl, rfl⟩)
              · exact Or.inr ⟨rfl, h⟩
          · intro x hx
            rw [hp.old x ((hmem1 x).2 (Or.inl hx))]
            exact hget x (fun e => hpa (e ▸ hx))
          · intro x hx hxn
            by_cases hxp : x = pa
            · subst hxp
              rw [hp.old x ((hmem1 x).2 (Or.inr rfl))]
              exact Dict.get?_set_self _ _ _
            · rcases List.mem_cons.1 hx with h | hx
              · exact absurd h hxp
              · exact hp.fresh x hx (fun h => by
                  rcases (hmem1 x).1 h with h | h
                  · exact hxn h
                  · exact hxp h)
          · intro x
            rw [hp.new_mem]
            show x ∈ new ++ [pa] ∨ x ∈ ps ∧ x ∉ ((bn.dag.addNode pa).addEdge pa name).nodes ↔ _
            rw [hmem1, List.mem_cons, List.mem_append, List.mem_singleton]
            constructor
            · rintro ((h | rfl) | ⟨h1, h2⟩)
              · exact Or.inl h
              · exact Or.inr ⟨Or.inl rfl, hpa⟩
              · exact Or.inr ⟨Or.inr h1, fun h => h2 (Or.inl h)⟩
            · rintro (h | ⟨rfl | h1, h2⟩)
              · exact Or.inl (Or.inl h)
              · exact Or.inl (Or.inr rfl)
              · by_cases hxp : x = pa
                · exact Or.inl (Or.inr hxp)
                · exact Or.inr ⟨h1, fun h => h.elim h2 hxp⟩
          · intro h1 h2
            apply hp.new_nodup
            · rw [List.nodup_append]
              refine ⟨h1, by simp, ?_⟩
              intro a ha b hb hab
              simp at hb
              subst hb; subst hab
              exact hpa (h2 a ha)
            · intro x hx
              apply (hmem1 x).2
              rcases List.mem_append.1 hx with h | h
              · exact Or.inl (h2 x h)
              · simp at h; exact Or.inr h
        · refine Or.inr ⟨b', new', e, hr, ho, hc, ?_, ⟨pa, by simp, hpa⟩⟩
          intro a b hab
          rcases hs a b hab with h | ⟨h1, h2⟩
          · rcases (E_addEdge' _ _ _ _ _).1 h with h | ⟨rfl, rfl⟩
            · exact Or.inl ((E_addNode_iff _ _ _ _).1 h)
            · exact Or.inr ⟨rfl, by simp⟩
          · exact Or.inr ⟨h1, by simp [h2]⟩
      · obtain ⟨b', hb', hd, hl, ho⟩ := appendExo_cyclic (bn := bn) h.wf hpa (h.get?_none hpa) ha
        refine Or.inr ⟨b', new, ?_, ⟨by rw [hd]; exact h.wf, ?_, ?_⟩, ho, by rw [hd]; exact ha, ?_,
          ⟨pa, by simp, hpa⟩⟩
        · rw [addParents, if_neg hpa, hb']
        · intro x; rw [hd]; simp only [hl]; exact h.defined x
        · intro x l hx; rw [hl] at hx; exact h.named x l hx
        · intro a b hab; rw [hd] at hab; exact Or.inl hab

/-! ### `appendLoci` -/

/-- Well-formedness is enough to rule out a nested failure when the final graph is acyclic. -/
theorem addParents_ok_of_acyclic {name : N} {ps : List N} {bn : BN N V C O} {new : List N}
    (h : bn.Rep) (hn : name ∈ bn.dag.nodes) (ha : Acyclic (PlusE bn.dag.E name ps)) :
    ∃ b' new', addParents name ps bn new = (b', new', .ok ()) ∧ ParentsAdded name ps bn b' new new' := by
  rcases addParents_spec name ps bn new h hn with h1 | ⟨b', new', -, -, -, hc, hs, -⟩
  · exact h1
  · exact absurd (acyclic_mono hs ha) hc

/-- The state in which the loop over the parents starts. -/
def started (bn : BN N V C O) (l : Loci N V C O) (des : Option N) : BN N V C O := bn.addNodeAttr l des

theorem started_rep {bn : BN N V C O} (h : bn.Rep) (l : Loci N V C O) (des : Option N) :
    (bn.started l des).Rep := by
  have := rep_addExo h l
  exact ⟨this.wf, this.defined, this.named⟩

theorem started_mem (bn : BN N V C O) (l : Loci N V C O) (des : Option N) (x : N) :
    x ∈ (bn.started l des).dag.nodes ↔ x ∈ bn.dag.nodes ∨ x = l.name := by
  exact mem_addNode' _ _ _

theorem started_E (bn : BN N V C O) (l : Loci N V C O) (des : Option N) (a b : N) :
    (bn.started l des).dag.E a b ↔ bn.dag.E a b := E_addNode_iff _ _ _ _

theorem started_get? (bn : BN N V C O) (l : Loci N V C O) (des : Option N) (x : N) :
    (bn.started l des).loci.get? x = if l.name = x then some l else bn.loci.get? x :=
  Dict.get?_set _ _ _ _

/-- What `append_loci` does once no incoming edges remain. -/
def finish (l : Loci N V C O) : BN N V C O × List N × Result Unit → BN N V C O × Result Unit
  | (b2, _, .error e) => (b2, .error e)
  | (b2, new, .ok ()) =>
    if b2.dag.checkAcyclic then (b2, .ok ())
    else
      match b2.removeNode l.name with
      | (b3, .error e) => (b3, .error e)
      | (b3, .ok ()) =>
        match removeNodes new b3 with
        | (b4, .error e) => (b4, .error e)
        | (b4, .ok ()) => (b4, .error .AttributeError)

theorem appendLoci_of_rem_ok {bn : BN N V C O} (hf : bn.frozen = false) {l : Loci N V C O}
    {des : Option N}
    (hrem : (bn.started l des).dag.removeInEdges l.name = ((bn.started l des).dag, .ok ())) :
    bn.appendLoci l des = finish l (addParents l.name l.parents (bn.started l des) []) := by
  have hrem' : (bn.addNodeAttr l des).dag.removeInEdges l.name = ((bn.addNodeAttr l des).dag, .ok ()) :=
    hrem
  simp only [appendLoci, hf, hrem', Bool.false_eq_true, if_false]
  rfl

theorem appendLoci_of_rem_error {bn : BN N V C O} (hf : bn.frozen = false) {l : Loci N V C O}
    {des : Option N} {e : Err}
    (hrem : (bn.started l des).dag.removeInEdges l.name = ((bn.started l des).dag, .error e)) :
    bn.appendLoci l des = (bn.started l des, .error e) := by
  have hrem' : (bn.addNodeAttr l des).dag.removeInEdges l.name =
    ((bn.addNodeAttr l des).dag, .error e) := hrem
  simp only [appendLoci, hf, hrem', Bool.false_eq_true, if_false]
  rfl

/-- An accepted definition. -/
structure Accepted (bn b' : BN N V C O) (l : Loci N V C O) : Prop where
  rep : b'.Rep
  other_eq : b'.other = bn.other
  mem : ∀ x, x ∈ b'.dag.nodes ↔ x ∈ bn.dag.nodes ∨ x = l.name ∨ x ∈ l.parents
  edge : ∀ a b, b'.dag.E a b ↔ PlusE bn.dag.E l.name l.parents a b
  self : b'.loci.get? l.name = some l
  old : ∀ x ∈ bn.dag.nodes, x ≠ l.name → b'.loci.get? x = bn.loci.get? x
  fresh : ∀ x ∈ l.parents, x ≠ l.name → x ∉ bn.dag.nodes → b'.loci.get? x = some (.exo x)
  acyclic : Acyclic b'.dag.E

theorem appendLoci_accept {bn : BN N V C O} (h : bn.Rep) (hf : bn.frozen = false) {l : Loci N V C O}
    (des : Option N) (hno : ∀ p, ¬ bn.dag.E p l.name)
    (ha : Acyclic (PlusE bn.dag.E l.name l.parents)) :
    ∃ b', bn.appendLoci l des = (b', .ok ()) ∧ Accepted bn b' l := by
  have hrep := started_rep h l des
  have hn : l.name ∈ (bn.started l des).dag.nodes := (started_mem bn l des _).2 (Or.inr rfl)
  have hrem : (bn.started l des).dag.removeInEdges l.name = ((bn.started l des).dag, .ok ()) :=
    Props.Dag.C10_remove_in_edges_partial hn
      (fun p hp => hno p ((started_E bn l des _ _).1 hp))
  have ha1 : Acyclic (PlusE (bn.started l des).dag.E l.name l.parents) := by
    refine acyclic_mono (fun a b h => ?_) ha
    rcases h with h | h
    · exact Or.inl ((started_E bn l des _ _).1 h)
    · exact Or.inr h
  obtain ⟨b', new', e, hp⟩ := addParents_ok_of_acyclic (new := []) hrep hn ha1
  have hacy : Acyclic b'.dag.E := acyclic_mono (fun a b h => (hp.edge a b).1 h) ha1
  have hchk : b'.dag.checkAcyclic = true := (checkAcyclic_iff hp.rep.wf).2 hacy
  refine ⟨b', ?_, hp.rep, ?_, ?_, ?_, ?_, ?_, ?_, hacy⟩
  · rw [appendLoci_of_rem_ok hf hrem, e]
    simp only [finish, hchk, if_true]
  · rw [hp.other_eq]; rfl
  · intro x; rw [hp.mem, started_mem]; tauto
  · intro a b; rw [hp.edge]; unfold PlusE; rw [started_E]
  · rw [hp.old _ hn, started_get?, if_pos rfl]
  · intro x hx hne
    rw [hp.old x ((started_mem bn l des x).2 (Or.inl hx)), started_get?, if_neg (Ne.symm hne)]
  · intro x hx hne hxn
    refine hp.fresh x hx (fun h => ?_)
    rcases (started_mem bn l des x).1 h with h | h
    · exact hxn h
    · exact hne h

theorem appendLoci_frozen {bn : BN N V C O} (hf : bn.frozen = true) (l : Loci N V C O)
    (des : Option N) : bn.appendLoci l des = (bn, .error .AttributeError) := by
  simp [appendLoci, hf]

/-- Redefining a node that has parents in an acyclic graph fails, with the new definition already stored. -/
theorem appendLoci_has_parents {bn : BN N V C O} (hf : bn.frozen = false)
    (hac : Acyclic bn.dag.E) {l : Loci N V C O} (des : Option N) {p : N} (hp : bn.dag.E p l.name) :
    bn.appendLoci l des = (bn.started l des, .error .NetworkXError) := by
  have hn : l.name ∈ (bn.started l des).dag.nodes := (started_mem bn l des _).2 (Or.inr rfl)
  have hrem := Props.Dag.C10_refuted (g := (bn.started l des).dag)
    (acyclic_mono (fun a b h => (started_E bn l des _ _).1 h) hac) hn
    ((started_E bn l des _ _).2 hp)
  exact appendLoci_of_rem_error hf hrem

theorem removeNode_spec {bn : BN N V C O} (h : bn.Rep) {x : N} (hx : x ∈ bn.dag.nodes) :
    ∃ b', bn.removeNode x = (b', .ok ()) ∧ b'.Rep ∧ b'.other = bn.other ∧
      (∀ y, y ∈ b'.dag.nodes ↔ y ∈ bn.dag.nodes ∧ y ≠ x) ∧
      (∀ a b, b'.dag.E a b ↔ bn.dag.E a b ∧ a ≠ x ∧ b ≠ x) ∧
      (∀ y, b'.loci.get? y = if y = x then none else bn.loci.get? y) := by
  obtain ⟨g', hg', hmem, hE⟩ := removeNode_ok (g := bn.dag) hx
  refine ⟨{ bn with dag := g', loci := bn.loci.erase x, des := bn.des.erase x }, ?_, ?_, rfl,
    hmem, hE, fun y => Dict.get?_erase _ _ _⟩
  · simp [removeNode, hg']
  · refine ⟨h.wf.removeNode hg', ?_, ?_⟩
    · intro y
      show (∃ l, (bn.loci.erase x).get? y = some l) ↔ y ∈ g'.nodes
      rw [hmem, Dict.get?_erase, ← h.defined]
      by_cases hy : y = x <;> simp [hy]
    · intro y l hl
      replace hl : (bn.loci.erase x).get? y = some l := hl
      rw [Dict.get?_erase] at hl
      split at hl
      · cases hl
      · exact h.named y l hl

theorem removeNodes_spec : ∀ (xs : List N) {bn : BN N V C O}, bn.Rep → xs.Nodup →
    (∀ x ∈ xs, x ∈ bn.dag.nodes) →
    ∃ b', removeNodes xs bn = (b', .ok ()) ∧ b'.Rep ∧ b'.other = bn.other ∧
      (∀ y, y ∈ b'.dag.nodes ↔ y ∈ bn.dag.nodes ∧ y ∉ xs) ∧
      (∀ a b, b'.dag.E a b ↔ bn.dag.E a b ∧ a ∉ xs ∧ b ∉ xs) ∧
      (∀ y, b'.loci.get? y = if y ∈ xs then none else bn.loci.get? y) := by
  intro xs
  induction xs with
  | nil => intro bn h _ _; exact ⟨bn, rfl, h, rfl, by simp, by simp, by simp⟩
  | cons x xs ih =>
    intro bn h hnd hsub
    rw [List.nodup_cons] at hnd
    obtain ⟨b1, e1, r1, o1, m1, E1, g1⟩ := removeNode_spec h (hsub x (by simp))
    obtain ⟨b2, e2, r2, o2, m2, E2, g2⟩ := ih r1 hnd.2 (fun y hy => (m1 y).2
      ⟨hsub y (by simp [hy]), fun e => hnd.1 (e ▸ hy)⟩)
    refine ⟨b2, ?_, r2, by rw [o2, o1], ?_, ?_, ?_⟩
    · rw [removeNodes, e1]; exact e2
    · intro y; rw [m2, m1, List.mem_cons]; tauto
    · intro a b; rw [E2, E1, List.mem_cons, List.mem_cons]; tauto
    · intro y
      rw [g2, g1]
      by_cases h1 : y = x
      · subst h1; simp [hnd.1]
      · simp [h1]

/-- The complete case analysis of `append_loci` on an unfrozen network whose graph is acyclic. -/
theorem appendLoci_cases {bn : BN N V C O} (h : bn.Rep) (hf : bn.frozen = false)
    (hac : Acyclic bn.dag.E) (l : Loci N V C O) (des : Option N) :
    -- accepted
    ((∃ b', bn.appendLoci l des = (b', .ok ()) ∧ Accepted bn b' l) ∧ (∀ p, ¬ bn.dag.E p l.name) ∧
      Acyclic (PlusE bn.dag.E l.name l.parents)) ∨
    -- a redefinition of a node with parents
    ((∃ p, bn.dag.E p l.name) ∧ bn.appendLoci l des = (bn.started l des, .error .NetworkXError)) ∨
    -- a cycle found at the end: the node and its new parents are removed
    ((∀ p, ¬ bn.dag.E p l.name) ∧ ¬ Acyclic (PlusE bn.dag.E l.name l.parents) ∧
      ∃ b', bn.appendLoci l des = (b', .error .AttributeError) ∧ b'.Rep ∧ b'.other = bn.other ∧
        Acyclic b'.dag.E ∧
        (∀ y, y ∈ b'.dag.nodes ↔ y ∈ bn.dag.nodes ∧ y ≠ l.name) ∧
        (∀ a b, b'.dag.E a b ↔ bn.dag.E a b ∧ a ≠ l.name ∧ b ≠ l.name) ∧
        (∀ y, y ≠ l.name → b'.loci.get? y = bn.loci.get? y)) ∨
    -- a cycle found while adding a missing parent: the exception escapes
    ((∀ p, ¬ bn.dag.E p l.name) ∧ ¬ Acyclic (PlusE bn.dag.E l.name l.parents) ∧
      (∃ p ∈ l.parents, p ∉ bn.dag.nodes ∧ p ≠ l.name) ∧
      ∃ b', bn.appendLoci l des = (b', .error .AttributeError) ∧ b'.Rep ∧ b'.other = bn.other ∧
        ¬ Acyclic b'.dag.E) := by
  by_cases hp : ∃ p, bn.dag.E p l.name
  · obtain ⟨p, hp⟩ := hp
    exact Or.inr (Or.inl ⟨⟨p, hp⟩, appendLoci_has_parents hf hac des hp⟩)
  · have hno : ∀ p, ¬ bn.dag.E p l.name := fun p h => hp ⟨p, h⟩
    by_cases ha : Acyclic (PlusE bn.dag.E l.name l.parents)
    · exact Or.inl ⟨appendLoci_accept h hf des hno ha, hno, ha⟩
    · right; right
      have hrep := started_rep h l des
      have hn : l.name ∈ (bn.started l des).dag.nodes := (started_mem bn l des _).2 (Or.inr rfl)
      have hrem : (bn.started l des).dag.removeInEdges l.name = ((bn.started l des).dag, .ok ()) :=
        Props.Dag.C10_remove_in_edges_partial hn
          (fun p hp => hno p ((started_E bn l des _ _).1 hp))
      have hunf := appendLoci_of_rem_ok hf hrem
      rcases addParents_spec l.name l.parents (bn.started l des) [] hrep hn with
        ⟨b', new', e, hp⟩ | ⟨b', new', e, hr, ho, hc, hs, ⟨p, hp1, hp2⟩⟩
      · left
        refine ⟨hno, ha, ?_⟩
        have hcyc : ¬ Acyclic b'.dag.E := by
          intro hb
          apply ha
          refine acyclic_mono (fun a b h => ?_) hb
          rw [hp.edge]
          rcases h with h | h
          · exact Or.inl ((started_E bn l des _ _).2 h)
          · exact Or.inr h
        have hchk : ¬ b'.dag.checkAcyclic = true := fun h => hcyc ((checkAcyclic_iff hp.rep.wf).1 h)
        obtain ⟨b3, e3, r3, o3, m3, E3, g3⟩ := removeNode_spec hp.rep (x := l.name)
          ((hp.mem _).2 (Or.inl hn))
        have hnew : ∀ x, x ∈ new' ↔ x ∈ l.parents ∧ x ∉ bn.dag.nodes ∧ x ≠ l.name := by
          intro x
          rw [hp.new_mem, started_mem]
          simp
        obtain ⟨b4, e4, r4, o4, m4, E4, g4⟩ := removeNodes_spec new' r3
          (hp.new_nodup List.nodup_nil (by simp)) (by
            intro x hx
            obtain ⟨h1, h2, h3⟩ := (hnew x).1 hx
            rw [m3, hp.mem]
            exact ⟨Or.inr h1, h3⟩)
        have hE : ∀ a b, b4.dag.E a b ↔ bn.dag.E a b ∧ a ≠ l.name ∧ b ≠ l.name := by
          intro a b
          rw [E4, E3, hp.edge]
          unfold PlusE
          rw [started_E]
          constructor
          · rintro ⟨⟨h1 | ⟨h1, -⟩, h2, h3⟩, -, -⟩
            · exact ⟨h1, h2, h3⟩
            · exact absurd h1 h3
          · rintro ⟨h1, h2, h3⟩
            refine ⟨⟨Or.inl h1, h2, h3⟩, ?_, ?_⟩
            · intro hx; exact ((hnew a).1 hx).2.1 (h.wf.left_mem h1)
            · intro hx; exact ((hnew b).1 hx).2.1 (h.wf.right_mem h1)
        refine ⟨b4, ?_, r4, ?_, ?_, ?_, hE, ?_⟩
        · rw [hunf, e]
          simp only [finish, hchk, e3, e4, Bool.false_eq_true, if_false]
        · rw [o4, o3, hp.other_eq]; rfl
        · exact acyclic_mono (fun a b h => ((hE a b).1 h).1) hac
        · intro y
          rw [m4, m3, hp.mem, hnew, started_mem]
          constructor
          · rintro ⟨⟨(h1 | h1) | h1, h2⟩, h3⟩
            · exact ⟨h1, h2⟩
            · exact absurd h1 h2
            · refine ⟨?_, h2⟩
              by_contra hyn
              exact h3 ⟨h1, hyn, h2⟩
          · rintro ⟨h1, h2⟩
            exact ⟨⟨Or.inl (Or.inl h1), h2⟩, fun h => h.2.1 h1⟩
        · intro y hy
          rw [g4]
          by_cases hyn : y ∈ new'
          · rw [if_pos hyn]
            exact (h.get?_none ((hnew y).1 hyn).2.1).symm
          · rw [if_neg hyn, g3, if_neg hy]
            by_cases hyb : y ∈ bn.dag.nodes
            · rw [hp.old y ((started_mem bn l des y).2 (Or.inl hyb)), started_get?,
                if_neg (Ne.symm hy)]
            · have hyp : y ∉ l.parents := fun hyp => hyn ((hnew y).2 ⟨hyp, hyb, hy⟩)
              rw [h.get?_none hyb]
              apply hp.rep.get?_none
              rw [hp.mem, started_mem]
              rintro ((h1 | h1) | h1)
              · exact hyb h1
              · exact hy h1
              · exact hyp h1
      · right
        refine ⟨hno, ha, ⟨p, hp1, fun h => hp2 ((started_mem bn l des p).2 (Or.inl h)),
          fun h => hp2 ((started_mem bn l des p).2 (Or.inr h))⟩, b', ?_, hr, ho, hc⟩
        rw [hunf, e]
        rfl

/-! ### Arbitrary outcomes keep the representation invariant -/

theorem removeEdges_nodes (g : Digraph N) : ∀ es, (g.removeEdges es).1.nodes = g.nodes := by
  intro es
  induction es generalizing g with
  | nil => rfl
  | cons e es ih =>
    unfold removeEdges
    cases h : g.removeEdge e.1 e.2 with
    | error err => rfl
    | ok g' =>
      simp only
      rw [ih]
      unfold Digraph.removeEdge at h
      split at h
      · cases h; rfl
      · cases h

theorem removeInEdges_nodes (g : Digraph N) (x : N) : (g.removeInEdges x).1.nodes = g.nodes := by
  unfold removeInEdges
  cases g.parents x with
  | ok ps => exact removeEdges_nodes _ _
  | error e => rfl

theorem removeInEdges_wf {g : Digraph N} (hg : g.WF) (x : N) : (g.removeInEdges x).1.WF := by
  unfold removeInEdges
  cases g.parents x with
  | ok ps => exact Props.Dag.wf_removeEdges _ _ hg
  | error e => exact hg

theorem rep_withDag {bn : BN N V C O} (h : bn.Rep) {d : Digraph N} (hd : d.WF)
    (hn : d.nodes = bn.dag.nodes) : ({ bn with dag := d } : BN N V C O).Rep :=
  ⟨hd, fun x => by show _ ↔ x ∈ d.nodes; rw [hn]; exact h.defined x, h.named⟩

theorem appendLoci_rep_other {bn : BN N V C O} (h : bn.Rep) (l : Loci N V C O) (des : Option N) :
    (bn.appendLoci l des).1.Rep ∧ (bn.appendLoci l des).1.other = bn.other := by
  by_cases hf : bn.frozen = true
  · rw [appendLoci_frozen hf]; exact ⟨h, rfl⟩
  · have hf' : bn.frozen = false := by simpa using hf
    have h1 := started_rep h l des
    have hn : l.name ∈ (bn.started l des).dag.nodes := (started_mem bn l des _).2 (Or.inr rfl)
    have h2 := rep_withDag h1 (removeInEdges_wf h1.wf l.name) (removeInEdges_nodes _ l.name)
    cases hrem : (bn.started l des).dag.removeInEdges l.name with
    | mk d r =>
      rw [hrem] at h2
      have hrem' : (bn.addNodeAttr l des).dag.removeInEdges l.name = (d, r) := hrem
      cases r with
      | error e =>
        have e1 : bn.appendLoci l des = ({ bn.started l des with dag := d }, .error e) := by
          simp only [appendLoci, hf', hrem', Bool.false_eq_true, if_false]
          rfl
        rw [e1]
        exact ⟨h2, rfl⟩
      | ok u =>
        have e1 : bn.appendLoci l des =
            finish l (addParents l.name l.parents { bn.started l des with dag := d } []) := by
          simp only [appendLoci, hf', hrem', Bool.false_eq_true, if_false]
          rfl
        have hn2 : l.name ∈ ({ bn.started l des with dag := d } : BN N V C O).dag.nodes := by
          show l.name ∈ d.nodes
          have := removeInEdges_nodes (bn.started l des).dag l.name
          rw [hrem] at this
          rw [this]
          exact hn
        rw [e1]
        rcases addParents_spec l.name l.parents _ [] h2 hn2 with
          ⟨b', new', e, hp⟩ | ⟨b', new', e, hr, ho, -⟩
        · rw [e]
          unfold finish
          simp only
          split
          · exact ⟨hp.rep, hp.other_eq⟩
          · obtain ⟨b3, e3, r3, o3, m3, -, -⟩ := removeNode_spec hp.rep (x := l.name)
              ((hp.mem _).2 (Or.inl hn2))
            obtain ⟨b4, e4, r4, o4, -⟩ := removeNodes_spec new' r3
              (hp.new_nodup List.nodup_nil (by simp)) (by
                intro x hx
                rcases (hp.new_mem x).1 hx with h | ⟨h1, h3⟩
                · simp at h
                · rw [m3, hp.mem]
                  exact ⟨Or.inr h1, fun e => h3 (e ▸ hn2)⟩)
            simp only [e3, e4]
            exact ⟨r4, by rw [o4, o3, hp.other_eq]; rfl⟩
        · rw [e]
          exact ⟨hr, ho⟩

/-! ### Views -/

theorem Rep.exists_loci {bn : BN N V C O} (h : bn.Rep) {x : N} (hx : x ∈ bn.dag.nodes) :
    ∃ l, bn.loci.get? x = some l := (h.defined x).2 hx

theorem get_ok {bn : BN N V C O} {x : N} {l : Loci N V C O} (h : bn.loci.get? x = some l) :
    bn.get x = .ok l := by simp [get, h]

/-- `x` is a random variable of the network. -/
def Rv (bn : BN N V C O) (x : N) : Prop := ∃ l, bn.loci.get? x = some l ∧ l.isDist = true

/-- Decidable version. -/
def rvB (bn : BN N V C O) (x : N) : Bool :=
  match bn.loci.get? x with
  | some l => l.isDist
  | none => false

theorem rvB_iff (bn : BN N V C O) (x : N) : bn.rvB x = true ↔ bn.Rv x := by
  unfold rvB Rv
  cases bn.loci.get? x <;> simp

theorem isRv_ok {bn : BN N V C O} (h : bn.Rep) {x : N} (hx : x ∈ bn.dag.nodes) :
    bn.isRv x = .ok (bn.rvB x) := by
  obtain ⟨l, hl⟩ := h.exists_loci hx
  simp only [isRv, get_ok hl, rvB, hl]
  rfl

theorem anyRv_ok {bn : BN N V C O} (h : bn.Rep) : ∀ {as : List N}, (∀ a ∈ as, a ∈ bn.dag.nodes) →
    bn.anyRv as = .ok (as.any bn.rvB) := by
  intro as
  induction as with
  | nil => intro _; rfl
  | cons a as ih =>
    intro hs
    simp only [anyRv, isRv_ok h (hs a (by simp)), List.any_cons]
    cases hb : bn.rvB a with
    | true => rfl
    | false =>
      show (bn.anyRv as) = _
      rw [ih (fun x hx => hs x (by simp [hx]))]
      rfl

/-- Random variables without random ancestors. -/
def rootRvB (bn : BN N V C O) (x : N) : Bool := bn.rvB x && !((bn.dag.ancL x).any bn.rvB)

theorem ancL_sub {g : Digraph N} (hg : g.WF) {x : N} (hx : x ∈ g.nodes) {a : N} (ha : a ∈ g.ancL x) :
    a ∈ g.nodes := mem_nodes_of_trans_left hg ((mem_ancL hg hx a).1 ha).2

theorem rvRootsLoop_ok {bn : BN N V C O} (h : bn.Rep) : ∀ {ks : List N}, (∀ a ∈ ks, a ∈ bn.dag.nodes) →
    bn.rvRootsLoop ks = .ok (ks.filter bn.rootRvB) := by
  intro ks
  induction ks with
  | nil => intro _; rfl
  | cons k ks ih =>
    intro hs
    have hk := hs k (by simp)
    have ih := ih (fun x hx => hs x (by simp [hx]))
    simp only [rvRootsLoop, isRv_ok h hk, List.filter_cons]
    cases hb : bn.rvB k with
    | false =>
      show bn.rvRootsLoop ks = _
      rw [ih]
      simp [rootRvB, hb]
    | true =>
      show (do
        let anc ← bn.dag.ancestors k
        if ← bn.anyRv anc then rvRootsLoop bn ks
        else return k :: (← rvRootsLoop bn ks)) = _
      rw [ancestors_ok hk]
      show (do
        if ← bn.anyRv (bn.dag.ancL k) then rvRootsLoop bn ks
        else return k :: (← rvRootsLoop bn ks)) = _
      rw [anyRv_ok h (fun a ha => ancL_sub h.wf hk ha)]
      cases ha : (bn.dag.ancL k).any bn.rvB with
      | true =>
        show bn.rvRootsLoop ks = _
        rw [ih]
        simp [rootRvB, hb, ha]
      | false =>
        show (do return k :: (← rvRootsLoop bn ks)) = _
        rw [ih]
        simp [rootRvB, hb, ha]

/-- Exogenous nodes. -/
def exoB (bn : BN N V C O) (x : N) : Bool :=
  match bn.loci.get? x with
  | some l => l.isExo
  | none => false

theorem findExo_ok {bn : BN N V C O} (h : bn.Rep) :
    bn.findExo = .ok (bn.dag.nodes.filter bn.exoB) := by
  unfold findExo
  have : ∀ ks : List N, (∀ a ∈ ks, a ∈ bn.dag.nodes) →
      ks.foldr (fun k acc => do
        let l ← bn.get k
        let r ← acc
        return if l.isExo then k :: r else r) (Except.ok [] : Result (List N)) =
      .ok (ks.filter bn.exoB) := by
    intro ks
    induction ks with
    | nil => intro _; rfl
    | cons k ks ih =>
      intro hs
      obtain ⟨l, hl⟩ := h.exists_loci (hs k (by simp))
      rw [List.foldr_cons, ih (fun x hx => hs x (by simp [hx])), get_ok hl, List.filter_cons]
      have : bn.exoB k = l.isExo := by simp [exoB, hl]
      rw [this]
      show Except.ok (if l.isExo = true then k :: _ else _) = _
      cases l.isExo <;> rfl
  exact this _ (fun _ h => h)

/-- The definitions in node order. -/
def defs (bn : BN N V C O) : List (Loci N V C O) := bn.dag.nodes.filterMap bn.loci.get?

theorem nodesJson_ok {bn : BN N V C O} (h : bn.Rep) (f : N) :
    bn.nodesJson f = .ok (bn.defs.map (Loci.toJson f)) := by
  unfold nodesJson defs
  have : ∀ ks : List N, (∀ a ∈ ks, a ∈ bn.dag.nodes) →
      ks.mapM (fun x => do return (← bn.get x).toJson f) =
        (Except.ok ((ks.filterMap bn.loci.get?).map (Loci.toJson f)) : Result _) := by
    intro ks
    induction ks with
    | nil => intro _; rfl
    | cons k ks ih =>
      intro hs
      obtain ⟨l, hl⟩ := h.exists_loci (hs k (by simp))
      rw [List.mapM_cons, ih (fun x hx => hs x (by simp [hx])), get_ok hl, List.filterMap_cons, hl]
      rfl
  exact this _ (fun _ h => h)

theorem findRvRoots_unfrozen {bn : BN N V C O} (h : bn.Rep) (hf : bn.frozen = false) {od : List N}
    (ho : bn.dag.order = .ok od) : bn.findRvRoots = .ok (od.filter bn.rootRvB) := by
  have ht := order_spec h.wf ho
  simp only [findRvRoots, BN.order, hf, ho, Bool.false_eq_true, if_false]
  exact rvRootsLoop_ok h (fun a ha => (ht.complete a).1 ha)

/-- The JSON of a network whose graph has the order `od`. -/
def jsonOf (f : N) (bn : BN N V C O) (od : List N) : BNJson N V C O :=
  ⟨bn.name, bn.defs.map (Loci.toJson f), some od, some bn.dag.roots, some bn.dag.leaves,
    some (bn.dag.nodes.filter bn.exoB), none⟩

theorem formJs_unfrozen {bn : BN N V C O} (h : bn.Rep) (hf : bn.frozen = false) {od : List N}
    (ho : bn.dag.order = .ok od) (f : N) : bn.formJs f = .ok (bn.jsonOf f od) := by
  simp only [formJs, nodesJson_ok h, orderRaw, roots, leaves, exo, served, hf, ho, findExo_ok h,
    Bool.false_eq_true, if_false]
  rfl

/-- The network `complete` produces. -/
def completed (f : N) (bn : BN N V C O) (od : List N) : BN N V C O :=
  { bn with frozen := true, cOrder := some od, cRoots := some bn.dag.roots,
            cRvRoots := some (od.filter bn.rootRvB), cLeaves := some bn.dag.leaves,
            cExo := some (bn.dag.nodes.filter bn.exoB), json := some (bn.jsonOf f od) }

theorem complete_ok {bn : BN N V C O} (h : bn.Rep) {od : List N} (ho : bn.dag.order = .ok od) (f : N) :
    bn.complete f = (bn.completed f od, .ok ()) := by
  have ht := order_spec h.wf ho
  have hrr : ∀ b : BN N V C O, b.dag = bn.dag → b.loci = bn.loci → b.frozen = true →
      b.cOrder = some od → b.findRvRoots = .ok (od.filter bn.rootRvB) := by
    intro b h1 h2 h3 h4
    have hb : b.Rep := ⟨by rw [h1]; exact h.wf, by rw [h1, h2]; exact h.defined, by rw [h2]; exact h.named⟩
    simp only [findRvRoots, BN.order, h3, h4, if_true]
    have h5 : b.rvB = bn.rvB := by funext x; simp [rvB, h2]
    have : b.rootRvB = bn.rootRvB := by funext x; simp [rootRvB, h1, h5]
    rw [← this]
    exact rvRootsLoop_ok hb (fun a ha => by rw [h1]; exact (ht.complete a).1 ha)
  have hex : ∀ b : BN N V C O, b.dag = bn.dag → b.loci = bn.loci →
      b.findExo = .ok (bn.dag.nodes.filter bn.exoB) := by
    intro b h1 h2
    have hb : b.Rep := ⟨by rw [h1]; exact h.wf, by rw [h1, h2]; exact h.defined, by rw [h2]; exact h.named⟩
    have : b.exoB = bn.exoB := by funext x; simp [exoB, h2]
    rw [findExo_ok hb, this, h1]
  have hnj : ∀ b : BN N V C O, b.dag = bn.dag → b.loci = bn.loci →
      b.nodesJson f = .ok (bn.defs.map (Loci.toJson f)) := by
    intro b h1 h2
    have hb : b.Rep := ⟨by rw [h1]; exact h.wf, by rw [h1, h2]; exact h.defined, by rw [h2]; exact h.named⟩
    rw [nodesJson_ok hb]
    simp [defs, h1, h2]
  simp only [complete, ho]
  have e1 := hrr { bn with frozen := true, cOrder := some od, cRoots := some bn.dag.roots } rfl rfl rfl rfl
  have e2 := hex { bn with frozen := true, cOrder := some od, cRoots := some bn.dag.roots, cRvRoots := some (od.filter bn.rootRvB), cLeaves := some bn.dag.leaves } rfl rfl
  have e3 := hnj { bn with frozen := true, cOrder := some od, cRoots := some bn.dag.roots, cRvRoots := some (od.filter bn.rootRvB), cLeaves := some bn.dag.leaves, cExo := some (bn.dag.nodes.filter bn.exoB) } rfl rfl
  simp only [e1, e2, formJs, e3]
  rfl

end Model.BN
