import Verif.Lemmas.BN

/-!
# Properties of networks: C12 - C16, C21

Vocabulary of the statements: `bn.dag.nodes`, `bn.dag.E` (edges), `bn.loci.get? x` (definition of `x`).
`appendLoci` returns the network after the call together with the outcome, so statements about rejected
definitions talk about the first component.
-/

namespace Props.BN

set_option linter.unusedSectionVars false

open Py Spec Relation Model Model.Digraph Model.BN

variable {N V C O S L : Type} [DecidableEq N]

/-! ## Examples used below -/

/-- Names are strings, values and constants integers, one operator. -/
abbrev XBN := BN String Int Int Unit
/-- Definitions over the same types. -/
abbrev XLoci := Loci String Int Int Unit

/-- Some expression; only the parents matter here. -/
def xe : Expr String Int Unit := .const 0

/-- Apply definitions one after the other, whatever the outcomes. -/
def defineAll (bn : BN N V C O) (ds : List (Loci N V C O)) : BN N V C O :=
  ds.foldl (fun b l => (b.appendLoci l).1) bn

/-! ## C12 -/

/-- The last definition of `x` in a list of definitions. -/
def lastDef (ds : List (Loci N V C O)) (x : N) : Option (Loci N V C O) :=
  ds.reverse.find? (fun l => l.name = x)

/-- Networks obtained from an empty one by definitions all of which were accepted. -/
inductive Built : List (Loci N V C O) → BN N V C O → Prop
  | empty (n : N) : Built [] (BN.empty n)
  | define {ds bn b' l des} : Built ds bn → bn.appendLoci l des = (b', .ok ()) → Built (ds ++ [l]) b'

/-- The same step with the network spelled out. -/
theorem Built.step {ds : List (Loci N V C O)} {bn : BN N V C O} (h : Built ds bn) (l : Loci N V C O)
    (e : (bn.appendLoci l).2 = .ok ()) : Built (ds ++ [l]) (bn.appendLoci l).1 :=
  .define h (Prod.ext rfl e)

theorem accepted_of_ok {bn b' : BN N V C O} (h : bn.Rep) (hf : bn.frozen = false)
    (hac : Acyclic bn.dag.E) {l : Loci N V C O} {des : Option N}
    (e : bn.appendLoci l des = (b', .ok ())) :
    Accepted bn b' l ∧ (∀ p, ¬ bn.dag.E p l.name) ∧ Acyclic (PlusE bn.dag.E l.name l.parents) := by
  rcases appendLoci_cases h hf hac l des with ⟨⟨b1, e1, h1⟩, h2, h3⟩ | ⟨-, e1⟩ | ⟨-, -, b1, e1, -⟩ |
    ⟨-, -, -, b1, e1, -⟩
  · rw [e] at e1; cases e1; exact ⟨h1, h2, h3⟩
  all_goals rw [e] at e1; cases e1

theorem frozen_of_other {a b : BN N V C O} (h : a.other = b.other) : a.frozen = b.frozen := by
  have := congrArg (fun t => t.2.2.1) h
  exact this

theorem well_of_accepted {bn b' : BN N V C O} (h : bn.Well) {l : Loci N V C O} (ha : Accepted bn b' l)
    (hno : ∀ p, ¬ bn.dag.E p l.name) : b'.Well where
  toRep := ha.rep
  acyclic := ha.acyclic
  edges := by
    intro p x
    rw [ha.edge]
    unfold PlusE
    by_cases hx : x = l.name
    · subst hx
      rw [ha.self]
      constructor
      · rintro (h1 | ⟨-, h1⟩)
        · exact absurd h1 (hno p)
        · exact ⟨l, rfl, h1⟩
      · rintro ⟨l', e, h1⟩
        cases e
        exact Or.inr ⟨rfl, h1⟩
    · by_cases hxn : x ∈ bn.dag.nodes
      · rw [ha.old x hxn hx, ← h.edges]
        constructor
        · rintro (h1 | ⟨h1, -⟩)
          · exact h1
          · exact absurd h1 hx
        · exact Or.inl
      · constructor
        · rintro (h1 | ⟨h1, -⟩)
          · exact absurd (h.wf.right_mem h1) hxn
          · exact absurd h1 hx
        · rintro ⟨l', e, h1⟩
          by_cases hxp : x ∈ l.parents
          · rw [ha.fresh x hxp hx hxn] at e
            cases e
            simp [Loci.parents] at h1
          · have : x ∈ b'.dag.nodes := (ha.rep.defined x).1 ⟨l', e⟩
            rcases (ha.mem x).1 this with h2 | h2 | h2
            · exact absurd h2 hxn
            · exact absurd h2 hx
            · exact absurd h2 hxp

theorem lastDef_append (ds : List (Loci N V C O)) (l : Loci N V C O) (x : N) :
    lastDef (ds ++ [l]) x = if l.name = x then some l else lastDef ds x := by
  unfold lastDef
  rw [List.reverse_append]
  simp only [List.reverse_cons, List.reverse_nil, List.nil_append, List.singleton_append,
    List.find?_cons]
  by_cases h : l.name = x <;> simp [h]

theorem built_inv {ds : List (Loci N V C O)} {bn : BN N V C O} (hb : Built ds bn) :
    bn.Well ∧ bn.frozen = false ∧
    (∀ x, x ∈ bn.dag.nodes ↔ ∃ l ∈ ds, x = l.name ∨ x ∈ l.parents) ∧
    (∀ x, bn.loci.get? x = match lastDef ds x with
      | some l => some l
      | none => if x ∈ bn.dag.nodes then some (.exo x) else none) := by
  induction hb with
  | empty n =>
    refine ⟨well_empty n, rfl, ?_, ?_⟩
    · intro x; simp [BN.empty, Digraph.empty]
    · intro x; simp [BN.empty, Digraph.empty, lastDef]
  | @define ds bn b' l des _ e ih =>
    obtain ⟨hw, hf, hm, hl⟩ := ih
    obtain ⟨ha, hno, -⟩ := accepted_of_ok hw.toRep hf hw.acyclic e
    refine ⟨well_of_accepted hw ha hno, by rw [frozen_of_other ha.other_eq]; exact hf, ?_, ?_⟩
    · intro x
      rw [ha.mem, hm]
      constructor
      · rintro (⟨l', h1, h2⟩ | h)
        · exact ⟨l', by simp [h1], h2⟩
        · exact ⟨l, by simp, h⟩
      · rintro ⟨l', h1, h2⟩
        rcases List.mem_append.1 h1 with h1 | h1
        · exact Or.inl ⟨l', h1, h2⟩
        · simp at h1; subst h1; exact Or.inr h2
    · intro x
      rw [lastDef_append]
      by_cases hx : l.name = x
      · subst hx; simp [ha.self]
      · rw [if_neg hx]
        by_cases hxn : x ∈ bn.dag.nodes
        · rw [ha.old x hxn (Ne.symm hx), hl x, if_pos hxn, if_pos ((ha.mem x).2 (Or.inl hxn))]
        · have h0 := hl x
          rw [hw.get?_none hxn, if_neg hxn] at h0
          cases hld : lastDef ds x with
          | some l' => rw [hld] at h0; cases h0
          | none =>
            simp only
            by_cases hxp : x ∈ l.parents
            · rw [ha.fresh x hxp (Ne.symm hx) hxn, if_pos ((ha.mem x).2 (Or.inr (Or.inr hxp)))]
            · have : x ∉ b'.dag.nodes := by
                rw [ha.mem]
                rintro (h | h | h)
                · exact hxn h
                · exact hx h.symm
                · exact hxp h
              rw [ha.rep.get?_none this, if_neg this]

/-- **C12**.  After accepted definitions `ds` (any number, any order, redefinitions included): the graph is
acyclic; the nodes are the defined and the referenced names; every name has its last definition, and the names
that were only referenced are exogenous; the edges are exactly the parents of the definitions. -/
theorem C12_well_formed {ds : List (Loci N V C O)} {bn : BN N V C O} (hb : Built ds bn) :
    Acyclic bn.dag.E ∧
    (∀ x, x ∈ bn.dag.nodes ↔ ∃ l ∈ ds, x = l.name ∨ x ∈ l.parents) ∧
    (∀ x l, lastDef ds x = some l → bn.loci.get? x = some l) ∧
    (∀ x ∈ bn.dag.nodes, lastDef ds x = none → bn.loci.get? x = some (.exo x)) ∧
    (∀ p x, bn.dag.E p x ↔ ∃ l, lastDef ds x = some l ∧ p ∈ l.parents) := by
  obtain ⟨hw, -, hm, hl⟩ := built_inv hb
  refine ⟨hw.acyclic, hm, ?_, ?_, ?_⟩
  · intro x l h; rw [hl, h]
  · intro x hx h; rw [hl, h]; simp [hx]
  · intro p x
    rw [hw.edges, hl]
    cases h : lastDef ds x with
    | some l => simp
    | none =>
      simp only
      by_cases hx : x ∈ bn.dag.nodes
      · simp [hx, Loci.parents]
      · simp [hx]

/-- **C12**, which definitions are accepted: exactly those for a node that has no incoming edge yet and whose
parents do not close a cycle. -/
theorem C12_accepted_iff {ds : List (Loci N V C O)} {bn : BN N V C O} (hb : Built ds bn)
    (l : Loci N V C O) (des : Option N) :
    (bn.appendLoci l des).2 = .ok () ↔
      (∀ p, ¬ bn.dag.E p l.name) ∧
      Acyclic (fun a b => bn.dag.E a b ∨ (b = l.name ∧ a ∈ l.parents)) := by
  obtain ⟨hw, hf, -, -⟩ := built_inv hb
  constructor
  · intro h
    have e : bn.appendLoci l des = ((bn.appendLoci l des).1, .ok ()) := Prod.ext rfl h
    exact (accepted_of_ok hw.toRep hf hw.acyclic e).2
  · rintro ⟨h1, h2⟩
    obtain ⟨b', e, -⟩ := appendLoci_accept hw.toRep hf des h1 h2
    rw [e]

/-- A new sink never closes a cycle. -/
theorem acyclic_plus_of_fresh {g : Digraph N} (hg : g.WF) (ha : Acyclic g.E) {x : N} (hx : x ∉ g.nodes)
    {ps : List N} (hs : x ∉ ps) : Acyclic (PlusE g.E x ps) := by
  have hout : ∀ b, ¬ PlusE g.E x ps x b := by
    rintro b (h | ⟨-, h⟩)
    · exact hx (hg.left_mem h)
    · exact hs h
  have key : ∀ a b, TransGen (PlusE g.E x ps) a b → b ≠ x → TransGen g.E a b := by
    intro a b h
    induction h with
    | single h =>
      intro hb
      rcases h with h | ⟨h, -⟩
      · exact .single h
      · exact absurd h hb
    | @tail c d hab hbc ih =>
      intro hb
      have hc : c ≠ x := by rintro rfl; exact hout _ hbc
      rcases hbc with h | ⟨h, -⟩
      · exact (ih hc).tail h
      · exact absurd h hb
  intro y hy
  by_cases hyx : y = x
  · subst hyx
    obtain ⟨b, h, -⟩ := TransGen.head'_iff.1 hy
    exact hout b h
  · exact ha y (key y y hy hyx)

/-- **C12**, no spurious rejection: a definition for a name not yet in the network that does not refer to itself
is always accepted. -/
theorem C12_fresh_accepted {ds : List (Loci N V C O)} {bn : BN N V C O} (hb : Built ds bn)
    (l : Loci N V C O) (des : Option N) (hx : l.name ∉ bn.dag.nodes) (hs : l.name ∉ l.parents) :
    (bn.appendLoci l des).2 = .ok () := by
  obtain ⟨hw, -, -, -⟩ := built_inv hb
  rw [C12_accepted_iff hb]
  exact ⟨no_in_edges_of_not_mem hw.wf hx, acyclic_plus_of_fresh hw.wf hw.acyclic hx hs⟩

/-- `y = x + z`, then `x = w`, then `w = 3`: all accepted although declared children first. -/
def exDefs : List XLoci := [.func "y" xe ["x", "z"], .func "x" xe ["w"], .value "w" 3]

example : ∃ bn : XBN, Built exDefs bn ∧ bn.dag.nodes = ["y", "x", "z", "w"] :=
  ⟨defineAll (.empty "m") exDefs,
    (((Built.empty "m").step _ (by decide)).step _ (by decide)).step _ (by decide), by decide⟩

/-! ## C13 -/

/-- Two networks with the same nodes, definitions and edges. -/
def Same (a b : BN N V C O) : Prop :=
  (∀ x, x ∈ a.dag.nodes ↔ x ∈ b.dag.nodes) ∧ (∀ x, a.loci.get? x = b.loci.get? x) ∧
  (∀ u v, a.dag.E u v ↔ b.dag.E u v)

/-- **C13 is false**, first way: every redefinition of a node that has parents raises (NetworkXError), with the
new definition already in place while the old edges remain. -/
theorem C13_refuted_redefinition {ds : List (Loci N V C O)} {bn : BN N V C O} (hb : Built ds bn)
    {l : Loci N V C O} (des : Option N) {p : N} (hp : bn.dag.E p l.name) :
    (bn.appendLoci l des).2 = .error .NetworkXError ∧
    (bn.appendLoci l des).1.loci.get? l.name = some l ∧
    (∀ u v, (bn.appendLoci l des).1.dag.E u v ↔ bn.dag.E u v) ∧
    (lastDef ds l.name ≠ some l → ¬ Same (bn.appendLoci l des).1 bn) := by
  obtain ⟨hw, hf, -, hl⟩ := built_inv hb
  have e := appendLoci_has_parents hf hw.acyclic des hp
  have hget : (bn.appendLoci l des).1.loci.get? l.name = some l := by
    rw [e]; simp [started_get?]
  refine ⟨by rw [e], hget, ?_, ?_⟩
  · intro u v; rw [e]; exact started_E _ _ _ _ _
  · rintro hne ⟨-, h2, -⟩
    rw [h2, hl] at hget
    cases hld : lastDef ds l.name with
    | some l' => rw [hld] at hget hne; simp at hget; exact hne (by rw [hget])
    | none =>
      rw [hld] at hget
      have hmem := hw.wf.right_mem hp
      simp only at hget
      rw [if_pos hmem] at hget
      obtain ⟨l', hl', hpp⟩ := (hw.edges p l.name).1 hp
      rw [hl, hld] at hl'
      simp only at hl'
      rw [if_pos hmem] at hl'
      cases hl'
      simp [Loci.parents] at hpp

/-- **C13 is false**, second way: a rejected definition of a node that is already in the network (as a constant or
exogenous node) removes the node. -/
theorem C13_refuted_cycle {ds : List (Loci N V C O)} {bn : BN N V C O} (hb : Built ds bn)
    {l : Loci N V C O} (des : Option N) (hx : l.name ∈ bn.dag.nodes) (hno : ∀ p, ¬ bn.dag.E p l.name)
    (hps : ∀ p ∈ l.parents, p ∈ bn.dag.nodes)
    (hc : ¬ Acyclic (fun a b => bn.dag.E a b ∨ (b = l.name ∧ a ∈ l.parents))) :
    (bn.appendLoci l des).2 = .error .AttributeError ∧
    l.name ∉ (bn.appendLoci l des).1.dag.nodes ∧ ¬ Same (bn.appendLoci l des).1 bn := by
  obtain ⟨hw, hf, -, hl⟩ := built_inv hb
  rcases appendLoci_cases hw.toRep hf hw.acyclic l des with ⟨-, -, h⟩ | ⟨⟨p, h⟩, -⟩ |
    ⟨-, -, b', e, -, -, -, hm, -⟩ | ⟨-, -, ⟨p, h1, h2, -⟩, -⟩
  · exact absurd h hc
  · exact absurd h (hno p)
  · have : l.name ∉ (bn.appendLoci l des).1.dag.nodes := by
      rw [e, hm]; simp
    exact ⟨by rw [e], this, fun hs => this ((hs.1 _).2 hx)⟩
  · exact absurd (hps p h1) h2

/-- `b = a`; then the definition `a = b` is rejected - and `a` is gone. -/
example : ∃ bn : XBN, Built [.func "b" xe ["a"]] bn ∧ "a" ∈ bn.dag.nodes ∧
    (bn.appendLoci (.func "a" xe ["b"])).1.dag.nodes = ["b"] :=
  ⟨defineAll (.empty "m") [.func "b" xe ["a"]],
    (Built.empty "m").step _ (by decide), by decide, by decide⟩

/-- **C13**, the part that holds.  A rejected definition changes nothing when the network is frozen, or when the
name is new and every parent is known (the rejection is then due to a self-reference).
Missing: names already present (`C13_refuted_redefinition`, `C13_refuted_cycle`) and self-references with unknown
parents (`C14_refuted`). -/
theorem C13_rejection_partial {bn : BN N V C O} (hw : bn.Well) (l : Loci N V C O) (des : Option N)
    (h : bn.frozen = true ∨
      (l.name ∉ bn.dag.nodes ∧ ∀ p ∈ l.parents, p = l.name ∨ p ∈ bn.dag.nodes))
    {e : Err} (he : (bn.appendLoci l des).2 = .error e) :
    e = .AttributeError ∧ Same (bn.appendLoci l des).1 bn := by
  by_cases hf : bn.frozen = true
  · rw [appendLoci_frozen hf] at he ⊢
    cases he
    exact ⟨rfl, fun _ => Iff.rfl, fun _ => rfl, fun _ _ => Iff.rfl⟩
  · have hf' : bn.frozen = false := by simpa using hf
    obtain ⟨hx, hps⟩ := h.resolve_left hf
    rcases appendLoci_cases hw.toRep hf' hw.acyclic l des with ⟨⟨b', e', -⟩, -⟩ | ⟨⟨p, h1⟩, -⟩ |
      ⟨-, -, b', e', hr, -, -, hm, hE, hg⟩ | ⟨-, -, ⟨p, h1, h2, h3⟩, -⟩
    · rw [e'] at he; cases he
    · exact absurd (hw.wf.right_mem h1) hx
    · rw [e'] at he ⊢
      cases he
      refine ⟨rfl, ?_, ?_, ?_⟩
      · intro y
        show y ∈ b'.dag.nodes ↔ _
        rw [hm]
        exact ⟨fun h => h.1, fun h => ⟨h, fun e => hx (e ▸ h)⟩⟩
      · intro y
        show b'.loci.get? y = _
        by_cases hy : y = l.name
        · subst hy
          rw [hw.get?_none hx]
          exact hr.get?_none (by rw [hm]; simp)
        · exact hg y hy
      · intro u v
        show b'.dag.E u v ↔ _
        rw [hE]
        refine ⟨fun h => h.1, fun h => ⟨h, ?_, ?_⟩⟩
        · rintro rfl; exact hx (hw.wf.left_mem h)
        · rintro rfl; exact hx (hw.wf.right_mem h)
    · rcases hps p h1 with h | h
      · exact absurd h h3
      · exact absurd h h2

example : ((defineAll (.empty "m") [.func "b" xe ["a"]] : XBN).appendLoci (.func "c" xe ["a", "c"])).2 =
    .error .AttributeError := by decide

/-! ## C14 -/

/-- **C14 is false**: the single definition `a = a + c` (parents met in this order) leaves a self-loop, after
which `Order` raises. -/
theorem C14_refuted : ∃ (bn : XBN) (l : XLoci), Built [] bn ∧
    (bn.appendLoci l).2 = .error .AttributeError ∧ ¬ Acyclic (bn.appendLoci l).1.dag.E ∧
    (bn.appendLoci l).1.order = .error .NetworkXUnfeasible := by
  refine ⟨.empty "m", .func "a" xe ["a", "c"], Built.empty _, by decide, ?_, by decide⟩
  intro h
  refine h "a" (.single ?_)
  show ("a", "a") ∈ _
  decide

/-- Histories of definitions, accepted or not, in which a definition that would close a cycle refers to known
names only. -/
inductive CarefulHistory : BN N V C O → Prop
  | empty (n : N) : CarefulHistory (BN.empty n)
  | define {bn : BN N V C O} {l : Loci N V C O} {des : Option N} : CarefulHistory bn →
      (Acyclic (fun a b => bn.dag.E a b ∨ (b = l.name ∧ a ∈ l.parents)) ∨
        ∀ p ∈ l.parents, p = l.name ∨ p ∈ bn.dag.nodes) →
      CarefulHistory (bn.appendLoci l des).1

/-- **C14**, the part that holds: along careful histories the graph stays acyclic and `Order` is available, also
after rejected definitions.  Missing: definitions that close a cycle and mention an unknown name
(`C14_refuted`). -/
theorem C14_acyclic_partial {bn : BN N V C O} (h : CarefulHistory bn) :
    Acyclic bn.dag.E ∧ ∃ od, bn.order = .ok od ∧ TopologicalOrder (· ∈ bn.dag.nodes) bn.dag.E od := by
  have key : bn.Rep ∧ Acyclic bn.dag.E ∧ bn.frozen = false := by
    induction h with
    | empty n => exact ⟨(well_empty n).toRep, (well_empty n).acyclic, rfl⟩
    | @define bn l des _ hc ih =>
      obtain ⟨hr, ha, hf⟩ := ih
      rcases appendLoci_cases hr hf ha l des with ⟨⟨b', e', hacc⟩, -⟩ | ⟨-, e'⟩ |
        ⟨-, -, b', e', hr', ho, ha', -⟩ | ⟨-, hnc, ⟨p, h1, h2, h3⟩, -⟩
      · rw [e']; exact ⟨hacc.rep, hacc.acyclic, by rw [frozen_of_other hacc.other_eq]; exact hf⟩
      · rw [e']
        exact ⟨started_rep hr l des, acyclic_mono (fun a b h => (started_E bn l des a b).1 h) ha, hf⟩
      · rw [e']; exact ⟨hr', ha', by rw [frozen_of_other ho]; exact hf⟩
      · rcases hc with hc | hc
        · exact absurd hc hnc
        · rcases hc p h1 with h | h
          · exact absurd h h3
          · exact absurd h h2
  obtain ⟨hr, ha, hf⟩ := key
  obtain ⟨od, h1, h2⟩ := order_ok_of_acyclic hr.wf ha
  exact ⟨ha, od, by unfold BN.order; rw [hf]; exact h1, h2⟩

/-- A careful history with a rejected definition (`a = b` after `b = a`). -/
example : CarefulHistory (defineAll (.empty "m") [.func "b" xe ["a"], .func "a" xe ["b"]] : XBN) :=
  .define (des := none) (.define (des := none) (.empty "m") (Or.inl (by
    have h := (C12_accepted_iff (bn := (BN.empty "m" : XBN)) (Built.empty "m")
      (.func "b" xe ["a"]) none).1 (by decide)
    exact h.2))) (Or.inr (by decide))

end Props.BN
