import Verif.Lemmas.Dag

/-!
# Properties C01 - C11: graph utilities (`DAG`, dag.py)

`g.WF` says that node and edge lists have no duplicates and that edges join nodes; `history_wf` shows that
every graph a user can build satisfies it, so it is not a restriction.  `g.E u v` = "u → v is an edge".
-/

namespace Props.Dag

open Py Spec Relation Model Model.Digraph

set_option linter.unusedSectionVars false

variable {α : Type _} [DecidableEq α]

/-- One public graph edit. -/
inductive GraphOp (α : Type _)
  | addNode (x : α)
  | addEdge (u v : α)
  | removeNode (x : α)
  | removeEdge (u v : α)
  | removeOutEdges (x : α)
  | removeInEdges (x : α)
  | removeUpstream (xs : List α)
  | removeDownstream (xs : List α)
  | mergeWith (h : List α × List (α × α))

/-- The graph built by adding nodes then edges. -/
def build (h : List α × List (α × α)) : Digraph α :=
  h.2.foldl (fun g e => g.addEdge e.1 e.2) (h.1.foldl (fun g x => g.addNode x) Digraph.empty)

/-- The graph after an edit; an edit that raises leaves whatever the code leaves. -/
def applyOp (g : Digraph α) : GraphOp α → Digraph α
  | .addNode x => g.addNode x
  | .addEdge u v => g.addEdge u v
  | .removeNode x => (g.removeNode x).toOption.getD g
  | .removeEdge u v => (g.removeEdge u v).toOption.getD g
  | .removeOutEdges x => (g.removeOutEdges x).1
  | .removeInEdges x => (g.removeInEdges x).1
  | .removeUpstream xs => (g.removeUpstream xs).toOption.getD g
  | .removeDownstream xs => (g.removeDownstream xs).toOption.getD g
  | .mergeWith h => g.mergeDag (build h)

theorem wf_empty : (Digraph.empty : Digraph α).WF :=
  ⟨List.nodup_nil, List.nodup_nil, by simp [Digraph.empty], by simp [Digraph.empty]⟩

theorem wf_build (h : List α × List (α × α)) : (build h).WF := by
  unfold build
  have h1 : ∀ (l : List α) (g : Digraph α), g.WF → (l.foldl (fun g x => g.addNode x) g).WF := by
    intro l
    induction l with
    | nil => intro g hg; exact hg
    | cons x l ih => intro g hg; exact ih _ (hg.addNode x)
  have h2 : ∀ (l : List (α × α)) (g : Digraph α), g.WF →
      (l.foldl (fun g e => g.addEdge e.1 e.2) g).WF := by
    intro l
    induction l with
    | nil => intro g hg; exact hg
    | cons x l ih => intro g hg; exact ih _ (hg.addEdge x.1 x.2)
  exact h2 _ _ (h1 _ _ wf_empty)

theorem wf_removeEdges : ∀ (es : List (α × α)) (g : Digraph α), g.WF → (g.removeEdges es).1.WF
  | [], g, hg => hg
  | e :: es, g, hg => by
    unfold removeEdges
    cases h : g.removeEdge e.1 e.2 with
    | ok g' => exact wf_removeEdges es g' (hg.removeEdge h)
    | error err => exact hg

theorem wf_removeUpstreamLoop (xs : List α) : ∀ (od : List α) (g g' : Digraph α), g.WF →
    removeUpstreamLoop xs od g = .ok g' → g'.WF := by
  intro od
  induction od with
  | nil => intro g g' hg h; cases h; exact hg
  | cons s od ih =>
    intro g g' hg h
    unfold removeUpstreamLoop at h
    split at h
    · exact ih g g' hg h
    · cases ha : g.ancestors s with
      | error e => rw [ha] at h; cases h
      | ok a =>
        rw [ha] at h
        simp only [bind, Except.bind] at h
        split at h
        · cases hr : g.removeNode s with
          | error e => rw [hr] at h; cases h
          | ok g1 => rw [hr] at h; exact ih g1 g' (hg.removeNode hr) h
        · exact ih g g' hg h

theorem wf_removeDownstreamLoop (xs : List α) : ∀ (od : List α) (g g' : Digraph α), g.WF →
    removeDownstreamLoop xs od g = .ok g' → g'.WF := by
  intro od
  induction od with
  | nil => intro g g' hg h; cases h; exact hg
  | cons s od ih =>
    intro g g' hg h
    unfold removeDownstreamLoop at h
    split at h
    · exact ih g g' hg h
    · cases ha : g.descendants s with
      | error e => rw [ha] at h; cases h
      | ok a =>
        rw [ha] at h
        simp only [bind, Except.bind] at h
        split at h
        · cases hr : g.removeNode s with
          | error e => rw [hr] at h; cases h
          | ok g1 => rw [hr] at h; exact ih g1 g' (hg.removeNode hr) h
        · exact ih g g' hg h

theorem wf_mergeDag {g h : Digraph α} (hg : g.WF) (hh : h.WF) : (g.mergeDag h).WF := by
  refine ⟨?_, ?_, ?_, ?_⟩
  · unfold mergeDag
    rw [List.nodup_append]
    refine ⟨hg.nodup_nodes, hh.nodup_nodes.filter _, ?_⟩
    intro a ha b hb e
    subst e
    simp at hb
    exact hb.2 ha
  · unfold mergeDag
    rw [List.nodup_append]
    refine ⟨hg.nodup_edges, hh.nodup_edges.filter _, ?_⟩
    intro a ha b hb e
    subst e
    simp at hb
    exact hb.2 ha
  · intro u v huv
    simp only [mergeDag, List.mem_append, List.mem_filter, decide_eq_true_eq] at huv ⊢
    by_cases hu : u ∈ g.nodes
    · exact Or.inl hu
    · rcases huv with h1 | h1
      · exact absurd (hg.left_mem h1) hu
      · exact Or.inr ⟨hh.left_mem h1.1, hu⟩
  · intro u v huv
    simp only [mergeDag, List.mem_append, List.mem_filter, decide_eq_true_eq] at huv ⊢
    by_cases hu : v ∈ g.nodes
    · exact Or.inl hu
    · rcases huv with h1 | h1
      · exact absurd (hg.right_mem h1) hu
      · exact Or.inr ⟨hh.right_mem h1.1, hu⟩

theorem wf_applyOp {g : Digraph α} (hg : g.WF) (op : GraphOp α) : (applyOp g op).WF := by
  cases op with
  | addNode x => exact hg.addNode x
  | addEdge u v => exact hg.addEdge u v
  | removeNode x =>
    simp only [applyOp]
    cases h : g.removeNode x with
    | ok g' => exact hg.removeNode h
    | error e => exact hg
  | removeEdge u v =>
    simp only [applyOp]
    cases h : g.removeEdge u v with
    | ok g' => exact hg.removeEdge h
    | error e => exact hg
  | removeOutEdges x =>
    simp only [applyOp, removeOutEdges]
    cases g.children x with
    | ok cs => exact wf_removeEdges _ _ hg
    | error e => exact hg
  | removeInEdges x =>
    simp only [applyOp, removeInEdges]
    cases g.parents x with
    | ok cs => exact wf_removeEdges _ _ hg
    | error e => exact hg
  | removeUpstream xs =>
    simp only [applyOp]
    cases h : g.removeUpstream xs with
    | error e => exact hg
    | ok g' =>
      unfold removeUpstream at h
      cases ho : g.order with
      | error e => rw [ho] at h; cases h
      | ok l => rw [ho] at h; exact wf_removeUpstreamLoop xs l g g' hg h
  | removeDownstream xs =>
    simp only [applyOp]
    cases h : g.removeDownstream xs with
    | error e => exact hg
    | ok g' =>
      unfold removeDownstream at h
      cases ho : g.order with
      | error e => rw [ho] at h; cases h
      | ok l => rw [ho] at h; exact wf_removeDownstreamLoop xs l.reverse g g' hg h
  | mergeWith h => exact wf_mergeDag hg (wf_build h)

/-- Every graph built from the empty one by any sequence of edits is well formed, so the hypothesis
`g.WF` of the theorems below is met by every graph a user can hold. -/
theorem history_wf (ops : List (GraphOp α)) : (ops.foldl applyOp (Digraph.empty : Digraph α)).WF := by
  have : ∀ (ops : List (GraphOp α)) (g : Digraph α), g.WF → (ops.foldl applyOp g).WF := by
    intro ops
    induction ops with
    | nil => intro g hg; exact hg
    | cons op ops ih => intro g hg; exact ih _ (wf_applyOp hg op)
  exact this ops _ wf_empty

/-- A graph used in the examples: A→B, B→D, A→D, C isolated. -/
def g0 : Digraph String := build (["A", "B", "C", "D"], [("A", "B"), ("B", "D"), ("A", "D")])

theorem g0_wf : g0.WF := wf_build _

theorem g0_acyclic : Acyclic g0.E := (checkAcyclic_iff g0_wf).1 (by decide)

/-! ## C01 -/

/-- C01: `order()` returns a topological order of all nodes when there is no directed cycle. -/
theorem C01_order_acyclic {g : Digraph α} (hg : g.WF) (h : Acyclic g.E) :
    ∃ l, g.order = .ok l ∧ TopologicalOrder (· ∈ g.nodes) g.E l := order_ok_of_acyclic hg h

/-- C01: and raises NetworkXUnfeasible when there is one. -/
theorem C01_order_cyclic {g : Digraph α} (hg : g.WF) (h : ∃ x, TransGen g.E x x) :
    g.order = .error .NetworkXUnfeasible :=
  order_error_of_cyclic hg (fun ha => h.elim fun x hx => ha x hx)

/-- C01: `check_acyclic()` is exact. -/
theorem C01_check_acyclic {g : Digraph α} (hg : g.WF) : g.checkAcyclic = true ↔ Acyclic g.E :=
  checkAcyclic_iff hg

example : g0.WF ∧ Acyclic g0.E ∧ g0.order = .ok ["A", "C", "B", "D"] :=
  ⟨g0_wf, g0_acyclic, by decide⟩

example : (build (([] : List Nat), [(1, 2), (2, 1)])).order = .error .NetworkXUnfeasible :=
  C01_order_cyclic (wf_build _) ⟨1, .tail (.single (b := 2) (by simp [E, build, addEdge, addNode, Digraph.empty]))
    (by simp [E, build, addEdge, addNode, Digraph.empty])⟩

/-! ## C02 -/

/-- C02: `ancestors(x)` = nodes other than x with a non-empty path to x. -/
theorem C02_ancestors {g : Digraph α} (hg : g.WF) {x : α} (hx : x ∈ g.nodes) :
    ∃ l, g.ancestors x = .ok l ∧ ∀ y, y ∈ l ↔ y ≠ x ∧ TransGen g.E y x := exists_ancestors hg hx

/-- C02: `descendants(x)` = nodes other than x with a non-empty path from x. -/
theorem C02_descendants {g : Digraph α} (hg : g.WF) {x : α} (hx : x ∈ g.nodes) :
    ∃ l, g.descendants x = .ok l ∧ ∀ y, y ∈ l ↔ y ≠ x ∧ TransGen g.E x y := exists_descendants hg hx

/-- C02: unknown nodes are refused by both. -/
theorem C02_unknown {g : Digraph α} {x : α} (hx : x ∉ g.nodes) :
    g.ancestors x = .error .NetworkXError ∧ g.descendants x = .error .NetworkXError :=
  ⟨ancestors_eq_error g hx, descendants_eq_error g hx⟩

/-- C02: the two views are mirror images. -/
theorem C02_dual {g : Digraph α} (hg : g.WF) {x y : α} {lx ly : List α}
    (h1 : g.ancestors x = .ok lx) (h2 : g.descendants y = .ok ly) : y ∈ lx ↔ x ∈ ly := by
  have hx : x ∈ g.nodes := by
    by_contra hn; rw [(C02_unknown hn).1] at h1; cases h1
  have hy : y ∈ g.nodes := by
    by_contra hn; rw [(C02_unknown hn).2] at h2; cases h2
  rw [ancestors_ok hx] at h1
  rw [descendants_ok hy] at h2
  cases h1; cases h2
  rw [mem_ancL hg hx, mem_desL hg hy]
  constructor
  · rintro ⟨h1, h2⟩; exact ⟨fun e => h1 e.symm, h2⟩
  · rintro ⟨h1, h2⟩; exact ⟨fun e => h1 e.symm, h2⟩

/-- C02: `upstream` of a non-empty collection of nodes is the union of the ancestors. -/
theorem C02_upstream {g : Digraph α} (hg : g.WF) {xs : List α} (hne : xs ≠ [])
    (h : ∀ x ∈ xs, x ∈ g.nodes) :
    ∃ l, g.upstream xs = .ok l ∧ ∀ y, y ∈ l ↔ ∃ x ∈ xs, y ≠ x ∧ TransGen g.E y x := by
  refine ⟨_, upstream_ok hne h, ?_⟩
  intro y
  rw [List.mem_flatMap]
  constructor
  · rintro ⟨x, hx, hy⟩; exact ⟨x, hx, (mem_ancL hg (h x hx) y).1 hy⟩
  · rintro ⟨x, hx, hy⟩; exact ⟨x, hx, (mem_ancL hg (h x hx) y).2 hy⟩

/-- C02: `downstream` (and `get_offsprings`) of a non-empty collection of nodes. -/
theorem C02_downstream {g : Digraph α} (hg : g.WF) {xs : List α} (hne : xs ≠ [])
    (h : ∀ x ∈ xs, x ∈ g.nodes) :
    ∃ l, g.downstream xs = .ok l ∧ ∀ y, y ∈ l ↔ ∃ x ∈ xs, y ≠ x ∧ TransGen g.E x y := by
  refine ⟨_, downstream_ok hne h, ?_⟩
  intro y
  rw [List.mem_flatMap]
  constructor
  · rintro ⟨x, hx, hy⟩; exact ⟨x, hx, (mem_desL hg (h x hx) y).1 hy⟩
  · rintro ⟨x, hx, hy⟩; exact ⟨x, hx, (mem_desL hg (h x hx) y).2 hy⟩

/-- C02: the refusals of `upstream` / `downstream`. -/
theorem C02_stream_errors (g : Digraph α) :
    g.upstream [] = .error .TypeError ∧ g.downstream [] = .error .TypeError ∧
    (∀ xs, (∃ x ∈ xs, x ∉ g.nodes) → g.upstream xs = .error .NetworkXError ∧
      g.downstream xs = .error .NetworkXError) :=
  ⟨rfl, rfl, fun _ h => ⟨upstream_error h, downstream_error h⟩⟩

example : g0.ancestors "D" = .ok ["B", "A"] ∧ g0.descendants "A" = .ok ["B", "D"] ∧
    g0.upstream ["D", "C"] = .ok ["B", "A"] ∧ g0.downstream ["B", "Z"] = .error .NetworkXError := by
  decide

/-! ## C03 -/

/-- C03: `roots()` are exactly the nodes without incoming edge, in insertion order. -/
theorem C03_roots (g : Digraph α) :
    g.roots.Sublist g.nodes ∧ ∀ x, x ∈ g.roots ↔ x ∈ g.nodes ∧ ∀ u, ¬ g.E u x := by
  refine ⟨List.filter_sublist, ?_⟩
  intro x
  simp only [roots, List.mem_filter, List.isEmpty_iff]
  refine and_congr_right (fun _ => ?_)
  rw [List.eq_nil_iff_forall_not_mem]
  exact forall_congr' fun u => not_congr (mem_preds g u x)

/-- C03: `leaves()` are exactly the nodes without outgoing edge, in insertion order. -/
theorem C03_leaves (g : Digraph α) :
    g.leaves.Sublist g.nodes ∧ ∀ x, x ∈ g.leaves ↔ x ∈ g.nodes ∧ ∀ u, ¬ g.E x u := by
  refine ⟨List.filter_sublist, ?_⟩
  intro x
  simp only [leaves, List.mem_filter, List.isEmpty_iff]
  refine and_congr_right (fun _ => ?_)
  rw [List.eq_nil_iff_forall_not_mem]
  exact forall_congr' fun u => not_congr (mem_succs g x u)

/-- C03: in an acyclic graph every node is a root or has a root among its ancestors. -/
theorem C03_root_above {g : Digraph α} (hg : g.WF) (ha : Acyclic g.E) {x : α} (hx : x ∈ g.nodes) :
    ∃ r ∈ g.roots, ReflTransGen g.E r x := by
  obtain ⟨l, -, ht⟩ := order_ok_of_acyclic hg ha
  have key : ∀ n, ∀ pre v suf, pre.length = n → l = pre ++ v :: suf →
      ∃ r ∈ g.roots, ReflTransGen g.E r v := by
    intro n
    induction n using Nat.strongRecOn with
    | _ n ih =>
      intro pre v suf hn e
      have hv : v ∈ g.nodes := (ht.complete v).1 (by rw [e]; simp)
      by_cases hr : v ∈ g.roots
      · exact ⟨v, hr, .refl⟩
      · have : ∃ u, g.E u v := by
          by_contra hno
          exact hr (((C03_roots g).2 v).2 ⟨hv, fun u hu => hno ⟨u, hu⟩⟩)
        obtain ⟨u, hu⟩ := this
        have hup := ht.parentsFirst pre v suf e u hu
        obtain ⟨p1, p2, rfl⟩ := List.append_of_mem hup
        obtain ⟨r, hr1, hr2⟩ := ih p1.length (by rw [← hn]; simp) p1 u (p2 ++ v :: suf) rfl
          (by rw [e]; simp)
        exact ⟨r, hr1, hr2.tail hu⟩
  obtain ⟨pre, suf, e⟩ := List.append_of_mem ((ht.complete x).2 hx)
  exact key _ pre x suf rfl e

/-- C03: in an acyclic graph every node is a leaf or has a leaf among its descendants. -/
theorem C03_leaf_below {g : Digraph α} (hg : g.WF) (ha : Acyclic g.E) {x : α} (hx : x ∈ g.nodes) :
    ∃ r ∈ g.leaves, ReflTransGen g.E x r := by
  obtain ⟨l, -, ht⟩ := order_ok_of_acyclic hg ha
  have hresp := respectsPaths_of_order ht
  have key : ∀ n, ∀ pre v suf, suf.length = n → l = pre ++ v :: suf →
      ∃ r ∈ g.leaves, ReflTransGen g.E v r := by
    intro n
    induction n using Nat.strongRecOn with
    | _ n ih =>
      intro pre v suf hn e
      have hv : v ∈ g.nodes := (ht.complete v).1 (by rw [e]; simp)
      by_cases hr : v ∈ g.leaves
      · exact ⟨v, hr, .refl⟩
      · have : ∃ u, g.E v u := by
          by_contra hno
          exact hr (((C03_leaves g).2 v).2 ⟨hv, fun u hu => hno ⟨u, hu⟩⟩)
        obtain ⟨u, hu⟩ := this
        have hul : u ∈ l := (ht.complete u).2 (hg.right_mem hu)
        have hus : u ∈ suf := by
          rw [e] at hul
          rcases List.mem_append.1 hul with h | h
          · obtain ⟨p1, p2, rfl⟩ := List.append_of_mem h
            exact absurd (TransGen.single hu)
              (hresp p1 u (p2 ++ v :: suf) (by rw [e]; simp) v (by simp))
          · rcases List.mem_cons.1 h with rfl | h
            · exact absurd (TransGen.single hu) (ha u)
            · exact h
        obtain ⟨p1, p2, rfl⟩ := List.append_of_mem hus
        obtain ⟨r, hr1, hr2⟩ := ih p2.length (by rw [← hn]; simp; omega) (pre ++ v :: p1) u p2 rfl
          (by rw [e]; simp)
        exact ⟨r, hr1, hr2.head hu⟩
  obtain ⟨pre, suf, e⟩ := List.append_of_mem ((ht.complete x).2 hx)
  exact key _ pre x suf rfl e

/-- C03: so a non-empty acyclic graph has roots and leaves. -/
theorem C03_nonempty {g : Digraph α} (hg : g.WF) (ha : Acyclic g.E) (hne : g.nodes ≠ []) :
    g.roots ≠ [] ∧ g.leaves ≠ [] := by
  obtain ⟨x, hx⟩ := List.exists_mem_of_ne_nil _ hne
  obtain ⟨r, hr, -⟩ := C03_root_above hg ha hx
  obtain ⟨s, hs, -⟩ := C03_leaf_below hg ha hx
  exact ⟨List.ne_nil_of_mem hr, List.ne_nil_of_mem hs⟩

example : g0.roots = ["A", "C"] ∧ g0.leaves = ["C", "D"] ∧ g0.nodes ≠ [] := by decide

/-! ## C04 -/

/-- C04: `sort(nodes)` has exactly the members of `nodes` that are in the graph, each once,
ancestors first. -/
theorem C04_sort {g : Digraph α} (hg : g.WF) (ha : Acyclic g.E) (xs : List α) :
    ∃ l, g.sort xs = .ok l ∧ l.Nodup ∧ (∀ x, x ∈ l ↔ x ∈ g.nodes ∧ x ∈ xs) ∧
      RespectsPaths g.E l := sort_ok hg ha xs

/-- C04: only membership in the argument matters. -/
theorem C04_sort_congr (g : Digraph α) {xs ys : List α} (h : ∀ x, x ∈ xs ↔ x ∈ ys) :
    g.sort xs = g.sort ys := by
  unfold sort
  have : (fun x => decide (x ∈ xs)) = (fun x => decide (x ∈ ys)) := by
    funext x; simp [h]
  rw [this]

example : g0.sort ["D", "Z", "A", "D"] = .ok ["A", "D"] := by decide

/-! ## C05 -/

/-- C05: nodes and edges of `minimal_dag(g, S)`. -/
theorem C05_minimal_dag {g : Digraph α} (hg : g.WF) (ha : Acyclic g.E) (xs : List α) :
    ∃ m, g.minimalDag xs = .ok m ∧
      (∀ x, x ∈ m.nodes ↔ ∃ s ∈ xs, ∃ t ∈ xs, s ∈ g.nodes ∧ t ∈ g.nodes ∧
        ReflTransGen g.E s x ∧ ReflTransGen g.E x t) ∧
      (∀ u v, m.E u v ↔ g.E u v ∧ u ∈ m.nodes ∧ v ∈ m.nodes) := by
  obtain ⟨m, h1, -, h2, h3, -⟩ := minimalDag_ok hg ha xs
  exact ⟨m, h1, h2, h3⟩

/-- C05: it is acyclic, contains S and is convex. -/
theorem C05_convex {g m : Digraph α} (hg : g.WF) (ha : Acyclic g.E) {xs : List α}
    (h : g.minimalDag xs = .ok m) :
    Acyclic m.E ∧ (∀ x ∈ xs, x ∈ g.nodes → x ∈ m.nodes) ∧
    (∀ a x b, a ∈ m.nodes → b ∈ m.nodes → ReflTransGen g.E a x → ReflTransGen g.E x b →
      x ∈ m.nodes) := by
  obtain ⟨m', h1, h2, h3⟩ := C05_minimal_dag hg ha xs
  rw [h] at h1; cases h1
  refine ⟨?_, ?_, ?_⟩
  · intro x hx
    exact ha x (TransGen.mono (fun a b hab => ((h3 a b).1 hab).1) _ _ hx)
  · intro x hx hxn
    exact (h2 x).2 ⟨x, hx, x, hx, hxn, hxn, .refl, .refl⟩
  · intro a x b ham hbm hax hxb
    obtain ⟨s, hs, -, -, hsn, -, hsa, -⟩ := (h2 a).1 ham
    obtain ⟨-, -, t, ht, -, htn, -, hbt⟩ := (h2 b).1 hbm
    exact (h2 x).2 ⟨s, hs, t, ht, hsn, htn, hsa.trans hax, hxb.trans hbt⟩

/-- C05: applying it again changes nothing. -/
theorem C05_idempotent {g m : Digraph α} (hg : g.WF) (ha : Acyclic g.E) {xs : List α}
    (h : g.minimalDag xs = .ok m) : m.minimalDag xs = .ok m := by
  obtain ⟨m', h1, hwf, h2, h3, -⟩ := minimalDag_ok hg ha xs
  rw [h] at h1; cases h1
  have hacy := (C05_convex hg ha h).1
  have hconv := (C05_convex hg ha h).2.2
  have hin := (C05_convex hg ha h).2.1
  obtain ⟨m2, k1, -, k2, k3, ⟨ks, rfl⟩⟩ := minimalDag_ok hwf hacy xs
  rw [k1]
  -- reachability between kept nodes stays inside
  have hlift : ∀ a b, a ∈ m.nodes → b ∈ m.nodes → ReflTransGen g.E a b → ReflTransGen m.E a b := by
    intro a b ham hbm hab
    induction hab using ReflTransGen.head_induction_on with
    | refl => exact .refl
    | @head a c hac hcb ih =>
      have hc := hconv a c b ham hbm (.single hac) hcb
      exact ReflTransGen.head ((h3 a c).2 ⟨hac, ham, hc⟩) (ih hc)
  have hall : ∀ x, x ∈ m.nodes → x ∈ (m.subgraph ks).nodes := by
    intro x hx
    obtain ⟨s, hs, t, ht, hsn, htn, hsx, hxt⟩ := (h2 x).1 hx
    have hsm := hin s hs hsn
    have htm := hin t ht htn
    exact (k2 x).2 ⟨s, hs, t, ht, hsm, htm, hlift s x hsm hx hsx, hlift x t hx htm hxt⟩
  have hks : ∀ x ∈ m.nodes, x ∈ ks := by
    intro x hx
    have := hall x hx
    simp only [subgraph, List.mem_filter, decide_eq_true_eq] at this
    exact this.2
  congr 1
  cases m with
  | mk ns es =>
    simp only [subgraph, Digraph.mk.injEq, List.filter_eq_self, decide_eq_true_eq]
    exact ⟨fun x hx => hks x hx, fun e he => ⟨hks _ (hwf.left_mem he), hks _ (hwf.right_mem he)⟩⟩

example : ∃ m, g0.minimalDag ["A", "D", "Z"] = .ok m ∧ m.nodes = ["A", "B", "D"] :=
  ⟨⟨["A", "B", "D"], [("A", "B"), ("B", "D"), ("A", "D")]⟩, by decide, rfl⟩

/-! ## C06 -/

/-- Once the values of `K` are known, `target` can be computed without any other node: each node that has
to be computed (the target, and the known-to-be-needed nodes `R` that are not conditioned on) has all its
parents in `K`. -/
def Suffices (E : α → α → Prop) (target : α) (R cond : List α) : Prop :=
  ∀ n, (n = target ∨ (n ∈ R ∧ n ∉ cond)) → ∀ p, E p n → p ∈ R ∨ p ∈ cond

/-- C06, what the code computes: the ancestors of the target that are not ancestors of a conditioned
ancestor of the target; sorted, without the target. -/
theorem C06_exact {g : Digraph α} (hg : g.WF) (ha : Acyclic g.E) {t : α} (ht : t ∈ g.nodes)
    (cond : List α) :
    ∃ l, g.minimalRequirements t cond = .ok l ∧ l.Nodup ∧ RespectsPaths g.E l ∧ t ∉ l ∧
      ∀ x, x ∈ l ↔ TransGen g.E x t ∧ ∀ s ∈ cond, TransGen g.E s t → ¬ TransGen g.E x s := by
  obtain ⟨l, h1, h2, h3, h4⟩ := minimalRequirements_ok hg ha ht cond
  exact ⟨l, h1, h2, h3, fun h => ha t ((h4 t).1 h).1, h4⟩

/-- C06: the result does not depend on the order (or repetition) in which `cond` is listed. -/
theorem C06_order_independent {g : Digraph α} (hg : g.WF) (ha : Acyclic g.E) {t : α}
    (ht : t ∈ g.nodes) {c1 c2 : List α} (h : ∀ x, x ∈ c1 ↔ x ∈ c2) :
    g.minimalRequirements t c1 = g.minimalRequirements t c2 := by
  have hsub : ∀ x ∈ g.ancL t, x ∈ g.nodes := fun x hx =>
    mem_nodes_of_trans_left hg ((mem_ancL_acyclic hg ha ht x).1 hx)
  obtain ⟨r1, e1, a1, b1, d1⟩ := requirementsLoop_ok hg ha c1 (g.ancL t) hsub
  obtain ⟨r2, e2, a2, b2, d2⟩ := requirementsLoop_ok hg ha c2 (g.ancL t) hsub
  unfold minimalRequirements
  rw [ancestors_ok ht]
  simp only [bind, Except.bind, e1, e2]
  apply C04_sort_congr
  intro x
  constructor
  · intro hx
    by_contra hn
    obtain ⟨s, hs, hsa, hp⟩ := b2 x (a1 x hx) hn
    exact d1 x s hx ((h s).2 hs) hsa hp
  · intro hx
    by_contra hn
    obtain ⟨s, hs, hsa, hp⟩ := b1 x (a2 x hx) hn
    exact d2 x s hx ((h s).1 hs) hsa hp

/-- C06 is false of the code: with A→B→D, A→D and cond = [B], the result is [B], but D also needs A. -/
theorem C06_refuted : ∃ (g : Digraph String) (t : String) (cond l : List String), g.WF ∧ Acyclic g.E ∧
    t ∈ g.nodes ∧ g.minimalRequirements t cond = .ok l ∧ ¬ Suffices g.E t l cond := by
  refine ⟨g0, "D", ["B"], ["B"], g0_wf, g0_acyclic, by decide, by decide, ?_⟩
  intro h
  have := h "D" (Or.inl rfl) "A" (by decide)
  revert this
  decide

/-- C06, the part that holds: if with every conditioned node all its ancestors are conditioned too, the
result together with `cond` suffices.  Missing: the general claim, which is false (`C06_refuted`). -/
theorem C06_sufficient_partial {g : Digraph α} (hg : g.WF) (ha : Acyclic g.E) {t : α}
    (ht : t ∈ g.nodes) {cond l : List α} (hcl : ∀ s ∈ cond, ∀ a, g.E a s → a ∈ cond)
    (h : g.minimalRequirements t cond = .ok l) : Suffices g.E t l cond := by
  obtain ⟨l', h1, -, -, -, h4⟩ := C06_exact hg ha ht cond
  rw [h] at h1; cases h1
  have hanc : ∀ s ∈ cond, ∀ a, TransGen g.E a s → a ∈ cond := by
    intro s hs a has
    induction has using TransGen.head_induction_on with
    | single hab => exact hcl _ hs _ hab
    | head hab _ ih => exact hcl _ ih _ hab
  intro n hn p hp
  have hpt : TransGen g.E p t := by
    rcases hn with rfl | ⟨hn, -⟩
    · exact .single hp
    · exact TransGen.head hp ((h4 n).1 hn).1
  by_cases hpl : p ∈ l
  · exact Or.inl hpl
  · right
    by_contra hpc
    apply hpl
    rw [h4]
    exact ⟨hpt, fun s hs _ hps => hpc (hanc s hs p hps)⟩

example : g0.minimalRequirements "D" ["A"] = .ok ["A", "B"] ∧
    (∀ s ∈ ["A"], ∀ a, g0.E a s → a ∈ ["A"]) := by
  refine ⟨by decide, ?_⟩
  intro s hs a h
  simp at hs; subst hs
  exact absurd h ((((C03_roots g0).2 "A").1 (by decide)).2 a)

/-! ## C07 -/

/-- C07: the exact content of `get_sufficient_nodes`. -/
theorem C07_sufficient {g : Digraph α} (hg : g.WF) {inc : List α} {given : Option (List α)}
    (hne : inc ≠ []) (hinc : ∀ x ∈ inc, x ∈ g.nodes) (hgiv : ∀ x ∈ given.getD [], x ∈ g.nodes) :
    ∃ l, g.sufficientNodes inc given = .ok l ∧
      ∀ x, x ∈ l ↔ x ∈ inc ∨ ∃ t ∈ inc, AvoidPath g.E (· ∈ given.getD []) x t := by
  obtain ⟨mi, h1, hwf, hn, hE⟩ := cutGiven_ok hg hgiv
  have hinc' : ∀ x ∈ inc, x ∈ mi.nodes := fun x hx => by rw [hn]; exact hinc x hx
  refine ⟨inc.flatMap mi.ancL ++ inc, ?_, ?_⟩
  · unfold sufficientNodes
    rw [h1]
    simp only [bind, Except.bind]
    rw [mapM_ok_of (F := mi.ancL) (fun x hx => ancestors_ok (hinc' x hx))]
    cases inc with
    | nil => exact absurd rfl hne
    | cons x xs => simp [setUnion, List.flatMap, pure, Except.pure]
  · intro x
    rw [List.mem_append, List.mem_flatMap]
    constructor
    · rintro (⟨t, ht, hx⟩ | hx)
      · exact Or.inr ⟨t, ht, (transGen_cut_iff hE).1 ((mem_ancL hwf (hinc' t ht) x).1 hx).2⟩
      · exact Or.inl hx
    · rintro (hx | ⟨t, ht, hp⟩)
      · exact Or.inr hx
      · by_cases hxt : x = t
        · exact Or.inr (hxt ▸ ht)
        · exact Or.inl ⟨t, ht, (mem_ancL hwf (hinc' t ht) x).2 ⟨hxt, (transGen_cut_iff hE).2 hp⟩⟩

/-- C07: it is the least set containing `included` that has, with every non-given member, its parents. -/
theorem C07_least {g : Digraph α} (hg : g.WF) {inc : List α} {given : Option (List α)} {l : List α}
    (h : g.sufficientNodes inc given = .ok l)
    (hne : inc ≠ []) (hinc : ∀ x ∈ inc, x ∈ g.nodes) (hgiv : ∀ x ∈ given.getD [], x ∈ g.nodes) :
    ((∀ x ∈ inc, x ∈ l) ∧ ∀ n ∈ l, n ∉ given.getD [] → ∀ p, g.E p n → p ∈ l) ∧
    ∀ S : α → Prop, (∀ x ∈ inc, S x) → (∀ n, S n → n ∉ given.getD [] → ∀ p, g.E p n → S p) →
      ∀ x ∈ l, S x := by
  obtain ⟨l', h1, h2⟩ := C07_sufficient hg hne hinc hgiv
  rw [h] at h1; cases h1
  refine ⟨⟨fun x hx => (h2 x).2 (Or.inl hx), ?_⟩, ?_⟩
  · intro n hn hng p hp
    rcases (h2 n).1 hn with hn | ⟨t, ht, hpath⟩
    · exact (h2 p).2 (Or.inr ⟨n, hn, .single hp hng⟩)
    · exact (h2 p).2 (Or.inr ⟨t, ht, .cons hp hng hpath⟩)
  · intro S hS hcl x hx
    rcases (h2 x).1 hx with hx | ⟨t, ht, hpath⟩
    · exact hS x hx
    · have := hS t ht
      clear ht hx
      induction hpath with
      | single h1 h2 => exact hcl _ this h2 _ h1
      | cons h1 h2 _ ih => exact hcl _ (ih this) h2 _ h1

/-- C07: unknown names are refused, and so is an empty `included`. -/
theorem C07_errors {g : Digraph α} (hg : g.WF) {inc : List α} {given : Option (List α)} :
    ((∃ x ∈ given.getD [], x ∉ g.nodes) → g.sufficientNodes inc given = .error .NetworkXError) ∧
    ((∀ x ∈ given.getD [], x ∈ g.nodes) → (∃ x ∈ inc, x ∉ g.nodes) →
      g.sufficientNodes inc given = .error .NetworkXError) ∧
    ((∀ x ∈ given.getD [], x ∈ g.nodes) → inc = [] →
      g.sufficientNodes inc given = .error .TypeError) := by
  refine ⟨?_, ?_, ?_⟩
  · intro h
    unfold sufficientNodes
    rw [cutGiven_error hg h]; rfl
  · intro h hbad
    obtain ⟨mi, h1, hwf, hn, hE⟩ := cutGiven_ok hg h
    unfold sufficientNodes
    rw [h1]
    simp only [bind, Except.bind]
    rw [mapM_error_of (e := .NetworkXError) (· ∈ mi.nodes) (fun x hx => ⟨_, ancestors_ok hx⟩)
      (fun x hx => ancestors_eq_error mi hx) (by rw [hn]; exact hbad)]
  · rintro h rfl
    obtain ⟨mi, h1, hwf, hn, hE⟩ := cutGiven_ok hg h
    unfold sufficientNodes
    rw [h1]
    rfl

example : g0.sufficientNodes ["D"] (some ["B"]) = .ok ["A", "B", "D"] ∨
    g0.sufficientNodes ["D"] (some ["B"]) = .ok ["B", "A", "D"] := by decide

/-! ## C08 -/

/-- C08 holds when `given` is passed: the sufficient nodes that are not given.  Missing: the default
`given=None`, which raises (`C08_refuted`). -/
theorem C08_minimal_partial {g : Digraph α} {inc given l : List α}
    (h : g.sufficientNodes inc (some given) = .ok l) :
    ∃ m, g.minimalNodes inc (some given) = .ok m ∧ ∀ x, x ∈ m ↔ x ∈ l ∧ x ∉ given := by
  refine ⟨l.filter (· ∉ given), ?_, ?_⟩
  · unfold minimalNodes; rw [h]; rfl
  · intro x; simp

/-- C08 is false of the code when `given` is left out: whenever the sufficient nodes exist the call
raises TypeError. -/
theorem C08_refuted {g : Digraph α} {inc l : List α} (h : g.sufficientNodes inc none = .ok l) :
    g.minimalNodes inc none = .error .TypeError := by
  unfold minimalNodes; rw [h]; rfl

example : (∃ l, g0.sufficientNodes ["D"] none = .ok l) ∧
    g0.minimalNodes ["D"] (some ["B"]) = .ok ["A", "D"] :=
  ⟨⟨["B", "A", "D"], by decide⟩, by decide⟩

/-! ## C09 -/

/-- C09 is false of the code: on A→B→D, A→D with nodes=[B], `remove_upstream` deletes D and keeps A. -/
theorem C09_refuted_upstream : ∃ g', g0.removeUpstream ["B"] = .ok g' ∧ "A" ∈ g'.nodes ∧
    TransGen g0.E "A" "B" ∧ "D" ∉ g'.nodes :=
  ⟨⟨["A", "B", "C"], [("A", "B")]⟩, by decide, by decide, .single (by decide), by decide⟩

/-- C09 is false of the code: `remove_downstream` deletes the parent A and keeps the descendant D. -/
theorem C09_refuted_downstream : ∃ g', g0.removeDownstream ["B"] = .ok g' ∧ "D" ∈ g'.nodes ∧
    TransGen g0.E "B" "D" ∧ "A" ∉ g'.nodes :=
  ⟨⟨["B", "C", "D"], [("B", "D")]⟩, by decide, by decide, .single (by decide), by decide⟩

/-- C09, what `remove_upstream` really does: it deletes exactly the nodes outside `nodes` with a direct
parent in `nodes`, and keeps every edge between the kept nodes. -/
theorem C09_remove_upstream_partial {g : Digraph α} (hg : g.WF) (ha : Acyclic g.E) (xs : List α) :
    ∃ g', g.removeUpstream xs = .ok g' ∧
      (∀ y, y ∈ g'.nodes ↔ y ∈ g.nodes ∧ ¬ (y ∉ xs ∧ ∃ p ∈ xs, g.E p y)) ∧
      (∀ a b, g'.E a b ↔ g.E a b ∧ a ∈ g'.nodes ∧ b ∈ g'.nodes) := by
  obtain ⟨l, hl, ht⟩ := order_ok_of_acyclic hg ha
  obtain ⟨g', h1, -, h2, h3⟩ := removeUpstreamLoop_ok xs ht l [] g rfl hg (by simp)
    (fun a b => ⟨fun h => ⟨h, hg.left_mem h, hg.right_mem h⟩, fun h => h.1⟩)
  refine ⟨g', ?_, h2, h3⟩
  unfold removeUpstream; rw [hl]; exact h1

/-- C09, what `remove_downstream` really does: it deletes exactly the direct parents of `nodes` that are
not in `nodes`. -/
theorem C09_remove_downstream_partial {g : Digraph α} (hg : g.WF) (ha : Acyclic g.E) (xs : List α) :
    ∃ g', g.removeDownstream xs = .ok g' ∧
      (∀ y, y ∈ g'.nodes ↔ y ∈ g.nodes ∧ ¬ (y ∉ xs ∧ ∃ c ∈ xs, g.E y c)) ∧
      (∀ a b, g'.E a b ↔ g.E a b ∧ a ∈ g'.nodes ∧ b ∈ g'.nodes) := by
  obtain ⟨l, hl, ht⟩ := order_ok_of_acyclic hg ha
  obtain ⟨g', h1, -, h2, h3⟩ := removeDownstreamLoop_ok hg xs ht l.reverse [] g rfl hg (by simp)
    (fun a b => ⟨fun h => ⟨h, hg.left_mem h, hg.right_mem h⟩, fun h => h.1⟩)
  refine ⟨g', ?_, h2, h3⟩
  unfold removeDownstream; rw [hl]; exact h1

/-! ## C10 -/

/-- C10: `remove_out_edges(n)` removes exactly the edges leaving n. -/
theorem C10_remove_out_edges {g : Digraph α} (hg : g.WF) {x : α} (hx : x ∈ g.nodes) :
    ∃ g', g.removeOutEdges x = (g', .ok ()) ∧ g'.nodes = g.nodes ∧
      ∀ a b, g'.E a b ↔ g.E a b ∧ a ≠ x := by
  obtain ⟨g', h1, -, h2, h3⟩ := removeEdges_spec hg ((g.succs x).map (fun c => (x, c)))
    ((nodup_succs hg x).map (fun a b hab => by simpa using hab))
    (by
      intro e he
      rw [List.mem_map] at he
      obtain ⟨p, hp, rfl⟩ := he
      exact (mem_succs g x p).1 hp)
  refine ⟨g', ?_, h2, ?_⟩
  · unfold removeOutEdges children
    rw [if_pos hx]
    exact h1
  · intro a b
    rw [h3, List.mem_map]
    constructor
    · rintro ⟨h4, h5⟩
      exact ⟨h4, fun e => h5 ⟨b, (mem_succs g x b).2 (e ▸ h4), by rw [e]⟩⟩
    · rintro ⟨h4, h5⟩
      refine ⟨h4, ?_⟩
      rintro ⟨c, -, he⟩
      simp only [Prod.mk.injEq] at he
      exact h5 he.1.symm

/-- C10 is false of the code for `remove_in_edges`: in every acyclic graph it raises NetworkXError on any
node that has a parent, and removes nothing. -/
theorem C10_refuted {g : Digraph α} (ha : Acyclic g.E) {x p : α} (hx : x ∈ g.nodes) (hp : g.E p x) :
    g.removeInEdges x = (g, .error .NetworkXError) := by
  unfold removeInEdges parents
  rw [if_pos hx]
  simp only
  cases hl : g.preds x with
  | nil => exact absurd ((mem_preds g p x).2 hp) (by rw [hl]; simp)
  | cons q ps =>
    have hq : g.E q x := (mem_preds g q x).1 (by rw [hl]; simp)
    have hno : ¬ g.E x q := fun h => ha x (TransGen.tail (.single h) hq)
    rw [List.map_cons, removeEdges, removeEdge_error hno]

/-- C10, the part of `remove_in_edges` that holds: on a node without incoming edges it is a no-op.
Missing: actually removing incoming edges (`C10_refuted`). -/
theorem C10_remove_in_edges_partial {g : Digraph α} {x : α} (hx : x ∈ g.nodes)
    (h : ∀ p, ¬ g.E p x) : g.removeInEdges x = (g, .ok ()) := by
  have : g.preds x = [] := by
    rw [List.eq_nil_iff_forall_not_mem]
    exact fun p hp => h p ((mem_preds g p x).1 hp)
  unfold removeInEdges parents
  rw [if_pos hx, this]
  rfl

example : "D" ∈ g0.nodes ∧ g0.E "A" "D" ∧ (g0.removeInEdges "D").2 = .error .NetworkXError ∧
    (g0.removeInEdges "A") = (g0, .ok ()) ∧ ((g0.removeOutEdges "A").1.edges = [("B", "D")]) := by
  refine ⟨by decide, by decide, by decide, by decide, by decide⟩

/-! ## C11 -/

/-- C11: `merge_dag` has exactly the nodes and edges of either argument. -/
theorem C11_merge (g h : Digraph α) :
    (∀ x, x ∈ (g.mergeDag h).nodes ↔ x ∈ g.nodes ∨ x ∈ h.nodes) ∧
    (∀ u v, (g.mergeDag h).E u v ↔ g.E u v ∨ h.E u v) := by
  constructor
  · intro x
    simp only [mergeDag, List.mem_append, List.mem_filter, decide_eq_true_eq]
    tauto
  · intro u v
    simp only [mergeDag, E, List.mem_append, List.mem_filter, decide_eq_true_eq]
    tauto

/-- C11: merging with itself or with an empty graph changes nothing. -/
theorem C11_identity (g : Digraph α) :
    g.mergeDag g = g ∧ g.mergeDag Digraph.empty = g ∧ Digraph.empty.mergeDag g = g := by
  refine ⟨?_, ?_, ?_⟩ <;> cases g <;> simp [mergeDag, Digraph.empty]

example : (g0.mergeDag (build (["E"], [("D", "E")]))).nodes = ["A", "B", "C", "D", "E"] := by decide

end Props.Dag
