import Verif.Model.Digraph

/-!
# `DAG` and the graph utilities of /repo/src/sims_pars/bayesnet/dag.py

Python sets are represented by lists used only through membership.
-/

namespace Model

open Py

namespace Digraph

variable {α : Type _} [DecidableEq α]

/-- `DAG.parents` - /repo/src/sims_pars/bayesnet/dag.py:12-19.
NetworkXError (from `predecessors`) when the node is absent. -/
def parents (g : Digraph α) (x : α) : Result (List α) :=
  if x ∈ g.nodes then .ok (g.preds x) else .error .NetworkXError

/-- `DAG.children` - /repo/src/sims_pars/bayesnet/dag.py:21-28. -/
def children (g : Digraph α) (x : α) : Result (List α) :=
  if x ∈ g.nodes then .ok (g.succs x) else .error .NetworkXError

/-- `set.union(*sets)`: TypeError without arguments (the descriptor needs a set), the union
otherwise.  Used at /repo/src/sims_pars/bayesnet/dag.py:54, 62, 187, 210. -/
def setUnion : List (List α) → Result (List α)
  | [] => .error .TypeError
  | ls => .ok ls.flatten

/-- `DAG.upstream` - /repo/src/sims_pars/bayesnet/dag.py:48-54. -/
def upstream (g : Digraph α) (xs : List α) : Result (List α) := do
  setUnion (← xs.mapM g.ancestors)

/-- `DAG.downstream` - /repo/src/sims_pars/bayesnet/dag.py:56-62; `get_offsprings`
- /repo/src/sims_pars/bayesnet/dag.py:203-210 - has the same body. -/
def downstream (g : Digraph α) (xs : List α) : Result (List α) := do
  setUnion (← xs.mapM g.descendants)

/-- `DAG.roots` - /repo/src/sims_pars/bayesnet/dag.py:64-69. -/
def roots (g : Digraph α) : List α := g.nodes.filter (fun v => (g.preds v).isEmpty)

/-- `DAG.leaves` - /repo/src/sims_pars/bayesnet/dag.py:71-76. -/
def leaves (g : Digraph α) : List α := g.nodes.filter (fun v => (g.succs v).isEmpty)

/-- `DAG.order` - /repo/src/sims_pars/bayesnet/dag.py:78-83. -/
def order (g : Digraph α) : Result (List α) := g.topologicalSort

/-- `DAG.sort` - /repo/src/sims_pars/bayesnet/dag.py:85-90. -/
def sort (g : Digraph α) (xs : List α) : Result (List α) := do
  return (← g.order).filter (· ∈ xs)

/-- `DAG.check_acyclic` - /repo/src/sims_pars/bayesnet/dag.py:92-97;
`nx.is_directed_acyclic_graph` runs the topological sort and catches NetworkXUnfeasible. -/
def checkAcyclic (g : Digraph α) : Bool :=
  match g.topologicalSort with
  | .ok _ => true
  | .error _ => false

/-- A loop of `remove_edge` calls; stops at the first error, keeping earlier removals. -/
def removeEdges (g : Digraph α) : List (α × α) → Digraph α × Result Unit
  | [] => (g, .ok ())
  | e :: es =>
    match g.removeEdge e.1 e.2 with
    | .ok g' => removeEdges g' es
    | .error err => (g, .error err)

/-- `DAG.remove_out_edges` - /repo/src/sims_pars/bayesnet/dag.py:99-105.  Returns the graph
after the call and the outcome.  (Python iterates over a set; list order is used here.) -/
def removeOutEdges (g : Digraph α) (x : α) : Digraph α × Result Unit :=
  match g.children x with
  | .ok cs => g.removeEdges (cs.map (fun c => (x, c)))
  | .error err => (g, .error err)

/-- `DAG.remove_in_edges` - /repo/src/sims_pars/bayesnet/dag.py:107-113.  Line 113 really is
`self.remove_edge(node, par)`, i.e. the reversed edge. -/
def removeInEdges (g : Digraph α) (x : α) : Digraph α × Result Unit :=
  match g.parents x with
  | .ok ps => g.removeEdges (ps.map (fun p => (x, p)))
  | .error err => (g, .error err)

/-- The loop of `DAG.remove_upstream` - /repo/src/sims_pars/bayesnet/dag.py:120-124. -/
def removeUpstreamLoop (xs : List α) : List α → Digraph α → Result (Digraph α)
  | [], g => .ok g
  | s :: od, g =>
    if s ∈ xs then removeUpstreamLoop xs od g
    else do
      let anc ← g.ancestors s
      if anc.any (· ∈ xs) then removeUpstreamLoop xs od (← g.removeNode s)
      else removeUpstreamLoop xs od g

/-- `DAG.remove_upstream` - /repo/src/sims_pars/bayesnet/dag.py:115-124. -/
def removeUpstream (g : Digraph α) (xs : List α) : Result (Digraph α) := do
  removeUpstreamLoop xs (← g.order) g

/-- The loop of `DAG.remove_downstream` - /repo/src/sims_pars/bayesnet/dag.py:132-136. -/
def removeDownstreamLoop (xs : List α) : List α → Digraph α → Result (Digraph α)
  | [], g => .ok g
  | s :: od, g =>
    if s ∈ xs then removeDownstreamLoop xs od g
    else do
      let des ← g.descendants s
      if des.any (· ∈ xs) then removeDownstreamLoop xs od (← g.removeNode s)
      else removeDownstreamLoop xs od g

/-- `DAG.remove_downstream` - /repo/src/sims_pars/bayesnet/dag.py:126-136. -/
def removeDownstream (g : Digraph α) (xs : List α) : Result (Digraph α) := do
  removeDownstreamLoop xs (← g.order).reverse g

/-- `merge_dag` - /repo/src/sims_pars/bayesnet/dag.py:145-146 (`nx.compose`: the nodes and edges of
the first graph, then the new ones of the second).  Node attributes are modelled with the networks. -/
def mergeDag (g1 g2 : Digraph α) : Digraph α :=
  ⟨g1.nodes ++ g2.nodes.filter (· ∉ g1.nodes), g1.edges ++ g2.edges.filter (· ∉ g1.edges)⟩

/-- `nx.all_simple_paths(g, s, t)`: depth-first enumeration of the paths from `s` to `t` without repeated
nodes (used at /repo/src/sims_pars/bayesnet/dag.py:155).  `visited` are the nodes on the current path. -/
def simplePaths (g : Digraph α) (t : α) : Nat → List α → α → List (List α)
  | 0, _, _ => []
  | n + 1, visited, s =>
    if s = t then [[t]]
    else ((g.succs s).filter (· ∉ visited)).flatMap
      (fun c => (simplePaths g t n (c :: visited) c).map (s :: ·))

/-- The nodes collected by the double loop of `minimal_dag`
- /repo/src/sims_pars/bayesnet/dag.py:153-156. -/
def pathNodes (g : Digraph α) : List α → List α
  | [] => []
  | s :: rest =>
    ((s :: rest).flatMap (fun t => (simplePaths g t g.nodes.length [s] s).flatten))
      ++ pathNodes g rest

/-- `g.subgraph(nodes)`: induced subgraph, in the order of the original graph
(used at /repo/src/sims_pars/bayesnet/dag.py:158). -/
def subgraph (g : Digraph α) (xs : List α) : Digraph α :=
  ⟨g.nodes.filter (· ∈ xs), g.edges.filter (fun e => e.1 ∈ xs ∧ e.2 ∈ xs)⟩

/-- `minimal_dag` - /repo/src/sims_pars/bayesnet/dag.py:149-158. -/
def minimalDag (g : Digraph α) (xs : List α) : Result (Digraph α) := do
  let s ← g.sort xs
  return g.subgraph (s ++ g.pathNodes s)

/-- The loop of `minimal_requirements` - /repo/src/sims_pars/bayesnet/dag.py:164-166. -/
def requirementsLoop (g : Digraph α) : List α → List α → Result (List α)
  | anc, [] => .ok anc
  | anc, s :: cond =>
    if s ∈ anc then do
      let a ← g.ancestors s
      requirementsLoop g (anc.filter (· ∉ a)) cond
    else requirementsLoop g anc cond

/-- `minimal_requirements` - /repo/src/sims_pars/bayesnet/dag.py:161-168. -/
def minimalRequirements (g : Digraph α) (target : α) (cond : List α) : Result (List α) := do
  let anc ← g.ancestors target
  g.sort (← g.requirementsLoop anc cond)

/-- The edge-removal loop of `get_sufficient_nodes` - /repo/src/sims_pars/bayesnet/dag.py:182-185. -/
def cutGiven : List α → Digraph α → Result (Digraph α)
  | [], mi => .ok mi
  | x :: given, mi =>
    if x ∈ mi.nodes then
      match mi.removeEdges ((mi.preds x).map (fun p => (p, x))) with
      | (mi', .ok ()) => cutGiven given mi'
      | (_, .error e) => .error e
    else .error .NetworkXError

/-- `get_sufficient_nodes` - /repo/src/sims_pars/bayesnet/dag.py:171-187.  `given = none` is the default
argument; an empty collection behaves the same. -/
def sufficientNodes (g : Digraph α) (included : List α) (given : Option (List α)) :
    Result (List α) := do
  let mi ← cutGiven (given.getD []) g
  return (← setUnion (← included.mapM mi.ancestors)) ++ included

/-- `get_minimal_nodes` - /repo/src/sims_pars/bayesnet/dag.py:190-200.
`set.difference_update(None)` is a TypeError. -/
def minimalNodes (g : Digraph α) (included : List α) (given : Option (List α)) :
    Result (List α) := do
  let suf ← g.sufficientNodes included given
  match given with
  | none => .error .TypeError
  | some gv => .ok (suf.filter (· ∉ gv))

end Digraph

end Model
