import Verif.Py.Err
import Mathlib.Data.List.Basic
import Mathlib.Data.List.Dedup

/-!
# `networkx.DiGraph` (the fragment used by sims_pars)

A graph is the list of its nodes and the list of its edges, both in insertion order.  networkx
itself is not part of /repo; these definitions are the documented behaviour of the calls that
/repo/src/sims_pars/bayesnet/dag.py and bn.py make, and are part of the trusted base.
-/

namespace Model

open Py

/-- `networkx.DiGraph`: nodes and edges in insertion order. -/
structure Digraph (α : Type _) where
  nodes : List α
  edges : List (α × α)
  deriving DecidableEq, Repr

namespace Digraph

variable {α : Type _} [DecidableEq α]

/-- `nx.DiGraph()` (used at /repo/src/sims_pars/bayesnet/dag.py:9-10). -/
def empty : Digraph α := ⟨[], []⟩

/-- `G.predecessors(x)` for a node `x`, in edge insertion order
(used at /repo/src/sims_pars/bayesnet/dag.py:19). -/
def preds (g : Digraph α) (x : α) : List α :=
  g.edges.filterMap (fun e => if e.2 = x then some e.1 else none)

/-- `G.successors(x)` for a node `x`, in edge insertion order
(used at /repo/src/sims_pars/bayesnet/dag.py:28). -/
def succs (g : Digraph α) (x : α) : List α :=
  g.edges.filterMap (fun e => if e.1 = x then some e.2 else none)

/-- `G.add_node(x)` (used at /repo/src/sims_pars/bayesnet/bn.py:75). -/
def addNode (g : Digraph α) (x : α) : Digraph α :=
  if x ∈ g.nodes then g else ⟨g.nodes ++ [x], g.edges⟩

/-- `G.add_edge(u, v)`: adds missing end points, then the edge
(used at /repo/src/sims_pars/bayesnet/bn.py:83). -/
def addEdge (g : Digraph α) (u v : α) : Digraph α :=
  let g1 := (g.addNode u).addNode v
  if (u, v) ∈ g1.edges then g1 else ⟨g1.nodes, g1.edges ++ [(u, v)]⟩

/-- `G.remove_node(x)`: NetworkXError when absent; incident edges go with the node
(used at /repo/src/sims_pars/bayesnet/bn.py:87). -/
def removeNode (g : Digraph α) (x : α) : Result (Digraph α) :=
  if x ∈ g.nodes then
    .ok ⟨g.nodes.filter (· ≠ x), g.edges.filter (fun e => e.1 ≠ x ∧ e.2 ≠ x)⟩
  else .error .NetworkXError

/-- `G.remove_edge(u, v)`: NetworkXError when absent
(used at /repo/src/sims_pars/bayesnet/dag.py:105, 113, 185). -/
def removeEdge (g : Digraph α) (u v : α) : Result (Digraph α) :=
  if (u, v) ∈ g.edges then .ok ⟨g.nodes, g.edges.filter (· ≠ (u, v))⟩
  else .error .NetworkXError

/-- Breadth-first search from the queue `todo`, `done` being the nodes already expanded.
`fuel` bounds the number of expansions; callers pass more than the number of nodes. -/
def bfs (next : α → List α) : Nat → List α → List α → List α
  | 0, done, _ => done
  | _ + 1, done, [] => done
  | n + 1, done, x :: todo =>
    bfs next n (done ++ [x])
      (todo ++ (next x).dedup.filter (fun y => y ∉ done ++ x :: todo))

/-- `nx.ancestors(G, x)`: every node with a path to `x`, without `x` itself; NetworkXError when `x` is
not a node (used at /repo/src/sims_pars/bayesnet/dag.py:37). -/
def ancestors (g : Digraph α) (x : α) : Result (List α) :=
  if x ∈ g.nodes then .ok ((bfs g.preds (g.nodes.length + 1) [] [x]).filter (· ≠ x))
  else .error .NetworkXError

/-- `nx.descendants(G, x)` (used at /repo/src/sims_pars/bayesnet/dag.py:46). -/
def descendants (g : Digraph α) (x : α) : Result (List α) :=
  if x ∈ g.nodes then .ok ((bfs g.succs (g.nodes.length + 1) [] [x]).filter (· ≠ x))
  else .error .NetworkXError

/-- The loop of `nx.topological_sort` (Kahn's algorithm).  `done` is the output so far and the
queue holds the nodes of in-degree zero.  networkx keeps a counter of unprocessed
predecessors per node; the test "all predecessors are in the output" is what the counter
reaching zero means. -/
def kahn (g : Digraph α) : Nat → List α → List α → List α
  | 0, done, _ => done
  | _ + 1, done, [] => done
  | n + 1, done, x :: queue =>
    kahn g n (done ++ [x])
      (queue ++ (g.succs x).filter (fun v => (g.preds v).all (· ∈ done ++ [x])))

/-- `list(nx.topological_sort(G))`; NetworkXUnfeasible when some node was never ready
(used at /repo/src/sims_pars/bayesnet/dag.py:83). -/
def topologicalSort (g : Digraph α) : Result (List α) :=
  let l := kahn g g.nodes.length [] (g.nodes.filter (fun v => (g.preds v).isEmpty))
  if l.length = g.nodes.length then .ok l else .error .NetworkXUnfeasible

/-- The edge relation of a graph. -/
def E (g : Digraph α) (u v : α) : Prop := (u, v) ∈ g.edges

instance (g : Digraph α) (u v : α) : Decidable (g.E u v) := inferInstanceAs (Decidable (_ ∈ _))

/-- What every networkx graph satisfies: nodes and edges occur once, edges join nodes. -/
structure WF (g : Digraph α) : Prop where
  nodup_nodes : g.nodes.Nodup
  nodup_edges : g.edges.Nodup
  left_mem : ∀ {u v}, (u, v) ∈ g.edges → u ∈ g.nodes
  right_mem : ∀ {u v}, (u, v) ∈ g.edges → v ∈ g.nodes

end Digraph

end Model
