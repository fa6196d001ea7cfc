import Mathlib.Logic.Relation
import Mathlib.Data.List.Nodup

/-!
# Graph specification

Nothing here mentions the model: a graph is just a relation `E` (`E u v` = edge from `u` to `v`).
`Relation.TransGen E u v` is "there is a non-empty directed path from `u` to `v`" and
`Relation.ReflTransGen E u v` "there is a possibly empty directed path".
-/

namespace Spec

variable {α : Type _}

/-- No node can reach itself by a non-empty path. -/
def Acyclic (E : α → α → Prop) : Prop := ∀ x, ¬ Relation.TransGen E x x

/-- In the list `l`, whenever there is an edge `u → v` into a listed node `v`, the node `u` is
listed before `v`. -/
def ParentsFirst (E : α → α → Prop) (l : List α) : Prop :=
  ∀ pre v suf, l = pre ++ v :: suf → ∀ u, E u v → u ∈ pre

/-- In the list `l`, no node is listed after a node it can reach. -/
def RespectsPaths (E : α → α → Prop) (l : List α) : Prop :=
  ∀ pre v suf, l = pre ++ v :: suf → ∀ u ∈ suf, ¬ Relation.TransGen E u v

/-- `l` is a topological order of the nodes satisfying `N`: every node exactly once, sources of
edges before their targets. -/
structure TopologicalOrder (N : α → Prop) (E : α → α → Prop) (l : List α) : Prop where
  nodup : l.Nodup
  complete : ∀ x, x ∈ l ↔ N x
  parentsFirst : ParentsFirst E l

/-- Reachability by a path all of whose nodes after the first one avoid the set `A`. -/
inductive AvoidPath (E : α → α → Prop) (A : α → Prop) : α → α → Prop
  /-- one edge whose end is not in `A` -/
  | single {u v} : E u v → ¬ A v → AvoidPath E A u v
  /-- extend at the front -/
  | cons {u v w} : E u v → ¬ A v → AvoidPath E A v w → AvoidPath E A u w

end Spec
