import Verif.Model.SimCore

/-!
# Siblings, prototypes, free parameters and pseudo cores (simulation/parcore.py, fn.py)

What `Model/SimCore.lean` leaves out of `ParameterCore`: making siblings and prototypes, `reset_sc`, the actors that
children share; the free parameters of a simulation core; and `PseudoParameterCore`, a hierarchy of bare names.
-/

namespace Model

open Py

variable {N V C O S K : Type} [DecidableEq N]

namespace CoreTree

variable [AddCommMonoid K]

/-- `pc.get_sibling(nickname, exo)` of the child `k` of this core - /repo/src/sims_pars/simulation/parcore.py:39-48, 18-20.
(Of a root it is an AttributeError, None having no `breed`; a root is no child, so this case is not covered.) -/
def getSibling (sem : Sem N V C O S (XR K)) (noneV : V) (sc : SimCore N V C O) (up : List (Dict N V)) (t : CoreTree N V C O S K)
    (k nick : N) (exo : Dict N V) (s : S) : CoreTree N V C O S K × S × Result Unit :=
  match child k t.kids with
  | none => (t, s, .error .KeyError)
  | some u => breed sem noneV sc up t nick u.label.group.name exo s

/-- `pc.get_prototype(group, exo)` - /repo/src/sims_pars/simulation/parcore.py:50-59,
/repo/src/sims_pars/simulation/simugroup.py:103-109; `proto` is the nickname `'prototype'`.  The new core is returned, its
`Parent` is this core; it is not put among the `Children`. -/
def getPrototype (sem : Sem N V C O S (XR K)) (noneV : V) (sc : SimCore N V C O) (proto : N) (up : List (Dict N V))
    (t : CoreTree N V C O S K) (group : N) (exo : Dict N V) (s : S) : Result (Core N V C O S K) × S :=
  if group ∉ t.label.group.children then (.error .KeyError, s)
  else
    match sc.groups.get? group with
    | none => (.error .KeyError, s)
    | some g => Core.generate sem noneV sc.bn g proto (t.label.locus :: up) exo s

/-- `pc.reset_sc(sc)` - /repo/src/sims_pars/simulation/parcore.py:207-210.  The recursive call passes two arguments where
the method takes one, a TypeError as soon as there is a child; the group of this core is replaced by then. -/
def resetSc (sc : SimCore N V C O) : CoreTree N V C O S K → CoreTree N V C O S K × Result Unit
  | .node c ts =>
    match sc.groups.get? c.group.name with
    | none => (.node c ts, .error .KeyError)
    | some g =>
      match ts with
      | [] => (.node { c with group := g } [], .ok ())
      | t :: ts => (.node { c with group := g } (t :: ts), .error .TypeError)

/-- `pc.get_child_samplers(group)` - /repo/src/sims_pars/simulation/parcore.py:132-139: before any child used a shared actor
`ChildrenActors` is None, a TypeError that is not caught; for a missing group, `get_shared_actors` is no method of a group. -/
def getChildSamplers (sc : SimCore N V C O) (t : CoreTree N V C O S K) (group : N) : Result (Dict N (Actor N V C O S K)) :=
  if group ∉ t.label.group.children then .error .AssertionError
  else
    match t.label.childActors with
    | none => .error .TypeError
    | some d =>
      match d.get? group with
      | some a => .ok a
      | none =>
        match sc.groups.get? group with
        | none => .error .KeyError
        | some _ => .error .AttributeError

end CoreTree

/-- `find_free_parameters(sm, exo)` - /repo/src/sims_pars/simulation/fn.py:43-47; `nick` is the name of the core, which is the
nickname that `generate` uses.  `bn.RVRoots` is looked up for each name. -/
def findFreeParameters [AddCommMonoid K] (sem : Sem N V C O S (XR K)) (noneV : V) (sc : SimCore N V C O) (nick : N) (exo : Dict N V)
    (s : S) : Result (List N) × S :=
  match Core.generateRoot sem noneV sc nick exo s with
  | (.error e, s') => (.error e, s')
  | (.ok c, s') =>
    match c.locus.keys with
    | [] => (.ok [], s')
    | ks =>
      match sc.bn.rvRoots with
      | .error e => (.error e, s')
      | .ok none => (.error .TypeError, s')
      | .ok (some rr) => (.ok (ks.filter (· ∈ rr)), s')

/-! ## Pseudo cores -/

/-- `PseudoParameterCore(nickname, group)` without its links - /repo/src/sims_pars/simulation/parcore.py:272-278; it has no
values and no simulation group. -/
structure Pseudo (N : Type) where
  nick : N
  group : N
  deriving DecidableEq

namespace Pseudo

/-- `PseudoParameterCore(nickname, group)`: no children. -/
def new (nick group : N) : Tree (Pseudo N) := .node ⟨nick, group⟩ []

/-- `pc.breed(nickname, group)` - /repo/src/sims_pars/simulation/parcore.py:280-295. -/
def breed (nick group : N) (t : Tree (Pseudo N)) : Tree (Pseudo N) × Result Unit :=
  if nick ∈ t.kids.map (fun u => u.label.nick) then (t, .error .ValueError)
  else (.node t.label (t.kids ++ [new nick group]), .ok ())

/-- `pc.remove_children(k)` - /repo/src/sims_pars/simulation/parcore.py:332-344. -/
def removeChild (k : N) (t : Tree (Pseudo N)) : Tree (Pseudo N) :=
  .node t.label (t.kids.filter (fun u => u.label.nick ≠ k))

/-- `pc.get_child(k)` - /repo/src/sims_pars/simulation/parcore.py:365-366. -/
def getChild (k : N) (t : Tree (Pseudo N)) : Result (Tree (Pseudo N)) :=
  match t.kids.find? (fun u => u.label.nick = k) with
  | none => .error .KeyError
  | some u => .ok u

/-- `get_child` along the names - /repo/src/sims_pars/simulation/parcore.py:391-392. -/
def walk : List N → Tree (Pseudo N) → Result (Tree (Pseudo N))
  | [], t => .ok t
  | k :: ks, t => do walk ks (← getChild k t)

/-- `find_descendant(address)` - /repo/src/sims_pars/simulation/parcore.py:381-393: the first name is skipped. -/
def findDescendant (name : List Char → N) (t : Tree (Pseudo N)) (address : List Char) : Result (Tree (Pseudo N)) :=
  let names := CoreTree.splitOn '@' [] address
  if names.length < 2 then .ok t else walk ((names.drop 1).map name) t

/-- `detach_from_parent()` of the child `k` of this core - /repo/src/sims_pars/simulation/parcore.py:322-330: `breed` does not
set the `Parent` of the child, so there is none and nothing happens. -/
def detach (k : N) (t : Tree (Pseudo N)) : Tree (Pseudo N) × Result Unit :=
  match getChild k t with
  | .error e => (t, .error e)
  | .ok _ => (t, .ok ())

/-- `get_sibling(nickname)` and `duplicate(nickname)` - /repo/src/sims_pars/simulation/parcore.py:297-306, 319-320. -/
def getSibling (nick : N) (t : Tree (Pseudo N)) : Tree (Pseudo N) := new nick t.label.group

/-- The children with the one of that name replaced. -/
def putChild (k : N) (u : Tree (Pseudo N)) : List (Tree (Pseudo N)) → List (Tree (Pseudo N))
  | [] => []
  | t :: ts => if t.label.nick = k then u :: ts else t :: putChild k u ts

/-- Apply an operation to the core reached by the path; KeyError if there is none. -/
def atPath (f : Tree (Pseudo N) → Tree (Pseudo N) × Result Unit) : List N → Tree (Pseudo N) → Tree (Pseudo N) × Result Unit
  | [], t => f t
  | k :: ks, t =>
    match getChild k t with
    | .error e => (t, .error e)
    | .ok u => (.node t.label (putChild k (atPath f ks u).1 t.kids), (atPath f ks u).2)

/-- An operation of `CoreTree.Op` on pseudo cores: `impulse` does nothing (/repo/src/sims_pars/simulation/parcore.py:395-401);
those that ask for actors and samplers leave the hierarchy as it is and raise
(/repo/src/sims_pars/simulation/parcore.py:98-113, 356-363: `SG` is None; KeyError). -/
def step (t : Tree (Pseudo N)) : CoreTree.Op N V → Tree (Pseudo N) × Result Unit
  | .breed p nick g _ => atPath (breed nick g) p t
  | .remove p nick => atPath (fun u => (removeChild nick u, .ok ())) p t
  | .impulse p _ => atPath (fun u => (u, .ok ())) p t
  | .localActors p => atPath (fun u => (u, .error .AttributeError)) p t
  | .sharedActors p _ => atPath (fun u => (u, .error .AttributeError)) p t
  | .localSampler p _ => atPath (fun u => (u, .error .KeyError)) p t
  | .sharedSampler p _ _ => atPath (fun u => (u, .error .KeyError)) p t

/-- A history of operations; exceptions are caught by the caller. -/
def run (ops : List (CoreTree.Op N V)) (t : Tree (Pseudo N)) : Tree (Pseudo N) := ops.foldl (fun t o => (step t o).1) t

end Pseudo

end Model
