import Verif.Model.Relatives

/-!
# The remaining members of parameter cores, pseudo cores and simulation cores (simulation/parcore.py, simucore.py)

All samplers of a core at once, the names of its actors, what a `PseudoParameterCore` answers when it is used as a
mapping or asked for actors, and the groups of a simulation core by name.  Printing is not modelled.
-/

namespace Model

open Py

variable {N V C O S K : Type} [DecidableEq N]

namespace CoreTree

/-- The comprehension of `get_samplers` - /repo/src/sims_pars/simulation/parcore.py:115-117: a `Sampler` is made of every
actor in turn, which updates the frozen ones in place (/repo/src/sims_pars/simulation/actor.py:100-118); an exception leaves
the later ones alone. -/
def updateAll (sem : Sem N V C O S (XR K)) (chain : List (Dict N V)) : Dict N (Actor N V C O S K) → S →
    Dict N (Actor N V C O S K) × S × Result Unit
  | [], s => ([], s, .ok ())
  | (k, a) :: r, s =>
    if a.isFrozen then
      match a.update sem (chainMap chain) s with
      | (a', s', .error e) => ((k, a') :: r, s', .error e)
      | (a', s', .ok ()) =>
        match updateAll sem chain r s' with
        | (r', s'', o) => ((k, a') :: r', s'', o)
    else
      match updateAll sem chain r s with
      | (r', s', o) => ((k, a) :: r', s', o)

/-- `pc.list_actors(shared=False)`, or of the root - /repo/src/sims_pars/simulation/parcore.py:95-96. -/
def listLocal (sem : Sem N V C O S (XR K)) (bn : BN N V C O) (up : List (Dict N V)) (t : CoreTree N V C O S K) (s : S) :
    CoreTree N V C O S K × S × Result (List N) :=
  match localActors sem bn up t s with
  | (t, s, .error e) => (t, s, .error e)
  | (t, s, .ok ()) => (t, s, .ok (t.label.actors.getD []).keys)

/-- `pc.get_child(nick).list_actors()` - /repo/src/sims_pars/simulation/parcore.py:95-96. -/
def listShared (sem : Sem N V C O S (XR K)) (bn : BN N V C O) (nick : N) (up : List (Dict N V)) (t : CoreTree N V C O S K) (s : S) :
    CoreTree N V C O S K × S × Result (List N) :=
  match sharedActors sem bn nick up t s with
  | (t, s, .error e) => (t, s, .error e)
  | (t, s, .ok ()) =>
    match child nick t.kids with
    | none => (t, s, .error .KeyError)
    | some u => (t, s, .ok (((t.label.childActors.getD []).get? u.label.group.name).getD []).keys)

/-- `pc.get_samplers(shared=False)`, or of the root - /repo/src/sims_pars/simulation/parcore.py:115-117. -/
def localSamplers (sem : Sem N V C O S (XR K)) (bn : BN N V C O) (up : List (Dict N V)) (t : CoreTree N V C O S K) (s : S) :
    CoreTree N V C O S K × S × Result Unit :=
  match localActors sem bn up t s with
  | (t, s, .error e) => (t, s, .error e)
  | (.node c ts, s, .ok ()) =>
    match updateAll sem (c.locus :: up) (c.actors.getD []) s with
    | (d, s, o) => (.node { c with actors := some d } ts, s, o)

/-- `pc.get_child(nick).get_samplers()` - /repo/src/sims_pars/simulation/parcore.py:115-117. -/
def sharedSamplers (sem : Sem N V C O S (XR K)) (bn : BN N V C O) (nick : N) (up : List (Dict N V)) (t : CoreTree N V C O S K) (s : S) :
    CoreTree N V C O S K × S × Result Unit :=
  match sharedActors sem bn nick up t s with
  | (t, s, .error e) => (t, s, .error e)
  | (.node c ts, s, .ok ()) =>
    match child nick ts with
    | none => (.node c ts, s, .error .KeyError)
    | some u =>
      match updateAll sem (u.label.locus :: c.locus :: up) (((c.childActors.getD []).get? u.label.group.name).getD []) s with
      | (d, s, o) => (.node { c with childActors := some ((c.childActors.getD []).set u.label.group.name d) } ts, s, o)

end CoreTree

/-! ## Pseudo cores as mappings

A pseudo core starts without values, but `pc[key] = value` is inherited and stores one in `Locus`; here `d` is `Locus`.
No pseudo core has a parent. -/

namespace Pseudo

/-- `pc[item]` - /repo/src/sims_pars/simulation/parcore.py:432-433. -/
def getItem (_d : Dict N V) (_x : N) : Result V := .error .KeyError

/-- `pc[key] = value` - /repo/src/sims_pars/bayesnet/chromosome.py:25-27, inherited. -/
def setItem (d : Dict N V) (x : N) (v : V) : Dict N V := d.set x v

/-- `key in pc` - /repo/src/sims_pars/bayesnet/chromosome.py:29-30, inherited. -/
def contains (d : Dict N V) (x : N) : Bool := decide (x ∈ d.keys)

/-- `len(pc)` - /repo/src/sims_pars/bayesnet/chromosome.py:13-14, inherited. -/
def length (d : Dict N V) : Nat := List.length d

/-- `iter(pc)` - /repo/src/sims_pars/simulation/parcore.py:425-430. -/
def iterate (d : Dict N V) : List (N × V) := d

/-- `dict(pc)`: the object has a method `keys` (/repo/src/sims_pars/bayesnet/chromosome.py:32-33), so every key is looked
up with `pc[key]`. -/
def toDict (d : Dict N V) : Result (Dict N V) := d.keys.mapM (fun k => do return (k, ← getItem d k))

/-- `get_samplers()` - /repo/src/sims_pars/simulation/parcore.py:346-354: an empty list (not a dictionary). -/
def getSamplers (_t : Tree (Pseudo N)) : List N := []

/-- `get_child_actors(group)` - /repo/src/sims_pars/simulation/parcore.py:374-379: `ChildrenActors` is None, and a TypeError
is not caught. -/
def childActors (_t : Tree (Pseudo N)) (_group : N) : Result Unit := .error .TypeError

/-- `get_child_actor(group, name)` - /repo/src/sims_pars/simulation/parcore.py:368-372: a KeyError would be raised again. -/
def childActor (t : Tree (Pseudo N)) (group _name : N) : Result Unit :=
  match childActors t group with
  | .error .KeyError => .error .KeyError
  | .error e => .error e
  | .ok () => .ok ()

/-- `freeze()` - /repo/src/sims_pars/simulation/parcore.py:403-409: `get_samplers()` is a list, which has no `items`; the
values are as before. -/
def freeze (d : Dict N V) : Dict N V × Result Unit := (d, .error .AttributeError)

/-- `get_prototype(group)` - /repo/src/sims_pars/simulation/parcore.py:308-317; `proto` is the name `'prototype'`. -/
def getPrototype (proto group : N) (_t : Tree (Pseudo N)) : Tree (Pseudo N) := new proto group

mutual
/-- `DeepLogPrior` - /repo/src/sims_pars/simulation/parcore.py:418-423. -/
def deepLogPrior : Tree (Pseudo N) → Int
  | .node _ ts => 0 + deepLogPriorL ts
/-- Summed over children. -/
def deepLogPriorL : List (Tree (Pseudo N)) → Int
  | [] => 0
  | t :: ts => deepLogPrior t + deepLogPriorL ts
end

/-- `clone(copy_sc)` - /repo/src/sims_pars/simulation/parcore.py:444-453: `SG` is None, so `SG.SC` and `sg.generate` are no
attributes. -/
def clone (_copySc _withChildren : Bool) (_t : Tree (Pseudo N)) : Result (Tree (Pseudo N)) := .error .AttributeError

end Pseudo

/-! ## Simulation cores -/

namespace SimCore

/-- `sc[item]` and `sc.get(item)` - /repo/src/sims_pars/simulation/simucore.py:33-40. -/
def get (sc : SimCore N V C O) (k : N) : Result (Group N) :=
  match sc.groups.get? k with
  | some g => .ok g
  | none => .error .KeyError

end SimCore

end Model
