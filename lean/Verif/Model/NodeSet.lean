import Verif.Model.BN
import Verif.Py.Tree

/-!
# Node sets (simulation/nodeset.py)

A hierarchy of node sets is a tree of records.  Python sets are lists used through membership.  The set
`__was_fixed` of the children of a node set is one shared object (unless it was empty when passed down), so
what is hoisted into one child is seen by its siblings: `relateL` threads it through the siblings.
An exception leaves the objects half initialised; only the exception is modelled.
-/

namespace Model

open Py

variable {N V C O : Type} [DecidableEq N]

/-- `ActorBlueprint.Type` - /repo/src/sims_pars/simulation/nodeset.py:10-12. -/
inductive ActorType
  | compound | single | frozen
  deriving DecidableEq

/-- `ActorBlueprint` - /repo/src/sims_pars/simulation/nodeset.py:9-18. -/
structure Blueprint (N : Type) where
  name : N
  type : ActorType
  toRead : List N
  toSample : List N
  deriving DecidableEq

/-- The fields of a `NodeSet` - /repo/src/sims_pars/simulation/nodeset.py:42-59. -/
structure NSet (N : Type) where
  name : N
  asFixed : List N
  asFloating : List N
  exo : List N := []
  listening : List N := []
  fixed : List N := []
  floating : List N := []
  wasFixed : List N := []
  willFloat : List N := []
  localS : Dict N (Blueprint N) := []
  sharedS : Dict N (Blueprint N) := []
  deriving DecidableEq

namespace NSet

/-- The list without the members of another: `difference_update`. -/
def without (xs ys : List N) : List N := xs.filter (· ∉ ys)

mutual
/-- `_validate_initial_conditions` - /repo/src/sims_pars/simulation/nodeset.py:106-123. -/
def validate (bn : BN N V C O) : Tree (NSet N) → Result Bool
  | .node a ts => do
    if ← validateL bn ts then
      if a.asFixed.isEmpty then return true
      else
        let anc ← bn.dag.upstream a.asFixed
        return a.asFloating.all (fun d => decide (d ∈ a.asFixed) || decide (d ∉ anc))
    else return false
/-- Its loop over the children. -/
def validateL (bn : BN N V C O) : List (Tree (NSet N)) → Result Bool
  | [] => .ok true
  | t :: ts => do
    if ← validate bn t then validateL bn ts else return false
end

/-- Lines 147-152: mediators with randomness float, the others are fixed.  Returns the set and `all_fixed`. -/
def mediators (bn : BN N V C O) : List N → NSet N → List N → Result (NSet N × List N)
  | [], a, af => .ok (a, af)
  | d :: ds, a, af => do
    if ← bn.hasRandomness d af then mediators bn ds { a with floating := d :: a.floating } af
    else mediators bn ds { a with fixed := d :: a.fixed } (d :: af)

/-- Lines 154-158: floating nodes without randomness become fixed. -/
def unfloat (bn : BN N V C O) : List N → NSet N → List N → Result (NSet N × List N)
  | [], a, af => .ok (a, af)
  | d :: ds, a, af => do
    if ← bn.hasRandomness d af then unfloat bn ds a af
    else unfloat bn ds { a with fixed := d :: a.fixed, floating := a.floating.filter (· ≠ d) } (d :: af)

/-- Lines 160-164: the roots without randomness are fixed at the top. -/
def fixRoots (bn : BN N V C O) : List N → NSet N → List N → Result (NSet N × List N)
  | [], a, af => .ok (a, af)
  | d :: ds, a, af => do
    if ← bn.hasRandomness d [] then fixRoots bn ds a af
    else fixRoots bn ds { a with fixed := d :: a.fixed } (d :: af)

/-- Lines 172-181: collect the requirements of each node of `mini`, given those before it (`done`). -/
def require (bn : BN N V C O) : List N → List N → NSet N → Result (NSet N)
  | _, [], a => .ok a
  | done, d :: ds, a => do
    let rq ← bn.dag.minimalRequirements d done
    if d ∈ a.floating then require bn (done ++ [d]) ds { a with listening := a.listening ++ rq }
    else require bn (done ++ [d]) ds { a with exo := a.exo ++ rq }

/-- `bn.Roots` as a list: iterating over `None` is a TypeError. -/
def rootList (bn : BN N V C O) : Result (List N) := do
  match ← bn.roots with
  | some l => .ok l
  | none => .error .TypeError

/-- Lines 160-164: only a node set without parent fixes the roots. -/
def topRoots (bn : BN N V C O) (root : Bool) (a : NSet N) (af : List N) : Result (NSet N × List N) :=
  if root then do fixRoots bn (← rootList bn) a af else .ok (a, af)

/-- `_resolve_local_nodes` for one node set - /repo/src/sims_pars/simulation/nodeset.py:125-183.  `was` is
`__was_fixed` (line 142-145); the second result is `all_fixed`. -/
def localNode (bn : BN N V C O) (root : Bool) (was : List N) (a : NSet N) : Result (NSet N × List N) := do
  let mini ← (← bn.dag.minimalDag (a.asFixed ++ a.asFloating)).order
  let med ← bn.dag.sort (mini.filter (fun d => d ∉ a.asFixed ∧ d ∉ a.asFloating))
  let (a, af) ← mediators bn med { a with floating := a.asFloating, fixed := a.asFixed, wasFixed := was } (was ++ a.asFixed)
  let (a, af) ← unfloat bn (← bn.sort a.floating) a af
  let (a, af) ← topRoots bn root a af
  let a ← require bn [] mini { a with listening := [], exo := [] }
  return ({ a with listening := without a.listening mini, exo := without a.exo a.fixed }, af)

mutual
/-- `_resolve_local_nodes` of the children - /repo/src/sims_pars/simulation/nodeset.py:185-186. -/
def localT (bn : BN N V C O) (root : Bool) (was : List N) : Tree (NSet N) → Result (Tree (NSet N))
  | .node a ts => do
    let (a, af) ← localNode bn root was a
    return .node a (← localL bn af ts)
/-- In a list of children. -/
def localL (bn : BN N V C O) (was : List N) : List (Tree (NSet N)) → Result (List (Tree (NSet N)))
  | [] => .ok []
  | t :: ts => do
    let t ← localT bn false was t
    return t :: (← localL bn was ts)
end

mutual
/-- `_raise_up_floating` - /repo/src/sims_pars/simulation/nodeset.py:193-198: the tree and the returned set. -/
def raiseT : Tree (NSet N) → Tree (NSet N) × List N
  | .node a ts =>
    (.node { a with willFloat := (raiseL ts).2 } (raiseL ts).1, (raiseL ts).2 ++ a.floating)
/-- In a list of children. -/
def raiseL : List (Tree (NSet N)) → List (Tree (NSet N)) × List N
  | [] => ([], [])
  | t :: ts => ((raiseT t).1 :: (raiseL ts).1, (raiseT t).2 ++ (raiseL ts).2)
end

/-- `[d for d in xs if bn.has_randomness(d, given)]` and the others. -/
def splitRandom (bn : BN N V C O) (given : List N) : List N → Result (List N × List N)
  | [] => .ok ([], [])
  | d :: ds => do
    let b ← bn.hasRandomness d given
    let (r, n) ← splitRandom bn given ds
    return if b then (d :: r, n) else (r, d :: n)

/-- `[d for d in xs if not bn.is_exogenous(d)]`. -/
def dropExo (bn : BN N V C O) : List N → Result (List N)
  | [] => .ok []
  | d :: ds => do
    let b ← bn.isExogenous d
    let r ← dropExo bn ds
    return if b then r else d :: r

/-- `_resolve_relations` for one node set - /repo/src/sims_pars/simulation/nodeset.py:200-226; the second result
are the nodes to hoist into the parent. -/
def relateNode (bn : BN N V C O) (root : Bool) (was : List N) (a : NSet N) : Result (NSet N × List N) := do
  let (shift, hoist) ← splitRandom bn was (a.exo.filter (· ∉ was))
  let a := { a with exo := without a.exo shift, fixed := a.fixed ++ shift, wasFixed := was }
  let a := if root then { a with fixed := a.fixed ++ hoist, exo := without a.exo hoist } else a
  let shift ← dropExo bn (a.listening.filter (· ∉ was))
  let (fl, fx) ← splitRandom bn (a.fixed ++ a.exo ++ was) shift
  let a := { a with floating := a.floating ++ fl, fixed := a.fixed ++ fx }
  return ({ a with listening := without (without a.listening a.fixed) a.floating }, hoist)

/-- `_hoist_node` for each node - /repo/src/sims_pars/simulation/nodeset.py:188-191. -/
def hoistAll : List N → NSet N → NSet N
  | [], a => a
  | d :: ds, a =>
    if d ∈ a.wasFixed then hoistAll ds a
    else hoistAll ds { a with fixed := a.fixed ++ [d], wasFixed := a.wasFixed ++ [d] }

/-- Let siblings see the shared `__was_fixed`. -/
def setWas (w : List N) : Tree (NSet N) → Tree (NSet N)
  | .node a ts => .node { a with wasFixed := w } ts

mutual
/-- `_resolve_relations` - /repo/src/sims_pars/simulation/nodeset.py:200-229.  `was` is the current content of
`__was_fixed`; the results are the tree (with its own `__was_fixed` as it is afterwards) and what was hoisted. -/
def relateT (bn : BN N V C O) (root : Bool) (was : List N) : Tree (NSet N) → Result (Tree (NSet N) × List N)
  | .node a ts => do
    let (a, hoist) ← relateNode bn root was a
    let (a, ts) ← relateL bn a [] none ts
    return (.node a ts, hoist)
/-- The loop over the children `ts` of `a`: `done` are those dealt with, `cell` their shared `__was_fixed`
(`none` before the first child and for empty ones, which are not shared). -/
def relateL (bn : BN N V C O) (a : NSet N) (done : List (Tree (NSet N))) (cell : Option (List N)) :
    List (Tree (NSet N)) → Result (NSet N × List (Tree (NSet N)))
  | [] => .ok (a, done)
  | t :: ts => do
    let was := cell.getD t.label.wasFixed
    let (t', hoist) ← relateT bn false was t
    let a := hoistAll hoist a
    if was.isEmpty then relateL bn a (done ++ [t']) none ts
    else
      let w := t'.label.wasFixed
      relateL bn a ((done ++ [t']).map (setWas w)) (some w) ts
end

mutual
/-- `_claim_used_nodes` - /repo/src/sims_pars/simulation/nodeset.py:231-237. -/
def used : Tree (NSet N) → List N
  | .node a ts => a.fixed ++ a.floating ++ usedL ts
/-- Of a list of children. -/
def usedL : List (Tree (NSet N)) → List N
  | [] => []
  | t :: ts => used t ++ usedL ts
end

/-- The loop of `_pass_down_undefined` - /repo/src/sims_pars/simulation/nodeset.py:248-259; the second result is
`to_pass_down`. -/
def passNode (bn : BN N V C O) (gfi gfl : List N) : List N → NSet N → Result (NSet N × List N)
  | [], a => .ok (a, [])
  | d :: ds, a => do
    let l ← bn.get d
    if l.parents.all (· ∈ gfi) then
      if ← bn.isRv d then passNode bn gfi gfl ds { a with floating := a.floating ++ [d] }
      else passNode bn gfi gfl ds { a with fixed := a.fixed ++ [d] }
    else if l.parents.all (· ∈ gfl) then passNode bn gfi gfl ds { a with floating := a.floating ++ [d] }
    else do
      let (a, r) ← passNode bn gfi gfl ds a
      return (a, d :: r)

mutual
/-- `_pass_down_undefined` - /repo/src/sims_pars/simulation/nodeset.py:239-261. -/
def passT (bn : BN N V C O) (fixed floating nodes : List N) : Tree (NSet N) → Result (Tree (NSet N))
  | .node a ts => do
    let gfi := a.fixed ++ fixed
    let gfl := a.floating ++ floating ++ gfi
    let (a, rest) ← passNode bn gfi gfl nodes a
    return .node a (← passL bn gfi gfl rest ts)
/-- In a list of children. -/
def passL (bn : BN N V C O) (fixed floating nodes : List N) : List (Tree (NSet N)) → Result (List (Tree (NSet N)))
  | [] => .ok []
  | t :: ts => do
    let t ← passT bn fixed floating nodes t
    return t :: (← passL bn fixed floating nodes ts)
end

/-- `_locate_undefined` - /repo/src/sims_pars/simulation/nodeset.py:263-266. -/
def locate (bn : BN N V C O) (t : Tree (NSet N)) : Result (Tree (NSet N)) := do
  let u := used t
  passT bn [] [] ((← bn.order).filter (· ∉ u)) t

/-- `n in af or bn.is_exogenous(n)`. -/
def isRead (bn : BN N V C O) (af : List N) (d : N) : Result Bool :=
  if d ∈ af then .ok true else bn.isExogenous d

/-- `[n for n in req if n in af or bn.is_exogenous(n)]` and the others. -/
def splitRead (bn : BN N V C O) (af : List N) : List N → Result (List N × List N)
  | [] => .ok ([], [])
  | d :: ds => do
    let b ← isRead bn af d
    let (r, n) ← splitRead bn af ds
    return if b then (d :: r, n) else (r, d :: n)

/-- The blueprints (local, shared) of one node - /repo/src/sims_pars/simulation/nodeset.py:278-294.  The parents
are a set, so repetitions do not matter. -/
def blueprint (bn : BN N V C O) (a : NSet N) (d : N) : Result (Blueprint N × Blueprint N) := do
  let af := a.wasFixed ++ a.fixed
  let l ← bn.get d
  if l.parents.all (· ∈ af) then
    let f : Blueprint N := ⟨d, .frozen, l.parents, []⟩
    return (f, if l.parents.any (· ∈ a.fixed) then ⟨d, .single, l.parents, []⟩ else f)
  else
    let req ← bn.dag.minimalRequirements d af
    let (rd, sm) ← splitRead bn af req
    return (⟨d, .compound, rd, sm⟩, ⟨d, .compound, rd, sm⟩)

/-- The loop over the floating nodes - /repo/src/sims_pars/simulation/nodeset.py:278-294. -/
def samplers (bn : BN N V C O) : List N → NSet N → Result (NSet N)
  | [], a => .ok a
  | d :: ds, a => do
    let (l, s) ← blueprint bn a d
    samplers bn ds { a with localS := a.localS.set d l, sharedS := a.sharedS.set d s }

mutual
/-- `_define_sampler_blueprints` - /repo/src/sims_pars/simulation/nodeset.py:268-297. -/
def samplersT (bn : BN N V C O) : Tree (NSet N) → Result (Tree (NSet N))
  | .node a ts => do
    let a ← samplers bn (a.floating ++ a.willFloat) { a with localS := [], sharedS := [] }
    return .node a (← samplersL bn ts)
/-- In a list of children. -/
def samplersL (bn : BN N V C O) : List (Tree (NSet N)) → Result (List (Tree (NSet N)))
  | [] => .ok []
  | t :: ts => do
    let t ← samplersT bn t
    return t :: (← samplersL bn ts)
end

mutual
/-- `_sort_fixed_nodes` - /repo/src/sims_pars/simulation/nodeset.py:299-302. -/
def sortT (bn : BN N V C O) : Tree (NSet N) → Result (Tree (NSet N))
  | .node a ts => do
    let f ← bn.sort a.fixed
    return .node { a with fixed := f } (← sortL bn ts)
/-- In a list of children. -/
def sortL (bn : BN N V C O) : List (Tree (NSet N)) → Result (List (Tree (NSet N)))
  | [] => .ok []
  | t :: ts => do
    let t ← sortT bn t
    return t :: (← sortL bn ts)
end

/-- `inject_bn` on a root - /repo/src/sims_pars/simulation/nodeset.py:89-104. -/
def inject (bn : BN N V C O) (t : Tree (NSet N)) : Result (Tree (NSet N)) := do
  if ← validate bn t then
    let t ← localT bn true [] t
    let (t, _) ← relateT bn true [] (raiseT t).1
    let t ← locate bn t
    let t ← samplersT bn t
    sortT bn t
  else .error .AssertionError

/-- `NodeSet(name, as_fixed, as_floating)` - /repo/src/sims_pars/simulation/nodeset.py:42-59. -/
def new (name : N) (fx fl : List N) : NSet N := ⟨name, fx, fl, [], [], [], [], [], [], [], []⟩

/-- The node set of `as_simulation_core(bn)` when none is given - /repo/src/sims_pars/simulation/fn.py:21-23 (`root`
is the name 'Root'). -/
def coreDefault (root : N) (bn : BN N V C O) : Result (Tree (NSet N)) :=
  inject bn (.node (new root [] bn.dag.leaves) [])

/-- The node set of `get_all_float_sc` - /repo/src/sims_pars/simulation/fn.py:27-32, from the parsed network on. -/
def allFloat (root : N) (bn : BN N V C O) : Result (Tree (NSet N)) := do
  inject bn (.node (new root [] (← bn.order)) [])

/-- The node set of `get_all_fixed_sc` - /repo/src/sims_pars/simulation/fn.py:35-40, from the parsed network on. -/
def allFixed (root : N) (bn : BN N V C O) : Result (Tree (NSet N)) := do
  inject bn (.node (new root (← bn.order) []) [])

/-- Attach a child; an earlier one with the same name is replaced
- /repo/src/sims_pars/simulation/nodeset.py:71-74. -/
def addChildL (c : Tree (NSet N)) : List (Tree (NSet N)) → List (Tree (NSet N))
  | [] => [c]
  | t :: ts => if t.label.name = c.label.name then c :: ts else t :: addChildL c ts

/-- `add_child` - /repo/src/sims_pars/simulation/nodeset.py:71-74. -/
def addChild (c : Tree (NSet N)) : Tree (NSet N) → Tree (NSet N)
  | .node a ts => .node a (addChildL c ts)

end NSet

end Model
