import Verif.Model.Dag
import Verif.Model.Loci
import Verif.Py.Dict

/-!
# `BayesianNetwork` (bayesnet/bn.py)
-/

namespace Model

open Py

/-- The dictionary that `form_js` produces - /repo/src/sims_pars/bayesnet/bn.py:30-39.  `rvRoots` is the key
that `bayes_net_from_json` reads and `form_js` never writes. -/
structure BNJson (N V C O : Type) where
  name : N
  nodes : List (LociJson N V C O)
  order : Option (List N)
  roots : Option (List N)
  leaves : Option (List N)
  exo : Option (List N)
  rvRoots : Option (List N)
  deriving DecidableEq

/-- A `BayesianNetwork` object - /repo/src/sims_pars/bayesnet/bn.py:53-64.  Node attributes of the DAG are the
dictionaries `loci` and `des`; `frozen` is `nx.is_frozen(self.DAG)`; the `c...` fields are the private caches and
`json`.  `udf` = `UserDefinedFunctions` (function names only).  The cached script text is left out. -/
structure BN (N V C O : Type) where
  name : N
  dag : Digraph N
  loci : Dict N (Loci N V C O)
  des : Dict N N
  udf : List N
  frozen : Bool
  cOrder : Option (List N)
  cRoots : Option (List N)
  cRvRoots : Option (List N)
  cLeaves : Option (List N)
  cExo : Option (List N)
  json : Option (BNJson N V C O)
  deriving DecidableEq

namespace BN

variable {N V C O S L : Type} [DecidableEq N]

/-- `BayesianNetwork(name)` - /repo/src/sims_pars/bayesnet/bn.py:54-64. -/
def empty (name : N) : BN N V C O :=
  ⟨name, Digraph.empty, [], [], [], false, none, none, none, none, none, none⟩

/-- `bn[item]` - /repo/src/sims_pars/bayesnet/bn.py:210-211 (`DAG.nodes[item]['loci']`). -/
def get (bn : BN N V C O) (x : N) : Result (Loci N V C O) :=
  match bn.loci.get? x with
  | some l => .ok l
  | none => .error .KeyError

/-- `DAG.add_node(name, loci=loci, **kwargs)`: creates the node or updates its attributes. -/
def addNodeAttr (bn : BN N V C O) (l : Loci N V C O) (des : Option N) : BN N V C O :=
  { bn with
    dag := bn.dag.addNode l.name
    loci := bn.loci.set l.name l
    des := match des with
      | some d => bn.des.set l.name d
      | none => bn.des }

/-- `DAG.remove_node(name)`: the node, its edges and its attributes; NetworkXError when absent. -/
def removeNode (bn : BN N V C O) (x : N) : BN N V C O × Result Unit :=
  match bn.dag.removeNode x with
  | .ok d => ({ bn with dag := d, loci := bn.loci.erase x, des := bn.des.erase x }, .ok ())
  | .error e => (bn, .error e)

/-- The nested call `self.append_loci(ExoValueLoci(pa))` - /repo/src/sims_pars/bayesnet/bn.py:81 - i.e. lines 66-90
for a definition without parents, on a network that is not frozen. -/
def appendExo (bn : BN N V C O) (pa : N) : BN N V C O × Result Unit :=
  let b1 := bn.addNodeAttr (.exo pa) none
  match b1.dag.removeInEdges pa with
  | (d, .error e) => ({ b1 with dag := d }, .error e)
  | (d, .ok ()) =>
    let b2 := { b1 with dag := d }
    if b2.dag.checkAcyclic then (b2, .ok ())
    else
      match b2.removeNode pa with
      | (b3, .error e) => (b3, .error e)
      | (b3, .ok ()) => (b3, .error .AttributeError)

/-- The loop over the parents - /repo/src/sims_pars/bayesnet/bn.py:78-83: returns the network, the newly created
parents and the outcome (an exception of the nested call escapes). -/
def addParents (name : N) : List N → BN N V C O → List N → BN N V C O × List N × Result Unit
  | [], bn, new => (bn, new, .ok ())
  | pa :: ps, bn, new =>
    if pa ∈ bn.dag.nodes then
      addParents name ps { bn with dag := bn.dag.addEdge pa name } new
    else
      match bn.appendExo pa with
      | (b1, .error e) => (b1, new, .error e)
      | (b1, .ok ()) =>
        addParents name ps { b1 with dag := b1.dag.addEdge pa name } (new ++ [pa])

/-- The clean-up loop - /repo/src/sims_pars/bayesnet/bn.py:88-89. -/
def removeNodes : List N → BN N V C O → BN N V C O × Result Unit
  | [], bn => (bn, .ok ())
  | x :: xs, bn =>
    match bn.removeNode x with
    | (b1, .ok ()) => removeNodes xs b1
    | r => r

/-- `append_loci` - /repo/src/sims_pars/bayesnet/bn.py:66-90.  Returns the network after the call (also when the
call raises) and the outcome. -/
def appendLoci (bn : BN N V C O) (l : Loci N V C O) (des : Option N := none) :
    BN N V C O × Result Unit :=
  if bn.frozen then (bn, .error .AttributeError)
  else
    let b1 := bn.addNodeAttr l des
    match b1.dag.removeInEdges l.name with
    | (d, .error e) => ({ b1 with dag := d }, .error e)
    | (d, .ok ()) =>
      match addParents l.name l.parents { b1 with dag := d } [] with
      | (b2, _, .error e) => (b2, .error e)
      | (b2, new, .ok ()) =>
        if b2.dag.checkAcyclic then (b2, .ok ())
        else
          match b2.removeNode l.name with
          | (b3, .error e) => (b3, .error e)
          | (b3, .ok ()) =>
            match removeNodes new b3 with
            | (b4, .error e) => (b4, .error e)
            | (b4, .ok ()) => (b4, .error .AttributeError)

/-- `append_from_js` - /repo/src/sims_pars/bayesnet/bn.py:92-97 (without a `Des` key). -/
def appendFromJs (sem : Sem N V C O S L) (bn : BN N V C O) (js : LociJson N V C O) :
    BN N V C O × Result Unit :=
  match lociFromJson sem js with
  | .ok l => bn.appendLoci l
  | .error e => (bn, .error e)

/-- `is_frozen` - /repo/src/sims_pars/bayesnet/bn.py:152-153. -/
def isFrozen (bn : BN N V C O) : Bool := bn.frozen

/-- `Order` - /repo/src/sims_pars/bayesnet/bn.py:155-157.  A frozen network serves the cache, which may be `None`
(then iterating over it is a TypeError). -/
def order (bn : BN N V C O) : Result (List N) :=
  if bn.frozen then
    match bn.cOrder with
    | some l => .ok l
    | none => .error .TypeError
  else bn.dag.order

/-- `is_rv` - /repo/src/sims_pars/bayesnet/bn.py:182-183. -/
def isRv (bn : BN N V C O) (x : N) : Result Bool := do return (← bn.get x).isDist

/-- `is_exogenous` - /repo/src/sims_pars/bayesnet/bn.py:178-180. -/
def isExogenous (bn : BN N V C O) (x : N) : Result Bool := do
  let l ← bn.get x
  return l.isPseudo || l.isExo

/-- `for a in ancestors: if is_rv(a): break / else` of `find_rv_roots` and the loop of `has_randomness`
- /repo/src/sims_pars/bayesnet/bn.py:18-20, 204-208: whether some listed node is a random variable. -/
def anyRv (bn : BN N V C O) : List N → Result Bool
  | [] => .ok false
  | a :: as => do
    if ← bn.isRv a then return true else anyRv bn as

/-- The loop of `find_rv_roots` - /repo/src/sims_pars/bayesnet/bn.py:16-22. -/
def rvRootsLoop (bn : BN N V C O) : List N → Result (List N)
  | [] => .ok []
  | k :: ks => do
    if ← bn.isRv k then
      let anc ← bn.dag.ancestors k
      if ← bn.anyRv anc then rvRootsLoop bn ks
      else return k :: (← rvRootsLoop bn ks)
    else rvRootsLoop bn ks

/-- `find_rv_roots` - /repo/src/sims_pars/bayesnet/bn.py:13-23. -/
def findRvRoots (bn : BN N V C O) : Result (List N) := do rvRootsLoop bn (← bn.order)

/-- `find_exo` - /repo/src/sims_pars/bayesnet/bn.py:26-27. -/
def findExo (bn : BN N V C O) : Result (List N) :=
  bn.dag.nodes.foldr (fun k acc => do
    let l ← bn.get k
    let r ← acc
    return if l.isExo then k :: r else r) (.ok [])

/-- A property served from the cache when frozen - /repo/src/sims_pars/bayesnet/bn.py:159-173. -/
def served (bn : BN N V C O) (cache : Option (List N)) (compute : Result (List N)) :
    Result (Option (List N)) :=
  if bn.frozen then .ok cache else do return some (← compute)

/-- `Roots` - /repo/src/sims_pars/bayesnet/bn.py:159-161. -/
def roots (bn : BN N V C O) : Result (Option (List N)) := bn.served bn.cRoots (.ok bn.dag.roots)
/-- `RVRoots` - /repo/src/sims_pars/bayesnet/bn.py:163-165. -/
def rvRoots (bn : BN N V C O) : Result (Option (List N)) := bn.served bn.cRvRoots bn.findRvRoots
/-- `Leaves` - /repo/src/sims_pars/bayesnet/bn.py:167-169. -/
def leaves (bn : BN N V C O) : Result (Option (List N)) := bn.served bn.cLeaves (.ok bn.dag.leaves)
/-- `Exo` - /repo/src/sims_pars/bayesnet/bn.py:171-173. -/
def exo (bn : BN N V C O) : Result (Option (List N)) := bn.served bn.cExo bn.findExo

/-- `Order` as the raw attribute (possibly `None`), as stored in the JSON. -/
def orderRaw (bn : BN N V C O) : Result (Option (List N)) := bn.served bn.cOrder bn.dag.order

/-- The node list of `form_js` - /repo/src/sims_pars/bayesnet/bn.py:31. -/
def nodesJson (f : N) (bn : BN N V C O) : Result (List (LociJson N V C O)) :=
  bn.dag.nodes.mapM (fun x => do return (← bn.get x).toJson f)

/-- `form_js` - /repo/src/sims_pars/bayesnet/bn.py:30-39. -/
def formJs (f : N) (bn : BN N V C O) : Result (BNJson N V C O) := do
  return ⟨bn.name, ← bn.nodesJson f, ← bn.orderRaw, ← bn.roots, ← bn.leaves, ← bn.exo, none⟩

/-- `complete` - /repo/src/sims_pars/bayesnet/bn.py:132-140 (the script text is left out).  The graph is frozen
first; an exception leaves the caches computed so far. -/
def complete (f : N) (bn : BN N V C O) : BN N V C O × Result Unit :=
  let b0 := { bn with frozen := true }
  match b0.dag.order with
  | .error e => (b0, .error e)
  | .ok od =>
    let b1 := { b0 with cOrder := some od }
    let b2 := { b1 with cRoots := some b1.dag.roots }
    match b2.findRvRoots with
    | .error e => (b2, .error e)
    | .ok rr =>
      let b3 := { b2 with cRvRoots := some rr }
      let b4 := { b3 with cLeaves := some b3.dag.leaves }
      match b4.findExo with
      | .error e => (b4, .error e)
      | .ok ex =>
        let b5 := { b4 with cExo := some ex }
        match b5.formJs f with
        | .error e => (b5, .error e)
        | .ok js => ({ b5 with json := some js }, .ok ())

/-- `defrost` - /repo/src/sims_pars/bayesnet/bn.py:142-150: `DAG(self.DAG)` is an unfrozen copy with the same
nodes, attributes and edges. -/
def defrost (bn : BN N V C O) : BN N V C O :=
  { bn with frozen := false, cOrder := none, cRoots := none, cRvRoots := none, cLeaves := none,
            cExo := none, json := none }

/-- `to_json` - /repo/src/sims_pars/bayesnet/bn.py:222-223. -/
def toJson (f : N) (bn : BN N V C O) : Result (BNJson N V C O) :=
  if bn.frozen then
    match bn.json with
    | some js => .ok js
    | none => .error .TypeError
  else bn.formJs f

/-- `for node in nodes: bn.append_from_js(node)`. -/
def appendAllJs (sem : Sem N V C O S L) : List (LociJson N V C O) → BN N V C O →
    BN N V C O × Result Unit
  | [], bn => (bn, .ok ())
  | j :: js, bn =>
    match bn.appendFromJs sem j with
    | (b1, .ok ()) => appendAllJs sem js b1
    | r => r

/-- `bayes_net_from_json` - /repo/src/sims_pars/bayesnet/bn.py:313-330.  `nx.freeze(bn)` sets attributes on the
network object, not on its DAG, so the network stays editable; outside the class body the `bn.__order = ...`
assignments do not reach the private caches.  What remains visible is the lookup of the five keys. -/
def fromJson (sem : Sem N V C O S L) (js : BNJson N V C O) : Result (BN N V C O) :=
  match appendAllJs sem js.nodes (BN.empty js.name) with
  | (_, .error e) => .error e
  | (bn, .ok ()) =>
    match js.rvRoots with
    | none => .error .KeyError
    | some _ => .ok { bn with json := some js }

/-- `clone` - /repo/src/sims_pars/bayesnet/bn.py:219-220. -/
def clone (f : N) (sem : Sem N V C O S L) (bn : BN N V C O) : Result (BN N V C O) := do
  fromJson sem (← bn.toJson f)

/-- `copy` - /repo/src/sims_pars/bayesnet/bn.py:266-281. -/
def copy (f : N) (sem : Sem N V C O S L) (bn : BN N V C O) (newName : Option N) :
    Result (BN N V C O) :=
  let b0 : BN N V C O := BN.empty (newName.getD bn.name)
  if bn.frozen then
    match bn.json with
    | none => .error .TypeError
    | some js =>
      match appendAllJs sem js.nodes b0 with
      | (_, .error e) => .error e
      | (b1, .ok ()) =>
        match b1.complete f with
        | (_, .error e) => .error e
        | (b2, .ok ()) => .ok { b2 with udf := bn.udf }
  else do
    let js ← bn.nodesJson f
    match appendAllJs sem js b0 with
    | (_, .error e) => .error e
    | (b1, .ok ()) => .ok { b1 with udf := bn.udf }

/-- The first loop of `merge` - /repo/src/sims_pars/bayesnet/bn.py:239-244. -/
def mergeLoop (f : N) (sem : Sem N V C O S L) (sub : BN N V C O) : List N → BN N V C O →
    BN N V C O × Result Unit
  | [], bn => (bn, .ok ())
  | x :: xs, bn =>
    match sub.isExogenous x with
    | .error e => (bn, .error e)
    | .ok true => mergeLoop f sem sub xs bn
    | .ok false =>
      let r1 := if x ∈ bn.dag.nodes then bn.removeNode x else (bn, .ok ())
      match r1 with
      | (b1, .error e) => (b1, .error e)
      | (b1, .ok ()) =>
        match sub.get x with
        | .error e => (b1, .error e)
        | .ok l =>
          match b1.appendFromJs sem (l.toJson f) with
          | (b2, .ok ()) => mergeLoop f sem sub xs b2
          | r => r

/-- The first loop of `__check_edges` - /repo/src/sims_pars/bayesnet/bn.py:114-122.  Returns the network and the
names that are parents by definition but not in the graph. -/
def checkEdgesLoop : List N → BN N V C O → List N → BN N V C O × Result (List N)
  | [], bn, exo => (bn, .ok exo)
  | x :: xs, bn, exo =>
    match bn.get x with
    | .error e => (bn, .error e)
    | .ok l =>
      match bn.dag.removeEdges (((bn.dag.preds x).filter (· ∉ l.parents)).map (fun k => (k, x))) with
      | (d, .error e) => ({ bn with dag := d }, .error e)
      | (d, .ok ()) =>
        checkEdgesLoop xs { bn with dag := d } (exo ++ l.parents.filter (· ∉ d.preds x))

/-- `for node in exo: self.append_loci(ExoValueLoci(node))` - /repo/src/sims_pars/bayesnet/bn.py:124-125. -/
def appendExos : List N → BN N V C O → BN N V C O × Result Unit
  | [], bn => (bn, .ok ())
  | x :: xs, bn =>
    match bn.appendLoci (.exo x) with
    | (b1, .ok ()) => appendExos xs b1
    | r => r

/-- The last loop of `__check_edges` - /repo/src/sims_pars/bayesnet/bn.py:127-130. -/
def dropChildless : List N → BN N V C O → BN N V C O × Result Unit
  | [], bn => (bn, .ok ())
  | x :: xs, bn =>
    match bn.dag.children x with
    | .error e => (bn, .error e)
    | .ok [] =>
      match bn.removeNode x with
      | (b1, .ok ()) => dropChildless xs b1
      | r => r
    | .ok _ => dropChildless xs bn

/-- `__check_edges` - /repo/src/sims_pars/bayesnet/bn.py:113-130. -/
def checkEdges (bn : BN N V C O) : BN N V C O × Result Unit :=
  match bn.dag.order with
  | .error e => (bn, .error e)
  | .ok od =>
    match checkEdgesLoop od bn [] with
    | (b1, .error e) => (b1, .error e)
    | (b1, .ok exo) =>
      match appendExos exo.dedup b1 with
      | (b2, .error e) => (b2, .error e)
      | (b2, .ok ()) =>
        match b2.findExo with
        | .error e => (b2, .error e)
        | .ok ex => dropChildless ex b2

/-- `merge` - /repo/src/sims_pars/bayesnet/bn.py:234-249. -/
def merge (f : N) (sem : Sem N V C O S L) (bn : BN N V C O) (newName : N) (sub : BN N V C O) :
    Result (BN N V C O) :=
  if newName = bn.name ∨ newName = sub.name then .error .AssertionError
  else do
    let b0 ← bn.copy f sem (some newName)
    let b1 := b0.defrost
    let od ← sub.order
    match mergeLoop f sem sub od b1 with
    | (_, .error e) => .error e
    | (b2, .ok ()) =>
      match b2.checkEdges with
      | (_, .error e) => .error e
      | (b3, .ok ()) => .ok { b3 with udf := (b3.udf ++ bn.udf ++ sub.udf).dedup }

/-- The loop of `extend` - /repo/src/sims_pars/bayesnet/bn.py:259-261: `append_from_definition(node)` gets the bare
node name, and a bare name is parsed as an exogenous definition
(/repo/src/sims_pars/bayesnet/loci.py:267-268). -/
def extendLoop (override : Bool) (ext : List N) : List N → BN N V C O → BN N V C O × Result Unit
  | [], bn => (bn, .ok ())
  | x :: xs, bn =>
    if override || decide (x ∉ ext) then
      match bn.appendLoci (.exo x) with
      | (b1, .ok ()) => extendLoop override ext xs b1
      | r => r
    else extendLoop override ext xs bn

/-- `extend` - /repo/src/sims_pars/bayesnet/bn.py:251-264. -/
def extend (f : N) (bn : BN N V C O) (newBn : Option (BN N V C O)) (override : Bool) :
    Result (BN N V C O) := do
  let od ← bn.order
  match newBn with
  | none =>
    match extendLoop override [] od (BN.empty bn.name) with
    | (_, .error e) => .error e
    | (b1, .ok ()) =>
      match b1.complete f with
      | (_, .error e) => .error e
      | (b2, .ok ()) => .ok b2
  | some nb =>
    let nb := nb.defrost
    let ext ← nb.order
    match extendLoop override ext od nb with
    | (_, .error e) => .error e
    | (b1, .ok ()) =>
      match b1.complete f with
      | (_, .error e) => .error e
      | (b2, .ok ()) => .ok b2

/-- The requirement list of `has_randomness` / `is_deterministic` when `given` is non-empty
- /repo/src/sims_pars/bayesnet/bn.py:189-190, 199-200. -/
def requirementsGiven (bn : BN N V C O) (x : N) (given : List N) : Result (List N) := do
  return (← bn.dag.minimalRequirements x given).filter (· ∉ given)

/-- `has_randomness` - /repo/src/sims_pars/bayesnet/bn.py:195-208 (`given = []` covers the default `None`). -/
def hasRandomness (bn : BN N V C O) (x : N) (given : List N) : Result Bool := do
  if ← bn.isRv x then return true
  else if given.isEmpty then bn.anyRv (← bn.dag.ancestors x)
  else bn.anyRv (← bn.requirementsGiven x given)

/-- `all(isinstance(self[d], ValueLoci) for d in req)`. -/
def allValue (bn : BN N V C O) : List N → Result Bool
  | [] => .ok true
  | a :: as => do
    if (← bn.get a).isValue then allValue bn as else return false

/-- `is_deterministic` - /repo/src/sims_pars/bayesnet/bn.py:185-193. -/
def isDeterministic (bn : BN N V C O) (x : N) (given : List N) : Result Bool := do
  if (← bn.get x).isValue then return true
  else if given.isEmpty then return false
  else bn.allValue (← bn.requirementsGiven x given)

/-- `sort` - /repo/src/sims_pars/bayesnet/bn.py:216-217. -/
def sort (bn : BN N V C O) (xs : List N) : Result (List N) := do
  return (← bn.order).filter (· ∈ xs)

end BN

end Model
