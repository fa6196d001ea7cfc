import Verif.Model.NodeSet
import Verif.Model.Sampling

/-!
# Parameter cores, groups and actors (simulation/simucore.py, simugroup.py, parcore.py, actor.py)

A hierarchy of parameter cores is a tree; a core is addressed by the nicknames on the way down to it.  A core reads
through its ancestors, so functions on a core take the dictionaries of its ancestors, nearest first.  Cores that are
no longer among the `Children` of their parent are not modelled, nor are printing and `to_json`.  Siblings, prototypes
and `PseudoParameterCore` are in `Model/Relatives.lean`.
-/

namespace Model

open Py

variable {N V C O S K : Type} [DecidableEq N]

/-- `SimulationGroup.__init__` - /repo/src/sims_pars/simulation/simugroup.py:8-18. -/
structure Group (N : Type) where
  name : N
  children : List N
  listening : List N
  exogenous : List N
  fixed : List N
  floating : List N
  localA : Dict N (Blueprint N)
  sharedA : Dict N (Blueprint N)
  deriving DecidableEq

/-- `SimulationGroup(ns)`. -/
def Group.ofSet (a : NSet N) (kids : List (Tree (NSet N))) : Group N :=
  ⟨a.name, kids.map (fun t => t.label.name), a.listening, a.exo, a.fixed, a.floating, a.localS, a.sharedS⟩

mutual
/-- `get_simulation_groups` - /repo/src/sims_pars/simulation/simucore.py:9-20: by name, a later one replaces an
earlier one of the same name. -/
def simGroups : Tree (NSet N) → Dict N (Group N) → Dict N (Group N)
  | .node a ts, d => simGroupsL ts (d.set a.name (.ofSet a ts))
/-- Of a list of children. -/
def simGroupsL : List (Tree (NSet N)) → Dict N (Group N) → Dict N (Group N)
  | [], d => d
  | t :: ts, d => simGroupsL ts (simGroups t d)
end

/-- `SimulationCore` - /repo/src/sims_pars/simulation/simucore.py:23-31. -/
structure SimCore (N V C O : Type) where
  bn : BN N V C O
  root : N
  groups : Dict N (Group N)

/-- `SimulationCore(bn, root)`. -/
def SimCore.new (bn : BN N V C O) (t : Tree (NSet N)) : SimCore N V C O := ⟨bn, t.label.name, simGroups t []⟩

/-- `as_simulation_core(bn, ns)` - /repo/src/sims_pars/simulation/fn.py:13-24. -/
def asSimCore (bn : BN N V C O) (t : Tree (NSet N)) : Result (SimCore N V C O) := do
  return .new bn (← NSet.inject bn t)

/-! ## Actors -/

/-- What a `FrozenSingleActor` keeps in `Sampler`: a distribution or a value. -/
inductive Frozen (V S K : Type)
  | dist (d : Dist V S (XR K))
  | val (v : V)

/-- An actor - /repo/src/sims_pars/simulation/actor.py:8-12, 29-32, 54-56, 69-72; `flow` is used by compound actors,
`sampler` by frozen ones. -/
structure Actor (N V C O S K : Type) where
  field : N
  type : ActorType
  loci : Loci N V C O
  toRead : List N
  flow : List (Loci N V C O)
  sampler : Option (Frozen V S K)

/-- `compose_actor` - /repo/src/sims_pars/simulation/nodeset.py:20-27. -/
def Blueprint.compose (bn : BN N V C O) (b : Blueprint N) : Result (Actor N V C O S K) := do
  match b.type with
  | .compound =>
    let flow ← b.toSample.mapM bn.get
    return ⟨b.name, .compound, ← bn.get b.name, b.toRead, flow, none⟩
  | t => return ⟨b.name, t, ← bn.get b.name, b.toRead, [], none⟩

namespace Actor

/-- The dictionary `up` of `read_upstream` - /repo/src/sims_pars/simulation/actor.py:18-26: names that cannot be read
are left out. -/
def readUpstream (toRead : List N) (pas : N → Option V) : Dict N V :=
  toRead.foldl (fun up p => match pas p with | some v => up.set p v | none => up) []

/-- `FrozenSingleActor.update` - /repo/src/sims_pars/simulation/actor.py:40-45. -/
def update (sem : Sem N V C O S (XR K)) (a : Actor N V C O S K) (pas : N → Option V) (s : S) :
    Actor N V C O S K × S × Result Unit :=
  let up := readUpstream a.toRead pas
  match a.loci with
  | .dist _ f _ =>
    match getDistribution sem f up.get? with
    | .ok d => ({ a with sampler := some (.dist d) }, s, .ok ())
    | .error e => (a, s, .error e)
  | l =>
    match l.render sem up.get? s with
    | (.ok v, s') => ({ a with sampler := some (.val v) }, s', .ok ())
    | (.error e, s') => (a, s', .error e)

/-- The loop of `CompoundActor.sample` - /repo/src/sims_pars/simulation/actor.py:77-78. -/
def flowLoop (sem : Sem N V C O S (XR K)) : List (Loci N V C O) → Dict N V → S → Result (Dict N V) × S
  | [], pas, s => (.ok pas, s)
  | l :: ls, pas, s =>
    match l.render sem pas.get? s with
    | (.error e, s') => (.error e, s')
    | (.ok v, s') => flowLoop sem ls (pas.set l.name v) s'

/-- `sample` of each kind of actor - /repo/src/sims_pars/simulation/actor.py:34-38, 58-60, 74-79.  A frozen actor that
was never updated has `Sampler` None: an AttributeError for distributions, else None (`noneV`). -/
def sample (sem : Sem N V C O S (XR K)) (noneV : V) (a : Actor N V C O S K) (pas : N → Option V) (s : S) : Result V × S :=
  match a.type with
  | .frozen =>
    if a.loci.isDist then
      match a.sampler with
      | some (.dist d) => d.sample s
      | _ => (.error .AttributeError, s)
    else
      match a.sampler with
      | some (.val v) => (.ok v, s)
      | _ => (.ok noneV, s)
  | .single => a.loci.render sem (readUpstream a.toRead pas).get? s
  | .compound =>
    match flowLoop sem a.flow (readUpstream a.toRead pas) s with
    | (.error e, s') => (.error e, s')
    | (.ok up, s') => a.loci.render sem up.get? s'

/-- The loop of `sample_with_mediators` - /repo/src/sims_pars/simulation/actor.py:85-86: `pas` and `res`. -/
def flowLoop2 (sem : Sem N V C O S (XR K)) : List (Loci N V C O) → Dict N V → Dict N V → S → Result (Dict N V × Dict N V) × S
  | [], pas, res, s => (.ok (pas, res), s)
  | l :: ls, pas, res, s =>
    match l.render sem pas.get? s with
    | (.error e, s') => (.error e, s')
    | (.ok v, s') => flowLoop2 sem ls (pas.set l.name v) (res.set l.name v) s'

/-- `sample_with_mediators` - /repo/src/sims_pars/simulation/actor.py:81-88. -/
def sampleWithMediators (sem : Sem N V C O S (XR K)) (a : Actor N V C O S K) (pas : N → Option V) (s : S) : Result (Dict N V) × S :=
  match flowLoop2 sem a.flow (readUpstream a.toRead pas) [] s with
  | (.error e, s') => (.error e, s')
  | (.ok (up, res), s') =>
    match a.loci.render sem up.get? s' with
    | (.error e, s'') => (.error e, s'')
    | (.ok v, s'') => (.ok (res.set a.field v), s'')

/-- `isinstance(v, FrozenSingleActor)`. -/
def isFrozen (a : Actor N V C O S K) : Bool := a.type = .frozen

end Actor

/-! ## Cores -/

/-- A `ParameterCore` without its links - /repo/src/sims_pars/simulation/parcore.py:9-16.  `logPrior` is the attribute
`LogPrior`, which `__init__` does not set; `logLike` is `LogLikelihood`, which nothing in the package sets. -/
structure Core (N V C O S K : Type) where
  nick : N
  group : Group N
  locus : Dict N V
  logProb : XR K
  logPrior : Option (XR K) := none
  actors : Option (Dict N (Actor N V C O S K)) := none
  childActors : Option (Dict N (Dict N (Actor N V C O S K))) := none
  logLike : Option (XR K) := none

/-- `pc[item]` along a chain of cores, nearest first - /repo/src/sims_pars/simulation/parcore.py:227-234.  At the root
`self.Parent[item]` is a TypeError, which is caught. -/
def chainGet : List (Dict N V) → N → Result V
  | [], _ => .error .KeyError
  | d :: up, x =>
    match d.get? x with
    | some v => .ok v
    | none =>
      match chainGet up x with
      | .ok v => .ok v
      | .error _ => .error .KeyError

/-- The same as a mapping, as `eval` uses it. -/
def chainMap (up : List (Dict N V)) (x : N) : Option V := (chainGet up x).toOption

/-- `iter(pc)` - /repo/src/sims_pars/simulation/parcore.py:220-225: the pairs in the order they are yielded. -/
def chainIter : List (Dict N V) → List (N × V)
  | [] => []
  | d :: up => chainIter up ++ d

namespace Core

variable [AddCommMonoid K]

/-- The loop over `Exogenous` in `generate` - /repo/src/sims_pars/simulation/simugroup.py:34-39.  `fill` stores the
value and returns None, which the assignment then stores (`noneV`). -/
def readExo (sem : Sem N V C O S (XR K)) (noneV : V) (bn : BN N V C O) (up : List (Dict N V)) :
    List N → Dict N V → S → Result (Dict N V) × S
  | [], vs, s => (.ok vs, s)
  | d :: ds, vs, s =>
    if d ∈ vs.keys then readExo sem noneV bn up ds vs s
    else
      match chainGet up d with
      | .ok v => readExo sem noneV bn up ds (vs.set d v) s
      | .error _ =>
        match bn.get d with
        | .error e => (.error e, s)
        | .ok l =>
          match l.render sem vs.get? s with
          | (.error e, s') => (.error e, s')
          | (.ok _, s') => readExo sem noneV bn up ds (vs.set d noneV) s'

/-- `if d in vs: prior += loci.evaluate(vs)` - /repo/src/sims_pars/simulation/simugroup.py:50-51. -/
def addPrior (sem : Sem N V C O S (XR K)) (l : Loci N V C O) (d : N) (vs : Dict N V) (prior : XR K) : Result (XR K) :=
  if d ∈ vs.keys then do return prior + (← l.evaluate sem vs.get?) else .ok prior

/-- The loop over `Fixed` in `generate` - /repo/src/sims_pars/simulation/simugroup.py:41-51. -/
def fillFixed (sem : Sem N V C O S (XR K)) (bn : BN N V C O) :
    List N → Dict N V → XR K → S → Result (Dict N V × XR K) × S
  | [], vs, p, s => (.ok (vs, p), s)
  | d :: ds, vs, p, s =>
    match bn.get d with
    | .error e => (.error e, s)
    | .ok l =>
      if d ∈ vs.keys then
        match addPrior sem l d vs p with
        | .error e => (.error e, s)
        | .ok p => fillFixed sem bn ds vs p s
      else
        match l.render sem vs.get? s with
        | (.ok v, s') =>
          match addPrior sem l d (vs.set d v) p with
          | .error e => (.error e, s')
          | .ok p => fillFixed sem bn ds (vs.set d v) p s'
        | (.error .KeyError, s') => fillFixed sem bn ds vs p s'
        | (.error e, s') => (.error e, s')

/-- `SimulationGroup.generate(nickname, parent, exo)` - /repo/src/sims_pars/simulation/simugroup.py:24-60; `up` are the
dictionaries of the parent and its ancestors (empty for no parent). -/
def generate (sem : Sem N V C O S (XR K)) (noneV : V) (bn : BN N V C O) (g : Group N) (nick : N) (up : List (Dict N V))
    (exo : Dict N V) (s : S) : Result (Core N V C O S K) × S :=
  match readExo sem noneV bn up g.exogenous exo s with
  | (.error e, s') => (.error e, s')
  | (.ok vs, s') =>
    match fillFixed sem bn g.fixed vs 0 s' with
    | (.error e, s'') => (.error e, s'')
    | (.ok (vs, prior), s'') =>
      (.ok { nick := nick, group := g, locus := (vs.filterItems (fun k _ => k ∈ g.fixed)).update exo, logProb := prior }, s'')

/-- `SimulationCore.generate(nickname, exo)` - /repo/src/sims_pars/simulation/simucore.py:42-51 (a nickname is given). -/
def generateRoot (sem : Sem N V C O S (XR K)) (noneV : V) (sc : SimCore N V C O) (nick : N) (exo : Dict N V) (s : S) :
    Result (Core N V C O S K) × S :=
  match sc.groups.get? sc.root with
  | none => (.error .KeyError, s)
  | some g => generate sem noneV sc.bn g nick [] exo s

/-- `pc[key] = value` - /repo/src/sims_pars/bayesnet/chromosome.py:25-27. -/
def set (c : Core N V C O S K) (x : N) (v : V) : Core N V C O S K := { c with locus := c.locus.set x v, logProb := .nan }

/-- The loop of `set_response` - /repo/src/sims_pars/simulation/simugroup.py:85-92; `up` are the dictionaries of the
ancestors. -/
def respond (sem : Sem N V C O S (XR K)) (bn : BN N V C O) (up : List (Dict N V)) (imp : Dict N V) (shocked : List N) :
    List N → XR K → Core N V C O S K → S → Core N V C O S K × S × Result (XR K)
  | [], p, c, s => (c, s, .ok p)
  | d :: ds, p, c, s =>
    match bn.get d with
    | .error e => (c, s, .error e)
    | .ok l =>
      match imp.get? d with
      | some v =>
        let c := { c with locus := c.locus.set d v }
        match l.evaluate sem (chainMap (c.locus :: up)) with
        | .error e => (c, s, .error e)
        | .ok q => respond sem bn up imp shocked ds (p + q) c s
      | none =>
        if d ∈ shocked then
          match l.render sem (chainMap (c.locus :: up)) s with
          | (.error e, s') => (c, s', .error e)
          | (.ok v, s') =>
            let c := c.set d v
            match l.evaluate sem (chainMap (c.locus :: up)) with
            | .error e => (c, s', .error e)
            | .ok q => respond sem bn up imp shocked ds (p + q) c s'
        else
          match l.evaluate sem (chainMap (c.locus :: up)) with
          | .error e => (c, s, .error e)
          | .ok q => respond sem bn up imp shocked ds (p + q) c s

/-- Update the frozen actors named in the list - /repo/src/sims_pars/simulation/simugroup.py:96-97. -/
def updateActors (sem : Sem N V C O S (XR K)) (pas : N → Option V) (shocked : List N) :
    Dict N (Actor N V C O S K) → S → Dict N (Actor N V C O S K) × S × Result Unit
  | [], s => ([], s, .ok ())
  | (k, a) :: r, s =>
    if k ∈ shocked && a.isFrozen then
      match a.update sem pas s with
      | (a', s', .error e) => ((k, a') :: r, s', .error e)
      | (a', s', .ok ()) =>
        let (r', s'', o) := updateActors sem pas shocked r s'
        ((k, a') :: r', s'', o)
    else
      let (r', s', o) := updateActors sem pas shocked r s
      ((k, a) :: r', s', o)

/-- Those of the children, group by group - /repo/src/sims_pars/simulation/simugroup.py:99-101. -/
def updateHoisted (sem : Sem N V C O S (XR K)) (pas : N → Option V) (shocked : List N) :
    Dict N (Dict N (Actor N V C O S K)) → S → Dict N (Dict N (Actor N V C O S K)) × S × Result Unit
  | [], s => ([], s, .ok ())
  | (g, d) :: r, s =>
    match updateActors sem pas shocked d s with
    | (d', s', .error e) => ((g, d') :: r, s', .error e)
    | (d', s', .ok ()) =>
      let (r', s'', o) := updateHoisted sem pas shocked r s'
      ((g, d') :: r', s'', o)

/-- `updateActors` on `Actors`, which may be None. -/
def updateLocal (sem : Sem N V C O S (XR K)) (pas : N → Option V) (shocked : List N) (c : Core N V C O S K) (s : S) :
    Core N V C O S K × S × Result Unit :=
  match c.actors with
  | none => (c, s, .ok ())
  | some d =>
    let (d', s', o) := updateActors sem pas shocked d s
    ({ c with actors := some d' }, s', o)

/-- `updateHoisted` on `ChildrenActors`, which may be None. -/
def updateShared (sem : Sem N V C O S (XR K)) (pas : N → Option V) (shocked : List N) (c : Core N V C O S K) (s : S) :
    Core N V C O S K × S × Result Unit :=
  match c.childActors with
  | none => (c, s, .ok ())
  | some d =>
    let (d', s', o) := updateHoisted sem pas shocked d s
    ({ c with childActors := some d' }, s', o)

/-- `SimulationGroup.set_response` - /repo/src/sims_pars/simulation/simugroup.py:84-101; `shocked` is the whole set of
shocked nodes, of which those in `Locus` are drawn again and those with frozen actors are updated
(/repo/src/sims_pars/simulation/parcore.py:180-196). -/
def setResponse (sem : Sem N V C O S (XR K)) (bn : BN N V C O) (up : List (Dict N V)) (imp : Dict N V) (shocked : List N)
    (c : Core N V C O S K) (s : S) : Core N V C O S K × S × Result Unit :=
  match respond sem bn up imp (shocked.filter (· ∈ c.locus.keys)) c.group.fixed 0 c s with
  | (c, s, .error e) => (c, s, .error e)
  | (c, s, .ok prior) =>
    let c := { c with logPrior := some prior }
    match c.updateLocal sem (chainMap (c.locus :: up)) shocked s with
    | (c, s, .error e) => (c, s, .error e)
    | (c, s, .ok ()) => c.updateShared sem (chainMap (c.locus :: up)) shocked s

/-- `reset_probability` when a value was shocked - /repo/src/sims_pars/simulation/parcore.py:201-202; `held` is
`shocked_locus`. -/
def finish (held : List N) (c : Core N V C O S K) : Core N V C O S K :=
  if held.isEmpty then c else { c with logProb := .nan }

end Core

/-! ## Actors of cores -/

namespace Core

/-- Compose the actors and update the frozen ones - /repo/src/sims_pars/simulation/simugroup.py:62-73.  All are composed
first, then updated in order. -/
def composeAll (bn : BN N V C O) (d : Dict N (Blueprint N)) : Result (Dict N (Actor N V C O S K)) :=
  d.mapM (fun p => do return (p.1, ← p.2.compose bn))

/-- `v.update(pc)` for the frozen ones. -/
def freezeAll (sem : Sem N V C O S (XR K)) (pas : N → Option V) :
    Dict N (Actor N V C O S K) → S → Result (Dict N (Actor N V C O S K)) × S
  | [], s => (.ok [], s)
  | (k, a) :: r, s =>
    if a.isFrozen then
      match a.update sem pas s with
      | (_, s', .error e) => (.error e, s')
      | (a', s', .ok ()) =>
        match freezeAll sem pas r s' with
        | (.error e, s'') => (.error e, s'')
        | (.ok r', s'') => (.ok ((k, a') :: r'), s'')
    else
      match freezeAll sem pas r s with
      | (.error e, s') => (.error e, s')
      | (.ok r', s') => (.ok ((k, a) :: r'), s')

/-- `put_local_actors(pc)` - /repo/src/sims_pars/simulation/simugroup.py:62-67. -/
def putLocal (sem : Sem N V C O S (XR K)) (bn : BN N V C O) (up : List (Dict N V)) (c : Core N V C O S K) (s : S) :
    Core N V C O S K × S × Result Unit :=
  match composeAll bn c.group.localA with
  | .error e => (c, s, .error e)
  | .ok d =>
    match freezeAll sem (chainMap (c.locus :: up)) d s with
    | (.error e, s') => (c, s', .error e)
    | (.ok d', s') => ({ c with actors := some d' }, s', .ok ())

/-- `put_shared_actors_on_parent(parent)` of a child group `g`
- /repo/src/sims_pars/simulation/simugroup.py:69-76; `c` is the parent. -/
def putShared (sem : Sem N V C O S (XR K)) (bn : BN N V C O) (g : Group N) (up : List (Dict N V)) (c : Core N V C O S K) (s : S) :
    Core N V C O S K × S × Result Unit :=
  match composeAll bn g.sharedA with
  | .error e => (c, s, .error e)
  | .ok d =>
    match freezeAll sem (chainMap (c.locus :: up)) d s with
    | (.error e, s') => (c, s', .error e)
    | (.ok d', s') => ({ c with childActors := some ((c.childActors.getD []).set g.name d') }, s', .ok ())

end Core

/-! ## The same with dictionaries as objects

Dictionaries are addresses in a heap, so that writing to the dictionary of a core would be seen. -/

/-- The dictionaries that exist. -/
abbrev Heap (N V : Type) := List (Dict N V)

namespace Heap

/-- The dictionary at an address. -/
def cell (h : Heap N V) (r : Nat) : Dict N V := (h[r]?).getD []

/-- `d[k] = v`. -/
def put (h : Heap N V) (r : Nat) (k : N) (v : V) : Heap N V := h.set r ((h.cell r).set k v)

/-- What the core reads whose dictionary is the first of these. -/
def chain (h : Heap N V) (cs : List Nat) : List (Dict N V) := cs.map h.cell

end Heap

namespace Actor

/-- The loop of `read_upstream` writing into `up` - /repo/src/sims_pars/simulation/actor.py:20-25. -/
def readLoopH (cs : List Nat) (up : Nat) : List N → Heap N V → Heap N V
  | [], h => h
  | p :: ps, h =>
    match chainGet (h.chain cs) p with
    | .ok v => readLoopH cs up ps (h.put up p v)
    | .error _ => readLoopH cs up ps h

/-- `read_upstream` - /repo/src/sims_pars/simulation/actor.py:18-26: `up` is a new dictionary. -/
def readUpstreamH (toRead : List N) (cs : List Nat) (h : Heap N V) : Nat × Heap N V :=
  (h.length, readLoopH cs h.length toRead (h ++ [[]]))

/-- The loop of `CompoundActor.sample` - /repo/src/sims_pars/simulation/actor.py:77-78. -/
def flowLoopH (sem : Sem N V C O S (XR K)) (pas : Nat) : List (Loci N V C O) → Heap N V → S → Result Unit × S × Heap N V
  | [], h, s => (.ok (), s, h)
  | l :: ls, h, s =>
    match l.render sem (h.cell pas).get? s with
    | (.error e, s') => (.error e, s', h)
    | (.ok v, s') => flowLoopH sem pas ls (h.put pas l.name v) s'

/-- `sample` - the lines at `Actor.sample`; the core whose dictionaries are `cs` is passed. -/
def sampleH (sem : Sem N V C O S (XR K)) (noneV : V) (a : Actor N V C O S K) (cs : List Nat) (h : Heap N V) (s : S) :
    Result V × S × Heap N V :=
  match a.type with
  | .frozen =>
    if a.loci.isDist then
      match a.sampler with
      | some (.dist d) => ((d.sample s).1, (d.sample s).2, h)
      | _ => (.error .AttributeError, s, h)
    else
      match a.sampler with
      | some (.val v) => (.ok v, s, h)
      | _ => (.ok noneV, s, h)
  | .single =>
    let (pas, h) := readUpstreamH a.toRead cs h
    let r := a.loci.render sem (h.cell pas).get? s
    (r.1, r.2, h)
  | .compound =>
    let (pas, h) := readUpstreamH a.toRead cs h
    match flowLoopH sem pas a.flow h s with
    | (.error e, s', h) => (.error e, s', h)
    | (.ok (), s', h) =>
      let r := a.loci.render sem (h.cell pas).get? s'
      (r.1, r.2, h)

end Actor

/-- A hierarchy of cores. -/
abbrev CoreTree (N V C O S K : Type) := Tree (Core N V C O S K)

namespace CoreTree

variable [AddCommMonoid K]

open Core in
mutual
/-- `__set_response` - /repo/src/sims_pars/simulation/parcore.py:179-202. -/
def setResponse (sem : Sem N V C O S (XR K)) (bn : BN N V C O) (imp : Dict N V) (shocked : List N) (up : List (Dict N V)) :
    CoreTree N V C O S K → S → CoreTree N V C O S K × S × Result Unit
  | .node c ts, s =>
    match Core.setResponse sem bn up imp shocked c s with
    | (c', s', .error e) => (.node c' ts, s', .error e)
    | (c', s', .ok ()) =>
      match setResponseL sem bn imp shocked (c'.locus :: up) ts s' with
      | (ts', s'', .error e) => (.node c' ts', s'', .error e)
      | (ts', s'', .ok ()) => (.node (finish (shocked.filter (· ∈ c.locus.keys)) c') ts', s'', .ok ())
/-- Of the children in turn. -/
def setResponseL (sem : Sem N V C O S (XR K)) (bn : BN N V C O) (imp : Dict N V) (shocked : List N) (up : List (Dict N V)) :
    List (CoreTree N V C O S K) → S → List (CoreTree N V C O S K) × S × Result Unit
  | [], s => ([], s, .ok ())
  | t :: ts, s =>
    match setResponse sem bn imp shocked up t s with
    | (t', s', .error e) => (t' :: ts, s', .error e)
    | (t', s', .ok ()) =>
      match setResponseL sem bn imp shocked up ts s' with
      | (ts', s'', o) => (t' :: ts', s'', o)
end

/-- The argument of `impulse`: a dictionary (None is `none`), a list, or something else. -/
inductive Impulse (N V : Type)
  | dict (d : Dict N (Option V))
  | list (l : List N)
  | other

/-- The dictionary without the None values - /repo/src/sims_pars/simulation/parcore.py:167. -/
def given (d : Dict N (Option V)) : Dict N V := d.filterMap (fun p => p.2.map (fun v => (p.1, v)))

/-- The names given with None - /repo/src/sims_pars/simulation/parcore.py:166. -/
def notGiven (d : Dict N (Option V)) : List N := (d.filterItems (fun _ v => v.isNone)).keys

/-- `imp` and `shocked` - /repo/src/sims_pars/simulation/parcore.py:164-175. -/
def shocks (bn : BN N V C O) : Impulse N V → Result (Dict N V × List N)
  | .dict d => do
    let sh ← bn.dag.downstream d.keys
    return (given d, sh.filter (· ∉ (given d).keys) ++ notGiven d)
  | .list l => do
    let sh ← bn.dag.downstream l
    return ([], sh ++ l)
  | .other => .error .AttributeError

/-- `pc.impulse(imp)` - /repo/src/sims_pars/simulation/parcore.py:154-177, on the core at the root of the tree, whose
ancestors hold `up`. -/
def impulse (sem : Sem N V C O S (XR K)) (bn : BN N V C O) (up : List (Dict N V)) (t : CoreTree N V C O S K) (imp : Impulse N V)
    (s : S) : CoreTree N V C O S K × S × Result Unit :=
  match shocks bn imp with
  | .error e => (t, s, .error e)
  | .ok (imp, sh) => setResponse sem bn imp sh up t s

mutual
/-- `pc.DeepLogPrior` - /repo/src/sims_pars/simulation/parcore.py:212-218; a missing `LogPrior` is an AttributeError. -/
def deepLogPrior : CoreTree N V C O S K → Result (XR K)
  | .node c ts =>
    match c.logPrior with
    | none => .error .AttributeError
    | some p => do return p + (← deepLogPriorL ts)
/-- Summed over children. -/
def deepLogPriorL : List (CoreTree N V C O S K) → Result (XR K)
  | [] => .ok 0
  | t :: ts => do
    let p ← deepLogPrior t
    let q ← deepLogPriorL ts
    return p + q
end

/-! ## Breeding -/

/-- The child of that name, and the others around it. -/
def child (k : N) : List (CoreTree N V C O S K) → Option (CoreTree N V C O S K)
  | [] => none
  | t :: ts => if t.label.nick = k then some t else child k ts

/-- `pc.breed(nickname, group, exo)` - /repo/src/sims_pars/simulation/parcore.py:22-37,
/repo/src/sims_pars/simulation/simugroup.py:103-109. -/
def breed (sem : Sem N V C O S (XR K)) (noneV : V) (sc : SimCore N V C O) (up : List (Dict N V)) (t : CoreTree N V C O S K)
    (nick group : N) (exo : Dict N V) (s : S) : CoreTree N V C O S K × S × Result Unit :=
  match t with
  | .node c ts =>
    if nick ∈ ts.map (fun t => t.label.nick) then (t, s, .error .ValueError)
    else if group ∉ c.group.children then (t, s, .error .KeyError)
    else
      match sc.groups.get? group with
      | none => (t, s, .error .KeyError)
      | some g =>
        match Core.generate sem noneV sc.bn g nick (c.locus :: up) exo s with
        | (.error e, s') => (t, s', .error e)
        | (.ok chd, s') => (.node c (ts ++ [.node chd []]), s', .ok ())

/-- `pc.remove_children(k)` - /repo/src/sims_pars/simulation/parcore.py:81-93. -/
def removeChild (t : CoreTree N V C O S K) (k : N) : CoreTree N V C O S K :=
  match t with
  | .node c ts => .node c (ts.filter (fun t => t.label.nick ≠ k))

mutual
/-- One round of `__children_copy` - /repo/src/sims_pars/simulation/parcore.py:262-268: `pc_new` has the group `g`, and
`up` are its dictionary and those of its ancestors.  Children are kept by nickname, so no nickname is taken yet. -/
def childCopy (sem : Sem N V C O S (XR K)) (noneV : V) (sc : SimCore N V C O) (g : Group N) (up : List (Dict N V)) :
    CoreTree N V C O S K → S → Result (CoreTree N V C O S K) × S
  | .node c ts, s =>
    if c.group.name ∉ g.children then (.error .KeyError, s)
    else
      match sc.groups.get? c.group.name with
      | none => (.error .KeyError, s)
      | some h =>
        match Core.generate (K := K) sem noneV sc.bn h c.nick up c.locus s with
        | (.error e, s) => (.error e, s)
        | (.ok d, s) =>
          match c.logPrior, c.logLike with
          | some p, some l =>
            match childrenCopy sem noneV sc h (d.locus :: up) ts s with
            | (.error e, s) => (.error e, s)
            | (.ok us, s) => (.ok (.node { d with logPrior := some p, logLike := some l } us), s)
          | _, _ => (.error .AttributeError, s)
/-- `__children_copy`. -/
def childrenCopy (sem : Sem N V C O S (XR K)) (noneV : V) (sc : SimCore N V C O) (g : Group N) (up : List (Dict N V)) :
    List (CoreTree N V C O S K) → S → Result (List (CoreTree N V C O S K)) × S
  | [], s => (.ok [], s)
  | t :: ts, s =>
    match childCopy sem noneV sc g up t s with
    | (.error e, s) => (.error e, s)
    | (.ok u, s) =>
      match childrenCopy sem noneV sc g up ts s with
      | (.error e, s) => (.error e, s)
      | (.ok us, s) => (.ok (u :: us), s)
end

/-- `pc.clone(copy_sc, include_children)` of a core, `hasParent` telling whether it has one
- /repo/src/sims_pars/simulation/parcore.py:245-260.  After generating the copy, `self.LogLikelihood` is read, an
attribute that no core has unless it was set from outside.  With `copy_sc` the group is that of the same name in a
simulation core built again from the same network and node sets (/repo/src/sims_pars/simulation/simucore.py:62-63). -/
def clone (sem : Sem N V C O S (XR K)) (noneV : V) (sc : SimCore N V C O) (copySc withChildren hasParent : Bool)
    (t : CoreTree N V C O S K) (s : S) : Result (CoreTree N V C O S K) × S :=
  if hasParent then (.error .AttributeError, s)
  else
    match (if copySc then sc.groups.get? t.label.group.name else some t.label.group) with
    | none => (.error .KeyError, s)
    | some g =>
      match Core.generate (K := K) sem noneV sc.bn g t.label.nick [] t.label.locus s with
      | (.error e, s) => (.error e, s)
      | (.ok d, s) =>
        match t.label.logLike, t.label.logPrior with
        | some l, some p =>
          if withChildren then
            match childrenCopy sem noneV sc g [d.locus] t.kids s with
            | (.error e, s) => (.error e, s)
            | (.ok us, s) => (.ok (.node { d with logPrior := some p, logLike := some l } us), s)
          else (.ok (.node { d with logPrior := some p, logLike := some l } []), s)
        | _, _ => (.error .AttributeError, s)

/-- `pc.duplicate(nickname)` - /repo/src/sims_pars/simulation/parcore.py:61-64: refused for a root, and `Parent.bread` is
no method of a core. -/
def duplicate (_hasParent : Bool) (_t : CoreTree N V C O S K) (_nick : N) : Result (CoreTree N V C O S K) :=
  .error .AttributeError

/-- `detach_from_parent(collect_pars)` of the child `k` - /repo/src/sims_pars/simulation/parcore.py:66-79: the parent, the
child and the outcome.  `up` are the ancestors of the parent; `SG.set_local_actors` is no method of a group. -/
def detach (up : List (Dict N V)) (t : CoreTree N V C O S K) (k : N) (collect : Bool) :
    CoreTree N V C O S K × Option (CoreTree N V C O S K) × Result Unit :=
  match child k t.kids with
  | none => (t, none, .error .KeyError)
  | some (.node c ts) =>
    if collect then
      (removeChild t k, some (.node ((chainIter (t.label.locus :: up)).foldl (fun c p => c.set p.1 p.2) c) ts), .error .AttributeError)
    else (removeChild t k, some (.node c ts), .ok ())

/-- `get_child(name)` along the names - /repo/src/sims_pars/simulation/parcore.py:129-130, 147-152. -/
def walk : CoreTree N V C O S K → List N → Result (CoreTree N V C O S K)
  | t, [] => .ok t
  | t, k :: ks =>
    match child k t.kids with
    | none => .error .KeyError
    | some u => walk u ks

/-- `address.split('@')` on the characters; `acc` is the current piece reversed. -/
def splitOn {α : Type} [DecidableEq α] (sep : α) : List α → List α → List (List α)
  | acc, [] => [acc.reverse]
  | acc, c :: cs => if c = sep then acc.reverse :: splitOn sep [] cs else splitOn sep (c :: acc) cs

/-- `find_descendant(address)` - /repo/src/sims_pars/simulation/parcore.py:141-152; `name` makes a name of a text. -/
def findDescendant (name : List Char → N) (t : CoreTree N V C O S K) (address : List Char) : Result (CoreTree N V C O S K) :=
  walk t ((splitOn '@' [] address).map name)

/-- Apply an operation to the child of that name. -/
def onChild {α : Type} (k : N) (f : CoreTree N V C O S K → CoreTree N V C O S K × α) :
    List (CoreTree N V C O S K) → Option (List (CoreTree N V C O S K) × α)
  | [] => none
  | t :: ts =>
    if t.label.nick = k then some ((f t).1 :: ts, (f t).2)
    else match onChild k f ts with
      | none => none
      | some (ts', a) => some (t :: ts', a)

/-- Apply an operation to the core reached by the path; `none` if there is no such core. -/
def onPath {α : Type} (f : List (Dict N V) → CoreTree N V C O S K → CoreTree N V C O S K × α) :
    List N → List (Dict N V) → CoreTree N V C O S K → Option (CoreTree N V C O S K × α)
  | [], up, t => some (f up t)
  | k :: ks, up, .node c ts =>
    match child k ts with
    | none => none
    | some u =>
      match onPath f ks (c.locus :: up) u with
      | none => none
      | some (u', a) =>
        match onChild k (fun _ => (u', a)) ts with
        | none => none
        | some (ts', a) => some (.node c ts', a)

/-- `get_actors(shared=False)`, or of the root - /repo/src/sims_pars/simulation/parcore.py:111-113: the local actors are
composed on first use. -/
def localActors (sem : Sem N V C O S (XR K)) (bn : BN N V C O) (up : List (Dict N V)) (t : CoreTree N V C O S K) (s : S) :
    CoreTree N V C O S K × S × Result Unit :=
  match t with
  | .node c ts =>
    match c.actors with
    | some _ => (t, s, .ok ())
    | none =>
      match c.putLocal sem bn up s with
      | (c', s', o) => (.node c' ts, s', o)

/-- `get_actors(shared=True)` of the child `k` of this core - /repo/src/sims_pars/simulation/parcore.py:105-110: the
shared actors are composed on the parent on first use. -/
def sharedActors (sem : Sem N V C O S (XR K)) (bn : BN N V C O) (k : N) (up : List (Dict N V)) (t : CoreTree N V C O S K) (s : S) :
    CoreTree N V C O S K × S × Result Unit :=
  match t with
  | .node c ts =>
    match child k ts with
    | none => (t, s, .error .KeyError)
    | some u =>
      match (c.childActors.getD []).get? u.label.group.name with
      | some _ => (t, s, .ok ())
      | none =>
        match c.putShared sem bn u.label.group up s with
        | (c', s', o) => (.node c' ts, s', o)

/-- `Sampler(actor, pc)` - /repo/src/sims_pars/simulation/actor.py:100-118: a frozen actor is updated with the core, whose
dictionaries are `chain`; `d` is the dictionary of actors. -/
def makeSampler (sem : Sem N V C O S (XR K)) (chain : List (Dict N V)) (d : Dict N (Actor N V C O S K)) (k : N) (s : S) :
    Dict N (Actor N V C O S K) × S × Result Unit :=
  match d.get? k with
  | none => (d, s, .error .KeyError)
  | some a =>
    if a.isFrozen then
      match a.update sem (chainMap chain) s with
      | (a', s', o) => (d.set k a', s', o)
    else (d, s, .ok ())

/-- `pc.get_sampler(k, shared=False)` - /repo/src/sims_pars/simulation/parcore.py:119-127. -/
def localSampler (sem : Sem N V C O S (XR K)) (bn : BN N V C O) (k : N) (up : List (Dict N V)) (t : CoreTree N V C O S K) (s : S) :
    CoreTree N V C O S K × S × Result Unit :=
  match localActors sem bn up t s with
  | (t, s, .error e) => (t, s, .error e)
  | (.node c ts, s, .ok ()) =>
    match makeSampler sem (c.locus :: up) (c.actors.getD []) k s with
    | (d, s, o) => (.node { c with actors := some d } ts, s, o)

/-- `pc.get_child(nick).get_sampler(k)` - /repo/src/sims_pars/simulation/parcore.py:119-127: the shared actor is kept by
this core and updated with the child. -/
def sharedSampler (sem : Sem N V C O S (XR K)) (bn : BN N V C O) (nick k : N) (up : List (Dict N V)) (t : CoreTree N V C O S K) (s : S) :
    CoreTree N V C O S K × S × Result Unit :=
  match sharedActors sem bn nick up t s with
  | (t, s, .error e) => (t, s, .error e)
  | (.node c ts, s, .ok ()) =>
    match child nick ts with
    | none => (.node c ts, s, .error .KeyError)
    | some u =>
      match makeSampler sem (u.label.locus :: c.locus :: up) (((c.childActors.getD []).get? u.label.group.name).getD []) k s with
      | (d, s, o) => (.node { c with childActors := some ((c.childActors.getD []).set u.label.group.name d) } ts, s, o)

/-- Drawing from a sampler that the child obtained before - /repo/src/sims_pars/simulation/actor.py:106-111. -/
def sharedDraw (sem : Sem N V C O S (XR K)) (noneV : V) (nick k : N) (up : List (Dict N V)) (t : CoreTree N V C O S K) (s : S) :
    Result V × S :=
  match t with
  | .node c ts =>
    match child nick ts with
    | none => (.error .KeyError, s)
    | some u =>
      match (((c.childActors.getD []).get? u.label.group.name).getD []).get? k with
      | none => (.error .KeyError, s)
      | some a => a.sample sem noneV (chainMap (u.label.locus :: c.locus :: up)) s

/-- `Sampler.sample(n)` returns a value or a list - /repo/src/sims_pars/simulation/actor.py:120-129. -/
inductive Sampled (V : Type)
  | one (v : V)
  | many (vs : List V)
  deriving DecidableEq

/-- Draw that many times. -/
def drawMany (draw : S → Result V × S) : Nat → S → Result (List V) × S
  | 0, s => (.ok [], s)
  | n + 1, s =>
    match draw s with
    | (.error e, s') => (.error e, s')
    | (.ok v, s') =>
      match drawMany draw n s' with
      | (.error e, s'') => (.error e, s'')
      | (.ok vs, s'') => (.ok (v :: vs), s'')

/-- `Sampler.sample(n)`; `draw` is `self()`. -/
def samplerSample (draw : S → Result V × S) (n : Int) (s : S) : Result (Sampled V) × S :=
  let n := max n 1
  if n = 1 then
    match draw s with
    | (.error e, s') => (.error e, s')
    | (.ok v, s') => (.ok (.one v), s')
  else
    match drawMany draw n.toNat s with
    | (.error e, s') => (.error e, s')
    | (.ok vs, s') => (.ok (.many vs), s')

/-- What a program can do to a hierarchy of cores (at a core given by its path). -/
inductive Op (N V : Type)
  /-- `pc.breed(nick, group, exo)` -/
  | breed (path : List N) (nick group : N) (exo : Dict N V)
  /-- `pc.remove_children(nick)` -/
  | remove (path : List N) (nick : N)
  /-- `pc.impulse(imp)` -/
  | impulse (path : List N) (imp : Impulse N V)
  /-- `pc.get_actors(shared=False)` -/
  | localActors (path : List N)
  /-- `pc.get_child(nick).get_actors(shared=True)` -/
  | sharedActors (path : List N) (nick : N)
  /-- `pc.get_sampler(k, shared=False)` -/
  | localSampler (path : List N) (k : N)
  /-- `pc.get_child(nick).get_sampler(k)` -/
  | sharedSampler (path : List N) (nick k : N)

/-- One operation; nothing happens if there is no core at the path. -/
def step (sem : Sem N V C O S (XR K)) (noneV : V) (sc : SimCore N V C O) (t : CoreTree N V C O S K) (s : S) :
    Op N V → CoreTree N V C O S K × S × Result Unit
  | .breed p nick g exo =>
    match onPath (fun up u => breed sem noneV sc up u nick g exo s) p [] t with
    | none => (t, s, .error .KeyError)
    | some (t', s', o) => (t', s', o)
  | .remove p nick =>
    match onPath (fun _ u => (removeChild u nick, ())) p [] t with
    | none => (t, s, .error .KeyError)
    | some (t', ()) => (t', s, .ok ())
  | .impulse p imp =>
    match onPath (fun up u => impulse sem sc.bn up u imp s) p [] t with
    | none => (t, s, .error .KeyError)
    | some (t', s', o) => (t', s', o)
  | .localActors p =>
    match onPath (fun up u => localActors sem sc.bn up u s) p [] t with
    | none => (t, s, .error .KeyError)
    | some (t', s', o) => (t', s', o)
  | .sharedActors p nick =>
    match onPath (fun up u => sharedActors sem sc.bn nick up u s) p [] t with
    | none => (t, s, .error .KeyError)
    | some (t', s', o) => (t', s', o)
  | .localSampler p k =>
    match onPath (fun up u => localSampler sem sc.bn k up u s) p [] t with
    | none => (t, s, .error .KeyError)
    | some (t', s', o) => (t', s', o)
  | .sharedSampler p nick k =>
    match onPath (fun up u => sharedSampler sem sc.bn nick k up u s) p [] t with
    | none => (t, s, .error .KeyError)
    | some (t', s', o) => (t', s', o)

/-- A history of operations; exceptions are caught by the caller. -/
def run (sem : Sem N V C O S (XR K)) (noneV : V) (sc : SimCore N V C O) : List (Op N V) → CoreTree N V C O S K → S → CoreTree N V C O S K × S
  | [], t, s => (t, s)
  | o :: os, t, s =>
    match step sem noneV sc t s o with
    | (t', s', _) => run sem noneV sc os t' s'

end CoreTree

end Model
