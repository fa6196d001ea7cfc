import Verif.Props.SimBred
import Verif.Props.BNViews
import Verif.Model.Relatives

/-!
# Siblings, prototypes, free parameters and pseudo cores: C159 to C165
-/

namespace Props.SimCore

set_option linter.unusedSectionVars false

open Py Spec Relation Model Model.CoreTree Props.Sampling

variable {N V C O S K : Type} [DecidableEq N] [AddCommMonoid K]

theorem label_node {α : Type} (a : α) (ts : List (Tree α)) : (Tree.node a ts).label = a := rfl

theorem kids_node {α : Type} (a : α) (ts : List (Tree α)) : (Tree.node a ts).kids = ts := rfl

/-! ## C159: siblings -/

/-- What a core is born with does not depend on its nickname. -/
theorem generate_nick (sem : Sem N V C O S (XR K)) (noneV : V) (bn : BN N V C O) (g : Model.Group N) (a b : N) (up : List (Dict N V))
    (exo : Dict N V) (s : S) : Core.generate (K := K) sem noneV bn g b up exo s =
      ((Core.generate (K := K) sem noneV bn g a up exo s).1.map (fun c => { c with nick := b }), (Core.generate (K := K) sem noneV bn g a up exo s).2) := by
  unfold Core.generate
  rcases Core.readExo sem noneV bn up g.exogenous exo s with ⟨e | vs, s1⟩
  · rfl
  · simp only
    rcases Core.fillFixed sem bn g.fixed vs 0 s1 with ⟨e | ⟨vs2, p⟩, s2⟩ <;> rfl

/-- **C159**: in every hierarchy that can arise, asking the core `k` for a sibling adds one core to the children of its parent, last,
with that nickname, of the group of `k`, with the values given to it; or it raises and adds nothing - ValueError exactly if
the nickname is taken, and otherwise only what generating it raises. -/
theorem C159 (sem : Sem N V C O S (XR K)) (noneV : V) {bn : BN N V C O} (hr : Ready bn) {ns : Tree (NSet N)} {sc : SimCore N V C O}
    (hsc : asSimCore bn ns = .ok sc) {up : List (Dict N V)} {t u : CoreTree N V C O S K} (ht : All (Tidy sc) up t) (hu : u ∈ t.kids)
    (nick : N) (exo : Dict N V) (s : S) :
    (nick ∈ t.kids.map (fun v => v.label.nick) → getSibling sem noneV sc up t u.label.nick nick exo s = (t, s, .error .ValueError)) ∧
    (nick ∉ t.kids.map (fun v => v.label.nick) →
      (∃ c s', getSibling sem noneV sc up t u.label.nick nick exo s = (.node t.label (t.kids ++ [.node c []]), s', .ok ()) ∧
        Core.generate sem noneV bn u.label.group nick (t.label.locus :: up) exo s = (.ok c, s') ∧
        c.nick = nick ∧ c.group = u.label.group ∧ ∀ x v, exo.WF → exo.get? x = some v → c.locus.get? x = some v) ∨
      (∃ e s', getSibling sem noneV sc up t u.label.nick nick exo s = (t, s', .error e) ∧
        Core.generate (K := K) sem noneV bn u.label.group nick (t.label.locus :: up) exo s = (.error e, s'))) := by
  obtain ⟨hbn, hgs⟩ := groups_ok hr hsc
  obtain ⟨c0, ts⟩ := t
  obtain ⟨g, hg, hgg⟩ := ht.1.2 u hu
  have hname : u.label.group.name = g := (hgs g _ hgg).1
  have hc : child u.label.nick ts = some u := (child_unique ht.1.1).2 ⟨hu, rfl⟩
  simp only [getSibling, kids_node, label_node, hc, hname, breed]
  constructor
  · intro h
    rw [if_pos h]
  · intro h
    rw [if_neg h, if_neg (not_not.2 hg), hgg]
    simp only [hbn]
    rcases hge : Core.generate (K := K) sem noneV bn u.label.group nick (c0.locus :: up) exo s with ⟨e | c, s'⟩
    · exact .inr ⟨e, s', by simp, by simp⟩
    · obtain ⟨e1, e2, -⟩ := generate_frame sem hge
      exact .inl ⟨c, s', by simp, by simp, e1, e2, fun x v hw hx => (C85_partial sem hw hge).2.2.1 x v hx⟩

/-- The hypotheses hold of `pc49`, whose agents `A` and `B` get a sibling `E`; a second `B` is refused. -/
example : Ready n49 ∧ asSimCore n49 ns49 = .ok sc49 ∧
    (match getSibling Toy.lit (.str "None") sc49 [] pc49 "A" "E" [("k", .num 4)] 30 with
      | (t, _, .ok ()) => t.kids.map (fun u => (u.label.nick, u.label.group.name, u.label.locus)) | _ => []) =
      [("A", "agent", [("x", .num 23)]), ("B", "agent", [("x", .num 24), ("k", .num 7)]), ("E", "agent", [("x", .num 42), ("k", .num 4)])] ∧
    (getSibling Toy.lit (.str "None") sc49 [] pc49 "A" "B" [] 30).2.2 = .error .ValueError :=
  ⟨n49_ready, sc49_ok, by decide +kernel, by decide +kernel⟩

/-- **C159**, twins: a sibling asked for with the random state and the values that the core was bred with is that core but for its
nickname, as long as its parent has not changed. -/
theorem C159_twin (sem : Sem N V C O S (XR K)) (noneV : V) {bn : BN N V C O} (hr : Ready bn) {ns : Tree (NSet N)} {sc : SimCore N V C O}
    (hsc : asSimCore bn ns = .ok sc) {up : List (Dict N V)} {t t1 : CoreTree N V C O S K} (ht : All (Tidy sc) up t) {k nick group : N}
    {exo : Dict N V} {s s1 : S} (h : breed sem noneV sc up t k group exo s = (t1, s1, .ok ()))
    (hn : nick ∉ t1.kids.map (fun v => v.label.nick)) :
    ∃ c, t1 = .node t.label (t.kids ++ [.node c []]) ∧ c.nick = k ∧
      getSibling sem noneV sc up t1 k nick exo s = (.node t.label (t.kids ++ [.node c [], .node { c with nick := nick } []]), s1, .ok ()) := by
  obtain ⟨hbn, hgs⟩ := groups_ok hr hsc
  obtain ⟨c0, ts⟩ := t
  simp only [breed] at h
  by_cases h1 : k ∈ ts.map (fun t => t.label.nick)
  · rw [if_pos h1] at h; simp at h
  rw [if_neg h1] at h
  by_cases h2 : group ∉ c0.group.children
  · rw [if_pos h2] at h; simp at h
  rw [if_neg h2] at h
  cases hg : sc.groups.get? group with
  | none => rw [hg] at h; simp at h
  | some g =>
    rw [hg] at h
    simp only at h
    rcases hc : Core.generate (K := K) sem noneV sc.bn g k (c0.locus :: up) exo s with ⟨_ | c, s2⟩
    · rw [hc] at h; simp at h
    · rw [hc] at h
      simp only [Prod.mk.injEq, and_true] at h
      obtain ⟨rfl, rfl⟩ := h
      obtain ⟨e1, e2, -⟩ := generate_frame sem hc
      refine ⟨c, rfl, e1, ?_⟩
      have hch : child k (ts ++ [.node c []]) = some (.node c []) := by
        refine (child_unique ?_).2 ⟨by simp, e1⟩
        rw [List.map_append, List.nodup_append]
        refine ⟨ht.1.1, by simp, ?_⟩
        rintro x hx y hy rfl
        simp only [List.map_cons, List.map_nil, List.mem_singleton, Tree.label] at hy
        exact h1 (by rw [← e1, ← hy]; exact hx)
      have hname : c.group.name = group := by rw [e2]; exact (hgs group g hg).1
      simp only [getSibling, kids_node, label_node, hch, hname, breed]
      rw [kids_node] at hn
      rw [if_neg hn, if_neg h2, hg]
      simp only
      rw [generate_nick sem noneV sc.bn g k nick (c0.locus :: up) exo s, hc]
      simp [Except.map]

example : (match breed Toy.lit (.str "None") sc49 [] pc49 "E" "agent" [("k", .num 4)] 30 with
    | (t, _, .ok ()) => (match getSibling Toy.lit (.str "None") sc49 [] t "E" "F" [("k", .num 4)] 30 with
      | (t, _, .ok ()) => (t.kids.drop 2).map (fun u => (u.label.nick, u.label.locus)) | _ => []) | _ => []) =
    [("E", [("x", .num 42), ("k", .num 4)]), ("F", [("x", .num 42), ("k", .num 4)])] := by
  decide +kernel

/-! ## C160: prototypes -/

/-- **C160**: a prototype is what breeding a child of that group under the name of prototypes would have added - the hierarchy is left
as it is, and the name may be in use; it is refused with KeyError for groups that are not listed. -/
theorem C160 (sem : Sem N V C O S (XR K)) (noneV : V) (sc : SimCore N V C O) (proto group : N) (up : List (Dict N V))
    (t : CoreTree N V C O S K) (exo : Dict N V) (s : S) :
    (group ∉ t.label.group.children → getPrototype sem noneV sc proto up t group exo s = (.error .KeyError, s)) ∧
    (∀ nick, nick ∉ t.kids.map (fun u => u.label.nick) → ∀ c s',
      (getPrototype sem noneV sc proto up t group exo s = (.ok { c with nick := proto }, s') ∧ c.nick = nick ↔
        breed sem noneV sc up t nick group exo s = (.node t.label (t.kids ++ [.node c []]), s', .ok ()))) := by
  obtain ⟨c0, ts⟩ := t
  constructor
  · intro h
    simp only [getPrototype]
    rw [if_pos h]
  · intro nick hn c s'
    have ep : getPrototype sem noneV sc proto up (.node c0 ts) group exo s =
        if group ∉ c0.group.children then (.error .KeyError, s)
        else match sc.groups.get? group with
          | none => (.error .KeyError, s)
          | some g => Core.generate sem noneV sc.bn g proto (c0.locus :: up) exo s := rfl
    rw [ep]
    simp only [breed, label_node, kids_node] at hn ⊢
    rw [if_neg hn]
    by_cases h2 : group ∉ c0.group.children
    · simp [h2]
    simp only [if_neg h2]
    cases hg : sc.groups.get? group with
    | none => simp
    | some g =>
      simp only
      rw [generate_nick sem noneV sc.bn g nick proto (c0.locus :: up) exo s]
      rcases hc : Core.generate (K := K) sem noneV sc.bn g nick (c0.locus :: up) exo s with ⟨e | d, s2⟩
      · simp [Except.map]
      · obtain ⟨e1, -⟩ := generate_frame sem hc
        obtain ⟨n, g', l, p, q, a, b, ll⟩ := d
        obtain ⟨n', g'', l', p', q', a', b', ll'⟩ := c
        simp only at e1
        subst e1
        simp only [Except.map, Prod.mk.injEq, Except.ok.injEq, Core.mk.injEq, and_true, true_and, Tree.node.injEq,
          List.append_cancel_left_eq, List.cons.injEq]
        constructor
        · rintro ⟨⟨⟨rfl, rfl, rfl, rfl, rfl, rfl, rfl⟩, rfl⟩, rfl⟩
          simp
        · rintro ⟨⟨rfl, rfl, rfl, rfl, rfl, rfl, rfl, rfl⟩, rfl⟩
          simp

example : (match getPrototype (K := Int) Toy.lit (.str "None") sc49 "prototype" [] pc49 "agent" [("k", .num 4)] 30 with
    | (.ok c, _) => (c.nick, c.group.name, c.locus) | _ => ("", "", [])) = ("prototype", "agent", [("x", .num 42), ("k", .num 4)]) := by
  decide +kernel

/-! ## C161: free parameters -/

/-- A random root: a random variable that no random variable reaches. -/
def RandomRoot (bn : BN N V C O) (x : N) : Prop := bn.Rv x ∧ ∀ a, TransGen bn.dag.E a x → ¬ bn.Rv a

open Model.BN Model.Digraph in
theorem ready_roots {bn : BN N V C O} (hr : Ready bn) : ∃ rr, bn.rvRoots = .ok (some rr) ∧ rr.Nodup ∧ ∀ x, x ∈ rr ↔ RandomRoot bn x := by
  obtain ⟨ds, b, hb, hbn⟩ := hr
  obtain ⟨hw, hf, -⟩ := Props.BN.built_inv hb
  obtain ⟨od, ho, -⟩ := order_ok_of_acyclic hw.wf hw.acyclic
  have key : ∀ f, ∃ rr, (b.completed f od).rvRoots = .ok (some rr) ∧ rr.Nodup ∧ ∀ x, x ∈ rr ↔ RandomRoot b x := by
    intro f
    obtain ⟨rr, h1, h2, -, h3, -⟩ := Props.BN.C16_rv_roots (bn := b.completed f od) ⟨hw.wf, hw.defined, hw.named⟩ hw.acyclic
      (Props.BN.faithful_completed (f := f) hw.toRep ho)
    exact ⟨rr, h1, h2, h3⟩
  rcases hbn with rfl | ⟨f, rfl⟩
  · obtain ⟨rr, h1, h2⟩ := key bn.name
    refine ⟨rr, ?_, h2⟩
    rw [← h1]
    unfold BN.rvRoots served
    rw [findRvRoots_unfrozen hw.toRep hf ho, hf]
    rfl
  · rw [complete_ok hw.toRep ho f]
    exact key f

theorem readExo_wf (sem : Sem N V C O S (XR K)) (noneV : V) (bn : BN N V C O) (up : List (Dict N V)) : ∀ (ds : List N)
    (vs : Dict N V) (s : S) {r : Dict N V} {s' : S}, vs.WF → Core.readExo sem noneV bn up ds vs s = (.ok r, s') → r.WF := by
  intro ds
  induction ds with
  | nil =>
    intro vs s r s' hw h
    simp only [Core.readExo, Prod.mk.injEq, Except.ok.injEq] at h
    exact h.1 ▸ hw
  | cons d ds ih =>
    intro vs s r s' hw h
    simp only [Core.readExo] at h
    split at h
    · exact ih _ _ hw h
    · split at h
      · exact ih _ _ (hw.set _ _) h
      · split at h
        · simp at h
        · split at h
          · simp at h
          · exact ih _ _ (hw.set _ _) h

theorem fillFixed_wf (sem : Sem N V C O S (XR K)) (bn : BN N V C O) : ∀ (ds : List N) (vs : Dict N V) (p : XR K) (s : S)
    {r : Dict N V} {q : XR K} {s' : S}, vs.WF → Core.fillFixed sem bn ds vs p s = (.ok (r, q), s') → r.WF := by
  intro ds
  induction ds with
  | nil =>
    intro vs p s r q s' hw h
    simp only [Core.fillFixed, Prod.mk.injEq, Except.ok.injEq] at h
    exact h.1.1 ▸ hw
  | cons d ds ih =>
    intro vs p s r q s' hw h
    simp only [Core.fillFixed] at h
    split at h
    · simp at h
    · split at h
      · split at h
        · simp at h
        · exact ih _ _ _ hw h
      · split at h
        · split at h
          · simp at h
          · exact ih _ _ _ (hw.set _ _) h
        · exact ih _ _ _ hw h
        · simp at h

theorem generate_wf (sem : Sem N V C O S (XR K)) {noneV : V} {bn : BN N V C O} {g : Model.Group N} {nick : N} {up : List (Dict N V)}
    {exo : Dict N V} (he : exo.WF) {s s' : S} {c : Core N V C O S K} (h : Core.generate sem noneV bn g nick up exo s = (.ok c, s')) :
    c.locus.WF := by
  obtain ⟨-, -, -, -, -, ⟨vs, vs2⟩, p, s1, h1, hf, hloc, -⟩ := generate_frame sem h
  rw [hloc]
  exact ((fillFixed_wf sem bn _ _ _ _ (readExo_wf sem noneV bn up _ _ _ he h1) hf).filterItems _).update _

/-- Finding free parameters is filtering the names of a generated core. -/
theorem free_eq (sem : Sem N V C O S (XR K)) (noneV : V) (sc : SimCore N V C O) {rr : List N} (hrr : sc.bn.rvRoots = .ok (some rr)) {nick : N}
    {exo : Dict N V} {s : S} : findFreeParameters (K := K) sem noneV sc nick exo s =
      ((Core.generateRoot (K := K) sem noneV sc nick exo s).1.map (fun c => c.locus.keys.filter (· ∈ rr)),
        (Core.generateRoot (K := K) sem noneV sc nick exo s).2) := by
  unfold findFreeParameters
  rcases Core.generateRoot (K := K) sem noneV sc nick exo s with ⟨e | c, s'⟩
  · rfl
  · simp only [Except.map, hrr]
    cases c.locus.keys <;> rfl

/-- **C161 (the part that holds)**: every name listed is a random root, listed once, that the root group fixes or that is given.
(Missing: that every random root is listed, which holds for fully fixed cores, see `C161_fixed`, but not in general, see
`C161_refuted`.) -/
theorem C161_partial (sem : Sem N V C O S (XR K)) (noneV : V) {bn : BN N V C O} (hr : Ready bn) {ns : Tree (NSet N)} {sc : SimCore N V C O}
    (hsc : asSimCore bn ns = .ok sc) {g : Model.Group N} (hg : sc.groups.get? sc.root = some g) {nick : N} {exo : Dict N V}
    (he : exo.WF) {s s' : S} {l : List N} (h : findFreeParameters (K := K) sem noneV sc nick exo s = (.ok l, s')) :
    l.Nodup ∧ ∀ x ∈ l, RandomRoot bn x ∧ (x ∈ g.fixed ∨ x ∈ exo.keys) := by
  obtain ⟨hbn, -⟩ := groups_ok hr hsc
  obtain ⟨rr, hrr, -, hx⟩ := ready_roots hr
  rw [free_eq sem noneV sc (hbn ▸ hrr)] at h
  rcases hc : Core.generateRoot (K := K) sem noneV sc nick exo s with ⟨e | c, s1⟩
  · rw [hc] at h; simp [Except.map] at h
  · rw [hc] at h
    simp only [Except.map, Prod.mk.injEq, Except.ok.injEq] at h
    obtain ⟨rfl, -⟩ := h
    unfold Core.generateRoot at hc
    rw [hg] at hc
    simp only at hc
    refine ⟨List.Nodup.filter _ (generate_wf sem he hc), fun x h => ?_⟩
    rw [List.mem_filter] at h
    exact ⟨(hx x).1 (by simpa using h.2), (C85_partial sem he hc).2.2.2 x h.1⟩

/-- In the core of `pc49` the root fixes `a`, which is a random root. -/
example : asSimCore n49 ns49 = .ok sc49 ∧ (sc49.groups.get? sc49.root).isSome ∧
    findFreeParameters (K := Int) Toy.lit (.str "None") sc49 "R" [] 10 = (.ok ["a"], 11) :=
  ⟨sc49_ok, by decide +kernel, by decide +kernel⟩

/-- **C161**, fully fixed cores: whenever the network can be sampled, the free parameters of its fully fixed simulation core are
exactly the random roots, each listed once. -/
theorem C161_fixed (sem : Sem N V C O S (XR K)) (hcl : ∀ c, (sem.reparse c).names = []) (noneV : V) {bn : BN N V C O} (hr : Ready bn)
    {root : N} {t : Tree (NSet N)} (ht : NSet.allFixed root bn = .ok t) (nick : N) {exo : Dict N V} (he : exo.WF)
    (hsup : ∀ x, Exogenous bn x → x ∈ exo.keys) (hns : NoShadow bn exo.keys) {s s' : S} {ch : Chromosome N V K}
    (h : sampleChromosome sem bn exo s = (.ok ch, s')) :
    ∃ l, findFreeParameters (K := K) sem noneV (.new bn t) nick exo s = (.ok l, s') ∧ l.Nodup ∧ ∀ x, x ∈ l ↔ RandomRoot bn x := by
  obtain ⟨rr, hrr, -, hx⟩ := ready_roots hr
  obtain ⟨c, hc, hl, -⟩ := (C44 sem hcl noneV hr ht nick he hsup hns s).1 ch s' h
  refine ⟨_, by rw [free_eq sem noneV (.new bn t) hrr, hc]; rfl, ?_, fun x => ?_⟩
  · unfold Core.generateRoot at hc
    split at hc
    · simp at hc
    · exact List.Nodup.filter _ (generate_wf sem he hc)
  · rw [List.mem_filter]
    simp only [decide_eq_true_eq, hx]
    refine ⟨fun h => h.2, fun hr' => ⟨?_, hr'⟩⟩
    have hnode : x ∈ bn.dag.nodes := by
      obtain ⟨⟨l, hl, -⟩, -⟩ := hr'
      exact (hr.facts.1.defined x).1 ⟨l, hl⟩
    unfold sampleChromosome at h
    rcases hs : sample sem bn exo s with ⟨e | p, s1⟩
    · rw [hs] at h; simp at h
    · rw [hs] at h
      simp only at h
      split at h
      · simp at h
      · simp only [Prod.mk.injEq, Except.ok.injEq] at h
        obtain ⟨rfl, -⟩ := h
        have := ((C23_keys sem hr hs).1 x).2 (.inr hnode)
        rw [← Dict.get?_isSome_iff] at this ⊢
        rw [hl]
        exact this

example : NSet.allFixed "root" exBN = .ok (take (.node (NSet.new "" [] []) []) (NSet.allFixed "root" exBN)) ∧
    findFreeParameters (K := Int) Toy.lit (.str "None") (.new exBN (take (.node (NSet.new "" [] []) []) (NSet.allFixed "root" exBN))) "R" [("u", .num 3)] 5
      = (.ok ["x"], 6) :=
  ⟨take_ok (by decide +kernel), by decide +kernel⟩

/-- **C161 is false of the code**: a simulation core in which every node floats has no free parameters, whatever the network. -/
theorem C161_refuted : ∃ (t : Tree (NSet String)), NSet.allFloat "root" exBN = .ok t ∧ RandomRoot exBN "x" ∧
    (findFreeParameters (K := Int) Toy.lit (.str "None") (.new exBN t) "R" [("u", .num 3)] 5).1 = .ok [] := by
  refine ⟨take (.node (NSet.new "" [] []) []) (NSet.allFloat "root" exBN), take_ok (by decide +kernel), ?_, by decide +kernel⟩
  obtain ⟨rr, h1, -, h2⟩ := ready_roots (bn := exBN) ⟨_, _, exBuilt, .inl rfl⟩
  have h3 : exBN.rvRoots = .ok (some ["x"]) := by decide +kernel
  rw [h3] at h1
  cases h1
  exact (h2 "x").1 (by simp)

/-! ## C162: pseudo cores take the shape of cores -/

mutual
/-- The names and groups of a hierarchy. -/
def shape : CoreTree N V C O S K → Tree (Pseudo N)
  | .node c ts => .node ⟨c.nick, c.group.name⟩ (shapeL ts)
/-- Of a list of children. -/
def shapeL : List (CoreTree N V C O S K) → List (Tree (Pseudo N))
  | [] => []
  | t :: ts => shape t :: shapeL ts
end

theorem shapeL_eq : ∀ ts : List (CoreTree N V C O S K), shapeL ts = ts.map shape
  | [] => rfl
  | t :: ts => by simp only [shapeL, shapeL_eq ts, List.map_cons]

@[simp] theorem shape_nick (t : CoreTree N V C O S K) : (shape t).label.nick = t.label.nick := by
  obtain ⟨c, ts⟩ := t; rfl

@[simp] theorem shape_kids (t : CoreTree N V C O S K) : (shape t).kids = t.kids.map shape := by
  obtain ⟨c, ts⟩ := t; exact shapeL_eq ts

theorem shape_along : ∀ (t t' : CoreTree N V C O S K) (up up' : List (Dict N V)), Along sameFrame up up' t t' → shape t' = shape t := by
  intro t
  refine Tree.ind
    (P := fun t => ∀ (t' : CoreTree N V C O S K) (up up' : List (Dict N V)), Along sameFrame up up' t t' → shape t' = shape t)
    (Q := fun ts => ∀ (ts' : List (CoreTree N V C O S K)) (up up' : List (Dict N V)), AlongL sameFrame up up' ts ts' → shapeL ts' = shapeL ts)
    ?_ ?_ ?_ t
  · rintro c ts ih ⟨c', ts'⟩ up up' ⟨⟨h1, h2⟩, h3⟩
    simp only [shape, h1, h2, ih _ _ _ h3]
  · rintro (_ | ⟨t', ts'⟩) up up' hh
    · rfl
    · exact hh.elim
  · rintro t ts ih1 ih2 (_ | ⟨t', ts'⟩) up up' hh
    · exact hh.elim
    · simp only [shapeL, ih1 _ _ _ hh.1, ih2 _ _ _ hh.2]

theorem getChild_shape (k : N) (t : CoreTree N V C O S K) : Pseudo.getChild k (shape t) =
    match child k t.kids with | none => .error .KeyError | some u => .ok (shape u) := by
  unfold Pseudo.getChild
  rw [shape_kids]
  generalize t.kids = ts
  induction ts with
  | nil => rfl
  | cons u ts ih =>
    simp only [List.map_cons, List.find?_cons, child, shape_nick]
    by_cases h : u.label.nick = k
    · simp [h]
    · simp only [h, decide_false, if_false]
      exact ih

theorem putChild_shape {α : Type} {k : N} {u : CoreTree N V C O S K} {a b : α} : ∀ {ts ts' : List (CoreTree N V C O S K)},
    onChild k (fun _ => (u, a)) ts = some (ts', b) → ts'.map shape = Pseudo.putChild k (shape u) (ts.map shape) ∧ b = a
  | [], ts', h => by simp [onChild] at h
  | t :: ts, ts', h => by
    unfold onChild at h
    simp only [List.map_cons, Pseudo.putChild, shape_nick]
    split at h
    · rename_i hk
      cases h
      simp [hk]
    · rename_i hk
      rw [if_neg hk]
      split at h
      · cases h
      · rename_i ts1 a1 h1
        cases h
        obtain ⟨e1, e2⟩ := putChild_shape h1
        exact ⟨by simp [e1], e2⟩

theorem onChild_some {α : Type} {k : N} {u v : CoreTree N V C O S K} {a : α} : ∀ {ts : List (CoreTree N V C O S K)},
    child k ts = some v → ∃ ts', onChild k (fun _ => (u, a)) ts = some (ts', a)
  | [], h => by cases h
  | t :: ts, h => by
    unfold child at h
    unfold onChild
    by_cases hk : t.label.nick = k
    · simp [hk]
    · rw [if_neg hk] at h ⊢
      obtain ⟨ts', e⟩ := onChild_some (u := u) (a := a) h
      simp [e]

theorem onPath_shape {α : Type} {f : List (Dict N V) → CoreTree N V C O S K → CoreTree N V C O S K × α} (Q : α → Prop)
    {F : Tree (Pseudo N) → Tree (Pseudo N) × Result Unit} : ∀ (p : List N) (up : List (Dict N V)) (t : CoreTree N V C O S K),
    (∀ up u, walk t p = .ok u → Q (f up u).2 → shape (f up u).1 = (F (shape u)).1) →
    (match onPath f p up t with
      | none => Pseudo.atPath F p (shape t) = (shape t, .error .KeyError)
      | some (t', a) => Q a → shape t' = (Pseudo.atPath F p (shape t)).1 ∧ ∃ up u, walk t p = .ok u ∧ a = (f up u).2 ∧
          (Pseudo.atPath F p (shape t)).2 = (F (shape u)).2)
  | [], up, t, h => fun hq => ⟨h up t rfl hq, up, t, rfl, rfl, rfl⟩
  | k :: ks, up, .node c ts, h => by
    simp only [onPath, Pseudo.atPath, getChild_shape, kids_node]
    cases hc : child k ts with
    | none => rfl
    | some u =>
      have ih := onPath_shape Q ks (c.locus :: up) u (fun up' v hv hq => h up' v (by simp only [walk, kids_node, hc]; exact hv) hq)
      simp only
      rcases ho : onPath f ks (c.locus :: up) u with _ | ⟨u', a⟩
      · rw [ho] at ih
        simp only at ih ⊢
        rw [ih, shape_kids, kids_node, ← (putChild_shape (onChild_same () hc)).1, ← shapeL_eq]
        rfl
      · rw [ho] at ih
        simp only at ih ⊢
        obtain ⟨ts', h1⟩ := onChild_some (u := u') (a := a) hc
        rw [h1]
        simp only
        intro hq
        obtain ⟨e1, up', v, e2, e3, e4⟩ := ih hq
        refine ⟨?_, up', v, by simp only [walk, kids_node, hc]; exact e2, e3, e4⟩
        rw [← e1, shape_kids, kids_node, ← (putChild_shape h1).1, ← shapeL_eq]
        rfl

theorem step_shape {t : CoreTree N V C O S K} {α : Type} {f : List (Dict N V) → CoreTree N V C O S K → CoreTree N V C O S K × α}
    {F : Tree (Pseudo N) → Tree (Pseudo N) × Result Unit} {p : List N} (h : ∀ up u, shape (f up u).1 = (F (shape u)).1) {x : CoreTree N V C O S K}
    (hx : x = match onPath f p [] t with | none => t | some (t', _) => t') : shape x = (Pseudo.atPath F p (shape t)).1 := by
  have := onPath_shape (fun _ : α => True) (F := F) p [] t (fun up u _ _ => h up u)
  subst hx
  rcases ho : onPath f p [] t with _ | ⟨t', a⟩
  · rw [ho] at this; simp only at this ⊢; rw [this]
  · rw [ho] at this; exact (this trivial).1

/-- One operation, unless it is a `breed` that is refused. -/
theorem shape_step (sem : Sem N V C O S (XR K)) (noneV : V) {bn : BN N V C O} (hr : Ready bn) {ns : Tree (NSet N)} {sc : SimCore N V C O}
    (hsc : asSimCore bn ns = .ok sc) (t : CoreTree N V C O S K) (s : S) (op : Op N V)
    (hb : ∀ p nick g exo, op = .breed p nick g exo → (step sem noneV sc t s op).2.2 = .ok ()) :
    shape (step sem noneV sc t s op).1 = (Pseudo.step (shape t) op).1 ∧
      (∀ p nick g exo, op = .breed p nick g exo → (Pseudo.step (shape t) op).2 = .ok ()) := by
  obtain ⟨-, hgs⟩ := groups_ok hr hsc
  have frame : ∀ {α : Type} (f : List (Dict N V) → CoreTree N V C O S K → CoreTree N V C O S K × α) (p : List N) (e : Result Unit) {x : CoreTree N V C O S K},
      (∀ up u, Along sameFrame up up u (f up u).1) → (x = match onPath f p [] t with | none => t | some (t', _) => t') →
      shape x = (Pseudo.atPath (fun u => (u, e)) p (shape t)).1 :=
    fun f p e x hf hx => step_shape (fun up u => shape_along _ _ _ _ (hf up u)) hx
  cases op with
  | breed p nick g exo =>
    have hb := hb p nick g exo rfl
    simp only [step, Pseudo.step] at hb ⊢
    have := onPath_shape (fun a : S × Result Unit => a.2 = .ok ()) (F := Pseudo.breed nick g) (f := fun up u => breed sem noneV sc up u nick g exo s)
      p [] t (fun up u _ hq => ?_)
    · rcases ho : onPath (fun up u => breed sem noneV sc up u nick g exo s) p [] t with _ | ⟨t', s', o⟩
      · rw [ho] at hb; cases hb
      · rw [ho] at this hb
        obtain ⟨e1, up, u, e2, e3, e4⟩ := this hb
        refine ⟨e1, fun _ _ _ _ _ => ?_⟩
        rw [e4]
        obtain ⟨-, h2, -⟩ := C48_breed sem noneV sc (t := u) (t' := (breed sem noneV sc up u nick g exo s).1) (s' := (breed sem noneV sc up u nick g exo s).2.1)
          (Prod.ext rfl (Prod.ext rfl (by rw [← congrArg Prod.snd e3]; exact hb)))
        unfold Pseudo.breed
        rw [if_neg]
        rw [shape_kids, List.map_map]
        intro hh
        obtain ⟨v, hv, e⟩ := List.mem_map.1 hh
        exact h2 v hv (by simpa using e)
    · obtain ⟨h1, h2, c, h3, h4, h5, -⟩ := C48_breed sem noneV sc (t := u) (t' := (breed sem noneV sc up u nick g exo s).1)
        (s' := (breed sem noneV sc up u nick g exo s).2.1) (Prod.ext rfl (Prod.ext rfl hq))
      rw [h3]
      unfold Pseudo.breed
      rw [if_neg]
      · obtain ⟨c0, ts⟩ := u
        simp only [shape, shapeL_eq, label_node, kids_node, Pseudo.new, h4, (hgs g _ h5).1, List.map_append, List.map_cons, List.map_nil]
      · rw [shape_kids, List.map_map]
        intro hh
        obtain ⟨v, hv, e⟩ := List.mem_map.1 hh
        exact h2 v hv (by simpa using e)
  | remove p nick =>
    refine ⟨step_shape (f := fun _ u => (removeChild u nick, ())) (fun up u => ?_) ?_, fun _ _ _ _ h => by cases h⟩
    · obtain ⟨c, ts⟩ := u
      simp only [removeChild, Pseudo.removeChild, shape, shapeL_eq, label_node, kids_node, List.filter_map]
      simp [Function.comp_def]
    · simp only [step]
      cases onPath (fun _ u => (removeChild u nick, ())) p [] t <;> rfl
  | impulse p i =>
    refine ⟨frame (fun up u => impulse sem sc.bn up u i s) p _ (fun up u => ?_) ?_, fun _ _ _ _ h => by cases h⟩
    · unfold impulse
      cases shocks sc.bn i with
      | error e => exact along_refl (fun _ _ _ => ⟨rfl, rfl, rfl⟩) _ _ _
      | ok r => exact setResponse_frame sem sc.bn r.1 r.2 u up up up s
    · simp only [step]
      cases onPath (fun up u => impulse sem sc.bn up u i s) p [] t <;> rfl
  | localActors p =>
    refine ⟨frame (fun up u => localActors sem sc.bn up u s) p _ (fun up u => ?_) ?_, fun _ _ _ _ h => by cases h⟩
    · obtain ⟨c', e, h⟩ := along_localActors sem sc.bn up u s
      rw [e]
      obtain ⟨c, ts⟩ := u
      exact along_actors up h
    · simp only [step]
      cases onPath (fun up u => localActors sem sc.bn up u s) p [] t <;> rfl
  | sharedActors p nick =>
    refine ⟨frame (fun up u => sharedActors sem sc.bn nick up u s) p _ (fun up u => ?_) ?_, fun _ _ _ _ h => by cases h⟩
    · obtain ⟨c', e, h⟩ := along_sharedActors sem sc.bn nick up u s
      rw [e]
      obtain ⟨c, ts⟩ := u
      exact along_actors up h
    · simp only [step]
      cases onPath (fun up u => sharedActors sem sc.bn nick up u s) p [] t <;> rfl
  | localSampler p k =>
    refine ⟨frame (fun up u => localSampler sem sc.bn k up u s) p _ (fun up u => ?_) ?_, fun _ _ _ _ h => by cases h⟩
    · obtain ⟨c', e, h⟩ := along_localActors sem sc.bn up u s
      obtain ⟨c, ts⟩ := u
      unfold localSampler
      rcases hl : localActors sem sc.bn up (.node c ts) s with ⟨⟨c1, ts1⟩, s2, _ | _⟩
      · rw [hl] at e
        cases e
        exact along_actors up h
      · rw [hl] at e
        cases e
        exact along_actors up h
    · simp only [step]
      cases onPath (fun up u => localSampler sem sc.bn k up u s) p [] t <;> rfl
  | sharedSampler p nick k =>
    refine ⟨frame (fun up u => sharedSampler sem sc.bn nick k up u s) p _ (fun up u => ?_) ?_, fun _ _ _ _ h => by cases h⟩
    · obtain ⟨c', e, h⟩ := along_sharedActors sem sc.bn nick up u s
      obtain ⟨c, ts⟩ := u
      unfold sharedSampler
      rcases hl : sharedActors sem sc.bn nick up (.node c ts) s with ⟨⟨c1, ts1⟩, s2, _ | _⟩
      · rw [hl] at e
        cases e
        exact along_actors up h
      · rw [hl] at e
        cases e
        simp only
        split <;> exact along_actors up h
    · simp only [step]
      cases onPath (fun up u => sharedSampler sem sc.bn nick k up u s) p [] t <;> rfl

/-- In this history no `breed` is refused. -/
def Breeds (sem : Sem N V C O S (XR K)) (noneV : V) (sc : SimCore N V C O) : List (Op N V) → CoreTree N V C O S K → S → Prop
  | [], _, _ => True
  | o :: os, t, s =>
    (∀ p nick g exo, o = .breed p nick g exo → (step sem noneV sc t s o).2.2 = .ok ()) ∧
      Breeds sem noneV sc os (step sem noneV sc t s o).1 (step sem noneV sc t s o).2.1

/-- **C162 (the part that holds)**: a hierarchy of pseudo cores that goes through the same operations has the names and groups of the
hierarchy of cores, as long as that refuses no `breed`.  (Missing: refused ones, see `C162_refuted`.) -/
theorem C162_partial (sem : Sem N V C O S (XR K)) (noneV : V) {bn : BN N V C O} (hr : Ready bn) {ns : Tree (NSet N)} {sc : SimCore N V C O}
    (hsc : asSimCore bn ns = .ok sc) : ∀ (ops : List (Op N V)) (t : CoreTree N V C O S K) (s : S), Breeds sem noneV sc ops t s →
    shape (run sem noneV sc ops t s).1 = Pseudo.run ops (shape t) := by
  intro ops
  induction ops with
  | nil => intro t s _; rfl
  | cons o os ih =>
    intro t s hb
    have h1 := (shape_step sem noneV hr hsc t s o hb.1).1
    show shape (run sem noneV sc os (step sem noneV sc t s o).1 (step sem noneV sc t s o).2.1).1 = _
    rw [ih _ _ hb.2, h1]
    rfl

example : shape (run Toy.lit (.str "None") sc49 [.breed [] "E" "agent" [], .impulse [] (.list ["a"]), .remove [] "A"] pc49 30).1 =
    .node ⟨"R", "root"⟩ [.node ⟨"B", "agent"⟩ [], .node ⟨"E", "agent"⟩ []] ∧
    (step Toy.lit (.str "None") sc49 pc49 30 (.breed [] "E" "agent" [])).2.2 = .ok () := by
  decide +kernel

/-- **C162 is false of the code**: a child of a group that does not exist is refused by a core, not by the pseudo core. -/
theorem C162_refuted : ∃ op : Op String Toy.TV, (step Toy.lit (.str "None") sc49 pc49 30 op).2.2 = .error .KeyError ∧
    shape (step Toy.lit (.str "None") sc49 pc49 30 op).1 = shape pc49 ∧ (Pseudo.step (shape pc49) op).2 = .ok () ∧
    (Pseudo.step (shape pc49) op).1 ≠ shape pc49 :=
  ⟨.breed [] "E" "nobody" [], by decide +kernel⟩

/-! ## C163: addresses of pseudo cores -/

theorem walk_shape : ∀ (p : List N) (t : CoreTree N V C O S K), Pseudo.walk p (shape t) = (walk t p).map shape
  | [], t => rfl
  | k :: ks, t => by
    simp only [Pseudo.walk, walk, getChild_shape]
    cases child k t.kids with
    | none => rfl
    | some u => exact walk_shape ks u

/-- **C163 (the part that holds)**: with any name put before it, an address finds the pseudo core in the place where without it
it finds the core.  (Missing: that both take the same address, which is false, see `C163_refuted`.) -/
theorem C163_partial (name : List Char → N) (t : CoreTree N V C O S K) (w : List Char) (hw : '@' ∉ w) (address : List Char) :
    Pseudo.findDescendant name (shape t) (w ++ '@' :: address) = (findDescendant name t address).map shape := by
  have hs : ∀ (w acc : List Char), '@' ∉ w → splitOn '@' acc (w ++ '@' :: address) = (acc.reverse ++ w) :: splitOn '@' [] address := by
    intro w
    induction w with
    | nil => intro acc _; simp [splitOn]
    | cons x w ih =>
      intro acc hx
      simp only [List.mem_cons, not_or] at hx
      simp only [List.cons_append, splitOn]
      rw [if_neg (Ne.symm hx.1), ih (x :: acc) hx.2]
      simp
  have hne : ∀ (l acc : List Char), 0 < (splitOn '@' acc l).length := by
    intro l
    induction l with
    | nil => intro acc; simp [splitOn]
    | cons x l ih =>
      intro acc
      simp only [splitOn]
      split
      · simp
      · exact ih _
  unfold Pseudo.findDescendant findDescendant
  rw [hs w [] hw, ← walk_shape]
  simp only [List.length_cons, List.drop_succ_cons, List.drop_zero]
  rw [if_neg (by have := hne address []; omega)]

example : '@' ∉ "root".toList ∧
    (match Pseudo.findDescendant String.ofList (shape pc49) "root@A".toList with | .ok t => t.label.nick | _ => "") = "A" := by
  decide +kernel

/-- **C163 is false of the code**: at the address of the agent `A` the pseudo core finds itself. -/
theorem C163_refuted : (match findDescendant String.ofList pc49 "A".toList with | .ok t => t.label.nick | _ => "") = "A" ∧
    (match Pseudo.findDescendant String.ofList (shape pc49) "A".toList with | .ok t => t.label.nick | _ => "") = "R" := by
  decide +kernel

/-- **C163**, detaching: a pseudo core that detaches from its parent stays among its children. -/
theorem C163_detach (t : Tree (Pseudo N)) {nick group : N} (hn : nick ∉ t.kids.map (fun u => u.label.nick)) :
    ∃ t', Pseudo.breed nick group t = (t', .ok ()) ∧ (Pseudo.detach nick t').2 = .ok () ∧
      Pseudo.new nick group ∈ (Pseudo.detach nick t').1.kids := by
  refine ⟨.node t.label (t.kids ++ [Pseudo.new nick group]), by unfold Pseudo.breed; rw [if_neg hn], ?_⟩
  unfold Pseudo.detach Pseudo.getChild
  rw [kids_node, List.find?_append]
  cases t.kids.find? (fun u => decide (u.label.nick = nick)) <;> simp [Pseudo.new, label_node, kids_node]

/-! ## C164: moving to another simulation core -/

/-- **C164 is false of the code**: with a child, `reset_sc` raises TypeError; the core has its new group by then, its descendants
keep theirs. -/
theorem C164_refuted (sc : SimCore N V C O) (c : Core N V C O S K) (u : CoreTree N V C O S K) (ts : List (CoreTree N V C O S K))
    {g : Model.Group N} (hg : sc.groups.get? c.group.name = some g) :
    resetSc sc (.node c (u :: ts)) = (.node { c with group := g } (u :: ts), .error .TypeError) := by
  simp only [resetSc, hg]

/-- The agents of `pc49` would move to a simulation core in which their group is different. -/
example : (sc49.groups.get? pc49.label.group.name).isSome ∧ pc49.kids.length = 2 := by decide +kernel

/-- **C164 (the part that holds)**: a core without children moves to the group of its name, keeping all else; for an unknown group
KeyError and no change. -/
theorem C164_partial (sc : SimCore N V C O) (c : Core N V C O S K) :
    (∀ g, sc.groups.get? c.group.name = some g → ∃ c', resetSc sc (.node c []) = (.node c' [], .ok ()) ∧ c'.group = g ∧
      c'.nick = c.nick ∧ c'.locus = c.locus ∧ c'.logProb = c.logProb) ∧
    (c.group.name ∉ sc.groups.keys → ∀ ts, resetSc sc (.node c ts) = (.node c ts, .error .KeyError)) := by
  refine ⟨fun g hg => ⟨{ c with group := g }, by simp only [resetSc, hg], rfl, rfl, rfl, rfl⟩, fun h ts => ?_⟩
  simp only [resetSc, (Dict.get?_eq_none_iff _ _).2 h]

/-! ## C165: the samplers of children -/

/-- **C165 is false of the code**: before a child has asked for its actors, those shared by the children cannot be had. -/
theorem C165_refuted (sc : SimCore N V C O) (t : CoreTree N V C O S K) {group : N} (hg : group ∈ t.label.group.children)
    (hn : t.label.childActors = none) : getChildSamplers sc t group = .error .TypeError := by
  unfold getChildSamplers
  rw [if_neg (not_not.2 hg), hn]

/-- The agents of `pc49` have not asked. -/
example : "agent" ∈ pc49.label.group.children ∧ pc49.label.childActors.isNone := by decide +kernel

/-- **C165 (the part that holds)**: once a child of the group has asked for its shared actors, `get_child_samplers` gives these; a group
that is not listed fails the assertion.  (Missing: before that, see `C165_refuted`.) -/
theorem C165_partial (sem : Sem N V C O S (XR K)) {bn : BN N V C O} (hr : Ready bn) {ns : Tree (NSet N)} {sc : SimCore N V C O}
    (hsc : asSimCore bn ns = .ok sc) {up : List (Dict N V)} {t t' : CoreTree N V C O S K} (ht : All (Tidy sc) up t) {u : CoreTree N V C O S K}
    (hu : u ∈ t.kids) {s s' : S} (h : sharedActors sem bn u.label.nick up t s = (t', s', .ok ())) :
    (∃ d a, t'.label.childActors = some d ∧ d.get? u.label.group.name = some a ∧ getChildSamplers sc t' u.label.group.name = .ok a) ∧
    (∀ g, g ∉ t.label.group.children → getChildSamplers sc t g = .error .AssertionError) := by
  obtain ⟨-, hgs⟩ := groups_ok hr hsc
  refine ⟨?_, fun g hg => by unfold getChildSamplers; rw [if_pos hg]⟩
  obtain ⟨c, ts⟩ := t
  obtain ⟨g, hg, hgg⟩ := ht.1.2 u hu
  have hname : u.label.group.name = g := (hgs g _ hgg).1
  obtain ⟨c', e, -, e2⟩ := along_sharedActors sem bn u.label.nick up (.node c ts) s
  rw [h] at e
  simp only at e
  subst e
  rw [label_node] at e2
  have hget : ∃ d a, c'.childActors = some d ∧ d.get? u.label.group.name = some a := by
    have hc : child u.label.nick ts = some u := (child_unique ht.1.1).2 ⟨hu, rfl⟩
    simp only [sharedActors, hc] at h
    cases hd : (c.childActors.getD []).get? u.label.group.name with
    | some a =>
      rw [hd] at h
      simp only [Prod.mk.injEq, Tree.node.injEq] at h
      obtain ⟨⟨rfl, -⟩, -⟩ := h
      cases hca : c.childActors with
      | none => rw [hca] at hd; simp at hd
      | some d => rw [hca] at hd; exact ⟨d, a, rfl, hd⟩
    | none =>
      rw [hd] at h
      simp only [Core.putShared] at h
      split at h
      · simp at h
      · split at h
        · simp at h
        · rename_i d' s2 _
          simp only [Prod.mk.injEq, Tree.node.injEq] at h
          obtain ⟨⟨rfl, -⟩, -⟩ := h
          exact ⟨_, d', rfl, Dict.get?_set_self _ _ _⟩
  obtain ⟨d, a, h1, h2⟩ := hget
  refine ⟨d, a, h1, h2, ?_⟩
  unfold getChildSamplers
  rw [if_neg]
  · rw [label_node, h1]
    simp only [h2]
  · rw [label_node, e2.1, hname]
    exact not_not.2 hg

/-- The agent `A` of `pc49` asks; the actors that agents share are those of `z` and `w`. -/
example : (step Toy.lit (.str "None") sc49 pc49 20 (.sharedActors [] "A")).2.2 = .ok () ∧
    (match getChildSamplers sc49 (step Toy.lit (.str "None") sc49 pc49 20 (.sharedActors [] "A")).1 "agent" with | .ok d => d.keys | _ => []) = ["z", "w"] := by
  decide +kernel

end Props.SimCore
