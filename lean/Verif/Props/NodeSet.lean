import Verif.Lemmas.NodeSet

/-!
# Properties of node sets: C41 - C46
-/

namespace Props.NodeSet

set_option linter.unusedSectionVars false

open Py Spec Relation Model Model.Digraph Model.BN Model.NSet Props.Sampling Props.BN

variable {N V C O : Type} [DecidableEq N]

/-- Some node set of the hierarchy fixes or floats the node. -/
def Allocated (t : Tree (NSet N)) (x : N) : Prop := ∃ c ∈ t.labels, x ∈ c.fixed ∨ x ∈ c.floating

/-- A node without parents that is not random. -/
def Plain (bn : BN N V C O) (x : N) : Prop := x ∈ bn.dag.nodes ∧ ¬ bn.Rv x ∧ ∀ p, ¬ bn.dag.E p x

/-- Neither random nor below a random node. -/
def Certain (bn : BN N V C O) (x : N) : Prop := ∀ a, ReflTransGen bn.dag.E a x → ¬ bn.Rv a

instance (t : Tree (NSet N)) (x : N) : Decidable (Allocated t x) := by
  unfold Allocated; infer_instance

/-- Read a fact off the computed result. -/
theorem of_ok {α : Type} {r : Result α} {P : α → Prop} (d : ∀ a, Decidable (P a))
    (h : (match r with | .ok a => decide (P a) | .error _ => false) = true) : ∃ a, r = .ok a ∧ P a := by
  cases r with
  | ok a => exact ⟨a, rfl, of_decide_eq_true h⟩
  | error e => cases h

/-- Read an exception off the computed result. -/
theorem of_error {α : Type} {r : Result α} {e : Err} (h : (match r with | .ok _ => false | .error e' => decide (e' = e)) = true) :
    r = .error e := by
  cases r with
  | ok a => cases h
  | error e' => rw [of_decide_eq_true h]

/-- The only node set of a hierarchy of one. -/
theorem of_single {r : Result (Tree (NSet N))} {P : NSet N → Prop} (d : ∀ a, Decidable (P a))
    (h : (match r with | .ok (.node a []) => decide (P a) | _ => false) = true) : ∃ a, r = .ok (.node a []) ∧ P a := by
  match r, h with
  | .ok (.node a []), h => exact ⟨a, rfl, of_decide_eq_true h⟩

/-- `inject_bn` from the outcome of its first half. -/
theorem of_half {bn : BN N V C O} {t t2 : Tree (NSet N)} (h0 : validate bn t = .ok true)
    (h1 : (do let t ← localT bn true [] t; let r ← relateT bn true [] (raiseT t).1; pure r.1) = .ok t2) :
    inject bn t = (do let t ← locate bn t2; let t ← samplersT bn t; sortT bn t) := by
  obtain ⟨t1, h2, h3⟩ := bind_ok.1 h1
  obtain ⟨⟨t', r⟩, h4, h5⟩ := bind_ok.1 h3
  cases h5
  unfold inject
  rw [h0]
  show (do
    let t ← localT bn true [] t
    let (t, _) ← relateT bn true [] (raiseT t).1
    let t ← locate bn t
    let t ← samplersT bn t
    sortT bn t) = _
  rw [h2]
  show (do
    let (t, _) ← relateT bn true [] (raiseT t1).1
    let t ← locate bn t
    let t ← samplersT bn t
    sortT bn t) = _
  rw [h4]
  rfl

/-! ## Networks of the examples -/

/-- `a = 1`. -/
def val (x : String) : Toy.TL := .value x (.num 1)

/-- `x` is the sum of the others plus one. -/
def fn (x : String) (ps : List String) : Toy.TL := .func x (ps.foldl (fun e p => Toy.plus e (Toy.var p)) (Toy.int 1)) ps

/-- `x ~ norm(p1 + p2 + .., 1)`. -/
def rv (x : String) (ps : List String) : Toy.TL :=
  .dist x (Toy.app "norm" [] [("loc", ps.foldl (fun e p => Toy.plus e (Toy.var p)) (Toy.int 0)), ("scale", Toy.int 1)]) ps

/-- The network of these definitions. -/
def net (ds : List Toy.TL) : BN String Toy.TV Toy.TC Unit := defineAll (.empty "m") ds

/-- `a = 1`, `b = a + 1`, `c = b + 1`, `x ~ norm(0, 1)`. -/
def n41 := net [val "a", fn "b" ["a"], fn "c" ["b"], rv "x" []]

theorem n41_ready : Ready n41 :=
  ⟨_, _, ((((Built.empty "m").step _ (by decide)).step _ (by decide)).step _ (by decide)).step _ (by decide), .inl rfl⟩

/-- `u = 1`, `p = f(u)`, `q = f(p)` pseudo, `x ~ norm(q, 1)`. -/
def nPseudo := net [val "u", .pseudo "p" ["u"], .pseudo "q" ["p"], rv "x" ["q"]]

theorem nPseudo_ready : Ready nPseudo :=
  ⟨_, _, ((((Built.empty "m").step _ (by decide)).step _ (by decide)).step _ (by decide)).step _ (by decide), .inl rfl⟩

/-- `u = 1`, `d ~ norm(u, 1)`, `w = d + 1`. -/
def n42 := net [val "u", rv "d" ["u"], fn "w" ["d"]]

theorem n42_ready : Ready n42 :=
  ⟨_, _, (((Built.empty "m").step _ (by decide)).step _ (by decide)).step _ (by decide), .inl rfl⟩

/-- `v = 1`, `w = v + 1`, `r ~ norm(v, 1)`, `d ~ norm(r + w, 1)`. -/
def n46 := net [val "v", fn "w" ["v"], rv "r" ["v"], rv "d" ["r", "w"]]

theorem n46_ready : Ready n46 :=
  ⟨_, _, ((((Built.empty "m").step _ (by decide)).step _ (by decide)).step _ (by decide)).step _ (by decide), .inl rfl⟩

/-- `k = 1`, `d = k + 1`, `e = d + 1`, `x ~ norm(d, 1)`. -/
def nSib := net [val "k", fn "d" ["k"], fn "e" ["d"], rv "x" ["d"]]

theorem nSib_ready : Ready nSib :=
  ⟨_, _, ((((Built.empty "m").step _ (by decide)).step _ (by decide)).step _ (by decide)).step _ (by decide), .inl rfl⟩

/-! ## C43 -/

/-- **C43**: names and requests are kept, every node requested as fixed is fixed in its node set, every network node
requested as floating is floating or fixed there, and the fixed nodes are listed once, ancestors first. -/
theorem C43_requests {bn : BN N V C O} (hr : Ready bn) {t t' : Tree (NSet N)} (h : inject bn t = .ok t') :
    t'.map request = t.map request ∧ ∀ c ∈ t'.labels,
      (∀ x ∈ c.asFixed, x ∈ c.fixed) ∧ (∀ x ∈ c.asFloating, x ∈ bn.dag.nodes → x ∈ c.floating ∨ x ∈ c.fixed) ∧
      c.fixed.Nodup ∧ RespectsPaths bn.dag.E c.fixed ∧ ∀ x ∈ c.fixed ++ c.floating, x ∈ bn.dag.nodes := by
  obtain ⟨hw, ⟨od, hod, ht⟩, -⟩ := hr.facts
  have hf := inject_final hw hod ht h
  obtain ⟨-, -, -, -, hv, -⟩ := inject_stages h
  refine ⟨hf.map_eq (fun a b hab => hab.req), fun c hc => ?_⟩
  obtain ⟨a, ha, hac⟩ := hf.right c hc
  have e1 : c.asFixed = a.asFixed := congrArg (fun r => r.2.1) hac.req
  have e2 : c.asFloating = a.asFloating := congrArg (fun r => r.2.2) hac.req
  refine ⟨fun x hx => ?_, fun x hx hn => ?_, ?_, ?_, fun x hx => ?_⟩
  · rw [e1] at hx
    exact hac.fixed x hx (validate_known t hv a ha x hx)
  · rw [e2] at hx
    exact hac.floating x hx hn
  · rw [hac.sorted]
    exact ht.nodup.filter _
  · rw [hac.sorted]
    exact respectsPaths_filter (respectsPaths_of_order ht) _
  · rcases List.mem_append.1 hx with hx | hx
    · rw [hac.sorted] at hx
      exact (ht.complete x).1 (List.mem_filter.1 hx).1
    · exact hac.known x (List.mem_append_left _ hx)

/-- **C43**, refusal: if some node set asks to float an ancestor of a node it fixes (without fixing it too), `inject_bn`
raises AssertionError. -/
theorem C43_refused {bn : BN N V C O} (hr : Ready bn) {t : Tree (NSet N)}
    (hk : ∀ a ∈ t.labels, ∀ x ∈ a.asFixed, x ∈ bn.dag.nodes) {a : NSet N} (ha : a ∈ t.labels) {f d : N} (hf : f ∈ a.asFixed)
    (hd : d ∈ a.asFloating) (hdf : d ∉ a.asFixed) (hp : TransGen bn.dag.E d f) : inject bn t = .error .AssertionError := by
  obtain ⟨hw, -, -⟩ := hr.facts
  obtain ⟨b, h1, h2⟩ := validate_ok hw t hk
  have hb : b = false := by
    rw [← Bool.not_eq_true, h2]
    intro h
    exact h a ha ⟨f, hf, d, hd, hdf, hp⟩
  unfold inject
  rw [h1, hb]
  rfl

/-- **C43**, refusal of unknown names: `inject_bn` does not return when an unknown node is to be fixed. -/
theorem C43_unknown {bn : BN N V C O} {t t' : Tree (NSet N)} {a : NSet N} (ha : a ∈ t.labels) {x : N} (hx : x ∈ a.asFixed)
    (hn : x ∉ bn.dag.nodes) : inject bn t ≠ .ok t' := by
  intro h
  obtain ⟨-, -, -, -, hv, -⟩ := inject_stages h
  exact hn (validate_known t hv a ha x hx)

/-- A hierarchy of three levels on `n46`, as in the example at the end of nodeset.py. -/
def t46 : Tree (NSet String) :=
  .node (new "root" ["v"] []) [.node (new "med" ["w"] ["r"]) [.node (new "leaf" ["d"] []) []]]

theorem t46_half : inject n46 t46 = (do
    let t ← locate n46 (.node ⟨"root", ["v"], [], [], [], ["v", "v"], [], [], ["r"], [], []⟩
      [.node ⟨"med", ["w"], ["r"], ["v"], ["v"], ["w"], ["r"], ["v", "v"], [], [], []⟩
        [.node ⟨"leaf", ["d"], [], ["v", "w"], [], ["d", "r"], [], ["v", "v", "w"], [], [], []⟩ []]])
    let t ← samplersT n46 t
    sortT n46 t) :=
  of_half (by decide +kernel) (by decide +kernel)

example : ∃ t', inject n46 t46 = .ok t' ∧
    t'.labels.map (fun c => (c.fixed, c.floating)) = [(["v"], []), (["w"], ["r"]), (["r", "d"], [])] := by
  rw [t46_half]
  exact of_ok (P := fun t' : Tree (NSet String) => t'.labels.map (fun c => (c.fixed, c.floating)) =
    [(["v"], []), (["w"], ["r"]), (["r", "d"], [])]) (fun _ => inferInstance) (by decide +kernel)

example : inject n42 (.node (new "root" ["w"] ["d"]) []) = .error .AssertionError ∧
    inject n42 (.node (new "root" ["nope"] []) []) = .error .NetworkXError := by
  constructor <;> exact of_error (by decide +kernel)

/-! ## C41 -/

/-- **C41 is false of the code**: with `a = 1`, `b = a + 1`, `c = b + 1`, `x ~ norm(0, 1)` and `as_floating=['x']`
nothing fixes or floats `c`. -/
theorem C41_refuted : ∃ (bn : BN String Toy.TV Toy.TC Unit) (t t' : Tree (NSet String)), Ready bn ∧ inject bn t = .ok t' ∧
    "c" ∈ bn.dag.nodes ∧ ¬ Allocated t' "c" := by
  obtain ⟨t', h1, h2⟩ := of_ok (r := inject n41 (.node (new "root" [] ["x"]) [])) (P := fun t' => ¬ Allocated t' "c")
    (fun _ => inferInstance) (by decide +kernel)
  exact ⟨n41, _, t', n41_ready, h1, by decide, h2⟩

/-- **C41 is false of the code**, even for the default node set: of two pseudo nodes in a row the second is lost. -/
theorem C41_refuted_pseudo : ∃ (bn : BN String Toy.TV Toy.TC Unit) (t' : Tree (NSet String)), Ready bn ∧
    coreDefault "root" bn = .ok t' ∧ "q" ∈ bn.dag.nodes ∧ ¬ Allocated t' "q" := by
  obtain ⟨t', h1, h2⟩ := of_ok (r := coreDefault "root" nPseudo) (P := fun t' => ¬ Allocated t' "q")
    (fun _ => inferInstance) (by decide +kernel)
  exact ⟨nPseudo, t', nPseudo_ready, h1, by decide, h2⟩

/-- **C41, partial**, every hierarchy: a node all of whose parents are requested by the node sets on one path down from
the root is allocated; in particular every root of the network is.  (Missing: nodes further below, see `C41_refuted`.) -/
theorem C41_partial {bn : BN N V C O} (hr : Ready bn) {t t' : Tree (NSet N)} (h : inject bn t = .ok t') {x : N}
    (hx : x ∈ bn.dag.nodes) :
    (∀ l, t.Path l → (∀ p, bn.dag.E p x → ∃ a ∈ l, p ∈ a.asFixed ∨ p ∈ a.asFloating) → Allocated t' x) ∧
    ((∀ p, ¬ bn.dag.E p x) → Allocated t' x) ∧
    (∀ a ∈ t.labels, x ∈ a.asFixed ∨ x ∈ a.asFloating → Allocated t' x) := by
  refine ⟨fun l hl hp => inject_places hr h hx hl hp, fun hp => ?_, fun a ha hxa => ?_⟩
  · refine inject_places hr h hx (l := [t.label]) ?_ fun p hpx => absurd hpx (hp p)
    cases t
    exact .inl rfl
  · obtain ⟨hw, ⟨od, hod, ht⟩, -⟩ := hr.facts
    obtain ⟨c, hc, hac⟩ := (inject_final hw hod ht h).left a ha
    rcases hxa with h' | h'
    · exact ⟨c, hc, .inl (hac.fixed x h' hx)⟩
    · exact ⟨c, hc, (hac.floating x h' hx).symm⟩

example : ∃ t', inject n46 t46 = .ok t' ∧ ∀ x ∈ n46.dag.nodes, Allocated t' x := by
  rw [t46_half]
  exact of_ok (P := fun t' : Tree (NSet String) => ∀ x ∈ n46.dag.nodes, Allocated t' x) (fun _ => inferInstance) (by decide +kernel)

/-- **C41**, exactly, for one node set whose requests contain the parents of what they contain: a node is allocated iff
it is requested or all its parents are requested or not random and without parents. -/
theorem C41_single {bn : BN N V C O} (hr : Ready bn) {A Fl : List N} (hc : Closed bn A Fl) (n : N) :
    ∃ b, inject bn (.node (new n A Fl) []) = .ok (.node b []) ∧ ∀ x ∈ bn.dag.nodes,
      (Allocated (.node b []) x ↔ x ∈ A ++ Fl ∨ ∀ p, bn.dag.E p x → p ∈ A ++ Fl ∨ Plain bn p) := by
  obtain ⟨b, h1, -, -, -, -, h2, h3, -⟩ := closed_single hr hc n
  refine ⟨b, h1, fun x hx => ?_⟩
  have hin : ∀ y, y ∈ A ++ Fl ↔ Set1 bn A Fl y ∨ Flo1 bn A Fl y := by
    intro y
    constructor
    · intro h
      by_cases hs : Set1 bn A Fl y
      · exact .inl hs
      · refine .inr ⟨?_, hs⟩
        rcases List.mem_append.1 h with h | h
        · exact absurd (.asked h) hs
        · exact h
    · rintro (h | h)
      · exact set1_sub h
      · simp [h.1]
  have hin2 : ∀ y, (y ∈ A ++ Fl ∨ Plain bn y) ↔ Set2 bn A Fl y ∨ Flo1 bn A Fl y := by
    intro y
    rw [hin]
    unfold Set2
    show _ ∨ PlainRoot bn y ↔ _
    tauto
  have hal : Allocated (.node b []) x ↔ x ∈ b.fixed ∨ x ∈ b.floating := by
    unfold Allocated
    simp [Tree.labels, Tree.labelsL]
  rw [hal, h2, h3]
  simp only [hin2]
  simp only [hin]
  constructor
  · rintro ((h | h) | (h | h))
    · exact .inl (.inl h)
    · exact .inr fun p hp => .inl (h.2.2 p hp)
    · exact .inl (.inr h)
    · exact .inr fun p hp => h.2.2.1 p hp
  · rintro ((h | h) | h)
    · exact .inl (.inl h)
    · exact .inr (.inl h)
    · by_cases h4 : bn.Rv x ∨ ∃ p, bn.dag.E p x ∧ Flo1 bn A Fl p
      · by_cases h5 : Set1 bn A Fl x ∨ Flo1 bn A Fl x
        · exact h5.elim (fun h => .inl (.inl h)) (fun h => .inr (.inl h))
        · exact .inr (.inr ⟨hx, h5, h, h4⟩)
      · push Not at h4
        exact .inl (.inr ⟨hx, h4.1, fun p hp => (h p hp).resolve_right (h4.2 p hp)⟩)

example : Closed n41 ["a"] ["x"] := by
  constructor
  · decide
  · decide
  · intro x hx p hp
    revert p
    have : ∀ x ∈ (["a"] ++ ["x"] : List String), ∀ p ∈ n41.dag.preds x, p ∈ (["a"] ++ ["x"] : List String) := by decide
    intro p hp
    exact this x hx p ((mem_preds n41.dag p x).2 hp)
  · intro x hx p hp
    rw [List.mem_singleton] at hx
    subst hx
    obtain ⟨q, -, h5⟩ := (TransGen.tail'_iff).1 hp
    have : n41.dag.preds "a" = [] := by decide
    have h6 := (mem_preds n41.dag q "a").2 h5
    rw [this] at h6
    cases h6

/-- **C41** for `as_simulation_core(bn)`: without pseudo nodes the default node set allocates every node; and it fixes
exactly the nodes without randomness and floats the others (**C42** for it). -/
theorem C41_default {bn : BN N V C O} (hr : Ready bn) (hnp : ∀ x l, bn.loci.get? x = some l → l.isPseudo = false) (root : N) :
    ∃ b, coreDefault root bn = .ok (.node b []) ∧ (∀ x, x ∈ b.fixed ↔ x ∈ bn.dag.nodes ∧ Certain bn x) ∧
      (∀ x, x ∈ b.floating ↔ x ∈ bn.dag.nodes ∧ ¬ Certain bn x) ∧
      ∀ x ∈ b.floating, ∃ l s, b.localS.get? x = some l ∧ b.sharedS.get? x = some s ∧ l.name = x ∧ s.name = x := by
  obtain ⟨hw, -, -⟩ := hr.facts
  have hk : ∀ x ∈ bn.dag.leaves, x ∈ bn.dag.nodes := fun x hx => ((Props.Dag.C03_leaves bn.dag).2 x).1 hx |>.1
  obtain ⟨b, h1, -, -, -, -, h2, h3, h4, -⟩ := float_single hr hnp hk root
  have hup : ∀ x, x ∈ upTo bn bn.dag.leaves ↔ x ∈ bn.dag.nodes := by
    intro x
    constructor
    · intro h
      exact (upTo_closed hw hk).known x (by simpa using h)
    · intro h
      obtain ⟨r, h5, h6⟩ := Props.Dag.C03_leaf_below hw.wf hw.acyclic h
      exact (mem_upTo hw hk x).2 ⟨r, h5, h6⟩
  have hset : ∀ x, Set1 bn [] (upTo bn bn.dag.leaves) x ↔ x ∈ bn.dag.nodes ∧ Certain bn x := by
    intro x
    rw [set1_nr hr (upTo_closed hw hk), hup]
    rfl
  have hfl : ∀ x, x ∈ b.floating ↔ x ∈ bn.dag.nodes ∧ ¬ Certain bn x := by
    intro x
    rw [h3]
    unfold Flo1
    rw [hset, hup]
    constructor
    · rintro (h | ⟨h5, h6, -⟩)
      · exact ⟨h.1, fun h' => h.2 ⟨h.1, h'⟩⟩
      · exact absurd (by simpa using (hup x).2 h5) h6
    · rintro ⟨h5, h6⟩
      exact .inl ⟨h5, fun h => h6 h.2⟩
  refine ⟨b, h1, fun x => ?_, hfl, fun x hx => ?_⟩
  · rw [h2]
    constructor
    · rintro (h | ⟨h5, h6, h7⟩)
      · exact (hset x).1 h
      · refine ⟨h5, fun a ha => ?_⟩
        rcases (ReflTransGen.cases_tail_iff _ _ _).1 ha with h | ⟨p, h8, h9⟩
        · exact h ▸ h6
        · rcases h7 p h9 with h | h
          · exact ((hset p).1 h).2 a h8
          · rcases (ReflTransGen.cases_tail_iff _ _ _).1 h8 with h' | ⟨q, -, h10⟩
            · exact h' ▸ h.2.1
            · exact absurd h10 (h.2.2 q)
    · intro h
      exact .inl ((hset x).2 h)
  · obtain ⟨l, s, a1, a2, a3⟩ := h4 x hx
    exact ⟨l, s, a1, a2, a3.nameL, a3.nameS⟩

example : (∀ x l, n46.loci.get? x = some l → l.isPseudo = false) ∧ ∃ b, coreDefault "root" n46 = .ok (.node b []) ∧
    b.fixed = ["v", "w"] ∧ b.floating = ["d", "r"] := by
  refine ⟨?_, of_single (P := fun b => b.fixed = ["v", "w"] ∧ b.floating = ["d", "r"]) (fun _ => inferInstance) (by decide +kernel)⟩
  intro x l h
  have : ∀ p ∈ n46.loci, p.2.isPseudo = false := by decide
  exact this _ (Dict.mem_of_get? h)

/-! ## C42 -/

/-- **C42 is false of the code**: with `u = 1`, `d ~ norm(u, 1)`, `w = d + 1` and `as_fixed=['u', 'w']` the node `d` is
both fixed and floating. -/
theorem C42_refuted : ∃ (bn : BN String Toy.TV Toy.TC Unit) (t : Tree (NSet String)) (b : NSet String), Ready bn ∧
    inject bn t = .ok (.node b []) ∧ "d" ∈ b.fixed ∧ "d" ∈ b.floating :=
  ⟨n42, .node (new "root" ["u", "w"] []) [], (of_single (P := fun b => "d" ∈ b.fixed ∧ "d" ∈ b.floating)
    (fun _ => inferInstance) (by decide +kernel)).imp fun _ h => ⟨n42_ready, h⟩⟩

/-- **C42 is false of the code**: a random node requested both as fixed and as floating becomes both. -/
theorem C42_refuted_overlap : ∃ (bn : BN String Toy.TV Toy.TC Unit) (t : Tree (NSet String)) (b : NSet String), Ready bn ∧
    inject bn t = .ok (.node b []) ∧ "x" ∈ b.fixed ∧ "x" ∈ b.floating :=
  ⟨n41, .node (new "root" ["x"] ["x"]) [], (of_single (P := fun b => "x" ∈ b.fixed ∧ "x" ∈ b.floating)
    (fun _ => inferInstance) (by decide +kernel)).imp fun _ h => ⟨n41_ready, h⟩⟩

/-- **C42, partial**: one node set whose requests contain the parents of what they contain.  (Missing: other node sets,
see `C42_refuted`.) -/
theorem C42_partial {bn : BN N V C O} (hr : Ready bn) {A Fl : List N} (hc : Closed bn A Fl) (n : N) :
    ∃ b, inject bn (.node (new n A Fl) []) = .ok (.node b []) ∧ ∀ x ∈ b.fixed, x ∉ b.floating := by
  obtain ⟨b, h1, -, -, -, -, h2, h3, -⟩ := closed_single hr hc n
  refine ⟨b, h1, fun x hx hy => ?_⟩
  rw [h2] at hx
  rw [h3] at hy
  have hdis : ∀ p, Flo1 bn A Fl p → ¬ Set2 bn A Fl p := by
    rintro p ⟨h1, h2⟩ (h | ⟨h3, h4, h5⟩)
    · exact h2 h
    · exact h2 (.follows (by simp [h1]) h4 (fun q hq => absurd hq (h5 q)))
  rcases hx with hx | ⟨h4, h5, h6⟩
  · rcases hy with hy | hy
    · exact hy.2 hx
    · exact hy.2.1 (set1_sub hx)
  · rcases hy with hy | ⟨-, -, -, h7 | ⟨p, hp, h8⟩⟩
    · exact hy.2 (set2_next hc (by simp [hy.1]) h5 h6)
    · exact h5 h7
    · exact hdis p h8 (h6 p hp)

/-- **C42, partial**: one node set without fixed requests, in a network without pseudo nodes. -/
theorem C42_float_partial {bn : BN N V C O} (hr : Ready bn) (hnp : ∀ x l, bn.loci.get? x = some l → l.isPseudo = false)
    {Fl : List N} (hk : ∀ x ∈ Fl, x ∈ bn.dag.nodes) (n : N) :
    ∃ b, inject bn (.node (new n [] Fl) []) = .ok (.node b []) ∧ (∀ x ∈ b.fixed, x ∉ b.floating) ∧
      (∀ x ∈ b.fixed, Certain bn x) ∧ (∀ x ∈ b.floating, ¬ Certain bn x) ∧
      (∀ x ∈ bn.dag.nodes, (Allocated (.node b []) x ↔ (∃ f ∈ Fl, ReflTransGen bn.dag.E x f) ∨
        ∀ p, bn.dag.E p x → (∃ f ∈ Fl, ReflTransGen bn.dag.E p f) ∨ Plain bn p)) := by
  obtain ⟨hw, -, -⟩ := hr.facts
  obtain ⟨b, h1, -, -, -, -, h2, h3, -⟩ := float_single hr hnp hk n
  have hset := set1_nr hr (upTo_closed hw hk)
  have hT := mem_upTo hw hk
  have hs2 : ∀ p, Set2 bn [] (upTo bn Fl) p → Certain bn p := by
    rintro p (h | h)
    · exact ((hset p).1 h).2
    · intro a ha
      rcases (ReflTransGen.cases_tail_iff _ _ _).1 ha with h' | ⟨q, -, h10⟩
      · exact h' ▸ h.2.1
      · exact absurd h10 (h.2.2 q)
  have hfx : ∀ x ∈ b.fixed, Certain bn x := by
    intro x hx
    rcases (h2 x).1 hx with h | ⟨h5, h6, h7⟩
    · exact ((hset x).1 h).2
    · intro a ha
      rcases (ReflTransGen.cases_tail_iff _ _ _).1 ha with h' | ⟨p, h8, h9⟩
      · exact h' ▸ h6
      · exact hs2 p (h7 p h9) a h8
  have hflo : ∀ p, Flo1 bn [] (upTo bn Fl) p → ¬ Certain bn p := by
    rintro p ⟨h4, h5⟩ h6
    exact h5 ((hset p).2 ⟨h4, h6⟩)
  have hfl : ∀ x ∈ b.floating, ¬ Certain bn x := by
    intro x hx
    rcases (h3 x).1 hx with h | ⟨-, -, -, h | ⟨p, hp, h⟩⟩
    · exact hflo x h
    · exact fun h' => h' x .refl h
    · exact fun h' => hflo p h (fun a ha => h' a (ha.tail hp))
  refine ⟨b, h1, fun x hx hy => hfl x hy (hfx x hx), hfx, hfl, fun x hx => ?_⟩
  have hal : Allocated (.node b []) x ↔ x ∈ b.fixed ∨ x ∈ b.floating := by
    unfold Allocated
    simp [Tree.labels, Tree.labelsL]
  have hin : ∀ y, (∃ f ∈ Fl, ReflTransGen bn.dag.E y f) ↔ Set1 bn [] (upTo bn Fl) y ∨ Flo1 bn [] (upTo bn Fl) y := by
    intro y
    rw [← hT]
    unfold Flo1
    have := hset y
    tauto
  have hin2 : ∀ y, ((∃ f ∈ Fl, ReflTransGen bn.dag.E y f) ∨ Plain bn y) ↔ Set2 bn [] (upTo bn Fl) y ∨ Flo1 bn [] (upTo bn Fl) y := by
    intro y
    rw [hin]
    unfold Set2
    show _ ∨ PlainRoot bn y ↔ _
    tauto
  rw [hal, h2, h3]
  simp only [hin2]
  simp only [hin, List.nil_append]
  constructor
  · rintro ((h | h) | (h | h))
    · exact .inl (.inl h)
    · exact .inr fun p hp => .inl (h.2.2 p hp)
    · exact .inl (.inr h)
    · exact .inr fun p hp => h.2.2.1 p hp
  · rintro ((h | h) | h)
    · exact .inl (.inl h)
    · exact .inr (.inl h)
    · by_cases h4 : bn.Rv x ∨ ∃ p, bn.dag.E p x ∧ Flo1 bn [] (upTo bn Fl) p
      · by_cases h5 : x ∈ upTo bn Fl
        · rcases (hin x).1 ((hT x).1 h5) with h | h
          · exact .inl (.inl h)
          · exact .inr (.inl h)
        · exact .inr (.inr ⟨hx, h5, h, h4⟩)
      · push Not at h4
        exact .inl (.inr ⟨hx, h4.1, fun p hp => (h p hp).resolve_right (h4.2 p hp)⟩)

example : ∃ b, inject n46 (.node (new "root" [] ["r"]) []) = .ok (.node b []) ∧ b.fixed = ["v", "w"] ∧ b.floating = ["r"] :=
  of_single (P := fun b => b.fixed = ["v", "w"] ∧ b.floating = ["r"]) (fun _ => inferInstance) (by decide +kernel)

/-! ## C44 (structure) and C45 -/

/-- **C44**, structure: `get_all_fixed_sc` fixes exactly the nodes of the network, in topological order, and floats none. -/
theorem C44_fixes {bn : BN N V C O} (hr : Ready bn) (root : N) :
    ∃ b, allFixed root bn = .ok (.node b []) ∧ bn.order = .ok b.fixed ∧ b.floating = [] ∧ b.willFloat = [] ∧ b.exo = [] := by
  obtain ⟨hw, ⟨od, hod, ht⟩, -⟩ := hr.facts
  have hc : Closed bn od [] := by
    refine ⟨fun x hx => (ht.complete x).1 (by simpa using hx), by simp, fun x hx p hp => ?_, by simp⟩
    rw [List.append_nil, ht.complete]
    exact mem_nodes_of_trans_left hw.wf (.single hp)
  obtain ⟨b, h1, -, -, h4, ⟨od', h5, h6⟩, h2, h3, -⟩ := closed_single hr hc root
  have hexo := closed_single_exo hr hc root h1
  cases hod.symm.trans h5
  have hall : ∀ x, x ∈ bn.dag.nodes → Set1 bn od [] x := fun x hx => .asked ((ht.complete x).2 hx)
  refine ⟨b, ?_, ?_, ?_, h4, hexo⟩
  · unfold allFixed
    rw [hod]
    exact h1
  · rw [hod, h6]
    congr 1
    symm
    rw [List.filter_eq_self]
    intro x hx
    rw [decide_eq_true_eq, h2]
    exact .inl (hall x ((ht.complete x).1 hx))
  · rw [List.eq_nil_iff_forall_not_mem]
    intro x hx
    rcases (h3 x).1 hx with h | h
    · cases h.1
    · exact h.2.1 (by simpa using (ht.complete x).2 h.1)

example : ∃ b, allFixed "root" n46 = .ok (.node b []) ∧ b.fixed = ["v", "w", "r", "d"] ∧ b.floating = [] :=
  of_single (P := fun b => b.fixed = ["v", "w", "r", "d"] ∧ b.floating = []) (fun _ => inferInstance) (by decide +kernel)

/-- **C45**: `get_all_float_sc` fixes exactly the nodes without randomness and floats exactly the others, and every
floating node has a local and a shared sampler. -/
theorem C45 {bn : BN N V C O} (hr : Ready bn) (root : N) :
    ∃ b, allFloat root bn = .ok (.node b []) ∧ (∀ x, x ∈ b.fixed ↔ x ∈ bn.dag.nodes ∧ Certain bn x) ∧
      (∀ x, x ∈ b.floating ↔ x ∈ bn.dag.nodes ∧ ¬ Certain bn x) ∧
      (∀ x ∈ b.floating, ∃ l s, b.localS.get? x = some l ∧ b.sharedS.get? x = some s ∧ l.name = x ∧ s.name = x) ∧
      (∀ x, x ∉ b.floating → b.localS.get? x = none ∧ b.sharedS.get? x = none) ∧
      b.fixed.Nodup ∧ RespectsPaths bn.dag.E b.fixed := by
  obtain ⟨hw, ⟨od, hod, ht⟩, -⟩ := hr.facts
  have hc : Closed bn [] od := by
    refine ⟨fun x hx => (ht.complete x).1 (by simpa using hx), by simp, fun x hx p hp => ?_, by simp⟩
    rw [List.nil_append, ht.complete]
    exact mem_nodes_of_trans_left hw.wf (.single hp)
  obtain ⟨b, h1, -, -, -, ⟨od', h5, h6⟩, h2, h3, h4, h7⟩ := closed_single hr hc root
  cases hod.symm.trans h5
  have hset : ∀ x, Set1 bn [] od x ↔ x ∈ bn.dag.nodes ∧ Certain bn x := by
    intro x
    rw [set1_nr hr hc, ht.complete]
    rfl
  have hfl : ∀ x, x ∈ b.floating ↔ x ∈ bn.dag.nodes ∧ ¬ Certain bn x := by
    intro x
    rw [h3]
    unfold Flo1
    rw [hset, ht.complete]
    constructor
    · rintro (h | ⟨h5, h6, -⟩)
      · exact ⟨h.1, fun h' => h.2 ⟨h.1, h'⟩⟩
      · exact absurd (by simpa using (ht.complete x).2 h5) h6
    · rintro ⟨h5, h6⟩
      exact .inl ⟨h5, fun h => h6 h.2⟩
  refine ⟨b, ?_, fun x => ?_, hfl, fun x hx => ?_, h7, ?_, ?_⟩
  · unfold allFloat
    rw [hod]
    exact h1
  · rw [h2]
    constructor
    · rintro (h | ⟨h5, h6, h7⟩)
      · exact (hset x).1 h
      · refine ⟨h5, fun a ha => ?_⟩
        rcases (ReflTransGen.cases_tail_iff _ _ _).1 ha with h | ⟨p, h8, h9⟩
        · exact h ▸ h6
        · rcases h7 p h9 with h | h
          · exact ((hset p).1 h).2 a h8
          · rcases (ReflTransGen.cases_tail_iff _ _ _).1 h8 with h' | ⟨q, -, h10⟩
            · exact h' ▸ h.2.1
            · exact absurd h10 (h.2.2 q)
    · intro h
      exact .inl ((hset x).2 h)
  · obtain ⟨l, s, a1, a2, a3⟩ := h4 x hx
    exact ⟨l, s, a1, a2, a3.nameL, a3.nameS⟩
  · rw [h6]
    exact ht.nodup.filter _
  · rw [h6]
    exact respectsPaths_filter (respectsPaths_of_order ht) _

example : ∃ b, allFloat "root" n46 = .ok (.node b []) ∧ b.fixed = ["v", "w"] ∧ b.localS.keys = ["r", "d"] ∧
    b.localS.get? "d" = some ⟨"d", .compound, ["w"], ["r"]⟩ :=
  of_single (P := fun b => b.fixed = ["v", "w"] ∧ b.localS.keys = ["r", "d"] ∧
    b.localS.get? "d" = some ⟨"d", .compound, ["w"], ["r"]⟩) (fun _ => inferInstance) (by decide +kernel)

/-! ## C46 -/

/-- Run in this order, from these values, every node finds its parents. -/
def Runs (E : N → N → Prop) (read sample : List N) (d : N) : Prop :=
  ∀ pre n post, sample ++ [d] = pre ++ n :: post → ∀ p, E p n → p ∈ read ∨ p ∈ pre

/-- **C46 is false of the code**: with `v = 1`, `w = v + 1`, `r ~ norm(v, 1)`, `d ~ norm(r + w, 1)`, all floating, the
sampler of `d` samples `r` without having `v`. -/
theorem C46_refuted : ∃ (bn : BN String Toy.TV Toy.TC Unit) (b : NSet String) (l : Blueprint String), Ready bn ∧
    allFloat "root" bn = .ok (.node b []) ∧ b.localS.get? "d" = some l ∧ ¬ Runs bn.dag.E l.toRead l.toSample "d" := by
  obtain ⟨b, h1, h2⟩ := of_single (r := allFloat "root" n46)
    (P := fun b => b.localS.get? "d" = some ⟨"d", .compound, ["w"], ["r"]⟩) (fun _ => inferInstance) (by decide +kernel)
  refine ⟨n46, b, _, n46_ready, h1, h2, ?_⟩
  intro h
  have := h [] "r" ["d"] (by decide) "v" ((mem_preds _ _ _).1 (by decide))
  revert this
  decide

/-- The hierarchy of `C46_refuted_sibling`: `P` has a child `c` fixing `e`, `Q` floats `x`. -/
def tSib : Tree (NSet String) :=
  .node (new "Root" ["k"] []) [.node (new "P" [] []) [.node (new "c" ["e"] []) []], .node (new "Q" [] ["x"]) []]

/-- Half way through, `Q` counts `d` as fixed before. -/
def tSib2 : Tree (NSet String) :=
  .node ⟨"Root", ["k"], [], [], [], ["k", "k"], [], [], ["x"], [], []⟩
    [.node ⟨"P", [], [], [], [], ["d"], [], ["k", "k", "d"], [], [], []⟩
      [.node ⟨"c", ["e"], [], ["k", "d"], [], ["e"], [], ["k", "k"], [], [], []⟩ []],
     .node ⟨"Q", [], ["x"], [], ["k", "d"], [], ["x"], ["k", "k", "d"], [], [], []⟩ []]

theorem tSib_half : inject nSib tSib = (do let t ← locate nSib tSib2; let t ← samplersT nSib t; sortT nSib t) :=
  of_half (by decide +kernel) (by decide +kernel)

/-- **C46 is false of the code**: what a child of `P` needs is fixed in `P` and then counts as fixed for the sibling
`Q`: its sampler of `x` reads `d`, which no node set above `Q` fixes. -/
theorem C46_refuted_sibling : ∃ (bn : BN String Toy.TV Toy.TC Unit) (root P q : NSet String) (us : List (Tree (NSet String)))
    (l : Blueprint String), Ready bn ∧ inject bn tSib = .ok (.node root [.node P us, .node q []]) ∧
    q.name = "Q" ∧ q.localS.get? "x" = some l ∧ "d" ∈ l.toRead ∧ "d" ∉ q.fixed ∧ "d" ∉ root.fixed ∧ "d" ∈ P.fixed := by
  obtain ⟨t', h1, h2⟩ := of_ok (r := (do let t ← locate nSib tSib2; let t ← samplersT nSib t; sortT nSib t)) (P := fun t' => match t' with
    | .node root [.node P _, .node q []] => q.name = "Q" ∧ q.localS.get? "x" = some ⟨"x", .frozen, ["d"], []⟩ ∧
        "d" ∉ q.fixed ∧ "d" ∉ root.fixed ∧ "d" ∈ P.fixed
    | _ => False) (fun t' => by split <;> infer_instance) (by decide +kernel)
  match t', h1, h2 with
  | .node root [.node P us, .node q []], h1, ⟨h2, h3, h4, h5, h6⟩ =>
    exact ⟨nSib, root, P, q, us, _, nSib_ready, tSib_half.trans h1, h2, h3, by decide, h4, h5, h6⟩

theorem above_path {bn : BN N V C O} : ∀ {t : Tree (NSet N)} {up : List N}, Above bn up t → ∀ pre c, t.Path (pre ++ [c]) →
    ∀ x ∈ c.wasFixed, x ∈ bn.dag.nodes → x ∈ up ∨ ∃ a ∈ pre ++ [c], x ∈ a.fixed := by
  intro t
  refine Tree.ind
    (P := fun t => ∀ {up : List N}, Above bn up t → ∀ pre c, t.Path (pre ++ [c]) →
      ∀ x ∈ c.wasFixed, x ∈ bn.dag.nodes → x ∈ up ∨ ∃ a ∈ pre ++ [c], x ∈ a.fixed)
    (Q := fun ts => ∀ {up : List N}, AboveL bn up ts → ∀ pre c, Tree.PathL ts (pre ++ [c]) →
      ∀ x ∈ c.wasFixed, x ∈ bn.dag.nodes → x ∈ up ∨ ∃ a ∈ pre ++ [c], x ∈ a.fixed) ?_ ?_ ?_ t
  · rintro a ts ih up ⟨h1, h2⟩ pre c hp x hx hn
    rcases hp with hp | ⟨l', hp, hl⟩
    · cases pre with
      | nil =>
        cases hp
        exact (h1 x hx hn).imp id (fun h => ⟨a, by simp, h⟩)
      | cons p pre =>
        simp at hp
    · cases pre with
      | nil =>
        simp only [List.nil_append, List.cons.injEq] at hp
        obtain ⟨-, rfl⟩ := hp
        exact absurd hl (fun h => by
          clear ih h2 hl
          induction ts with
          | nil => exact h
          | cons t ts iht =>
            rcases h with h | h
            · cases t
              rcases h with h | ⟨_, h, -⟩ <;> cases h
            · exact iht h)
      | cons p pre =>
        simp only [List.cons_append, List.cons.injEq] at hp
        obtain ⟨rfl, rfl⟩ := hp
        rcases ih h2 pre c hl x hx hn with h | ⟨b, hb, h⟩
        · rcases List.mem_append.1 h with h | h
          · exact .inl h
          · exact .inr ⟨p, by simp, h⟩
        · exact .inr ⟨b, by simp only [List.cons_append, List.mem_cons]; exact .inr hb, h⟩
  · intro up _ pre c hp
    exact hp.elim
  · rintro t ts ih1 ih2 up ⟨h1, h2⟩ pre c hp x hx hn
    rcases hp with hp | hp
    · exact ih1 h1 pre c hp x hx hn
    · exact ih2 h2 pre c hp x hx hn

theorem path_label : ∀ {t : Tree (NSet N)} {l : List (NSet N)}, t.Path l → ∀ c ∈ l, c ∈ t.labels := by
  intro t
  refine Tree.ind (P := fun t => ∀ {l : List (NSet N)}, t.Path l → ∀ c ∈ l, c ∈ t.labels)
    (Q := fun ts => ∀ {l : List (NSet N)}, Tree.PathL ts l → ∀ c ∈ l, c ∈ Tree.labelsL ts) ?_ ?_ ?_ t
  · rintro a ts ih l (rfl | ⟨l', rfl, h⟩) c hc
    · simpa [Tree.labels] using .inl (List.mem_singleton.1 hc)
    · rcases List.mem_cons.1 hc with rfl | hc
      · simp [Tree.labels]
      · simp only [Tree.labels, List.mem_cons]
        exact .inr (ih h c hc)
  · intro l h
    exact h.elim
  · rintro t ts ih1 ih2 l (h | h) c hc
    · exact List.mem_append_left _ (ih1 h c hc)
    · exact List.mem_append_right _ (ih2 h c hc)

/-- **C46, partial**, what samplers read: in a hierarchy without siblings, every node that floats in a node set (or below
it) has a local and a shared sampler there, which read only nodes fixed there or above, or exogenous ones, and sample
nodes that are not fixed in topological order.  (Missing: hierarchies with siblings, see `C46_refuted_sibling`.) -/
theorem C46_reads_partial {bn : BN N V C O} (hr : Ready bn) {t t' : Tree (NSet N)} (hch : t.Chain) (h : inject bn t = .ok t')
    {pre : List (NSet N)} {c : NSet N} (hp : t'.Path (pre ++ [c])) {x : N} (hx : x ∈ c.floating ++ c.willFloat) :
    ∃ l s, c.localS.get? x = some l ∧ c.sharedS.get? x = some s ∧ l.name = x ∧ s.name = x ∧
      (∀ b, b = l ∨ b = s → (∀ y ∈ b.toRead, (∃ a ∈ pre ++ [c], y ∈ a.fixed) ∨ Outside bn y) ∧
        b.toSample.Nodup ∧ RespectsPaths bn.dag.E b.toSample ∧ ∀ y ∈ b.toSample, y ∉ c.fixed) := by
  obtain ⟨hw, ⟨od, hod, ht⟩, -⟩ := hr.facts
  obtain ⟨a, -, hac⟩ := (inject_final hw hod ht h).right c (path_label hp c (by simp))
  have hab := inject_above hr hch h
  obtain ⟨l, s, h1, h2, h3⟩ := hac.plan x hx
  refine ⟨l, s, h1, h2, h3.nameL, h3.nameS, ?_⟩
  have haf : ∀ y ∈ c.wasFixed ++ c.fixed, y ∈ bn.dag.nodes → ∃ a ∈ pre ++ [c], y ∈ a.fixed := by
    intro y hy hn
    rcases List.mem_append.1 hy with hy | hy
    · exact (above_path hab pre c hp y hy hn).resolve_left (by simp)
    · exact ⟨c, by simp, hy⟩
  by_cases hf : ∀ p, bn.dag.E p x → p ∈ c.wasFixed ++ c.fixed
  · obtain ⟨-, a2, a3, a4, a5, -, -⟩ := h3.frozen hf
    have hpar : ∀ y, bn.dag.E y x → (∃ a ∈ pre ++ [c], y ∈ a.fixed) ∨ Outside bn y := fun y hy =>
      .inl (haf y (hf y hy) (mem_nodes_of_trans_left hw.wf (.single hy)))
    rintro b (rfl | rfl)
    · refine ⟨fun y hy => hpar y ((a4 y).1 hy), ?_, ?_, ?_⟩
      · rw [a2]; exact List.nodup_nil
      · rw [a2]; intro p v q hh; simp at hh
      · rw [a2]; simp
    · refine ⟨fun y hy => hpar y ((a5 y).1 hy), ?_, ?_, ?_⟩
      · rw [a3]; exact List.nodup_nil
      · rw [a3]; intro p v q hh; simp at hh
      · rw [a3]; simp
  · obtain ⟨e, -, req, a1, a2, a3, a4, a5⟩ := h3.compound hf
    intro b hb
    have hb : b = l := hb.elim id (fun h => h.trans e)
    subst hb
    refine ⟨fun y hy => ?_, ?_, ?_, ?_⟩
    · rw [a4, List.mem_filter] at hy
      obtain ⟨hy1, hy2⟩ := hy
      unfold readB at hy2
      rw [Bool.or_eq_true, decide_eq_true_eq, outB_iff] at hy2
      exact hy2.imp (fun h => haf y h (mem_nodes_of_trans_left hw.wf ((a3 y).1 hy1).1)) id
    · rw [a5]; exact a1.filter _
    · rw [a5]; exact respectsPaths_filter a2 _
    · intro y hy
      rw [a5, List.mem_filter] at hy
      intro hyf
      have : readB bn (c.wasFixed ++ c.fixed) y = true := by
        unfold readB
        simp [hyf]
      rw [this] at hy
      exact absurd hy.2 (by simp)

example : t46.Chain ∧ ∃ t', inject n46 t46 = .ok t' ∧ ∃ r m l, t'.Path ([r, m] ++ [l]) ∧ m.floating = ["r"] ∧
    m.localS.get? "r" = some ⟨"r", .frozen, ["v"], []⟩ := by
  refine ⟨by simp [t46, Tree.Chain, Tree.ChainL], ?_⟩
  rw [t46_half]
  obtain ⟨t', h1, h2⟩ := of_ok (r := (do
    let t ← locate n46 (.node ⟨"root", ["v"], [], [], [], ["v", "v"], [], [], ["r"], [], []⟩
      [.node ⟨"med", ["w"], ["r"], ["v"], ["v"], ["w"], ["r"], ["v", "v"], [], [], []⟩
        [.node ⟨"leaf", ["d"], [], ["v", "w"], [], ["d", "r"], [], ["v", "v", "w"], [], [], []⟩ []]])
    let t ← samplersT n46 t
    sortT n46 t)) (P := fun t' => match t' with
    | .node _ [.node m [.node _ []]] => m.floating = ["r"] ∧ m.localS.get? "r" = some ⟨"r", .frozen, ["v"], []⟩
    | _ => False) (fun t' => by split <;> infer_instance) (by decide +kernel)
  match t', h1, h2 with
  | .node r [.node m [.node l []]], h1, ⟨h2, h3⟩ =>
    exact ⟨_, h1, r, m, l, .inr ⟨_, rfl, .inl (.inr ⟨_, rfl, .inl (.inl rfl)⟩)⟩, h2, h3⟩

/-- **C46**, exactly, in every hierarchy: a sampler finds all the values it needs iff no parent of a node it draws lies
above a node that is fixed (here or before) and above the sampled node. -/
theorem C46_runs_iff {bn : BN N V C O} (hr : Ready bn) {t t' : Tree (NSet N)} (h : inject bn t = .ok t') {c : NSet N}
    (hc : c ∈ t'.labels) {x : N} (hx : x ∈ c.floating ++ c.willFloat) :
    ∃ l s, c.localS.get? x = some l ∧ c.sharedS.get? x = some s ∧
      ((∀ p, bn.dag.E p x → p ∈ c.wasFixed ++ c.fixed) → Runs bn.dag.E l.toRead l.toSample x ∧ Runs bn.dag.E s.toRead s.toSample x) ∧
      ((¬ ∀ p, bn.dag.E p x → p ∈ c.wasFixed ++ c.fixed) → s = l ∧
        (Runs bn.dag.E l.toRead l.toSample x ↔ ∀ n ∈ l.toSample ++ [x], ∀ p, bn.dag.E p n →
          ∀ y ∈ c.wasFixed ++ c.fixed, TransGen bn.dag.E y x → ¬ TransGen bn.dag.E p y)) := by
  obtain ⟨hw, ⟨od, hod, ht⟩, -⟩ := hr.facts
  obtain ⟨a, -, hac⟩ := (inject_final hw hod ht h).right c hc
  obtain ⟨l, s, h1, h2, h3⟩ := hac.plan x hx
  refine ⟨l, s, h1, h2, fun hf => ?_, fun hf => ?_⟩
  · obtain ⟨-, a2, a3, a4, a5, -, -⟩ := h3.frozen hf
    constructor
    · intro pre n post hh p hp
      rw [a2] at hh
      cases pre with
      | nil =>
        simp only [List.nil_append, List.cons.injEq] at hh
        obtain ⟨rfl, -⟩ := hh
        exact .inl ((a4 p).2 hp)
      | cons q qs => simp at hh
    · intro pre n post hh p hp
      rw [a3] at hh
      cases pre with
      | nil =>
        simp only [List.nil_append, List.cons.injEq] at hh
        obtain ⟨rfl, -⟩ := hh
        exact .inl ((a5 p).2 hp)
      | cons q qs => simp at hh
  · obtain ⟨e, -, req, a1, a2, a3, a4, a5⟩ := h3.compound hf
    refine ⟨e, ?_⟩
    have hmem : ∀ y, y ∈ l.toRead ∨ y ∈ l.toSample ↔ y ∈ req := by
      intro y
      rw [a4, a5, List.mem_filter, List.mem_filter]
      cases readB bn (c.wasFixed ++ c.fixed) y <;> simp
    have hanc : ∀ n ∈ l.toSample ++ [x], n = x ∨ TransGen bn.dag.E n x := by
      intro n hn
      rcases List.mem_append.1 hn with hn | hn
      · exact .inr ((a3 n).1 ((hmem n).1 (.inr hn))).1
      · exact .inl (List.mem_singleton.1 hn)
    constructor
    · intro hrun n hn p hp
      obtain ⟨pre, post, hh⟩ := List.append_of_mem hn
      have hpr : p ∈ req := by
        rcases hrun pre n post hh p hp with h' | h'
        · exact (hmem p).1 (.inl h')
        · refine (hmem p).1 (.inr ?_)
          have : p ∈ l.toSample ++ [x] := by rw [hh]; simp [h']
          rcases List.mem_append.1 this with h'' | h''
          · exact h''
          · rw [List.mem_singleton] at h''
            subst h''
            rcases hanc n hn with rfl | h5
            · exact absurd (.single hp) (hw.acyclic n)
            · exact absurd (TransGen.head hp h5) (hw.acyclic p)
      exact ((a3 p).1 hpr).2
    · intro hall pre n post hh p hp
      have hn : n ∈ l.toSample ++ [x] := by rw [hh]; simp
      have hpx : TransGen bn.dag.E p x := by
        rcases hanc n hn with rfl | h5
        · exact .single hp
        · exact .head hp h5
      have hpr : p ∈ req := (a3 p).2 ⟨hpx, hall n hn p hp⟩
      rcases (hmem p).2 hpr with h' | h'
      · exact .inl h'
      · -- `p` comes before `n` in the sorted list
        right
        have hmem' : p ∈ pre ++ n :: post := by rw [← hh]; simp [h']
        rcases List.mem_append.1 hmem' with h5 | h5
        · exact h5
        · rcases List.mem_cons.1 h5 with rfl | h5
          · exact absurd (.single hp) (hw.acyclic p)
          · exfalso
            rcases List.eq_nil_or_concat post with rfl | ⟨post', z, rfl⟩
            · cases h5
            · have e2 : l.toSample ++ [x] = (pre ++ n :: post') ++ [z] := by rw [hh]; simp
              obtain ⟨e3, e4⟩ := List.append_inj' e2 rfl
              have hz : x = z := by simpa using e4
              rw [List.concat_eq_append] at h5
              rcases List.mem_append.1 h5 with h6 | h6
              · have hrp : RespectsPaths bn.dag.E l.toSample := by
                  rw [a5]; exact respectsPaths_filter a2 _
                exact hrp pre n post' e3 p h6 (.single hp)
              · rw [List.mem_singleton, ← hz] at h6
                subst h6
                exact hw.acyclic p hpx

example : ∃ b, allFloat "root" n46 = .ok (.node b []) ∧ "d" ∈ b.floating ∧ (¬ ∀ p ∈ n46.dag.preds "d", p ∈ b.wasFixed ++ b.fixed) ∧
    "w" ∈ b.fixed ∧ "r" ∈ (b.localS.get? "d").elim [] (·.toSample) ∧ "v" ∈ n46.dag.preds "r" ∧ "v" ∈ n46.dag.preds "w" :=
  of_single (P := fun b => "d" ∈ b.floating ∧ (¬ ∀ p ∈ n46.dag.preds "d", p ∈ b.wasFixed ++ b.fixed) ∧
    "w" ∈ b.fixed ∧ "r" ∈ (b.localS.get? "d").elim [] (·.toSample) ∧ "v" ∈ n46.dag.preds "r" ∧ "v" ∈ n46.dag.preds "w")
    (fun _ => inferInstance) (by decide +kernel)

/-- **C46, partial**: a sampler finds all the values it needs when the fixed ancestors of the node have no parents. -/
theorem C46_partial {bn : BN N V C O} (hr : Ready bn) {t t' : Tree (NSet N)} (h : inject bn t = .ok t') {c : NSet N}
    (hc : c ∈ t'.labels) {x : N} (hx : x ∈ c.floating ++ c.willFloat)
    (hroot : ∀ y ∈ c.wasFixed ++ c.fixed, TransGen bn.dag.E y x → ∀ p, ¬ bn.dag.E p y) :
    ∃ l s, c.localS.get? x = some l ∧ c.sharedS.get? x = some s ∧ Runs bn.dag.E l.toRead l.toSample x ∧
      Runs bn.dag.E s.toRead s.toSample x := by
  obtain ⟨l, s, h1, h2, h3, h4⟩ := C46_runs_iff hr h hc hx
  refine ⟨l, s, h1, h2, ?_⟩
  by_cases hf : ∀ p, bn.dag.E p x → p ∈ c.wasFixed ++ c.fixed
  · exact h3 hf
  · obtain ⟨rfl, h5⟩ := h4 hf
    refine and_self_iff.2 (h5.2 fun n _ p _ y hy hyx hpy => ?_)
    obtain ⟨q, -, h6⟩ := (TransGen.tail'_iff).1 hpy
    exact hroot y hy hyx q h6

/-- `v = 1`, `r ~ norm(v, 1)`, `d ~ norm(r + v, 1)`. -/
def n46' := net [val "v", rv "r" ["v"], rv "d" ["r", "v"]]

example : ∃ b, allFloat "root" n46' = .ok (.node b []) ∧ b.floating = ["r", "d"] ∧ b.fixed = ["v"] ∧ b.wasFixed = [] ∧
    b.localS.get? "d" = some ⟨"d", .compound, ["v"], ["r"]⟩ :=
  of_single (P := fun b => b.floating = ["r", "d"] ∧ b.fixed = ["v"] ∧ b.wasFixed = [] ∧
    b.localS.get? "d" = some ⟨"d", .compound, ["v"], ["r"]⟩) (fun _ => inferInstance) (by decide +kernel)

end Props.NodeSet
