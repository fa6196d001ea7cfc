import Verif.Lemmas.SimCore
import Verif.Props.NodeSet

/-!
# Properties of parameter cores: C44, C47 - C51
-/

namespace Props.SimCore

set_option linter.unusedSectionVars false

open Py Spec Relation Model Model.CoreTree Props.Sampling

variable {N V C O S K : Type} [DecidableEq N] [AddCommMonoid K]

/-! ## C47 -/

/-- **C47**, lookup: reading `x` along a chain of cores gives `v` exactly when some core has `v` under `x` and no nearer
one has the key. -/
theorem C47_lookup (chain : List (Dict N V)) (x : N) (v : V) : chainGet chain x = .ok v ↔
    ∃ pre d suf, chain = pre ++ d :: suf ∧ d.get? x = some v ∧ ∀ e ∈ pre, x ∉ e.keys := by
  induction chain with
  | nil =>
    constructor
    · intro h; cases h
    · rintro ⟨pre, d, suf, h, -⟩; simp at h
  | cons d up ih =>
    rw [chainGet_cons]
    cases hd : d.get? x with
    | some w =>
      simp only [Except.ok.injEq]
      constructor
      · rintro rfl; exact ⟨[], d, up, rfl, hd, by simp⟩
      · rintro ⟨pre, d', suf, h, h1, h2⟩
        cases pre with
        | nil =>
          simp only [List.nil_append, List.cons.injEq] at h
          obtain ⟨rfl, rfl⟩ := h
          rw [hd] at h1; cases h1; rfl
        | cons a pre =>
          simp only [List.cons_append, List.cons.injEq] at h
          obtain ⟨rfl, rfl⟩ := h
          exact absurd ((Dict.mem_keys_iff_exists _ _).2 ⟨w, hd⟩) (h2 d (by simp))
    | none =>
      simp only
      rw [ih]
      constructor
      · rintro ⟨pre, d', suf, rfl, h1, h2⟩
        refine ⟨d :: pre, d', suf, rfl, h1, ?_⟩
        intro e he
        rcases List.mem_cons.1 he with rfl | he
        · exact (Dict.get?_eq_none_iff _ _).1 hd
        · exact h2 e he
      · rintro ⟨pre, d', suf, h, h1, h2⟩
        cases pre with
        | nil =>
          simp only [List.nil_append, List.cons.injEq] at h
          obtain ⟨rfl, rfl⟩ := h
          rw [hd] at h1; cases h1
        | cons a pre =>
          simp only [List.cons_append, List.cons.injEq] at h
          obtain ⟨rfl, rfl⟩ := h
          exact ⟨pre, d', suf, rfl, h1, fun e he => h2 e (by simp [he])⟩

/-- **C47**, errors: a KeyError is raised exactly when no core of the chain has the key, and there is no other exception. -/
theorem C47_missing (chain : List (Dict N V)) (x : N) :
    (chainGet chain x = .error .KeyError ↔ ∀ d ∈ chain, x ∉ d.keys) ∧ ∀ e, chainGet chain x = .error e → e = .KeyError := by
  induction chain with
  | nil => simp [chainGet]
  | cons d up ih =>
    rw [chainGet_cons]
    cases hd : d.get? x with
    | some w =>
      have := (Dict.mem_keys_iff_exists _ _).2 ⟨w, hd⟩
      simp [this]
    | none =>
      have := (Dict.get?_eq_none_iff _ _).1 hd
      simp only
      refine ⟨?_, ih.2⟩
      rw [ih.1]
      simp [this]

/-- **C47**, iteration: the pairs that iterating over a core yields are those of the cores of the chain, and the
dictionary made of them, where later pairs win, is the lookup. -/
theorem C47_iteration (chain : List (Dict N V)) (hw : ∀ d ∈ chain, d.WF) :
    (∀ p, p ∈ chainIter chain ↔ ∃ d ∈ chain, p ∈ d) ∧
    ∀ x, (match (Dict.update [] (chainIter chain)).get? x with | some v => .ok v | none => .error .KeyError) = chainGet chain x := by
  induction chain with
  | nil => exact ⟨by simp [chainIter], fun x => rfl⟩
  | cons d up ih =>
    obtain ⟨h1, h2⟩ := ih (fun e he => hw e (by simp [he]))
    constructor
    · intro p
      simp only [chainIter, List.mem_append, h1, List.mem_cons, exists_eq_or_imp]
      exact or_comm
    · intro x
      have e : Dict.update [] (chainIter (d :: up)) = Dict.update (Dict.update [] (chainIter up)) d := by
        simp only [chainIter, Dict.update, List.foldl_append]
      rw [e, Dict.get?_update _ _ (hw d (by simp)), chainGet_cons]
      cases d.get? x with
      | some v => rfl
      | none => exact h2 x

example : let chain : List (Dict String Nat) := [[("a", 1)], [("a", 2), ("b", 3)], [("c", 4), ("b", 5)]]
    (chainGet chain "a", chainGet chain "b", chainGet chain "c", chainGet chain "z") = (.ok 1, .ok 3, .ok 4, .error .KeyError) ∧
    chainIter chain = [("c", 4), ("b", 5), ("a", 2), ("b", 3), ("a", 1)] := by decide

/-! ## The groups of a simulation core -/

/-- What is known of every group of a simulation core. -/
structure GroupOk (bn : BN N V C O) (g : Model.Group N) : Prop where
  nodup : g.fixed.Nodup
  paths : RespectsPaths bn.dag.E g.fixed
  nodes : ∀ x ∈ g.fixed, x ∈ bn.dag.nodes
  plan : ∀ k b, g.localA.get? k = some b ∨ g.sharedA.get? k = some b → b.name = k ∧
    (b.type = .frozen → ∀ p, p ∈ b.toRead ↔ bn.dag.E p k)

theorem simGroups_mem : ∀ (t : Tree (NSet N)) (d : Dict N (Model.Group N)) {k : N} {g : Model.Group N}, (simGroups t d).get? k = some g →
    d.get? k = some g ∨ ∃ a ∈ t.labels, ∃ ts, k = a.name ∧ g = .ofSet a ts := by
  intro t
  refine Tree.ind
    (P := fun t => ∀ (d : Dict N (Model.Group N)) {k : N} {g : Model.Group N}, (simGroups t d).get? k = some g →
      d.get? k = some g ∨ ∃ a ∈ t.labels, ∃ ts, k = a.name ∧ g = .ofSet a ts)
    (Q := fun ts => ∀ (d : Dict N (Model.Group N)) {k : N} {g : Model.Group N}, (simGroupsL ts d).get? k = some g →
      d.get? k = some g ∨ ∃ a ∈ Tree.labelsL ts, ∃ us, k = a.name ∧ g = .ofSet a us) ?_ ?_ ?_ t
  · intro a ts ih d k g h
    simp only [simGroups] at h
    rcases ih _ h with h | ⟨b, hb, us, h1, h2⟩
    · rw [Dict.get?_set] at h
      split at h
      · rename_i hk
        cases h
        exact .inr ⟨a, by simp [Tree.labels], ts, hk.symm, rfl⟩
      · exact .inl h
    · exact .inr ⟨b, by simp [Tree.labels, hb], us, h1, h2⟩
  · intro d k g h; exact .inl h
  · intro t ts ih1 ih2 d k g h
    simp only [simGroupsL] at h
    rcases ih2 _ h with h | ⟨b, hb, us, h1, h2⟩
    · rcases ih1 _ h with h | ⟨b, hb, us, h1, h2⟩
      · exact .inl h
      · exact .inr ⟨b, by simp [Tree.labelsL, hb], us, h1, h2⟩
    · exact .inr ⟨b, by simp [Tree.labelsL, hb], us, h1, h2⟩

theorem groups_ok {bn : BN N V C O} (hr : Ready bn) {t : Tree (NSet N)} {sc : SimCore N V C O} (h : asSimCore bn t = .ok sc) :
    sc.bn = bn ∧ ∀ k g, sc.groups.get? k = some g → g.name = k ∧ GroupOk bn g := by
  unfold asSimCore at h
  obtain ⟨t', h1, h2⟩ := NSet.bind_ok.1 h
  rw [NSet.pure_ok] at h2
  subst h2
  refine ⟨rfl, fun k g hg => ?_⟩
  rcases simGroups_mem t' [] hg with hg | ⟨a, ha, ts, rfl, rfl⟩
  · cases hg
  obtain ⟨-, -, h3, h4, h5⟩ := (Props.NodeSet.C43_requests hr h1).2 a ha
  obtain ⟨hw, ⟨od, hod, ht⟩, -⟩ := hr.facts
  obtain ⟨b, -, hf⟩ := (NSet.inject_final hw hod ht h1).right a ha
  refine ⟨rfl, h3, h4, fun x hx => h5 x (by simp only [List.mem_append]; exact .inl hx), ?_⟩
  intro k b hb
  by_cases hk : k ∈ a.floating ++ a.willFloat
  · obtain ⟨l, s, h6, h7, h8⟩ := hf.plan k hk
    have hb' : b = l ∨ b = s := by
      rcases hb with hb | hb
      · exact .inl (Option.some.inj (hb.symm.trans h6))
      · exact .inr (Option.some.inj (hb.symm.trans h7))
    by_cases hfr : ∀ p, bn.dag.E p k → p ∈ a.wasFixed ++ a.fixed
    · obtain ⟨-, -, -, a4, a5, -⟩ := h8.frozen hfr
      rcases hb' with rfl | rfl
      · exact ⟨h8.nameL, fun _ => a4⟩
      · exact ⟨h8.nameS, fun _ => a5⟩
    · obtain ⟨e1, e2, -⟩ := h8.compound hfr
      subst e1
      have : b = s := by rcases hb' with h | h <;> exact h
      subst this
      exact ⟨h8.nameL, fun hh => by rw [e2] at hh; cases hh⟩
  · obtain ⟨h6, h7⟩ := hf.only k hk
    rcases hb with hb | hb
    · exact absurd (hb.symm.trans h6) (by simp)
    · exact absurd (hb.symm.trans h7) (by simp)

/-- The core of an accepted hierarchy, all cores of a tree belong to its groups. -/
def Members (sc : SimCore N V C O) (_ : List (Dict N V)) (c : Core N V C O S K) (_ : List (CoreTree N V C O S K)) : Prop :=
  ∃ k, sc.groups.get? k = some c.group

/-! ## Impulses -/

/-- The value an intervention gives to a node. -/
def value : Impulse N V → N → Option V
  | .dict d, x => (d.get? x).join
  | .list _, _ => none
  | .other, _ => none

/-- The nodes an intervention mentions. -/
def names : Impulse N V → List N
  | .dict d => d.keys
  | .list l => l
  | .other => []

/-- Dictionaries have every key once. -/
def Proper : Impulse N V → Prop
  | .dict d => d.WF
  | _ => True

/-- Not set, but mentioned or below a mentioned node. -/
def Affected (bn : BN N V C O) (i : Impulse N V) (x : N) : Prop :=
  value i x = none ∧ (x ∈ names i ∨ ∃ k ∈ names i, TransGen bn.dag.E k x)

/-- The value that the first core of the chain holds is one that the definition yields on the values the chain reads. -/
def Consistent (sem : Sem N V C O S (XR K)) (bn : BN N V C O) (d : Dict N V) (up : List (Dict N V)) (x : N) : Prop :=
  ∃ l v s1 s2, bn.loci.get? x = some l ∧ d.get? x = some v ∧ l.render sem (chainMap (d :: up)) s1 = (.ok v, s2)

theorem given_get (d : Dict N (Option V)) (hw : d.WF) (x : N) : (given d).get? x = (d.get? x).join := by
  induction d with
  | nil => rfl
  | cons p d ih =>
    obtain ⟨k, v⟩ := p
    obtain ⟨h1, h2⟩ := List.nodup_cons.1 hw
    cases v with
    | none =>
      have e : given ((k, none) :: d) = given d := rfl
      rw [e, ih h2, Dict.get?_cons]
      split
      · rename_i hk
        subst hk
        rw [(Dict.get?_eq_none_iff _ _).2 h1]; rfl
      · rfl
    | some v =>
      have e : given ((k, some v) :: d) = (k, v) :: given d := rfl
      rw [e, Dict.get?_cons, Dict.get?_cons]
      split
      · rfl
      · exact ih h2

theorem mem_notGiven (d : Dict N (Option V)) (hw : d.WF) (x : N) : x ∈ notGiven d ↔ d.get? x = some none := by
  unfold notGiven
  constructor
  · intro h
    obtain ⟨p, hp, rfl⟩ := List.mem_map.1 h
    obtain ⟨h1, h2⟩ := List.mem_filter.1 hp
    have := Dict.get?_of_mem hw (show (p.1, p.2) ∈ d from h1)
    rw [this]
    cases hp2 : p.2 with
    | none => rfl
    | some v => rw [hp2] at h2; cases h2
  · intro h
    exact List.mem_map.2 ⟨(x, none), List.mem_filter.2 ⟨Dict.mem_of_get? h, rfl⟩, rfl⟩

theorem shocks_ok {bn : BN N V C O} (hw : bn.Well) {i : Impulse N V} (hp : Proper i) {imp : Dict N V} {sh : List N}
    (h : shocks bn i = .ok (imp, sh)) :
    (∀ x, imp.get? x = value i x) ∧ (∀ x, x ∈ sh ↔ Affected bn i x) ∧ ∀ x ∈ names i, x ∈ bn.dag.nodes := by
  have hds : ∀ {xs l : List N}, bn.dag.downstream xs = .ok l → (∀ x ∈ xs, x ∈ bn.dag.nodes) ∧
      ∀ y, y ∈ l ↔ ∃ x ∈ xs, TransGen bn.dag.E x y := by
    intro xs l hl
    have hn : ∀ x ∈ xs, x ∈ bn.dag.nodes := by
      by_contra hc
      push Not at hc
      obtain ⟨x, hx, hxn⟩ := hc
      rw [Digraph.downstream_error ⟨x, hx, hxn⟩] at hl
      cases hl
    have hne : xs ≠ [] := by
      rintro rfl
      rw [(Props.Dag.C02_stream_errors bn.dag).2.1] at hl
      cases hl
    obtain ⟨l', h1, h2⟩ := Props.Dag.C02_downstream hw.wf hne hn
    rw [hl] at h1
    cases h1
    refine ⟨hn, fun y => ?_⟩
    rw [h2]
    constructor
    · rintro ⟨x, hx, -, h⟩; exact ⟨x, hx, h⟩
    · rintro ⟨x, hx, h⟩
      exact ⟨x, hx, fun hh => hw.acyclic x (by rw [hh] at h; exact h), h⟩
  cases i with
  | other => cases h
  | dict d =>
    unfold shocks at h
    obtain ⟨l, h1, h2⟩ := NSet.bind_ok.1 h
    rw [NSet.pure_ok] at h2
    cases h2
    obtain ⟨hn, hmem⟩ := hds h1
    refine ⟨given_get d hp, fun x => ?_, hn⟩
    have hk : x ∈ (given d).keys ↔ ∃ v, value (.dict d) x = some v := by
      rw [Dict.mem_keys_iff_exists, given_get d hp]; rfl
    rw [List.mem_append, List.mem_filter, mem_notGiven d hp, hmem]
    simp only [decide_not, Bool.not_eq_true', decide_eq_false_iff_not, hk]
    unfold Affected
    have hv : value (.dict d) x = none ↔ ¬ ∃ v, value (.dict d) x = some v := by
      cases value (.dict d) x <;> simp
    rw [← hv]
    have hnm : d.get? x = some none → value (.dict d) x = none ∧ x ∈ names (.dict d) := by
      intro hh
      exact ⟨by simp [value, hh], (Dict.mem_keys_iff_exists _ _).2 ⟨none, hh⟩⟩
    constructor
    · rintro (⟨h3, h4⟩ | h3)
      · exact ⟨h4, .inr h3⟩
      · exact ⟨(hnm h3).1, .inl (hnm h3).2⟩
    · rintro ⟨h3, h4 | h4⟩
      · right
        obtain ⟨o, ho⟩ := (Dict.mem_keys_iff_exists _ _).1 h4
        cases o with
        | none => exact ho
        | some v => simp [value, ho] at h3
      · exact .inl ⟨h4, h3⟩
  | list l0 =>
    unfold shocks at h
    obtain ⟨l, h1, h2⟩ := NSet.bind_ok.1 h
    rw [NSet.pure_ok] at h2
    cases h2
    obtain ⟨hn, hmem⟩ := hds h1
    refine ⟨fun x => rfl, fun x => ?_, hn⟩
    rw [List.mem_append, hmem]
    unfold Affected
    constructor
    · rintro (h | h)
      · exact ⟨rfl, .inr h⟩
      · exact ⟨rfl, .inl h⟩
    · rintro ⟨-, h | h⟩
      · exact .inr h
      · exact .inl h

/-- What an impulse leaves in one core. -/
structure Impulsed (sem : Sem N V C O S (XR K)) (bn : BN N V C O) (i : Impulse N V) (up up' : List (Dict N V))
    (c c' : Core N V C O S K) : Prop where
  /-- The core keeps its name and group. -/
  nick : c'.nick = c.nick
  group : c'.group = c.group
  /-- Intervened fixed values are set. -/
  put : ∀ x ∈ c.group.fixed, ∀ v, value i x = some v → c'.locus.get? x = some v
  /-- Nothing else than intervened and affected fixed values changes. -/
  same : ∀ x, x ∉ c.group.fixed ∨ (value i x = none ∧ ¬ Affected bn i x) ∨ (value i x = none ∧ x ∉ c.locus.keys) →
    c'.locus.get? x = c.locus.get? x
  /-- Affected values are drawn anew from their definitions. -/
  drawn : ∀ x ∈ c.group.fixed, x ∈ c.locus.keys → Affected bn i x → Consistent sem bn c'.locus up' x
  /-- Consistent values that are not intervened upon are consistent afterwards. -/
  keep : ∀ x ∈ c.group.fixed, value i x = none → Consistent sem bn c.locus up x → Consistent sem bn c'.locus up' x

/-- The invariant carried down a hierarchy: the ancestors changed only in what was shocked. -/
def Only (imp : Dict N V) (sh : List N) (up up' : List (Dict N V)) : Prop :=
  ∀ x, x ∉ imp.keys → x ∉ sh → chainMap up x = chainMap up' x

theorem only_step {sem : Sem N V C O S (XR K)} {bn : BN N V C O} {imp : Dict N V} {sh : List N} {up up' : List (Dict N V)}
    {c c' : Core N V C O S K} (h : Answer sem bn imp sh up up' c c') (hi : Only imp sh up up') :
    Only imp sh (c.locus :: up) (c'.locus :: up') := by
  obtain ⟨m, ha, rfl⟩ := h
  obtain ⟨m0, q, hr, -, -, e, -⟩ := ha.mid
  intro x h1 h2
  rw [finish_locus, ← e]
  refine chainMap_congr ?_ (hi x h1 h2)
  exact (hr.same x (.inr ⟨h1, fun hh => h2 (List.mem_filter.1 hh).1⟩)).symm

/-- Reading the same where a definition looks gives the same rendering. -/
theorem render_agree (sem : Sem N V C O S (XR K)) (hcl : ∀ c, (sem.reparse c).names = []) {bn : BN N V C O} (hw : bn.Well)
    (hns : NoShadow bn []) {x : N} {l : Loci N V C O} (hl : bn.loci.get? x = some l) {ρ ρ' : N → Option V}
    (h : ∀ y, (y ∉ bn.dag.nodes ∨ bn.dag.E y x) → ρ y = ρ' y) {v : V} (hv : ρ' x = some v) {s1 s2 : S}
    (hr : l.render sem ρ s1 = (.ok v, s2)) : ∃ s1 s2, l.render sem ρ' s1 = (.ok v, s2) := by
  by_cases hx : ∃ n, l = .exo n
  · obtain ⟨n, rfl⟩ := hx
    have : n = x := hw.named x _ hl
    subst this
    exact ⟨s1, s1, by simp only [Loci.render, hv]⟩
  · refine ⟨s1, s2, ?_⟩
    rw [← hr]
    refine (Loci.render_congr sem hcl l ?_ ?_ ?_ s1).symm
    · intro p hp
      exact h p (.inr ((hw.edges p x).2 ⟨l, hl, hp⟩))
    · rintro n f ps rfl y hy
      rcases hns x n f ps hl y ((Expr.mem_names y f).1 hy) with hh | ⟨hh, -⟩
      · exact h y (.inr ((hw.edges y x).2 ⟨_, hl, hh⟩))
      · exact h y (.inl hh)
    · intro n hn
      exact absurd ⟨n, hn⟩ hx

theorem impulsed_of_answer (sem : Sem N V C O S (XR K)) (hcl : ∀ c, (sem.reparse c).names = []) {bn : BN N V C O} (hw : bn.Well)
    (hns : NoShadow bn []) {i : Impulse N V} (hp : Proper i) {imp : Dict N V} {sh : List N} (hs : shocks bn i = .ok (imp, sh))
    {up up' : List (Dict N V)} {c c' : Core N V C O S K} (hg : GroupOk bn c.group) (hi : Only imp sh up up')
    (h : Answer sem bn imp sh up up' c c') : Impulsed sem bn i up up' c c' := by
  have hstep := only_step h hi
  obtain ⟨hval, haff, hnodes⟩ := shocks_ok hw hp hs
  obtain ⟨m, ha, rfl⟩ := h
  obtain ⟨m0, q, hr, e1, e2, e3, -⟩ := ha.mid
  have hk : ∀ x, x ∈ imp.keys ↔ ∃ v, value i x = some v := by
    intro x; rw [Dict.mem_keys_iff_exists]; simp only [hval]
  have hkn : ∀ x, value i x = none → x ∉ imp.keys := by
    intro x hx; rw [hk, hx]; simp
  have himpn : ∀ x, x ∈ imp.keys ∨ x ∈ sh → x ∈ names i ∨ ∃ k ∈ names i, TransGen bn.dag.E k x := by
    intro x hx
    rcases hx with hx | hx
    · left
      obtain ⟨v, hv⟩ := (hk x).1 hx
      cases i with
      | dict d =>
        refine (Dict.mem_keys_iff_exists _ _).2 ⟨some v, ?_⟩
        simp only [value] at hv
        cases hd : d.get? x with
        | none => rw [hd] at hv; cases hv
        | some o => rw [hd] at hv; simp only [Option.join_some] at hv; rw [hv]
      | list l => cases hv
      | other => cases hv
    · exact ((haff x).1 hx).2
  have hdrawn : ∀ x ∈ c.group.fixed, x ∈ c.locus.keys → Affected bn i x →
      Consistent sem bn (Core.finish (sh.filter (· ∈ c.locus.keys)) m).locus up' x := by
    intro x hx hxl hax
    rw [finish_locus, ← e3]
    obtain ⟨pre, suf, he⟩ := List.append_of_mem hx
    obtain ⟨l, v, ρ, s1, s2, hl, hre, hv, hρ⟩ := hr.drawn pre x suf he (hkn x hax.1)
      (List.mem_filter.2 ⟨(haff x).2 hax, by simpa using hxl⟩)
    have hxv : chainMap (m0.locus :: up') x = some v := by rw [chainMap_cons, hv]; rfl
    have hag : ∀ y, (y ∉ bn.dag.nodes ∨ bn.dag.E y x) → ρ y = chainMap (m0.locus :: up') y := by
      intro y hy
      refine hρ y (fun hmem => ?_)
      rcases hy with hy | hy
      · refine hy (hg.nodes y ?_)
        rw [he]; simp only [List.mem_append]; exact .inr hmem
      · rcases List.mem_cons.1 hmem with rfl | hmem
        · exact hw.acyclic y (.single hy)
        · exact hg.paths pre x suf he y hmem (.single hy)
    obtain ⟨s3, s4, hre'⟩ := render_agree sem hcl hw hns hl hag hxv hre
    exact ⟨l, v, s3, s4, hl, hv, hre'⟩
  obtain ⟨f1, f2, -⟩ := finish_frame (sh.filter (· ∈ c.locus.keys)) m
  refine ⟨?_, ?_, ?_, ?_, hdrawn, ?_⟩
  · rw [f1, ← e1, hr.nick]
  · rw [f2, ← e2, hr.group]
  · intro x hx v hv
    rw [finish_locus, ← e3]
    exact hr.put x hx v (by rw [hval]; exact hv)
  · intro x hx
    rw [finish_locus, ← e3]
    refine hr.same x ?_
    rcases hx with hx | ⟨h1, h2⟩ | ⟨h1, h2⟩
    · exact .inl hx
    · exact .inr ⟨hkn x h1, fun hh => h2 ((haff x).1 (List.mem_filter.1 hh).1)⟩
    · exact .inr ⟨hkn x h1, fun hh => h2 (by simpa using (List.mem_filter.1 hh).2)⟩
  · intro x hx hxn hc
    obtain ⟨l, v, s1, s2, hl, hv, hre⟩ := hc
    by_cases hax : Affected bn i x
    · exact hdrawn x hx ((Dict.mem_keys_iff_exists _ _).2 ⟨v, hv⟩) hax
    · have hsame : (Core.finish (sh.filter (· ∈ c.locus.keys)) m).locus.get? x = some v := by
        rw [finish_locus, ← e3, ← hv]
        exact hr.same x (.inr ⟨hkn x hxn, fun hh => hax ((haff x).1 (List.mem_filter.1 hh).1)⟩)
      have hxv : chainMap ((Core.finish (sh.filter (· ∈ c.locus.keys)) m).locus :: up') x = some v := by
        rw [chainMap_cons, hsame]; rfl
      have hag : ∀ y, (y ∉ bn.dag.nodes ∨ bn.dag.E y x) → chainMap (c.locus :: up) y =
          chainMap ((Core.finish (sh.filter (· ∈ c.locus.keys)) m).locus :: up') y := by
        intro y hy
        have hno : ¬ (y ∈ imp.keys ∨ y ∈ sh) := by
          intro hh
          rcases hy with hy | hy
          · refine hy ?_
            rcases himpn y hh with h | ⟨k, -, h⟩
            · exact hnodes y h
            · exact Digraph.mem_nodes_of_trans_right hw.wf h
          · refine hax ⟨hxn, .inr ?_⟩
            rcases himpn y hh with h | ⟨k, hk, h⟩
            · exact ⟨y, h, .single hy⟩
            · exact ⟨k, hk, h.tail hy⟩
        rw [not_or] at hno
        exact hstep y hno.1 hno.2
      obtain ⟨s3, s4, hre'⟩ := render_agree sem hcl hw hns hl hag hxv hre
      exact ⟨l, v, s3, s4, hl, hsame, hre'⟩

theorem members_nodup {bn : BN N V C O} {sc : SimCore N V C O} (hg : ∀ k g, sc.groups.get? k = some g → g.name = k ∧ GroupOk bn g)
    {up : List (Dict N V)} {t : CoreTree N V C O S K} (hm : All (Members sc) up t) : All (fun _ c _ => c.group.fixed.Nodup) up t :=
  hm.imp (fun _ _ _ ⟨k, hk⟩ => (hg k _ hk).2.nodup)

/-- **C49**: a successful `impulse` on a core, read through its ancestors `up`, gives the intervened fixed values, draws
the affected ones anew and changes nothing else, in the core and all its descendants; values consistent with their
definitions stay consistent.  The ancestors are not touched. -/
theorem C49 (sem : Sem N V C O S (XR K)) (hcl : ∀ c, (sem.reparse c).names = []) {bn : BN N V C O} (hr : Ready bn)
    (hns : NoShadow bn []) {ns : Tree (NSet N)} {sc : SimCore N V C O} (hsc : asSimCore bn ns = .ok sc)
    {up : List (Dict N V)} {t t' : CoreTree N V C O S K} (hm : All (Members sc) up t) {i : Impulse N V} (hp : Proper i) {s s' : S}
    (h : impulse sem bn up t i s = (t', s', .ok ())) : Along (Impulsed sem bn i) up up t t' := by
  obtain ⟨hw, -, -⟩ := hr.facts
  obtain ⟨-, hg⟩ := groups_ok hr hsc
  unfold impulse at h
  cases hs : shocks bn i with
  | error e => rw [hs] at h; simp at h
  | ok r =>
    obtain ⟨imp, sh⟩ := r
    rw [hs] at h
    have ha := setResponse_ok sem bn imp sh t up up s (members_nodup hg hm) h
    refine ha.imp (I := Only imp sh) (P := Members sc) (fun up up' c c' ts hi hmem hans => ?_) (fun _ _ _ => rfl) hm
    obtain ⟨k, hk⟩ := hmem
    exact ⟨impulsed_of_answer sem hcl hw hns hp hs (hg k _ hk).2 hi hans, only_step hans hi⟩

/-- **C49**, refusals: an impulse that is neither a dictionary nor a list, mentions nothing, or mentions an unknown node
is refused and nothing changes. -/
theorem C49_refused (sem : Sem N V C O S (XR K)) {bn : BN N V C O} {i : Impulse N V}
    (hi : i = .other ∨ names i = [] ∨ ∃ x ∈ names i, x ∉ bn.dag.nodes) (up : List (Dict N V)) (t : CoreTree N V C O S K) (s : S) :
    ∃ e, impulse sem bn up t i s = (t, s, .error e) := by
  have : ∃ e, shocks bn i = .error e := by
    cases i with
    | other => exact ⟨_, rfl⟩
    | dict d =>
      rcases hi with hi | hi | hi
      · cases hi
      · refine ⟨.TypeError, ?_⟩
        have : d.keys = [] := hi
        simp only [shocks, this, (Props.Dag.C02_stream_errors bn.dag).2.1]
        rfl
      · refine ⟨.NetworkXError, ?_⟩
        have : bn.dag.downstream d.keys = .error .NetworkXError := Digraph.downstream_error hi
        simp only [shocks, this]
        rfl
    | list l =>
      rcases hi with hi | hi | hi
      · cases hi
      · refine ⟨.TypeError, ?_⟩
        have : l = [] := hi
        simp only [shocks, this, (Props.Dag.C02_stream_errors bn.dag).2.1]
        rfl
      · refine ⟨.NetworkXError, ?_⟩
        have : bn.dag.downstream l = .error .NetworkXError := Digraph.downstream_error hi
        simp only [shocks, this]
        rfl
  obtain ⟨e, he⟩ := this
  exact ⟨e, by unfold impulse; rw [he]⟩

/-! ## A concrete hierarchy -/

open Props.NodeSet (val rv fn net)

/-- `k = 1`, `a ~ norm(k, 1)`, `b = a + 1`, `x ~ norm(b, 1)`, `z ~ norm(x + a, 1)`, `w ~ norm(k, 1)`. -/
def n49 := net [val "k", rv "a" ["k"], fn "b" ["a"], rv "x" ["b"], rv "z" ["x", "a"], rv "w" ["k"]]

theorem n49_ready : Ready n49 :=
  ⟨_, _, ((((((BN.Built.empty "m").step _ (by decide)).step _ (by decide)).step _ (by decide)).step _ (by decide)).step _ (by decide)).step _
    (by decide), .inl rfl⟩

/-- Agents with a value of `x` each. -/
def ns49 : Tree (NSet String) := .node (NSet.new "root" ["a"] []) [.node (NSet.new "agent" ["x"] ["z", "w"]) []]

/-- A result read off. -/
def take {α : Type} (d : α) (r : Result α) : α := match r with | .ok a => a | .error _ => d

theorem take_ok {α : Type} {d : α} {r : Result α} (h : (match r with | .ok _ => true | .error _ => false) = true) : r = .ok (take d r) := by
  cases r with
  | ok a => rfl
  | error e => cases h

/-- Its simulation core. -/
def sc49 : SimCore String Toy.TV Toy.TC Unit := take ⟨n49, "", []⟩ (asSimCore n49 ns49)

theorem sc49_ok : asSimCore n49 ns49 = .ok sc49 := take_ok (by decide +kernel)

/-- A root core and two agents, the second with its own value of `k`. -/
def pc49 : CoreTree String Toy.TV Toy.TC Unit Int Int :=
  (run Toy.lit (.str "None") sc49 [.breed [] "A" "agent" [], .breed [] "B" "agent" [("k", .num 7)]]
    (.node (take ⟨"", ⟨"", [], [], [], [], [], [], []⟩, [], .nan, none, none, none, none⟩
      (Core.generateRoot Toy.lit (.str "None") sc49 "R" [] 10).1) []) 11).1

attribute [irreducible] sc49 pc49

mutual
/-- A check of all cores. -/
def allB (f : Core N V C O S K → Bool) : CoreTree N V C O S K → Bool
  | .node c ts => f c && allBL f ts
/-- Of a list. -/
def allBL (f : Core N V C O S K → Bool) : List (CoreTree N V C O S K) → Bool
  | [] => true
  | t :: ts => allB f t && allBL f ts
end

theorem all_of_check {f : Core N V C O S K → Bool} {P : List (Dict N V) → Core N V C O S K → List (CoreTree N V C O S K) → Prop}
    (h : ∀ up c ts, f c = true → P up c ts) : ∀ (t : CoreTree N V C O S K) (up : List (Dict N V)), allB f t = true → All P up t := by
  intro t
  refine Tree.ind (P := fun t => ∀ up, allB f t = true → All P up t) (Q := fun ts => ∀ up, allBL f ts = true → AllL P up ts) ?_ ?_ ?_ t
  · intro c ts ih up hh
    simp only [allB, Bool.and_eq_true] at hh
    exact ⟨h _ _ _ hh.1, ih _ hh.2⟩
  · intro up _; trivial
  · intro t ts h1 h2 up hh
    simp only [allBL, Bool.and_eq_true] at hh
    exact ⟨h1 _ hh.1, h2 _ hh.2⟩

theorem pc49_members (up : List (Dict String Toy.TV)) : All (Members sc49) up pc49 :=
  all_of_check (f := fun c => decide (sc49.groups.get? c.group.name = some c.group)) (fun _ c _ h => ⟨c.group.name, of_decide_eq_true h⟩) _ _
    (by decide +kernel)

/-- The values of a hierarchy. -/
def loci (t : CoreTree N V C O S K) : List (Dict N V) := t.labels.map (fun c => c.locus)

/-- Read the parts of a successful outcome. -/
theorem split_ok {α β : Type} {r : α × β × Result Unit} (h : r.2.2 = .ok ()) : r = (r.1, r.2.1, .ok ()) := by
  rw [← h]

example : loci pc49 = [[("k", .num 1), ("a", .num 11), ("b", .num 12)], [("x", .num 23)], [("x", .num 24), ("k", .num 7)]] := by
  decide +kernel

/-- The outcome of setting `a` at the root. -/
def set49 := impulse Toy.lit n49 [] pc49 (.dict [("a", some (.num 100))]) 20

attribute [irreducible] set49

theorem set49_ok : set49 = (set49.1, set49.2.1, .ok ()) := split_ok (by decide +kernel)

/-- Setting `a` at the root reaches `x` in both agents; the hypotheses of C49 are met. -/
example : All (Members sc49) [] pc49 ∧ NoShadow n49 [] ∧ set49 = (set49.1, set49.2.1, .ok ()) ∧
    loci set49.1 = [[("k", .num 1), ("a", .num 100), ("b", .num 101)], [("x", .num 121)], [("x", .num 122), ("k", .num 7)]] :=
  ⟨pc49_members _, noShadow_of_check (by decide), set49_ok, by decide +kernel⟩

/-- A value left out is drawn anew, as a list is. -/
example : loci (impulse Toy.lit n49 [] pc49 (.dict [("a", none)]) 20).1 = loci (impulse Toy.lit n49 [] pc49 (.list ["a"]) 20).1 ∧
    loci (impulse Toy.lit n49 [] pc49 (.list ["a"]) 20).1 =
      [[("k", .num 1), ("a", .num 21), ("b", .num 22)], [("x", .num 43)], [("x", .num 44), ("k", .num 7)]] := by
  decide +kernel

example : impulse Toy.lit n49 [] pc49 .other 20 = (pc49, 20, .error .AttributeError) ∧
    (∃ e, impulse Toy.lit n49 [] pc49 (.list []) 20 = (pc49, 20, .error e)) ∧
    ∃ e, impulse Toy.lit n49 [] pc49 (.dict [("nope", none)]) 20 = (pc49, 20, .error e) :=
  ⟨rfl, C49_refused Toy.lit (.inr (.inl rfl)) [] pc49 20, C49_refused Toy.lit (.inr (.inr ⟨"nope", by decide, by decide⟩)) [] pc49 20⟩

/-! ## C50 -/

/-- **C50 is false of the code**: intervening on `x` of an agent writes the value and leaves the probability. -/
theorem C50_refuted : ∃ (bn : BN String Toy.TV Toy.TC Unit) (t t' : CoreTree String Toy.TV Toy.TC Unit Int Int) (s s' : Int),
    impulse Toy.lit bn [] t (.dict [("x", some (.num 5))]) s = (t', s', .ok ()) ∧
    t.kids.map (fun u => u.label.locus.get? "x") = [some (.num 23), some (.num 24)] ∧
    t'.kids.map (fun u => u.label.locus.get? "x") = [some (.num 5), some (.num 5)] ∧
    t'.kids.all (fun u => !u.label.logProb.isNan) = true :=
  ⟨n49, pc49, _, 20, _, split_ok (by decide +kernel), by decide +kernel, by decide +kernel, by decide +kernel⟩

/-- **C50, partial**: exactly the cores that hold an affected value lose their probability; the others keep it. -/
theorem C50_partial (sem : Sem N V C O S (XR K)) {bn : BN N V C O} (hr : Ready bn) {ns : Tree (NSet N)} {sc : SimCore N V C O}
    (hsc : asSimCore bn ns = .ok sc) {up : List (Dict N V)} {t t' : CoreTree N V C O S K} (hm : All (Members sc) up t)
    {i : Impulse N V} (hp : Proper i) {s s' : S} (h : impulse sem bn up t i s = (t', s', .ok ())) :
    Along (fun _ _ c c' => ((∃ x ∈ c.locus.keys, Affected bn i x) → c'.logProb = .nan) ∧
      ((∀ x ∈ c.locus.keys, ¬ Affected bn i x) → c'.logProb = c.logProb)) up up t t' := by
  obtain ⟨hw, -, -⟩ := hr.facts
  obtain ⟨-, hg⟩ := groups_ok hr hsc
  unfold impulse at h
  cases hs : shocks bn i with
  | error e => rw [hs] at h; simp at h
  | ok r =>
    obtain ⟨imp, sh⟩ := r
    rw [hs] at h
    have ha := setResponse_ok sem bn imp sh t up up s (members_nodup hg hm) h
    obtain ⟨-, haff, -⟩ := shocks_ok hw hp hs
    refine ha.imp (I := fun _ _ => True) (P := Members sc) (fun up up' c c' ts _ _ hans => ⟨⟨?_, ?_⟩, trivial⟩) trivial hm
    · rintro ⟨x, hx, hax⟩
      obtain ⟨m, -, rfl⟩ := hans
      unfold Core.finish
      rw [if_neg]
      simp only [List.isEmpty_iff]
      intro hh
      exact List.not_mem_nil (hh ▸ List.mem_filter.2 ⟨(haff x).2 hax, by simpa using hx⟩)
    · intro hno
      obtain ⟨m, hans, rfl⟩ := hans
      obtain ⟨m0, q, hr, -, -, -, e4, -⟩ := hans.mid
      have hnil : sh.filter (· ∈ c.locus.keys) = [] := by
        rw [List.filter_eq_nil_iff]
        intro x hx hh
        exact hno x (by simpa using hh) ((haff x).1 hx)
      unfold Core.finish
      rw [hnil]
      simp only [List.isEmpty_nil, if_true]
      rw [← e4]
      exact hr.kept (fun d _ => .inr (by rw [hnil]; exact List.not_mem_nil))

example : pc49.labels.all (fun c => !c.logProb.isNan) = true ∧ set49.1.labels.all (fun c => c.logProb.isNan) = true := by
  decide +kernel

end Props.SimCore
