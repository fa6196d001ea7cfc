import Verif.Lemmas.Sampling
import Verif.Props.BNViews

/-!
# Properties of sampling and evaluation: C23 - C28
-/

namespace Props.Sampling

set_option linter.unusedSectionVars false

open Py Spec Relation Model Model.Digraph Model.BN Props.BN

variable {N V C O S L K : Type} [DecidableEq N]

/-- Networks as users have them: built by accepted definitions, completed (frozen) or not. -/
def Ready (bn : BN N V C O) : Prop :=
  ∃ ds b, Built ds b ∧ (bn = b ∨ ∃ f, bn = (b.complete f).1)

/-- An exogenous node. -/
def Exogenous (bn : BN N V C O) (x : N) : Prop := ∃ n, bn.loci.get? x = some (.exo n)

theorem exoB_iff (bn : BN N V C O) (x : N) : bn.exoB x = true ↔ Exogenous bn x := by
  unfold exoB Exogenous
  cases h : bn.loci.get? x with
  | none => simp
  | some l => cases l <;> simp [Loci.isExo]

theorem Ready.facts {bn : BN N V C O} (h : Ready bn) :
    bn.Well ∧ (∃ od, bn.order = .ok od ∧ TopologicalOrder (· ∈ bn.dag.nodes) bn.dag.E od) ∧
      bn.exoList = .ok (bn.dag.nodes.filter bn.exoB) := by
  obtain ⟨ds, b, hb, hbn⟩ := h
  obtain ⟨hw, hf, -⟩ := built_inv hb
  obtain ⟨od, ho, ht⟩ := order_ok_of_acyclic hw.wf hw.acyclic
  rcases hbn with rfl | ⟨f, rfl⟩
  · refine ⟨hw, ⟨od, ?_, ht⟩, ?_⟩
    · simp [BN.order, hf, ho]
    · simp only [exoList, exo, served, hf, Bool.false_eq_true, if_false, findExo_ok hw.toRep]
      rfl
  · rw [complete_ok hw.toRep ho f]
    refine ⟨⟨⟨hw.wf, hw.defined, hw.named⟩, hw.acyclic, hw.edges⟩, ⟨od, rfl, ht⟩, rfl⟩

/-! ## A running example -/

/-- `y = dbl(x) + m`, `x ~ norm(m)`, `m = 2`, exogenous `u` used by `z = u + y`. -/
def exDefs : List Toy.TL :=
  [.func "y" (Toy.plus (Toy.app "dbl" [Toy.var "x"]) (Toy.var "m")) ["x", "m"],
   .dist "x" (Toy.app "norm" [] [("loc", Toy.var "m"), ("scale", Toy.int 1)]) ["m"],
   .value "m" (.num 2),
   .func "z" (Toy.plus (Toy.var "u") (Toy.var "y")) ["u", "y"]]

/-- The network of these definitions. -/
def exBN : BN String Toy.TV Toy.TC Unit := defineAll (.empty "m") exDefs

theorem exBuilt : Built exDefs exBN :=
  ((((Built.empty "m").step _ (by decide)).step _ (by decide)).step _ (by decide)).step _ (by decide)

example : Ready exBN ∧ Ready (exBN.complete "f").1 :=
  ⟨⟨_, _, exBuilt, Or.inl rfl⟩, ⟨_, _, exBuilt, Or.inr ⟨"f", rfl⟩⟩⟩

/-! ## C23 -/

/-- **C23**, ValueError: when an exogenous node is not given, `sample` raises ValueError and draws nothing. -/
theorem C23_missing (sem : Sem N V C O S L) {bn : BN N V C O} (hr : Ready bn) {cond : Dict N V} {x : N}
    (hx : Exogenous bn x) (hc : x ∉ cond.keys) (s : S) :
    sample sem bn cond s = (.error .ValueError, s) := by
  obtain ⟨hw, -, he⟩ := hr.facts
  unfold sample
  rw [he]
  simp only
  rw [if_pos]
  rw [List.any_eq_true]
  refine ⟨x, List.mem_filter.2 ⟨?_, (exoB_iff bn x).2 hx⟩, by simpa using hc⟩
  obtain ⟨n, hn⟩ := hx
  exact (hw.defined x).1 ⟨_, hn⟩

theorem sample_supplied (sem : Sem N V C O S L) {bn : BN N V C O} (hr : Ready bn) {cond : Dict N V}
    (hc : ∀ x, Exogenous bn x → x ∈ cond.keys) :
    ∃ od, TopologicalOrder (· ∈ bn.dag.nodes) bn.dag.E od ∧
      ∀ s, sample sem bn cond s = sampleLoop sem bn (fun _ => true) od cond s := by
  obtain ⟨hw, ⟨od, ho, ht⟩, he⟩ := hr.facts
  refine ⟨od, ht, fun s => ?_⟩
  unfold sample
  rw [he, ho]
  simp only
  rw [if_neg]
  rw [List.any_eq_true]
  rintro ⟨x, hx, hn⟩
  exact absurd (hc x ((exoB_iff bn x).1 (List.mem_filter.1 hx).2)) (by simpa using hn)

theorem supplied_of_ok (sem : Sem N V C O S L) {bn : BN N V C O} (hr : Ready bn) {cond r : Dict N V} {s s' : S}
    (h : sample sem bn cond s = (.ok r, s')) : ∀ x, Exogenous bn x → x ∈ cond.keys := by
  intro x hx
  by_contra hc
  rw [C23_missing sem hr hx hc] at h
  cases h

/-- **C23**, key set: a returned dictionary has exactly the given and the network's keys, and the given values. -/
theorem C23_keys (sem : Sem N V C O S L) {bn : BN N V C O} (hr : Ready bn) {cond r : Dict N V} {s s' : S}
    (h : sample sem bn cond s = (.ok r, s')) :
    (∀ k, k ∈ r.keys ↔ k ∈ cond.keys ∨ k ∈ bn.dag.nodes) ∧
    (∀ k v, cond.get? k = some v → r.get? k = some v) ∧
    (cond.WF → r.WF) ∧ (∀ x, Exogenous bn x → x ∈ cond.keys) := by
  have hs := supplied_of_ok sem hr h
  obtain ⟨od, ht, he⟩ := sample_supplied sem hr hs
  rw [he] at h
  obtain ⟨h1, h2, h3, -⟩ := sampleLoop_ok sem bn _ od h
  refine ⟨fun k => ?_, h2, h3, hs⟩
  rw [h1 k, ht.complete]
  simp

/-- **C23**, errors: `sample` fails only because an exogenous node is missing (ValueError, nothing drawn), or because
the definition of a node that is neither given nor exogenous raised that error on a dictionary that keeps the given
values and has all the parents of the node. -/
theorem C23_errors (sem : Sem N V C O S L) {bn : BN N V C O} (hr : Ready bn) {cond : Dict N V} {e : Err} {s s' : S}
    (h : sample sem bn cond s = (.error e, s')) :
    (e = .ValueError ∧ s' = s ∧ ∃ x, Exogenous bn x ∧ x ∉ cond.keys) ∨
    ∃ x l, bn.loci.get? x = some l ∧ x ∉ cond.keys ∧ ¬ Exogenous bn x ∧
      ∃ (ρ : Dict N V) (s1 : S), (∀ p ∈ l.parents, p ∈ ρ.keys) ∧
        (∀ y w, cond.get? y = some w → ρ.get? y = some w) ∧ l.render sem ρ.get? s1 = (.error e, s') := by
  by_cases hc : ∀ x, Exogenous bn x → x ∈ cond.keys
  · right
    obtain ⟨hw, -, -⟩ := hr.facts
    obtain ⟨od, ht, he⟩ := sample_supplied sem hr hc
    rw [he] at h
    obtain ⟨pre, k, suf, e1, -, hk, ρ, s1, hm, hle, hre⟩ := sampleLoop_error sem bn _ od h
    have hkn : k ∈ bn.dag.nodes := (ht.complete k).1 (by rw [e1]; simp)
    obtain ⟨l, hl⟩ := (hw.defined k).2 hkn
    refine ⟨k, l, hl, hk, fun hx => hk (hc k hx), ρ, s1, ?_, hle, ?_⟩
    · intro p hp
      rw [hm]
      exact Or.inr ⟨ht.parentsFirst pre k suf e1 p ((hw.edges p k).2 ⟨l, hl, hp⟩), rfl⟩
    · rcases hre with hre | ⟨l', hl', hre⟩
      · rw [get_ok hl] at hre; cases hre
      · rw [hl] at hl'; cases hl'; exact hre
  · push Not at hc
    obtain ⟨x, hx, hxc⟩ := hc
    left
    rw [C23_missing sem hr hx hxc] at h
    cases h
    exact ⟨rfl, rfl, x, hx, hxc⟩

/-- **C23**, totality: with all exogenous nodes given, and definitions that yield a value whenever their parents have
one, `sample` succeeds. -/
theorem C23_total (sem : Sem N V C O S L) {bn : BN N V C O} (hr : Ready bn) {cond : Dict N V}
    (hc : ∀ x, Exogenous bn x → x ∈ cond.keys)
    (hd : ∀ x l, bn.loci.get? x = some l → ¬ Exogenous bn x → ∀ (ρ : Dict N V) (s : S),
      (∀ p ∈ l.parents, p ∈ ρ.keys) → ∃ v, (l.render sem ρ.get? s).1 = .ok v) (s : S) :
    ∃ r, (sample sem bn cond s).1 = .ok r := by
  rcases h : sample sem bn cond s with ⟨r, s'⟩
  cases r with
  | ok r => exact ⟨r, rfl⟩
  | error e =>
    rcases C23_errors sem hr h with ⟨-, -, x, hx, hxc⟩ | ⟨x, l, hl, -, hx, ρ, s1, hp, -, hre⟩
    · exact absurd (hc x hx) hxc
    · obtain ⟨v, hv⟩ := hd x l hl hx ρ s1 hp
      rw [hre] at hv
      cases hv

example : (sample Toy.sem exBN [("u", .num 10)] 5).1
    = .ok [("u", .num 10), ("m", .num 2), ("x", .num 7), ("y", .num 16), ("z", .num 26)] := by decide

example : sample Toy.sem exBN [] 5 = (.error .ValueError, 5) := by decide

/-! ## C24 -/

/-- Every name occurring in the definition of a random variable is one of its parents, or is neither a node of the
network nor given: no variable is named like a function used there. -/
def NoShadow (bn : BN N V C O) (given : List N) : Prop :=
  ∀ x n f ps, bn.loci.get? x = some (.dist n f ps) → ∀ y, Uses f y ∨ Calls f y →
    y ∈ ps ∨ (y ∉ bn.dag.nodes ∧ y ∉ given)

theorem render_final (sem : Sem N V C O S L) (hcl : ∀ c, (sem.reparse c).names = []) {bn : BN N V C O}
    {given : List N} (hns : NoShadow bn given) {x : N} {l : Loci N V C O}
    (hl : bn.loci.get? x = some l) (hx : ¬ Exogenous bn x) {ρ r : Dict N V} (hle : ∀ y w, ρ.get? y = some w →
      r.get? y = some w) (hp : ∀ p ∈ l.parents, p ∈ ρ.keys)
    (hk : ∀ k ∈ r.keys, k ∈ given ∨ k ∈ bn.dag.nodes) (s : S) :
    l.render sem ρ.get? s = l.render sem r.get? s := by
  have hpar : ∀ p ∈ ρ.keys, ρ.get? p = r.get? p := by
    intro p h
    obtain ⟨v, hv⟩ := (Dict.mem_keys_iff_exists _ _).1 h
    rw [hv, hle p v hv]
  refine Loci.render_congr sem hcl l (fun p h => hpar p (hp p h)) ?_ ?_ s
  · rintro n f ps rfl y hy
    rcases hns x n f ps hl y ((Expr.mem_names y f).1 hy) with h | ⟨h1, h2⟩
    · exact hpar y (hp y h)
    · have hr : y ∉ r.keys := fun h => (hk y h).elim h2 h1
      have hρ : y ∉ ρ.keys := by
        intro h
        obtain ⟨v, hv⟩ := (Dict.mem_keys_iff_exists _ _).1 h
        exact hr ((Dict.mem_keys_iff_exists _ _).2 ⟨v, hle y v hv⟩)
      rw [(Dict.get?_eq_none_iff _ _).2 hr, (Dict.get?_eq_none_iff _ _).2 hρ]
  · rintro n rfl
    exact absurd ⟨n, hl⟩ hx

theorem loop_consistent (sem : Sem N V C O S L) (hcl : ∀ c, (sem.reparse c).names = []) {bn : BN N V C O}
    (hw : bn.Well) {sel : N → Bool} {od : List N} (ht : TopologicalOrder (· ∈ bn.dag.nodes) bn.dag.E od)
    {cond r : Dict N V} (hns : NoShadow bn cond.keys)
    (hsel : ∀ x l, bn.loci.get? x = some l → sel x = true → x ∉ cond.keys → ∀ p ∈ l.parents, sel p = true)
    {s s' : S} (h : sampleLoop sem bn sel od cond s = (.ok r, s')) {x : N} (hx : x ∈ bn.dag.nodes)
    (hs : sel x = true) (hxc : x ∉ cond.keys) (hexo : ¬ Exogenous bn x) :
    ∃ l v s1 s2, bn.loci.get? x = some l ∧ r.get? x = some v ∧ l.render sem r.get? s1 = (.ok v, s2) := by
  obtain ⟨h1, -, -, h4⟩ := sampleLoop_ok sem bn sel od h
  obtain ⟨pre, suf, e⟩ := List.append_of_mem ((ht.complete x).2 hx)
  have hnp : x ∉ pre := by
    have := ht.nodup
    rw [e, List.nodup_append] at this
    exact fun hh => this.2.2 x hh x (by simp) rfl
  obtain ⟨ρ, s1, s2, v, ⟨l, hl, hre⟩, hv, hm, hle⟩ := h4 pre x suf e hnp hs hxc
  refine ⟨l, v, s1, s2, hl, hv, ?_⟩
  rw [← render_final sem hcl hns hl hexo hle ?_ ?_ s1]
  · exact hre
  · intro p hp
    rw [hm]
    exact Or.inr ⟨ht.parentsFirst pre x suf e p ((hw.edges p x).2 ⟨l, hl, hp⟩), hsel x l hl hs hxc p hp⟩
  · intro k hk
    rcases (h1 k).1 hk with hk | ⟨hk, -⟩
    · exact Or.inl hk
    · exact Or.inr ((ht.complete k).1 hk)

/-- **C24**: in the dictionary returned by `sample`, every node that was not given has a value that its definition
yields on the returned dictionary, for some state of the random number generator. -/
theorem C24_consistent (sem : Sem N V C O S L) (hcl : ∀ c, (sem.reparse c).names = []) {bn : BN N V C O}
    (hr : Ready bn) {cond r : Dict N V} (hns : NoShadow bn cond.keys) {s s' : S}
    (h : sample sem bn cond s = (.ok r, s')) {x : N} (hx : x ∈ bn.dag.nodes) (hxc : x ∉ cond.keys) :
    ∃ l v s1 s2, bn.loci.get? x = some l ∧ r.get? x = some v ∧ l.render sem r.get? s1 = (.ok v, s2) := by
  have hs := supplied_of_ok sem hr h
  obtain ⟨od, ht, he⟩ := sample_supplied sem hr hs
  rw [he] at h
  exact loop_consistent sem hcl hr.facts.1 ht hns (fun _ _ _ _ _ _ _ => rfl) h hx rfl hxc (fun hh => hxc (hs x hh))

/-- **C24**, spelled out per kind of definition. -/
theorem C24_by_kind (sem : Sem N V C O S L) (hcl : ∀ c, (sem.reparse c).names = []) {bn : BN N V C O}
    (hr : Ready bn) {cond r : Dict N V} (hns : NoShadow bn cond.keys) {s s' : S}
    (h : sample sem bn cond s = (.ok r, s')) {x : N} (hxc : x ∉ cond.keys) :
    (∀ n v, bn.loci.get? x = some (.value n v) → r.get? x = some v) ∧
    (∀ n e ps, bn.loci.get? x = some (.func n e ps) → ∃ v, r.get? x = some v ∧
      e.eval sem sem.math (fun y => if y ∈ ps then r.get? y else none) = .ok v) ∧
    (∀ n f ps, bn.loci.get? x = some (.dist n f ps) → ∃ d v s1, getDistribution sem f r.get? = .ok d ∧
      (d.sample s1).1 = .ok v ∧ r.get? x = some v) ∧
    (∀ n ps, bn.loci.get? x ≠ some (.pseudo n ps)) := by
  have key : ∀ l, bn.loci.get? x = some l → ∃ v s1 s2, r.get? x = some v ∧
      l.render sem r.get? s1 = (.ok v, s2) := by
    intro l hl
    obtain ⟨l', v, s1, s2, hl', hv, hre⟩ := C24_consistent sem hcl hr hns h
      ((hr.facts.1.defined x).1 ⟨l, hl⟩) hxc
    rw [hl] at hl'; cases hl'
    exact ⟨v, s1, s2, hv, hre⟩
  refine ⟨fun n v hl => ?_, fun n e ps hl => ?_, fun n f ps hl => ?_, fun n ps hl => ?_⟩
  · obtain ⟨w, s1, s2, hv, hre⟩ := key _ hl
    cases hre; exact hv
  · obtain ⟨w, s1, s2, hv, hre⟩ := key _ hl
    refine ⟨w, hv, ?_⟩
    simp only [Loci.render, renderFunc, Prod.mk.injEq] at hre
    obtain ⟨hre, -⟩ := hre
    split at hre
    · split at hre
      · cases hre
      · exact hre
    · cases hre
  · obtain ⟨w, s1, s2, hv, hre⟩ := key _ hl
    simp only [Loci.render] at hre
    cases hg : getDistribution sem f r.get? with
    | error e => rw [hg] at hre; cases hre
    | ok d =>
      rw [hg] at hre
      exact ⟨d, w, s1, rfl, by simp only at hre; rw [hre], hv⟩
  · obtain ⟨w, s1, s2, hv, hre⟩ := key _ hl
    cases hre

/-- The hypothesis of C24 on names is needed: with a node called `norm`, declared so that it is sampled after `x`,
the distribution of `x` on the final dictionary is not even defined. -/
theorem C24_shadow : ∃ (bn : BN String Toy.TV Toy.TC Unit) (r : Dict String Toy.TV), Ready bn ∧
    (sample Toy.sem bn [] 5).1 = .ok r ∧
    ∃ n f ps, bn.loci.get? "x" = some (.dist n f ps) ∧ ∀ d, getDistribution Toy.sem f r.get? ≠ .ok d := by
  refine ⟨defineAll (.empty "m") [.dist "x" (Toy.app "norm" [] [("loc", Toy.int 2), ("scale", Toy.int 1)]) [],
    .value "norm" (.num 3)], [("x", .num 7), ("norm", .num 3)],
    ⟨_, _, ((Built.empty "m").step _ (by decide)).step _ (by decide), Or.inl rfl⟩, by decide,
    "x", _, [], rfl, ?_⟩
  intro d hd
  cases hd

/-- Check of `NoShadow` on a concrete network. -/
def noShadowB (bn : BN N V C O) (given : List N) : Bool :=
  bn.loci.all fun p => match p.2 with
    | .dist _ f ps => f.names.all fun y => y ∈ ps || (y ∉ bn.dag.nodes && y ∉ given)
    | _ => true

theorem noShadow_of_check {bn : BN N V C O} {given : List N} (h : noShadowB bn given = true) :
    NoShadow bn given := by
  intro x n f ps hl y hy
  have h1 := List.all_eq_true.1 h _ (Dict.mem_of_get? hl)
  have h2 := List.all_eq_true.1 h1 y ((Expr.mem_names y f).2 hy)
  simpa using h2

example : NoShadow exBN ["u"] := noShadow_of_check (by decide)

/-! ## C28 -/

/-- The network has no random variables. -/
def Deterministic (bn : BN N V C O) : Prop := ∀ x n f ps, bn.loci.get? x ≠ some (.dist n f ps)

/-- Check of `Deterministic` on a concrete network. -/
def deterministicB (bn : BN N V C O) : Bool := bn.loci.all fun p => !p.2.isDist

theorem deterministic_of_check {bn : BN N V C O} (h : deterministicB bn = true) : Deterministic bn := by
  intro x n f ps hl
  have h1 := List.all_eq_true.1 h _ (Dict.mem_of_get? hl)
  simp [Loci.isDist] at h1

theorem noShadow_of_deterministic {bn : BN N V C O} (h : Deterministic bn) (g : List N) : NoShadow bn g :=
  fun x n f ps hl => absurd hl (h x n f ps)

theorem render_deterministic (sem : Sem N V C O S L) {bn : BN N V C O} (hd : Deterministic bn) {x : N}
    {l : Loci N V C O} (hl : bn.loci.get? x = some l) (hx : ¬ Exogenous bn x) {ρ ρ' : N → Option V}
    (hp : ∀ p ∈ l.parents, ρ p = ρ' p) {v : V} {s1 s2 : S} (h : l.render sem ρ s1 = (.ok v, s2)) (s : S) :
    l.render sem ρ' s = (.ok v, s) := by
  cases l with
  | value n w => cases h; rfl
  | exo n => exact absurd ⟨n, hl⟩ hx
  | dist n f ps => exact absurd hl (hd x n f ps)
  | func n e ps =>
    have := Props.Expr.C33_no_capture sem n e ps (pas := ρ) (pas' := ρ') hp s
    rw [← this]
    simp only [Loci.render, Prod.mk.injEq, and_true] at h ⊢
    exact h.1
  | pseudo n ps => cases h

/-- The assignment to be followed by the loop, in a form usable for `sample` and `sample_minimally`. -/
theorem follows (sem : Sem N V C O S L) {bn : BN N V C O} (hw : bn.Well) (hd : Deterministic bn) {sel : N → Bool}
    {od : List N} (ht : TopologicalOrder (· ∈ bn.dag.nodes) bn.dag.E od) {cond r : Dict N V}
    (hexo : ∀ x, Exogenous bn x → sel x = true → x ∈ cond.keys)
    (hcond : ∀ k v, cond.get? k = some v → r.get? k = some v)
    (hsel : ∀ x l, bn.loci.get? x = some l → sel x = true → x ∉ cond.keys → ∀ p ∈ l.parents, sel p = true)
    (hcons : ∀ x ∈ bn.dag.nodes, sel x = true → x ∉ cond.keys →
      ∃ l v s1 s2, bn.loci.get? x = some l ∧ r.get? x = some v ∧ l.render sem r.get? s1 = (.ok v, s2)) (s : S) :
    ∃ r', sampleLoop sem bn sel od cond s = (.ok r', s) ∧ ∀ y w, r'.get? y = some w → r.get? y = some w := by
  refine sampleLoop_follows sem bn sel r.get? od [] cond s hcond (by simp) ?_
  intro pre k suf e hks hkc ρ hρ1 hρ2 hρ3
  rw [List.nil_append] at e
  have hkn : k ∈ bn.dag.nodes := (ht.complete k).1 (by rw [e]; simp)
  obtain ⟨l, v, s1, s2, hl, hv, hre⟩ := hcons k hkn hks hkc
  refine ⟨l, v, hl, hv, fun s => ?_⟩
  refine render_deterministic sem hd hl (fun hh => hkc (hexo k hh hks)) ?_ hre s
  intro p hp
  have hpk : p ∈ ρ.keys := hρ2 p (ht.parentsFirst pre k suf e p ((hw.edges p k).2 ⟨l, hl, hp⟩))
    (hsel k l hl hks hkc p hp)
  obtain ⟨w, hwp⟩ := (Dict.mem_keys_iff_exists _ _).1 hpk
  rw [hwp, hρ3 p w hwp]

/-- **C28**: for networks without random variables, with the same definitions declared in any order (so that nodes
and edges come in a different order, and another topological order is used), `sample` gives the same values. -/
theorem C28_order_irrelevant (sem : Sem N V C O S L) (hcl : ∀ c, (sem.reparse c).names = [])
    {bn bn' : BN N V C O} (hr : Ready bn) (hr' : Ready bn') (hd : Deterministic bn)
    (hsame : ∀ x, bn.loci.get? x = bn'.loci.get? x) {cond r : Dict N V} {s s1 : S}
    (h : sample sem bn cond s = (.ok r, s1)) (s2 : S) :
    s1 = s ∧ ∃ r', sample sem bn' cond s2 = (.ok r', s2) ∧ ∀ x, r'.get? x = r.get? x := by
  have hd' : Deterministic bn' := fun x n f ps hl => hd x n f ps (by rw [hsame]; exact hl)
  have hsup := supplied_of_ok sem hr h
  have hsup' : ∀ x, Exogenous bn' x → x ∈ cond.keys := by
    rintro x ⟨n, hx⟩
    exact hsup x ⟨n, by rw [hsame]; exact hx⟩
  have hcons : ∀ x ∈ bn.dag.nodes, x ∉ cond.keys →
      ∃ l v s1 s2, bn.loci.get? x = some l ∧ r.get? x = some v ∧ l.render sem r.get? s1 = (.ok v, s2) :=
    fun x hx hxc => C24_consistent sem hcl hr (noShadow_of_deterministic hd _) h hx hxc
  obtain ⟨hk, hg, -, -⟩ := C23_keys sem hr h
  refine ⟨?_, ?_⟩
  · obtain ⟨od, ht, he⟩ := sample_supplied sem hr hsup
    obtain ⟨r', h', -⟩ := follows sem hr.facts.1 hd ht (fun x hx _ => hsup x hx) hg
      (sel := fun _ => true) (fun _ _ _ _ _ _ _ => rfl) (fun x hx _ hxc => hcons x hx hxc) s
    rw [he, h'] at h
    cases h; rfl
  · obtain ⟨od, ht, he⟩ := sample_supplied sem hr' hsup'
    have hnodes : ∀ x, x ∈ bn'.dag.nodes ↔ x ∈ bn.dag.nodes := by
      intro x
      rw [← hr'.facts.1.defined, ← hr.facts.1.defined, hsame]
    obtain ⟨r', h', hle⟩ := follows sem hr'.facts.1 hd' ht (fun x hx _ => hsup' x hx) hg
      (sel := fun _ => true) (fun _ _ _ _ _ _ _ => rfl)
      (fun x hx _ hxc => by
        obtain ⟨l, v, s1, s2, hl, hv⟩ := hcons x ((hnodes x).1 hx) hxc
        exact ⟨l, v, s1, s2, by rw [← hsame]; exact hl, hv⟩) s2
    rw [← he] at h'
    refine ⟨r', h', fun x => ?_⟩
    obtain ⟨hk', -, -, -⟩ := C23_keys sem hr' h'
    by_cases hx : x ∈ r'.keys
    · obtain ⟨w, hw⟩ := (Dict.mem_keys_iff_exists _ _).1 hx
      rw [hw, hle x w hw]
    · have : x ∉ r.keys := by
        rw [hk, ← hnodes, ← hk']; exact hx
      rw [(Dict.get?_eq_none_iff _ _).2 hx, (Dict.get?_eq_none_iff _ _).2 this]

/-- Two orders of declaration, two orders of nodes, the same values. -/
example : ∃ bn bn' : BN String Toy.TV Toy.TC Unit, Ready bn ∧ Ready bn' ∧ Deterministic bn ∧
    (∀ x ∈ ["a", "b", "c"], bn.loci.get? x = bn'.loci.get? x) ∧ bn.dag.nodes ≠ bn'.dag.nodes ∧
    (sample Toy.sem bn [] 0).1 = .ok [("a", .num 1), ("b", .num 2), ("c", .num 3)] ∧
    (sample Toy.sem bn' [] 0).1 = .ok [("a", .num 1), ("b", .num 2), ("c", .num 3)] := by
  let a : Toy.TL := .value "a" (.num 1)
  let b : Toy.TL := .func "b" (Toy.app "dbl" [Toy.var "a"]) ["a"]
  let c : Toy.TL := .func "c" (Toy.plus (Toy.var "a") (Toy.var "b")) ["a", "b"]
  refine ⟨defineAll (.empty "m") [a, b, c], defineAll (.empty "m") [c, a, b],
    ⟨_, _, (((Built.empty "m").step _ (by decide)).step _ (by decide)).step _ (by decide), Or.inl rfl⟩,
    ⟨_, _, (((Built.empty "m").step _ (by decide)).step _ (by decide)).step _ (by decide), Or.inl rfl⟩,
    deterministic_of_check (by decide), by decide, by decide, by decide, by decide⟩

/-! ## C25 -/

/-- The nodes needed to obtain `included` once `given` are known: those from which an included node can be reached by
a path that enters no given node. -/
def Needed (bn : BN N V C O) (included given : List N) (x : N) : Prop :=
  x ∈ included ∨ ∃ t ∈ included, AvoidPath bn.dag.E (· ∈ given) x t

theorem sampleMinimally_cases (sem : Sem N V C O S L) {bn : BN N V C O} (hr : Ready bn) {included : List N}
    {cond : Dict N V} (hne : included ≠ []) (hinc : ∀ x ∈ included, x ∈ bn.dag.nodes)
    (hgiv : ∀ x ∈ cond.keys, x ∈ bn.dag.nodes) :
    ∃ (sel : N → Bool) (od : List N), (∀ x, sel x = true ↔ Needed bn included cond.keys x) ∧
      TopologicalOrder (· ∈ bn.dag.nodes) bn.dag.E od ∧
      ((∃ x, Exogenous bn x ∧ sel x = true ∧ x ∉ cond.keys) →
        ∀ s, sampleMinimally sem bn included cond s = (.error .ValueError, s)) ∧
      ((∀ x, Exogenous bn x → sel x = true → x ∈ cond.keys) →
        ∀ s, sampleMinimally sem bn included cond s = match sampleLoop sem bn sel od cond s with
          | (.error e, s') => (.error e, s')
          | (.ok res, s') => (.ok (res.filterItems (fun k _ => k ∈ included),
              res.filterItems (fun k _ => k ∉ included)), s')) ∧
      (∀ x l, bn.loci.get? x = some l → sel x = true → x ∉ cond.keys → ∀ p ∈ l.parents, sel p = true) := by
  obtain ⟨hw, ⟨od, ho, ht⟩, he⟩ := hr.facts
  obtain ⟨suf, hsuf, hmem⟩ := Props.Dag.C07_sufficient hw.wf (given := some cond.keys) hne hinc hgiv
  have hleast := (Props.Dag.C07_least hw.wf hsuf hne hinc hgiv).1.2
  refine ⟨fun x => x ∈ suf, od, fun x => ?_, ht, ?_, ?_, ?_⟩
  · rw [decide_eq_true_iff]; exact hmem x
  · rintro ⟨x, hx, hxs, hxc⟩ s
    unfold sampleMinimally
    rw [hsuf, he]
    simp only
    rw [if_pos]
    rw [List.any_eq_true]
    refine ⟨x, List.mem_filter.2 ⟨List.mem_filter.2 ⟨?_, (exoB_iff bn x).2 hx⟩, hxs⟩, by simpa using hxc⟩
    obtain ⟨n, hn⟩ := hx
    exact (hw.defined x).1 ⟨_, hn⟩
  · intro hsup s
    have hno : ¬ ((bn.dag.nodes.filter bn.exoB).filter (· ∈ suf)).any (· ∉ cond.keys) = true := by
      rw [List.any_eq_true]
      rintro ⟨x, hx, hn⟩
      obtain ⟨h1, h2⟩ := List.mem_filter.1 hx
      exact absurd (hsup x ((exoB_iff bn x).1 (List.mem_filter.1 h1).2) h2) (by simpa using hn)
    simp only [sampleMinimally, hsuf, he, ho]
    rw [if_neg hno]
    rcases sampleLoop sem bn (fun x => decide (x ∈ suf)) od cond s with ⟨_ | _, _⟩ <;> rfl
  · intro x l hl hs hxc p hp
    have : p ∈ suf := hleast x (by simpa using hs) hxc p ((hw.edges p x).2 ⟨l, hl, hp⟩)
    simpa using this

/-- **C25**, ValueError: raised, before anything is drawn, when a needed exogenous node is not given. -/
theorem C25_missing (sem : Sem N V C O S L) {bn : BN N V C O} (hr : Ready bn) {included : List N}
    {cond : Dict N V} (hne : included ≠ []) (hinc : ∀ x ∈ included, x ∈ bn.dag.nodes)
    (hgiv : ∀ x ∈ cond.keys, x ∈ bn.dag.nodes) {x : N} (hx : Exogenous bn x)
    (hn : Needed bn included cond.keys x) (hxc : x ∉ cond.keys) (s : S) :
    sampleMinimally sem bn included cond s = (.error .ValueError, s) := by
  obtain ⟨sel, od, hsel, -, h1, -⟩ := sampleMinimally_cases sem hr hne hinc hgiv
  exact h1 ⟨x, hx, (hsel x).2 hn, hxc⟩ s

/-- **C25**, errors: otherwise a failure comes from the definition of a needed node that was not given, evaluated on a
dictionary with all its parents. -/
theorem C25_errors (sem : Sem N V C O S L) {bn : BN N V C O} (hr : Ready bn) {included : List N}
    {cond : Dict N V} (hne : included ≠ []) (hinc : ∀ x ∈ included, x ∈ bn.dag.nodes)
    (hgiv : ∀ x ∈ cond.keys, x ∈ bn.dag.nodes)
    (hsup : ∀ x, Exogenous bn x → Needed bn included cond.keys x → x ∈ cond.keys) {e : Err} {s s' : S}
    (h : sampleMinimally sem bn included cond s = (.error e, s')) :
    ∃ x l, bn.loci.get? x = some l ∧ Needed bn included cond.keys x ∧ x ∉ cond.keys ∧
      ∃ (ρ : Dict N V) (s1 : S), (∀ p ∈ l.parents, p ∈ ρ.keys) ∧ l.render sem ρ.get? s1 = (.error e, s') := by
  obtain ⟨sel, od, hsel, ht, -, h2, hpar⟩ := sampleMinimally_cases sem hr hne hinc hgiv
  rw [h2 (fun x hx hs => hsup x hx ((hsel x).1 hs))] at h
  obtain ⟨hw, -, -⟩ := hr.facts
  rcases hl : sampleLoop sem bn sel od cond s with ⟨r0, s0⟩
  rw [hl] at h
  cases r0 with
  | ok r => cases h
  | error e' =>
    cases h
    obtain ⟨pre, k, suf, e1, hks, hk, ρ, s1, hm, hle, hre⟩ := sampleLoop_error sem bn _ od hl
    have hkn : k ∈ bn.dag.nodes := (ht.complete k).1 (by rw [e1]; simp)
    obtain ⟨l, hll⟩ := (hw.defined k).2 hkn
    refine ⟨k, l, hll, (hsel k).1 hks, hk, ρ, s1, ?_, ?_⟩
    · intro p hp
      rw [hm]
      exact Or.inr ⟨ht.parentsFirst pre k suf e1 p ((hw.edges p k).2 ⟨l, hll, hp⟩), hpar k l hll hks hk p hp⟩
    · rcases hre with hre | ⟨l', hl', hre⟩
      · rw [get_ok hll] at hre; cases hre
      · rw [hll] at hl'; cases hl'; exact hre

theorem sampleMinimally_ok (sem : Sem N V C O S L) {bn : BN N V C O} (hr : Ready bn) {included : List N}
    {cond : Dict N V} (hne : included ≠ []) (hinc : ∀ x ∈ included, x ∈ bn.dag.nodes)
    (hgiv : ∀ x ∈ cond.keys, x ∈ bn.dag.nodes) {sinks med : Dict N V} {s s' : S}
    (h : sampleMinimally sem bn included cond s = (.ok (sinks, med), s')) :
    ∃ (sel : N → Bool) (od : List N) (r : Dict N V), (∀ x, sel x = true ↔ Needed bn included cond.keys x) ∧
      TopologicalOrder (· ∈ bn.dag.nodes) bn.dag.E od ∧
      (∀ x, Exogenous bn x → sel x = true → x ∈ cond.keys) ∧
      (∀ x l, bn.loci.get? x = some l → sel x = true → x ∉ cond.keys → ∀ p ∈ l.parents, sel p = true) ∧
      sampleLoop sem bn sel od cond s = (.ok r, s') ∧ sinks = r.filterItems (fun k _ => k ∈ included) ∧
      med = r.filterItems (fun k _ => k ∉ included) := by
  obtain ⟨sel, od, hsel, ht, h1, h2, hpar⟩ := sampleMinimally_cases sem hr hne hinc hgiv
  have hsup : ∀ x, Exogenous bn x → sel x = true → x ∈ cond.keys := by
    intro x hx hs
    by_contra hc
    rw [h1 ⟨x, hx, hs, hc⟩] at h
    cases h
  rw [h2 hsup] at h
  rcases hl : sampleLoop sem bn sel od cond s with ⟨r0, s0⟩
  rw [hl] at h
  cases r0 with
  | error e => cases h
  | ok r =>
    cases h
    exact ⟨sel, od, r, hsel, ht, hsup, hpar, hl, rfl, rfl⟩

/-- **C25**, keys and values: the sinks have exactly the included keys, the mediators the other given or needed ones;
given values are returned unchanged. -/
theorem C25_keys (sem : Sem N V C O S L) {bn : BN N V C O} (hr : Ready bn) {included : List N}
    {cond : Dict N V} (hne : included ≠ []) (hinc : ∀ x ∈ included, x ∈ bn.dag.nodes)
    (hgiv : ∀ x ∈ cond.keys, x ∈ bn.dag.nodes) {sinks med : Dict N V} {s s' : S}
    (h : sampleMinimally sem bn included cond s = (.ok (sinks, med), s')) :
    (∀ k, k ∈ sinks.keys ↔ k ∈ included) ∧
    (∀ k, k ∈ med.keys ↔ k ∉ included ∧ (k ∈ cond.keys ∨ Needed bn included cond.keys k)) ∧
    (∀ k v, cond.get? k = some v → sinks.get? k = some v ∨ med.get? k = some v) := by
  obtain ⟨sel, od, r, hsel, ht, -, -, hl, rfl, rfl⟩ := sampleMinimally_ok sem hr hne hinc hgiv h
  obtain ⟨h1, h2, -, -⟩ := sampleLoop_ok sem bn sel od hl
  have hwf := hr.facts.1.wf
  have hkeys : ∀ k, k ∈ r.keys ↔ k ∈ cond.keys ∨ Needed bn included cond.keys k := by
    intro k
    rw [h1, hsel]
    constructor
    · rintro (h | ⟨-, h⟩)
      · exact Or.inl h
      · exact Or.inr h
    · rintro (h | h)
      · exact Or.inl h
      · refine Or.inr ⟨(ht.complete k).2 ?_, h⟩
        rcases h with h | ⟨t, -, h⟩
        · exact hinc k h
        · cases h with
          | single he _ => exact hwf.left_mem he
          | cons he _ _ => exact hwf.left_mem he
  refine ⟨fun k => ?_, fun k => ?_, fun k v hk => ?_⟩
  · rw [Dict.mem_keys_filterItems_key r (fun k => k ∈ included), hkeys]
    simp only [decide_eq_true_eq]
    exact ⟨fun h => h.2, fun h => ⟨Or.inr (Or.inl h), h⟩⟩
  · rw [Dict.mem_keys_filterItems_key r (fun k => k ∉ included), hkeys]
    simp only [decide_eq_true_eq]
    exact and_comm
  · have := h2 k v hk
    by_cases hi : k ∈ included
    · left
      rw [Dict.get?_filterItems_key r (fun k => k ∈ included)]
      simp [hi, this]
    · right
      rw [Dict.get?_filterItems_key r (fun k => k ∉ included)]
      simp [hi, this]

/-- **C25**, consistency: every sampled value is one its definition yields on the sinks and mediators together. -/
theorem C25_consistent (sem : Sem N V C O S L) (hcl : ∀ c, (sem.reparse c).names = []) {bn : BN N V C O}
    (hr : Ready bn) {included : List N} {cond : Dict N V} (hne : included ≠ [])
    (hinc : ∀ x ∈ included, x ∈ bn.dag.nodes) (hgiv : ∀ x ∈ cond.keys, x ∈ bn.dag.nodes)
    (hns : NoShadow bn cond.keys) {sinks med : Dict N V} {s s' : S}
    (h : sampleMinimally sem bn included cond s = (.ok (sinks, med), s')) {x : N}
    (hx : Needed bn included cond.keys x) (hxc : x ∉ cond.keys) :
    ∃ l v s1 s2, bn.loci.get? x = some l ∧ (sinks.get? x).or (med.get? x) = some v ∧
      l.render sem (fun y => (sinks.get? y).or (med.get? y)) s1 = (.ok v, s2) := by
  have hk := C25_keys sem hr hne hinc hgiv h
  obtain ⟨sel, od, r, hsel, ht, hsup, hpar, hl, rfl, rfl⟩ := sampleMinimally_ok sem hr hne hinc hgiv h
  have hboth : (fun y => (Dict.get? (r.filterItems (fun k _ => k ∈ included)) y).or
      (Dict.get? (r.filterItems (fun k _ => k ∉ included)) y)) = r.get? := by
    funext y
    rw [Dict.get?_filterItems_key r (fun k => k ∈ included), Dict.get?_filterItems_key r (fun k => k ∉ included)]
    by_cases hi : y ∈ included <;> simp [hi]
  have hxn : x ∈ bn.dag.nodes := by
    rcases hx with h | ⟨t, -, h⟩
    · exact hinc x h
    · cases h with
      | single he _ => exact hr.facts.1.wf.left_mem he
      | cons he _ _ => exact hr.facts.1.wf.left_mem he
  have hs := (hsel x).2 hx
  obtain ⟨l, v, s1, s2, h1, h2, h3⟩ := loop_consistent sem hcl hr.facts.1 ht hns hpar hl hxn hs hxc
    (fun hh => hxc (hsup x hh hs))
  refine ⟨l, v, s1, s2, h1, ?_, ?_⟩
  · rw [← h2]; exact congrFun hboth x
  · rw [hboth]; exact h3

/-- **C25**, agreement: without random variables, whenever `sample` succeeds so does `sample_minimally`, with the
same values and without drawing. -/
theorem C25_agrees (sem : Sem N V C O S L) (hcl : ∀ c, (sem.reparse c).names = []) {bn : BN N V C O}
    (hr : Ready bn) (hd : Deterministic bn) {included : List N} {cond : Dict N V} (hne : included ≠ [])
    (hinc : ∀ x ∈ included, x ∈ bn.dag.nodes) (hgiv : ∀ x ∈ cond.keys, x ∈ bn.dag.nodes) {r : Dict N V} {s s' : S}
    (h : sample sem bn cond s = (.ok r, s')) (s1 : S) :
    ∃ sinks med, sampleMinimally sem bn included cond s1 = (.ok (sinks, med), s1) ∧
      (∀ k v, sinks.get? k = some v → r.get? k = some v) ∧ (∀ k v, med.get? k = some v → r.get? k = some v) := by
  have hsup := supplied_of_ok sem hr h
  obtain ⟨-, hg, -, -⟩ := C23_keys sem hr h
  obtain ⟨sel, od, hsel, ht, -, h2, hpar⟩ := sampleMinimally_cases sem hr hne hinc hgiv
  obtain ⟨r', h', hle⟩ := follows sem hr.facts.1 hd ht (fun x hx _ => hsup x hx) hg hpar
    (fun x hx _ hxc => C24_consistent sem hcl hr (noShadow_of_deterministic hd _) h hx hxc) s1
  refine ⟨r'.filterItems (fun k _ => k ∈ included), r'.filterItems (fun k _ => k ∉ included), ?_, ?_, ?_⟩
  · rw [h2 (fun x hx _ => hsup x hx), h']
  · intro k v hk
    rw [Dict.get?_filterItems_key r' (fun k => k ∈ included)] at hk
    split at hk
    · exact hle k v hk
    · cases hk
  · intro k v hk
    rw [Dict.get?_filterItems_key r' (fun k => k ∉ included)] at hk
    split at hk
    · exact hle k v hk
    · cases hk

/-- **C25**, unknown names: an unknown included or given name is a NetworkXError, nothing included a TypeError. -/
theorem C25_unknown (sem : Sem N V C O S L) {bn : BN N V C O} (hr : Ready bn) (included : List N)
    (cond : Dict N V) (s : S) :
    ((∃ x ∈ cond.keys, x ∉ bn.dag.nodes) → sampleMinimally sem bn included cond s = (.error .NetworkXError, s)) ∧
    ((∀ x ∈ cond.keys, x ∈ bn.dag.nodes) → (∃ x ∈ included, x ∉ bn.dag.nodes) →
      sampleMinimally sem bn included cond s = (.error .NetworkXError, s)) ∧
    ((∀ x ∈ cond.keys, x ∈ bn.dag.nodes) → included = [] →
      sampleMinimally sem bn included cond s = (.error .TypeError, s)) := by
  obtain ⟨h1, h2, h3⟩ := Props.Dag.C07_errors hr.facts.1.wf (inc := included) (given := some cond.keys)
  refine ⟨fun h => ?_, fun h h' => ?_, fun h h' => ?_⟩
  · simp only [sampleMinimally, h1 h]
  · simp only [sampleMinimally, h2 h h']
  · simp only [sampleMinimally, h3 h h']

/-- `y` given `x` needs `m` but neither `u` nor a draw. -/
example : sampleMinimally Toy.sem exBN ["y"] [("x", .num 3)] 5
    = (.ok ([("y", .num 8)], [("x", .num 3), ("m", .num 2)]), 5) := by decide

example : sampleMinimally Toy.sem exBN ["z"] [("x", .num 3)] 5 = (.error .ValueError, 5) := by decide

/-! ## C26 -/

section Evaluate
variable [AddCommMonoid K]

/-- `l` is the log density that the definition of the random variable `x` gives to its value in `pars`
(`-inf` when the distribution refuses its parameters). -/
def LogDensity (sem : Sem N V C O S (XR K)) (bn : BN N V C O) (pars : Dict N V) (x : N) (l : XR K) : Prop :=
  ∃ n f ps v, bn.loci.get? x = some (.dist n f ps) ∧ pars.get? x = some v ∧
    ((∃ d, getDistribution sem f pars.get? = .ok d ∧
        (d.logpdf v = .ok l ∨ (d.logpdf v = .error .ValidationError ∧ l = .ninf))) ∨
      (getDistribution sem f pars.get? = .error .ValidationError ∧ l = .ninf))

theorem evaluate_dist (sem : Sem N V C O S (XR K)) {bn : BN N V C O} (hw : bn.Well) {pars : Dict N V} {x : N}
    {l : Loci N V C O} (hl : bn.loci.get? x = some l) (hx : x ∈ pars.keys) {lp : XR K}
    (h : l.evaluate sem pars.get? = .ok lp) :
    (¬ bn.Rv x ∧ lp = 0) ∨ (bn.Rv x ∧ LogDensity sem bn pars x lp) := by
  obtain ⟨v, hv⟩ := (Dict.mem_keys_iff_exists _ _).1 hx
  have hname := hw.named x l hl
  cases l with
  | value n w => left; refine ⟨?_, by cases h; rfl⟩; rintro ⟨l', h1, h2⟩; rw [hl] at h1; cases h1; cases h2
  | exo n => left; refine ⟨?_, by cases h; rfl⟩; rintro ⟨l', h1, h2⟩; rw [hl] at h1; cases h1; cases h2
  | func n e ps => left; refine ⟨?_, by cases h; rfl⟩; rintro ⟨l', h1, h2⟩; rw [hl] at h1; cases h1; cases h2
  | pseudo n ps => cases h
  | dist n f ps =>
    right
    refine ⟨⟨_, hl, rfl⟩, n, f, ps, v, hl, hv, ?_⟩
    have hnx : n = x := hname
    subst hnx
    simp only [Loci.evaluate] at h
    cases hg : getDistribution sem f pars.get? with
    | error e =>
      right
      rw [hg] at h
      simp only [bind, Except.bind] at h
      cases e <;> first | (cases h; done) | (cases h; exact ⟨rfl, rfl⟩)
    | ok d =>
      left
      refine ⟨d, rfl, ?_⟩
      rw [hg] at h
      simp only [bind, Except.bind, hv] at h
      cases hp : d.logpdf v with
      | ok l' => rw [hp] at h; cases h; exact Or.inl rfl
      | error e =>
        rw [hp] at h
        cases e <;> first | (cases h; done) | (cases h; exact Or.inr ⟨rfl, rfl⟩)

/-- The summand of node `x`, `0` when its evaluation raises. -/
def term (sem : Sem N V C O S (XR K)) (bn : BN N V C O) (pars : Dict N V) (x : N) : XR K :=
  match (do (← bn.get x).evaluate sem pars.get? : Result (XR K)) with
  | .ok l => l
  | .error _ => 0

/-- What `evaluate_nodes` makes of the sum. -/
def noNan (l : XR K) : XR K := if l.isNan then .ninf else l

theorem mapM_ok_all {α β : Type} {f : α → Result β} : ∀ {xs : List α} {ys : List β}, xs.mapM f = .ok ys →
    ∀ x ∈ xs, ∃ y, f x = .ok y := by
  intro xs
  induction xs with
  | nil => intro ys _ x hx; cases hx
  | cons x xs ih =>
    intro ys h
    rw [List.mapM_cons] at h
    cases hx : f x with
    | error e => rw [hx] at h; cases h
    | ok y =>
      rw [hx] at h
      cases hxs : xs.mapM f with
      | error e => rw [hxs] at h; cases h
      | ok zs =>
        intro z hz
        rcases List.mem_cons.1 hz with rfl | hz
        · exact ⟨y, hx⟩
        · exact ih hxs z hz

theorem evaluateNodes_iff (sem : Sem N V C O S (XR K)) (bn : BN N V C O) (pars : Dict N V) (lp : XR K) :
    evaluateNodes sem bn pars = .ok lp ↔
      (∀ x ∈ pars.keys, x ∈ bn.dag.nodes →
        (do (← bn.get x).evaluate sem pars.get? : Result (XR K)) = .ok (term sem bn pars x)) ∧
      lp = noNan (((pars.keys.filter (· ∈ bn.dag.nodes)).map (term sem bn pars)).sum) := by
  unfold evaluateNodes
  constructor
  · intro h
    cases hm : (pars.keys.filter (· ∈ bn.dag.nodes)).mapM (fun k => do
      (← bn.get k).evaluate sem pars.get?) with
    | error e => rw [hm] at h; cases h
    | ok ls =>
      have h1 : ∀ x ∈ pars.keys, x ∈ bn.dag.nodes →
          (do (← bn.get x).evaluate sem pars.get? : Result (XR K)) = .ok (term sem bn pars x) := by
        intro x hx hn
        obtain ⟨y, hy⟩ := mapM_ok_all hm x (List.mem_filter.2 ⟨hx, by simpa using hn⟩)
        rw [hy, term, hy]
      refine ⟨h1, ?_⟩
      rw [mapM_ok_of (F := term sem bn pars) (fun x hx => by
        obtain ⟨ha, hb⟩ := List.mem_filter.1 hx
        exact h1 x ha (by simpa using hb))] at h
      cases h
      rfl
  · rintro ⟨h1, rfl⟩
    rw [mapM_ok_of (F := term sem bn pars) (fun x hx => by
        obtain ⟨ha, hb⟩ := List.mem_filter.1 hx
        exact h1 x ha (by simpa using hb))]
    rfl

theorem sum_filter_of_zero {α M : Type} [AddCommMonoid M] (p : α → Bool) (f : α → M) :
    ∀ (xs : List α), (∀ x ∈ xs, p x = false → f x = 0) → (xs.map f).sum = ((xs.filter p).map f).sum := by
  intro xs
  induction xs with
  | nil => intro _; rfl
  | cons x xs ih =>
    intro h
    have h' := ih (fun y hy => h y (by simp [hy]))
    by_cases hp : p x = true
    · rw [List.filter_cons_of_pos hp]; simp [h']
    · rw [List.filter_cons_of_neg hp]
      simp [h', h x (by simp) (by simpa using hp)]

/-- **C26**, the sum: a returned value is the sum of the log densities of the random variables of the network present
in `pars`, each counted once, with NaN replaced by `-inf`. -/
theorem C26_sum (sem : Sem N V C O S (XR K)) {bn : BN N V C O} (hr : Ready bn) {pars : Dict N V} (hp : pars.WF)
    {lp : XR K} (h : evaluateNodes sem bn pars = .ok lp) :
    ∃ (rvs : List N) (d : N → XR K), rvs.Nodup ∧ (∀ x, x ∈ rvs ↔ bn.Rv x ∧ x ∈ pars.keys) ∧
      (∀ x ∈ rvs, LogDensity sem bn pars x (d x)) ∧
      ((rvs.map d).sum = .nan → lp = .ninf) ∧ ((rvs.map d).sum ≠ .nan → lp = (rvs.map d).sum) := by
  obtain ⟨h1, h2⟩ := (evaluateNodes_iff sem bn pars lp).1 h
  have hw := hr.facts.1
  have hterm : ∀ x ∈ pars.keys, x ∈ bn.dag.nodes →
      (¬ bn.Rv x ∧ term sem bn pars x = 0) ∨ (bn.Rv x ∧ LogDensity sem bn pars x (term sem bn pars x)) := by
    intro x hx hn
    obtain ⟨l, hl⟩ := (hw.defined x).2 hn
    have := h1 x hx hn
    rw [get_ok hl] at this
    exact evaluate_dist sem hw hl hx this
  have hmem : ∀ x, x ∈ (pars.keys.filter (· ∈ bn.dag.nodes)).filter bn.rvB ↔ bn.Rv x ∧ x ∈ pars.keys := by
    intro x
    rw [List.mem_filter, List.mem_filter, rvB_iff]
    constructor
    · rintro ⟨⟨ha, -⟩, hb⟩; exact ⟨hb, ha⟩
    · rintro ⟨hb, ha⟩
      refine ⟨⟨ha, ?_⟩, hb⟩
      obtain ⟨l, hl, -⟩ := hb
      simpa using (hw.defined x).1 ⟨l, hl⟩
  have hsum : (((pars.keys.filter (· ∈ bn.dag.nodes)).filter bn.rvB).map (term sem bn pars)).sum
      = ((pars.keys.filter (· ∈ bn.dag.nodes)).map (term sem bn pars)).sum := by
    refine (sum_filter_of_zero bn.rvB _ _ ?_).symm
    intro x hx hb
    obtain ⟨ha, hn⟩ := List.mem_filter.1 hx
    rcases hterm x ha (by simpa using hn) with ⟨-, h0⟩ | ⟨hrv, -⟩
    · exact h0
    · rw [← rvB_iff, hb] at hrv; cases hrv
  refine ⟨(pars.keys.filter (· ∈ bn.dag.nodes)).filter bn.rvB, term sem bn pars, (hp.filter _).filter _, hmem,
    ?_, ?_, ?_⟩
  · intro x hx
    obtain ⟨hrv, hk⟩ := (hmem x).1 hx
    obtain ⟨l, hl, -⟩ := id hrv
    rcases hterm x hk ((hw.defined x).1 ⟨l, hl⟩) with ⟨hno, -⟩ | ⟨-, hd⟩
    · exact absurd hrv hno
    · exact hd
  · intro hn
    rw [hsum] at hn
    rw [h2, hn]
    rfl
  · intro hn
    rw [hsum] at hn ⊢
    rw [h2]
    cases hh : ((pars.keys.filter (· ∈ bn.dag.nodes)).map (term sem bn pars)).sum with
    | nan => exact absurd hh hn
    | _ => rfl

/-- **C26**: the result is never NaN. -/
theorem C26_never_nan (sem : Sem N V C O S (XR K)) (bn : BN N V C O) (pars : Dict N V) :
    evaluateNodes sem bn pars ≠ .ok .nan := by
  intro h
  have h2 := ((evaluateNodes_iff sem bn pars _).1 h).2
  unfold noNan at h2
  split at h2
  · cases h2
  · rename_i hn; rw [← h2] at hn; exact hn rfl

theorem sum_ninf : ∀ {ls : List (XR K)}, XR.ninf ∈ ls → ls.sum = .ninf ∨ ls.sum = .nan := by
  intro ls
  induction ls with
  | nil => intro h; cases h
  | cons l ls ih =>
    intro h
    rw [List.sum_cons]
    rcases List.mem_cons.1 h with h | h
    · subst h
      cases ls.sum <;> simp [XR.add_def, XR.add]
    · rcases ih h with h | h <;> rw [h] <;> cases l <;> simp [XR.add_def, XR.add]

/-- **C26**: as soon as one random variable has invalid parameters or an impossible value (log density `-inf`), a
returned value is `-inf`, whatever the other terms. -/
theorem C26_invalid (sem : Sem N V C O S (XR K)) {bn : BN N V C O} {pars : Dict N V} {lp : XR K}
    (h : evaluateNodes sem bn pars = .ok lp) {x : N} (hx : x ∈ pars.keys) {l : Loci N V C O}
    (hl : bn.loci.get? x = some l) (hr : Ready bn) (hi : l.evaluate sem pars.get? = .ok .ninf) : lp = .ninf := by
  obtain ⟨h1, h2⟩ := (evaluateNodes_iff sem bn pars lp).1 h
  have hn := (hr.facts.1.defined x).1 ⟨l, hl⟩
  have h3 : term sem bn pars x = .ninf := by
    rw [term, get_ok hl]
    show (match l.evaluate sem pars.get? with | .ok l => l | .error _ => 0) = _
    rw [hi]
  have : XR.ninf ∈ (pars.keys.filter (· ∈ bn.dag.nodes)).map (term sem bn pars) :=
    List.mem_map.2 ⟨x, List.mem_filter.2 ⟨hx, by simpa using hn⟩, h3⟩
  rw [h2]
  rcases sum_ninf this with h | h <;> rw [h] <;> rfl

theorem keys_perm {d e : Dict N V} (hd : d.WF) (he : e.WF) (h : ∀ x, d.get? x = e.get? x) :
    d.keys.Perm e.keys := by
  rw [List.perm_ext_iff_of_nodup hd he]
  intro x
  rw [← Dict.get?_isSome_iff, ← Dict.get?_isSome_iff, h]

/-- **C26**: the order of the parameters does not matter. -/
theorem C26_order (sem : Sem N V C O S (XR K)) (bn : BN N V C O) {pars pars' : Dict N V} (hp : pars.WF)
    (hp' : pars'.WF) (h : ∀ x, pars.get? x = pars'.get? x) (lp : XR K) :
    evaluateNodes sem bn pars = .ok lp ↔ evaluateNodes sem bn pars' = .ok lp := by
  have hget : pars.get? = pars'.get? := funext h
  have hterm : term sem bn pars = term sem bn pars' := by
    funext x; simp only [term, hget]
  have hperm := (keys_perm hp hp' h).filter (· ∈ bn.dag.nodes)
  rw [evaluateNodes_iff, evaluateNodes_iff, hterm, hget, (hperm.map _).sum_eq]
  refine and_congr_left (fun _ => ?_)
  constructor
  · intro hh x hx; exact hh x ((keys_perm hp hp' h).mem_iff.2 hx)
  · intro hh x hx; exact hh x ((keys_perm hp hp' h).mem_iff.1 hx)

/-- **C26**: names that are not nodes are ignored, as long as none of them is a name occurring in the definition of a
random variable.  (Without that proviso it is false: `C26_refuted`.) -/
theorem C26_ignores_partial (sem : Sem N V C O S (XR K)) (hcl : ∀ c, (sem.reparse c).names = [])
    {bn : BN N V C O} (hr : Ready bn) (pars extra : Dict N V)
    (hx : ∀ x ∈ extra.keys, x ∉ bn.dag.nodes)
    (hs : ∀ x n f ps, bn.loci.get? x = some (.dist n f ps) → ∀ y, Uses f y ∨ Calls f y → y ∉ extra.keys) :
    evaluateNodes sem bn (pars ++ extra) = evaluateNodes sem bn pars := by
  have hw := hr.facts.1
  have hev : ∀ x l, bn.loci.get? x = some l →
      l.evaluate sem (Dict.get? (pars ++ extra)) = l.evaluate sem (Dict.get? pars) := by
    intro x l hl
    cases l with
    | dist n f ps =>
      have hread : ∀ y, y ∉ extra.keys → Dict.get? (pars ++ extra) y = Dict.get? pars y := by
        intro y hy
        rw [Dict.get?_append, (Dict.get?_eq_none_iff extra y).2 hy]
        simp
      have h1 := Props.Expr.getDistribution_congr sem hcl (e := f) (pas := Dict.get? (pars ++ extra))
        (pas' := Dict.get? pars) (fun y hy => hread y (hs x n f ps hl y ((Expr.mem_names y f).1 hy)))
      have h2 : Dict.get? (pars ++ extra) n = Dict.get? pars n := by
        refine hread n (fun hn => hx n hn ?_)
        have : n = x := hw.named x _ hl
        rw [this]
        exact (hw.defined x).1 ⟨_, hl⟩
      simp only [Loci.evaluate, h1, h2]
    | _ => rfl
  unfold evaluateNodes
  have hk : (Dict.keys (pars ++ extra)).filter (· ∈ bn.dag.nodes) = pars.keys.filter (· ∈ bn.dag.nodes) := by
    have : Dict.keys (pars ++ extra) = pars.keys ++ extra.keys := List.map_append
    rw [this, List.filter_append]
    have : extra.keys.filter (· ∈ bn.dag.nodes) = [] := by
      rw [List.filter_eq_nil_iff]
      intro x h; simpa using hx x h
    rw [this, List.append_nil]
  rw [hk]
  have hm : (pars.keys.filter (· ∈ bn.dag.nodes)).mapM (fun k => do
      (← bn.get k).evaluate sem (Dict.get? (pars ++ extra)))
      = (pars.keys.filter (· ∈ bn.dag.nodes)).mapM (fun k => do (← bn.get k).evaluate sem (Dict.get? pars)) := by
    congr 1
    funext k
    cases hg : bn.get k with
    | error e => rfl
    | ok l => exact hev k l (get_eq_ok hg)
  rw [hm]

end Evaluate

/-- **C26 is false** as stated: an extra parameter that is not a node, but is called like the distribution, makes the
evaluation fail. -/
theorem C26_refuted : ∃ (bn : BN String Toy.TV Toy.TC Unit) (pars extra : Dict String Toy.TV), Ready bn ∧
    (∀ x ∈ extra.keys, x ∉ bn.dag.nodes) ∧ evaluateNodes Toy.sem bn pars = .ok (.fin (-4)) ∧
    evaluateNodes Toy.sem bn (pars ++ extra) = .error .TypeError := by
  refine ⟨exBN, [("m", .num 2), ("x", .num 4)], [("norm", .num 0)], ⟨_, _, exBuilt, Or.inl rfl⟩, by decide,
    by decide, by decide⟩

/-! ## C27 -/

/-- **C27**: a sampled chromosome carries the values of `sample` and their own log probability, so it is evaluated. -/
theorem C27_chromosome [AddCommMonoid K] (sem : Sem N V C O S (XR K)) (bn : BN N V C O) (cond : Dict N V) (s s' : S)
    (ch : Chromosome N V K) :
    sampleChromosome sem bn cond s = (.ok ch, s') ↔
      ∃ r, sample sem bn cond s = (.ok r, s') ∧ ch.locus = r ∧ evaluateNodes sem bn r = .ok ch.logProb := by
  unfold sampleChromosome
  rcases h : sample sem bn cond s with ⟨r0, s0⟩
  cases r0 with
  | error e => simp
  | ok r =>
    cases he : evaluateNodes sem bn r with
    | error e =>
      dsimp only
      rw [he]
      constructor
      · intro hh; cases hh
      · rintro ⟨r', hr, hl, hv⟩
        cases hr
        rw [he] at hv; cases hv
    | ok lp =>
      dsimp only
      rw [he]
      constructor
      · intro hh
        cases hh
        exact ⟨r, rfl, rfl, he⟩
      · rintro ⟨r', hr, hl, hv⟩
        cases hr
        rw [he] at hv
        cases hv
        cases ch
        cases hl
        rfl

/-- **C27**: hence `is_evaluated()`. -/
theorem C27_evaluated [AddCommMonoid K] (sem : Sem N V C O S (XR K)) (bn : BN N V C O) (cond : Dict N V) (s s' : S)
    (ch : Chromosome N V K) (h : sampleChromosome sem bn cond s = (.ok ch, s')) : ch.isEvaluated = true := by
  obtain ⟨r, -, -, hv⟩ := (C27_chromosome sem bn cond s s' ch).1 h
  unfold Chromosome.isEvaluated
  cases hl : ch.logProb with
  | nan => rw [hl] at hv; exact absurd hv (C26_never_nan sem bn r)
  | _ => rfl

example : (sampleChromosome Toy.sem exBN [("u", .num 10)] 5).1
    = .ok ⟨[("u", .num 10), ("m", .num 2), ("x", .num 7), ("y", .num 16), ("z", .num 26)], .fin (-25)⟩ := by decide

/-- **C26** (single definitions): a random variable has no log density when its own value is missing. -/
theorem C26_value_needed [AddCommMonoid K] (sem : Sem N V C O S (XR K)) {n : N} {f : Expr N C O} {ps : List N} {pas : N → Option V}
    (hn : pas n = none) {l : XR K} (h : (Loci.dist n f ps : Loci N V C O).evaluate sem pas = .ok l) :
    l = .ninf ∧ getDistribution sem f pas = .error .ValidationError := by
  simp only [Loci.evaluate] at h
  cases hg : getDistribution sem f pas with
  | error e =>
    rw [hg] at h
    simp only [bind, Except.bind] at h
    cases e <;> first | (cases h; done) | (cases h; exact ⟨rfl, rfl⟩)
  | ok d =>
    rw [hg] at h
    simp only [bind, Except.bind, hn] at h
    cases h

example : (Loci.dist "x" (Toy.app "norm" [] [("loc", Toy.int 2), ("scale", Toy.int 1)]) [] : Toy.TL).evaluate Toy.sem
    (fun _ => none) = .error .KeyError := by decide

/-! ## C81 -/

/-- The draws for a list of nodes use up the random stream one after the other: `draw x s m` is a draw for `x` that
takes the generator from `s` to `m`. -/
def Stream (draw : N → S → S → Prop) : List N → S → S → Prop
  | [], s, s' => s = s'
  | x :: xs, s, s' => ∃ m, draw x s m ∧ Stream draw xs m s'

theorem Stream.imp {d d' : N → S → S → Prop} : ∀ {xs : List N}, (∀ x ∈ xs, ∀ s m, d x s m → d' x s m) → ∀ {s s' : S},
    Stream d xs s s' → Stream d' xs s s' := by
  intro xs
  induction xs with
  | nil => intro _ s s' h; exact h
  | cons x xs ih =>
    rintro hi s s' ⟨m, h1, h2⟩
    exact ⟨m, hi x (by simp) _ _ h1, ih (fun y hy => hi y (by simp [hy])) h2⟩

theorem sampleLoop_stream (sem : Sem N V C O S L) (bn : BN N V C O) (sel : N → Bool) (given : List N) :
    ∀ (xs : List N) {pre : List N} {res r : Dict N V} {s s' : S}, sampleLoop sem bn sel xs res s = (.ok r, s') →
    (pre ++ xs).Nodup → (∀ k, k ∈ res.keys ↔ k ∈ given ∨ (k ∈ pre ∧ sel k = true)) →
    Stream (fun x s m => ∃ l v ρ pr suf, pre ++ xs = pr ++ x :: suf ∧ bn.loci.get? x = some l ∧
      r.get? x = some v ∧ l.render sem (Dict.get? ρ) s = (.ok v, m) ∧ (∀ y ∈ pr, sel y = true → y ∈ Dict.keys ρ) ∧
        ∀ y w, Dict.get? ρ y = some w → r.get? y = some w)
      (xs.filter (fun x => sel x && decide (x ∉ given))) s s' := by
  intro xs
  induction xs with
  | nil =>
    intro pre res r s s' h _ _
    simp only [sampleLoop, Prod.mk.injEq] at h
    exact h.2
  | cons x xs ih =>
    intro pre res r s s' h hnd hk
    have hok := sampleLoop_ok sem bn sel _ h
    have hxp : x ∉ pre := by
      rw [List.nodup_append] at hnd
      exact fun hh => hnd.2.2 x hh x (by simp) rfl
    have e1 : pre ++ x :: xs = (pre ++ [x]) ++ xs := by simp
    simp only [sampleLoop] at h
    by_cases hx : (sel x && decide (x ∉ res.keys)) = true
    · rw [if_pos hx] at h
      have hsel : sel x = true := by simp at hx; exact hx.1
      have hxr : x ∉ res.keys := by
        have := (Bool.and_eq_true _ _ ▸ hx).2
        exact of_decide_eq_true this
      have hxg : x ∉ given := fun hg => hxr ((hk x).2 (Or.inl hg))
      cases hg : bn.get x with
      | error e => rw [hg] at h; cases h
      | ok l =>
        rw [hg] at h
        simp only at h
        rcases hr : l.render sem res.get? s with ⟨r0, s0⟩
        rw [hr] at h
        cases r0 with
        | error e => cases h
        | ok v =>
          simp only at h
          have hrv := (sampleLoop_ok sem bn sel _ h).2.1
          have := ih (pre := pre ++ [x]) h (by rw [← e1]; exact hnd) (by
            intro k
            rw [Dict.mem_keys_set, hk]
            constructor
            · rintro (rfl | h | ⟨h, h'⟩)
              · exact Or.inr ⟨by simp, hsel⟩
              · exact Or.inl h
              · exact Or.inr ⟨by simp [h], h'⟩
            · rintro (h | ⟨h, h'⟩)
              · exact Or.inr (Or.inl h)
              · rcases List.mem_append.1 h with h | h
                · exact Or.inr (Or.inr ⟨h, h'⟩)
                · exact Or.inl (by simpa using h))
          rw [List.filter_cons_of_pos (by simp [hsel, hxg])]
          refine ⟨s0, ⟨l, v, res, pre, xs, rfl, get_eq_ok hg, hrv _ _ (Dict.get?_set_self _ _ _), hr, ?_, hok.2.1⟩, ?_⟩
          · intro y hy hys
            exact (hk y).2 (Or.inr ⟨hy, hys⟩)
          · rw [← e1] at this
            exact this
    · rw [if_neg hx] at h
      have := ih (pre := pre ++ [x]) h (by rw [← e1]; exact hnd) (by
        intro k
        rw [hk]
        constructor
        · rintro (h | ⟨h, h'⟩)
          · exact Or.inl h
          · exact Or.inr ⟨by simp [h], h'⟩
        · rintro (h | ⟨h, h'⟩)
          · exact Or.inl h
          · rcases List.mem_append.1 h with h | h
            · exact Or.inr ⟨h, h'⟩
            · have : k = x := by simpa using h
              subst this
              have hkr : k ∈ res.keys := by
                by_contra hc
                exact hx (by simp [h', decide_eq_true hc])
              exact (hk k).1 hkr)
      rw [List.filter_cons_of_neg]
      · rw [← e1] at this
        exact this
      · intro hc
        have h1 : sel x = true := (Bool.and_eq_true _ _ ▸ hc).1
        have h2 : x ∉ given := of_decide_eq_true (Bool.and_eq_true _ _ ▸ hc).2
        refine hx (Bool.and_eq_true_iff.2 ⟨h1, decide_eq_true ?_⟩)
        rw [hk]
        rintro (h | ⟨h, -⟩)
        · exact h2 h
        · exact hxp h

/-- **C81**: `sample` uses up the random stream by one draw after the other, one for each node that was not given, in
a topological order: each node is drawn on the returned dictionary with the generator as the previous draw left it. -/
theorem C81_stream (sem : Sem N V C O S L) (hcl : ∀ c, (sem.reparse c).names = []) {bn : BN N V C O}
    (hr : Ready bn) {cond r : Dict N V} (hns : NoShadow bn cond.keys) {s s' : S}
    (h : sample sem bn cond s = (.ok r, s')) :
    ∃ od, TopologicalOrder (· ∈ bn.dag.nodes) bn.dag.E od ∧
      Stream (fun x s m => ∃ l v, bn.loci.get? x = some l ∧ r.get? x = some v ∧ l.render sem r.get? s = (.ok v, m))
        (od.filter (fun x => decide (x ∉ cond.keys))) s s' := by
  have hs := supplied_of_ok sem hr h
  obtain ⟨od, ht, he⟩ := sample_supplied sem hr hs
  have hk := (C23_keys sem hr h).1
  rw [he] at h
  refine ⟨od, ht, ?_⟩
  have hst := sampleLoop_stream sem bn _ cond.keys od (pre := []) h ht.nodup (by simp)
  simp only [Bool.true_and, List.nil_append] at hst
  refine hst.imp ?_
  rintro x hx s m ⟨l, v, ρ, pr, suf, e, hl, hv, hre, hp, hle⟩
  refine ⟨l, v, hl, hv, ?_⟩
  have hxc : x ∉ cond.keys := of_decide_eq_true (List.mem_filter.1 hx).2
  rw [← render_final sem hcl hns hl (fun hh => hxc (hs x hh)) hle ?_ (fun k hk' => (hk k).1 hk') s]
  · exact hre
  · intro p hp'
    exact hp p (ht.parentsFirst pr x suf e p ((hr.facts.1.edges p x).2 ⟨l, hl, hp'⟩)) trivial

example : ∃ r, sample Toy.sem exBN [("u", .num 1)] 5 = (.ok r, 6) := ⟨_, rfl⟩

end Props.Sampling
