import Verif.Props.SimShared

/-!
# What a bred core computes its values from: C88
-/

namespace Props.SimCore

set_option linter.unusedSectionVars false

open Py Spec Relation Model Model.CoreTree Props.Sampling

variable {N V C O S K : Type} [DecidableEq N] [AddCommMonoid K]

/-- Reading the exogenous variables of a group, when all can be read. -/
theorem readExo_readable (sem : Sem N V C O S (XR K)) (noneV : V) (bn : BN N V C O) (up : List (Dict N V)) : ∀ (ds : List N)
    (vs : Dict N V) (s : S), (∀ d ∈ ds, d ∈ vs.keys ∨ ∃ v, chainGet up d = .ok v) →
    ∃ r, Core.readExo sem noneV bn up ds vs s = (.ok r, s) ∧
      ∀ k, r.get? k = (vs.get? k).or (if k ∈ ds then chainMap up k else none) := by
  intro ds
  induction ds with
  | nil => intro vs s _; exact ⟨vs, rfl, by simp⟩
  | cons d ds ih =>
    intro vs s h
    simp only [Core.readExo]
    by_cases hd : d ∈ vs.keys
    · rw [if_pos hd]
      obtain ⟨r, h1, h2⟩ := ih vs s (fun x hx => h x (.tail _ hx))
      refine ⟨r, h1, fun k => ?_⟩
      rw [h2]
      by_cases e : k = d
      · subst e
        obtain ⟨v, hv⟩ := (Dict.mem_keys_iff_exists _ _).1 hd
        rw [hv]; rfl
      · simp [e]
    · rw [if_neg hd]
      obtain ⟨v, hv⟩ := (h d (by simp)).resolve_left hd
      simp only [hv]
      obtain ⟨r, h1, h2⟩ := ih (vs.set d v) s (fun x hx => by
        rcases h x (.tail _ hx) with h | h
        · exact .inl ((Dict.mem_keys_set _ _ _ _).2 (.inr h))
        · exact .inr h)
      refine ⟨r, h1, fun k => ?_⟩
      rw [h2, Dict.get?_set]
      by_cases e : d = k
      · subst e
        rw [if_pos rfl, (Dict.get?_eq_none_iff _ _).2 hd]
        simp [chainMap, hv, Except.toOption]
      · rw [if_neg e]
        have : k ≠ d := fun h => e h.symm
        simp [this]

/-- What the loop over `Fixed` draws a value from. -/
theorem fillFixed_drawn (sem : Sem N V C O S (XR K)) (bn : BN N V C O) : ∀ (ds : List N) (vs : Dict N V) (p : XR K) (s : S)
    {r : Dict N V} {q : XR K} {s' : S}, ds.Nodup → Core.fillFixed sem bn ds vs p s = (.ok (r, q), s') →
    ∀ pre d suf, ds = pre ++ d :: suf → d ∉ vs.keys → d ∈ r.keys →
      ∃ (l : Loci N V C O) (v : V) (ρ : Dict N V) (s1 s2 : S), bn.loci.get? d = some l ∧ r.get? d = some v ∧
        l.render sem ρ.get? s1 = (.ok v, s2) ∧ (∀ k w, ρ.get? k = some w → r.get? k = some w) ∧ (∀ k ∈ vs.keys, k ∈ ρ.keys) ∧
        ∀ k ∈ r.keys, k ∉ d :: suf → k ∈ ρ.keys := by
  intro ds
  induction ds with
  | nil => intro vs p s r q s' _ _ pre d suf e; simp at e
  | cons x ds ih =>
    intro vs p s r q s' hnd h pre d suf e hd hr
    obtain ⟨hx, hnd⟩ := List.nodup_cons.1 hnd
    simp only [Core.fillFixed] at h
    cases hg : bn.get x with
    | error e => rw [hg] at h; simp at h
    | ok l =>
      rw [hg] at h
      simp only at h
      -- the node is further on
      have later : ∀ (vs' : Dict N V) (p' : XR K) (s1 : S), Core.fillFixed sem bn ds vs' p' s1 = (.ok (r, q), s') →
          (∀ k ∈ vs.keys, k ∈ vs'.keys) → ∀ pre', ds = pre' ++ d :: suf → d ∉ vs'.keys →
          ∃ (l : Loci N V C O) (v : V) (ρ : Dict N V) (s1 s2 : S), bn.loci.get? d = some l ∧ r.get? d = some v ∧
            l.render sem ρ.get? s1 = (.ok v, s2) ∧ (∀ k w, ρ.get? k = some w → r.get? k = some w) ∧ (∀ k ∈ vs.keys, k ∈ ρ.keys) ∧
            ∀ k ∈ r.keys, k ∉ d :: suf → k ∈ ρ.keys := by
        intro vs' p' s1 h' hsub pre' e' hd'
        obtain ⟨l, v, ρ, s1, s2, h1, h2, h3, h4, h5, h6⟩ := ih vs' p' s1 hnd h' pre' d suf e' hd' hr
        exact ⟨l, v, ρ, s1, s2, h1, h2, h3, h4, fun k hk => h5 k (hsub k hk), h6⟩
      rcases pre with _ | ⟨y, pre⟩
      · -- the node is drawn now
        simp only [List.nil_append, List.cons.injEq] at e
        obtain ⟨rfl, rfl⟩ := e
        rw [if_neg hd] at h
        rcases hre : l.render sem vs.get? s with ⟨e | v, s1⟩
        · rw [hre] at h
          by_cases hK : e = .KeyError
          · subst hK
            simp only at h
            rcases (fillFixed_frame sem bn _ _ _ _ h).2 x hr with h | h
            · exact absurd h hd
            · exact absurd h hx
          · cases e <;> simp at h hK
        · rw [hre] at h
          simp only at h
          cases ha : Core.addPrior sem l x (vs.set x v) p with
          | error e => rw [ha] at h; simp at h
          | ok p' =>
            rw [ha] at h
            obtain ⟨h1, h2⟩ := fillFixed_frame sem bn _ _ _ _ h
            refine ⟨l, v, vs, s, s1, get_eq_ok hg, h1 x v (Dict.get?_set_self _ _ _), hre, fun k w hk => h1 k w ?_, fun _ h => h, fun k hk hn => ?_⟩
            · rw [Dict.get?_set_ne _ _ (fun hh : x = k => hd ((Dict.mem_keys_iff_exists _ _).2 ⟨w, hh ▸ hk⟩))]
              exact hk
            · simp only [List.mem_cons, not_or] at hn
              rcases h2 k hk with h3 | h3
              · rcases (Dict.mem_keys_set _ _ _ _).1 h3 with h4 | h4
                · exact absurd h4 hn.1
                · exact h4
              · exact absurd h3 hn.2
      · simp only [List.cons_append, List.cons.injEq] at e
        obtain ⟨rfl, e⟩ := e
        have hdx : d ≠ x := by
          rintro rfl
          exact hx (by simp [e])
        by_cases hxv : x ∈ vs.keys
        · rw [if_pos hxv] at h
          cases ha : Core.addPrior sem l x vs p with
          | error e => rw [ha] at h; simp at h
          | ok p' => rw [ha] at h; exact later vs p' s h (fun _ h => h) pre e hd
        · rw [if_neg hxv] at h
          rcases hre : l.render sem vs.get? s with ⟨e1 | v, s1⟩
          · rw [hre] at h
            by_cases hK : e1 = .KeyError
            · subst hK
              simp only at h
              exact later vs p s1 h (fun _ h => h) pre e hd
            · cases e1 <;> simp at h hK
          · rw [hre] at h
            simp only at h
            cases ha : Core.addPrior sem l x (vs.set x v) p with
            | error e => rw [ha] at h; simp at h
            | ok p' =>
              rw [ha] at h
              refine later _ p' s1 h (fun k hk => (Dict.mem_keys_set _ _ _ _).2 (.inr hk)) pre e (fun hh => ?_)
              rcases (Dict.mem_keys_set _ _ _ _).1 hh with h | h
              · exact hdx h
              · exact hd h

/-- **C88, partial**: when every variable that a group takes from outside is given or held above, every value of a bred core that
was not given was drawn from its definition, on values `ρ` that are all as the core reads them; and every parent that is
given, held by the core or taken from outside was among them.  (Missing: variables that nobody above holds, for which it is
false, see `C88_refuted`.) -/
theorem C88_partial (sem : Sem N V C O S (XR K)) {noneV : V} {bn : BN N V C O} (hr : Ready bn) {ns : Tree (NSet N)}
    {sc : SimCore N V C O} (hsc : asSimCore bn ns = .ok sc) {gn : N} {g : Model.Group N} (hg : sc.groups.get? gn = some g) {nick : N}
    {up : List (Dict N V)} {exo : Dict N V} (he : exo.WF)
    (hup : ∀ x ∈ g.exogenous, x ∈ exo.keys ∨ ∃ v, chainGet up x = .ok v) {s s' : S} {c : Core N V C O S K}
    (h : Core.generate sem noneV bn g nick up exo s = (.ok c, s')) :
    ∀ x ∈ c.locus.keys, x ∉ exo.keys → x ∉ g.exogenous →
      ∃ (l : Loci N V C O) (v : V) (ρ : Dict N V) (s1 s2 : S), bn.loci.get? x = some l ∧ c.locus.get? x = some v ∧
        l.render sem ρ.get? s1 = (.ok v, s2) ∧ (∀ k w, ρ.get? k = some w → chainMap (c.locus :: up) k = some w) ∧
        ∀ p ∈ l.parents, p ∈ exo.keys ∨ p ∈ g.exogenous ∨ p ∈ c.locus.keys → p ∈ ρ.keys := by
  obtain ⟨hw, -, -⟩ := hr.facts
  obtain ⟨-, hgs⟩ := groups_ok hr hsc
  have hok := (hgs gn g hg).2
  obtain ⟨-, -, -, -, -, ⟨vs, vs2⟩, p, s1, hread, hf, hloc, -⟩ := generate_frame sem h
  obtain ⟨r, hr1, hr2⟩ := readExo_readable sem noneV bn up g.exogenous exo s hup
  rw [hr1] at hread
  simp only [Prod.mk.injEq, Except.ok.injEq] at hread
  obtain ⟨rfl, rfl⟩ := hread
  simp only at hf hloc
  obtain ⟨f1, f2⟩ := fillFixed_frame sem bn _ _ _ _ hf
  have hrk : ∀ k, k ∈ r.keys ↔ k ∈ exo.keys ∨ (k ∈ g.exogenous ∧ (chainMap up k).isSome) := by
    intro k
    rw [← Dict.get?_isSome_iff, hr2, ← Dict.get?_isSome_iff]
    by_cases hk : k ∈ g.exogenous <;> cases exo.get? k <;> simp [hk]
  have hlocx : ∀ k, c.locus.get? k = (exo.get? k).or (if k ∈ g.fixed then vs2.get? k else none) := by
    intro k
    rw [hloc, Dict.get?_update _ _ he, Dict.get?_filterItems_key]
    cases exo.get? k <;> simp
  -- what the loop ended with is what the core reads
  have hreads : ∀ k w, vs2.get? k = some w → chainMap (c.locus :: up) k = some w := by
    intro k w hk
    have hcons : chainMap (c.locus :: up) k = (c.locus.get? k).or (chainMap up k) := chainMap_cons _ _ _
    rw [hcons, hlocx]
    cases hek : exo.get? k with
    | some z =>
      have : r.get? k = some z := by rw [hr2, hek]; rfl
      rw [f1 k z this] at hk
      simpa using hk
    | none =>
      by_cases hkf : k ∈ g.fixed
      · simp [hkf, hk]
      · rcases f2 k ((Dict.mem_keys_iff_exists _ _).2 ⟨w, hk⟩) with h' | h'
        · obtain ⟨z, hz⟩ := (Dict.mem_keys_iff_exists _ _).1 h'
          have hz2 := f1 k z hz
          rw [hk] at hz2
          cases hz2
          rw [hr2, hek] at hz
          by_cases hke : k ∈ g.exogenous
          · simp [hke] at hz; simp [hkf, hz]
          · simp [hke] at hz
        · exact absurd h' hkf
  intro x hx hxe hxg
  have hx2 := (Dict.get?_isSome_iff _ _).2 hx
  rw [hlocx, (Dict.get?_eq_none_iff _ _).2 hxe] at hx2
  have hxf : x ∈ g.fixed := by
    by_contra hn; simp [hn] at hx2
  have hxv : x ∈ vs2.keys := by
    rw [← Dict.get?_isSome_iff]; simpa [hxf] using hx2
  have hxr : x ∉ r.keys := by
    rw [hrk]; rintro (h | h)
    · exact hxe h
    · exact hxg h.1
  obtain ⟨pre, suf, e⟩ := List.append_of_mem hxf
  obtain ⟨l, v, ρ, s1, s2, h1, h2, h3, h4, h5, h6⟩ := fillFixed_drawn sem bn _ _ _ _ hok.nodup hf pre x suf e hxr hxv
  refine ⟨l, v, ρ, s1, s2, h1, ?_, h3, fun k w hk => hreads k w (h4 k w hk), fun p hp hh => ?_⟩
  · rw [hlocx, (Dict.get?_eq_none_iff _ _).2 hxe]; simp [hxf, h2]
  · have hin : p ∈ r.keys ∨ p ∈ vs2.keys := by
      rcases hh with hh | hh | hh
      · exact .inl ((hrk p).2 (.inl hh))
      · rcases hup p hh with h | ⟨v, hv⟩
        · exact .inl ((hrk p).2 (.inl h))
        · exact .inl ((hrk p).2 (.inr ⟨hh, by simp [chainMap, hv, Except.toOption]⟩))
      · have := (Dict.get?_isSome_iff _ _).2 hh
        rw [hlocx] at this
        by_cases hpe : p ∈ exo.keys
        · exact .inl ((hrk p).2 (.inl hpe))
        · rw [(Dict.get?_eq_none_iff _ _).2 hpe] at this
          by_cases hpf : p ∈ g.fixed
          · exact .inr ((Dict.get?_isSome_iff _ _).1 (by simpa [hpf] using this))
          · simp [hpf] at this
    rcases hin with hin | hin
    · exact h5 p hin
    · refine h6 p hin ?_
      have hE : bn.dag.E p x := (hw.edges p x).2 ⟨l, h1, hp⟩
      intro hmem
      rcases List.mem_cons.1 hmem with rfl | hmem
      · exact hw.acyclic p (.single hE)
      · exact hok.paths pre x suf e p hmem (.single hE)

/-- In `pc49` both agents have drawn `x` on the value of `b` of the root; the hypotheses are met. -/
example : (sc49.groups.get? "agent").map (fun g => (g.fixed, g.exogenous)) = some (["x"], ["k", "a", "b"]) ∧
    (∀ x ∈ ["k", "a", "b"], (chainGet [pc49.label.locus] x).toOption.isSome) ∧
    (match sc49.groups.get? "agent" with
      | some g => (match Core.generate (K := Int) Toy.lit (.str "None") n49 g "E" [pc49.label.locus] [("k", .num 7)] 11 with
        | (.ok c, _) => c.locus | (.error _, _) => [])
      | none => []) = [("x", .num 23), ("k", .num 7)] := by
  decide +kernel

open Props.NodeSet in
/-- `u` from outside, `y = u + u`, `z = y`. -/
def n88 := net [.exo "u", .func "y" (Toy.plus (Toy.var "u") (Toy.var "u")) ["u"], .func "z" (Toy.var "y") ["y"]]

theorem n88_ready : Ready n88 :=
  ⟨_, _, (((BN.Built.empty "m").step _ (by decide)).step _ (by decide)).step _ (by decide), .inl rfl⟩

/-- `y` for all, `z` for each agent. -/
def ns88 : Tree (NSet String) := .node (NSet.new "root" ["y"] []) [.node (NSet.new "agent" ["z"] []) []]

/-- Its simulation core. -/
def sc88 : SimCore String Toy.TV Toy.TC Unit := take ⟨n88, "", []⟩ (asSimCore n88 ns88)

theorem sc88_ok : asSimCore n88 ns88 = .ok sc88 := take_ok (by decide +kernel)

attribute [irreducible] sc88

/-- An empty core, for results read off. -/
def noCore : Core String Toy.TV Toy.TC Unit Int Int := ⟨"", ⟨"", [], [], [], [], [], [], []⟩, [], .nan, none, none, none, none⟩

/-- The group of the agents. -/
def g88 : Model.Group String := (sc88.groups.get? "agent").getD ⟨"", [], [], [], [], [], [], []⟩

/-- The root, generated without `u`. -/
def r88 : Result (Core String Toy.TV Toy.TC Unit Int Int) × Int := Core.generateRoot Toy.lit (.str "None") sc88 "R" [] 10

/-- An agent, bred with `u = 10`. -/
def c88 : Result (Core String Toy.TV Toy.TC Unit Int Int) × Int :=
  Core.generate Toy.lit (.str "None") n88 g88 "A" [(take noCore r88.1).locus] [("u", .num 10)] r88.2

theorem pair_ok {α β : Type} {d : α} {r : Result α × β} (h : (match r.1 with | .ok _ => true | .error _ => false) = true) :
    r = (.ok (take d r.1), r.2) := by
  rw [← take_ok h]

theorem g88_ok : sc88.groups.get? "agent" = some g88 := by
  have : (sc88.groups.get? "agent").isSome = true := by decide +kernel
  unfold g88
  cases h : sc88.groups.get? "agent" with
  | none => rw [h] at this; cases this
  | some g => rfl

/-- **C88 is false of the code**: the root was generated without `u` and so without `y`; an agent bred with `u = 10` computes
`y = 20`, replaces it by None, and has `z = None`, while `y` cannot be read at all. -/
theorem C88_refuted : ∃ (g : Model.Group String) (r c : Core String Toy.TV Toy.TC Unit Int Int) (s1 s2 : Int), Ready n88 ∧
    asSimCore n88 ns88 = .ok sc88 ∧ sc88.groups.get? "agent" = some g ∧
    Core.generateRoot Toy.lit (.str "None") sc88 "R" [] 10 = (.ok r, s1) ∧
    Core.generate Toy.lit (.str "None") n88 g "A" [r.locus] [("u", .num 10)] s1 = (.ok c, s2) ∧
    c.locus.get? "z" = some (.str "None") ∧
    ∀ s l, n88.loci.get? "z" = some l → (l.render Toy.lit (chainMap [c.locus, r.locus]) s).1 = .error .KeyError := by
  refine ⟨g88, take noCore r88.1, take noCore c88.1, r88.2, c88.2, n88_ready, sc88_ok, g88_ok, pair_ok (by decide +kernel),
    pair_ok (by decide +kernel), by decide +kernel, ?_⟩
  intro s l hl
  have h1 : n88.loci.get? "z" = some (.func "z" (Toy.var "y") ["y"]) := by decide
  rw [h1] at hl
  cases hl
  have h2 : chainMap [(take noCore c88.1).locus, (take noCore r88.1).locus] "y" = none := by decide +kernel
  simp [Loci.render, renderFunc, h2]

/-! ## C48, what breeding adds -/

/-- **C48**, breeding: a successful `breed` adds exactly one child, last, with that nickname, of that group, without children. -/
theorem C48_breed (sem : Sem N V C O S (XR K)) (noneV : V) (sc : SimCore N V C O) {up : List (Dict N V)} {t t' : CoreTree N V C O S K}
    {nick group : N} {exo : Dict N V} {s s' : S} (h : breed sem noneV sc up t nick group exo s = (t', s', .ok ())) :
    group ∈ t.label.group.children ∧ (∀ u ∈ t.kids, u.label.nick ≠ nick) ∧
    ∃ c : Core N V C O S K, t' = .node t.label (t.kids ++ [.node c []]) ∧ c.nick = nick ∧ sc.groups.get? group = some c.group ∧
      ∀ k v, exo.WF → exo.get? k = some v → c.locus.get? k = some v := by
  obtain ⟨c0, ts⟩ := t
  simp only [breed] at h
  by_cases h1 : nick ∈ ts.map (fun t => t.label.nick)
  · rw [if_pos h1] at h; simp at h
  rw [if_neg h1] at h
  by_cases h2 : group ∉ c0.group.children
  · rw [if_pos h2] at h; simp at h
  rw [if_neg h2] at h
  cases hg : sc.groups.get? group with
  | none => rw [hg] at h; simp at h
  | some g =>
    rw [hg] at h
    simp only at h
    rcases hc : Core.generate (K := K) sem noneV sc.bn g nick (c0.locus :: up) exo s with ⟨_ | c, s1⟩
    · rw [hc] at h; simp at h
    · rw [hc] at h
      simp only [Prod.mk.injEq, and_true] at h
      obtain ⟨rfl, -⟩ := h
      obtain ⟨e1, e2, -⟩ := generate_frame sem hc
      refine ⟨not_not.1 h2, fun u hu e => h1 (List.mem_map.2 ⟨u, hu, e⟩), c, rfl, e1, by rw [e2], fun k v hw hk => ?_⟩
      exact (C85_partial sem hw hc).2.2.1 k v hk

example : (match breed Toy.lit (.str "None") sc49 [] pc49 "E" "agent" [("k", .num 4)] 30 with
    | (t, _, .ok ()) => t.kids.map (fun u => (u.label.nick, u.label.group.name, u.label.locus)) | _ => []) =
    [("A", "agent", [("x", .num 23)]), ("B", "agent", [("x", .num 24), ("k", .num 7)]), ("E", "agent", [("x", .num 42), ("k", .num 4)])] := by
  decide +kernel

end Props.SimCore
