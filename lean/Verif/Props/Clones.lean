import Verif.Props.Relatives

/-!
# Clones of hierarchies whose log-likelihoods were set from outside (C194, C195)
-/

namespace Props.SimCore

set_option linter.unusedSectionVars false

open Py Spec Relation Model Model.CoreTree Props.Sampling

variable {N V C O S K : Type} [DecidableEq N] [AddCommMonoid K]

/-! ## C194 -/

/-- What a copy `c'` of the core `c` is: the name, the name of the group and the two attributes are the same, every value
is kept, values may have been added for nodes that the group fixes and `c` did not hold, and there are no actors. -/
structure Copied (_ _ : List (Dict N V)) (c c' : Core N V C O S K) : Prop where
  nick : c'.nick = c.nick
  group : c'.group.name = c.group.name
  kept : ∀ x v, c.locus.get? x = some v → c'.locus.get? x = some v
  added : ∀ x v, c'.locus.get? x = some v → c.locus.get? x = some v ∨ x ∈ c'.group.fixed
  prior : c'.logPrior = c.logPrior ∧ ∃ p, c.logPrior = some p
  like : c'.logLike = c.logLike ∧ ∃ l, c.logLike = some l
  bare : c'.actors = none ∧ c'.childActors = none

theorem copied_generate (sem : Sem N V C O S (XR K)) {noneV : V} {bn : BN N V C O} {h : Model.Group N} {c d : Core N V C O S K}
    {up up0 up1 : List (Dict N V)} {s s' : S} (hw : c.locus.WF) (hn : h.name = c.group.name) {p l : XR K} (hp : c.logPrior = some p)
    (hl : c.logLike = some l) (hg : Core.generate sem noneV bn h c.nick up c.locus s = (.ok d, s')) :
    Copied up0 up1 c { d with logPrior := some p, logLike := some l } := by
  obtain ⟨e1, e2, e3, e4, -, ⟨vs, vs2⟩, q, s1, -, -, hloc, -⟩ := generate_frame sem hg
  have hx : ∀ x, d.locus.get? x = (c.locus.get? x).or (if x ∈ h.fixed then vs2.get? x else none) := by
    intro x
    rw [hloc, Dict.get?_update _ _ hw, Dict.get?_filterItems_key]
    cases c.locus.get? x <;> simp
  refine ⟨e1, by simp only [e2, hn], ?_, ?_, ⟨hp.symm, p, hp⟩, ⟨hl.symm, l, hl⟩, e3, e4⟩
  · intro x v hv
    simp only [hx, hv, Option.some_or]
  · intro x v hv
    simp only [hx] at hv
    cases hc : c.locus.get? x with
    | some w => rw [hc] at hv; exact .inl hv
    | none =>
      right
      rw [hc] at hv
      simp only [e2]
      by_contra hn
      simp [hn] at hv

/-- The dictionaries of the cores have each key once. -/
def Once (_ : List (Dict N V)) (c : Core N V C O S K) (_ : List (CoreTree N V C O S K)) : Prop := c.locus.WF

theorem copied_children (sem : Sem N V C O S (XR K)) {noneV : V} {sc : SimCore N V C O}
    (hg : ∀ k g, sc.groups.get? k = some g → g.name = k) : ∀ (t : CoreTree N V C O S K) (g : Model.Group N) (up up0 up1 up2 : List (Dict N V)) (s s' : S)
      (t' : CoreTree N V C O S K), All Once up2 t → childCopy sem noneV sc g up t s = (.ok t', s') → Along Copied up0 up1 t t' := by
  intro t
  refine Tree.ind
    (P := fun t => ∀ (g : Model.Group N) (up up0 up1 up2 : List (Dict N V)) (s s' : S) (t' : CoreTree N V C O S K), All Once up2 t →
      childCopy sem noneV sc g up t s = (.ok t', s') → Along Copied up0 up1 t t')
    (Q := fun ts => ∀ (g : Model.Group N) (up up0 up1 up2 : List (Dict N V)) (s s' : S) (ts' : List (CoreTree N V C O S K)), AllL Once up2 ts →
      childrenCopy sem noneV sc g up ts s = (.ok ts', s') → AlongL Copied up0 up1 ts ts') ?_ ?_ ?_ t
  · intro c ts ih g up up0 up1 up2 s s' t' hw h
    simp only [childCopy] at h
    split at h
    · cases h
    · cases hk : sc.groups.get? c.group.name with
      | none => rw [hk] at h; cases h
      | some k =>
        rw [hk] at h
        simp only at h
        rcases hd : Core.generate (K := K) sem noneV sc.bn k c.nick up c.locus s with ⟨_ | d, s1⟩
        · rw [hd] at h; cases h
        · rw [hd] at h
          simp only at h
          cases hp : c.logPrior with
          | none => rw [hp] at h; cases h
          | some p =>
            cases hl : c.logLike with
            | none => rw [hp, hl] at h; cases h
            | some l =>
              rw [hp, hl] at h
              simp only at h
              rcases hc : childrenCopy sem noneV sc k (d.locus :: up) ts s1 with ⟨_ | us, s2⟩
              · rw [hc] at h; cases h
              · rw [hc] at h
                cases h
                exact ⟨copied_generate sem hw.1 (hg _ _ hk) hp hl hd, ih _ _ _ _ _ _ _ _ hw.2 hc⟩
  · intro g up up0 up1 up2 s s' ts' _ h
    simp only [childrenCopy] at h
    cases h
    trivial
  · intro t ts ih1 ih2 g up up0 up1 up2 s s' ts' hw h
    simp only [childrenCopy] at h
    rcases h1 : childCopy sem noneV sc g up t s with ⟨_ | u, s1⟩
    · rw [h1] at h; cases h
    · rw [h1] at h
      simp only at h
      rcases h2 : childrenCopy sem noneV sc g up ts s1 with ⟨_ | us, s2⟩
      · rw [h2] at h; cases h
      · rw [h2] at h
        cases h
        exact ⟨ih1 _ _ _ _ _ _ _ _ hw.1 h1, ih2 _ _ _ _ _ _ _ _ hw.2 h2⟩

/-- **C194**: a clone made with its children is a copy, core by core; one made without is a copy of the root only.  So a
clone with its children can only succeed if every core has both attributes. -/
theorem C194 (sem : Sem N V C O S (XR K)) (noneV : V) {bn : BN N V C O} (hr : Ready bn) {ns : Tree (NSet N)} {sc : SimCore N V C O}
    (hsc : asSimCore bn ns = .ok sc) {t : CoreTree N V C O S K} (hw : All Once [] t) {copySc withChildren hasParent : Bool} {s s' : S}
    {t' : CoreTree N V C O S K} (h : clone sem noneV sc copySc withChildren hasParent t s = (.ok t', s')) :
    hasParent = false ∧ (withChildren = true → Along Copied [] [] t t') ∧
    (withChildren = false → Copied [] [] t.label t'.label ∧ t'.kids = []) := by
  obtain ⟨-, hgs⟩ := groups_ok hr hsc
  have hname : ∀ k g, sc.groups.get? k = some g → g.name = k := fun k g h => (hgs k g h).1
  obtain ⟨c, ts⟩ := t
  unfold clone at h
  cases hasParent with
  | true => cases h
  | false =>
    refine ⟨rfl, ?_⟩
    simp only [Bool.false_eq_true, if_false, label_node, kids_node] at h
    cases hb : (if copySc then sc.groups.get? c.group.name else some c.group) with
    | none => rw [hb] at h; cases h
    | some g =>
      rw [hb] at h
      have hgn : g.name = c.group.name := by
        cases copySc with
        | true => exact hname _ _ hb
        | false => cases hb; rfl
      simp only at h
      rcases hd : Core.generate (K := K) sem noneV sc.bn g c.nick [] c.locus s with ⟨_ | d, s1⟩
      · rw [hd] at h; cases h
      · rw [hd] at h
        simp only at h
        cases hl : c.logLike with
        | none => rw [hl] at h; cases h
        | some l =>
          cases hp : c.logPrior with
          | none => rw [hp, hl] at h; cases h
          | some p =>
            rw [hp, hl] at h
            simp only at h
            have hcp := fun up0 up1 => copied_generate (up0 := up0) (up1 := up1) sem hw.1 hgn hp hl hd
            cases withChildren with
            | false =>
              simp only [Bool.false_eq_true, if_false] at h
              cases h
              exact ⟨by simp, fun _ => ⟨hcp _ _, rfl⟩⟩
            | true =>
              simp only [if_true] at h
              rcases hc : childrenCopy sem noneV sc g [d.locus] ts s1 with ⟨_ | us, s2⟩
              · rw [hc] at h; cases h
              · rw [hc] at h
                cases h
                refine ⟨fun _ => ⟨hcp _ _, ?_⟩, by simp⟩
                have key : ∀ (ts us : List (CoreTree N V C O S K)) (s1 s2 : S) (up0 up1 up2 : List (Dict N V)), AllL Once up2 ts →
                    childrenCopy sem noneV sc g [d.locus] ts s1 = (.ok us, s2) → AlongL Copied up0 up1 ts us := by
                  intro ts
                  induction ts with
                  | nil => intro us s1 s2 up0 up1 up2 _ h; simp only [childrenCopy] at h; cases h; trivial
                  | cons t ts ih =>
                    intro us s1 s2 up0 up1 up2 hw h
                    simp only [childrenCopy] at h
                    rcases h1 : childCopy sem noneV sc g [d.locus] t s1 with ⟨_ | u, s3⟩
                    · rw [h1] at h; cases h
                    · rw [h1] at h
                      simp only at h
                      rcases h2 : childrenCopy sem noneV sc g [d.locus] ts s3 with ⟨_ | us', s4⟩
                      · rw [h2] at h; cases h
                      · rw [h2] at h
                        cases h
                        exact ⟨copied_children sem hname _ _ _ _ _ _ _ _ _ hw.1 h1, ih _ _ _ _ _ _ hw.2 h2⟩
                exact key _ _ _ _ _ _ _ hw.2 hc

/-! ## C195 -/

/-- What a core holds, or its group takes from above. -/
def seen (up : List (Dict N V)) (c : Core N V C O S K) (x : N) : Option V :=
  (c.locus.get? x).or (if x ∈ c.group.exogenous then chainMap up x else none)

/-- A core that needs nothing to be drawn: both attributes are there, every fixed node has a value and a log density, and
every exogenous variable is held by it or above. -/
structure Complete (sem : Sem N V C O S (XR K)) (sc : SimCore N V C O) (up : List (Dict N V)) (c : Core N V C O S K)
    (_ : List (CoreTree N V C O S K)) : Prop where
  once : c.locus.WF
  prior : ∃ p, c.logPrior = some p
  like : ∃ l, c.logLike = some l
  fixed : ∀ x ∈ c.group.fixed, x ∈ c.locus.keys
  exogenous : ∀ x ∈ c.group.exogenous, x ∈ c.locus.keys ∨ ∃ v, chainGet up x = .ok v
  dense : ∀ x ∈ c.group.fixed, ∃ l q, sc.bn.get x = .ok l ∧ l.evaluate sem (seen up c) = .ok q

/-- What the clone of a complete core is. -/
structure Same (sem : Sem N V C O S (XR K)) (sc : SimCore N V C O) (up up' : List (Dict N V)) (c c' : Core N V C O S K) : Prop where
  nick : c'.nick = c.nick
  group : c'.group = c.group
  values : ∀ x, c'.locus.get? x = c.locus.get? x
  above : ∀ x, chainMap up' x = chainMap up x
  attributes : c'.logPrior = c.logPrior ∧ c'.logLike = c.logLike
  prob : ∃ q : N → XR K, (∀ x ∈ c.group.fixed, ∃ l, sc.bn.get x = .ok l ∧ l.evaluate sem (seen up c) = .ok (q x)) ∧
    c'.logProb = (c.group.fixed.map q).sum

theorem fillFixed_full (sem : Sem N V C O S (XR K)) (bn : BN N V C O) (q : N → XR K) : ∀ (ds : List N) (vs : Dict N V) (p : XR K) (s : S),
    (∀ x ∈ ds, x ∈ vs.keys ∧ ∃ l, bn.get x = .ok l ∧ l.evaluate sem vs.get? = .ok (q x)) →
    Core.fillFixed sem bn ds vs p s = (.ok (vs, p + (ds.map q).sum), s) := by
  intro ds
  induction ds with
  | nil => intro vs p s _; simp [Core.fillFixed]
  | cons d ds ih =>
    intro vs p s h
    obtain ⟨hk, l, hl, he⟩ := h d (by simp)
    simp only [Core.fillFixed, hl, if_pos hk, Core.addPrior, he]
    show Core.fillFixed sem bn ds vs (p + q d) s = _
    rw [ih vs _ s (fun x hx => h x (.tail _ hx)), List.map_cons, List.sum_cons, add_assoc]

theorem generate_full (sem : Sem N V C O S (XR K)) (noneV : V) {sc : SimCore N V C O} {up up' : List (Dict N V)} {c : Core N V C O S K}
    {ts : List (CoreTree N V C O S K)} (hup : ∀ x, chainMap up' x = chainMap up x) (h : Complete sem sc up c ts) (s : S) :
    ∃ d, Core.generate sem noneV sc.bn c.group c.nick up' c.locus s = (.ok d, s) ∧ (∀ x, d.locus.get? x = c.locus.get? x) ∧
      ∀ p l, c.logPrior = some p → c.logLike = some l →
        Same sem sc up up' c { d with logPrior := some p, logLike := some l } := by
  have hex : ∀ x ∈ c.group.exogenous, x ∈ c.locus.keys ∨ ∃ v, chainGet up' x = .ok v := by
    intro x hx
    rcases h.exogenous x hx with h1 | ⟨v, hv⟩
    · exact .inl h1
    · right
      have h2 := hup x
      simp only [chainMap, hv] at h2
      cases h3 : chainGet up' x with
      | ok w => exact ⟨w, rfl⟩
      | error e => rw [h3] at h2; cases h2
  obtain ⟨r, hr1, hr2⟩ := readExo_readable sem noneV sc.bn up' c.group.exogenous c.locus s hex
  have hseen : r.get? = seen up c := by
    funext x
    rw [hr2]
    unfold seen
    rw [hup]
  have hd : ∀ x, ∃ q : XR K, x ∈ c.group.fixed → ∃ l, sc.bn.get x = .ok l ∧ l.evaluate sem (seen up c) = .ok q := by
    intro x
    by_cases hx : x ∈ c.group.fixed
    · obtain ⟨l, q, h1, h2⟩ := h.dense x hx
      exact ⟨q, fun _ => ⟨l, h1, h2⟩⟩
    · exact ⟨.nan, fun h => absurd h hx⟩
  choose w hq' using hd
  have hf := fillFixed_full sem sc.bn w c.group.fixed r 0 s (fun x hx => by
    refine ⟨?_, ?_⟩
    · rw [← Dict.get?_isSome_iff, hr2]
      have := (Dict.get?_isSome_iff _ _).2 (h.fixed x hx)
      cases hc : c.locus.get? x with
      | none => rw [hc] at this; cases this
      | some v => rfl
    · rw [hseen]; exact hq' x hx)
  have hval : ∀ x, ((r.filterItems (fun k _ => k ∈ c.group.fixed)).update c.locus).get? x = c.locus.get? x := by
    intro x
    rw [Dict.get?_update _ _ h.once, Dict.get?_filterItems_key]
    cases hc : c.locus.get? x with
    | some v => simp
    | none =>
      by_cases hx : x ∈ c.group.fixed
      · exact absurd (h.fixed x hx) ((Dict.get?_eq_none_iff _ _).1 hc)
      · simp [hx]
  unfold Core.generate
  simp only [hr1, hf]
  exact ⟨_, rfl, hval, fun p l hp hl => ⟨rfl, rfl, hval, hup, ⟨hp.symm, hl.symm⟩, w, hq', zero_add _⟩⟩

theorem same_children (sem : Sem N V C O S (XR K)) (noneV : V) {sc : SimCore N V C O}
    (hg : ∀ k g, sc.groups.get? k = some g → g.name = k) : ∀ (t : CoreTree N V C O S K) (g : Model.Group N) (up up' : List (Dict N V)) (s : S),
      (∀ x, chainMap up' x = chainMap up x) → All (Complete sem sc) up t → All (Tidy sc) up t →
      (∃ k ∈ g.children, sc.groups.get? k = some t.label.group) →
      ∃ t', childCopy sem noneV sc g up' t s = (.ok t', s) ∧ Along (Same sem sc) up up' t t' := by
  intro t
  refine Tree.ind
    (P := fun t => ∀ (g : Model.Group N) (up up' : List (Dict N V)) (s : S),
      (∀ x, chainMap up' x = chainMap up x) → All (Complete sem sc) up t → All (Tidy sc) up t →
      (∃ k ∈ g.children, sc.groups.get? k = some t.label.group) →
      ∃ t', childCopy sem noneV sc g up' t s = (.ok t', s) ∧ Along (Same sem sc) up up' t t')
    (Q := fun ts => ∀ (g : Model.Group N) (up up' : List (Dict N V)) (s : S),
      (∀ x, chainMap up' x = chainMap up x) → AllL (Complete sem sc) up ts → AllL (Tidy sc) up ts →
      (∀ u ∈ ts, ∃ k ∈ g.children, sc.groups.get? k = some u.label.group) →
      ∃ ts', childrenCopy sem noneV sc g up' ts s = (.ok ts', s) ∧ AlongL (Same sem sc) up up' ts ts') ?_ ?_ ?_ t
  · intro c ts ih g up up' s hup hc ht hk
    obtain ⟨k, hk1, hk2⟩ := hk
    rw [label_node] at hk2
    have hkn : c.group.name = k := hg _ _ hk2
    subst hkn
    obtain ⟨d, hd, hv, hs⟩ := generate_full sem noneV hup hc.1 s
    obtain ⟨p, hp⟩ := hc.1.prior
    obtain ⟨l, hl⟩ := hc.1.like
    have hup' : ∀ x, chainMap (d.locus :: up') x = chainMap (c.locus :: up) x := fun x => chainMap_congr (hv x) (hup x)
    obtain ⟨us, hus, ha⟩ := ih c.group (c.locus :: up) (d.locus :: up') s hup' hc.2 ht.2 ht.1.2
    refine ⟨.node { d with logPrior := some p, logLike := some l } us, ?_, hs p l hp hl, ha⟩
    simp only [childCopy]
    rw [if_neg (by simpa using hk1)]
    simp only [hk2, hd, hp, hl, hus]
  · intro g up up' s _ _ _ _
    exact ⟨[], rfl, trivial⟩
  · intro t ts ih1 ih2 g up up' s hup hc ht hk
    obtain ⟨t', h1, h2⟩ := ih1 g up up' s hup hc.1 ht.1 (hk t (by simp))
    obtain ⟨ts', h3, h4⟩ := ih2 g up up' s hup hc.2 ht.2 (fun u hu => hk u (by simp [hu]))
    exact ⟨t' :: ts', by simp only [childrenCopy, h1, h3], h2, h4⟩

/-- **C195**: a complete hierarchy that was bred from its simulation core can be cloned with its children, whatever the
random stream and without drawing from it; the clone holds and reads exactly the same values in cores of the same names
and groups, and its log-probabilities are the sums of the log densities of the fixed nodes. -/
theorem C195 (sem : Sem N V C O S (XR K)) (noneV : V) {bn : BN N V C O} (hr : Ready bn) {ns : Tree (NSet N)} {sc : SimCore N V C O}
    (hsc : asSimCore bn ns = .ok sc) {t : CoreTree N V C O S K} (hroot : sc.groups.get? sc.root = some t.label.group)
    (ht : All (Tidy sc) [] t) (hc : All (Complete sem sc) [] t) (copySc : Bool) (s : S) :
    ∃ t', clone sem noneV sc copySc true false t s = (.ok t', s) ∧ Along (Same sem sc) [] [] t t' := by
  obtain ⟨-, hgs⟩ := groups_ok hr hsc
  have hname : ∀ k g, sc.groups.get? k = some g → g.name = k := fun k g h => (hgs k g h).1
  obtain ⟨c, ts⟩ := t
  rw [label_node] at hroot
  have hgn := hname _ _ hroot
  rw [← hgn] at hroot
  have hb : (if copySc then sc.groups.get? c.group.name else some c.group) = some c.group := by
    cases copySc with
    | true => simpa using hroot
    | false => rfl
  obtain ⟨d, hd, hv, hs⟩ := generate_full sem noneV (fun _ => rfl) hc.1 s
  obtain ⟨p, hp⟩ := hc.1.prior
  obtain ⟨l, hl⟩ := hc.1.like
  have key : ∀ ts : List (CoreTree N V C O S K), AllL (Complete sem sc) [c.locus] ts → AllL (Tidy sc) [c.locus] ts →
      (∀ u ∈ ts, ∃ k ∈ c.group.children, sc.groups.get? k = some u.label.group) →
      ∃ ts', childrenCopy sem noneV sc c.group [d.locus] ts s = (.ok ts', s) ∧ AlongL (Same sem sc) [c.locus] [d.locus] ts ts' := by
    intro ts
    induction ts with
    | nil => intro _ _ _; exact ⟨[], rfl, trivial⟩
    | cons u us ih =>
      intro h1 h2 h3
      obtain ⟨u', a1, a2⟩ := same_children sem noneV hname u c.group [c.locus] [d.locus] s
        (fun x => chainMap_congr (hv x) rfl) h1.1 h2.1 (h3 u (by simp))
      obtain ⟨us', a3, a4⟩ := ih h1.2 h2.2 (fun v hv => h3 v (by simp [hv]))
      exact ⟨u' :: us', by simp only [childrenCopy, a1, a3], a2, a4⟩
  obtain ⟨us, hus, ha⟩ := key ts hc.2 ht.2 ht.1.2
  refine ⟨.node { d with logPrior := some p, logLike := some l } us, ?_, hs p l hp hl, ha⟩
  unfold clone
  simp only [Bool.false_eq_true, if_false, label_node, kids_node, hb, hd, hl, hp, if_true, hus]

/-! ## A hierarchy that can be cloned -/

mutual
/-- A check of all cores, with their ancestors' dictionaries and children. -/
def checkAll (f : List (Dict N V) → Core N V C O S K → List (CoreTree N V C O S K) → Bool) : List (Dict N V) → CoreTree N V C O S K → Bool
  | up, .node c ts => f up c ts && checkAllL f (c.locus :: up) ts
/-- Of a list. -/
def checkAllL (f : List (Dict N V) → Core N V C O S K → List (CoreTree N V C O S K) → Bool) : List (Dict N V) → List (CoreTree N V C O S K) → Bool
  | _, [] => true
  | up, t :: ts => checkAll f up t && checkAllL f up ts
end

theorem all_of_checkAll {f : List (Dict N V) → Core N V C O S K → List (CoreTree N V C O S K) → Bool}
    {P : List (Dict N V) → Core N V C O S K → List (CoreTree N V C O S K) → Prop}
    (h : ∀ up c ts, f up c ts = true → P up c ts) : ∀ (t : CoreTree N V C O S K) (up : List (Dict N V)), checkAll f up t = true → All P up t := by
  intro t
  refine Tree.ind (P := fun t => ∀ up, checkAll f up t = true → All P up t) (Q := fun ts => ∀ up, checkAllL f up ts = true → AllL P up ts) ?_ ?_ ?_ t
  · intro c ts ih up hh
    simp only [checkAll, Bool.and_eq_true] at hh
    exact ⟨h _ _ _ hh.1, ih _ hh.2⟩
  · intro up _; trivial
  · intro t ts h1 h2 up hh
    simp only [checkAllL, Bool.and_eq_true] at hh
    exact ⟨h1 _ hh.1, h2 _ hh.2⟩

/-- Whether there is a result. -/
def fine {α : Type} : Result α → Bool
  | .ok _ => true
  | .error _ => false

theorem fine_iff {α : Type} {r : Result α} : fine r = true ↔ ∃ a, r = .ok a := by
  cases r <;> simp [fine]

/-- A check of `Complete`. -/
def completeB (sem : Sem N V C O S (XR K)) (sc : SimCore N V C O) (up : List (Dict N V)) (c : Core N V C O S K)
    (_ : List (CoreTree N V C O S K)) : Bool :=
  decide c.locus.keys.Nodup && c.logPrior.isSome && c.logLike.isSome && c.group.fixed.all (fun x => decide (x ∈ c.locus.keys)) &&
    c.group.exogenous.all (fun x => decide (x ∈ c.locus.keys) || fine (chainGet up x)) &&
    c.group.fixed.all (fun x => match sc.bn.get x with | .ok l => fine (l.evaluate sem (seen up c)) | .error _ => false)

theorem complete_of_check {sem : Sem N V C O S (XR K)} {sc : SimCore N V C O} (up : List (Dict N V)) (c : Core N V C O S K)
    (ts : List (CoreTree N V C O S K)) (h : completeB sem sc up c ts = true) : Complete sem sc up c ts := by
  simp only [completeB, Bool.and_eq_true, decide_eq_true_eq, List.all_eq_true, Bool.or_eq_true, fine_iff, Option.isSome_iff_exists] at h
  obtain ⟨⟨⟨⟨⟨h1, h2⟩, h3⟩, h4⟩, h5⟩, h6⟩ := h
  refine ⟨h1, h2, h3, h4, h5, fun x hx => ?_⟩
  have := h6 x hx
  cases hg : sc.bn.get x with
  | error e => rw [hg] at this; cases this
  | ok l =>
    rw [hg] at this
    obtain ⟨q, hq⟩ := fine_iff.1 this
    exact ⟨l, q, rfl, hq⟩

/-- A check of `Tidy`. -/
def tidyB [DecidableEq V] (sc : SimCore N V C O) (_ : List (Dict N V)) (c : Core N V C O S K) (ts : List (CoreTree N V C O S K)) : Bool :=
  decide (ts.map (fun t => t.label.nick)).Nodup &&
    ts.all (fun u => c.group.children.any (fun g => decide (sc.groups.get? g = some u.label.group)))

theorem tidy_of_check [DecidableEq V] {sc : SimCore N V C O} (up : List (Dict N V)) (c : Core N V C O S K)
    (ts : List (CoreTree N V C O S K)) (h : tidyB sc up c ts = true) : Tidy sc up c ts := by
  simp only [tidyB, Bool.and_eq_true, decide_eq_true_eq, List.all_eq_true, List.any_eq_true] at h
  exact h

mutual
/-- Give every core that `LogLikelihood`. -/
def judge (l : XR K) : CoreTree N V C O S K → CoreTree N V C O S K
  | .node c ts => .node { c with logLike := some l } (judgeL l ts)
/-- Of a list. -/
def judgeL (l : XR K) : List (CoreTree N V C O S K) → List (CoreTree N V C O S K)
  | [] => []
  | t :: ts => judge l t :: judgeL l ts
end

/-- The hierarchy `pc49` after its impulse, with log-likelihoods. -/
def jc49 : CoreTree String Toy.TV Toy.TC Unit Int Int := judge (.fin (-3)) set49.1

attribute [irreducible] jc49

/-- The hypotheses of C195 are met. -/
theorem jc49_complete : All (Complete Toy.lit sc49) [] jc49 ∧ All (Tidy sc49) [] jc49 ∧ sc49.groups.get? sc49.root = some jc49.label.group :=
  ⟨all_of_checkAll complete_of_check _ _ (by decide +kernel), all_of_checkAll tidy_of_check _ _ (by decide +kernel), by decide +kernel⟩

/-- Its clone: the same values (fixed nodes first), prior and likelihood; a clone without children has none. -/
example : (∃ t', clone Toy.lit (.str "None") sc49 false true false jc49 77 = (.ok t', 77) ∧ Along (Same Toy.lit sc49) [] [] jc49 t') ∧
    (match (clone Toy.lit (.str "None") sc49 true true false jc49 77).1 with | .ok t => loci t | .error _ => []) = loci jc49 ∧
    (match (clone Toy.lit (.str "None") sc49 false false false jc49 77).1 with | .ok t => (loci t, t.kids.length) | .error _ => ([], 9)) =
      ([jc49.label.locus], 0) ∧
    (clone Toy.lit (.str "None") sc49 false true false set49.1 77).1.toOption.isSome = false ∧
    (clone Toy.lit (.str "None") sc49 false true true jc49 77).1.toOption.isSome = false :=
  ⟨C195 Toy.lit _ n49_ready sc49_ok jc49_complete.2.2 jc49_complete.2.1 jc49_complete.1 false 77,
    by decide +kernel, by decide +kernel, by decide +kernel, by decide +kernel⟩

/-- The hypotheses of C194 are met by it as well. -/
example : All Once [] jc49 ∧ ∃ t', clone Toy.lit (.str "None") sc49 false true false jc49 77 = (.ok t', 77) := by
  refine ⟨jc49_complete.1.imp (fun _ _ _ h => h.once), ?_⟩
  obtain ⟨t', h, -⟩ := C195 Toy.lit (.str "None") n49_ready sc49_ok jc49_complete.2.2 jc49_complete.2.1 jc49_complete.1 false 77
  exact ⟨t', h⟩

end Props.SimCore
