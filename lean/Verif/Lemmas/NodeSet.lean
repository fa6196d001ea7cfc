import Verif.Model.NodeSet
import Verif.Props.Sampling
import Verif.Spec.Settle

/-!
# Helper lemmas for node sets
-/

namespace Model.NSet

set_option linter.unusedSectionVars false

open Py Spec Relation Model Model.Digraph Model.BN

variable {N V C O : Type} [DecidableEq N]

theorem bind_ok {α β : Type} {x : Result α} {f : α → Result β} {b : β} :
    (x >>= f) = .ok b ↔ ∃ a, x = .ok a ∧ f a = .ok b := by
  cases x with
  | error e => simp [bind, Except.bind]
  | ok a => simp [bind, Except.bind]

theorem pure_ok {α : Type} {a b : α} : (pure a : Result α) = .ok b ↔ a = b := by
  simp [pure, Except.pure]

/-! ## Growth -/

/-- The name and the requests of a node set. -/
def request (a : NSet N) : N × List N × List N := (a.name, a.asFixed, a.asFloating)

/-- Later passes keep the requests, never take a node out of `fixed`, and take a node out of `floating` only to fix
it. -/
structure Grow (a b : NSet N) : Prop where
  req : b.request = a.request
  fixed : ∀ x ∈ a.fixed, x ∈ b.fixed
  floating : ∀ x ∈ a.floating, x ∈ b.floating ∨ x ∈ b.fixed

theorem Grow.refl (a : NSet N) : Grow a a := ⟨rfl, fun _ h => h, fun _ h => .inl h⟩

theorem Grow.trans {a b c : NSet N} (h1 : Grow a b) (h2 : Grow b c) : Grow a c where
  req := h2.req.trans h1.req
  fixed := fun x hx => h2.fixed x (h1.fixed x hx)
  floating := fun x hx => (h1.floating x hx).elim (h2.floating x) (fun h => .inr (h2.fixed x h))

theorem Grow.after {a b c : NSet N} (h2 : Grow b c) (h1 : Grow a b) : Grow a c := h1.trans h2

theorem mediators_grow (bn : BN N V C O) : ∀ ds a af {r}, mediators bn ds a af = .ok r → Grow a r.1 := by
  intro ds
  induction ds with
  | nil => intro a af r h; cases h; exact Grow.refl a
  | cons d ds ih =>
    intro a af r h
    obtain ⟨b, -, h⟩ := bind_ok.1 h
    split at h
    · exact (ih _ _ h).after ⟨rfl, fun _ h => h, fun _ h => .inl (by simp [h])⟩
    · exact (ih _ _ h).after ⟨rfl, fun _ h => by simp [h], fun _ h => .inl h⟩

theorem unfloat_grow (bn : BN N V C O) : ∀ ds a af {r}, unfloat bn ds a af = .ok r → Grow a r.1 := by
  intro ds
  induction ds with
  | nil => intro a af r h; cases h; exact Grow.refl a
  | cons d ds ih =>
    intro a af r h
    obtain ⟨b, -, h⟩ := bind_ok.1 h
    split at h
    · exact ih _ _ h
    · refine (ih _ _ h).after ⟨rfl, fun _ h => by simp [h], fun x h => ?_⟩
      by_cases hx : x = d
      · right; simp [hx]
      · left; simp [h, hx]

theorem fixRoots_grow (bn : BN N V C O) : ∀ ds a af {r}, fixRoots bn ds a af = .ok r → Grow a r.1 := by
  intro ds
  induction ds with
  | nil => intro a af r h; cases h; exact Grow.refl a
  | cons d ds ih =>
    intro a af r h
    obtain ⟨b, -, h⟩ := bind_ok.1 h
    split at h
    · exact ih _ _ h
    · exact (ih _ _ h).after ⟨rfl, fun _ h => by simp [h], fun x h => .inl h⟩

theorem require_grow (bn : BN N V C O) : ∀ ds done a {r}, require bn done ds a = .ok r → Grow a r := by
  intro ds
  induction ds with
  | nil => intro done a r h; cases h; exact Grow.refl a
  | cons d ds ih =>
    intro done a r h
    obtain ⟨b, -, h⟩ := bind_ok.1 h
    split at h
    · exact (ih _ _ h).after ⟨rfl, fun _ h => h, fun _ h => .inl h⟩
    · exact (ih _ _ h).after ⟨rfl, fun _ h => h, fun _ h => .inl h⟩

/-- After the first pass the requests are in place. -/
structure Placed (a b : NSet N) : Prop where
  req : b.request = a.request
  fixed : ∀ x ∈ a.asFixed, x ∈ b.fixed
  floating : ∀ x ∈ a.asFloating, x ∈ b.floating ∨ x ∈ b.fixed

theorem Placed.grow {a b c : NSet N} (h1 : Placed a b) (h2 : Grow b c) : Placed a c where
  req := h2.req.trans h1.req
  fixed := fun x hx => h2.fixed x (h1.fixed x hx)
  floating := fun x hx => (h1.floating x hx).elim (h2.floating x) (fun h => .inr (h2.fixed x h))

theorem localNode_placed (bn : BN N V C O) {root : Bool} {was : List N} {a : NSet N} {r : NSet N × List N}
    (h : localNode bn root was a = .ok r) : Placed a r.1 := by
  unfold localNode at h
  obtain ⟨m, -, h⟩ := bind_ok.1 h
  obtain ⟨mini, -, h⟩ := bind_ok.1 h
  obtain ⟨med, -, h⟩ := bind_ok.1 h
  obtain ⟨⟨a1, af1⟩, h1, h⟩ := bind_ok.1 h
  obtain ⟨fl, -, h⟩ := bind_ok.1 h
  obtain ⟨⟨a2, af2⟩, h2, h⟩ := bind_ok.1 h
  obtain ⟨⟨a3, af3⟩, h3, h⟩ := bind_ok.1 h
  obtain ⟨a4, h4, h⟩ := bind_ok.1 h
  have g1 := mediators_grow bn _ _ _ h1
  have g2 := unfloat_grow bn _ _ _ h2
  have g3 : Grow a2 a3 := by
    unfold topRoots at h3
    split at h3
    · obtain ⟨rs, -, h3⟩ := bind_ok.1 h3
      exact fixRoots_grow bn _ _ _ h3
    · cases h3
      exact Grow.refl a2
  have g4 := require_grow bn _ _ _ h4
  have g5 : Grow a4 r.1 := by
    rw [pure_ok] at h
    subst h
    exact ⟨rfl, fun _ h => h, fun _ h => .inl h⟩
  have p : Placed a { a with floating := a.asFloating, fixed := a.asFixed, wasFixed := was } :=
    ⟨rfl, fun _ h => h, fun _ h => .inl h⟩
  have g3' : Grow a3 { a3 with listening := [], exo := [] } := ⟨rfl, fun _ h => h, fun _ h => .inl h⟩
  exact p.grow (g1.trans (g2.trans (g3.trans (g3'.trans (g4.trans g5)))))

theorem localT_placed (bn : BN N V C O) : ∀ t {root was u}, localT bn root was t = .ok u → Tree.Rel Placed t u := by
  intro t
  refine Tree.ind (P := fun t => ∀ {root was u}, localT bn root was t = .ok u → Tree.Rel Placed t u)
    (Q := fun ts => ∀ {was us}, localL bn was ts = .ok us → Tree.RelL Placed ts us) ?_ ?_ ?_ t
  · intro a ts ih root was u h
    unfold localT at h
    obtain ⟨⟨b, af⟩, h1, h⟩ := bind_ok.1 h
    obtain ⟨us, h2, h⟩ := bind_ok.1 h
    rw [pure_ok] at h
    subst h
    exact ⟨localNode_placed bn h1, ih h2⟩
  · intro was us h
    unfold localL at h
    cases h
    trivial
  · intro t ts ih1 ih2 was us h
    unfold localL at h
    obtain ⟨b, h1, h⟩ := bind_ok.1 h
    obtain ⟨us, h2, h⟩ := bind_ok.1 h
    rw [pure_ok] at h
    subst h
    exact ⟨ih1 h1, ih2 h2⟩

theorem raiseT_grow : ∀ t : Tree (NSet N), Tree.Rel Grow t (raiseT t).1 := by
  intro t
  refine Tree.ind (P := fun t : Tree (NSet N) => Tree.Rel Grow t (raiseT t).1)
    (Q := fun ts => Tree.RelL Grow ts (raiseL ts).1) ?_ ?_ ?_ t
  · intro a ts ih
    unfold raiseT
    exact ⟨⟨rfl, fun _ h => h, fun _ h => .inl h⟩, ih⟩
  · unfold raiseL; trivial
  · intro t ts ih1 ih2
    unfold raiseL
    exact ⟨ih1, ih2⟩

theorem hoistAll_grow : ∀ (ds : List N) (a : NSet N), Grow a (hoistAll ds a) := by
  intro ds
  induction ds with
  | nil => intro a; exact Grow.refl a
  | cons d ds ih =>
    intro a
    unfold hoistAll
    split
    · exact ih a
    · exact Grow.after (ih _) ⟨rfl, fun _ h => by simp [h], fun _ h => .inl h⟩

theorem relateNode_grow (bn : BN N V C O) {root : Bool} {was : List N} {a : NSet N} {r : NSet N × List N}
    (h : relateNode bn root was a = .ok r) : Grow a r.1 := by
  unfold relateNode at h
  obtain ⟨⟨s1, s2⟩, -, h⟩ := bind_ok.1 h
  obtain ⟨s3, -, h⟩ := bind_ok.1 h
  obtain ⟨⟨s4, s5⟩, -, h⟩ := bind_ok.1 h
  rw [pure_ok] at h
  subst h
  cases root
  · exact ⟨rfl, fun x hx => by simp [hx], fun x hx => .inl (by simp [hx])⟩
  · exact ⟨rfl, fun x hx => by simp [hx], fun x hx => .inl (by simp [hx])⟩

theorem setWas_grow (w : List N) : ∀ t : Tree (NSet N), Tree.Rel Grow t (setWas w t)
  | .node _ ts => ⟨⟨rfl, fun _ h => h, fun _ h => .inl h⟩, Tree.RelL.refl Grow.refl ts⟩

theorem map_setWas_grow (w : List N) : ∀ ts : List (Tree (NSet N)), Tree.RelL Grow ts (ts.map (setWas w))
  | [] => trivial
  | t :: ts => ⟨setWas_grow w t, map_setWas_grow w ts⟩

theorem relateT_grow (bn : BN N V C O) : ∀ t {root was r}, relateT bn root was t = .ok r → Tree.Rel Grow t r.1 := by
  intro t
  refine Tree.ind (P := fun t => ∀ {root was r}, relateT bn root was t = .ok r → Tree.Rel Grow t r.1)
    (Q := fun ts => ∀ {a done cell r}, relateL bn a done cell ts = .ok r → Grow a r.1 ∧
      ∀ ds, Tree.RelL Grow ds done → Tree.RelL Grow (ds ++ ts) r.2) ?_ ?_ ?_ t
  · intro a ts ih root was r h
    unfold relateT at h
    obtain ⟨⟨b, hoist⟩, h1, h⟩ := bind_ok.1 h
    obtain ⟨⟨c, us⟩, h2, h⟩ := bind_ok.1 h
    rw [pure_ok] at h
    subst h
    have h3 := ih h2
    exact ⟨(relateNode_grow bn h1).trans h3.1, h3.2 [] trivial⟩
  · intro a done cell r h
    unfold relateL at h
    cases h
    exact ⟨Grow.refl a, fun ds h => by simpa using h⟩
  · intro t ts ih1 ih2 a done cell r h
    unfold relateL at h
    obtain ⟨⟨t', hoist⟩, h1, h⟩ := bind_ok.1 h
    have g1 := ih1 h1
    simp only at h
    split at h
    · obtain ⟨h2, h3⟩ := ih2 h
      refine ⟨(hoistAll_grow _ _).trans h2, fun ds hds => ?_⟩
      have := h3 (ds ++ [t]) (hds.append (us := [t]) (us' := [t']) ⟨g1, trivial⟩)
      simpa using this
    · obtain ⟨h2, h3⟩ := ih2 h
      refine ⟨(hoistAll_grow _ _).trans h2, fun ds hds => ?_⟩
      have h4 := hds.append (us := [t]) (us' := [t']) ⟨g1, trivial⟩
      have := h3 (ds ++ [t]) (Tree.RelL.trans (R := Grow) (S := Grow) (fun _ _ _ => Grow.trans) h4 (map_setWas_grow _ _))
      simpa using this

theorem passNode_grow (bn : BN N V C O) (gfi gfl : List N) : ∀ ds a {r}, passNode bn gfi gfl ds a = .ok r → Grow a r.1 := by
  intro ds
  induction ds with
  | nil => intro a r h; cases h; exact Grow.refl a
  | cons d ds ih =>
    intro a r h
    unfold passNode at h
    obtain ⟨l, -, h⟩ := bind_ok.1 h
    split at h
    · obtain ⟨b, -, h⟩ := bind_ok.1 h
      split at h
      · exact (ih _ h).after ⟨rfl, fun _ h => h, fun _ h => .inl (by simp [h])⟩
      · exact (ih _ h).after ⟨rfl, fun _ h => by simp [h], fun _ h => .inl h⟩
    · split at h
      · exact (ih _ h).after ⟨rfl, fun _ h => h, fun _ h => .inl (by simp [h])⟩
      · obtain ⟨b, h1, h⟩ := bind_ok.1 h
        rw [pure_ok] at h
        subst h
        have := ih _ h1
        exact this

theorem passT_grow (bn : BN N V C O) : ∀ t {fx fl ns u}, passT bn fx fl ns t = .ok u → Tree.Rel Grow t u := by
  intro t
  refine Tree.ind (P := fun t => ∀ {fx fl ns u}, passT bn fx fl ns t = .ok u → Tree.Rel Grow t u)
    (Q := fun ts => ∀ {fx fl ns us}, passL bn fx fl ns ts = .ok us → Tree.RelL Grow ts us) ?_ ?_ ?_ t
  · intro a ts ih fx fl ns u h
    unfold passT at h
    obtain ⟨⟨b, af⟩, h1, h⟩ := bind_ok.1 h
    obtain ⟨us, h2, h⟩ := bind_ok.1 h
    rw [pure_ok] at h
    subst h
    exact ⟨passNode_grow bn _ _ _ _ h1, ih h2⟩
  · intro fx fl ns us h
    unfold passL at h
    cases h
    trivial
  · intro t ts ih1 ih2 fx fl ns us h
    unfold passL at h
    obtain ⟨b, h1, h⟩ := bind_ok.1 h
    obtain ⟨us, h2, h⟩ := bind_ok.1 h
    rw [pure_ok] at h
    subst h
    exact ⟨ih1 h1, ih2 h2⟩

/-- The blueprints are added, nothing else changes. -/
structure Same (a b : NSet N) : Prop where
  req : b.request = a.request
  fixed : b.fixed = a.fixed
  floating : b.floating = a.floating
  was : b.wasFixed = a.wasFixed
  will : b.willFloat = a.willFloat

theorem Same.refl (a : NSet N) : Same a a := ⟨rfl, rfl, rfl, rfl, rfl⟩

theorem Same.trans {a b c : NSet N} (h1 : Same a b) (h2 : Same b c) : Same a c :=
  ⟨h2.req.trans h1.req, h2.fixed.trans h1.fixed, h2.floating.trans h1.floating, h2.was.trans h1.was, h2.will.trans h1.will⟩

theorem samplers_same (bn : BN N V C O) : ∀ ds a {r}, samplers bn ds a = .ok r → Same a r := by
  intro ds
  induction ds with
  | nil => intro a r h; cases h; exact Same.refl a
  | cons d ds ih =>
    intro a r h
    unfold samplers at h
    obtain ⟨⟨l, s⟩, -, h⟩ := bind_ok.1 h
    have := ih _ h
    exact Same.trans (b := { a with localS := a.localS.set d l, sharedS := a.sharedS.set d s }) ⟨rfl, rfl, rfl, rfl, rfl⟩ this

theorem samplersT_same (bn : BN N V C O) : ∀ t {u}, samplersT bn t = .ok u → Tree.Rel Same t u := by
  intro t
  refine Tree.ind (P := fun t => ∀ {u}, samplersT bn t = .ok u → Tree.Rel Same t u)
    (Q := fun ts => ∀ {us}, samplersL bn ts = .ok us → Tree.RelL Same ts us) ?_ ?_ ?_ t
  · intro a ts ih u h
    unfold samplersT at h
    obtain ⟨b, h1, h⟩ := bind_ok.1 h
    obtain ⟨us, h2, h⟩ := bind_ok.1 h
    rw [pure_ok] at h
    subst h
    exact ⟨Same.trans (b := { a with localS := [], sharedS := [] }) ⟨rfl, rfl, rfl, rfl, rfl⟩ (samplers_same bn _ _ h1), ih h2⟩
  · intro us h
    unfold samplersL at h
    cases h
    trivial
  · intro t ts ih1 ih2 us h
    unfold samplersL at h
    obtain ⟨b, h1, h⟩ := bind_ok.1 h
    obtain ⟨us, h2, h⟩ := bind_ok.1 h
    rw [pure_ok] at h
    subst h
    exact ⟨ih1 h1, ih2 h2⟩

/-- `FixedNodes` has become the sorted list of its known members. -/
structure SortedFrom (od : List N) (a b : NSet N) : Prop where
  req : b.request = a.request
  fixed : b.fixed = od.filter (· ∈ a.fixed)
  floating : b.floating = a.floating
  was : b.wasFixed = a.wasFixed
  will : b.willFloat = a.willFloat
  locals : b.localS = a.localS
  shared : b.sharedS = a.sharedS

theorem sortT_sorted {bn : BN N V C O} {od : List N} (hod : bn.order = .ok od) : ∀ t {u}, sortT bn t = .ok u →
    Tree.Rel (SortedFrom od) t u := by
  have hs : ∀ xs, bn.sort xs = .ok (od.filter (· ∈ xs)) := by
    intro xs
    unfold BN.sort
    rw [hod]
    rfl
  intro t
  refine Tree.ind (P := fun t => ∀ {u}, sortT bn t = .ok u → Tree.Rel (SortedFrom od) t u)
    (Q := fun ts => ∀ {us}, sortL bn ts = .ok us → Tree.RelL (SortedFrom od) ts us) ?_ ?_ ?_ t
  · intro a ts ih u h
    unfold sortT at h
    rw [hs] at h
    obtain ⟨f, h1, h⟩ := bind_ok.1 h
    obtain ⟨us, h2, h⟩ := bind_ok.1 h
    cases h1
    rw [pure_ok] at h
    subst h
    exact ⟨⟨rfl, rfl, rfl, rfl, rfl, rfl, rfl⟩, ih h2⟩
  · intro us h
    unfold sortL at h
    cases h
    trivial
  · intro t ts ih1 ih2 us h
    unfold sortL at h
    obtain ⟨b, h1, h⟩ := bind_ok.1 h
    obtain ⟨us, h2, h⟩ := bind_ok.1 h
    rw [pure_ok] at h
    subst h
    exact ⟨ih1 h1, ih2 h2⟩

/-- The stages of a successful `inject_bn`. -/
theorem inject_stages {bn : BN N V C O} {t t' : Tree (NSet N)} (h : inject bn t = .ok t') :
    ∃ t1 r t3 t4, validate bn t = .ok true ∧ localT bn true [] t = .ok t1 ∧ relateT bn true [] (raiseT t1).1 = .ok r ∧
      locate bn r.1 = .ok t3 ∧ samplersT bn t3 = .ok t4 ∧ sortT bn t4 = .ok t' := by
  unfold inject at h
  obtain ⟨b, h0, h⟩ := bind_ok.1 h
  split at h
  · rename_i hb
    subst hb
    obtain ⟨t1, h1, h⟩ := bind_ok.1 h
    obtain ⟨⟨t2, ho⟩, h2, h⟩ := bind_ok.1 h
    obtain ⟨t3, h3, h⟩ := bind_ok.1 h
    obtain ⟨t4, h4, h⟩ := bind_ok.1 h
    exact ⟨t1, _, t3, t4, h0, h1, h2, h3, h4, h⟩
  · cases h

/-! ## One node set with requests closed under parents -/

theorem topo_induct {nodes : N → Prop} {E : N → N → Prop} {od : List N} (ht : TopologicalOrder nodes E od) {P : N → Prop}
    (step : ∀ x, nodes x → (∀ p, E p x → P p) → P x) : ∀ x, nodes x → P x := by
  have : ∀ (suf pre : List N), od = pre ++ suf → (∀ x ∈ pre, P x) → ∀ x ∈ suf, P x := by
    intro suf
    induction suf with
    | nil => intro pre _ _ x hx; cases hx
    | cons v suf ih =>
      intro pre he hpre
      have hv : P v := step v ((ht.complete v).1 (by rw [he]; simp)) (fun p hp => hpre p (ht.parentsFirst pre v suf he p hp))
      intro x hx
      rcases List.mem_cons.1 hx with rfl | hx
      · exact hv
      · exact ih (pre ++ [v]) (by simp [he]) (by
          intro y hy
          rcases List.mem_append.1 hy with hy | hy
          · exact hpre y hy
          · simp at hy; subst hy; exact hv) x hx
  intro x hx
  exact this od [] (by simp) (by simp) x ((ht.complete x).2 hx)

theorem closed_trans {E : N → N → Prop} {A : N → Prop} (hc : ∀ s, A s → ∀ p, E p s → A p) {a s : N} (h : TransGen E a s)
    (hs : A s) : A a := by
  induction h using TransGen.head_induction_on with
  | single hab => exact hc _ hs _ hab
  | head hab _ ih => exact hc _ ih _ hab

theorem hasRandomness_closed {bn : BN N V C O} (hw : bn.Well) {d : N} (hd : d ∈ bn.dag.nodes) {af : List N}
    (hc : ∀ s ∈ af, ∀ p, bn.dag.E p s → p ∈ af) : ∃ b, bn.hasRandomness d af = .ok b ∧
      (b = true ↔ bn.Rv d ∨ ∃ a, TransGen bn.dag.E a d ∧ a ∉ af ∧ bn.Rv a) := by
  by_cases he : af = []
  · subst he
    obtain ⟨b, h1, h2⟩ := Props.BN.C21_no_given hw.toRep hw.acyclic hd
    exact ⟨b, h1, by simpa using h2⟩
  · obtain ⟨b, h1, h2⟩ := Props.BN.hasRandomness_given hw.toRep hw.acyclic hd he
    refine ⟨b, h1, h2.trans (or_congr Iff.rfl ?_)⟩
    constructor
    · rintro ⟨a, h3, h4, h5, -⟩
      exact ⟨a, h3, h4, h5⟩
    · rintro ⟨a, h3, h4, h5⟩
      exact ⟨a, h3, h4, h5, fun s hs _ h => h4 (closed_trans (A := (· ∈ af)) hc h hs)⟩

theorem hasRandomness_total {bn : BN N V C O} (hw : bn.Well) {d : N} (hd : d ∈ bn.dag.nodes) (af : List N) :
    ∃ b, bn.hasRandomness d af = .ok b := by
  by_cases he : af = []
  · subst he
    obtain ⟨b, h1, -⟩ := Props.BN.C21_no_given hw.toRep hw.acyclic hd
    exact ⟨b, h1⟩
  · obtain ⟨b, h1, -⟩ := Props.BN.hasRandomness_given hw.toRep hw.acyclic hd he
    exact ⟨b, h1⟩

theorem settled_closed {E : N → N → Prop} {rv A R : N → Prop} (hA : ∀ s, A s → ∀ p, E p s → A p) {x : N}
    (h : Settled E rv A R x) : ∀ p, E p x → Settled E rv A R p := by
  cases h with
  | asked h => exact fun p hp => .asked (hA _ h p hp)
  | follows _ _ h => exact h

/-- An unsettled node is random or has an unsettled random ancestor. -/
theorem unsettled {nodes : N → Prop} {E : N → N → Prop} {od : List N} (ht : TopologicalOrder nodes E od)
    {rv A R : N → Prop} (hR : ∀ s, R s → ∀ p, E p s → R p) (hn : ∀ x, R x → nodes x) : ∀ x, R x →
    ¬ Settled E rv A R x → ∃ a, ReflTransGen E a x ∧ rv a ∧ ¬ Settled E rv A R a := by
  intro x hx
  refine topo_induct ht (P := fun x => R x → ¬ Settled E rv A R x → ∃ a, ReflTransGen E a x ∧ rv a ∧ ¬ Settled E rv A R a)
    ?_ x (hn x hx) hx
  intro x _ ih hx hs
  by_cases hr : rv x
  · exact ⟨x, .refl, hr, hs⟩
  · by_cases hp : ∀ p, E p x → Settled E rv A R p
    · exact absurd (.follows hx hr hp) hs
    · push Not at hp
      obtain ⟨p, hpx, hps⟩ := hp
      obtain ⟨a, h1, h2, h3⟩ := ih p hpx (hR x hx p hpx) hps
      exact ⟨a, h1.tail hpx, h2, h3⟩

/-- Requests closed under parents: `A` to be fixed, `Fl` to be floating. -/
structure Closed (bn : BN N V C O) (A Fl : List N) : Prop where
  known : ∀ x ∈ A ++ Fl, x ∈ bn.dag.nodes
  disjoint : ∀ x ∈ A, x ∉ Fl
  parents : ∀ x ∈ A ++ Fl, ∀ p, bn.dag.E p x → p ∈ A ++ Fl
  above : ∀ x ∈ A, ∀ p, TransGen bn.dag.E p x → p ∉ Fl

/-- Settled by these requests. -/
def Set1 (bn : BN N V C O) (A Fl : List N) : N → Prop :=
  Settled bn.dag.E bn.Rv (· ∈ A) (· ∈ A ++ Fl)

theorem Closed.fixedClosed {bn : BN N V C O} {A Fl : List N} (h : Closed bn A Fl) : ∀ s, s ∈ A → ∀ p, bn.dag.E p s → p ∈ A := by
  intro s hs p hp
  rcases List.mem_append.1 (h.parents s (by simp [hs]) p hp) with h1 | h1
  · exact h1
  · exact absurd h1 (h.above s hs p (.single hp))

theorem set1_sub {bn : BN N V C O} {A Fl : List N} {x : N} (h : Set1 bn A Fl x) : x ∈ A ++ Fl := by
  cases h with
  | asked h => simp [h]
  | follows h _ _ => exact h

theorem unfloat_closed {bn : BN N V C O} (hw : bn.Well) {od : List N}
    (ht : TopologicalOrder (· ∈ bn.dag.nodes) bn.dag.E od) {A Fl : List N} (hc : Closed bn A Fl) : ∀ ds pre (a : NSet N) af,
    od.filter (· ∈ Fl) = pre ++ ds → (∀ x, x ∈ af ↔ Set1 bn A Fl x ∧ (x ∈ A ∨ x ∈ pre)) → (∀ x, x ∈ a.fixed ↔ x ∈ af) →
    (∀ x, x ∈ a.floating ↔ x ∈ Fl ∧ x ∉ af) →
    ∃ fx fl af', unfloat bn ds a af = .ok ({ a with fixed := fx, floating := fl }, af') ∧
      (∀ x, x ∈ af' ↔ Set1 bn A Fl x) ∧ (∀ x, x ∈ fx ↔ Set1 bn A Fl x) ∧
      (∀ x, x ∈ fl ↔ x ∈ Fl ∧ ¬ Set1 bn A Fl x) := by
  have hmem : ∀ x, x ∈ od.filter (· ∈ Fl) ↔ x ∈ Fl := by
    intro x
    simp only [List.mem_filter, decide_eq_true_eq, ht.complete]
    exact ⟨fun h => h.2, fun h => ⟨hc.known x (by simp [h]), h⟩⟩
  have hresp : RespectsPaths bn.dag.E (od.filter (· ∈ Fl)) := respectsPaths_filter (respectsPaths_of_order ht) _
  have hnd : (od.filter (· ∈ Fl)).Nodup := ht.nodup.filter _
  intro ds
  induction ds with
  | nil =>
    intro pre a af he haf hfx hfl
    have hall : ∀ x, x ∈ af ↔ Set1 bn A Fl x := by
      intro x
      rw [haf]
      refine ⟨fun h => h.1, fun h => ⟨h, ?_⟩⟩
      rcases List.mem_append.1 (set1_sub h) with h1 | h1
      · exact .inl h1
      · right
        have := (hmem x).2 h1
        rw [he] at this
        simpa using this
    exact ⟨a.fixed, a.floating, af, rfl, hall, fun x => (hfx x).trans (hall x), fun x => (hfl x).trans (by rw [hall])⟩
  | cons d ds ih =>
    intro pre a af he haf hfx hfl
    have hdF : d ∈ Fl := (hmem d).1 (by rw [he]; simp)
    have hdn : d ∈ bn.dag.nodes := hc.known d (by simp [hdF])
    have hdA : d ∉ A := fun h => hc.disjoint d h hdF
    have hdpre : d ∉ pre := by
      rw [he] at hnd
      exact fun h => (List.nodup_append.1 hnd).2.2 d h d (by simp) rfl
    have hdaf : d ∉ af := by rw [haf]; rintro ⟨-, h | h⟩; exacts [hdA h, hdpre h]
    -- the parents of a listed node come before it
    have hpar : ∀ pre' v suf, od.filter (· ∈ Fl) = pre' ++ v :: suf → ∀ p, bn.dag.E p v → p ∈ A ∨ p ∈ pre' := by
      intro pre' v suf he' p hp
      have hv : v ∈ Fl := (hmem v).1 (by rw [he']; simp)
      rcases List.mem_append.1 (hc.parents v (by simp [hv]) p hp) with h1 | h1
      · exact .inl h1
      · right
        have h2 := (hmem p).2 h1
        rw [he'] at h2
        rcases List.mem_append.1 h2 with h2 | h2
        · exact h2
        · rcases List.mem_cons.1 h2 with rfl | h2
          · exact absurd (TransGen.single hp) (hw.acyclic p)
          · exact absurd (TransGen.single hp) (hresp _ _ _ he' p h2)
    have hafc : ∀ s ∈ af, ∀ p, bn.dag.E p s → p ∈ af := by
      intro s hs p hp
      obtain ⟨h1, h2⟩ := (haf s).1 hs
      refine (haf p).2 ⟨settled_closed (A := (· ∈ A)) hc.fixedClosed h1 p hp, ?_⟩
      rcases h2 with h2 | h2
      · exact .inl (hc.fixedClosed s h2 p hp)
      · obtain ⟨l1, l2, rfl⟩ := List.append_of_mem h2
        rcases hpar l1 s (l2 ++ d :: ds) (by rw [he]; simp) p hp with h3 | h3
        · exact .inl h3
        · exact .inr (by simp [h3])
    obtain ⟨b, hb1, hb2⟩ := hasRandomness_closed hw hdn hafc
    have key : b = false ↔ Set1 bn A Fl d := by
      constructor
      · intro hb
        by_contra hns
        have hb3 : ¬ (bn.Rv d ∨ ∃ a, TransGen bn.dag.E a d ∧ a ∉ af ∧ bn.Rv a) := by rw [← hb2, hb]; simp
        obtain ⟨r, h1, h2, h3⟩ := unsettled ht (R := (· ∈ A ++ Fl)) hc.parents hc.known d (by simp [hdF]) hns
        rcases (reflTransGen_iff_eq_or_transGen).1 h1 with h1 | h1
        · exact hb3 (.inl (h1 ▸ h2))
        · exact hb3 (.inr ⟨r, h1, fun h => h3 ((haf r).1 h).1, h2⟩)
      · intro hs
        have hs' : ¬ bn.Rv d ∧ ∀ p, bn.dag.E p d → Set1 bn A Fl p := by
          cases hs with
          | asked h => exact absurd h hdA
          | follows _ h1 h2 => exact ⟨h1, h2⟩
        cases hb : b with
        | false => rfl
        | true =>
          exfalso
          rcases hb2.1 hb with h | ⟨r, h1, h2, h3⟩
          · exact hs'.1 h
          · apply h2
            obtain ⟨q, h4, h5⟩ := (TransGen.tail'_iff).1 h1
            have hq : q ∈ af := by
              refine (haf q).2 ⟨hs'.2 q h5, ?_⟩
              exact hpar pre d ds he q h5
            rcases (reflTransGen_iff_eq_or_transGen).1 h4 with h4 | h4
            · exact h4 ▸ hq
            · exact closed_trans (A := (· ∈ af)) hafc h4 hq
    unfold unfloat
    rw [hb1]
    show ∃ fx fl af', (if b then unfloat bn ds a af else unfloat bn ds { a with fixed := d :: a.fixed, floating := a.floating.filter (· ≠ d) } (d :: af)) = _ ∧ _
    cases hb : b with
    | true =>
      have hns : ¬ Set1 bn A Fl d := fun h => by rw [key.2 h] at hb; cases hb
      refine ih (pre ++ [d]) a af (by simp [he]) ?_ hfx hfl
      intro x
      rw [haf]
      constructor
      · rintro ⟨h1, h2⟩; exact ⟨h1, h2.imp id (by simp +contextual)⟩
      · rintro ⟨h1, h2⟩
        refine ⟨h1, h2.imp id fun h => ?_⟩
        rcases List.mem_append.1 h with h | h
        · exact h
        · simp at h; subst h; exact absurd h1 hns
    | false =>
      have hs := key.1 hb
      refine ih (pre ++ [d]) _ (d :: af) (by simp [he]) ?_ ?_ ?_
      · intro x
        rw [List.mem_cons, haf]
        constructor
        · rintro (rfl | ⟨h1, h2⟩)
          · exact ⟨hs, .inr (by simp)⟩
          · exact ⟨h1, h2.imp id (by simp +contextual)⟩
        · rintro ⟨h1, h2⟩
          rcases h2 with h2 | h2
          · exact .inr ⟨h1, .inl h2⟩
          · rcases List.mem_append.1 h2 with h | h
            · exact .inr ⟨h1, .inr h⟩
            · simp at h; exact .inl h
      · intro x; simp [hfx]
      · intro x
        simp only [List.mem_filter, hfl, List.mem_cons, decide_eq_true_eq, ne_eq]
        tauto

theorem fixRoots_spec {bn : BN N V C O} (hw : bn.Well) : ∀ ds (a : NSet N) af, (∀ d ∈ ds, d ∈ bn.dag.nodes ∧ ∀ p, ¬ bn.dag.E p d) →
    ∃ fx af', fixRoots bn ds a af = .ok ({ a with fixed := fx }, af') ∧
      (∀ x, x ∈ fx ↔ x ∈ a.fixed ∨ (x ∈ ds ∧ ¬ bn.Rv x)) ∧ (∀ x, x ∈ af' ↔ x ∈ af ∨ (x ∈ ds ∧ ¬ bn.Rv x)) := by
  intro ds
  induction ds with
  | nil => intro a af _; exact ⟨a.fixed, af, rfl, by simp, by simp⟩
  | cons d ds ih =>
    intro a af h
    obtain ⟨b, hb1, hb2⟩ := Props.BN.C21_no_given hw.toRep hw.acyclic (h d (by simp)).1
    have hb3 : b = true ↔ bn.Rv d := by
      rw [hb2]
      refine ⟨?_, .inl⟩
      rintro (h1 | ⟨r, h1, -⟩)
      · exact h1
      · obtain ⟨q, -, h5⟩ := (TransGen.tail'_iff).1 h1
        exact absurd h5 ((h d (by simp)).2 q)
    have hrest : ∀ x ∈ ds, x ∈ bn.dag.nodes ∧ ∀ p, ¬ bn.dag.E p x := fun x hx => h x (by simp [hx])
    unfold fixRoots
    rw [hb1]
    show ∃ fx af', (if b then fixRoots bn ds a af else fixRoots bn ds { a with fixed := d :: a.fixed } (d :: af)) = _ ∧ _
    cases hb : b with
    | true =>
      obtain ⟨fx, af', h1, h2, h3⟩ := ih a af hrest
      have hrv := hb3.1 hb
      refine ⟨fx, af', h1, fun x => ?_, fun x => ?_⟩
      · rw [h2, List.mem_cons]
        refine or_congr Iff.rfl ⟨fun h => ⟨.inr h.1, h.2⟩, ?_⟩
        rintro ⟨rfl | h, h'⟩
        · exact absurd hrv h'
        · exact ⟨h, h'⟩
      · rw [h3, List.mem_cons]
        refine or_congr Iff.rfl ⟨fun h => ⟨.inr h.1, h.2⟩, ?_⟩
        rintro ⟨rfl | h, h'⟩
        · exact absurd hrv h'
        · exact ⟨h, h'⟩
    | false =>
      obtain ⟨fx, af', h1, h2, h3⟩ := ih { a with fixed := d :: a.fixed } (d :: af) hrest
      have hrv : ¬ bn.Rv d := fun h => by rw [hb3.2 h] at hb; cases hb
      refine ⟨fx, af', h1, fun x => ?_, fun x => ?_⟩
      · rw [h2, List.mem_cons, List.mem_cons]
        constructor
        · rintro ((rfl | h) | ⟨h, h'⟩)
          · exact .inr ⟨.inl rfl, hrv⟩
          · exact .inl h
          · exact .inr ⟨.inr h, h'⟩
        · rintro (h | ⟨rfl | h, h'⟩)
          · exact .inl (.inr h)
          · exact .inl (.inl rfl)
          · exact .inr ⟨h, h'⟩
      · rw [h3, List.mem_cons, List.mem_cons]
        constructor
        · rintro ((rfl | h) | ⟨h, h'⟩)
          · exact .inr ⟨.inl rfl, hrv⟩
          · exact .inl h
          · exact .inr ⟨.inr h, h'⟩
        · rintro (h | ⟨rfl | h, h'⟩)
          · exact .inl (.inr h)
          · exact .inl (.inl rfl)
          · exact .inr ⟨h, h'⟩

theorem require_spec {bn : BN N V C O} (hw : bn.Well) : ∀ ds done (a : NSet N), (∀ d ∈ ds, d ∈ bn.dag.nodes) →
    ∃ li ex, require bn done ds a = .ok { a with listening := li, exo := ex } ∧
      (∀ x ∈ li, x ∈ a.listening ∨ ∃ d ∈ ds, d ∈ a.floating ∧ TransGen bn.dag.E x d) ∧
      (∀ x ∈ ex, x ∈ a.exo ∨ ∃ d ∈ ds, d ∉ a.floating ∧ TransGen bn.dag.E x d) := by
  intro ds
  induction ds with
  | nil => intro done a _; exact ⟨a.listening, a.exo, rfl, fun x h => .inl h, fun x h => .inl h⟩
  | cons d ds ih =>
    intro done a h
    obtain ⟨rq, h1, -, -, h2⟩ := minimalRequirements_ok hw.wf hw.acyclic (h d (by simp)) done
    have hrest : ∀ x ∈ ds, x ∈ bn.dag.nodes := fun x hx => h x (by simp [hx])
    unfold require
    rw [h1]
    show ∃ li ex, (if d ∈ a.floating then require bn (done ++ [d]) ds { a with listening := a.listening ++ rq }
      else require bn (done ++ [d]) ds { a with exo := a.exo ++ rq }) = _ ∧ _
    split
    · rename_i hfl
      obtain ⟨li, ex, h3, h4, h5⟩ := ih (done ++ [d]) { a with listening := a.listening ++ rq } hrest
      refine ⟨li, ex, h3, fun x hx => ?_, fun x hx => ?_⟩
      · rcases h4 x hx with h6 | ⟨y, h6, h7, h8⟩
        · rcases List.mem_append.1 h6 with h6 | h6
          · exact .inl h6
          · exact .inr ⟨d, by simp, hfl, ((h2 x).1 h6).1⟩
        · exact .inr ⟨y, by simp [h6], h7, h8⟩
      · rcases h5 x hx with h6 | ⟨y, h6, h7, h8⟩
        · exact .inl h6
        · exact .inr ⟨y, by simp [h6], h7, h8⟩
    · rename_i hfl
      obtain ⟨li, ex, h3, h4, h5⟩ := ih (done ++ [d]) { a with exo := a.exo ++ rq } hrest
      refine ⟨li, ex, h3, fun x hx => ?_, fun x hx => ?_⟩
      · rcases h4 x hx with h6 | ⟨y, h6, h7, h8⟩
        · exact .inl h6
        · exact .inr ⟨y, by simp [h6], h7, h8⟩
      · rcases h5 x hx with h6 | ⟨y, h6, h7, h8⟩
        · rcases List.mem_append.1 h6 with h6 | h6
          · exact .inl h6
          · exact .inr ⟨d, by simp, hfl, ((h2 x).1 h6).1⟩
        · exact .inr ⟨y, by simp [h6], h7, h8⟩

theorem passNode_spec {bn : BN N V C O} (hw : bn.Well) (gfi gfl : List N) : ∀ ds (a : NSet N), (∀ d ∈ ds, d ∈ bn.dag.nodes) →
    ∃ fx fl rest, passNode bn gfi gfl ds a = .ok ({ a with fixed := fx, floating := fl }, rest) ∧
      (∀ x, x ∈ fx ↔ x ∈ a.fixed ∨ (x ∈ ds ∧ (∀ p, bn.dag.E p x → p ∈ gfi) ∧ ¬ bn.Rv x)) ∧
      (∀ x, x ∈ fl ↔ x ∈ a.floating ∨ (x ∈ ds ∧ (((∀ p, bn.dag.E p x → p ∈ gfi) ∧ bn.Rv x) ∨
        ((¬ ∀ p, bn.dag.E p x → p ∈ gfi) ∧ ∀ p, bn.dag.E p x → p ∈ gfl)))) ∧
      (∀ x, x ∈ rest ↔ x ∈ ds ∧ (¬ ∀ p, bn.dag.E p x → p ∈ gfi) ∧ ¬ ∀ p, bn.dag.E p x → p ∈ gfl) := by
  intro ds
  induction ds with
  | nil => intro a _; exact ⟨a.fixed, a.floating, [], rfl, by simp, by simp, by simp⟩
  | cons d ds ih =>
    intro a h
    have hd := h d (by simp)
    have hrest : ∀ x ∈ ds, x ∈ bn.dag.nodes := fun x hx => h x (by simp [hx])
    obtain ⟨l, hl⟩ := hw.toRep.exists_loci hd
    have hall : ∀ g : List N, (l.parents.all (· ∈ g) = true) ↔ ∀ p, bn.dag.E p d → p ∈ g := by
      intro g
      rw [List.all_eq_true]
      constructor
      · intro h1 p hp
        obtain ⟨l', h2, h3⟩ := (hw.edges p d).1 hp
        rw [hl] at h2; cases h2
        simpa using h1 p h3
      · intro h1 p hp
        simpa using h1 p ((hw.edges p d).2 ⟨l, hl, hp⟩)
    have hrvd : bn.isRv d = .ok (bn.rvB d) := isRv_ok hw.toRep hd
    unfold passNode
    rw [get_ok hl]
    show ∃ fx fl rest, (if l.parents.all (· ∈ gfi) then (do
        if ← bn.isRv d then passNode bn gfi gfl ds { a with floating := a.floating ++ [d] }
        else passNode bn gfi gfl ds { a with fixed := a.fixed ++ [d] })
      else if l.parents.all (· ∈ gfl) then passNode bn gfi gfl ds { a with floating := a.floating ++ [d] }
      else do
        let (a, r) ← passNode bn gfi gfl ds a
        return (a, d :: r)) = _ ∧ _
    rw [hrvd]
    by_cases h1 : ∀ p, bn.dag.E p d → p ∈ gfi
    · rw [if_pos ((hall gfi).2 h1)]
      cases hb : bn.rvB d with
      | true =>
        have hr : bn.Rv d := (rvB_iff _ _).1 hb
        obtain ⟨fx, fl, rest, e, h2, h3, h4⟩ := ih { a with floating := a.floating ++ [d] } hrest
        refine ⟨fx, fl, rest, e, fun x => ?_, fun x => ?_, fun x => ?_⟩
        · rw [h2, List.mem_cons]
          refine or_congr Iff.rfl ⟨fun h => ⟨.inr h.1, h.2⟩, ?_⟩
          rintro ⟨rfl | h, h'⟩
          · exact absurd hr h'.2
          · exact ⟨h, h'⟩
        · rw [h3, List.mem_cons]
          show (x ∈ a.floating ++ [d] ∨ _) ↔ _
          rw [List.mem_append, List.mem_singleton]
          constructor
          · rintro ((h | rfl) | ⟨h, h'⟩)
            · exact .inl h
            · exact .inr ⟨.inl rfl, .inl ⟨h1, hr⟩⟩
            · exact .inr ⟨.inr h, h'⟩
          · rintro (h | ⟨rfl | h, h'⟩)
            · exact .inl (.inl h)
            · exact .inl (.inr rfl)
            · exact .inr ⟨h, h'⟩
        · rw [h4, List.mem_cons]
          refine ⟨fun h => ⟨.inr h.1, h.2⟩, ?_⟩
          rintro ⟨rfl | h, h'⟩
          · exact absurd h1 h'.1
          · exact ⟨h, h'⟩
      | false =>
        have hr : ¬ bn.Rv d := fun h => by rw [(rvB_iff _ _).2 h] at hb; cases hb
        obtain ⟨fx, fl, rest, e, h2, h3, h4⟩ := ih { a with fixed := a.fixed ++ [d] } hrest
        refine ⟨fx, fl, rest, e, fun x => ?_, fun x => ?_, fun x => ?_⟩
        · rw [h2, List.mem_cons]
          show (x ∈ a.fixed ++ [d] ∨ _) ↔ _
          rw [List.mem_append, List.mem_singleton]
          constructor
          · rintro ((h | rfl) | ⟨h, h'⟩)
            · exact .inl h
            · exact .inr ⟨.inl rfl, h1, hr⟩
            · exact .inr ⟨.inr h, h'⟩
          · rintro (h | ⟨rfl | h, h'⟩)
            · exact .inl (.inl h)
            · exact .inl (.inr rfl)
            · exact .inr ⟨h, h'⟩
        · rw [h3, List.mem_cons]
          refine or_congr Iff.rfl ⟨fun h => ⟨.inr h.1, h.2⟩, ?_⟩
          rintro ⟨rfl | h, h'⟩
          · rcases h' with h' | h'
            · exact absurd h'.2 hr
            · exact absurd h1 h'.1
          · exact ⟨h, h'⟩
        · rw [h4, List.mem_cons]
          refine ⟨fun h => ⟨.inr h.1, h.2⟩, ?_⟩
          rintro ⟨rfl | h, h'⟩
          · exact absurd h1 h'.1
          · exact ⟨h, h'⟩
    · rw [if_neg (fun h => h1 ((hall gfi).1 h))]
      by_cases h5 : ∀ p, bn.dag.E p d → p ∈ gfl
      · rw [if_pos ((hall gfl).2 h5)]
        obtain ⟨fx, fl, rest, e, h2, h3, h4⟩ := ih { a with floating := a.floating ++ [d] } hrest
        refine ⟨fx, fl, rest, e, fun x => ?_, fun x => ?_, fun x => ?_⟩
        · rw [h2, List.mem_cons]
          refine or_congr Iff.rfl ⟨fun h => ⟨.inr h.1, h.2⟩, ?_⟩
          rintro ⟨rfl | h, h'⟩
          · exact absurd h'.1 h1
          · exact ⟨h, h'⟩
        · rw [h3, List.mem_cons]
          show (x ∈ a.floating ++ [d] ∨ _) ↔ _
          rw [List.mem_append, List.mem_singleton]
          constructor
          · rintro ((h | rfl) | ⟨h, h'⟩)
            · exact .inl h
            · exact .inr ⟨.inl rfl, .inr ⟨h1, h5⟩⟩
            · exact .inr ⟨.inr h, h'⟩
          · rintro (h | ⟨rfl | h, h'⟩)
            · exact .inl (.inl h)
            · exact .inl (.inr rfl)
            · exact .inr ⟨h, h'⟩
        · rw [h4, List.mem_cons]
          refine ⟨fun h => ⟨.inr h.1, h.2⟩, ?_⟩
          rintro ⟨rfl | h, h'⟩
          · exact absurd h5 h'.2
          · exact ⟨h, h'⟩
      · rw [if_neg (fun h => h5 ((hall gfl).1 h))]
        obtain ⟨fx, fl, rest, e, h2, h3, h4⟩ := ih a hrest
        refine ⟨fx, fl, d :: rest, by rw [e]; rfl, fun x => ?_, fun x => ?_, fun x => ?_⟩
        · rw [h2, List.mem_cons]
          refine or_congr Iff.rfl ⟨fun h => ⟨.inr h.1, h.2⟩, ?_⟩
          rintro ⟨rfl | h, h'⟩
          · exact absurd h'.1 h1
          · exact ⟨h, h'⟩
        · rw [h3, List.mem_cons]
          refine or_congr Iff.rfl ⟨fun h => ⟨.inr h.1, h.2⟩, ?_⟩
          rintro ⟨rfl | h, h'⟩
          · rcases h' with h' | h'
            · exact absurd h'.1 h1
            · exact absurd h'.2 h5
          · exact ⟨h, h'⟩
        · rw [List.mem_cons, h4, List.mem_cons]
          constructor
          · rintro (rfl | ⟨h, h'⟩)
            · exact ⟨.inl rfl, h1, h5⟩
            · exact ⟨.inr h, h'⟩
          · rintro ⟨rfl | h, h'⟩
            · exact .inl rfl
            · exact .inr ⟨h, h'⟩

/-! ## Sampler blueprints -/

/-- Exogenous or pseudo. -/
def Outside (bn : BN N V C O) (x : N) : Prop := ∃ l, bn.loci.get? x = some l ∧ (l.isPseudo = true ∨ l.isExo = true)

/-- The same, computed. -/
def outB (bn : BN N V C O) (x : N) : Bool :=
  match bn.loci.get? x with
  | some l => l.isPseudo || l.isExo
  | none => false

theorem outB_iff (bn : BN N V C O) (x : N) : outB bn x = true ↔ Outside bn x := by
  unfold outB Outside
  cases bn.loci.get? x with
  | none => simp
  | some l => simp

theorem isExogenous_ok {bn : BN N V C O} (hw : bn.Well) {x : N} (hx : x ∈ bn.dag.nodes) :
    bn.isExogenous x = .ok (outB bn x) := by
  obtain ⟨l, hl⟩ := hw.toRep.exists_loci hx
  unfold BN.isExogenous outB
  rw [get_ok hl, hl]
  rfl

/-- What a sampler reads instead of sampling it. -/
def readB (bn : BN N V C O) (af : List N) (x : N) : Bool := decide (x ∈ af) || outB bn x

theorem splitRead_ok {bn : BN N V C O} (hw : bn.Well) (af : List N) : ∀ ds, (∀ d ∈ ds, d ∈ bn.dag.nodes) →
    splitRead bn af ds = .ok (ds.filter (readB bn af), ds.filter (fun x => !readB bn af x)) := by
  intro ds
  induction ds with
  | nil => intro _; rfl
  | cons d ds ih =>
    intro h
    have e : isRead bn af d = .ok (readB bn af d) := by
      unfold isRead readB
      split
      · rename_i hd; simp [hd]
      · rename_i hd; simp [hd, isExogenous_ok hw (h d (by simp))]
    unfold splitRead
    rw [e, ih (fun x hx => h x (by simp [hx]))]
    cases hb : readB bn af d <;> simp [hb, bind, Except.bind, pure, Except.pure]

/-- What blueprint a node gets when `af` is fixed. -/
structure Planned (bn : BN N V C O) (af own : List N) (d : N) (l s : Blueprint N) : Prop where
  nameL : l.name = d
  nameS : s.name = d
  frozen : (∀ p, bn.dag.E p d → p ∈ af) → l.type = .frozen ∧ l.toSample = [] ∧ s.toSample = [] ∧
    (∀ p, p ∈ l.toRead ↔ bn.dag.E p d) ∧ (∀ p, p ∈ s.toRead ↔ bn.dag.E p d) ∧
    (s.type = .single ↔ ∃ p, bn.dag.E p d ∧ p ∈ own) ∧ (s.type = .single ∨ s = l)
  compound : ¬ (∀ p, bn.dag.E p d → p ∈ af) → s = l ∧ l.type = .compound ∧
    ∃ req, req.Nodup ∧ RespectsPaths bn.dag.E req ∧
      (∀ x, x ∈ req ↔ TransGen bn.dag.E x d ∧ ∀ y ∈ af, TransGen bn.dag.E y d → ¬ TransGen bn.dag.E x y) ∧
      l.toRead = req.filter (readB bn af) ∧ l.toSample = req.filter (fun x => !readB bn af x)

theorem blueprint_ok {bn : BN N V C O} (hw : bn.Well) (a : NSet N) {d : N} (hd : d ∈ bn.dag.nodes) :
    ∃ l s, blueprint bn a d = .ok (l, s) ∧ Planned bn (a.wasFixed ++ a.fixed) a.fixed d l s := by
  obtain ⟨lo, hl⟩ := hw.toRep.exists_loci hd
  have hpar : ∀ p, p ∈ lo.parents ↔ bn.dag.E p d := by
    intro p
    rw [hw.edges]
    constructor
    · intro h; exact ⟨lo, hl, h⟩
    · rintro ⟨l', h1, h2⟩; rw [hl] at h1; cases h1; exact h2
  have hall : (lo.parents.all (· ∈ a.wasFixed ++ a.fixed) = true) ↔ ∀ p, bn.dag.E p d → p ∈ a.wasFixed ++ a.fixed := by
    rw [List.all_eq_true]
    constructor
    · intro h p hp; simpa using h p ((hpar p).2 hp)
    · intro h p hp; simpa using h p ((hpar p).1 hp)
  by_cases h : ∀ p, bn.dag.E p d → p ∈ a.wasFixed ++ a.fixed
  · refine ⟨⟨d, .frozen, lo.parents, []⟩,
      if lo.parents.any (· ∈ a.fixed) then ⟨d, .single, lo.parents, []⟩ else ⟨d, .frozen, lo.parents, []⟩, ?_, ?_⟩
    · unfold blueprint
      rw [get_ok hl]
      show (if lo.parents.all (· ∈ a.wasFixed ++ a.fixed) then _ else _) = _
      rw [if_pos (hall.2 h)]
      rfl
    · have hany : (lo.parents.any (· ∈ a.fixed) = true) ↔ ∃ p, bn.dag.E p d ∧ p ∈ a.fixed := by
        rw [List.any_eq_true]
        constructor
        · rintro ⟨p, h1, h2⟩; exact ⟨p, (hpar p).1 h1, by simpa using h2⟩
        · rintro ⟨p, h1, h2⟩; exact ⟨p, (hpar p).2 h1, by simpa using h2⟩
      constructor
      · rfl
      · split <;> rfl
      · intro _
        refine ⟨rfl, rfl, by split <;> rfl, hpar, fun p => by split <;> exact hpar p, ?_, ?_⟩
        · rw [← hany]
          split
          · rename_i h1; simp only [h1]
          · rename_i h1
            simp only [h1]
            constructor
            · intro h2; cases h2
            · intro h2; cases h2
        · split
          · exact .inl rfl
          · exact .inr rfl
      · intro hn; exact absurd h hn
  · obtain ⟨req, h1, h2, h3, h4⟩ := minimalRequirements_ok hw.wf hw.acyclic hd (a.wasFixed ++ a.fixed)
    have hreq : ∀ x ∈ req, x ∈ bn.dag.nodes := fun x hx => mem_nodes_of_trans_left hw.wf ((h4 x).1 hx).1
    refine ⟨⟨d, .compound, req.filter (readB bn (a.wasFixed ++ a.fixed)), req.filter (fun x => !readB bn (a.wasFixed ++ a.fixed) x)⟩,
      ⟨d, .compound, req.filter (readB bn (a.wasFixed ++ a.fixed)), req.filter (fun x => !readB bn (a.wasFixed ++ a.fixed) x)⟩, ?_, ?_⟩
    · unfold blueprint
      rw [get_ok hl]
      show (if lo.parents.all (· ∈ a.wasFixed ++ a.fixed) then _ else _) = _
      rw [if_neg (fun hh => h (hall.1 hh)), h1]
      show (do
        let (rd, sm) ← splitRead bn (a.wasFixed ++ a.fixed) req
        return ((⟨d, .compound, rd, sm⟩ : Blueprint N), (⟨d, .compound, rd, sm⟩ : Blueprint N))) = _
      rw [splitRead_ok hw _ req hreq]
      rfl
    · exact ⟨rfl, rfl, fun hh => absurd hh h, fun _ => ⟨rfl, rfl, req, h2, h3, h4, rfl, rfl⟩⟩

theorem samplers_ok {bn : BN N V C O} (hw : bn.Well) : ∀ ds (a : NSet N), (∀ d ∈ ds, d ∈ bn.dag.nodes) →
    ∃ ls ss, samplers bn ds a = .ok { a with localS := ls, sharedS := ss } ∧
      (∀ x ∈ ds, ∃ l s, ls.get? x = some l ∧ ss.get? x = some s ∧ Planned bn (a.wasFixed ++ a.fixed) a.fixed x l s) ∧
      (∀ x, x ∉ ds → ls.get? x = a.localS.get? x ∧ ss.get? x = a.sharedS.get? x) := by
  intro ds
  induction ds with
  | nil => intro a _; exact ⟨a.localS, a.sharedS, rfl, by simp, by simp⟩
  | cons d ds ih =>
    intro a h
    obtain ⟨l, s, h1, h2⟩ := blueprint_ok hw a (h d (by simp))
    obtain ⟨ls, ss, h3, h4, h5⟩ := ih { a with localS := a.localS.set d l, sharedS := a.sharedS.set d s }
      (fun x hx => h x (by simp [hx]))
    refine ⟨ls, ss, ?_, ?_, ?_⟩
    · unfold samplers
      rw [h1]
      exact h3
    · intro x hx
      by_cases hxd : x ∈ ds
      · exact h4 x hxd
      · rcases List.mem_cons.1 hx with rfl | hx
        · refine ⟨l, s, ?_, ?_, h2⟩
          · rw [(h5 x hxd).1]; exact Dict.get?_set_self _ _ _
          · rw [(h5 x hxd).2]; exact Dict.get?_set_self _ _ _
        · exact absurd hx hxd
    · intro x hx
      have hxd : x ≠ d := fun e => hx (by simp [e])
      have hxs : x ∉ ds := fun e => hx (by simp [e])
      constructor
      · rw [(h5 x hxs).1]; exact Dict.get?_set_ne _ _ (Ne.symm hxd)
      · rw [(h5 x hxs).2]; exact Dict.get?_set_ne _ _ (Ne.symm hxd)

/-- A failing blueprint is that of an unknown node. -/
theorem blueprint_known {bn : BN N V C O} (hw : bn.Well) {a : NSet N} {d : N} {r : Blueprint N × Blueprint N}
    (h : blueprint bn a d = .ok r) : d ∈ bn.dag.nodes := by
  unfold blueprint at h
  obtain ⟨l, h1, -⟩ := bind_ok.1 h
  have := get_eq_ok h1
  exact (hw.defined d).1 ⟨l, this⟩

theorem samplers_known {bn : BN N V C O} (hw : bn.Well) : ∀ ds (a : NSet N) {r}, samplers bn ds a = .ok r →
    ∀ d ∈ ds, d ∈ bn.dag.nodes := by
  intro ds
  induction ds with
  | nil => intro a r _ d hd; cases hd
  | cons d ds ih =>
    intro a r h x hx
    unfold samplers at h
    obtain ⟨⟨l, s⟩, h1, h⟩ := bind_ok.1 h
    rcases List.mem_cons.1 hx with rfl | hx
    · exact blueprint_known hw h1
    · exact ih _ h x hx

/-- What the samplers of a node set are after `_define_sampler_blueprints`. -/
structure HasSamplers (bn : BN N V C O) (a b : NSet N) : Prop extends Same a b where
  known : ∀ x ∈ b.floating ++ b.willFloat, x ∈ bn.dag.nodes
  plan : ∀ x ∈ b.floating ++ b.willFloat, ∃ l s, b.localS.get? x = some l ∧ b.sharedS.get? x = some s ∧
    Planned bn (b.wasFixed ++ b.fixed) b.fixed x l s
  only : ∀ x, x ∉ b.floating ++ b.willFloat → b.localS.get? x = none ∧ b.sharedS.get? x = none

theorem samplersT_plan {bn : BN N V C O} (hw : bn.Well) : ∀ t {u}, samplersT bn t = .ok u → Tree.Rel (HasSamplers bn) t u := by
  intro t
  refine Tree.ind (P := fun t => ∀ {u}, samplersT bn t = .ok u → Tree.Rel (HasSamplers bn) t u)
    (Q := fun ts => ∀ {us}, samplersL bn ts = .ok us → Tree.RelL (HasSamplers bn) ts us) ?_ ?_ ?_ t
  · intro a ts ih u h
    unfold samplersT at h
    obtain ⟨b, h1, h⟩ := bind_ok.1 h
    obtain ⟨us, h2, h⟩ := bind_ok.1 h
    rw [pure_ok] at h
    subst h
    have hk := samplers_known hw _ _ h1
    obtain ⟨ls, ss, h3, h4, h5⟩ := samplers_ok hw (a.floating ++ a.willFloat) { a with localS := [], sharedS := [] } hk
    rw [h1] at h3
    cases h3
    exact ⟨⟨⟨rfl, rfl, rfl, rfl, rfl⟩, hk, h4, h5⟩, ih h2⟩
  · intro us h
    unfold samplersL at h
    cases h
    trivial
  · intro t ts ih1 ih2 us h
    unfold samplersL at h
    obtain ⟨b, h1, h⟩ := bind_ok.1 h
    obtain ⟨us, h2, h⟩ := bind_ok.1 h
    rw [pure_ok] at h
    subst h
    exact ⟨ih1 h1, ih2 h2⟩

/-! ## The whole of `inject_bn` for one node set with closed requests -/

theorem rootList_ok {bn : BN N V C O} (h : Props.Sampling.Ready bn) : ∃ l, rootList bn = .ok l ∧
    ∀ x, x ∈ l ↔ x ∈ bn.dag.nodes ∧ ∀ p, ¬ bn.dag.E p x := by
  have hroots : ∀ x, x ∈ bn.dag.roots ↔ x ∈ bn.dag.nodes ∧ ∀ p, ¬ bn.dag.E p x := (Props.Dag.C03_roots bn.dag).2
  refine ⟨bn.dag.roots, ?_, hroots⟩
  obtain ⟨ds, b, hb, hbn⟩ := h
  obtain ⟨hw, hf, -⟩ := Props.BN.built_inv hb
  obtain ⟨od, ho, ht⟩ := order_ok_of_acyclic hw.wf hw.acyclic
  rcases hbn with rfl | ⟨f, rfl⟩
  · simp only [rootList, BN.roots, served, hf, Bool.false_eq_true, if_false]
    rfl
  · rw [complete_ok hw.toRep ho f]
    rfl


/-- A root of the graph that is not random. -/
def PlainRoot (bn : BN N V C O) (x : N) : Prop := x ∈ bn.dag.nodes ∧ ¬ bn.Rv x ∧ ∀ p, ¬ bn.dag.E p x

/-- Fixed before the undefined nodes are located. -/
def Set2 (bn : BN N V C O) (A Fl : List N) (x : N) : Prop := Set1 bn A Fl x ∨ PlainRoot bn x

/-- Floating before the undefined nodes are located. -/
def Flo1 (bn : BN N V C O) (A Fl : List N) (x : N) : Prop := x ∈ Fl ∧ ¬ Set1 bn A Fl x

theorem validate_closed {bn : BN N V C O} (hw : bn.Well) {A Fl : List N} (hc : Closed bn A Fl) (n : N) :
    validate bn (.node (new n A Fl) []) = .ok true := by
  unfold validate validateL
  show (if A.isEmpty = true then _ else _) = _
  cases A with
  | nil => rfl
  | cons x A =>
    obtain hu := upstream_ok (g := bn.dag) (xs := x :: A) (by simp) (fun y hy => hc.known y (List.mem_append_left _ hy))
    rw [if_neg (by simp), show (new n (x :: A) Fl).asFixed = x :: A from rfl, hu]
    show Except.ok _ = _
    congr 1
    rw [List.all_eq_true]
    intro d hd
    rw [Bool.or_eq_true]
    right
    rw [decide_eq_true_eq]
    intro hm
    obtain ⟨y, hy1, hy2⟩ := List.mem_flatMap.1 hm
    exact hc.above y hy1 d ((mem_ancL_acyclic hw.wf hw.acyclic (hc.known y (List.mem_append_left _ hy1)) d).1 hy2) hd

theorem mini_closed {bn : BN N V C O} (hw : bn.Well) {A Fl : List N} (hc : Closed bn A Fl) :
    ∃ m mini, bn.dag.minimalDag (A ++ Fl) = .ok m ∧ m.order = .ok mini ∧ ∀ x, x ∈ mini ↔ x ∈ A ++ Fl := by
  obtain ⟨m, h1, hwf, h2, h3, -⟩ := minimalDag_ok hw.wf hw.acyclic (A ++ Fl)
  have hacy : Acyclic m.E := fun x hx => hw.acyclic x (TransGen.mono (fun a b h => ((h3 a b).1 h).1) _ _ hx)
  obtain ⟨mini, h4, h5⟩ := order_ok_of_acyclic hwf hacy
  refine ⟨m, mini, h1, h4, fun x => ?_⟩
  rw [h5.complete, h2]
  constructor
  · rintro ⟨s, hs, t, ht, -, -, -, h⟩
    rcases (reflTransGen_iff_eq_or_transGen).1 h with h | h
    · exact h ▸ ht
    · exact closed_trans (A := (· ∈ A ++ Fl)) hc.parents h ht
  · intro h
    exact ⟨x, h, x, h, hc.known x h, hc.known x h, .refl, .refl⟩

theorem localNode_closed {bn : BN N V C O} (hr : Props.Sampling.Ready bn) {A Fl : List N} (hc : Closed bn A Fl) (n : N) :
    ∃ a af, localNode bn true [] (new n A Fl) = .ok (a, af) ∧ a.request = (n, A, Fl) ∧ a.exo = [] ∧ a.listening = [] ∧
      a.wasFixed = [] ∧ a.willFloat = [] ∧ (∀ x, x ∈ a.fixed ↔ Set2 bn A Fl x) ∧ (∀ x, x ∈ a.floating ↔ Flo1 bn A Fl x) := by
  obtain ⟨hw, ⟨od, hod, ht⟩, -⟩ := hr.facts
  obtain ⟨m, mini, h1, h2, h3⟩ := mini_closed hw hc
  obtain ⟨rs, hrs1, hrs2⟩ := rootList_ok hr
  have hmed : bn.dag.sort (mini.filter (fun d => d ∉ A ∧ d ∉ Fl)) = .ok [] := by
    have : mini.filter (fun d => d ∉ A ∧ d ∉ Fl) = [] := by
      rw [List.filter_eq_nil_iff]
      intro x hx
      have := (h3 x).1 hx
      simp only [List.mem_append] at this
      simp only [decide_eq_true_eq]
      tauto
    rw [this]
    obtain ⟨l, h4, -, h5, -⟩ := sort_ok hw.wf hw.acyclic ([] : List N)
    rw [h4]
    congr 1
    rw [List.eq_nil_iff_forall_not_mem]
    intro x hx
    have := (h5 x).1 hx
    simp at this
  have hsort : bn.sort Fl = .ok (od.filter (· ∈ Fl)) := by
    unfold BN.sort; rw [hod]; rfl
  -- all requests, before moving
  obtain ⟨fx, fl, af, h4, h5, h6, h7⟩ := unfloat_closed hw ht hc (od.filter (· ∈ Fl)) []
    { (new n A Fl) with floating := Fl, fixed := A, wasFixed := [] } A rfl
    (fun x => ⟨fun h => ⟨.asked h, .inl h⟩, fun h => h.2.elim id (by simp)⟩) (fun x => Iff.rfl)
    (fun x => ⟨fun h => ⟨h, fun h' => hc.disjoint x h' h⟩, fun h => h.1⟩)
  obtain ⟨fx2, af2, h8, h9, -⟩ := fixRoots_spec hw rs
    { (new n A Fl) with floating := fl, fixed := fx, wasFixed := [] } af (fun d hd => (hrs2 d).1 hd)
  have hfx2 : ∀ x, x ∈ fx2 ↔ Set2 bn A Fl x := by
    intro x
    rw [h9]
    unfold Set2 PlainRoot
    rw [hrs2]
    refine or_congr (h6 x) ?_
    tauto
  obtain ⟨li, ex, h10, h11, h12⟩ := require_spec hw mini []
    { (new n A Fl) with floating := fl, fixed := fx2, wasFixed := [], listening := [], exo := [] }
    (fun d hd => hc.known d ((h3 d).1 hd))
  have hli : without li mini = [] := by
    unfold without
    rw [List.filter_eq_nil_iff]
    intro x hx
    rcases h11 x hx with h | ⟨d, hd, -, h⟩
    · cases h
    · have := closed_trans (A := (· ∈ A ++ Fl)) hc.parents h ((h3 d).1 hd)
      simpa using (h3 x).2 this
  have hex : without ex fx2 = [] := by
    unfold without
    rw [List.filter_eq_nil_iff]
    intro x hx
    rcases h12 x hx with h | ⟨d, hd, hfl, h⟩
    · cases h
    · have hds : Set1 bn A Fl d := by
        by_contra hns
        have hdF : d ∈ Fl := by
          rcases List.mem_append.1 ((h3 d).1 hd) with h | h
          · exact absurd (.asked h) hns
          · exact h
        exact hfl ((h7 d).2 ⟨hdF, hns⟩)
      have : Set1 bn A Fl x :=
        closed_trans (A := Set1 bn A Fl) (fun s hs => settled_closed (A := (· ∈ A)) hc.fixedClosed hs) h hds
      simpa using (hfx2 x).2 (.inl this)
  refine ⟨{ (new n A Fl) with floating := fl, fixed := fx2, wasFixed := [], listening := [], exo := [] }, af2, ?_, rfl, rfl, rfl,
    rfl, rfl, hfx2, h7⟩
  have htop := (bind_ok (x := rootList bn) (f := fun rs => fixRoots bn rs _ af)).2 ⟨rs, hrs1, h8⟩
  unfold localNode
  refine bind_ok.2 ⟨m, h1, bind_ok.2 ⟨mini, h2, bind_ok.2 ⟨[], hmed, bind_ok.2 ⟨_, rfl, bind_ok.2 ⟨_, hsort, bind_ok.2 ⟨_, h4,
    bind_ok.2 ⟨_, htop, bind_ok.2 ⟨_, h10, ?_⟩⟩⟩⟩⟩⟩⟩⟩
  simp only [hli, hex]
  rfl

/-- Only the membership of network nodes in the fixed lists matters. -/
theorem Planned.congr {bn : BN N V C O} (hw : bn.Well) {af af' own own' : List N} {d : N} {l s : Blueprint N}
    (h : Planned bn af own d l s) (h1 : ∀ x ∈ bn.dag.nodes, x ∈ af ↔ x ∈ af') (h2 : ∀ x ∈ bn.dag.nodes, x ∈ own ↔ x ∈ own') :
    Planned bn af' own' d l s := by
  have hE : ∀ p, bn.dag.E p d → p ∈ bn.dag.nodes := fun p hp => mem_nodes_of_trans_left hw.wf (.single hp)
  have hT : ∀ p, TransGen bn.dag.E p d → p ∈ bn.dag.nodes := fun p hp => mem_nodes_of_trans_left hw.wf hp
  have ha : (∀ p, bn.dag.E p d → p ∈ af) ↔ ∀ p, bn.dag.E p d → p ∈ af' :=
    forall_congr' fun p => forall_congr' fun hp => h1 p (hE p hp)
  refine ⟨h.nameL, h.nameS, fun hh => ?_, fun hh => ?_⟩
  · obtain ⟨a1, a2, a3, a4, a5, a6, a7⟩ := h.frozen (ha.2 hh)
    refine ⟨a1, a2, a3, a4, a5, a6.trans ?_, a7⟩
    exact exists_congr fun p => and_congr_right fun hp => h2 p (hE p hp)
  · obtain ⟨a1, a2, req, a3, a4, a5, a6, a7⟩ := h.compound (fun h => hh (ha.1 h))
    have hreq : ∀ x ∈ req, readB bn af x = readB bn af' x := by
      intro x hx
      unfold readB
      rw [decide_eq_decide.2 (h1 x (hT x ((a5 x).1 hx).1))]
    refine ⟨a1, a2, req, a3, a4, fun x => (a5 x).trans (and_congr_right fun hx => ?_), ?_, ?_⟩
    · constructor
      · exact fun h y hy hyd => h y ((h1 y (hT y hyd)).2 hy) hyd
      · exact fun h y hy hyd => h y ((h1 y (hT y hyd)).1 hy) hyd
    · rw [a6]
      exact List.filter_congr hreq
    · rw [a7]
      exact List.filter_congr fun x hx => by rw [hreq x hx]

theorem set2_next {bn : BN N V C O} {A Fl : List N} (hc : Closed bn A Fl) {x : N} (hx : x ∈ A ++ Fl) (hr : ¬ bn.Rv x)
    (hp : ∀ p, bn.dag.E p x → Set2 bn A Fl p) : Set1 bn A Fl x := by
  refine .follows hx hr fun p hpx => ?_
  rcases hp p hpx with h | ⟨h1, h2, h3⟩
  · exact h
  · exact .follows (hc.parents x hx p hpx) h2 (fun q hq => absurd hq (h3 q))

/-- The last stages of `inject_bn` on a single node set, once the requests are resolved. -/
theorem finish_single {bn : BN N V C O} (hr : Props.Sampling.Ready bn) {A Fl : List N} (hc : Closed bn A Fl) (a : NSet N)
    (hwas : a.wasFixed = []) (hwill : a.willFloat = [])
    (hfx : ∀ x, x ∈ a.fixed ↔ Set2 bn A Fl x) (hfl : ∀ x, x ∈ a.floating ↔ Flo1 bn A Fl x) :
    ∃ t3 t4 b, locate bn (.node a []) = .ok t3 ∧ samplersT bn t3 = .ok t4 ∧ sortT bn t4 = .ok (.node b []) ∧
      b.request = a.request ∧ b.wasFixed = [] ∧ b.willFloat = [] ∧
      (∃ od, bn.order = .ok od ∧ b.fixed = od.filter (· ∈ b.fixed)) ∧
      (∀ x, x ∈ b.fixed ↔ Set1 bn A Fl x ∨ (x ∈ bn.dag.nodes ∧ ¬ bn.Rv x ∧ ∀ p, bn.dag.E p x → Set2 bn A Fl p)) ∧
      (∀ x, x ∈ b.floating ↔ Flo1 bn A Fl x ∨ (x ∈ bn.dag.nodes ∧ x ∉ A ++ Fl ∧
        (∀ p, bn.dag.E p x → Set2 bn A Fl p ∨ Flo1 bn A Fl p) ∧ (bn.Rv x ∨ ∃ p, bn.dag.E p x ∧ Flo1 bn A Fl p))) ∧
      (∀ x ∈ b.floating, ∃ l s, b.localS.get? x = some l ∧ b.sharedS.get? x = some s ∧ Planned bn b.fixed b.fixed x l s) ∧
      (∀ x, x ∉ b.floating → b.localS.get? x = none ∧ b.sharedS.get? x = none) := by
  obtain ⟨hw, ⟨od, hod, ht⟩, -⟩ := hr.facts
  have hset1 : ∀ x, Set1 bn A Fl x → x ∈ bn.dag.nodes := fun x hx => hc.known x (set1_sub hx)
  have hflo : ∀ x, Flo1 bn A Fl x → x ∈ bn.dag.nodes := fun x hx => hc.known x (by simp [hx.1])
  -- the undefined nodes
  obtain ⟨fx, fl, rest, hp1, hp2, hp3, -⟩ := passNode_spec hw (a.fixed ++ []) (a.floating ++ [] ++ (a.fixed ++ []))
    (od.filter (· ∉ used (.node a [])))
    a (fun d hd => (ht.complete d).1 (List.mem_filter.1 hd).1)
  have hloc : locate bn (.node a []) =
      .ok (.node { a with fixed := fx, floating := fl } []) := by
    unfold locate passT
    refine bind_ok.2 ⟨_, hod, bind_ok.2 ⟨_, hp1, ?_⟩⟩
    rfl
  have hund : ∀ x, x ∈ od.filter (· ∉ used (.node a [])) ↔
      x ∈ bn.dag.nodes ∧ ¬ Set2 bn A Fl x ∧ ¬ Flo1 bn A Fl x := by
    intro x
    rw [List.mem_filter, ht.complete, decide_eq_true_eq]
    refine and_congr_right fun _ => ?_
    show ¬ x ∈ a.fixed ++ a.floating ++ [] ↔ _
    rw [List.append_nil, List.mem_append, hfx, hfl, not_or]
  have hfx' : ∀ x, x ∈ fx ↔ Set1 bn A Fl x ∨ (x ∈ bn.dag.nodes ∧ ¬ bn.Rv x ∧ ∀ p, bn.dag.E p x → Set2 bn A Fl p) := by
    intro x
    rw [hp2, hund]
    simp only [List.append_nil, hfx]
    constructor
    · rintro (h | ⟨⟨h1, h2, h3⟩, h4, h5⟩)
      · rcases h with h | ⟨h1, h2, h3⟩
        · exact .inl h
        · exact .inr ⟨h1, h2, fun p hp => absurd hp (h3 p)⟩
      · exact .inr ⟨h1, h5, h4⟩
    · rintro (h | ⟨h1, h2, h3⟩)
      · exact .inl (.inl h)
      · by_cases h4 : Set2 bn A Fl x
        · exact .inl h4
        · refine .inr ⟨⟨h1, h4, fun h5 => ?_⟩, h3, h2⟩
          exact h4 (.inl (set2_next hc (by simp [h5.1]) h2 h3))
  have hfl' : ∀ x, x ∈ fl ↔ Flo1 bn A Fl x ∨ (x ∈ bn.dag.nodes ∧ x ∉ A ++ Fl ∧
        (∀ p, bn.dag.E p x → Set2 bn A Fl p ∨ Flo1 bn A Fl p) ∧ (bn.Rv x ∨ ∃ p, bn.dag.E p x ∧ Flo1 bn A Fl p)) := by
    have hdis : ∀ p, Flo1 bn A Fl p → ¬ Set2 bn A Fl p := by
      rintro p ⟨h1, h2⟩ (h | ⟨h3, h4, h5⟩)
      · exact h2 h
      · exact h2 (.follows (by simp [h1]) h4 (fun q hq => absurd hq (h5 q)))
    have hin : ∀ x, x ∈ A ++ Fl ↔ Set1 bn A Fl x ∨ Flo1 bn A Fl x := by
      intro x
      constructor
      · intro h
        by_cases hs : Set1 bn A Fl x
        · exact .inl hs
        · refine .inr ⟨?_, hs⟩
          rcases List.mem_append.1 h with h | h
          · exact absurd (.asked h) hs
          · exact h
      · rintro (h | h)
        · exact set1_sub h
        · simp [h.1]
    intro x
    rw [hp3, hund]
    simp only [List.append_nil, List.mem_append, hfx, hfl]
    refine or_congr Iff.rfl ?_
    constructor
    · rintro ⟨⟨h1, h2, h3⟩, h | ⟨h4, h5⟩⟩
      · refine ⟨h1, ?_, fun p hp => .inl (h.1 p hp), .inl h.2⟩
        rw [← List.mem_append, hin]
        rintro (h | h)
        · exact h2 (.inl h)
        · exact h3 h
      · refine ⟨h1, ?_, fun p hp => (h5 p hp).symm, ?_⟩
        · rw [← List.mem_append, hin]
          rintro (h | h)
          · exact h2 (.inl h)
          · exact h3 h
        · push Not at h4
          obtain ⟨p, hp, hps⟩ := h4
          exact .inr ⟨p, hp, (h5 p hp).resolve_right hps⟩
    · rintro ⟨h1, h2, h3, h4⟩
      rw [← List.mem_append, hin] at h2
      have hx1 : ¬ Flo1 bn A Fl x := fun h => h2 (.inr h)
      have hpr : ¬ Set2 bn A Fl x := by
        rintro (h | ⟨h5, h6, h7⟩)
        · exact h2 (.inl h)
        · rcases h4 with h4 | ⟨p, hp, -⟩
          · exact h6 h4
          · exact h7 p hp
      refine ⟨⟨h1, hpr, hx1⟩, ?_⟩
      by_cases h5 : ∀ p, bn.dag.E p x → Set2 bn A Fl p
      · refine .inl ⟨h5, h4.resolve_right ?_⟩
        rintro ⟨p, hp, hpf⟩
        exact hdis p hpf (h5 p hp)
      · exact .inr ⟨h5, fun p hp => (h3 p hp).symm⟩
  -- samplers
  obtain ⟨ls, ss, hs1, hs2, hs3⟩ := samplers_ok hw (fl ++ a.willFloat)
    { a with fixed := fx, floating := fl, localS := [], sharedS := [] } (by
      intro d hd
      rw [hwill, List.append_nil, hfl'] at hd
      rcases hd with h | h
      · exact hflo d h
      · exact h.1)
  have hsam : samplersT bn (.node { a with fixed := fx, floating := fl } []) =
      .ok (.node { a with fixed := fx, floating := fl, localS := ls, sharedS := ss } []) := by
    unfold samplersT
    refine bind_ok.2 ⟨_, hs1, ?_⟩
    rfl
  have hmem : ∀ x, x ∈ od.filter (· ∈ fx) ↔ x ∈ fx := by
    intro x
    rw [List.mem_filter, ht.complete, decide_eq_true_eq]
    refine and_iff_right_of_imp fun h => ?_
    rw [hfx'] at h
    rcases h with h | h
    · exact hset1 x h
    · exact h.1
  have hsort : sortT bn (.node { a with fixed := fx, floating := fl, localS := ls, sharedS := ss } []) =
      .ok (.node { a with fixed := od.filter (· ∈ fx), floating := fl, localS := ls, sharedS := ss } []) := by
    unfold sortT BN.sort
    rw [hod]
    rfl
  refine ⟨_, _, _, hloc, hsam, hsort, rfl, hwas, hwill, ⟨od, hod, ?_⟩, fun x => (hmem x).trans (hfx' x), hfl', ?_, ?_⟩
  · exact List.filter_congr fun x _ => by rw [decide_eq_decide.2 (hmem x)]
  · intro x hx
    obtain ⟨l, s, a1, a2, a3⟩ := hs2 x (by simpa [hwill] using hx)
    refine ⟨l, s, a1, a2, a3.congr hw ?_ ?_⟩
    · intro y _
      simp only [hwas, List.nil_append]
      exact (hmem y).symm
    · intro y _
      exact (hmem y).symm
  · intro x hx
    exact hs3 x (by simpa [hwill] using hx)

/-- The whole of `inject_bn` on a single node set whose requests are closed under parents. -/
theorem closed_single {bn : BN N V C O} (hr : Props.Sampling.Ready bn) {A Fl : List N} (hc : Closed bn A Fl) (n : N) :
    ∃ b, inject bn (.node (new n A Fl) []) = .ok (.node b []) ∧ b.request = (n, A, Fl) ∧ b.wasFixed = [] ∧ b.willFloat = [] ∧
      (∃ od, bn.order = .ok od ∧ b.fixed = od.filter (· ∈ b.fixed)) ∧
      (∀ x, x ∈ b.fixed ↔ Set1 bn A Fl x ∨ (x ∈ bn.dag.nodes ∧ ¬ bn.Rv x ∧ ∀ p, bn.dag.E p x → Set2 bn A Fl p)) ∧
      (∀ x, x ∈ b.floating ↔ Flo1 bn A Fl x ∨ (x ∈ bn.dag.nodes ∧ x ∉ A ++ Fl ∧
        (∀ p, bn.dag.E p x → Set2 bn A Fl p ∨ Flo1 bn A Fl p) ∧ (bn.Rv x ∨ ∃ p, bn.dag.E p x ∧ Flo1 bn A Fl p))) ∧
      (∀ x ∈ b.floating, ∃ l s, b.localS.get? x = some l ∧ b.sharedS.get? x = some s ∧ Planned bn b.fixed b.fixed x l s) ∧
      (∀ x, x ∉ b.floating → b.localS.get? x = none ∧ b.sharedS.get? x = none) := by
  obtain ⟨hw, ⟨od, hod, ht⟩, -⟩ := hr.facts
  obtain ⟨a, af, h1, hreq, hexo, hli, hwas, hwill, hfx, hfl⟩ := localNode_closed hr hc n
  have hv := validate_closed hw hc n
  -- local nodes
  have hl : localT bn true [] (.node (new n A Fl) []) = .ok (.node a []) := by
    unfold localT
    rw [h1]
    rfl
  -- relations
  have hrel : relateT bn true [] (raiseT (.node a [])).1 = .ok (.node { a with willFloat := [], exo := [], listening := [] } [], []) := by
    have e : ({ a with willFloat := [] } : NSet N) = a := by rw [← hwill]
    show relateT bn true [] (.node { a with willFloat := [] } []) = _
    rw [e]
    unfold relateT relateNode
    rw [hexo, hli]
    cases a
    simp only at hwas hexo hli hwill
    subst hwas hexo hli hwill
    simp only [List.filter_nil, splitRandom, dropExo, bind, Except.bind, pure, Except.pure, without, List.append_nil, if_true, relateL]
  obtain ⟨t3, t4, b, h3, h4, h5, h6, h7, h8, h9⟩ := finish_single hr hc { a with willFloat := [], exo := [], listening := [] } hwas rfl hfx hfl
  exact ⟨b, bind_ok.2 ⟨true, hv, bind_ok.2 ⟨_, hl, bind_ok.2 ⟨_, hrel, bind_ok.2 ⟨_, h3, bind_ok.2 ⟨_, h4, h5⟩⟩⟩⟩⟩, h6.trans hreq, h7, h8, h9⟩

/-! ## Only floating requests -/

/-- Without randomness: neither random nor below a random node. -/
def NR (bn : BN N V C O) (x : N) : Prop := ∀ a, ReflTransGen bn.dag.E a x → ¬ bn.Rv a

theorem hasRandomness_nr {bn : BN N V C O} (hw : bn.Well) {d : N} (hd : d ∈ bn.dag.nodes) {af : List N}
    (ha : ∀ x ∈ af, NR bn x) : ∃ b, bn.hasRandomness d af = .ok b ∧ (b = true ↔ ¬ NR bn d) := by
  have hnr : ¬ NR bn d ↔ bn.Rv d ∨ ∃ a, TransGen bn.dag.E a d ∧ bn.Rv a := by
    unfold NR
    push Not
    constructor
    · rintro ⟨a, h1, h2⟩
      rcases (reflTransGen_iff_eq_or_transGen).1 h1 with h | h
      · exact .inl (h ▸ h2)
      · exact .inr ⟨a, h, h2⟩
    · rintro (h | ⟨a, h1, h2⟩)
      · exact ⟨d, .refl, h⟩
      · exact ⟨a, h1.to_reflTransGen, h2⟩
  rw [hnr]
  by_cases he : af = []
  · subst he
    exact Props.BN.C21_no_given hw.toRep hw.acyclic hd
  · obtain ⟨b, h1, h2⟩ := Props.BN.hasRandomness_given hw.toRep hw.acyclic hd he
    refine ⟨b, h1, h2.trans (or_congr Iff.rfl (exists_congr fun a => ?_))⟩
    constructor
    · rintro ⟨h3, -, h5, -⟩
      exact ⟨h3, h5⟩
    · rintro ⟨h3, h4⟩
      exact ⟨h3, fun h => ha a h a .refl h4, h4, fun s hs _ h => ha s hs a h.to_reflTransGen h4⟩

theorem mediators_nr {bn : BN N V C O} (hw : bn.Well) : ∀ ds (a : NSet N) af, (∀ d ∈ ds, d ∈ bn.dag.nodes) → (∀ x ∈ af, NR bn x) →
    ∃ fx fl af', mediators bn ds a af = .ok ({ a with fixed := fx, floating := fl }, af') ∧
      (∀ x, x ∈ fx ↔ x ∈ a.fixed ∨ (x ∈ ds ∧ NR bn x)) ∧ (∀ x, x ∈ fl ↔ x ∈ a.floating ∨ (x ∈ ds ∧ ¬ NR bn x)) ∧
      (∀ x ∈ af', NR bn x) := by
  intro ds
  induction ds with
  | nil => intro a af _ h; exact ⟨a.fixed, a.floating, af, rfl, by simp, by simp, h⟩
  | cons d ds ih =>
    intro a af hk h
    obtain ⟨b, hb, hb'⟩ := hasRandomness_nr hw (hk d (by simp)) h
    have hrest : ∀ x ∈ ds, x ∈ bn.dag.nodes := fun x hx => hk x (by simp [hx])
    unfold mediators
    rw [hb]
    show ∃ fx fl af', (if b = true then mediators bn ds { a with floating := d :: a.floating } af
      else mediators bn ds { a with fixed := d :: a.fixed } (d :: af)) = _ ∧ _
    split
    · rename_i hbt
      have hnr := hb'.1 hbt
      obtain ⟨fx, fl, af', h1, h2, h3, h4⟩ := ih { a with floating := d :: a.floating } af hrest h
      refine ⟨fx, fl, af', h1, fun x => ?_, fun x => ?_, h4⟩
      · rw [h2, List.mem_cons]
        refine or_congr Iff.rfl ⟨fun h => ⟨.inr h.1, h.2⟩, ?_⟩
        rintro ⟨rfl | h, h'⟩
        · exact absurd h' hnr
        · exact ⟨h, h'⟩
      · rw [h3, List.mem_cons, List.mem_cons]
        constructor
        · rintro ((rfl | h) | h)
          · exact .inr ⟨.inl rfl, hnr⟩
          · exact .inl h
          · exact .inr ⟨.inr h.1, h.2⟩
        · rintro (h | ⟨rfl | h, h'⟩)
          · exact .inl (.inr h)
          · exact .inl (.inl rfl)
          · exact .inr ⟨h, h'⟩
    · rename_i hbt
      have hnr : NR bn d := by
        by_contra hh
        exact hbt (hb'.2 hh)
      obtain ⟨fx, fl, af', h1, h2, h3, h4⟩ := ih { a with fixed := d :: a.fixed } (d :: af) hrest
        (by intro x hx; rcases List.mem_cons.1 hx with rfl | hx; exacts [hnr, h x hx])
      refine ⟨fx, fl, af', h1, fun x => ?_, fun x => ?_, h4⟩
      · rw [h2, List.mem_cons, List.mem_cons]
        constructor
        · rintro ((rfl | h) | h)
          · exact .inr ⟨.inl rfl, hnr⟩
          · exact .inl h
          · exact .inr ⟨.inr h.1, h.2⟩
        · rintro (h | ⟨rfl | h, h'⟩)
          · exact .inl (.inr h)
          · exact .inl (.inl rfl)
          · exact .inr ⟨h, h'⟩
      · rw [h3, List.mem_cons]
        refine or_congr Iff.rfl ⟨fun h => ⟨.inr h.1, h.2⟩, ?_⟩
        rintro ⟨rfl | h, h'⟩
        · exact absurd hnr h'
        · exact ⟨h, h'⟩

theorem unfloat_nr {bn : BN N V C O} (hw : bn.Well) : ∀ ds (a : NSet N) af, (∀ d ∈ ds, d ∈ bn.dag.nodes) → (∀ x ∈ af, NR bn x) →
    ∃ fx fl af', unfloat bn ds a af = .ok ({ a with fixed := fx, floating := fl }, af') ∧
      (∀ x, x ∈ fx ↔ x ∈ a.fixed ∨ (x ∈ ds ∧ NR bn x)) ∧ (∀ x, x ∈ fl ↔ x ∈ a.floating ∧ (x ∈ ds → ¬ NR bn x)) ∧
      (∀ x ∈ af', NR bn x) := by
  intro ds
  induction ds with
  | nil => intro a af _ h; exact ⟨a.fixed, a.floating, af, rfl, by simp, by simp, h⟩
  | cons d ds ih =>
    intro a af hk h
    obtain ⟨b, hb, hb'⟩ := hasRandomness_nr hw (hk d (by simp)) h
    have hrest : ∀ x ∈ ds, x ∈ bn.dag.nodes := fun x hx => hk x (by simp [hx])
    unfold unfloat
    rw [hb]
    show ∃ fx fl af', (if b = true then unfloat bn ds a af
      else unfloat bn ds { a with fixed := d :: a.fixed, floating := a.floating.filter (· ≠ d) } (d :: af)) = _ ∧ _
    split
    · rename_i hbt
      have hnr := hb'.1 hbt
      obtain ⟨fx, fl, af', h1, h2, h3, h4⟩ := ih a af hrest h
      refine ⟨fx, fl, af', h1, fun x => ?_, fun x => ?_, h4⟩
      · rw [h2, List.mem_cons]
        refine or_congr Iff.rfl ⟨fun h => ⟨.inr h.1, h.2⟩, ?_⟩
        rintro ⟨rfl | h, h'⟩
        · exact absurd h' hnr
        · exact ⟨h, h'⟩
      · rw [h3, List.mem_cons]
        refine and_congr_right fun _ => ⟨fun h => ?_, fun h h' => h (.inr h')⟩
        rintro (rfl | h')
        · exact hnr
        · exact h h'
    · rename_i hbt
      have hnr : NR bn d := by
        by_contra hh
        exact hbt (hb'.2 hh)
      obtain ⟨fx, fl, af', h1, h2, h3, h4⟩ := ih { a with fixed := d :: a.fixed, floating := a.floating.filter (· ≠ d) } (d :: af) hrest
        (by intro x hx; rcases List.mem_cons.1 hx with rfl | hx; exacts [hnr, h x hx])
      refine ⟨fx, fl, af', h1, fun x => ?_, fun x => ?_, h4⟩
      · rw [h2, List.mem_cons, List.mem_cons]
        constructor
        · rintro ((rfl | h) | h)
          · exact .inr ⟨.inl rfl, hnr⟩
          · exact .inl h
          · exact .inr ⟨.inr h.1, h.2⟩
        · rintro (h | ⟨rfl | h, h'⟩)
          · exact .inl (.inr h)
          · exact .inl (.inl rfl)
          · exact .inr ⟨h, h'⟩
      · rw [h3, List.mem_filter, List.mem_cons, decide_eq_true_eq]
        constructor
        · rintro ⟨⟨h5, h6⟩, h7⟩
          refine ⟨h5, ?_⟩
          rintro (h8 | h8)
          · exact absurd h8 h6
          · exact h7 h8
        · rintro ⟨h5, h6⟩
          exact ⟨⟨h5, fun h7 => h6 (.inl h7) (h7 ▸ hnr)⟩, fun h8 => h6 (.inr h8)⟩

theorem splitRandom_nr {bn : BN N V C O} (hw : bn.Well) {af : List N} (ha : ∀ x ∈ af, NR bn x) : ∀ ds, (∀ d ∈ ds, d ∈ bn.dag.nodes) →
    ∃ r m, splitRandom bn af ds = .ok (r, m) ∧ (∀ x, x ∈ r ↔ x ∈ ds ∧ ¬ NR bn x) ∧ (∀ x, x ∈ m ↔ x ∈ ds ∧ NR bn x) := by
  intro ds
  induction ds with
  | nil => intro _; exact ⟨[], [], rfl, by simp, by simp⟩
  | cons d ds ih =>
    intro hk
    obtain ⟨b, hb, hb'⟩ := hasRandomness_nr hw (hk d (by simp)) ha
    obtain ⟨r, m, h1, h2, h3⟩ := ih (fun x hx => hk x (by simp [hx]))
    unfold splitRandom
    rw [hb, h1]
    cases hbt : b with
    | true =>
      have hnr := hb'.1 hbt
      refine ⟨d :: r, m, rfl, fun x => ?_, fun x => ?_⟩
      · rw [List.mem_cons, List.mem_cons, h2]
        constructor
        · rintro (rfl | h)
          · exact ⟨.inl rfl, hnr⟩
          · exact ⟨.inr h.1, h.2⟩
        · rintro ⟨rfl | h, h'⟩
          · exact .inl rfl
          · exact .inr ⟨h, h'⟩
      · rw [h3, List.mem_cons]
        refine ⟨fun h => ⟨.inr h.1, h.2⟩, ?_⟩
        rintro ⟨rfl | h, h'⟩
        · exact absurd h' hnr
        · exact ⟨h, h'⟩
    | false =>
      have hnr : NR bn d := by
        by_contra hh
        rw [hb'.2 hh] at hbt
        cases hbt
      refine ⟨r, d :: m, rfl, fun x => ?_, fun x => ?_⟩
      · rw [h2, List.mem_cons]
        refine ⟨fun h => ⟨.inr h.1, h.2⟩, ?_⟩
        rintro ⟨rfl | h, h'⟩
        · exact absurd hnr h'
        · exact ⟨h, h'⟩
      · rw [List.mem_cons, List.mem_cons, h3]
        constructor
        · rintro (rfl | h)
          · exact ⟨.inl rfl, hnr⟩
          · exact ⟨.inr h.1, h.2⟩
        · rintro ⟨rfl | h, h'⟩
          · exact .inl rfl
          · exact .inr ⟨h, h'⟩

theorem dropExo_ok {bn : BN N V C O} (hw : bn.Well) : ∀ ds, (∀ d ∈ ds, d ∈ bn.dag.nodes) →
    dropExo bn ds = .ok (ds.filter (fun x => !outB bn x)) := by
  intro ds
  induction ds with
  | nil => intro _; rfl
  | cons d ds ih =>
    intro h
    unfold dropExo
    rw [isExogenous_ok hw (h d (by simp)), ih (fun x hx => h x (by simp [hx]))]
    cases hb : outB bn d <;> simp [hb, bind, Except.bind, pure, Except.pure]

/-- Nothing above the requested nodes is overlooked. -/
theorem require_complete {bn : BN N V C O} (hw : bn.Well) : ∀ ds done (a : NSet N), (∀ d ∈ ds, d ∈ bn.dag.nodes) →
    ∀ {r}, require bn done ds a = .ok r → (∀ x, x ∈ a.listening ∨ x ∈ a.exo → x ∈ r.listening ∨ x ∈ r.exo) ∧
      (∀ x, (∀ y ∈ done, ¬ TransGen bn.dag.E x y) → (∃ d ∈ ds, TransGen bn.dag.E x d) → x ∈ r.listening ∨ x ∈ r.exo) := by
  intro ds
  induction ds with
  | nil =>
    intro done a _ r h
    cases h
    exact ⟨fun x h => h, by rintro x - ⟨d, hd, -⟩; cases hd⟩
  | cons d ds ih =>
    intro done a hk r h
    obtain ⟨rq, h1, -, -, h2⟩ := minimalRequirements_ok hw.wf hw.acyclic (hk d (by simp)) done
    have hrest : ∀ x ∈ ds, x ∈ bn.dag.nodes := fun x hx => hk x (by simp [hx])
    unfold require at h
    rw [h1] at h
    replace h : (if d ∈ a.floating then require bn (done ++ [d]) ds { a with listening := a.listening ++ rq }
      else require bn (done ++ [d]) ds { a with exo := a.exo ++ rq }) = .ok r := h
    have key : ∀ a', (∀ x, x ∈ a.listening ∨ x ∈ a.exo → x ∈ a'.listening ∨ x ∈ a'.exo) →
        (∀ x ∈ rq, x ∈ a'.listening ∨ x ∈ a'.exo) → require bn (done ++ [d]) ds a' = .ok r →
        (∀ x, x ∈ a.listening ∨ x ∈ a.exo → x ∈ r.listening ∨ x ∈ r.exo) ∧
        (∀ x, (∀ y ∈ done, ¬ TransGen bn.dag.E x y) → (∃ e ∈ d :: ds, TransGen bn.dag.E x e) → x ∈ r.listening ∨ x ∈ r.exo) := by
      intro a' h3 h4 h5
      obtain ⟨h6, h7⟩ := ih (done ++ [d]) a' hrest h5
      refine ⟨fun x hx => h6 x (h3 x hx), ?_⟩
      rintro x hx ⟨e, he, hxe⟩
      by_cases hxd : TransGen bn.dag.E x d
      · exact h6 x (h4 x ((h2 x).2 ⟨hxd, fun s hs _ => hx s hs⟩))
      · refine h7 x ?_ ⟨e, ?_, hxe⟩
        · intro y hy
          rcases List.mem_append.1 hy with hy | hy
          · exact hx y hy
          · rw [List.mem_singleton] at hy
            exact hy ▸ hxd
        · rcases List.mem_cons.1 he with rfl | he
          · exact absurd hxe hxd
          · exact he
    split at h
    · refine key _ ?_ ?_ h
      · rintro x (h | h)
        · exact .inl (List.mem_append_left _ h)
        · exact .inr h
      · exact fun x hx => .inl (List.mem_append_right _ hx)
    · refine key _ ?_ ?_ h
      · rintro x (h | h)
        · exact .inl h
        · exact .inr (List.mem_append_left _ h)
      · exact fun x hx => .inr (List.mem_append_right _ hx)

/-- The nodes and everything above them. -/
def upTo (bn : BN N V C O) (Fl : List N) : List N := Fl ++ Fl.flatMap bn.dag.ancL

theorem mem_upTo {bn : BN N V C O} (hw : bn.Well) {Fl : List N} (hk : ∀ x ∈ Fl, x ∈ bn.dag.nodes) (x : N) :
    x ∈ upTo bn Fl ↔ ∃ t ∈ Fl, ReflTransGen bn.dag.E x t := by
  unfold upTo
  rw [List.mem_append, List.mem_flatMap]
  constructor
  · rintro (h | ⟨t, h1, h2⟩)
    · exact ⟨x, h, .refl⟩
    · exact ⟨t, h1, ((mem_ancL_acyclic hw.wf hw.acyclic (hk t h1) x).1 h2).to_reflTransGen⟩
  · rintro ⟨t, h1, h2⟩
    rcases (reflTransGen_iff_eq_or_transGen).1 h2 with h | h
    · exact .inl (h ▸ h1)
    · exact .inr ⟨t, h1, (mem_ancL_acyclic hw.wf hw.acyclic (hk t h1) x).2 h⟩

theorem upTo_closed {bn : BN N V C O} (hw : bn.Well) {Fl : List N} (hk : ∀ x ∈ Fl, x ∈ bn.dag.nodes) : Closed bn [] (upTo bn Fl) where
  known := by
    intro x hx
    obtain ⟨t, h1, h2⟩ := (mem_upTo hw hk x).1 hx
    rcases (reflTransGen_iff_eq_or_transGen).1 h2 with h | h
    · exact h ▸ hk t h1
    · exact mem_nodes_of_trans_left hw.wf h
  disjoint := by simp
  parents := by
    intro x hx p hp
    obtain ⟨t, h1, h2⟩ := (mem_upTo hw hk x).1 hx
    exact (mem_upTo hw hk p).2 ⟨t, h1, .head hp h2⟩
  above := by simp

theorem NR.up {bn : BN N V C O} {x p : N} (h : NR bn x) (hp : ReflTransGen bn.dag.E p x) : NR bn p :=
  fun a ha => h a (ha.trans hp)

/-- Settled without fixed requests. -/
theorem set1_nr {bn : BN N V C O} (hr : Props.Sampling.Ready bn) {T : List N} (hc : Closed bn [] T) (x : N) :
    Set1 bn [] T x ↔ x ∈ T ∧ NR bn x := by
  obtain ⟨hw, ⟨od, hod, ht⟩, -⟩ := hr.facts
  constructor
  · intro h
    refine ⟨by simpa using set1_sub h, ?_⟩
    unfold Set1 at h
    induction h with
    | asked h => cases h
    | follows h1 h2 h3 ih =>
      intro a ha
      rcases (ReflTransGen.cases_tail_iff _ _ _).1 ha with h | ⟨p, h4, h5⟩
      · exact h ▸ h2
      · exact ih p h5 a h4
  · rintro ⟨h1, h2⟩
    by_contra h3
    obtain ⟨a, h4, h5, -⟩ := unsettled ht (A := (· ∈ ([] : List N))) (rv := bn.Rv) (R := (· ∈ [] ++ T)) hc.parents hc.known x (by simpa using h1) h3
    exact h2 a h4 h5

/-- The whole of `inject_bn` on a single node set without fixed requests, in a network without pseudo nodes. -/
theorem float_single {bn : BN N V C O} (hr : Props.Sampling.Ready bn) (hnp : ∀ x l, bn.loci.get? x = some l → l.isPseudo = false)
    {Fl : List N} (hk : ∀ x ∈ Fl, x ∈ bn.dag.nodes) (n : N) :
    ∃ b, inject bn (.node (new n [] Fl) []) = .ok (.node b []) ∧ b.request = (n, [], Fl) ∧ b.wasFixed = [] ∧ b.willFloat = [] ∧
      (∃ od, bn.order = .ok od ∧ b.fixed = od.filter (· ∈ b.fixed)) ∧
      (∀ x, x ∈ b.fixed ↔ Set1 bn [] (upTo bn Fl) x ∨ (x ∈ bn.dag.nodes ∧ ¬ bn.Rv x ∧ ∀ p, bn.dag.E p x → Set2 bn [] (upTo bn Fl) p)) ∧
      (∀ x, x ∈ b.floating ↔ Flo1 bn [] (upTo bn Fl) x ∨ (x ∈ bn.dag.nodes ∧ x ∉ [] ++ upTo bn Fl ∧
        (∀ p, bn.dag.E p x → Set2 bn [] (upTo bn Fl) p ∨ Flo1 bn [] (upTo bn Fl) p) ∧
        (bn.Rv x ∨ ∃ p, bn.dag.E p x ∧ Flo1 bn [] (upTo bn Fl) p))) ∧
      (∀ x ∈ b.floating, ∃ l s, b.localS.get? x = some l ∧ b.sharedS.get? x = some s ∧ Planned bn b.fixed b.fixed x l s) ∧
      (∀ x, x ∉ b.floating → b.localS.get? x = none ∧ b.sharedS.get? x = none) := by
  obtain ⟨hw, ⟨od, hod, ht⟩, -⟩ := hr.facts
  have hc := upTo_closed hw hk
  have hset := set1_nr hr hc
  have hT := mem_upTo hw hk
  have hv : validate bn (.node (new n [] Fl) []) = .ok true := rfl
  -- the minimal graph
  obtain ⟨m, hm1, hwf, hm2, hm3, -⟩ := minimalDag_ok hw.wf hw.acyclic ([] ++ Fl)
  have hacy : Acyclic m.E := fun x hx => hw.acyclic x (TransGen.mono (fun a b h => ((hm3 a b).1 h).1) _ _ hx)
  obtain ⟨mini, hm4, hm5⟩ := order_ok_of_acyclic hwf hacy
  have hmini : ∀ x, x ∈ mini ↔ (∃ s ∈ Fl, ReflTransGen bn.dag.E s x) ∧ ∃ t ∈ Fl, ReflTransGen bn.dag.E x t := by
    intro x
    rw [hm5.complete, hm2]
    constructor
    · rintro ⟨s, h1, t, h2, -, -, h3, h4⟩
      exact ⟨⟨s, h1, h3⟩, ⟨t, h2, h4⟩⟩
    · rintro ⟨⟨s, h1, h3⟩, ⟨t, h2, h4⟩⟩
      exact ⟨s, h1, t, h2, hk s h1, hk t h2, h3, h4⟩
  have hFlm : ∀ x ∈ Fl, x ∈ mini := fun x hx => (hmini x).2 ⟨⟨x, hx, .refl⟩, ⟨x, hx, .refl⟩⟩
  have hmT : ∀ x ∈ mini, x ∈ upTo bn Fl := fun x hx => (hT x).2 ((hmini x).1 hx).2
  have hTn : ∀ x ∈ upTo bn Fl, x ∈ bn.dag.nodes := fun x hx => hc.known x (by simpa using hx)
  -- mediators
  obtain ⟨med, hd1, -, hd2, -⟩ := sort_ok hw.wf hw.acyclic (mini.filter (fun d => d ∉ ([] : List N) ∧ d ∉ Fl))
  have hmed : ∀ x, x ∈ med ↔ x ∈ mini ∧ x ∉ Fl := by
    intro x
    rw [hd2, List.mem_filter, decide_eq_true_eq]
    constructor
    · rintro ⟨-, h1, -, h2⟩
      exact ⟨h1, h2⟩
    · rintro ⟨h1, h2⟩
      exact ⟨hTn x (hmT x h1), h1, by simp, h2⟩
  obtain ⟨fx1, fl1, af1, hme1, hme2, hme3, hme4⟩ := mediators_nr hw med
    { (new n [] Fl) with floating := Fl, fixed := [], wasFixed := [] } ([] ++ []) (fun d hd => hTn d (hmT d ((hmed d).1 hd).1)) (by simp)
  have hfl1 : ∀ x ∈ fl1, x ∈ mini := by
    intro x hx
    rcases (hme3 x).1 hx with h | h
    · exact hFlm x h
    · exact ((hmed x).1 h.1).1
  have hsort : bn.sort fl1 = .ok (od.filter (· ∈ fl1)) := by
    unfold BN.sort; rw [hod]; rfl
  obtain ⟨fx2, fl2, af2, hu1, hu2, hu3, hu4⟩ := unfloat_nr hw (od.filter (· ∈ fl1))
    { (new n [] Fl) with floating := fl1, fixed := fx1, wasFixed := [] } af1
    (fun d hd => (ht.complete d).1 (List.mem_filter.1 hd).1) hme4
  have hodf : ∀ x, x ∈ od.filter (· ∈ fl1) ↔ x ∈ fl1 := by
    intro x
    rw [List.mem_filter, ht.complete, decide_eq_true_eq]
    exact and_iff_right_of_imp fun h => hTn x (hmT x (hfl1 x h))
  have hfx2 : ∀ x, x ∈ fx2 ↔ x ∈ mini ∧ NR bn x := by
    intro x
    rw [hu2, hodf]
    show x ∈ fx1 ∨ _ ↔ _
    rw [hme2, hme3]
    show (x ∈ ([] : List N) ∨ _) ∨ ((x ∈ Fl ∨ _) ∧ _) ↔ _
    rw [hmed]
    constructor
    · rintro ((h | h) | ⟨h | h, h'⟩)
      · cases h
      · exact ⟨h.1.1, h.2⟩
      · exact ⟨hFlm x h, h'⟩
      · exact absurd h' h.2
    · rintro ⟨h1, h2⟩
      by_cases h3 : x ∈ Fl
      · exact .inr ⟨.inl h3, h2⟩
      · exact .inl (.inr ⟨⟨h1, h3⟩, h2⟩)
  have hfl2 : ∀ x, x ∈ fl2 ↔ x ∈ mini ∧ ¬ NR bn x := by
    intro x
    rw [hu3, hodf]
    show x ∈ fl1 ∧ _ ↔ _
    constructor
    · rintro ⟨h1, h2⟩
      exact ⟨hfl1 x h1, h2 h1⟩
    · rintro ⟨h1, h2⟩
      refine ⟨(hme3 x).2 ?_, fun _ => h2⟩
      by_cases h3 : x ∈ Fl
      · exact .inl h3
      · exact .inr ⟨(hmed x).2 ⟨h1, h3⟩, h2⟩
  -- roots
  obtain ⟨rs, hrs1, hrs2⟩ := rootList_ok hr
  obtain ⟨fx3, af3, hf1, hf2, -⟩ := fixRoots_spec hw rs
    { (new n [] Fl) with floating := fl2, fixed := fx2, wasFixed := [] } af2 (fun d hd => (hrs2 d).1 hd)
  have hpl : ∀ x, PlainRoot bn x → NR bn x := by
    rintro x ⟨h1, h2, h3⟩ a ha
    rcases (ReflTransGen.cases_tail_iff _ _ _).1 ha with h | ⟨p, -, h5⟩
    · exact h ▸ h2
    · exact absurd h5 (h3 p)
  have hfx3 : ∀ x, x ∈ fx3 ↔ (x ∈ mini ∧ NR bn x) ∨ PlainRoot bn x := by
    intro x
    rw [hf2]
    refine or_congr (hfx2 x) ?_
    unfold PlainRoot
    rw [hrs2]
    tauto
  have htop := (bind_ok (x := rootList bn) (f := fun rs => fixRoots bn rs _ af2)).2 ⟨rs, hrs1, hf1⟩
  -- requirements
  obtain ⟨li, ex, hq1, hq2, hq3⟩ := require_spec hw mini []
    { (new n [] Fl) with floating := fl2, fixed := fx3, wasFixed := [], listening := [], exo := [] }
    (fun d hd => hTn d (hmT d hd))
  obtain ⟨-, hq4⟩ := require_complete hw mini [] _ (fun d hd => hTn d (hmT d hd)) hq1
  have hli : ∀ x ∈ li, x ∈ upTo bn Fl := by
    intro x hx
    rcases hq2 x hx with h | ⟨d, h1, -, h2⟩
    · cases h
    · exact closed_trans (A := (· ∈ [] ++ upTo bn Fl)) hc.parents h2 (by simpa using hmT d h1)
  have hex : ∀ x ∈ ex, x ∈ upTo bn Fl ∧ NR bn x := by
    intro x hx
    rcases hq3 x hx with h | ⟨d, h1, h3, h2⟩
    · cases h
    · refine ⟨closed_trans (A := (· ∈ [] ++ upTo bn Fl)) hc.parents h2 (by simpa using hmT d h1), ?_⟩
      have : NR bn d := by
        by_contra h
        exact h3 ((hfl2 d).2 ⟨h1, h⟩)
      exact this.up h2.to_reflTransGen
  have hall : ∀ x ∈ upTo bn Fl, x ∈ mini ∨ x ∈ li ∨ x ∈ ex := by
    intro x hx
    obtain ⟨t, h1, h2⟩ := (hT x).1 hx
    rcases (reflTransGen_iff_eq_or_transGen).1 h2 with h | h
    · exact .inl (h ▸ hFlm t h1)
    · exact .inr (hq4 x (by simp) ⟨t, hFlm t h1, h⟩)
  have hloc : localT bn true [] (.node (new n [] Fl) []) = .ok (.node
      { (new n [] Fl) with floating := fl2, fixed := fx3, wasFixed := [], listening := without li mini, exo := without ex fx3 } []) := by
    refine bind_ok.2 ⟨(_, af3), ?_, rfl⟩
    unfold localNode
    refine bind_ok.2 ⟨m, hm1, bind_ok.2 ⟨mini, hm4, bind_ok.2 ⟨med, hd1, bind_ok.2 ⟨_, hme1, bind_ok.2 ⟨_, hsort, bind_ok.2 ⟨_, hu1,
      bind_ok.2 ⟨_, htop, bind_ok.2 ⟨_, hq1, ?_⟩⟩⟩⟩⟩⟩⟩⟩
    rfl
  -- relations
  have hexn : ∀ d ∈ (without ex fx3).filter (· ∉ ([] : List N)), d ∈ bn.dag.nodes ∧ NR bn d := by
    intro d hd
    obtain ⟨h1, h2⟩ := hex d (List.mem_filter.1 (List.mem_filter.1 hd).1).1
    exact ⟨hTn d h1, h2⟩
  obtain ⟨r1, k1, hr1, hr2, hr3⟩ := splitRandom_nr hw (af := []) (by simp) _ (fun d hd => (hexn d hd).1)
  have hr1n : r1 = [] := by
    rw [List.eq_nil_iff_forall_not_mem]
    intro x hx
    obtain ⟨h1, h2⟩ := (hr2 x).1 hx
    exact h2 (hexn x h1).2
  subst hr1n
  have hk1 : ∀ x, x ∈ k1 ↔ x ∈ ex ∧ x ∉ fx3 := by
    intro x
    rw [hr3, List.mem_filter]
    unfold without
    rw [List.mem_filter, decide_eq_true_eq, decide_eq_true_eq]
    constructor
    · rintro ⟨⟨h1, -⟩, -⟩
      exact h1
    · intro h
      exact ⟨⟨h, by simp⟩, (hex x h.1).2⟩
  have hnr4 : ∀ x ∈ fx3 ++ [] ++ k1, NR bn x := by
    intro x hx
    rw [List.append_nil] at hx
    rcases List.mem_append.1 hx with h | h
    · rcases (hfx3 x).1 h with h | h
      · exact h.2
      · exact hpl x h
    · exact (hex x ((hk1 x).1 h).1).2
  have hdr := dropExo_ok hw ((without li mini).filter (· ∉ ([] : List N))) (fun d hd =>
    hTn d (hli d (List.mem_filter.1 (List.mem_filter.1 hd).1).1))
  obtain ⟨r2, k2, hr4, hr5, hr6⟩ := splitRandom_nr hw
    (af := (fx3 ++ [] ++ k1) ++ without (without (without ex fx3) []) k1 ++ []) (by
      intro x hx
      rw [List.append_nil] at hx
      rcases List.mem_append.1 hx with h | h
      · exact hnr4 x h
      · exact (hex x (List.mem_filter.1 (List.mem_filter.1 (List.mem_filter.1 h).1).1).1).2)
    (((without li mini).filter (· ∉ ([] : List N))).filter (fun x => !outB bn x)) (fun d hd =>
      hTn d (hli d (List.mem_filter.1 (List.mem_filter.1 (List.mem_filter.1 hd).1).1).1))
  have hlin : ∀ x, x ∈ ((without li mini).filter (· ∉ ([] : List N))).filter (fun x => !outB bn x) ↔ (x ∈ li ∧ x ∉ mini) ∧ ¬ Outside bn x := by
    intro x
    unfold without
    rw [List.mem_filter, List.mem_filter, List.mem_filter, decide_eq_true_eq, decide_eq_true_eq, Bool.not_eq_true', ← Bool.not_eq_true, outB_iff]
    simp
  have hrel : ∃ li' ex', relateT bn true [] (raiseT (.node
      { (new n [] Fl) with floating := fl2, fixed := fx3, wasFixed := [], listening := without li mini, exo := without ex fx3 } [])).1 =
      .ok (.node { (new n [] Fl) with floating := fl2 ++ r2, fixed := fx3 ++ [] ++ k1 ++ k2, wasFixed := [], listening := li', exo := ex' } [], k1) := by
    refine ⟨_, _, bind_ok.2 ⟨(_, k1), bind_ok.2 ⟨_, hr1, bind_ok.2 ⟨_, hdr, bind_ok.2 ⟨_, hr4, rfl⟩⟩⟩, bind_ok.2 ⟨(_, []), rfl, rfl⟩⟩⟩
  obtain ⟨li', ex', hrel⟩ := hrel
  have hout : ∀ x, Outside bn x → PlainRoot bn x := by
    rintro x ⟨l, h1, h2⟩
    have h3 : l.isExo = true := by
      rcases h2 with h2 | h2
      · rw [hnp x l h1] at h2; cases h2
      · exact h2
    refine ⟨(hw.defined x).1 ⟨l, h1⟩, ?_, ?_⟩
    · rintro ⟨l', h4, h5⟩
      rw [h1] at h4
      cases h4
      cases l <;> simp [Loci.isExo, Loci.isDist] at h3 h5
    · intro p hp
      obtain ⟨l', h4, h5⟩ := (hw.edges p x).1 hp
      rw [h1] at h4
      cases h4
      cases l <;> simp [Loci.isExo, Loci.parents] at h3 h5
  obtain ⟨t3, t4, b, h3, h4, h5, h6, h7, h8, h9⟩ := finish_single hr hc
    { (new n [] Fl) with floating := fl2 ++ r2, fixed := fx3 ++ [] ++ k1 ++ k2, wasFixed := [], listening := li', exo := ex' } rfl rfl
    (by
      intro x
      unfold Set2
      rw [hset, List.append_nil, List.mem_append, List.mem_append, hfx3, hk1, hr6, hlin]
      constructor
      · rintro (((h | h) | h) | h)
        · exact .inl ⟨hmT x h.1, h.2⟩
        · exact .inr h
        · exact .inl (hex x h.1)
        · exact .inl ⟨hli x h.1.1.1, h.2⟩
      · rintro (⟨h1, h2⟩ | h)
        · by_cases hin : x ∈ fx3
          · exact .inl (.inl ((hfx3 x).1 hin))
          · rcases hall x h1 with h | h | h
            · exact .inl (.inl (.inl ⟨h, h2⟩))
            · by_cases ho : Outside bn x
              · exact .inl (.inl (.inr (hout x ho)))
              · refine .inr ⟨⟨⟨h, fun hm => hin ((hfx3 x).2 (.inl ⟨hm, h2⟩))⟩, ho⟩, h2⟩
            · exact .inl (.inr ⟨h, hin⟩)
        · exact .inl (.inl (.inr h)))
    (by
      intro x
      unfold Flo1
      rw [hset, List.mem_append, hfl2, hr5, hlin]
      constructor
      · rintro (h | h)
        · exact ⟨hmT x h.1, fun h' => h.2 h'.2⟩
        · exact ⟨hli x h.1.1.1, fun h' => h.2 h'.2⟩
      · rintro ⟨h1, h2⟩
        have hn : ¬ NR bn x := fun h => h2 ⟨h1, h⟩
        rcases hall x h1 with h | h | h
        · exact .inl ⟨h, hn⟩
        · by_cases hm : x ∈ mini
          · exact .inl ⟨hm, hn⟩
          · exact .inr ⟨⟨⟨h, hm⟩, fun ho => hn (hpl x (hout x ho))⟩, hn⟩
        · exact absurd (hex x h).2 hn)
  exact ⟨b, bind_ok.2 ⟨true, hv, bind_ok.2 ⟨_, hloc, bind_ok.2 ⟨_, hrel, bind_ok.2 ⟨_, h3, bind_ok.2 ⟨_, h4, h5⟩⟩⟩⟩⟩, h6, h7, h8, h9⟩

/-! ## Hierarchies: what is left undefined -/

theorem used_labels : ∀ (t : Tree (NSet N)) x, x ∈ used t ↔ ∃ a ∈ t.labels, x ∈ a.fixed ∨ x ∈ a.floating := by
  intro t
  refine Tree.ind (P := fun t => ∀ x, x ∈ used t ↔ ∃ a ∈ t.labels, x ∈ a.fixed ∨ x ∈ a.floating)
    (Q := fun ts => ∀ x, x ∈ usedL ts ↔ ∃ a ∈ Tree.labelsL ts, x ∈ a.fixed ∨ x ∈ a.floating) ?_ ?_ ?_ t
  · intro a ts ih x
    unfold used Tree.labels
    rw [List.mem_append, List.mem_append, ih]
    simp only [List.mem_cons, exists_eq_or_imp]
  · intro x
    simp [usedL, Tree.labelsL]
  · intro t ts ih1 ih2 x
    unfold usedL Tree.labelsL
    rw [List.mem_append, ih1, ih2]
    simp only [List.mem_append, or_and_right, exists_or]

/-- A node left undefined is allocated once all its parents are allocated along one path. -/
theorem passT_places {bn : BN N V C O} (hw : bn.Well) : ∀ (t : Tree (NSet N)) {fx fl ns u}, passT bn fx fl ns t = .ok u →
    (∀ d ∈ ns, d ∈ bn.dag.nodes) → ∀ x ∈ ns, ∀ l, Tree.Path t l →
    (∀ p, bn.dag.E p x → p ∈ fx ∨ p ∈ fl ∨ ∃ a ∈ l, p ∈ a.fixed ∨ p ∈ a.floating) → x ∈ used u := by
  intro t
  refine Tree.ind
    (P := fun t => ∀ {fx fl ns u}, passT bn fx fl ns t = .ok u → (∀ d ∈ ns, d ∈ bn.dag.nodes) → ∀ x ∈ ns, ∀ l, Tree.Path t l →
      (∀ p, bn.dag.E p x → p ∈ fx ∨ p ∈ fl ∨ ∃ a ∈ l, p ∈ a.fixed ∨ p ∈ a.floating) → x ∈ used u)
    (Q := fun ts => ∀ {fx fl ns us}, passL bn fx fl ns ts = .ok us → (∀ d ∈ ns, d ∈ bn.dag.nodes) → ∀ x ∈ ns, ∀ l, Tree.PathL ts l →
      (∀ p, bn.dag.E p x → p ∈ fx ∨ p ∈ fl ∨ ∃ a ∈ l, p ∈ a.fixed ∨ p ∈ a.floating) → x ∈ usedL us) ?_ ?_ ?_ t
  · intro a ts ih fx fl ns u h hns x hx l hl hp
    unfold passT at h
    obtain ⟨fx', fl', rest, h1, h2, h3, h4⟩ := passNode_spec hw (a.fixed ++ fx) (a.floating ++ fl ++ (a.fixed ++ fx)) ns a hns
    obtain ⟨r, h5, h⟩ := bind_ok.1 h
    cases h1.symm.trans h5
    obtain ⟨us, h6, h⟩ := bind_ok.1 h
    rw [pure_ok] at h
    subst h
    unfold used
    rw [List.mem_append, List.mem_append]
    by_cases hgi : ∀ p, bn.dag.E p x → p ∈ a.fixed ++ fx
    · by_cases hrv : bn.Rv x
      · exact .inl (.inr ((h3 x).2 (.inr ⟨hx, .inl ⟨hgi, hrv⟩⟩)))
      · exact .inl (.inl ((h2 x).2 (.inr ⟨hx, hgi, hrv⟩)))
    · by_cases hgl : ∀ p, bn.dag.E p x → p ∈ a.floating ++ fl ++ (a.fixed ++ fx)
      · exact .inl (.inr ((h3 x).2 (.inr ⟨hx, .inr ⟨hgi, hgl⟩⟩)))
      · have hxr : x ∈ rest := (h4 x).2 ⟨hx, hgi, hgl⟩
        rcases hl with rfl | ⟨l', rfl, hl'⟩
        · refine absurd (fun p hpx => ?_) hgl
          simp only [List.mem_append]
          rcases hp p hpx with h | h | ⟨b, hb, h⟩
          · exact .inr (.inr h)
          · exact .inl (.inr h)
          · rw [List.mem_singleton.1 hb] at h
            exact h.elim (fun h => .inr (.inl h)) (fun h => .inl (.inl h))
        · refine .inr (ih h6 (fun d hd => hns d ((h4 d).1 hd).1) x hxr l' hl' fun p hpx => ?_)
          simp only [List.mem_append]
          rcases hp p hpx with h | h | ⟨b, hb, h⟩
          · exact .inl (.inr h)
          · exact .inr (.inl (.inl (.inr h)))
          · rcases List.mem_cons.1 hb with hb | hb
            · rw [hb] at h
              exact h.elim (fun h => .inl (.inl h)) (fun h => .inr (.inl (.inl (.inl h))))
            · exact .inr (.inr ⟨b, hb, h⟩)
  · intro fx fl ns us h hns x hx l hl hp
    exact hl.elim
  · intro t ts ih1 ih2 fx fl ns us h hns x hx l hl hp
    unfold passL at h
    obtain ⟨u, h1, h⟩ := bind_ok.1 h
    obtain ⟨us, h2, h⟩ := bind_ok.1 h
    rw [pure_ok] at h
    subst h
    unfold usedL
    rw [List.mem_append]
    rcases hl with hl | hl
    · exact .inl (ih1 h1 hns x hx l hl hp)
    · exact .inr (ih2 h2 hns x hx l hl hp)

/-! ## Hierarchies: what was fixed is fixed above -/

mutual
/-- Every network node that counts as fixed before is fixed above or here. -/
def Above (bn : BN N V C O) (up : List N) : Tree (NSet N) → Prop
  | .node a ts => (∀ x ∈ a.wasFixed, x ∈ bn.dag.nodes → x ∈ up ∨ x ∈ a.fixed) ∧ AboveL bn (up ++ a.fixed) ts
/-- Of a list of children. -/
def AboveL (bn : BN N V C O) (up : List N) : List (Tree (NSet N)) → Prop
  | [] => True
  | t :: ts => Above bn up t ∧ AboveL bn up ts
end

/-- The step from one stage to the next that keeps `Above`. -/
structure Keep (bn : BN N V C O) (a b : NSet N) : Prop where
  was : ∀ x ∈ b.wasFixed, x ∈ bn.dag.nodes → x ∈ a.wasFixed
  fixed : ∀ x ∈ a.fixed, x ∈ bn.dag.nodes → x ∈ b.fixed

theorem Above.keep {bn : BN N V C O} : ∀ {t u : Tree (NSet N)} {up up' : List N}, Tree.Rel (Keep bn) t u →
    (∀ x ∈ up, x ∈ bn.dag.nodes → x ∈ up') → Above bn up t → Above bn up' u := by
  intro t
  refine Tree.ind
    (P := fun t => ∀ {u : Tree (NSet N)} {up up' : List N}, Tree.Rel (Keep bn) t u →
      (∀ x ∈ up, x ∈ bn.dag.nodes → x ∈ up') → Above bn up t → Above bn up' u)
    (Q := fun ts => ∀ {us : List (Tree (NSet N))} {up up' : List N}, Tree.RelL (Keep bn) ts us →
      (∀ x ∈ up, x ∈ bn.dag.nodes → x ∈ up') → AboveL bn up ts → AboveL bn up' us) ?_ ?_ ?_ t
  · rintro a ts ih ⟨b, us⟩ up up' ⟨h1, h2⟩ hup ⟨h3, h4⟩
    refine ⟨fun x hx hn => ?_, ih h2 ?_ h4⟩
    · rcases h3 x (h1.was x hx hn) hn with h | h
      · exact .inl (hup x h hn)
      · exact .inr (h1.fixed x h hn)
    · intro x hx hn
      rcases List.mem_append.1 hx with h | h
      · exact List.mem_append_left _ (hup x h hn)
      · exact List.mem_append_right _ (h1.fixed x h hn)
  · rintro (_ | ⟨u, us⟩) up up' h _ _
    · trivial
    · exact h.elim
  · rintro t ts ih1 ih2 (_ | ⟨u, us⟩) up up' h hup h3
    · exact h.elim
    · exact ⟨ih1 h.1 hup h3.1, ih2 h.2 hup h3.2⟩

theorem Keep.refl (bn : BN N V C O) (a : NSet N) : Keep bn a a := ⟨fun _ h _ => h, fun _ h _ => h⟩

theorem mediators_af (bn : BN N V C O) (W : List N) : ∀ ds a af {r}, mediators bn ds a af = .ok r → (∀ x ∈ af, x ∈ W ∨ x ∈ a.fixed) →
    r.1.wasFixed = a.wasFixed ∧ ∀ x ∈ r.2, x ∈ W ∨ x ∈ r.1.fixed := by
  intro ds
  induction ds with
  | nil => intro a af r h haf; cases h; exact ⟨rfl, haf⟩
  | cons d ds ih =>
    intro a af r h haf
    unfold mediators at h
    obtain ⟨b, -, h⟩ := bind_ok.1 h
    split at h
    · have := ih _ _ h haf
      exact this
    · have := ih _ _ h (fun x hx => ?_)
      · exact this
      rcases List.mem_cons.1 hx with rfl | hx
      · exact .inr (by simp)
      · exact (haf x hx).imp id (fun h => List.mem_cons_of_mem _ h)

theorem unfloat_af (bn : BN N V C O) (W : List N) : ∀ ds a af {r}, unfloat bn ds a af = .ok r → (∀ x ∈ af, x ∈ W ∨ x ∈ a.fixed) →
    r.1.wasFixed = a.wasFixed ∧ ∀ x ∈ r.2, x ∈ W ∨ x ∈ r.1.fixed := by
  intro ds
  induction ds with
  | nil => intro a af r h haf; cases h; exact ⟨rfl, haf⟩
  | cons d ds ih =>
    intro a af r h haf
    unfold unfloat at h
    obtain ⟨b, -, h⟩ := bind_ok.1 h
    split at h
    · have := ih _ _ h haf
      exact this
    · have := ih _ _ h (fun x hx => ?_)
      · exact this
      rcases List.mem_cons.1 hx with rfl | hx
      · exact .inr (by simp)
      · exact (haf x hx).imp id (fun h => List.mem_cons_of_mem _ h)

theorem fixRoots_af (bn : BN N V C O) (W : List N) : ∀ ds a af {r}, fixRoots bn ds a af = .ok r → (∀ x ∈ af, x ∈ W ∨ x ∈ a.fixed) →
    r.1.wasFixed = a.wasFixed ∧ ∀ x ∈ r.2, x ∈ W ∨ x ∈ r.1.fixed := by
  intro ds
  induction ds with
  | nil => intro a af r h haf; cases h; exact ⟨rfl, haf⟩
  | cons d ds ih =>
    intro a af r h haf
    unfold fixRoots at h
    obtain ⟨b, -, h⟩ := bind_ok.1 h
    split at h
    · have := ih _ _ h haf
      exact this
    · have := ih _ _ h (fun x hx => ?_)
      · exact this
      rcases List.mem_cons.1 hx with rfl | hx
      · exact .inr (by simp)
      · exact (haf x hx).imp id (fun h => List.mem_cons_of_mem _ h)

theorem require_af (bn : BN N V C O) : ∀ ds done a {r}, require bn done ds a = .ok r → r.wasFixed = a.wasFixed ∧ r.fixed = a.fixed := by
  intro ds
  induction ds with
  | nil => intro done a r h; cases h; exact ⟨rfl, rfl⟩
  | cons d ds ih =>
    intro done a r h
    unfold require at h
    obtain ⟨rq, -, h⟩ := bind_ok.1 h
    split at h
    · have := ih _ _ h
      exact this
    · have := ih _ _ h
      exact this

theorem localNode_af (bn : BN N V C O) {root : Bool} {was : List N} {a : NSet N} {r : NSet N × List N}
    (h : localNode bn root was a = .ok r) : r.1.wasFixed = was ∧ ∀ x ∈ r.2, x ∈ was ∨ x ∈ r.1.fixed := by
  unfold localNode at h
  obtain ⟨m, -, h⟩ := bind_ok.1 h
  obtain ⟨mini, -, h⟩ := bind_ok.1 h
  obtain ⟨med, -, h⟩ := bind_ok.1 h
  obtain ⟨⟨a1, af1⟩, h1, h⟩ := bind_ok.1 h
  obtain ⟨fs, -, h⟩ := bind_ok.1 h
  obtain ⟨⟨a2, af2⟩, h2, h⟩ := bind_ok.1 h
  obtain ⟨⟨a3, af3⟩, h3, h⟩ := bind_ok.1 h
  obtain ⟨a4, h4, h⟩ := bind_ok.1 h
  rw [pure_ok] at h
  subst h
  obtain ⟨e1, g1⟩ := mediators_af bn was _ _ _ h1 (by
    intro x hx
    rcases List.mem_append.1 hx with h | h
    · exact .inl h
    · exact .inr h)
  obtain ⟨e2, g2⟩ := unfloat_af bn was _ _ _ h2 g1
  have h33 : a3.wasFixed = a2.wasFixed ∧ ∀ x ∈ af3, x ∈ was ∨ x ∈ a3.fixed := by
    replace h3 : topRoots bn root a2 af2 = .ok (a3, af3) := h3
    unfold topRoots at h3
    split at h3
    · obtain ⟨l, -, h3⟩ := bind_ok.1 h3
      exact fixRoots_af bn was _ _ _ h3 g2
    · cases h3
      exact ⟨rfl, g2⟩
  obtain ⟨e3, g3⟩ := h33
  obtain ⟨e4, g4⟩ := require_af bn _ _ _ h4
  refine ⟨?_, fun x hx => ?_⟩
  · show a4.wasFixed = was
    rw [e4]
    exact e3.trans (e2.trans e1)
  · show x ∈ was ∨ x ∈ a4.fixed
    rw [g4]
    exact g3 x hx

theorem localT_above (bn : BN N V C O) : ∀ (t : Tree (NSet N)) {root was u} {up : List N}, localT bn root was t = .ok u →
    (∀ x ∈ was, x ∈ up) → Above bn up u := by
  intro t
  refine Tree.ind
    (P := fun t => ∀ {root was u} {up : List N}, localT bn root was t = .ok u → (∀ x ∈ was, x ∈ up) → Above bn up u)
    (Q := fun ts => ∀ {was us} {up : List N}, localL bn was ts = .ok us → (∀ x ∈ was, x ∈ up) → AboveL bn up us) ?_ ?_ ?_ t
  · intro a ts ih root was u up h hup
    unfold localT at h
    obtain ⟨⟨b, af⟩, h1, h⟩ := bind_ok.1 h
    obtain ⟨us, h2, h⟩ := bind_ok.1 h
    rw [pure_ok] at h
    subst h
    obtain ⟨e1, e2⟩ := localNode_af bn h1
    refine ⟨fun x hx _ => .inl (hup x (e1 ▸ hx)), ih h2 fun x hx => ?_⟩
    rw [List.mem_append]
    exact (e2 x hx).imp (hup x) id
  · intro was us up h _
    cases h
    trivial
  · intro t ts ih1 ih2 was us up h hup
    unfold localL at h
    obtain ⟨u, h1, h⟩ := bind_ok.1 h
    obtain ⟨us, h2, h⟩ := bind_ok.1 h
    rw [pure_ok] at h
    subst h
    exact ⟨ih1 h1 hup, ih2 h2 hup⟩

theorem raiseT_keep (bn : BN N V C O) : ∀ t : Tree (NSet N), Tree.Rel (Keep bn) t (raiseT t).1 := by
  intro t
  refine Tree.ind (P := fun t => Tree.Rel (Keep bn) t (raiseT t).1) (Q := fun ts => Tree.RelL (Keep bn) ts (raiseL ts).1) ?_ ?_ ?_ t
  · intro a ts ih
    exact ⟨⟨fun _ h _ => h, fun _ h _ => h⟩, ih⟩
  · trivial
  · intro t ts ih1 ih2
    exact ⟨ih1, ih2⟩

theorem hoistAll_was : ∀ (ds : List N) (a : NSet N) (W : List N), (∀ x ∈ a.wasFixed, x ∈ W ∨ x ∈ a.fixed) →
    (∀ x ∈ (hoistAll ds a).wasFixed, x ∈ W ∨ x ∈ (hoistAll ds a).fixed) := by
  intro ds
  induction ds with
  | nil => intro a W h; exact h
  | cons d ds ih =>
    intro a W h
    unfold hoistAll
    split
    · exact ih a W h
    · refine ih _ W fun x hx => ?_
      rcases List.mem_append.1 hx with h' | h'
      · exact (h x h').imp id (fun h => List.mem_append_left _ h)
      · exact .inr (List.mem_append_right _ h')

theorem relateNode_was (bn : BN N V C O) {root : Bool} {was : List N} {a : NSet N} {r : NSet N × List N}
    (h : relateNode bn root was a = .ok r) : r.1.wasFixed = was := by
  unfold relateNode at h
  obtain ⟨⟨sh, ho⟩, -, h⟩ := bind_ok.1 h
  obtain ⟨s2, -, h⟩ := bind_ok.1 h
  obtain ⟨⟨fl, fx⟩, -, h⟩ := bind_ok.1 h
  rw [pure_ok] at h
  subst h
  cases root <;> rfl

/-- The label of the root only gains hoisted nodes from its children. -/
theorem relateL_label (bn : BN N V C O) : ∀ (ts : List (Tree (NSet N))) (a : NSet N) done cell {r}, relateL bn a done cell ts = .ok r →
    ∀ W : List N, (∀ x ∈ a.wasFixed, x ∈ W ∨ x ∈ a.fixed) → (∀ x ∈ r.1.wasFixed, x ∈ W ∨ x ∈ r.1.fixed) ∧ Grow a r.1 := by
  intro ts
  induction ts with
  | nil => intro a done cell r h W hW; unfold relateL at h; cases h; exact ⟨hW, Grow.refl a⟩
  | cons t ts ih =>
    intro a done cell r h W hW
    unfold relateL at h
    obtain ⟨⟨t', ho⟩, -, h⟩ := bind_ok.1 h
    have key : ∀ done' cell', relateL bn (hoistAll ho a) done' cell' ts = .ok r →
        (∀ x ∈ r.1.wasFixed, x ∈ W ∨ x ∈ r.1.fixed) ∧ Grow a r.1 := by
      intro done' cell' h'
      obtain ⟨h1, h2⟩ := ih _ _ _ h' W (hoistAll_was ho a W hW)
      exact ⟨h1, (hoistAll_grow ho a).trans h2⟩
    replace h : (if (cell.getD t.label.wasFixed).isEmpty = true then relateL bn (hoistAll ho a) (done ++ [t']) none ts
      else relateL bn (hoistAll ho a) ((done ++ [t']).map (setWas t'.label.wasFixed)) (some t'.label.wasFixed) ts) = .ok r := h
    split at h
    · exact key _ _ h
    · exact key _ _ h

theorem relateT_above (bn : BN N V C O) : ∀ (t : Tree (NSet N)) {root was r} {up : List N}, t.Chain → relateT bn root was t = .ok r →
    (∀ x ∈ was, x ∈ bn.dag.nodes → x ∈ up ∨ x ∈ t.label.fixed) → AboveL bn (up ++ t.label.fixed) t.kids → Above bn up r.1 := by
  intro t
  refine Tree.ind
    (P := fun t => ∀ {root was r} {up : List N}, t.Chain → relateT bn root was t = .ok r →
      (∀ x ∈ was, x ∈ bn.dag.nodes → x ∈ up ∨ x ∈ t.label.fixed) → AboveL bn (up ++ t.label.fixed) t.kids → Above bn up r.1)
    (Q := fun ts => ∀ {a : NSet N} {r} {up : List N}, Tree.ChainL ts → relateL bn a [] none ts = .ok r →
      (∀ x ∈ a.wasFixed, x ∈ bn.dag.nodes → x ∈ up ∨ x ∈ a.fixed) → AboveL bn (up ++ a.fixed) ts → Above bn up (.node r.1 r.2)) ?_ ?_ ?_ t
  · intro a ts ih root was r up hch h hwas hab
    unfold relateT at h
    obtain ⟨⟨a1, ho⟩, h1, h⟩ := bind_ok.1 h
    obtain ⟨⟨a2, ts2⟩, h2, h⟩ := bind_ok.1 h
    rw [pure_ok] at h
    subst h
    have hg := relateNode_grow bn h1
    refine ih hch h2 ?_ ?_
    · intro x hx hn
      have hx : x ∈ was := (relateNode_was bn h1) ▸ hx
      exact (hwas x hx hn).imp id (hg.fixed x)
    · have : Tree.RelL (Keep bn) ts ts := Tree.RelL.refl (Keep.refl bn) ts
      have hup : ∀ x ∈ up ++ a.fixed, x ∈ bn.dag.nodes → x ∈ up ++ a1.fixed := by
        intro x hx _
        rcases List.mem_append.1 hx with h | h
        · exact List.mem_append_left _ h
        · exact List.mem_append_right _ (hg.fixed x h)
      have e : Above bn (up ++ a.fixed) (.node (new a.name [] []) ts) → Above bn (up ++ a1.fixed) (.node (new a.name [] []) ts) :=
        Above.keep (Tree.Rel.refl (Keep.refl bn) _) hup
      have := (e ⟨fun x hx => (by cases hx), by simpa [new, Tree.label, Tree.kids] using hab⟩).2
      simpa [new] using this
  · intro a r up _ h hwas _
    unfold relateL at h
    cases h
    exact ⟨hwas, trivial⟩
  · intro t ts ih1 ih2 a r up hch h hwas hab
    obtain ⟨hch1, rfl⟩ := hch
    unfold relateL at h
    obtain ⟨⟨t', ho⟩, h1, h⟩ := bind_ok.1 h
    have ht : Above bn (up ++ a.fixed) t' := by
      cases t with
      | node b us => exact ih1 hch1 h1 hab.1.1 hab.1.2
    have hg := hoistAll_grow ho a
    have hup : ∀ x ∈ up ++ a.fixed, x ∈ bn.dag.nodes → x ∈ up ++ (hoistAll ho a).fixed := by
      intro x hx _
      rcases List.mem_append.1 hx with h | h
      · exact List.mem_append_left _ h
      · exact List.mem_append_right _ (hg.fixed x h)
    have hset : (([] : List (Tree (NSet N))) ++ [t']).map (setWas t'.label.wasFixed) = [t'] := by
      cases t'
      rfl
    have hr : r = (hoistAll ho a, [t']) := by
      replace h : (if t.label.wasFixed.isEmpty = true then relateL bn (hoistAll ho a) [t'] none []
        else relateL bn (hoistAll ho a) (([] ++ [t']).map (setWas t'.label.wasFixed)) (some t'.label.wasFixed) []) = .ok r := h
      rw [hset] at h
      unfold relateL at h
      split at h
      · cases h; rfl
      · cases h; rfl
    subst hr
    refine ⟨fun x hx hn => ?_, Above.keep (Tree.Rel.refl (Keep.refl bn) _) hup ht, trivial⟩
    have := hoistAll_was ho a (up ++ a.wasFixed) (fun y hy => .inl (List.mem_append_right _ hy)) x hx
    rcases this with h | h
    · rcases List.mem_append.1 h with h | h
      · exact .inl h
      · exact (hwas x h hn).imp id (hg.fixed x)
    · exact .inr h

theorem passNode_was (bn : BN N V C O) (gfi gfl : List N) : ∀ ds a {r}, passNode bn gfi gfl ds a = .ok r → r.1.wasFixed = a.wasFixed := by
  intro ds
  induction ds with
  | nil => intro a r h; unfold passNode at h; cases h; rfl
  | cons d ds ih =>
    intro a r h
    unfold passNode at h
    obtain ⟨l, -, h⟩ := bind_ok.1 h
    split at h
    · obtain ⟨b, -, h⟩ := bind_ok.1 h
      split at h
      · have := ih _ h; exact this
      · have := ih _ h; exact this
    · split at h
      · have := ih _ h; exact this
      · obtain ⟨⟨a', r'⟩, h1, h⟩ := bind_ok.1 h
        rw [pure_ok] at h
        subst h
        have := ih _ h1
        exact this

theorem passT_keep (bn : BN N V C O) : ∀ t {fx fl ns u}, passT bn fx fl ns t = .ok u → Tree.Rel (Keep bn) t u := by
  intro t
  refine Tree.ind (P := fun t => ∀ {fx fl ns u}, passT bn fx fl ns t = .ok u → Tree.Rel (Keep bn) t u)
    (Q := fun ts => ∀ {fx fl ns us}, passL bn fx fl ns ts = .ok us → Tree.RelL (Keep bn) ts us) ?_ ?_ ?_ t
  · intro a ts ih fx fl ns u h
    unfold passT at h
    obtain ⟨⟨b, rest⟩, h1, h⟩ := bind_ok.1 h
    obtain ⟨us, h2, h⟩ := bind_ok.1 h
    rw [pure_ok] at h
    subst h
    have hwas := passNode_was bn _ _ _ _ h1
    have hg := passNode_grow bn _ _ _ _ h1
    exact ⟨⟨fun x hx _ => hwas ▸ hx, fun x hx _ => hg.fixed x hx⟩, ih h2⟩
  · intro fx fl ns us h
    unfold passL at h
    cases h
    trivial
  · intro t ts ih1 ih2 fx fl ns us h
    unfold passL at h
    obtain ⟨b, h1, h⟩ := bind_ok.1 h
    obtain ⟨us, h2, h⟩ := bind_ok.1 h
    rw [pure_ok] at h
    subst h
    exact ⟨ih1 h1, ih2 h2⟩

/-- In a hierarchy without siblings, what was fixed before is fixed above. -/
theorem inject_above {bn : BN N V C O} (hr : Props.Sampling.Ready bn) {t t' : Tree (NSet N)} (hch : t.Chain) (h : inject bn t = .ok t') :
    Above bn [] t' := by
  obtain ⟨hw, ⟨od, hod, ht⟩, -⟩ := hr.facts
  obtain ⟨t1, r, t3, t4, -, h1, h2, h3, h4, h5⟩ := inject_stages h
  have a1 : Above bn [] t1 := localT_above bn t h1 (fun _ h => h)
  have a2 : Above bn [] (raiseT t1).1 := Above.keep (raiseT_keep bn t1) (fun _ h _ => h) a1
  have hch2 : (raiseT t1).1.Chain := by
    have hp := localT_placed bn t h1
    have hch1 : t1.Chain := hch.rel hp
    exact hch1.rel (raiseT_grow t1)
  have a3 : Above bn [] r.1 := by
    refine relateT_above bn (raiseT t1).1 hch2 h2 (by simp) ?_
    cases hh : (raiseT t1).1 with
    | node b us =>
      rw [hh] at a2
      exact a2.2
  unfold locate at h3
  obtain ⟨od', -, h3⟩ := bind_ok.1 h3
  have a4 : Above bn [] t3 := Above.keep (passT_keep bn _ h3) (fun _ h _ => h) a3
  have a5 : Above bn [] t4 := by
    refine Above.keep ?_ (fun _ h _ => h) a4
    exact Tree.Rel.imp (fun a b (hs : Same a b) => ⟨fun x hx _ => hs.was ▸ hx, fun x hx _ => hs.fixed ▸ hx⟩) (samplersT_same bn _ h4)
  refine Above.keep ?_ (fun _ h _ => h) a5
  refine Tree.Rel.imp (fun a b (hs : SortedFrom od a b) => ⟨fun x hx _ => hs.was ▸ hx, fun x hx hn => ?_⟩) (sortT_sorted hod _ h5)
  rw [hs.fixed, List.mem_filter, decide_eq_true_eq]
  exact ⟨(ht.complete x).2 hn, hx⟩

/-! ## The refusal of `_validate_initial_conditions` -/

/-- A request to float an ancestor of a fixed node. -/
def BadRequest (bn : BN N V C O) (a : NSet N) : Prop :=
  ∃ f ∈ a.asFixed, ∃ d ∈ a.asFloating, d ∉ a.asFixed ∧ TransGen bn.dag.E d f

theorem validate_ok {bn : BN N V C O} (hw : bn.Well) : ∀ t : Tree (NSet N), (∀ a ∈ t.labels, ∀ x ∈ a.asFixed, x ∈ bn.dag.nodes) →
    ∃ b, validate bn t = .ok b ∧ (b = true ↔ ∀ a ∈ t.labels, ¬ BadRequest bn a) := by
  intro t
  refine Tree.ind
    (P := fun t => (∀ a ∈ t.labels, ∀ x ∈ a.asFixed, x ∈ bn.dag.nodes) →
      ∃ b, validate bn t = .ok b ∧ (b = true ↔ ∀ a ∈ t.labels, ¬ BadRequest bn a))
    (Q := fun ts => (∀ a ∈ Tree.labelsL ts, ∀ x ∈ a.asFixed, x ∈ bn.dag.nodes) →
      ∃ b, validateL bn ts = .ok b ∧ (b = true ↔ ∀ a ∈ Tree.labelsL ts, ¬ BadRequest bn a)) ?_ ?_ ?_ t
  · intro a ts ih hk
    obtain ⟨b, h1, h2⟩ := ih (fun c hc => hk c (by simp [Tree.labels, hc]))
    have ha : ∀ x ∈ a.asFixed, x ∈ bn.dag.nodes := hk a (by simp [Tree.labels])
    have hiff : ∀ c : Bool, (c = true ↔ ¬ BadRequest bn a) → b = true →
        (c = true ↔ ∀ e ∈ (Tree.node a ts).labels, ¬ BadRequest bn e) := by
      intro c hc hb
      rw [hc]
      simp only [Tree.labels, List.mem_cons, forall_eq_or_imp]
      exact ⟨fun h => ⟨h, h2.1 hb⟩, fun h => h.1⟩
    unfold validate
    rw [h1]
    cases hb : b with
    | false =>
      refine ⟨false, rfl, ?_⟩
      simp only [Bool.false_eq_true, false_iff]
      intro h
      have : b = true := h2.2 (fun e he => h e (by simp [Tree.labels, he]))
      rw [hb] at this
      cases this
    | true =>
      show ∃ c, (if a.asFixed.isEmpty = true then (pure true : Result Bool) else do
        let anc ← bn.dag.upstream a.asFixed
        pure (a.asFloating.all (fun d => decide (d ∈ a.asFixed) || decide (d ∉ anc)))) = .ok c ∧ _
      split
      · rename_i he
        refine ⟨true, rfl, hiff true ?_ hb⟩
        simp only [true_iff]
        rintro ⟨f, hf, -⟩
        rw [List.isEmpty_iff] at he
        rw [he] at hf
        cases hf
      · rename_i he
        rw [List.isEmpty_iff] at he
        rw [upstream_ok he ha]
        refine ⟨_, rfl, hiff _ ?_ hb⟩
        rw [List.all_eq_true]
        constructor
        · rintro h ⟨f, hf, d, hd, hdf, ht⟩
          have := h d hd
          simp only [Bool.or_eq_true, decide_eq_true_eq] at this
          rcases this with h' | h'
          · exact hdf h'
          · exact h' (List.mem_flatMap.2 ⟨f, hf, (mem_ancL_acyclic hw.wf hw.acyclic (ha f hf) d).2 ht⟩)
        · intro h d hd
          simp only [Bool.or_eq_true, decide_eq_true_eq]
          by_cases hdf : d ∈ a.asFixed
          · exact .inl hdf
          · refine .inr fun hm => h ?_
            obtain ⟨f, hf, hm⟩ := List.mem_flatMap.1 hm
            exact ⟨f, hf, d, hd, hdf, (mem_ancL_acyclic hw.wf hw.acyclic (ha f hf) d).1 hm⟩
  · intro _
    exact ⟨true, rfl, by simp [Tree.labelsL]⟩
  · intro t ts ih1 ih2 hk
    obtain ⟨b1, h1, h2⟩ := ih1 (fun c hc => hk c (by simp [Tree.labelsL, hc]))
    obtain ⟨b2, h3, h4⟩ := ih2 (fun c hc => hk c (by simp [Tree.labelsL, hc]))
    unfold validateL
    rw [h1]
    cases hb : b1 with
    | false =>
      refine ⟨false, rfl, ?_⟩
      simp only [Bool.false_eq_true, false_iff]
      intro h
      have : b1 = true := h2.2 (fun e he => h e (by simp [Tree.labelsL, he]))
      rw [hb] at this
      cases this
    | true =>
      refine ⟨b2, h3, ?_⟩
      rw [h4]
      simp only [Tree.labelsL, List.mem_append]
      refine ⟨fun h e he => he.elim (h2.1 hb e) (h e), fun h e he => h e (.inr he)⟩

theorem validate_known {bn : BN N V C O} : ∀ t : Tree (NSet N), validate bn t = .ok true →
    ∀ a ∈ t.labels, ∀ x ∈ a.asFixed, x ∈ bn.dag.nodes := by
  intro t
  refine Tree.ind
    (P := fun t => validate bn t = .ok true → ∀ a ∈ t.labels, ∀ x ∈ a.asFixed, x ∈ bn.dag.nodes)
    (Q := fun ts => validateL bn ts = .ok true → ∀ a ∈ Tree.labelsL ts, ∀ x ∈ a.asFixed, x ∈ bn.dag.nodes) ?_ ?_ ?_ t
  · intro a ts ih h c hc x hx
    unfold validate at h
    obtain ⟨b, h1, h⟩ := bind_ok.1 h
    split at h
    · rename_i hb
      subst hb
      rcases List.mem_cons.1 hc with rfl | hc
      · split at h
        · rename_i he
          rw [List.isEmpty_iff] at he
          rw [he] at hx
          cases hx
        · obtain ⟨anc, h2, -⟩ := bind_ok.1 h
          by_contra hn
          rw [upstream_error ⟨x, hx, hn⟩] at h2
          cases h2
      · exact ih h1 c hc x hx
    · cases h
  · intro _ a ha
    cases ha
  · intro t ts ih1 ih2 h c hc x hx
    unfold validateL at h
    obtain ⟨b, h1, h⟩ := bind_ok.1 h
    split at h
    · rename_i hb
      subst hb
      rcases List.mem_append.1 hc with hc | hc
      · exact ih1 h1 c hc x hx
      · exact ih2 h c hc x hx
    · cases h

/-! ## The outcome of `inject_bn` -/

/-- What every node set looks like in the end. -/
structure Final (bn : BN N V C O) (od : List N) (a b : NSet N) : Prop where
  req : b.request = a.request
  fixed : ∀ x ∈ a.asFixed, x ∈ bn.dag.nodes → x ∈ b.fixed
  floating : ∀ x ∈ a.asFloating, x ∈ bn.dag.nodes → x ∈ b.floating ∨ x ∈ b.fixed
  sorted : b.fixed = od.filter (· ∈ b.fixed)
  known : ∀ x ∈ b.floating ++ b.willFloat, x ∈ bn.dag.nodes
  plan : ∀ x ∈ b.floating ++ b.willFloat, ∃ l s, b.localS.get? x = some l ∧ b.sharedS.get? x = some s ∧
    Planned bn (b.wasFixed ++ b.fixed) b.fixed x l s
  only : ∀ x, x ∉ b.floating ++ b.willFloat → b.localS.get? x = none ∧ b.sharedS.get? x = none

theorem inject_final {bn : BN N V C O} (hw : bn.Well) {od : List N} (hod : bn.order = .ok od)
    (ht : TopologicalOrder (· ∈ bn.dag.nodes) bn.dag.E od) {t t' : Tree (NSet N)} (h : inject bn t = .ok t') :
    Tree.Rel (Final bn od) t t' := by
  obtain ⟨t1, r, t3, t4, -, h1, h2, h3, h4, h5⟩ := inject_stages h
  unfold locate at h3
  obtain ⟨od', -, h3⟩ := bind_ok.1 h3
  have p1 : Tree.Rel Placed t t3 := by
    refine Tree.Rel.trans (S := Grow) (fun a b c => Placed.grow) (localT_placed bn t h1) ?_
    refine Tree.Rel.trans (R := Grow) (S := Grow) (fun a b c => Grow.trans) (raiseT_grow t1) ?_
    exact Tree.Rel.trans (R := Grow) (S := Grow) (fun a b c => Grow.trans) (relateT_grow bn _ h2) (passT_grow bn _ h3)
  have p2 := samplersT_plan hw t3 h4
  have p3 := sortT_sorted hod t4 h5
  refine Tree.Rel.trans (T := Final bn od) ?_ (Tree.Rel.trans (T := fun a c => ∃ b, Placed a b ∧ HasSamplers bn b c)
    (fun a b c h1 h2 => ⟨b, h1, h2⟩) p1 p2) p3
  rintro a c d ⟨b, hab, hbc⟩ hcd
  have hmem : ∀ x ∈ bn.dag.nodes, x ∈ d.fixed ↔ x ∈ c.fixed := by
    intro x hx
    rw [hcd.fixed, List.mem_filter, decide_eq_true_eq]
    exact ⟨fun h => h.2, fun h => ⟨(ht.complete x).2 hx, h⟩⟩
  refine ⟨?_, ?_, ?_, ?_, ?_, ?_, ?_⟩
  · rw [hcd.req, hbc.req, hab.req]
  · intro x hx hn
    rw [hmem x hn, hbc.fixed]
    exact hab.fixed x hx
  · intro x hx hn
    rw [hmem x hn, hbc.fixed, hcd.floating, hbc.floating]
    exact hab.floating x hx
  · conv_lhs => rw [hcd.fixed]
    refine List.filter_congr fun x hx => ?_
    rw [decide_eq_decide]
    exact (hmem x ((ht.complete x).1 hx)).symm
  · rw [hcd.floating, hcd.will]
    exact hbc.known
  · intro x hx
    rw [hcd.floating, hcd.will] at hx
    obtain ⟨l, s, a1, a2, a3⟩ := hbc.plan x hx
    refine ⟨l, s, by rw [hcd.locals, a1], by rw [hcd.shared, a2], a3.congr hw ?_ ?_⟩
    · intro y hy
      rw [List.mem_append, List.mem_append, hcd.was, hmem y hy]
    · intro y hy
      exact (hmem y hy).symm
  · intro x hx
    rw [hcd.floating, hcd.will] at hx
    rw [hcd.locals, hcd.shared]
    exact hbc.only x hx

/-- A node whose parents are all requested along one path is allocated. -/
theorem inject_places {bn : BN N V C O} (hr : Props.Sampling.Ready bn) {t t' : Tree (NSet N)} (h : inject bn t = .ok t') {x : N}
    (hx : x ∈ bn.dag.nodes) {l : List (NSet N)} (hl : t.Path l)
    (hp : ∀ p, bn.dag.E p x → ∃ a ∈ l, p ∈ a.asFixed ∨ p ∈ a.asFloating) :
    ∃ c ∈ t'.labels, x ∈ c.fixed ∨ x ∈ c.floating := by
  obtain ⟨hw, ⟨od, hod, ht⟩, -⟩ := hr.facts
  obtain ⟨t1, r, t3, t4, -, h1, h2, h3, h4, h5⟩ := inject_stages h
  unfold locate at h3
  rw [hod] at h3
  replace h3 : passT bn [] [] (od.filter (· ∉ used r.1)) r.1 = .ok t3 := h3
  have p1 : Tree.Rel Placed t r.1 := by
    refine Tree.Rel.trans (S := Grow) (fun a b c => Placed.grow) (localT_placed bn t h1) ?_
    exact Tree.Rel.trans (R := Grow) (S := Grow) (fun a b c => Grow.trans) (raiseT_grow t1) (relateT_grow bn _ h2)
  have hu : x ∈ used t3 := by
    by_cases hxu : x ∈ used r.1
    · rw [used_labels] at hxu ⊢
      obtain ⟨a, ha, hxa⟩ := hxu
      obtain ⟨b, hb, hab⟩ := (passT_grow bn _ h3).left a ha
      rcases hxa with h | h
      · exact ⟨b, hb, .inl (hab.fixed x h)⟩
      · exact ⟨b, hb, (hab.floating x h).symm⟩
    · obtain ⟨l', hl', hll⟩ := p1.path l hl
      refine passT_places hw r.1 h3 (fun d hd => (ht.complete d).1 (List.mem_filter.1 hd).1) x
        (List.mem_filter.2 ⟨(ht.complete x).2 hx, by simpa using hxu⟩) l' hl' fun p hpx => ?_
      obtain ⟨a, ha, hpa⟩ := hp p hpx
      obtain ⟨b, hb, hab⟩ : ∃ b ∈ l', Placed a b := by
        clear hl' hl hp
        induction hll with
        | nil => cases ha
        | cons hRR _ ih =>
          rcases List.mem_cons.1 ha with rfl | ha
          · exact ⟨_, by simp, hRR⟩
          · obtain ⟨b, hb, hab⟩ := ih ha
            exact ⟨b, by simp [hb], hab⟩
      refine .inr (.inr ⟨b, hb, ?_⟩)
      rcases hpa with h | h
      · exact .inl (hab.fixed p h)
      · exact (hab.floating p h).symm
  rw [used_labels] at hu
  obtain ⟨a, ha, hxa⟩ := hu
  obtain ⟨b, hb, hab⟩ := (samplersT_same bn _ h4).left a ha
  obtain ⟨c, hc, hbc⟩ := (sortT_sorted hod _ h5).left b hb
  refine ⟨c, hc, ?_⟩
  rw [hbc.fixed, hbc.floating, hab.floating, List.mem_filter, decide_eq_true_eq, hab.fixed]
  exact hxa.imp (fun h => ⟨(ht.complete x).2 hx, h⟩) id

theorem passNode_exo (bn : BN N V C O) (gfi gfl : List N) : ∀ ds a {r}, passNode bn gfi gfl ds a = .ok r → r.1.exo = a.exo := by
  intro ds
  induction ds with
  | nil => intro a r h; unfold passNode at h; cases h; rfl
  | cons d ds ih =>
    intro a r h
    unfold passNode at h
    obtain ⟨l, -, h⟩ := bind_ok.1 h
    split at h
    · obtain ⟨b, -, h⟩ := bind_ok.1 h
      split at h
      · have := ih _ h; exact this
      · have := ih _ h; exact this
    · split at h
      · have := ih _ h; exact this
      · obtain ⟨⟨a', r'⟩, h1, h⟩ := bind_ok.1 h
        rw [pure_ok] at h
        subst h
        have := ih _ h1
        exact this

theorem samplers_exo (bn : BN N V C O) : ∀ ds a {r}, samplers bn ds a = .ok r → r.exo = a.exo := by
  intro ds
  induction ds with
  | nil => intro a r h; cases h; rfl
  | cons d ds ih =>
    intro a r h
    unfold samplers at h
    obtain ⟨⟨l, s⟩, -, h⟩ := bind_ok.1 h
    have := ih _ h
    exact this

/-- A single node set with closed requests expects nothing from outside. -/
theorem closed_single_exo {bn : BN N V C O} (hr : Props.Sampling.Ready bn) {A Fl : List N} (hc : Closed bn A Fl) (n : N) {b : NSet N}
    (h : inject bn (.node (new n A Fl) []) = .ok (.node b [])) : b.exo = [] := by
  obtain ⟨a, af, h1, -, hexo, hli, -⟩ := localNode_closed hr hc n
  obtain ⟨t1, r, t3, t4, -, g1, g2, g3, g4, g5⟩ := inject_stages h
  unfold localT at g1
  rw [h1] at g1
  cases g1
  obtain ⟨⟨a2, ho⟩, k1, g2⟩ := bind_ok.1 g2
  obtain ⟨⟨a3, ts⟩, k2, g2⟩ := bind_ok.1 g2
  rw [pure_ok] at g2
  subst g2
  unfold raiseL relateL at k2
  cases k2
  have e2 : a2.exo = [] := by
    unfold relateNode at k1
    obtain ⟨⟨sh, hh⟩, -, k1⟩ := bind_ok.1 k1
    obtain ⟨s2, -, k1⟩ := bind_ok.1 k1
    obtain ⟨⟨fl, fx⟩, -, k1⟩ := bind_ok.1 k1
    rw [pure_ok] at k1
    have := congrArg (fun r => r.1.exo) k1
    rw [← this]
    simp [without, hexo]
  unfold locate at g3
  obtain ⟨od, -, g3⟩ := bind_ok.1 g3
  unfold passT at g3
  obtain ⟨⟨a4, rest⟩, k3, g3⟩ := bind_ok.1 g3
  obtain ⟨l4, k5, g3⟩ := bind_ok.1 g3
  rw [pure_ok] at g3
  subst g3
  have e4 : a4.exo = a2.exo := passNode_exo bn _ _ _ _ k3
  unfold samplersT at g4
  obtain ⟨a5, k4, g4⟩ := bind_ok.1 g4
  obtain ⟨l5, k6, g4⟩ := bind_ok.1 g4
  rw [pure_ok] at g4
  subst g4
  have e5 := samplers_exo bn _ _ k4
  unfold sortT at g5
  obtain ⟨f, -, g5⟩ := bind_ok.1 g5
  obtain ⟨l6, k7, g5⟩ := bind_ok.1 g5
  rw [pure_ok] at g5
  injection g5 with g6 g7
  rw [← g6]
  exact e5.trans (e4.trans e2)

end Model.NSet
