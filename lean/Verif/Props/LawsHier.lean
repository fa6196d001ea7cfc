import Verif.Props.LawsSim
import Verif.Lemmas.SimLike

/-!
# The laws of hierarchies of cores: C225, C226, C227
-/

namespace Props.LawsHier

set_option linter.unusedSectionVars false

open Py Spec Relation Model Model.Digraph Model.BN Model.CoreTree Props.BN Props.Sampling Props.SimCore Props.Laws Props.LawsSim MeasureTheory

variable {N V C O S : Type} [DecidableEq N] [MeasurableSpace S]

/-! ## One core -/

/-- The values `r` are an answer of the nodes `ds`, which hold `d0`, to an intervention that sets the values `val` and has
the nodes `A` drawn anew: nothing else changes, definitions that leave nothing to chance are followed, the others have
distributions that sample by their densities, and `lp` are the log densities, all read with the ancestors `up`. -/
structure Reacts (μ : Measure S) (sem : Sem N V C O S (XR ℝ)) (bn : BN N V C O) (up : List (Dict N V)) (val : N → Option V)
    (A : N → Prop) (ds : List N) (d0 r : Dict N V) (lp : N → XR ℝ) : Prop where
  same : ∀ x, x ∉ ds ∨ (val x = none ∧ ¬ A x) → r.get? x = d0.get? x
  put : ∀ x ∈ ds, ∀ v, val x = some v → r.get? x = some v
  held : ∀ x ∈ ds, A x → x ∈ r.keys
  sure : ∀ x ∈ ds, A x → ∀ l, bn.loci.get? x = some l → l.isDist = false →
    ∃ v, r.get? x = some v ∧ ∀ s, l.render sem (chainMap (r :: up)) s = (.ok v, s)
  weight : ∀ x ∈ ds, ∀ l, bn.loci.get? x = some l → l.evaluate sem (chainMap (r :: up)) = .ok (lp x)
  fair : ∀ x ∈ ds, A x → ∀ n f ps d, bn.loci.get? x = some (.dist n f ps) →
    getDistribution sem f (chainMap (r :: up)) = .ok d → Fair μ d

/-- What a chain of cores holds, in one dictionary. -/
theorem flat (ch : List (Dict N V)) : ∃ r : Dict N V, r.get? = chainMap ch := by
  induction ch with
  | nil => exact ⟨[], rfl⟩
  | cons d up ih =>
    obtain ⟨r, hr⟩ := ih
    refine ⟨d ++ r, funext (fun x => ?_)⟩
    rw [Dict.get?_append, chainMap_cons, hr]

open Classical in
theorem respond_chance {μ : Measure S} (sem : Sem N V C O S (XR ℝ)) (hcl : ∀ c, (sem.reparse c).names = [])
    {bn : BN N V C O} (hw : bn.Well) (hns : NoShadow bn []) {up : List (Dict N V)} {imp : Dict N V} {sh : List N}
    {val : N → Option V} {A : N → Prop} (hval : ∀ x, imp.get? x = val x) (hsh : ∀ x, x ∈ sh ↔ A x) (hA : ∀ x, A x → val x = none)
    {r : Dict N V} {lp : N → XR ℝ} : ∀ (ds : List N) (p : XR ℝ) (c : Core N V C O S ℝ), ds.Nodup → RespectsPaths bn.dag.E ds →
    (∀ x ∈ ds, x ∈ bn.dag.nodes) → (∀ x ∈ ds, A x → ¬ Exogenous bn x) → Reacts μ sem bn up val A ds c.locus r lp →
      Chance μ (fun s s' => ∃ c' q, Core.respond sem bn up imp sh ds p c s = (c', s', .ok q) ∧ ∀ x, c'.locus.get? x = r.get? x)
        ((ds.map (fun x => if A x then expX (lp x) else 1)).prod) := by
  intro ds
  induction ds with
  | nil =>
    intro p c _ _ _ _ hr
    refine Chance.refl.congr (fun s s' => ?_)
    simp only [Core.respond]
    constructor
    · rintro rfl
      exact ⟨c, p, rfl, fun x => (hr.same x (.inl (by simp))).symm⟩
    · rintro ⟨c', q, h, -⟩
      simp only [Prod.mk.injEq] at h
      exact h.2.1
  | cons x xs ih =>
    intro p c hnd hpa hno hex hr
    obtain ⟨hxx, hnd'⟩ := List.nodup_cons.1 hnd
    have hpa' : RespectsPaths bn.dag.E xs := fun pre v suf e => hpa (x :: pre) v suf (by rw [e]; rfl)
    obtain ⟨l, hl⟩ := (hw.defined x).2 (hno x (by simp))
    -- what a definition reads is final
    have hread : ∀ d : Dict N V, (∀ y, y ∉ x :: xs → d.get? y = c.locus.get? y) → ∀ y, (y ∉ bn.dag.nodes ∨ bn.dag.E y x) →
        chainMap (d :: up) y = chainMap (r :: up) y := by
      intro d hd y hy
      have hyn : y ∉ x :: xs := by
        intro hm
        rcases hy with hy | hy
        · exact hy (hno y hm)
        · rcases List.mem_cons.1 hm with rfl | hm
          · exact hw.acyclic y (.single hy)
          · exact hpa [] x xs rfl y hm (.single hy)
      refine chainMap_congr ?_ rfl
      rw [hd y hyn, hr.same y (.inl hyn)]
    have hnames : ∀ n f ps, l = .dist n f ps → ∀ y ∈ f.names, y ∉ bn.dag.nodes ∨ bn.dag.E y x := by
      rintro n f ps rfl y hy
      rcases hns x n f ps hl y ((Expr.mem_names y f).1 hy) with h | ⟨h, -⟩
      · exact .inr ((hw.edges y x).2 ⟨_, hl, h⟩)
      · exact .inl h
    have heval : ∀ d : Dict N V, (∀ y, y ∉ x :: xs → d.get? y = c.locus.get? y) → d.get? x = r.get? x →
        l.evaluate sem (chainMap (d :: up)) = .ok (lp x) := by
      intro d hd hx
      rw [← hr.weight x (by simp) l hl]
      refine Loci.evaluate_congr sem hcl l (fun n f ps e => ⟨?_, fun y hy => hread d hd y (hnames n f ps e y hy)⟩)
      subst e
      have : n = x := hw.named x _ hl
      subst this
      exact chainMap_congr hx rfl
    -- the rest
    have hrest : ∀ (p : XR ℝ) (c1 : Core N V C O S ℝ), (∀ y, y ≠ x → c1.locus.get? y = c.locus.get? y) → c1.locus.get? x = r.get? x →
        Chance μ (fun s s' => ∃ c' q, Core.respond sem bn up imp sh xs p c1 s = (c', s', .ok q) ∧ ∀ x, c'.locus.get? x = r.get? x)
          ((xs.map (fun x => if A x then expX (lp x) else 1)).prod) := by
      intro p c1 h1 h2
      refine ih p c1 hnd' hpa' (fun y hy => hno y (.tail _ hy)) (fun y hy => hex y (.tail _ hy))
        ⟨fun y hy => ?_, fun y hy => hr.put y (.tail _ hy), fun y hy => hr.held y (.tail _ hy), fun y hy => hr.sure y (.tail _ hy),
          fun y hy => hr.weight y (.tail _ hy), fun y hy => hr.fair y (.tail _ hy)⟩
      by_cases e : y = x
      · subst e; exact h2.symm
      · rw [h1 y e]
        refine hr.same y ?_
        rcases hy with hy | hy
        · exact .inl (fun h => (List.mem_cons.1 h).elim e hy)
        · exact .inr hy
    have hout : ∀ (v : V) y, y ∉ x :: xs → (c.locus.set x v).get? y = c.locus.get? y := by
      intro v y hy
      rw [Dict.get?_set, if_neg (fun h => hy (by rw [← h]; simp))]
    have hother : ∀ (v : V) y, y ≠ x → (c.locus.set x v).get? y = c.locus.get? y := by
      intro v y hy
      rw [Dict.get?_set, if_neg (fun h => hy h.symm)]
    rw [List.map_cons, List.prod_cons]
    cases hv : val x with
    | some v =>
      have hna : ¬ A x := fun h => by rw [hA x h] at hv; cases hv
      have hrx := hr.put x (by simp) v hv
      have hget : (c.locus.set x v).get? x = r.get? x := by rw [hrx, Dict.get?_set_self]
      rw [if_neg hna, one_mul]
      refine (hrest (p + lp x) { c with locus := c.locus.set x v } (hother v) hget).congr (fun s s' => ?_)
      simp only [Core.respond, get_ok hl, hval, hv, heval _ (hout v) hget]
    | none =>
      by_cases ha : A x
      · rw [if_pos ha]
        obtain ⟨v, hrx⟩ := (Dict.mem_keys_iff_exists _ _).1 (hr.held x (by simp) ha)
        obtain ⟨F, hF⟩ := flat (r :: up)
        have hFx : F.get? x = some v := by rw [hF, chainMap_cons, hrx]; rfl
        have hstep : Chance μ (fun s s' => l.render sem (chainMap (r :: up)) s = (.ok v, s')) (expX (lp x)) := by
          rw [← hF]
          refine render_chance sem hw (r := F) ?_ hl hFx ?_ ?_
          · rw [hF]; exact hr.fair x (by simp) ha
          · rw [hF]
            intro hi
            obtain ⟨w, h1, h2⟩ := hr.sure x (by simp) ha l hl hi
            exact ⟨w, by rw [chainMap_cons, h1]; rfl, h2⟩
          · rw [hF]; exact hr.weight x (by simp) l hl
        have hren : ∀ s, l.render sem (chainMap (c.locus :: up)) s = l.render sem (chainMap (r :: up)) s := by
          intro s
          refine Loci.render_congr sem hcl l (fun y hy => hread _ (fun _ _ => rfl) y (.inr ((hw.edges y x).2 ⟨l, hl, hy⟩)))
            (fun n f ps e y hy => hread _ (fun _ _ => rfl) y (hnames n f ps e y hy)) (fun n e => ?_) s
          subst e
          have : n = x := hw.named x _ hl
          subst this
          exact absurd ⟨n, hl⟩ (hex n (by simp) ha)
        have hget : (c.locus.set x v).get? x = r.get? x := by rw [hrx, Dict.get?_set_self]
        refine (hstep.comp (hrest (p + lp x) (c.set x v) (hother v) hget)).congr (fun s s' => ?_)
        simp only [Core.respond, get_ok hl, hval, hv, hren s]
        rw [if_pos ((hsh x).2 ha)]
        constructor
        · rintro ⟨m, h1, c', q, h2, h3⟩
          rw [h1]
          simp only
          rw [show (c.set x v).locus = c.locus.set x v from rfl, heval _ (hout v) hget]
          exact ⟨c', q, h2, h3⟩
        · rintro ⟨c', q, h2, h3⟩
          rcases hre : l.render sem (chainMap (r :: up)) s with ⟨o, m⟩
          rw [hre] at h2
          cases o with
          | error e => simp at h2
          | ok w =>
            simp only at h2
            cases he : l.evaluate sem (chainMap ((c.set x w).locus :: up)) with
            | error e => rw [he] at h2; simp at h2
            | ok q' =>
              rw [he] at h2
              simp only at h2
              have hok := Core.respond_ok sem bn up imp sh xs _ _ _ hnd' h2
              have hwv : r.get? x = some w := by
                rw [← h3 x, hok.same x (.inl hxx)]
                exact Dict.get?_set_self _ _ _
              rw [hrx] at hwv
              cases hwv
              rw [show (c.set x v).locus = c.locus.set x v from rfl, heval _ (hout v) hget] at he
              cases he
              exact ⟨m, rfl, c', q, h2, h3⟩
      · rw [if_neg ha, one_mul]
        have hget : c.locus.get? x = r.get? x := (hr.same x (.inr ⟨hv, ha⟩)).symm
        refine (hrest (p + lp x) c (fun _ _ => rfl) hget).congr (fun s s' => ?_)
        simp only [Core.respond, get_ok hl, hval, hv, heval c.locus (fun _ _ => rfl) hget]
        rw [if_neg (fun h => ha ((hsh x).1 h))]

/-! ## Actors -/

/-- An actor is renewed by the values `ρ` when it is frozen and concerned, which takes no randomness; else it is kept. -/
def Renewed (sem : Sem N V C O S (XR ℝ)) (ρ : N → Option V) (A : N → Prop) (x y : N × Actor N V C O S ℝ) : Prop :=
  y.1 = x.1 ∧ (A x.1 → x.2.isFrozen = true → ∀ s, x.2.update sem ρ s = (y.2, s, .ok ())) ∧
    (¬ (A x.1 ∧ x.2.isFrozen = true) → y.2 = x.2)

theorem updateActors_sure (sem : Sem N V C O S (XR ℝ)) {ρ : N → Option V} {A : N → Prop} {sh : List N} (hsh : ∀ x, x ∈ sh ↔ A x)
    {d d' : Dict N (Actor N V C O S ℝ)} (h : List.Forall₂ (Renewed sem ρ A) d d') (s : S) :
    Core.updateActors sem ρ sh d s = (d', s, .ok ()) := by
  induction h with
  | nil => rfl
  | @cons x y d d' h _ ih =>
    obtain ⟨k, a⟩ := x
    obtain ⟨k', a'⟩ := y
    obtain ⟨h1, h2, h3⟩ := h
    simp only at h1 h2 h3
    subst h1
    simp only [Core.updateActors]
    by_cases hh : A k' ∧ a.isFrozen = true
    · rw [if_pos (by simp [hsh, hh.1, hh.2]), h2 hh.1 hh.2 s]
      simp only [ih]
    · rw [if_neg (by
        intro hc
        rw [Bool.and_eq_true, decide_eq_true_eq, hsh] at hc
        exact hh hc), h3 hh]
      simp only [ih]

theorem updateHoisted_sure (sem : Sem N V C O S (XR ℝ)) {ρ : N → Option V} {A : N → Prop} {sh : List N} (hsh : ∀ x, x ∈ sh ↔ A x)
    {d d' : Dict N (Dict N (Actor N V C O S ℝ))} (h : List.Forall₂ (fun x y => y.1 = x.1 ∧ List.Forall₂ (Renewed sem ρ A) x.2 y.2) d d')
    (s : S) : Core.updateHoisted sem ρ sh d s = (d', s, .ok ()) := by
  induction h with
  | nil => rfl
  | @cons x y d d' h _ ih =>
    obtain ⟨k, a⟩ := x
    obtain ⟨k', a'⟩ := y
    obtain ⟨h1, h2⟩ := h
    simp only at h1 h2
    subst h1
    simp only [Core.updateHoisted, updateActors_sure sem hsh h2 s, ih]

/-- The core `c'` is an answer of `c`, with the ancestors `up`, to an impulse. -/
structure Answers (μ : Measure S) (sem : Sem N V C O S (XR ℝ)) (bn : BN N V C O) (i : Impulse N V) (up : List (Dict N V))
    (c c' : Core N V C O S ℝ) (lp : N → XR ℝ) : Prop where
  nick : c'.nick = c.nick
  group : c'.group = c.group
  values : Reacts μ sem bn up (value i) (fun x => Affected bn i x ∧ x ∈ c.locus.keys) c.group.fixed c.locus c'.locus lp
  actors : Option.Rel (List.Forall₂ (Renewed sem (chainMap (c'.locus :: up)) (Affected bn i))) c.actors c'.actors
  hoisted : Option.Rel (List.Forall₂ (fun x y => y.1 = x.1 ∧
    List.Forall₂ (Renewed sem (chainMap (c'.locus :: up)) (Affected bn i)) x.2 y.2)) c.childActors c'.childActors

open Classical in
/-- The probability of the values that are drawn anew. -/
noncomputable def redrawn (bn : BN N V C O) (i : Impulse N V) (c : Core N V C O S ℝ) (lp : N → XR ℝ) : ENNReal :=
  (c.group.fixed.map (fun x => if Affected bn i x ∧ x ∈ c.locus.keys then expX (lp x) else 1)).prod

theorem updateLocal_locus (sem : Sem N V C O S (XR ℝ)) (pas : N → Option V) (sh : List N) (c : Core N V C O S ℝ) (s : S) :
    (c.updateLocal sem pas sh s).1.locus = c.locus := by
  unfold Core.updateLocal
  cases c.actors <;> rfl

theorem updateShared_locus (sem : Sem N V C O S (XR ℝ)) (pas : N → Option V) (sh : List N) (c : Core N V C O S ℝ) (s : S) :
    (c.updateShared sem pas sh s).1.locus = c.locus := by
  unfold Core.updateShared
  cases c.childActors <;> rfl

theorem core_chance {μ : Measure S} (sem : Sem N V C O S (XR ℝ)) (hcl : ∀ c, (sem.reparse c).names = [])
    {bn : BN N V C O} (hw : bn.Well) (hns : NoShadow bn []) {i : Impulse N V} (hp : Proper i) {imp : Dict N V} {sh : List N}
    (hs : shocks bn i = .ok (imp, sh)) {up : List (Dict N V)} {c c' : Core N V C O S ℝ} (hg : GroupOk bn c.group)
    (hex : ∀ x ∈ c.group.fixed, Affected bn i x → ¬ Exogenous bn x) {lp : N → XR ℝ} (h : Answers μ sem bn i up c c' lp) :
    Chance μ (fun s s' => ∃ c1, Core.setResponse sem bn up imp sh c s = (c1, s', .ok ()) ∧ Core.Same c1 c') (redrawn bn i c lp) := by
  obtain ⟨hval, haff, -⟩ := shocks_ok hw hp hs
  have h0 := respond_chance (μ := μ) sem hcl hw hns (up := up) (imp := imp) (sh := sh.filter (· ∈ c.locus.keys)) (val := value i)
    (A := fun x => Affected bn i x ∧ x ∈ c.locus.keys) hval (fun x => by simp [haff]) (fun x hx => hx.1.1) c.group.fixed 0 c
    hg.nodup hg.paths hg.nodes (fun x hx ha => hex x hx ha.1) h.values
  have e0 : redrawn bn i c lp = (c.group.fixed.map (fun x => @ite _ (Affected bn i x ∧ x ∈ c.locus.keys) (Classical.propDecidable _)
      (expX (lp x)) 1)).prod := by
    unfold redrawn
    congr 1
    refine List.map_congr_left (fun x _ => ?_)
    congr
  rw [e0]
  refine h0.congr (fun s s' => ?_)
  have key : ∀ c1 m q, Core.respond sem bn up imp (sh.filter (· ∈ c.locus.keys)) c.group.fixed 0 c s = (c1, m, .ok q) →
      (∀ x, c1.locus.get? x = c'.locus.get? x) →
      Core.setResponse sem bn up imp sh c s = ({ c1 with logPrior := some q, actors := c'.actors, childActors := c'.childActors }, m, .ok ()) := by
    intro c1 m q h1 h2
    have hok := Core.respond_ok sem bn up imp _ _ _ _ _ hg.nodup h1
    have hch : chainMap (c1.locus :: up) = chainMap (c'.locus :: up) := chainMap_eq (chainGet_eq (funext h2) rfl)
    simp only [Core.setResponse, h1]
    have e1 : ∀ s, Core.updateLocal sem (chainMap (c1.locus :: up)) sh { c1 with logPrior := some q } s =
        ({ c1 with logPrior := some q, actors := c'.actors }, s, .ok ()) := by
      intro s
      have ha := h.actors
      simp only [Core.updateLocal, hok.actors, hch]
      cases hca : c.actors with
      | none =>
        rw [hca] at ha
        cases hca' : c'.actors with
        | none => simp only [← hca, ← hok.actors]
        | some d => rw [hca'] at ha; cases ha
      | some d =>
        rw [hca] at ha
        cases hca' : c'.actors with
        | none => rw [hca'] at ha; cases ha
        | some d' =>
          rw [hca'] at ha
          cases ha with
          | some ha => simp only [updateActors_sure sem haff ha s]
    rw [e1]
    simp only
    have hb := h.hoisted
    simp only [Core.updateShared, hok.hoisted, hch]
    cases hca : c.childActors with
    | none =>
      rw [hca] at hb
      cases hca' : c'.childActors with
      | none => simp only [← hca, ← hok.hoisted]
      | some d => rw [hca'] at hb; cases hb
    | some d =>
      rw [hca] at hb
      cases hca' : c'.childActors with
      | none => rw [hca'] at hb; cases hb
      | some d' =>
        rw [hca'] at hb
        cases hb with
        | some hb => simp only [updateHoisted_sure sem haff hb m]
  constructor
  · rintro ⟨c1, q, h1, h2⟩
    have hok := Core.respond_ok sem bn up imp _ _ _ _ _ hg.nodup h1
    refine ⟨_, key c1 s' q h1 h2, ⟨?_, ?_, funext h2, rfl, rfl⟩⟩
    · exact hok.nick.trans h.nick.symm
    · exact hok.group.trans h.group.symm
  · rintro ⟨c1, h1, h2⟩
    have hans := Core.setResponse_ok sem bn up imp sh c s hg.nodup h1
    rcases hre : Core.respond sem bn up imp (sh.filter (· ∈ c.locus.keys)) c.group.fixed 0 c s with ⟨c2, m, o⟩
    cases o with
    | error e => simp only [Core.setResponse, hre] at h1; simp at h1
    | ok q =>
      have hloc : c2.locus = c1.locus := by
        simp only [Core.setResponse, hre] at h1
        rcases hu : Core.updateLocal sem (chainMap (c2.locus :: up)) sh { c2 with logPrior := some q } m with ⟨c3, m3, o⟩
        rw [hu] at h1
        have f1 := updateLocal_locus sem (chainMap (c2.locus :: up)) sh { c2 with logPrior := some q } m
        rw [hu] at f1
        cases o with
        | error e => simp at h1
        | ok u =>
          simp only at h1
          have f2 := updateShared_locus sem (chainMap (c3.locus :: up)) sh c3 m3
          rw [h1] at f2
          exact (f2.trans f1).symm
      have hx : ∀ x, c2.locus.get? x = c'.locus.get? x := fun x => by rw [hloc, h2.values]
      have hk := key c2 m q hre hx
      rw [h1] at hk
      simp only [Prod.mk.injEq] at hk
      exact ⟨c2, q, by rw [hk.2.1], hx⟩

/-! ## Hierarchies -/

mutual
/-- The hierarchy `t'` is an answer of `t`, under the ancestors `up`, to an impulse, and `w` is the product of the
probabilities, under their definitions, of the values drawn anew in all its cores. -/
def Reaction (μ : Measure S) (sem : Sem N V C O S (XR ℝ)) (bn : BN N V C O) (i : Impulse N V) :
    List (Dict N V) → CoreTree N V C O S ℝ → CoreTree N V C O S ℝ → ENNReal → Prop
  | up, .node c ts, .node c' us, w => ∃ lp w', Answers μ sem bn i up c c' lp ∧ ReactionL μ sem bn i (c'.locus :: up) ts us w' ∧
      w = redrawn bn i c lp * w'
/-- The same for the children of a core. -/
def ReactionL (μ : Measure S) (sem : Sem N V C O S (XR ℝ)) (bn : BN N V C O) (i : Impulse N V) :
    List (Dict N V) → List (CoreTree N V C O S ℝ) → List (CoreTree N V C O S ℝ) → ENNReal → Prop
  | _, [], [], w => w = 1
  | up, t :: ts, u :: us, w => ∃ w1 w2, Reaction μ sem bn i up t u w1 ∧ ReactionL μ sem bn i up ts us w2 ∧ w = w1 * w2
  | _, _, _, _ => False
end

/-- What is asked of every core: its group is one of a simulation core, and no exogenous variable of it is to be drawn. -/
def Fit (bn : BN N V C O) (i : Impulse N V) (c : Core N V C O S ℝ) : Prop :=
  GroupOk bn c.group ∧ ∀ x ∈ c.group.fixed, Affected bn i x → ¬ Exogenous bn x

theorem finish_of (held : List N) {c c' : Core N V C O S ℝ} : Core.Same (Core.finish held c) c' ↔ Core.Same c c' := by
  have h : Core.Same (Core.finish held c) c := by
    unfold Core.finish
    split
    · exact .refl c
    · exact ⟨rfl, rfl, rfl, rfl, rfl⟩
  exact ⟨fun h' => h.symm.trans h', fun h' => h.trans h'⟩

theorem tree_chance {μ : Measure S} (sem : Sem N V C O S (XR ℝ)) (hcl : ∀ c, (sem.reparse c).names = [])
    {bn : BN N V C O} (hw : bn.Well) (hns : NoShadow bn []) {i : Impulse N V} (hp : Proper i) {imp : Dict N V} {sh : List N}
    (hs : shocks bn i = .ok (imp, sh)) : ∀ (t t' : CoreTree N V C O S ℝ) (up : List (Dict N V)) (w : ENNReal), (∀ c ∈ t.labels, Fit bn i c) →
    Reaction μ sem bn i up t t' w →
      Chance μ (fun s s' => ∃ t1, setResponse sem bn imp sh up t s = (t1, s', .ok ()) ∧ Like t1 t') w := by
  intro t
  refine Tree.ind (P := fun t => ∀ (t' : CoreTree N V C O S ℝ) (up : List (Dict N V)) (w : ENNReal), (∀ c ∈ t.labels, Fit bn i c) →
      Reaction μ sem bn i up t t' w →
      Chance μ (fun s s' => ∃ t1, setResponse sem bn imp sh up t s = (t1, s', .ok ()) ∧ Like t1 t') w)
    (Q := fun ts => ∀ (us : List (CoreTree N V C O S ℝ)) (up : List (Dict N V)) (w : ENNReal), (∀ c ∈ Tree.labelsL ts, Fit bn i c) →
      ReactionL μ sem bn i up ts us w →
      Chance μ (fun s s' => ∃ t1, setResponseL sem bn imp sh up ts s = (t1, s', .ok ()) ∧ Tree.RelL Core.Same t1 us) w) ?_ ?_ ?_ t
  · intro c ts ih t' up w hf h
    cases t' with
    | node c' us =>
      obtain ⟨lp, w', h1, h2, rfl⟩ := h
      obtain ⟨hg, hex⟩ := hf c (by simp [Tree.labels])
      have hfs' : ∀ d ∈ Tree.labelsL ts, Fit bn i d := fun d hd => hf d (by simp [Tree.labels, hd])
      refine ((core_chance sem hcl hw hns hp hs hg hex h1).comp (ih us _ _ hfs' h2)).congr (fun s s' => ?_)
      simp only [setResponse]
      constructor
      · rintro ⟨m, ⟨c1, h3, h4⟩, t1, h5, h6⟩
        have hl := setResponseL_like sem bn imp sh ts ts (c1.locus :: up) (c'.locus :: up) m (chainGet_eq h4.values rfl) (likeL_refl ts)
        rw [h5] at hl
        rcases h7 : setResponseL sem bn imp sh (c1.locus :: up) ts m with ⟨t2, m2, o⟩
        rw [h7] at hl
        obtain ⟨h8, h9⟩ := hl
        cases h9
        simp only [h3, h7]
        exact ⟨_, rfl, (finish_of _).2 h4, likeL_trans h8 h6⟩
      · rintro ⟨t1, h3, h4⟩
        rcases h5 : Core.setResponse sem bn up imp sh c s with ⟨c1, m, o⟩
        rw [h5] at h3
        cases o with
        | error e => simp at h3
        | ok u =>
          simp only at h3
          rcases h7 : setResponseL sem bn imp sh (c1.locus :: up) ts m with ⟨t2, m2, o⟩
          rw [h7] at h3
          cases o with
          | error e => simp at h3
          | ok u =>
            simp only [Prod.mk.injEq, and_true] at h3
            obtain ⟨rfl, rfl⟩ := h3
            have h8 := (finish_of _).1 h4.1
            refine ⟨m, ⟨c1, rfl, h8⟩, ?_⟩
            have hl := setResponseL_like sem bn imp sh ts ts (c1.locus :: up) (c'.locus :: up) m (chainGet_eq h8.values rfl) (likeL_refl ts)
            rw [h7] at hl
            rcases h9 : setResponseL sem bn imp sh (c'.locus :: up) ts m with ⟨t3, m3, o⟩
            rw [h9] at hl
            obtain ⟨ha, hb⟩ := hl
            cases hb
            exact ⟨t3, rfl, likeL_trans (likeL_symm ha) h4.2⟩
  · intro us up w _ h
    cases us with
    | cons u us => exact h.elim
    | nil =>
      have : w = 1 := h
      subst this
      refine Chance.refl.congr (fun s s' => ?_)
      simp only [setResponseL, Prod.mk.injEq, and_true]
      constructor
      · rintro rfl; exact ⟨[], ⟨rfl, rfl⟩, trivial⟩
      · rintro ⟨t1, ⟨-, h⟩, -⟩; exact h
  · intro t ts ih1 ih2 us up w hf h
    cases us with
    | nil => exact h.elim
    | cons u us =>
      obtain ⟨w1, w2, h1, h2, rfl⟩ := h
      refine ((ih1 u up w1 (fun d hd => hf d (by simp [Tree.labelsL, hd])) h1).comp
        (ih2 us up w2 (fun d hd => hf d (by simp [Tree.labelsL, hd])) h2)).congr (fun s s' => ?_)
      simp only [setResponseL]
      constructor
      · rintro ⟨m, ⟨t1, h3, h4⟩, t2, h5, h6⟩
        simp only [h3, h5]
        exact ⟨_, rfl, h4, h6⟩
      · rintro ⟨t1, h3, h4⟩
        rcases h5 : setResponse sem bn imp sh up t s with ⟨t2, m, o⟩
        rw [h5] at h3
        cases o with
        | error e => simp at h3
        | ok v =>
          simp only at h3
          rcases h7 : setResponseL sem bn imp sh up ts m with ⟨t3, m3, o⟩
          rw [h7] at h3
          simp only [Prod.mk.injEq] at h3
          obtain ⟨rfl, rfl, rfl⟩ := h3
          exact ⟨m, ⟨t2, rfl, h4.1⟩, t3, h7, h4.2⟩

/-! ## A core in a hierarchy -/

/-- At the end of the path `p` of nicknames the hierarchy `t` has the core and descendants `u`, whose ancestors hold `up'`;
`t'` is the same with `u'` there. -/
def Places (up' : List (Dict N V)) (u u' : CoreTree N V C O S ℝ) : List N → List (Dict N V) → CoreTree N V C O S ℝ →
    CoreTree N V C O S ℝ → Prop
  | [], up, t, t' => up = up' ∧ t = u ∧ t' = u'
  | k :: ks, up, t, t' => ∃ c pre x post x', t = .node c (pre ++ x :: post) ∧ t' = .node c (pre ++ x' :: post) ∧ x.label.nick = k ∧
      (∀ y ∈ pre, y.label.nick ≠ k) ∧ Places up' u u' ks (c.locus :: up) x x'

theorem child_of {k : N} {x : CoreTree N V C O S ℝ} (hx : x.label.nick = k) (post : List (CoreTree N V C O S ℝ)) :
    ∀ (pre : List (CoreTree N V C O S ℝ)), (∀ y ∈ pre, y.label.nick ≠ k) → child k (pre ++ x :: post) = some x := by
  intro pre
  induction pre with
  | nil => intro _; simp [child, hx]
  | cons y pre ih =>
    intro h
    simp only [List.cons_append, child]
    rw [if_neg (h y (by simp)), ih (fun z hz => h z (.tail _ hz))]

theorem onChild_of {α : Type} {k : N} {x x1 : CoreTree N V C O S ℝ} (a : α) (hx : x.label.nick = k) (post : List (CoreTree N V C O S ℝ)) :
    ∀ (pre : List (CoreTree N V C O S ℝ)), (∀ y ∈ pre, y.label.nick ≠ k) →
      onChild k (fun _ => (x1, a)) (pre ++ x :: post) = some (pre ++ x1 :: post, a) := by
  intro pre
  induction pre with
  | nil => intro _; simp [onChild, hx]
  | cons y pre ih =>
    intro h
    simp only [List.cons_append, onChild]
    rw [if_neg (h y (by simp)), ih (fun z hz => h z (.tail _ hz))]

theorem likeL_middle (pre post : List (CoreTree N V C O S ℝ)) {x y : CoreTree N V C O S ℝ} :
    Tree.RelL Core.Same (pre ++ x :: post) (pre ++ y :: post) ↔ Like x y := by
  induction pre with
  | nil => exact ⟨fun h => h.1, fun h => ⟨h, likeL_refl _⟩⟩
  | cons z pre ih => exact ⟨fun h => ih.1 h.2, fun h => ⟨Like.refl z, ih.2 h⟩⟩

theorem onPath_of {α : Type} {f : List (Dict N V) → CoreTree N V C O S ℝ → CoreTree N V C O S ℝ × α} {up' : List (Dict N V)}
    {u u' : CoreTree N V C O S ℝ} : ∀ (p : List N) (up : List (Dict N V)) (t t' : CoreTree N V C O S ℝ), Places up' u u' p up t t' →
    ∃ t1, onPath f p up t = some (t1, (f up' u).2) ∧ (Like t1 t' ↔ Like (f up' u).1 u') := by
  intro p
  induction p with
  | nil =>
    rintro up t t' ⟨rfl, rfl, rfl⟩
    exact ⟨(f up t).1, rfl, Iff.rfl⟩
  | cons k ks ih =>
    rintro up t t' ⟨c, pre, x, post, x', rfl, rfl, hx, hpre, h⟩
    obtain ⟨x1, h1, h2⟩ := ih (c.locus :: up) x x' h
    refine ⟨.node c (pre ++ x1 :: post), ?_, ?_⟩
    · simp only [onPath, child_of hx post pre hpre, h1, onChild_of _ hx post pre hpre]
    · rw [← h2]
      exact ⟨fun h => (likeL_middle pre post).1 h.2, fun h => ⟨.refl c, (likeL_middle pre post).2 h⟩⟩

/-- What a step of a program makes of a hierarchy, up to the probabilities that cores carry. -/
def Becomes (sem : Sem N V C O S (XR ℝ)) (noneV : V) (sc : SimCore N V C O) (t : CoreTree N V C O S ℝ) (o : Op N V)
    (t' : CoreTree N V C O S ℝ) (s s' : S) : Prop :=
  ∃ t1, step sem noneV sc t s o = (t1, s', .ok ()) ∧ Like t1 t'

/-! ## C225 -/

/-- **C225**: breeding from any core of a hierarchy adds a child with given values of its fixed variables with the product
of their probabilities under their definitions, read on the values themselves and on what the child takes from its
ancestors; the rest of the hierarchy stays. -/
theorem C225 {μ : Measure S} (sem : Sem N V C O S (XR ℝ)) (hcl : ∀ c, (sem.reparse c).names = []) (noneV : V)
    {sc : SimCore N V C O} (hr : Ready sc.bn) {t t' : CoreTree N V C O S ℝ} {p : List N} {up : List (Dict N V)}
    {c d : Core N V C O S ℝ} {ts : List (CoreTree N V C O S ℝ)}
    (hpl : Places up (.node c ts) (.node c (ts ++ [.node d []])) p [] t t') {nick group : N} {g : Model.Group N}
    (hn : ∀ u ∈ ts, u.label.nick ≠ nick) (hgc : group ∈ c.group.children) (hg : sc.groups.get? group = some g)
    {exo vs : Dict N V} (he : exo.WF) (hv : Taken g (c.locus :: up) exo vs) (hns : NoShadow sc.bn vs.keys)
    (ho : Ordered sc.bn vs.keys g.fixed) {r : Dict N V} {lp : N → XR ℝ} (hfill : Fills μ sem sc.bn vs g.fixed r lp)
    (hd1 : d.nick = nick) (hd2 : d.group = g) (hd3 : ∀ x, d.locus.get? x = if x ∈ exo.keys ∨ x ∈ g.fixed then r.get? x else none)
    (hd4 : d.actors = none) (hd5 : d.childActors = none) :
    Chance μ (Becomes sem noneV sc t (.breed p nick group exo) t')
      ((g.fixed.map (fun x => if x ∈ exo.keys ∨ x ∈ g.exogenous then 1 else expX (lp x))).prod) := by
  refine (C221 sem hcl noneV hr nick he hv hns ho hfill).congr (fun s s' => ?_)
  unfold Becomes
  obtain ⟨t1, h1, h2⟩ := onPath_of (f := fun up u => breed sem noneV sc up u nick group exo s) p [] t t' hpl
  simp only [step, h1]
  have hb : breed sem noneV sc up (.node c ts) nick group exo s =
      match Core.generate sem noneV sc.bn g nick (c.locus :: up) exo s with
      | (.error e, s') => (.node c ts, s', .error e)
      | (.ok chd, s') => (.node c (ts ++ [.node chd []]), s', .ok ()) := by
    simp only [breed]
    rw [if_neg (by
      intro h
      obtain ⟨u, hu, hh⟩ := List.mem_map.1 h
      exact hn u hu hh), if_neg (by simpa using hgc), hg]
    simp only
    rcases Core.generate (K := ℝ) sem noneV sc.bn g nick (c.locus :: up) exo s with ⟨_ | _, _⟩ <;> rfl
  simp only [hb] at h2 ⊢
  have hlike : ∀ k : Core N V C O S ℝ, Like (.node c (ts ++ [.node k []]) : CoreTree N V C O S ℝ) (.node c (ts ++ [.node d []])) ↔ Core.Same k d := by
    intro k
    constructor
    · intro h
      exact ((likeL_middle ts []).1 h.2).1
    · intro h
      exact ⟨.refl c, (likeL_middle ts []).2 ⟨h, trivial⟩⟩
  rcases hgen : Core.generate (K := ℝ) sem noneV sc.bn g nick (c.locus :: up) exo s with ⟨o, m⟩
  rw [hgen] at h2
  cases o with
  | error e => simp
  | ok k =>
    simp only at h2 ⊢
    have hk : k.nick = nick ∧ k.group = g ∧ k.actors = none ∧ k.childActors = none := by
      unfold Core.generate at hgen
      split at hgen
      · simp at hgen
      · split at hgen
        · simp at hgen
        · simp only [Prod.mk.injEq, Except.ok.injEq] at hgen
          obtain ⟨rfl, -⟩ := hgen
          exact ⟨rfl, rfl, rfl, rfl⟩
    simp only [Prod.mk.injEq, Except.ok.injEq, and_true]
    constructor
    · rintro ⟨k', ⟨rfl, rfl⟩, h3, -⟩
      refine ⟨t1, ⟨rfl, rfl⟩, h2.2 ((hlike k).2 ⟨hk.1.trans hd1.symm, hk.2.1.trans hd2.symm, funext (fun x => ?_), hk.2.2.1.trans hd4.symm,
        hk.2.2.2.trans hd5.symm⟩)⟩
      rw [h3, hd3]
    · rintro ⟨t2, ⟨rfl, rfl⟩, h3⟩
      have h4 := (hlike k).1 (h2.1 h3)
      have h5 : ∀ x, k.locus.get? x = if x ∈ exo.keys ∨ x ∈ g.fixed then r.get? x else none := fun x => by rw [h4.values, hd3]
      exact ⟨k, ⟨rfl, rfl⟩, h5, generate_weight sem hcl noneV hr nick he hv hns ho hfill hgen h5⟩

/-! ## C226 -/

/-- **C226**: an impulse on any core of a hierarchy leaves given values in the core and its descendants with the product of
the probabilities of the values drawn anew, each under its definition read on the new values of its core and ancestors;
the rest of the hierarchy stays. -/
theorem C226 {μ : Measure S} (sem : Sem N V C O S (XR ℝ)) (hcl : ∀ c, (sem.reparse c).names = []) (noneV : V)
    {sc : SimCore N V C O} (hr : Ready sc.bn) (hns : NoShadow sc.bn []) {t t' u u' : CoreTree N V C O S ℝ} {p : List N}
    {up : List (Dict N V)} (hpl : Places up u u' p [] t t') {i : Impulse N V} (hi : Proper i) (hne : names i ≠ [])
    (hno : i ≠ .other) (hnn : ∀ x ∈ names i, x ∈ sc.bn.dag.nodes) (hf : ∀ c ∈ u.labels, Fit sc.bn i c) {w : ENNReal}
    (h : Reaction μ sem sc.bn i up u u' w) : Chance μ (Becomes sem noneV sc t (.impulse p i) t') w := by
  have hw := hr.facts.1
  obtain ⟨imp, sh, hs⟩ : ∃ imp sh, shocks sc.bn i = .ok (imp, sh) := by
    cases i with
    | other => exact absurd rfl hno
    | dict d =>
      obtain ⟨l, h1, -⟩ := Props.Dag.C02_downstream hw.wf (xs := d.keys) hne hnn
      exact ⟨_, _, by simp only [shocks, h1]; rfl⟩
    | list l0 =>
      obtain ⟨l, h1, -⟩ := Props.Dag.C02_downstream hw.wf (xs := l0) hne hnn
      exact ⟨_, _, by simp only [shocks, h1]; rfl⟩
  refine (tree_chance sem hcl hw hns hi hs u u' up w hf h).congr (fun s s' => ?_)
  unfold Becomes
  obtain ⟨t1, h1, h2⟩ := onPath_of (f := fun up u => impulse sem sc.bn up u i s) p [] t t' hpl
  simp only [step, h1]
  simp only [impulse, hs] at h2 ⊢
  rcases hse : setResponse sem sc.bn imp sh up u s with ⟨u1, m, o⟩
  rw [hse] at h2
  simp only [Prod.mk.injEq]
  constructor
  · rintro ⟨k, ⟨rfl, h3, h4⟩, h5⟩
    exact ⟨t1, ⟨rfl, h3, h4⟩, h2.2 h5⟩
  · rintro ⟨k, ⟨rfl, h3, h4⟩, h5⟩
    exact ⟨u1, ⟨rfl, h3, h4⟩, h2.1 h5⟩

/-! ## C227 -/

/-- A program makes of `t`, step by step, the listed hierarchies. -/
def Trace (sem : Sem N V C O S (XR ℝ)) (noneV : V) (sc : SimCore N V C O) :
    List (Op N V × CoreTree N V C O S ℝ) → CoreTree N V C O S ℝ → S → S → Prop
  | [], _, s, s' => s = s'
  | (o, u) :: r, t, s, s' => ∃ t1 m, step sem noneV sc t s o = (t1, m, .ok ()) ∧ Like t1 u ∧ Trace sem noneV sc r t1 m s'

/-- Each step has its chance from the hierarchy that the one before is to leave. -/
inductive Chances (μ : Measure S) (sem : Sem N V C O S (XR ℝ)) (noneV : V) (sc : SimCore N V C O) :
    CoreTree N V C O S ℝ → List (Op N V × CoreTree N V C O S ℝ) → List ENNReal → Prop
  | nil (t) : Chances μ sem noneV sc t [] []
  | cons {t o u w r ws} : Chance μ (Becomes sem noneV sc t o u) w → Chances μ sem noneV sc u r ws →
      Chances μ sem noneV sc t ((o, u) :: r) (w :: ws)

theorem trace_like (sem : Sem N V C O S (XR ℝ)) (noneV : V) (sc : SimCore N V C O) : ∀ (r : List (Op N V × CoreTree N V C O S ℝ))
    (t t' : CoreTree N V C O S ℝ) (s s' : S), Like t t' → Trace sem noneV sc r t s s' → Trace sem noneV sc r t' s s' := by
  intro r
  induction r with
  | nil => intro t t' s s' _ h; exact h
  | cons q r ih =>
    obtain ⟨o, u⟩ := q
    rintro t t' s s' hl ⟨t1, m, h1, h2, h3⟩
    have h := step_like sem noneV sc hl s o
    rw [h1] at h
    rcases h4 : step sem noneV sc t' s o with ⟨t2, m2, o2⟩
    rw [h4] at h
    obtain ⟨h5, h6⟩ := h
    cases h6
    exact ⟨t2, m, h4, h5.symm'.trans' h2, ih t1 t2 m s' h5 h3⟩

/-- **C227**: a program of operations on a hierarchy leaves given hierarchies, step by step, with the product of the
probabilities of its steps: the randomness of a step is not seen by the next but through the values it leaves. -/
theorem C227 {μ : Measure S} (sem : Sem N V C O S (XR ℝ)) (noneV : V) {sc : SimCore N V C O} {t : CoreTree N V C O S ℝ}
    {r : List (Op N V × CoreTree N V C O S ℝ)} {ws : List ENNReal} (h : Chances μ sem noneV sc t r ws) :
    Chance μ (Trace sem noneV sc r t) ws.prod := by
  induction h with
  | nil t => exact Chance.refl
  | @cons t o u w r ws h _ ih =>
    rw [List.prod_cons]
    refine (h.comp ih).congr (fun s s' => ?_)
    constructor
    · rintro ⟨m, ⟨t1, h1, h2⟩, h3⟩
      exact ⟨t1, m, h1, h2, trace_like sem noneV sc r u t1 m s' h2.symm' h3⟩
    · rintro ⟨t1, m, h1, h2, h3⟩
      exact ⟨m, ⟨t1, h1, h2⟩, trace_like sem noneV sc r t1 u m s' h2 h3⟩

/-! ## Coins in a hierarchy -/

/-- The coin `a` for all, the coin `b` of every kid. -/
def rowSC : SimCore String Toy.TV Toy.TC Unit :=
  take ⟨rowBN, "", []⟩ (asSimCore rowBN (.node (NSet.new "root" ["a"] []) [.node (NSet.new "kid" ["b"] []) []]))

theorem rowSC_ok : asSimCore rowBN (.node (NSet.new "root" ["a"] []) [.node (NSet.new "kid" ["b"] []) []]) = .ok rowSC :=
  take_ok (by decide +kernel)

/-- Its groups. -/
def kidTop : Model.Group String := ⟨"root", ["kid"], [], [], ["a"], [], [], []⟩

/-- Of the kids. -/
def kidG : Model.Group String := ⟨"kid", [], [], ["a"], ["b"], ["c"], [("c", ⟨"c", .frozen, ["b"], []⟩)], [("c", ⟨"c", .single, ["b"], []⟩)]⟩

theorem rowSC_top : rowSC.groups.get? "root" = some kidTop := by decide +kernel

theorem rowSC_kid : rowSC.groups.get? "kid" = some kidG := by decide +kernel

theorem rowSC_bn : rowSC.bn = rowBN := (groups_ok rowBuilt rowSC_ok).1

attribute [irreducible] rowSC

/-- The core of all. -/
def top (a : Int) : Core String Toy.TV Toy.TC Unit ℝ ℝ := ⟨"R", kidTop, [("a", .num a)], 0, none, none, none, none⟩

/-- A kid. -/
def kid (nick : String) (b : Int) : CoreTree String Toy.TV Toy.TC Unit ℝ ℝ :=
  .node ⟨nick, kidG, [("b", .num b)], 0, none, none, none, none⟩ []

theorem rowOrderedB : Ordered rowBN ["a"] ["b"] := ordered_of (by decide) (by decide) row_exo (fun d hd y hy => by
  simp only [List.mem_singleton] at hd
  subst hd
  rcases row_edges hy with ⟨rfl, -⟩ | ⟨-, h⟩
  · exact .inl (by simp)
  · simp at h)

theorem row_b_fills {a b : Int} (ha : a = 0 ∨ a = 1) (hb : b = 0 ∨ b = 1) :
    Fills uniform01 coinSem rowBN [("a", .num a)] ["b"] [("a", .num a), ("b", .num b)] (rowLp a b 0) :=
  (row_fills ha hb (.inl rfl)).part (fun _ => rfl) rowBuilt.facts.1 (by decide) row_shadow (vs' := [("a", .num a)]) (ds' := ["b"])
    (by simp) rowOrderedB (fun x v h => by
      have hx : x ∈ Dict.keys ([("a", .num a)] : Dict String Toy.TV) := (Dict.mem_keys_iff_exists _ _).2 ⟨v, h⟩
      have hx : x = "a" := by simpa [Dict.keys] using hx
      subst hx
      exact h) (fun x _ h => by cases h)

/-- C225: a kid is bred from the top. -/
theorem row_breed {a b : Int} (ha : a = 0 ∨ a = 1) (hb : b = 0 ∨ b = 1) {nick : String}
    {ts : List (CoreTree String Toy.TV Toy.TC Unit ℝ ℝ)} (hn : ∀ u ∈ ts, u.label.nick ≠ nick) :
    Chance uniform01 (Becomes coinSem (.str "None") rowSC (.node (top a) ts) (.breed [] nick "kid" [])
      (.node (top a) (ts ++ [kid nick b]))) (ENNReal.ofReal (if a = b then 3 / 4 else 1 / 4)) := by
  have h := C225 (μ := uniform01) coinSem (fun _ => rfl) (.str "None") (sc := rowSC) (by rw [rowSC_bn]; exact rowBuilt)
    (t := .node (top a) ts) (t' := .node (top a) (ts ++ [kid nick b])) (p := []) (up := []) (c := top a)
    (d := ⟨nick, kidG, [("b", .num b)], 0, none, none, none, none⟩) (ts := ts) ⟨rfl, rfl, rfl⟩ (nick := nick) (group := "kid")
    (g := kidG) hn (by simp [top, kidTop]) rowSC_kid (exo := []) (vs := [("a", .num a)]) List.nodup_nil
    ⟨fun x hx => .inr (by
      simp only [kidG, List.mem_singleton] at hx
      subst hx
      exact ⟨.num a, rfl⟩), fun x => by
      by_cases hx : x = "a"
      · subst hx; rfl
      · have h1 : ("a" : String) ≠ x := fun h => hx h.symm
        simp [kidG, hx, Dict.get?_cons, h1]⟩
    (by rw [rowSC_bn]; exact row_shadowA) (by rw [rowSC_bn]; exact rowOrderedB) (by rw [rowSC_bn]; exact row_b_fills ha hb)
    rfl rfl (fun x => by
      by_cases hx : x = "b"
      · subst hx; rfl
      · have h1 : ("b" : String) ≠ x := fun h => hx h.symm
        simp [kidG, hx, Dict.get?_cons, h1, Dict.keys]) rfl rfl
  refine cast ?_ h
  congr 1
  rw [← ofReal_log (p := if a = b then 3 / 4 else 1 / 4) (by split <;> norm_num)]
  simp [kidG, rowLp, Dict.keys]

/-- The coin `a` is turned. -/
def turn (a : Int) : Impulse String Toy.TV := .dict [("a", some (.num a))]

theorem turn_value (a : Int) (x : String) : value (turn a) x = if x = "a" then some (.num a) else none := by
  by_cases hx : x = "a"
  · subst hx; rfl
  · have h1 : ("a" : String) ≠ x := fun h => hx h.symm
    simp [value, turn, hx, Dict.get?_cons, h1]

theorem turn_a (a : Int) : ¬ Affected rowBN (turn a) "a" := fun h => by
  have := h.1
  rw [turn_value] at this
  simp at this

theorem turn_b (a : Int) : Affected rowBN (turn a) "b" :=
  ⟨by rw [turn_value]; simp, .inr ⟨"a", by simp [turn, names, Dict.keys], .single (by decide)⟩⟩

theorem top_answers {a a' : Int} (ha : a' = 0 ∨ a' = 1) :
    Answers uniform01 coinSem rowBN (turn a') [] (top a) (top a') (rowLp a' 0 0) where
  nick := rfl
  group := rfl
  actors := .none
  hoisted := .none
  values := by
    have hA : ∀ x ∈ (top a).group.fixed, ¬ Affected rowBN (turn a') x := by
      intro x hx
      simp only [top, kidTop, List.mem_singleton] at hx
      subst hx
      exact turn_a a'
    refine ⟨fun x hx => ?_, fun x hx v hv => ?_, fun x hx h => absurd h.1 (hA x hx), fun x hx h => absurd h.1 (hA x hx),
      fun x hx l hl => ?_, fun x hx h => absurd h.1 (hA x hx)⟩
    · by_cases h : x = "a"
      · subst h
        rcases hx with hx | ⟨hx, -⟩
        · exact absurd (by simp [top, kidTop]) hx
        · rw [turn_value] at hx; simp at hx
      · have h1 : ("a" : String) ≠ x := fun h' => h h'.symm
        simp [top, Dict.get?_cons, h1]
    · simp only [top, kidTop, List.mem_singleton] at hx
      subst hx
      rw [turn_value, if_pos rfl] at hv
      cases hv
      rfl
    · simp only [top, kidTop, List.mem_singleton] at hx
      subst hx
      rcases row_loci hl with ⟨-, rfl⟩ | ⟨h, -⟩ | ⟨h, -⟩
      · refine evaluate_of (d := bern 2) (v := .num a') ?_ ?_ ?_
        · rfl
        · rfl
        rcases ha with rfl | rfl <;> simp only [bern, rowLp] <;> norm_num
      · simp at h
      · simp at h

theorem kid_answers {nick : String} {a' b b' : Int} (ha : a' = 0 ∨ a' = 1) (hb : b' = 0 ∨ b' = 1) :
    Answers uniform01 coinSem rowBN (turn a') [[("a", .num a')]] (kid nick b).label (kid nick b').label (rowLp a' b' 0) where
  nick := rfl
  group := rfl
  actors := .none
  hoisted := .none
  values := by
    refine ⟨fun x hx => ?_, fun x hx v hv => ?_, fun x hx _ => ?_, fun x hx _ l hl hi => ?_, fun x hx l hl => ?_,
      fun x hx _ n f ps d hl hd => ?_⟩
    · by_cases h : x = "b"
      · subst h
        rcases hx with hx | ⟨-, hx⟩
        · exact absurd (by simp [kid, kidG, Tree.label]) hx
        · exact absurd ⟨turn_b a', by simp [kid, Tree.label, Dict.keys]⟩ hx
      · have h1 : ("b" : String) ≠ x := fun h' => h h'.symm
        simp [kid, Tree.label, Dict.get?_cons, h1]
    · simp only [kid, kidG, Tree.label, List.mem_singleton] at hx
      subst hx
      rw [turn_value] at hv
      simp at hv
    · simp only [kid, kidG, Tree.label, List.mem_singleton] at hx
      subst hx
      simp [kid, Tree.label, Dict.keys]
    · rcases row_loci hl with ⟨-, rfl⟩ | ⟨-, rfl⟩ | ⟨-, rfl⟩ <;> cases hi
    · simp only [kid, kidG, Tree.label, List.mem_singleton] at hx
      subst hx
      rcases row_loci hl with ⟨h, -⟩ | ⟨-, rfl⟩ | ⟨h, -⟩
      · simp at h
      · rcases ha with rfl | rfl
        · refine evaluate_of (d := bern 1) (v := .num b') ?_ ?_ ?_
          · rfl
          · rfl
          rcases hb with rfl | rfl <;> simp only [bern, rowLp] <;> norm_num <;> simp
        · refine evaluate_of (d := bern 3) (v := .num b') ?_ ?_ ?_
          · rfl
          · rfl
          rcases hb with rfl | rfl <;> simp only [bern, rowLp] <;> norm_num <;> simp
      · simp at h
    · simp only [kid, kidG, Tree.label, List.mem_singleton] at hx
      subst hx
      rcases row_loci hl with ⟨h, -⟩ | ⟨-, h⟩ | ⟨h, -⟩
      · simp at h
      · cases h
        rcases ha with rfl | rfl
        · have e : getDistribution coinSem (Toy.app "bern" [] [("q", Toy.plus (Toy.int 1)
            (Toy.plus (Toy.var "a") (Toy.var "a")))]) (chainMap [[("b", .num b')], [("a", .num 0)]]) = .ok (bern 1) := rfl
          rw [show (kid nick b').label.locus = [("b", .num b')] from rfl, e] at hd
          cases hd
          exact bern_fair (by decide) (by decide)
        · have e : getDistribution coinSem (Toy.app "bern" [] [("q", Toy.plus (Toy.int 1)
            (Toy.plus (Toy.var "a") (Toy.var "a")))]) (chainMap [[("b", .num b')], [("a", .num 1)]]) = .ok (bern 3) := rfl
          rw [show (kid nick b').label.locus = [("b", .num b')] from rfl, e] at hd
          cases hd
          exact bern_fair (by decide) (by decide)
      · simp at h

theorem top_redrawn (a a' : Int) (lp : String → XR ℝ) : redrawn rowBN (turn a') (top a) lp = 1 := by
  simp [redrawn, top, kidTop, turn_a]

theorem kid_redrawn (nick : String) (a' b : Int) (lp : String → XR ℝ) :
    redrawn rowBN (turn a') (kid nick b).label lp = expX (lp "b") := by
  simp [redrawn, kid, kidG, Tree.label, turn_b, Dict.keys]

/-- C226: turning the coin `a` has the coins of both kids thrown again. -/
theorem row_impulse {a a' b c b' c' : Int} (ha : a' = 0 ∨ a' = 1) (hb : b' = 0 ∨ b' = 1) (hc : c' = 0 ∨ c' = 1) :
    Chance uniform01 (Becomes coinSem (.str "None") rowSC (.node (top a) [kid "A" b, kid "B" c]) (.impulse [] (turn a'))
      (.node (top a') [kid "A" b', kid "B" c'])) (ENNReal.ofReal (if a' = b' then 3 / 4 else 1 / 4) *
        ENNReal.ofReal (if a' = c' then 3 / 4 else 1 / 4)) := by
  have hg := (groups_ok rowBuilt rowSC_ok).2
  refine C226 coinSem (fun _ => rfl) (.str "None") (by rw [rowSC_bn]; exact rowBuilt) (by rw [rowSC_bn]; exact row_shadow)
    (up := []) (p := []) ⟨rfl, rfl, rfl⟩ (by simp [turn, Proper, Dict.WF, Dict.keys]) (by simp [turn, names, Dict.keys]) (by simp [turn])
    (by rw [rowSC_bn]; intro x hx; simp only [turn, names, Dict.keys, List.map_cons, List.map_nil, List.mem_singleton] at hx; subst hx; decide) (fun k hk => ?_) ?_
  · rw [rowSC_bn]
    refine ⟨?_, fun x _ _ => row_exo x⟩
    have : k.group = kidTop ∨ k.group = kidG := by
      simp only [Tree.labels, Tree.labelsL, kid, List.append_nil, List.singleton_append, List.mem_cons, List.not_mem_nil, or_false] at hk
      rcases hk with rfl | rfl | rfl
      · exact .inl rfl
      · exact .inr rfl
      · exact .inr rfl
    rcases this with h | h
    · rw [h]; exact (hg _ _ rowSC_top).2
    · rw [h]; exact (hg _ _ rowSC_kid).2
  · rw [rowSC_bn]
    refine ⟨_, _, top_answers ha, ⟨_, _, ⟨_, _, kid_answers ha hb, rfl, rfl⟩, ⟨_, _, ⟨_, _, kid_answers ha hc, rfl, rfl⟩, rfl, rfl⟩, rfl⟩, ?_⟩
    rw [top_redrawn]
    have e1 := kid_redrawn "A" a' b (rowLp a' b' 0)
    have e2 := kid_redrawn "B" a' c (rowLp a' c' 0)
    rw [← ofReal_log (p := if a' = b' then 3 / 4 else 1 / 4) (by split <;> norm_num),
      ← ofReal_log (p := if a' = c' then 3 / 4 else 1 / 4) (by split <;> norm_num)]
    simp only [kid, Tree.label] at e1 e2
    rw [e1, e2]
    simp [rowLp]

/-- C227: two kids are bred, independently given the coin of the top, then the coin is turned. -/
example {a a' b c b' c' : Int} (ha : a = 0 ∨ a = 1) (hb : b = 0 ∨ b = 1) (hc : c = 0 ∨ c = 1) (ha' : a' = 0 ∨ a' = 1)
    (hb' : b' = 0 ∨ b' = 1) (hc' : c' = 0 ∨ c' = 1) :
    Chance uniform01 (Trace coinSem (.str "None") rowSC [(.breed [] "A" "kid" [], .node (top a) [kid "A" b]),
        (.breed [] "B" "kid" [], .node (top a) [kid "A" b, kid "B" c]),
        (.impulse [] (turn a'), .node (top a') [kid "A" b', kid "B" c'])] (.node (top a) []))
      ([ENNReal.ofReal (if a = b then 3 / 4 else 1 / 4), ENNReal.ofReal (if a = c then 3 / 4 else 1 / 4),
        ENNReal.ofReal (if a' = b' then 3 / 4 else 1 / 4) * ENNReal.ofReal (if a' = c' then 3 / 4 else 1 / 4)].prod) :=
  C227 coinSem (.str "None") (.cons (row_breed ha hb (by simp)) (.cons (row_breed ha hc (by simp [kid, Tree.label]))
    (.cons (row_impulse ha' hb' hc') (.nil _))))

end Props.LawsHier
