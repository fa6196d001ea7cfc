import Verif.Model.SimCore
import Verif.Lemmas.Sampling

/-!
# Helper lemmas on parameter cores
-/

namespace Model

set_option linter.unusedSectionVars false

open Py Spec Relation

variable {N V C O S K : Type} [DecidableEq N] [AddCommMonoid K]

/-- What a definition may read when it is evaluated. -/
theorem Loci.evaluate_congr (sem : Sem N V C O S (XR K)) (hcl : ∀ c, (sem.reparse c).names = []) (l : Loci N V C O)
    {ρ ρ' : N → Option V} (hd : ∀ n f ps, l = .dist n f ps → ρ n = ρ' n ∧ ∀ y ∈ f.names, ρ y = ρ' y) :
    l.evaluate sem ρ = l.evaluate sem ρ' := by
  cases l with
  | value n v => rfl
  | exo n => rfl
  | dist n f ps =>
    simp only [Loci.evaluate, Props.Expr.getDistribution_congr sem hcl (hd n f ps rfl).2, (hd n f ps rfl).1]
  | func n e ps => rfl
  | pseudo n ps => rfl

theorem chainGet_cons (d : Dict N V) (up : List (Dict N V)) (x : N) :
    chainGet (d :: up) x = match d.get? x with | some v => .ok v | none => chainGet up x := by
  simp only [chainGet]
  cases d.get? x with
  | some v => rfl
  | none =>
    simp only
    induction up with
    | nil => rfl
    | cons e up ih =>
      simp only [chainGet]
      cases e.get? x with
      | some v => rfl
      | none =>
        simp only
        rw [← ih]
        cases chainGet up x <;> rfl

theorem chainMap_cons (d : Dict N V) (up : List (Dict N V)) (x : N) :
    chainMap (d :: up) x = (d.get? x).or (chainMap up x) := by
  unfold chainMap
  rw [chainGet_cons]
  cases d.get? x <;> rfl

theorem chainMap_nil (x : N) : chainMap ([] : List (Dict N V)) x = none := rfl

/-- The part of `chainMap` above does not matter where the dictionaries agree. -/
theorem chainMap_congr {d d' : Dict N V} {up up' : List (Dict N V)} {x : N} (h : d.get? x = d'.get? x)
    (h' : chainMap up x = chainMap up' x) : chainMap (d :: up) x = chainMap (d' :: up') x := by
  rw [chainMap_cons, chainMap_cons, h, h']

namespace Core

/-- What the loop of `set_response` leaves. -/
structure Responded (sem : Sem N V C O S (XR K)) (bn : BN N V C O) (up : List (Dict N V)) (imp : Dict N V) (sh : List N)
    (ds : List N) (p : XR K) (c c' : Core N V C O S K) (q : XR K) : Prop where
  nick : c'.nick = c.nick
  group : c'.group = c.group
  prior : c'.logPrior = c.logPrior
  actors : c'.actors = c.actors
  hoisted : c'.childActors = c.childActors
  wf : c.locus.WF → c'.locus.WF
  keys : ∀ x, x ∈ c'.locus.keys ↔ x ∈ c.locus.keys ∨ (x ∈ ds ∧ (x ∈ imp.keys ∨ x ∈ sh))
  same : ∀ x, x ∉ ds ∨ (x ∉ imp.keys ∧ x ∉ sh) → c'.locus.get? x = c.locus.get? x
  put : ∀ x ∈ ds, ∀ v, imp.get? x = some v → c'.locus.get? x = some v
  drawn : ∀ pre d suf, ds = pre ++ d :: suf → d ∉ imp.keys → d ∈ sh → ∃ l v ρ s1 s2, bn.loci.get? d = some l ∧
    l.render sem ρ s1 = (.ok v, s2) ∧ c'.locus.get? d = some v ∧ ∀ y, y ∉ d :: suf → ρ y = chainMap (c'.locus :: up) y
  total : ∀ ev : N → XR K, (∀ pre d suf, ds = pre ++ d :: suf → ∀ l ρ e, bn.loci.get? d = some l →
    (∀ y, y ∉ suf → ρ y = chainMap (c'.locus :: up) y) → l.evaluate sem ρ = .ok e → ev d = e) → q = p + (ds.map ev).sum
  kept : (∀ d ∈ ds, d ∈ imp.keys ∨ d ∉ sh) → c'.logProb = c.logProb

theorem respond_ok (sem : Sem N V C O S (XR K)) (bn : BN N V C O) (up : List (Dict N V)) (imp : Dict N V) (sh : List N) :
    ∀ (ds : List N) (p : XR K) (c : Core N V C O S K) (s : S) {c' : Core N V C O S K} {s' : S} {q : XR K}, ds.Nodup →
      respond sem bn up imp sh ds p c s = (c', s', .ok q) → Responded sem bn up imp sh ds p c c' q := by
  intro ds
  induction ds with
  | nil =>
    intro p c s c' s' q _ h
    simp only [respond, Prod.mk.injEq, Except.ok.injEq] at h
    obtain ⟨rfl, -, rfl⟩ := h
    exact ⟨rfl, rfl, rfl, rfl, rfl, id, by simp, fun _ _ => rfl, by simp, by simp, by simp, fun _ => rfl⟩
  | cons d ds ih =>
    intro p c s c' s' q hnd h
    obtain ⟨hd, hnd⟩ := List.nodup_cons.1 hnd
    -- one step: the core becomes `c1`, its term is `e`
    obtain ⟨l, c1, s1, e, hl, hfr, hput, hdrawn, hsame, hkeys, hev, hkeep, hrec⟩ : ∃ (l : Loci N V C O) (c1 : Core N V C O S K) (s1 : S) (e : XR K),
        bn.loci.get? d = some l ∧
        (c1.nick = c.nick ∧ c1.group = c.group ∧ c1.logPrior = c.logPrior ∧ c1.actors = c.actors ∧
          c1.childActors = c.childActors ∧ (c.locus.WF → c1.locus.WF)) ∧
        (∀ v, imp.get? d = some v → c1.locus.get? d = some v) ∧
        (d ∉ imp.keys → d ∈ sh → ∃ v s2, l.render sem (chainMap (c.locus :: up)) s = (.ok v, s2) ∧ c1.locus.get? d = some v) ∧
        (∀ x, x ≠ d ∨ (d ∉ imp.keys ∧ d ∉ sh) → c1.locus.get? x = c.locus.get? x) ∧
        (∀ x, x ∈ c1.locus.keys ↔ x ∈ c.locus.keys ∨ (x = d ∧ (d ∈ imp.keys ∨ d ∈ sh))) ∧
        l.evaluate sem (chainMap (c1.locus :: up)) = .ok e ∧
        (d ∈ imp.keys ∨ d ∉ sh → c1.logProb = c.logProb) ∧
        respond sem bn up imp sh ds (p + e) c1 s1 = (c', s', .ok q) := by
      simp only [respond] at h
      cases hg : bn.get d with
      | error e => rw [hg] at h; simp at h
      | ok l =>
        rw [hg] at h
        simp only at h
        have hl := get_eq_ok hg
        cases hi : imp.get? d with
        | some v =>
          have hdi : d ∈ imp.keys := (Dict.mem_keys_iff_exists _ _).2 ⟨v, hi⟩
          rw [hi] at h
          simp only at h
          cases he : l.evaluate sem (chainMap (c.locus.set d v :: up)) with
          | error e => rw [he] at h; simp at h
          | ok e =>
            rw [he] at h
            refine ⟨l, { c with locus := c.locus.set d v }, s, e, hl, ⟨rfl, rfl, rfl, rfl, rfl, fun hw => hw.set _ _⟩, ?_, fun hh => absurd hdi hh,
              ?_, ?_, he, fun _ => rfl, h⟩
            · intro w hw
              cases hw
              exact Dict.get?_set_self _ _ _
            · rintro x (hx | ⟨hx, -⟩)
              · exact Dict.get?_set_ne _ _ (Ne.symm hx)
              · exact absurd hdi hx
            · intro x
              rw [Dict.mem_keys_set]
              simp [hdi, or_comm]
        | none =>
          have hdi : d ∉ imp.keys := (Dict.get?_eq_none_iff _ _).1 hi
          rw [hi] at h
          simp only at h
          by_cases hs : d ∈ sh
          · rw [if_pos hs] at h
            rcases hr : l.render sem (chainMap (c.locus :: up)) s with ⟨_ | v, s1⟩
            · rw [hr] at h; simp at h
            · rw [hr] at h
              simp only at h
              cases he : l.evaluate sem (chainMap ((c.set d v).locus :: up)) with
              | error e => rw [he] at h; simp at h
              | ok e =>
                rw [he] at h
                refine ⟨l, c.set d v, s1, e, hl, ⟨rfl, rfl, rfl, rfl, rfl, fun hw => hw.set _ _⟩, by simp, fun _ _ => ⟨v, s1, hr, ?_⟩,
                  ?_, ?_, he, ?_, h⟩
                · exact Dict.get?_set_self _ _ _
                · rintro x (hx | ⟨-, hx⟩)
                  · exact Dict.get?_set_ne _ _ (Ne.symm hx)
                  · exact absurd hs hx
                · intro x
                  simp only [set]
                  rw [Dict.mem_keys_set]
                  simp [hs, or_comm]
                · rintro (hh | hh)
                  · exact absurd hh hdi
                  · exact absurd hs hh
          · rw [if_neg hs] at h
            cases he : l.evaluate sem (chainMap (c.locus :: up)) with
            | error e => rw [he] at h; simp at h
            | ok e =>
              rw [he] at h
              exact ⟨l, c, s, e, hl, ⟨rfl, rfl, rfl, rfl, rfl, id⟩, by simp, fun _ hh => absurd hh hs, fun _ _ => rfl,
                by simp [hdi, hs], he, fun _ => rfl, h⟩
    obtain ⟨g1, g2, g3, g4, g5, gw⟩ := hfr
    have r := ih (p + e) c1 s1 hnd hrec
    have hd1 : c'.locus.get? d = c1.locus.get? d := r.same d (Or.inl hd)
    have hsame' : ∀ x, x ∉ d :: ds ∨ (x ∉ imp.keys ∧ x ∉ sh) → c'.locus.get? x = c.locus.get? x := by
      rintro x (hx | ⟨hx1, hx2⟩)
      · rw [List.mem_cons, not_or] at hx
        rw [r.same x (Or.inl hx.2), hsame x (Or.inl hx.1)]
      · rw [r.same x (Or.inr ⟨hx1, hx2⟩), hsame x]
        by_cases hxd : x = d
        · subst hxd; exact Or.inr ⟨hx1, hx2⟩
        · exact Or.inl hxd
    refine ⟨r.nick.trans g1, r.group.trans g2, r.prior.trans g3, r.actors.trans g4, r.hoisted.trans g5, fun hw => r.wf (gw hw), ?_, hsame', ?_, ?_, ?_, ?_⟩
    · intro x
      rw [r.keys, hkeys, List.mem_cons]
      constructor
      · rintro ((h | ⟨rfl, h⟩) | ⟨h1, h2⟩)
        · exact .inl h
        · exact .inr ⟨.inl rfl, h⟩
        · exact .inr ⟨.inr h1, h2⟩
      · rintro (h | ⟨rfl | h1, h2⟩)
        · exact .inl (.inl h)
        · exact .inl (.inr ⟨rfl, h2⟩)
        · exact .inr ⟨h1, h2⟩
    · intro x hx v hv
      rcases List.mem_cons.1 hx with rfl | hx
      · rw [hd1]; exact hput v hv
      · exact r.put x hx v hv
    · intro pre y suf e1 hy hys
      cases pre with
      | nil =>
        simp only [List.nil_append, List.cons.injEq] at e1
        obtain ⟨rfl, rfl⟩ := e1
        obtain ⟨v, s2, h1, h2⟩ := hdrawn hy hys
        refine ⟨l, v, _, s, s2, hl, h1, hd1.trans h2, fun z hz => ?_⟩
        exact (chainMap_congr (hsame' z (Or.inl hz)) rfl).symm
      | cons a pre =>
        simp only [List.cons_append, List.cons.injEq] at e1
        exact r.drawn pre y suf e1.2 hy hys
    · intro ev hev'
      have h1 := r.total ev (fun pre y suf e1 => hev' (d :: pre) y suf (by rw [e1]; rfl))
      have h2 : ev d = e := by
        refine hev' [] d ds rfl l _ e hl (fun y hy => ?_) hev
        refine chainMap_congr ?_ rfl
        exact (r.same y (Or.inl hy)).symm
      rw [h1, List.map_cons, List.sum_cons, h2, add_assoc]
    · intro hall
      rw [r.kept (fun x hx => hall x (by simp [hx])), hkeep (hall d (by simp))]

theorem respond_frame (sem : Sem N V C O S (XR K)) (bn : BN N V C O) (up : List (Dict N V)) (imp : Dict N V) (sh : List N) :
    ∀ (ds : List N) (p : XR K) (c : Core N V C O S K) (s : S),
      (respond sem bn up imp sh ds p c s).1.nick = c.nick ∧ (respond sem bn up imp sh ds p c s).1.group = c.group ∧
        (respond sem bn up imp sh ds p c s).1.logLike = c.logLike := by
  intro ds
  induction ds with
  | nil => intro p c s; exact ⟨rfl, rfl, rfl⟩
  | cons d ds ih =>
    intro p c s
    simp only [respond]
    cases bn.get d with
    | error e => exact ⟨rfl, rfl, rfl⟩
    | ok l =>
      simp only
      cases imp.get? d with
      | some v =>
        simp only
        split
        · exact ⟨rfl, rfl, rfl⟩
        · exact ih _ _ _
      | none =>
        simp only
        split
        · rcases l.render sem (chainMap (c.locus :: up)) s with ⟨_ | v, s1⟩
          · exact ⟨rfl, rfl, rfl⟩
          · simp only
            split
            · exact ⟨rfl, rfl, rfl⟩
            · exact ih _ _ _
        · split
          · exact ⟨rfl, rfl, rfl⟩
          · exact ih _ _ _

/-- What `updateActors` does to every actor. -/
def Updated (sem : Sem N V C O S (XR K)) (pas : N → Option V) (shocked : List N) (x y : N × Actor N V C O S K) : Prop :=
  y.1 = x.1 ∧ (x.1 ∈ shocked ∧ x.2.isFrozen → ∃ s1 s2, x.2.update sem pas s1 = (y.2, s2, .ok ())) ∧
    (¬ (x.1 ∈ shocked ∧ x.2.isFrozen) → y.2 = x.2)

theorem updateActors_ok (sem : Sem N V C O S (XR K)) (pas : N → Option V) (shocked : List N) :
    ∀ (d : Dict N (Actor N V C O S K)) (s : S) {d' : Dict N (Actor N V C O S K)} {s' : S},
      updateActors sem pas shocked d s = (d', s', .ok ()) → List.Forall₂ (Updated sem pas shocked) d d' := by
  intro d
  induction d with
  | nil =>
    intro s d' s' h
    simp only [updateActors, Prod.mk.injEq] at h
    obtain ⟨rfl, -⟩ := h
    exact .nil
  | cons p r ih =>
    obtain ⟨k, a⟩ := p
    intro s d' s' h
    simp only [updateActors] at h
    by_cases hc : (k ∈ shocked && a.isFrozen) = true
    · rw [if_pos hc] at h
      rcases hu : a.update sem pas s with ⟨a', s1, _ | _⟩
      · rw [hu] at h; simp at h
      · rw [hu] at h
        simp only at h
        rcases hr : updateActors sem pas shocked r s1 with ⟨r', s2, o⟩
        rw [hr] at h
        simp only [Prod.mk.injEq] at h
        obtain ⟨rfl, rfl, rfl⟩ := h
        refine .cons ⟨rfl, fun _ => ⟨s, s1, hu⟩, fun hn => absurd ?_ hn⟩ (ih s1 hr)
        simpa using hc
    · rw [if_neg hc] at h
      rcases hr : updateActors sem pas shocked r s with ⟨r', s2, o⟩
      rw [hr] at h
      simp only [Prod.mk.injEq] at h
      obtain ⟨rfl, rfl, rfl⟩ := h
      refine .cons ⟨rfl, fun hn => absurd (by simpa using hn) hc, fun _ => rfl⟩ (ih s hr)

theorem updateHoisted_ok (sem : Sem N V C O S (XR K)) (pas : N → Option V) (shocked : List N) :
    ∀ (d : Dict N (Dict N (Actor N V C O S K))) (s : S) {d' : Dict N (Dict N (Actor N V C O S K))} {s' : S},
      updateHoisted sem pas shocked d s = (d', s', .ok ()) →
      List.Forall₂ (fun x y => y.1 = x.1 ∧ List.Forall₂ (Updated sem pas shocked) x.2 y.2) d d' := by
  intro d
  induction d with
  | nil =>
    intro s d' s' h
    simp only [updateHoisted, Prod.mk.injEq] at h
    obtain ⟨rfl, -⟩ := h
    exact .nil
  | cons p r ih =>
    obtain ⟨k, a⟩ := p
    intro s d' s' h
    simp only [updateHoisted] at h
    rcases hu : updateActors sem pas shocked a s with ⟨a', s1, _ | _⟩
    · rw [hu] at h; simp at h
    · rw [hu] at h
      simp only at h
      rcases hr : updateHoisted sem pas shocked r s1 with ⟨r', s2, o⟩
      rw [hr] at h
      simp only [Prod.mk.injEq] at h
      obtain ⟨rfl, rfl, rfl⟩ := h
      exact .cons ⟨rfl, updateActors_ok sem pas shocked a s hu⟩ (ih s1 hr)

/-- What a whole response leaves in one core. -/
structure Answered (sem : Sem N V C O S (XR K)) (bn : BN N V C O) (up : List (Dict N V)) (imp : Dict N V) (sh : List N)
    (c c' : Core N V C O S K) : Prop where
  mid : ∃ m q, Responded sem bn up imp (sh.filter (· ∈ c.locus.keys)) c.group.fixed 0 c m q ∧ m.nick = c'.nick ∧ m.group = c'.group ∧
    m.locus = c'.locus ∧ m.logProb = c'.logProb ∧ c'.logPrior = some q
  actors : (c.actors = none ∧ c'.actors = none) ∨ ∃ d d', c.actors = some d ∧ c'.actors = some d' ∧
    List.Forall₂ (Updated sem (chainMap (c'.locus :: up)) sh) d d'
  hoisted : (c.childActors = none ∧ c'.childActors = none) ∨ ∃ d d', c.childActors = some d ∧ c'.childActors = some d' ∧
    List.Forall₂ (fun x y => y.1 = x.1 ∧ List.Forall₂ (Updated sem (chainMap (c'.locus :: up)) sh) x.2 y.2) d d'

theorem setResponse_ok (sem : Sem N V C O S (XR K)) (bn : BN N V C O) (up : List (Dict N V)) (imp : Dict N V) (sh : List N)
    (c : Core N V C O S K) (s : S) {c' : Core N V C O S K} {s' : S} (hnd : c.group.fixed.Nodup)
    (h : setResponse sem bn up imp sh c s = (c', s', .ok ())) : Answered sem bn up imp sh c c' := by
  unfold setResponse at h
  rcases hr : respond sem bn up imp (sh.filter (· ∈ c.locus.keys)) c.group.fixed 0 c s with ⟨m, s1, _ | q⟩
  · rw [hr] at h; simp at h
  · rw [hr] at h
    simp only at h
    have r := respond_ok sem bn up imp _ _ 0 c s hnd hr
    rcases hl : updateLocal sem (chainMap (m.locus :: up)) sh { m with logPrior := some q } s1 with ⟨m1, s2, _ | _⟩
    · rw [hl] at h; simp at h
    · rw [hl] at h
      simp only at h
      have h1 : m1.nick = m.nick ∧ m1.group = m.group ∧ m1.locus = m.locus ∧ m1.logProb = m.logProb ∧ m1.logPrior = some q ∧
          m1.childActors = m.childActors ∧ ((m.actors = none ∧ m1.actors = none) ∨ ∃ d d', m.actors = some d ∧ m1.actors = some d' ∧
            List.Forall₂ (Updated sem (chainMap (m.locus :: up)) sh) d d') := by
        unfold updateLocal at hl
        simp only at hl
        cases ha : m.actors with
        | none =>
          rw [ha] at hl
          simp only [Prod.mk.injEq] at hl
          obtain ⟨rfl, -⟩ := hl
          exact ⟨rfl, rfl, rfl, rfl, rfl, rfl, Or.inl ⟨rfl, rfl⟩⟩
        | some d =>
          rw [ha] at hl
          simp only at hl
          rcases hu : updateActors sem (chainMap (m.locus :: up)) sh d s1 with ⟨d', s3, o⟩
          rw [hu] at hl
          simp only [Prod.mk.injEq] at hl
          obtain ⟨rfl, rfl, rfl⟩ := hl
          exact ⟨rfl, rfl, rfl, rfl, rfl, rfl, Or.inr ⟨d, d', rfl, rfl, updateActors_ok sem _ sh d s1 hu⟩⟩
      obtain ⟨e1, e2, e3, e4, e5, e6, e7⟩ := h1
      have h2 : c'.nick = m1.nick ∧ c'.group = m1.group ∧ c'.locus = m1.locus ∧ c'.logProb = m1.logProb ∧ c'.logPrior = m1.logPrior ∧
          c'.actors = m1.actors ∧ ((m1.childActors = none ∧ c'.childActors = none) ∨ ∃ d d', m1.childActors = some d ∧ c'.childActors = some d' ∧
            List.Forall₂ (fun x y => y.1 = x.1 ∧ List.Forall₂ (Updated sem (chainMap (m1.locus :: up)) sh) x.2 y.2) d d') := by
        unfold updateShared at h
        cases ha : m1.childActors with
        | none =>
          rw [ha] at h
          simp only [Prod.mk.injEq] at h
          obtain ⟨rfl, -⟩ := h
          exact ⟨rfl, rfl, rfl, rfl, rfl, rfl, Or.inl ⟨rfl, ha⟩⟩
        | some d =>
          rw [ha] at h
          simp only at h
          rcases hu : updateHoisted sem (chainMap (m1.locus :: up)) sh d s2 with ⟨d', s3, o⟩
          rw [hu] at h
          simp only [Prod.mk.injEq] at h
          obtain ⟨rfl, rfl, rfl⟩ := h
          exact ⟨rfl, rfl, rfl, rfl, rfl, rfl, Or.inr ⟨d, d', rfl, rfl, updateHoisted_ok sem _ sh d s2 hu⟩⟩
      obtain ⟨f1, f2, f3, f4, f5, f6, f7⟩ := h2
      refine ⟨⟨m, q, r, (f1.trans e1).symm, (f2.trans e2).symm, (f3.trans e3).symm, (f4.trans e4).symm, f5.trans e5⟩, ?_, ?_⟩
      · rw [f3, e3, f6, ← r.actors]; exact e7
      · rw [← r.hoisted, ← e6, f3]; exact f7

theorem updateLocal_frame (sem : Sem N V C O S (XR K)) (pas : N → Option V) (sh : List N) (c : Core N V C O S K) (s : S) :
    (c.updateLocal sem pas sh s).1.nick = c.nick ∧ (c.updateLocal sem pas sh s).1.group = c.group ∧
      (c.updateLocal sem pas sh s).1.logLike = c.logLike := by
  unfold updateLocal
  cases c.actors with
  | none => exact ⟨rfl, rfl, rfl⟩
  | some d => exact ⟨rfl, rfl, rfl⟩

theorem updateShared_frame (sem : Sem N V C O S (XR K)) (pas : N → Option V) (sh : List N) (c : Core N V C O S K) (s : S) :
    (c.updateShared sem pas sh s).1.nick = c.nick ∧ (c.updateShared sem pas sh s).1.group = c.group ∧
      (c.updateShared sem pas sh s).1.logLike = c.logLike := by
  unfold updateShared
  cases c.childActors with
  | none => exact ⟨rfl, rfl, rfl⟩
  | some d => exact ⟨rfl, rfl, rfl⟩

theorem setResponse_frame (sem : Sem N V C O S (XR K)) (bn : BN N V C O) (up : List (Dict N V)) (imp : Dict N V) (sh : List N)
    (c : Core N V C O S K) (s : S) :
    (setResponse sem bn up imp sh c s).1.nick = c.nick ∧ (setResponse sem bn up imp sh c s).1.group = c.group ∧
      (setResponse sem bn up imp sh c s).1.logLike = c.logLike := by
  unfold setResponse
  have h := respond_frame sem bn up imp (sh.filter (· ∈ c.locus.keys)) c.group.fixed 0 c s
  rcases hr : respond sem bn up imp (sh.filter (· ∈ c.locus.keys)) c.group.fixed 0 c s with ⟨m, s1, _ | q⟩
  · rw [hr] at h; exact h
  · rw [hr] at h
    simp only
    have h1 := updateLocal_frame sem (chainMap (m.locus :: up)) sh { m with logPrior := some q } s1
    rcases hl : updateLocal sem (chainMap (m.locus :: up)) sh { m with logPrior := some q } s1 with ⟨m1, s2, _ | _⟩
    · rw [hl] at h1; exact ⟨h1.1.trans h.1, h1.2.1.trans h.2.1, h1.2.2.trans h.2.2⟩
    · rw [hl] at h1
      simp only
      have h2 := updateShared_frame sem (chainMap (m1.locus :: up)) sh m1 s2
      exact ⟨h2.1.trans (h1.1.trans h.1), h2.2.1.trans (h1.2.1.trans h.2.1), h2.2.2.trans (h1.2.2.trans h.2.2)⟩

end Core


namespace CoreTree

open Core

mutual
/-- Two hierarchies of the same shape whose cores are related, given the ancestors' dictionaries on both sides. -/
def Along (R : List (Dict N V) → List (Dict N V) → Core N V C O S K → Core N V C O S K → Prop) :
    List (Dict N V) → List (Dict N V) → CoreTree N V C O S K → CoreTree N V C O S K → Prop
  | up, up', .node c ts, .node c' ts' => R up up' c c' ∧ AlongL R (c.locus :: up) (c'.locus :: up') ts ts'
/-- The same for lists of children. -/
def AlongL (R : List (Dict N V) → List (Dict N V) → Core N V C O S K → Core N V C O S K → Prop) :
    List (Dict N V) → List (Dict N V) → List (CoreTree N V C O S K) → List (CoreTree N V C O S K) → Prop
  | _, _, [], [] => True
  | up, up', t :: ts, t' :: ts' => Along R up up' t t' ∧ AlongL R up up' ts ts'
  | _, _, [], _ :: _ => False
  | _, _, _ :: _, [] => False
end

mutual
/-- A property of all cores, which may look at the ancestors' dictionaries and at the children. -/
def All (R : List (Dict N V) → Core N V C O S K → List (CoreTree N V C O S K) → Prop) :
    List (Dict N V) → CoreTree N V C O S K → Prop
  | up, .node c ts => R up c ts ∧ AllL R (c.locus :: up) ts
/-- The same for lists of children. -/
def AllL (R : List (Dict N V) → Core N V C O S K → List (CoreTree N V C O S K) → Prop) :
    List (Dict N V) → List (CoreTree N V C O S K) → Prop
  | _, [] => True
  | up, t :: ts => All R up t ∧ AllL R up ts
end

theorem allL_iff {R : List (Dict N V) → Core N V C O S K → List (CoreTree N V C O S K) → Prop} {up : List (Dict N V)} :
    ∀ {ts : List (CoreTree N V C O S K)}, AllL R up ts ↔ ∀ t ∈ ts, All R up t
  | [] => by simp [AllL]
  | t :: ts => by simp [AllL, allL_iff (ts := ts)]

theorem All.imp {R R' : List (Dict N V) → Core N V C O S K → List (CoreTree N V C O S K) → Prop}
    (h : ∀ up c ts, R up c ts → R' up c ts) : ∀ {t : CoreTree N V C O S K} {up : List (Dict N V)}, All R up t → All R' up t := by
  intro t
  refine Tree.ind (P := fun t => ∀ {up : List (Dict N V)}, All R up t → All R' up t)
    (Q := fun ts => ∀ {up : List (Dict N V)}, AllL R up ts → AllL R' up ts) ?_ ?_ ?_ t
  · intro c ts ih up hh; exact ⟨h _ _ _ hh.1, ih hh.2⟩
  · intro up _; trivial
  · intro t ts h1 h2 up hh; exact ⟨h1 hh.1, h2 hh.2⟩

/-- From one relation to another, carrying an invariant of the ancestors down, with a property of the first tree. -/
theorem Along.imp {R R' : List (Dict N V) → List (Dict N V) → Core N V C O S K → Core N V C O S K → Prop}
    {P : List (Dict N V) → Core N V C O S K → List (CoreTree N V C O S K) → Prop}
    {I : List (Dict N V) → List (Dict N V) → Prop}
    (h : ∀ up up' c c' ts, I up up' → P up c ts → R up up' c c' → R' up up' c c' ∧ I (c.locus :: up) (c'.locus :: up')) :
    ∀ {t t' : CoreTree N V C O S K} {up up' : List (Dict N V)}, I up up' → All P up t → Along R up up' t t' → Along R' up up' t t' := by
  intro t
  refine Tree.ind
    (P := fun t => ∀ {t' : CoreTree N V C O S K} {up up' : List (Dict N V)}, I up up' → All P up t → Along R up up' t t' → Along R' up up' t t')
    (Q := fun ts => ∀ {ts' : List (CoreTree N V C O S K)} {up up' : List (Dict N V)}, I up up' → AllL P up ts →
      AlongL R up up' ts ts' → AlongL R' up up' ts ts') ?_ ?_ ?_ t
  · rintro c ts ih ⟨c', ts'⟩ up up' hi hp hr
    obtain ⟨h1, h2⟩ := h up up' c c' ts hi hp.1 hr.1
    exact ⟨h1, ih h2 hp.2 hr.2⟩
  · rintro (_ | ⟨t', ts'⟩) up up' _ _ hr
    · trivial
    · exact hr.elim
  · rintro t ts ih1 ih2 (_ | ⟨t', ts'⟩) up up' hi hp hr
    · exact hr.elim
    · exact ⟨ih1 hi hp.1 hr.1, ih2 hi hp.2 hr.2⟩

/-- A relation yields a property of the second tree from one of the first. -/
theorem Along.all {R : List (Dict N V) → List (Dict N V) → Core N V C O S K → Core N V C O S K → Prop}
    {P P' : List (Dict N V) → Core N V C O S K → List (CoreTree N V C O S K) → Prop}
    {I : List (Dict N V) → List (Dict N V) → Prop}
    (h : ∀ up up' c c' ts ts', I up up' → P up c ts → R up up' c c' → ts'.map (fun t => (t.label.nick, t.label.group)) =
      ts.map (fun t => (t.label.nick, t.label.group)) → P' up' c' ts' ∧ I (c.locus :: up) (c'.locus :: up'))
    (hn : ∀ up up' c c', R up up' c c' → c'.nick = c.nick ∧ c'.group = c.group) :
    ∀ {t t' : CoreTree N V C O S K} {up up' : List (Dict N V)}, I up up' → All P up t → Along R up up' t t' →
      All P' up' t' ∧ t'.label.nick = t.label.nick ∧ t'.label.group = t.label.group := by
  intro t
  refine Tree.ind
    (P := fun t => ∀ {t' : CoreTree N V C O S K} {up up' : List (Dict N V)}, I up up' → All P up t → Along R up up' t t' →
      All P' up' t' ∧ t'.label.nick = t.label.nick ∧ t'.label.group = t.label.group)
    (Q := fun ts => ∀ {ts' : List (CoreTree N V C O S K)} {up up' : List (Dict N V)}, I up up' → AllL P up ts →
      AlongL R up up' ts ts' → AllL P' up' ts' ∧ ts'.map (fun t => (t.label.nick, t.label.group)) =
      ts.map (fun t => (t.label.nick, t.label.group))) ?_ ?_ ?_ t
  · rintro c ts ih ⟨c', ts'⟩ up up' hi hp hr
    have key : ts'.map (fun t => (t.label.nick, t.label.group)) = ts.map (fun t => (t.label.nick, t.label.group)) := by
      clear ih hp
      have hr2 := hr.2
      clear hr
      generalize (c.locus :: up) = u at hr2
      generalize (c'.locus :: up') = u' at hr2
      clear hi
      induction ts generalizing ts' with
      | nil =>
        cases ts' with
        | nil => rfl
        | cons _ _ => exact hr2.elim
      | cons a as ih =>
        cases ts' with
        | nil => exact hr2.elim
        | cons b bs =>
          obtain ⟨h1, h2⟩ := hr2
          simp only [List.map_cons]
          rw [ih bs h2]
          obtain ⟨ca, _⟩ := a
          obtain ⟨cb, _⟩ := b
          have := hn _ _ _ _ h1.1
          simp only [Tree.label, this.1, this.2]
    obtain ⟨h1, h2⟩ := h up up' c c' ts ts' hi hp.1 hr.1 key
    exact ⟨⟨h1, (ih h2 hp.2 hr.2).1⟩, hn _ _ _ _ hr.1⟩
  · rintro (_ | ⟨t', ts'⟩) up up' _ _ hr
    · exact ⟨trivial, rfl⟩
    · exact hr.elim
  · rintro t ts ih1 ih2 (_ | ⟨t', ts'⟩) up up' hi hp hr
    · exact hr.elim
    · obtain ⟨a1, a2, a3⟩ := ih1 hi hp.1 hr.1
      obtain ⟨b1, b2⟩ := ih2 hi hp.2 hr.2
      exact ⟨⟨a1, b1⟩, by simp [a2, a3, b2]⟩

/-- What a response leaves in one core of a hierarchy. -/
def Answer (sem : Sem N V C O S (XR K)) (bn : BN N V C O) (imp : Dict N V) (sh : List N) (_up up' : List (Dict N V))
    (c c' : Core N V C O S K) : Prop :=
  ∃ m, Answered sem bn up' imp sh c m ∧ c' = finish (sh.filter (· ∈ c.locus.keys)) m

theorem finish_locus (h : List N) (c : Core N V C O S K) : (finish h c).locus = c.locus := by
  unfold finish; split <;> rfl

theorem finish_frame (h : List N) (c : Core N V C O S K) : (finish h c).nick = c.nick ∧ (finish h c).group = c.group ∧
    (finish h c).actors = c.actors ∧ (finish h c).childActors = c.childActors ∧ (finish h c).logPrior = c.logPrior ∧
    (finish h c).logLike = c.logLike := by
  unfold finish; split <;> exact ⟨rfl, rfl, rfl, rfl, rfl, rfl⟩

theorem setResponse_ok (sem : Sem N V C O S (XR K)) (bn : BN N V C O) (imp : Dict N V) (sh : List N) :
    ∀ (t : CoreTree N V C O S K) (up0 up : List (Dict N V)) (s : S) {t' : CoreTree N V C O S K} {s' : S},
      All (fun _ c _ => c.group.fixed.Nodup) up0 t → setResponse sem bn imp sh up t s = (t', s', .ok ()) →
      Along (Answer sem bn imp sh) up0 up t t' := by
  intro t
  refine Tree.ind
    (P := fun t => ∀ (up0 up : List (Dict N V)) (s : S) {t' : CoreTree N V C O S K} {s' : S},
      All (fun _ c _ => c.group.fixed.Nodup) up0 t → setResponse sem bn imp sh up t s = (t', s', .ok ()) →
      Along (Answer sem bn imp sh) up0 up t t')
    (Q := fun ts => ∀ (up0 up : List (Dict N V)) (s : S) {ts' : List (CoreTree N V C O S K)} {s' : S},
      AllL (fun _ c _ => c.group.fixed.Nodup) up0 ts → setResponseL sem bn imp sh up ts s = (ts', s', .ok ()) →
      AlongL (Answer sem bn imp sh) up0 up ts ts') ?_ ?_ ?_ t
  · intro c ts ih up0 up s t' s' hnd h
    simp only [setResponse] at h
    rcases hc : Core.setResponse sem bn up imp sh c s with ⟨c1, s1, _ | _⟩
    · rw [hc] at h; simp at h
    · rw [hc] at h
      simp only at h
      rcases hl : setResponseL sem bn imp sh (c1.locus :: up) ts s1 with ⟨ts1, s2, _ | _⟩
      · rw [hl] at h; simp at h
      · rw [hl] at h
        simp only [Prod.mk.injEq] at h
        obtain ⟨rfl, -, -⟩ := h
        refine ⟨⟨c1, Core.setResponse_ok sem bn up imp sh c s hnd.1 hc, rfl⟩, ?_⟩
        rw [finish_locus]
        exact ih _ _ s1 hnd.2 hl
  · intro up0 up s ts' s' _ h
    simp only [setResponseL, Prod.mk.injEq] at h
    obtain ⟨rfl, -⟩ := h
    trivial
  · intro t ts ih1 ih2 up0 up s ts' s' hnd h
    simp only [setResponseL] at h
    rcases hc : setResponse sem bn imp sh up t s with ⟨t1, s1, _ | _⟩
    · rw [hc] at h; simp at h
    · rw [hc] at h
      simp only at h
      rcases hl : setResponseL sem bn imp sh up ts s1 with ⟨ts1, s2, o⟩
      rw [hl] at h
      simp only [Prod.mk.injEq] at h
      obtain ⟨rfl, -, rfl⟩ := h
      exact ⟨ih1 _ _ s hnd.1 hc, ih2 _ _ s1 hnd.2 hl⟩

/-- Nicknames, groups and the attribute `LogLikelihood` never change, whatever the outcome. -/
def sameFrame (_ _ : List (Dict N V)) (c c' : Core N V C O S K) : Prop := c'.nick = c.nick ∧ c'.group = c.group ∧
  c'.logLike = c.logLike

theorem along_refl {R : List (Dict N V) → List (Dict N V) → Core N V C O S K → Core N V C O S K → Prop}
    (h : ∀ up up' c, R up up' c c) : ∀ (t : CoreTree N V C O S K) (up up' : List (Dict N V)), Along R up up' t t := by
  intro t
  refine Tree.ind (P := fun t => ∀ (up up' : List (Dict N V)), Along R up up' t t)
    (Q := fun ts => ∀ (up up' : List (Dict N V)), AlongL R up up' ts ts) ?_ ?_ ?_ t
  · intro c ts ih up up'; exact ⟨h _ _ _, ih _ _⟩
  · intro up up'; trivial
  · intro t ts h1 h2 up up'; exact ⟨h1 _ _, h2 _ _⟩

theorem alongL_refl {R : List (Dict N V) → List (Dict N V) → Core N V C O S K → Core N V C O S K → Prop}
    (h : ∀ up up' c, R up up' c c) : ∀ (ts : List (CoreTree N V C O S K)) (up up' : List (Dict N V)), AlongL R up up' ts ts
  | [], _, _ => trivial
  | t :: ts, up, up' => ⟨along_refl h t up up', alongL_refl h ts up up'⟩

theorem setResponse_frame (sem : Sem N V C O S (XR K)) (bn : BN N V C O) (imp : Dict N V) (sh : List N) :
    ∀ (t : CoreTree N V C O S K) (up0 up up' : List (Dict N V)) (s : S), Along sameFrame up0 up' t (setResponse sem bn imp sh up t s).1 := by
  intro t
  refine Tree.ind
    (P := fun t => ∀ (up0 up up' : List (Dict N V)) (s : S), Along sameFrame up0 up' t (setResponse sem bn imp sh up t s).1)
    (Q := fun ts => ∀ (up0 up up' : List (Dict N V)) (s : S), AlongL sameFrame up0 up' ts (setResponseL sem bn imp sh up ts s).1) ?_ ?_ ?_ t
  · intro c ts ih up0 up up' s
    simp only [setResponse]
    have h := Core.setResponse_frame sem bn up imp sh c s
    rcases hc : Core.setResponse sem bn up imp sh c s with ⟨c1, s1, _ | _⟩
    · rw [hc] at h
      exact ⟨h, alongL_refl (fun _ _ _ => ⟨rfl, rfl, rfl⟩) _ _ _⟩
    · rw [hc] at h
      simp only
      have h1 := ih (c.locus :: up0) (c1.locus :: up) (c1.locus :: up') s1
      rcases hl : setResponseL sem bn imp sh (c1.locus :: up) ts s1 with ⟨ts1, s2, _ | _⟩
      · rw [hl] at h1; exact ⟨h, h1⟩
      · rw [hl] at h1
        obtain ⟨e1, e2, -, -, -, e3⟩ := finish_frame (sh.filter (· ∈ c.locus.keys)) c1
        refine ⟨⟨e1.trans h.1, e2.trans h.2.1, e3.trans h.2.2⟩, ?_⟩
        rw [finish_locus]
        exact h1
  · intro up0 up up' s; trivial
  · intro t ts ih1 ih2 up0 up up' s
    simp only [setResponseL]
    have h1 := ih1 up0 up up' s
    rcases hc : setResponse sem bn imp sh up t s with ⟨t1, s1, _ | _⟩
    · rw [hc] at h1
      exact ⟨h1, alongL_refl (fun _ _ _ => ⟨rfl, rfl, rfl⟩) _ _ _⟩
    · rw [hc] at h1
      simp only
      have h2 := ih2 up0 up up' s1
      rcases hl : setResponseL sem bn imp sh up ts s1 with ⟨ts1, s2, o⟩
      rw [hl] at h2
      exact ⟨h1, h2⟩

/-! ## Operations at a path -/

theorem child_some {k : N} : ∀ {ts : List (CoreTree N V C O S K)} {u : CoreTree N V C O S K}, child k ts = some u →
    u ∈ ts ∧ u.label.nick = k
  | [], _, h => by cases h
  | t :: ts, u, h => by
    unfold child at h
    split at h
    · rename_i hk
      cases h
      exact ⟨by simp, hk⟩
    · obtain ⟨h1, h2⟩ := child_some h
      exact ⟨by simp [h1], h2⟩

theorem child_none {k : N} : ∀ {ts : List (CoreTree N V C O S K)}, child k ts = none ↔ ∀ u ∈ ts, u.label.nick ≠ k
  | [] => by simp [child]
  | t :: ts => by
    unfold child
    split
    · rename_i hk
      simp [hk]
    · rename_i hk
      rw [child_none]
      simp [hk]

theorem child_unique {k : N} : ∀ {ts : List (CoreTree N V C O S K)} {u : CoreTree N V C O S K},
    (ts.map (fun t => t.label.nick)).Nodup → (child k ts = some u ↔ u ∈ ts ∧ u.label.nick = k)
  | [], u, _ => by simp [child]
  | t :: ts, u, h => by
    obtain ⟨h1, h2⟩ := List.nodup_cons.1 h
    unfold child
    split
    · rename_i hk
      simp only [Option.some.injEq, List.mem_cons]
      constructor
      · rintro rfl; exact ⟨.inl rfl, hk⟩
      · rintro ⟨rfl | hu, hn⟩
        · rfl
        · exact absurd (List.mem_map.2 ⟨u, hu, hn.trans hk.symm⟩) h1
    · rename_i hk
      rw [child_unique h2, List.mem_cons]
      constructor
      · rintro ⟨a, b⟩; exact ⟨.inr a, b⟩
      · rintro ⟨rfl | a, b⟩
        · exact absurd b hk
        · exact ⟨a, b⟩

/-- Replacing a child keeps what all children have. -/
theorem onChild_all {α : Type} {k : N} {u' : CoreTree N V C O S K} {a : α} {P : CoreTree N V C O S K → Prop} :
    ∀ {ts ts' : List (CoreTree N V C O S K)} {u : CoreTree N V C O S K} {b : α}, child k ts = some u →
      u'.label.nick = u.label.nick → u'.label.group = u.label.group → P u' → (∀ t ∈ ts, P t) →
      onChild k (fun _ => (u', a)) ts = some (ts', b) →
      (∀ t ∈ ts', P t) ∧ b = a ∧ ts'.map (fun t => (t.label.nick, t.label.group)) = ts.map (fun t => (t.label.nick, t.label.group))
  | [], _, _, _, h, _, _, _, _, _ => by cases h
  | t :: ts, ts', u, b, h, hn, hg, hp, hall, ho => by
    unfold child at h
    unfold onChild at ho
    split at h
    · rename_i hk
      cases h
      rw [if_pos hk] at ho
      cases ho
      refine ⟨?_, rfl, by simp [hn, hg]⟩
      intro t ht
      rcases List.mem_cons.1 ht with rfl | ht
      · exact hp
      · exact hall t (by simp [ht])
    · rename_i hk
      rw [if_neg hk] at ho
      cases hr : onChild k (fun _ => (u', a)) ts with
      | none => rw [hr] at ho; cases ho
      | some r =>
        obtain ⟨ts1, a1⟩ := r
        rw [hr] at ho
        cases ho
        obtain ⟨h1, h2, h3⟩ := onChild_all h hn hg hp (fun t ht => hall t (by simp [ht])) hr
        refine ⟨?_, h2, by simp [h3]⟩
        intro x hx
        rcases List.mem_cons.1 hx with rfl | hx
        · exact hall x (by simp)
        · exact h1 x hx

theorem onPath_all {α : Type} {R : List (Dict N V) → Core N V C O S K → List (CoreTree N V C O S K) → Prop}
    (hR : ∀ up c ts ts', ts'.map (fun t => (t.label.nick, t.label.group)) = ts.map (fun t => (t.label.nick, t.label.group)) →
      R up c ts → R up c ts')
    {f : List (Dict N V) → CoreTree N V C O S K → CoreTree N V C O S K × α} (Q : α → Prop) :
    ∀ (p : List N) (up : List (Dict N V)) (t : CoreTree N V C O S K)
      (_ : ∀ up u, walk t p = .ok u → Q (f up u).2 → All R up u →
        All R up (f up u).1 ∧ (f up u).1.label.nick = u.label.nick ∧ (f up u).1.label.group = u.label.group)
      {t' : CoreTree N V C O S K} {a : α}, All R up t → onPath f p up t = some (t', a) → Q a → All R up t' ∧ t'.label.nick = t.label.nick ∧ t'.label.group = t.label.group := by
  intro p
  induction p with
  | nil =>
    intro up t hf t' a hall h hq
    simp only [onPath, Option.some.injEq] at h
    have e1 : t' = (f up t).1 := by rw [h]
    have e2 : a = (f up t).2 := by rw [h]
    subst e1 e2
    exact hf up t rfl hq hall
  | cons k ks ih =>
    intro up t hf t' a hall h hq
    obtain ⟨c, ts⟩ := t
    simp only [onPath] at h
    cases hc : child k ts with
    | none => rw [hc] at h; cases h
    | some u =>
      rw [hc] at h
      simp only at h
      cases hp : onPath f ks (c.locus :: up) u with
      | none => rw [hp] at h; cases h
      | some r =>
        obtain ⟨u', a'⟩ := r
        rw [hp] at h
        simp only at h
        cases ho : onChild k (fun _ => (u', a')) ts with
        | none => rw [ho] at h; cases h
        | some r =>
          obtain ⟨ts', b⟩ := r
          rw [ho] at h
          cases h
          have hm := (child_some hc).1
          have hts := allL_iff.1 hall.2
          have hb : a = a' := by
            -- the second component is handed through
            have key : ∀ (ts ts' : List (CoreTree N V C O S K)) (b : α), onChild k (fun _ => (u', a')) ts = some (ts', b) → b = a' := by
              intro ts
              induction ts with
              | nil => intro ts' b h; cases h
              | cons x xs ihx =>
                intro ts' b h
                unfold onChild at h
                split at h
                · cases h; rfl
                · cases hr : onChild k (fun _ => (u', a')) xs with
                  | none => rw [hr] at h; cases h
                  | some r =>
                    obtain ⟨y, z⟩ := r
                    rw [hr] at h
                    cases h
                    exact ihx _ _ hr
            exact key _ _ _ ho
          subst hb
          obtain ⟨g1, g2, g3⟩ := ih (c.locus :: up) u
            (fun up v hv => hf up v (by simp only [walk, Tree.kids, hc]; exact hv)) (hts u hm) hp hq
          obtain ⟨h1, -, h3⟩ := onChild_all (P := All R (c.locus :: up)) hc g2 g3 g1 hts ho
          exact ⟨⟨hR _ _ _ _ h3 hall.1, allL_iff.2 h1⟩, rfl, rfl⟩

end CoreTree

end Model
