import Verif.Lemmas.SimActor
import Verif.Props.SimCore

/-!
# Properties of actors and samplers: C51, C53
-/

namespace Props.SimCore

set_option linter.unusedSectionVars false

open Py Spec Relation Model Model.CoreTree Props.Sampling

variable {N V C O S K : Type} [DecidableEq N] [AddCommMonoid K]

/-- `a` is the actor of the variable `k` that the core holds, for itself or for one of the groups of its children. -/
def Holds (c : Core N V C O S K) (k : N) (a : Actor N V C O S K) : Prop :=
  (∃ d, c.actors = some d ∧ d.get? k = some a) ∨ ∃ ds g d, c.childActors = some ds ∧ ds.get? g = some d ∧ d.get? k = some a

/-- The frozen actors of `k` reflect what the core reads. -/
def Fresh (sem : Sem N V C O S (XR K)) (bn : BN N V C O) (k : N) (up : List (Dict N V)) (c : Core N V C O S K)
    (_ : List (CoreTree N V C O S K)) : Prop :=
  ∀ a, Holds c k a → ActorOk bn k a ∧ (a.isFrozen = true → a.Reflects sem (chainMap (c.locus :: up)))

/-- The parents of a variable that is neither intervened upon nor affected are untouched. -/
theorem untouched {bn : BN N V C O} (hw : bn.Well) {i : Impulse N V} (hp : Proper i) {imp : Dict N V} {sh : List N}
    (hs : shocks bn i = .ok (imp, sh)) {x y : N} (hv : value i x = none) (hx : x ∉ sh) (he : bn.dag.E y x) :
    y ∉ imp.keys ∧ y ∉ sh := by
  obtain ⟨hval, haff, -⟩ := shocks_ok hw hp hs
  rw [haff] at hx
  constructor
  · intro hy
    refine hx ⟨hv, .inr ⟨y, ?_, .single he⟩⟩
    obtain ⟨v, hv⟩ := (Dict.mem_keys_iff_exists _ _).1 hy
    rw [hval] at hv
    cases i with
    | dict d =>
      simp only [value] at hv
      cases hd : d.get? y with
      | none => rw [hd] at hv; cases hv
      | some o => exact (Dict.mem_keys_iff_exists _ _).2 ⟨o, hd⟩
    | list l => cases hv
    | other => cases hv
  · intro hy
    obtain ⟨-, h | ⟨k, hk, h⟩⟩ := (haff y).1 hy
    · exact hx ⟨hv, .inr ⟨y, h, .single he⟩⟩
    · exact hx ⟨hv, .inr ⟨k, hk, h.tail he⟩⟩

/-- One actor of `k` after an impulse that does not set `k`. -/
theorem fresh_updated (sem : Sem N V C O S (XR K)) {bn : BN N V C O} (hw : bn.Well) {i : Impulse N V} (hp : Proper i)
    {imp : Dict N V} {sh : List N} (hs : shocks bn i = .ok (imp, sh)) {k : N} (hk : value i k = none)
    {pas pas' : N → Option V} (hch : ∀ x, x ∉ imp.keys → x ∉ sh → pas x = pas' x) {a a' : Actor N V C O S K}
    (h : ActorOk bn k a ∧ (a.isFrozen = true → a.Reflects sem pas)) (hu : Core.Updated sem pas' sh (k, a) (k, a')) :
    ActorOk bn k a' ∧ (a'.isFrozen = true → a'.Reflects sem pas') := by
  obtain ⟨-, h1, h2⟩ := hu
  by_cases hc : k ∈ sh ∧ a.isFrozen
  · obtain ⟨s1, s2, hup⟩ := h1 hc
    have := h.1.update sem pas' s1
    rw [hup] at this
    exact ⟨this, fun _ => Actor.update_reflects sem (h.1.reads hc.2) hup⟩
  · have e : a' = a := h2 hc
    subst e
    refine ⟨h.1, fun hf => (h.2 hf).congr fun p hpp => ?_⟩
    have hks : k ∉ sh := fun hh => hc ⟨hh, hf⟩
    have he : bn.dag.E p k := (hw.edges p k).2 ⟨_, h.1.loci, hpp⟩
    obtain ⟨h3, h4⟩ := untouched hw hp hs hk hks he
    exact hch p h3 h4

theorem fresh_answer (sem : Sem N V C O S (XR K)) {bn : BN N V C O} (hw : bn.Well) {i : Impulse N V} (hp : Proper i)
    {imp : Dict N V} {sh : List N} (hs : shocks bn i = .ok (imp, sh)) {k : N} (hk : value i k = none) {up up' : List (Dict N V)}
    {c c' : Core N V C O S K} {ts ts' : List (CoreTree N V C O S K)} (hi : Only imp sh up up')
    (hf : Fresh sem bn k up c ts) (h : Answer sem bn imp sh up up' c c') : Fresh sem bn k up' c' ts' := by
  have hstep := only_step h hi
  obtain ⟨m, ha, rfl⟩ := h
  rw [finish_locus] at hstep
  obtain ⟨-, -, e1, e2, -⟩ := finish_frame (sh.filter (· ∈ c.locus.keys)) m
  intro a' hh
  rw [finish_locus]
  unfold Holds at hh
  rw [e1, e2] at hh
  rcases hh with ⟨d', hd', hk'⟩ | ⟨ds', g, d', hds', hg, hk'⟩
  · rcases ha.actors with ⟨-, h2⟩ | ⟨d, d'', h1, h2, h3⟩
    · rw [h2] at hd'; cases hd'
    · rw [h2] at hd'
      cases hd'
      obtain ⟨a, h4, h5⟩ := forall2_get (fun x y hxy => hxy.1) h3 hk'
      exact fresh_updated sem hw hp hs hk hstep (hf a (.inl ⟨d, h1, h4⟩)) h5
  · rcases ha.hoisted with ⟨-, h2⟩ | ⟨ds, ds'', h1, h2, h3⟩
    · rw [h2] at hds'; cases hds'
    · rw [h2] at hds'
      cases hds'
      obtain ⟨d, h4, -, h5⟩ := forall2_get (fun x y hxy => hxy.1) h3 hg
      obtain ⟨a, h6, h7⟩ := forall2_get (fun x y hxy => hxy.1) h5 hk'
      exact fresh_updated sem hw hp hs hk hstep (hf a (.inr ⟨ds, g, d, h1, h4, h6⟩)) h7

/-- Newly composed actors reflect what the core reads. -/
theorem fresh_frozen (sem : Sem N V C O S (XR K)) {bn : BN N V C O} (hw : bn.Well) {d : Dict N (Blueprint N)}
    (hd : ∀ k b, d.get? k = some b → b.name = k ∧ (b.type = .frozen → ∀ p, p ∈ b.toRead ↔ bn.dag.E p k))
    {d1 d2 : Dict N (Actor N V C O S K)} (h1 : Core.composeAll bn d = .ok d1) {pas : N → Option V} {s s' : S}
    (h2 : Core.freezeAll sem pas d1 s = (.ok d2, s')) {k : N} {a : Actor N V C O S K} (ha : d2.get? k = some a) :
    ActorOk bn k a ∧ (a.isFrozen = true → a.Reflects sem pas) := by
  obtain ⟨a0, h3, -, h4, h5⟩ := forall2_get (fun x y hxy => hxy.1) (Core.freezeAll_ok sem pas d1 s h2) ha
  obtain ⟨b, hb, hcb⟩ := Core.composeAll_get h1 h3
  obtain ⟨c1, c2, c3, c4, -⟩ := compose_ok hcb
  obtain ⟨hn, hr⟩ := hd k b hb
  have hok : ActorOk bn k a0 := by
    refine ⟨c1.trans hn, by rw [← hn]; exact c2, fun hf p => ?_⟩
    rw [c4, hr (by rw [← c3]; simpa [Actor.isFrozen] using hf) p, hw.edges]
    constructor
    · rintro ⟨l, hl, hp⟩
      rw [← hn, c2] at hl
      cases hl
      exact hp
    · intro hp
      exact ⟨a0.loci, by rw [← hn]; exact c2, hp⟩
  by_cases hf : a0.isFrozen = true
  · obtain ⟨s1, s2, hu⟩ := h4 hf
    have := hok.update sem pas s1
    rw [hu] at this
    exact ⟨this, fun _ => Actor.update_reflects sem (hok.reads hf) hu⟩
  · have e : a = a0 := h5 (by simpa using hf)
    subst e
    exact ⟨hok, fun hh => absurd hh hf⟩

/-- Making a sampler keeps actors fresh as long as the core reads what the holder reads. -/
theorem fresh_makeSampler (sem : Sem N V C O S (XR K)) {bn : BN N V C O} {chain : List (Dict N V)} {pas : N → Option V} {j k : N}
    (hc : j = k → ∀ l, bn.loci.get? k = some l → ∀ p ∈ l.parents, chainMap chain p = pas p) {d : Dict N (Actor N V C O S K)}
    (hd : ∀ a, d.get? k = some a → ActorOk bn k a ∧ (a.isFrozen = true → a.Reflects sem pas)) (s : S) {a : Actor N V C O S K}
    (ha : (makeSampler sem chain d j s).1.get? k = some a) : ActorOk bn k a ∧ (a.isFrozen = true → a.Reflects sem pas) := by
  unfold makeSampler at ha
  split at ha
  · exact hd a ha
  · rename_i a0 hj
    split at ha
    · rename_i hf
      rcases hu : a0.update sem (chainMap chain) s with ⟨a1, s1, o⟩
      rw [hu] at ha
      simp only at ha
      rw [Dict.get?_set] at ha
      split at ha
      · rename_i hjk
        subst hjk
        cases ha
        obtain ⟨hok, hre⟩ := hd a0 hj
        have hok1 := hok.update sem (chainMap chain) s
        rw [hu] at hok1
        refine ⟨hok1, fun hf1 => ?_⟩
        cases o with
        | error e =>
          have := Actor.update_error sem a0 (chainMap chain) s (e := e) (by rw [hu])
          rw [hu] at this
          simp only at this
          subst this
          exact hre hf
        | ok _ =>
          have hr := Actor.update_reflects sem (hok.reads hf) hu
          exact hr.congr (fun p hp => hc rfl _ hok1.loci p hp)
      · exact hd a ha
    · exact hd a ha

/-- The condition under which a step keeps the actors of `k` fresh: an impulse succeeds and does not set `k` itself, and
the child that asks for a shared sampler of `k` holds none of the parents of `k` itself. -/
def Careful (bn : BN N V C O) (k : N) (t : CoreTree N V C O S K) (o : Result Unit) : Op N V → Prop
  | .impulse _ i => o = .ok () ∧ Proper i ∧ value i k = none
  | .sharedSampler p nick j => j = k → ∀ u, walk t (p ++ [nick]) = .ok u → ∀ q, bn.dag.E q k → q ∉ u.label.locus.keys
  | _ => True

/-- Histories of careful operations. -/
inductive History (sem : Sem N V C O S (XR K)) (noneV : V) (sc : SimCore N V C O) (k : N) :
    CoreTree N V C O S K → S → CoreTree N V C O S K → S → Prop
  | nil (t s) : History sem noneV sc k t s t s
  | step {t s t1 s1 t2 s2} (op : Op N V) {o : Result Unit} : History sem noneV sc k t s t1 s1 →
      CoreTree.step sem noneV sc t1 s1 op = (t2, s2, o) → Careful sc.bn k t1 o op → History sem noneV sc k t s t2 s2

/-- What is kept along careful histories. -/
def Kept (sem : Sem N V C O S (XR K)) (sc : SimCore N V C O) (k : N) (up : List (Dict N V)) (c : Core N V C O S K)
    (ts : List (CoreTree N V C O S K)) : Prop := Members sc up c ts ∧ Fresh sem sc.bn k up c ts

theorem walk_append {t u : CoreTree N V C O S K} {p q : List N} (h : walk t p = .ok u) : walk t (p ++ q) = walk u q := by
  induction p generalizing t with
  | nil => cases h; rfl
  | cons k p ih =>
    simp only [walk, List.cons_append] at h ⊢
    cases hc : child k t.kids with
    | none => rw [hc] at h; cases h
    | some v => rw [hc] at h; exact ih h

theorem kept_localActors (sem : Sem N V C O S (XR K)) {sc : SimCore N V C O} (hw : sc.bn.Well)
    (hg : ∀ g gr, sc.groups.get? g = some gr → gr.name = g ∧ GroupOk sc.bn gr) (k : N) (up : List (Dict N V))
    (u : CoreTree N V C O S K) (s : S) (h : All (Kept sem sc k) up u) :
    All (Kept sem sc k) up (localActors sem sc.bn up u s).1 ∧ (localActors sem sc.bn up u s).1.label.nick = u.label.nick ∧
      (localActors sem sc.bn up u s).1.label.group = u.label.group ∧ (localActors sem sc.bn up u s).1.kids = u.kids ∧
      (localActors sem sc.bn up u s).1.label.locus = u.label.locus := by
  obtain ⟨c, ts⟩ := u
  obtain ⟨⟨hm, hfr⟩, hts⟩ := h
  cases hca : c.actors with
  | some d =>
    simp only [localActors, hca]
    exact ⟨⟨⟨hm, hfr⟩, hts⟩, by trivial, by trivial, by trivial, by trivial⟩
  | none =>
    cases h1 : Core.composeAll (S := S) (K := K) sc.bn c.group.localA with
    | error e =>
      simp only [localActors, hca, Core.putLocal, h1]
      exact ⟨⟨⟨hm, hfr⟩, hts⟩, by trivial, by trivial, by trivial, by trivial⟩
    | ok d1 =>
      rcases h2 : Core.freezeAll sem (chainMap (c.locus :: up)) d1 s with ⟨_ | d2, s2⟩
      · simp only [localActors, hca, Core.putLocal, h1, h2]
        exact ⟨⟨⟨hm, hfr⟩, hts⟩, by trivial, by trivial, by trivial, by trivial⟩
      · simp only [localActors, hca, Core.putLocal, h1, h2]
        refine ⟨⟨⟨hm, ?_⟩, hts⟩, by trivial, by trivial, by trivial, by trivial⟩
        intro a ha
        rcases ha with ⟨d, hd, hk⟩ | ⟨ds, g, d, hds, hgd, hk⟩
        · cases hd
          obtain ⟨gk, hgk⟩ := hm
          exact fresh_frozen sem hw (fun k b hb => (hg gk _ hgk).2.plan k b (.inl hb)) h1 h2 hk
        · exact hfr a (.inr ⟨ds, g, d, hds, hgd, hk⟩)

theorem kept_sharedActors (sem : Sem N V C O S (XR K)) {sc : SimCore N V C O} (hw : sc.bn.Well)
    (hg : ∀ g gr, sc.groups.get? g = some gr → gr.name = g ∧ GroupOk sc.bn gr) (k nick : N) (up : List (Dict N V))
    (u : CoreTree N V C O S K) (s : S) (h : All (Kept sem sc k) up u) :
    All (Kept sem sc k) up (sharedActors sem sc.bn nick up u s).1 ∧ (sharedActors sem sc.bn nick up u s).1.label.nick = u.label.nick ∧
      (sharedActors sem sc.bn nick up u s).1.label.group = u.label.group ∧ (sharedActors sem sc.bn nick up u s).1.kids = u.kids ∧
      (sharedActors sem sc.bn nick up u s).1.label.locus = u.label.locus := by
  obtain ⟨c, ts⟩ := u
  obtain ⟨⟨hm, hfr⟩, hts⟩ := h
  cases hch : child nick ts with
  | none =>
    simp only [sharedActors, hch]
    exact ⟨⟨⟨hm, hfr⟩, hts⟩, by trivial, by trivial, by trivial, by trivial⟩
  | some v =>
    cases hca : (c.childActors.getD []).get? v.label.group.name with
    | some d =>
      simp only [sharedActors, hch, hca]
      exact ⟨⟨⟨hm, hfr⟩, hts⟩, by trivial, by trivial, by trivial, by trivial⟩
    | none =>
      cases h1 : Core.composeAll (S := S) (K := K) sc.bn v.label.group.sharedA with
      | error e =>
        simp only [sharedActors, hch, hca, Core.putShared, h1]
        exact ⟨⟨⟨hm, hfr⟩, hts⟩, by trivial, by trivial, by trivial, by trivial⟩
      | ok d1 =>
        rcases h2 : Core.freezeAll sem (chainMap (c.locus :: up)) d1 s with ⟨_ | d2, s2⟩
        · simp only [sharedActors, hch, hca, Core.putShared, h1, h2]
          exact ⟨⟨⟨hm, hfr⟩, hts⟩, by trivial, by trivial, by trivial, by trivial⟩
        · simp only [sharedActors, hch, hca, Core.putShared, h1, h2]
          refine ⟨⟨⟨hm, ?_⟩, hts⟩, by trivial, by trivial, by trivial, by trivial⟩
          intro a ha
          rcases ha with ⟨d, hd, hk⟩ | ⟨ds, g, d, hds, hgd, hk⟩
          · exact hfr a (.inl ⟨d, hd, hk⟩)
          · cases hds
            rw [Dict.get?_set] at hgd
            split at hgd
            · cases hgd
              obtain ⟨cv, tv⟩ := v
              obtain ⟨⟨gk, hgk⟩, -⟩ := ((allL_iff.1 hts) _ (child_some hch).1).1
              exact fresh_frozen sem hw (fun k b hb => (hg gk _ hgk).2.plan k b (.inr hb)) h1 h2 hk
            · cases hcc : c.childActors with
              | none => rw [hcc] at hgd; cases hgd
              | some ds => rw [hcc] at hgd; exact hfr a (.inr ⟨ds, g, d, hcc, hgd, hk⟩)

theorem kept_step (sem : Sem N V C O S (XR K)) {noneV : V} {sc : SimCore N V C O} (hw : sc.bn.Well)
    (hg : ∀ g gr, sc.groups.get? g = some gr → gr.name = g ∧ GroupOk sc.bn gr) {k : N} {t t' : CoreTree N V C O S K} {s s' : S}
    {op : Op N V} {o : Result Unit} (h : step sem noneV sc t s op = (t', s', o)) (hc : Careful sc.bn k t o op)
    (ht : All (Kept sem sc k) [] t) : All (Kept sem sc k) [] t' := by
  have hR : ∀ up c ts ts', ts'.map (fun t => (t.label.nick, t.label.group)) = ts.map (fun t => (t.label.nick, t.label.group)) →
      Kept (S := S) (K := K) sem sc k up c ts → Kept sem sc k up c ts' := fun _ _ _ _ _ h => h
  cases op with
  | breed p nick g exo =>
    simp only [step] at h
    cases hp : onPath (fun up u => breed sem noneV sc up u nick g exo s) p [] t with
    | none => rw [hp] at h; cases h; exact ht
    | some r =>
      obtain ⟨t1, s1, o1⟩ := r
      rw [hp] at h
      cases h
      refine (onPath_all hR (fun _ => True) p [] t (fun up u _ _ hu => ?_) ht hp trivial).1
      obtain ⟨c, ts⟩ := u
      simp only [breed]
      split
      · exact ⟨hu, rfl, rfl⟩
      · split
        · exact ⟨hu, rfl, rfl⟩
        · cases hgr : sc.groups.get? g with
          | none => exact ⟨hu, rfl, rfl⟩
          | some gr =>
            simp only
            rcases hge : Core.generate (K := K) sem noneV sc.bn gr nick (c.locus :: up) exo s with ⟨_ | chd, s2⟩
            · exact ⟨hu, rfl, rfl⟩
            · refine ⟨⟨hu.1, allL_iff.2 fun x hx => ?_⟩, rfl, rfl⟩
              rcases List.mem_append.1 hx with hx | hx
              · exact allL_iff.1 hu.2 x hx
              · rw [List.mem_singleton] at hx
                subst hx
                have hchd : chd.group = gr ∧ chd.actors = none ∧ chd.childActors = none := by
                  unfold Core.generate at hge
                  split at hge
                  · simp at hge
                  · split at hge
                    · simp at hge
                    · simp only [Prod.mk.injEq, Except.ok.injEq] at hge
                      obtain ⟨rfl, -⟩ := hge
                      exact ⟨rfl, rfl, rfl⟩
                refine ⟨⟨⟨g, by rw [hchd.1]; exact hgr⟩, ?_⟩, trivial⟩
                intro a ha
                rcases ha with ⟨d, hd, -⟩ | ⟨ds, _, _, hds, -⟩
                · rw [hchd.2.1] at hd; cases hd
                · rw [hchd.2.2] at hds; cases hds
  | remove p nick =>
    simp only [step] at h
    cases hp : onPath (fun _ u => (removeChild u nick, ())) p [] t with
    | none => rw [hp] at h; cases h; exact ht
    | some r =>
      obtain ⟨t1, ⟨⟩⟩ := r
      rw [hp] at h
      cases h
      refine (onPath_all hR (fun _ => True) p [] t (fun up u _ _ hu => ?_) ht hp trivial).1
      obtain ⟨c, ts⟩ := u
      refine ⟨⟨hu.1, allL_iff.2 fun x hx => ?_⟩, rfl, rfl⟩
      exact allL_iff.1 hu.2 x (List.mem_filter.1 hx).1
  | impulse p i =>
    obtain ⟨ho, hpr, hv⟩ := hc
    subst ho
    simp only [step] at h
    cases hp : onPath (fun up u => impulse sem sc.bn up u i s) p [] t with
    | none => rw [hp] at h; cases h
    | some r =>
      obtain ⟨t1, s1, o1⟩ := r
      rw [hp] at h
      cases h
      refine (onPath_all hR (fun r => r.2 = .ok ()) p [] t (fun up u _ hq hu => ?_) ht hp rfl).1
      have hok : impulse sem sc.bn up u i s = ((impulse sem sc.bn up u i s).1, (impulse sem sc.bn up u i s).2.1, .ok ()) := split_ok hq
      have hmem : All (Members sc) up u := hu.imp (fun _ _ _ h => h.1)
      cases hs : shocks sc.bn i with
      | error e => unfold impulse at hq; rw [hs] at hq; cases hq
      | ok r =>
        obtain ⟨imp, sh⟩ := r
        have ha : Along (Answer sem sc.bn imp sh) up up u (impulse sem sc.bn up u i s).1 := by
          refine setResponse_ok sem sc.bn imp sh u up up s (s' := (impulse sem sc.bn up u i s).2.1) (members_nodup hg hmem) ?_
          have : impulse sem sc.bn up u i s = setResponse sem sc.bn imp sh up u s := by unfold impulse; rw [hs]
          rw [← this]
          exact hok
        refine ha.all (P := Kept sem sc k) (P' := Kept sem sc k) (I := Only imp sh) ?_ ?_ (fun _ _ _ => rfl) hu
        · intro up up' c c' ts ts' hi hk hans _
          refine ⟨⟨?_, fresh_answer sem hw hpr hs hv hi hk.2 hans⟩, only_step hans hi⟩
          obtain ⟨gk, hgk⟩ := hk.1
          refine ⟨gk, ?_⟩
          obtain ⟨m, hans, rfl⟩ := hans
          obtain ⟨m0, q, hrr, -, e2, -⟩ := hans.mid
          rw [(finish_frame _ m).2.1, ← e2, hrr.group]
          exact hgk
        · rintro up up' c c' ⟨m, hans, rfl⟩
          obtain ⟨m0, q, hrr, e1, e2, -⟩ := hans.mid
          rw [(finish_frame _ m).1, (finish_frame _ m).2.1, ← e1, ← e2]
          exact ⟨hrr.nick, hrr.group⟩
  | localActors p =>
    simp only [step] at h
    cases hp : onPath (fun up u => localActors sem sc.bn up u s) p [] t with
    | none => rw [hp] at h; cases h; exact ht
    | some r =>
      obtain ⟨t1, s1, o1⟩ := r
      rw [hp] at h
      cases h
      refine (onPath_all hR (fun _ => True) p [] t (fun up u _ _ hu => ?_) ht hp trivial).1
      obtain ⟨h1, h2, h3, -⟩ := kept_localActors sem hw hg k up u s hu
      exact ⟨h1, h2, h3⟩
  | sharedActors p nick =>
    simp only [step] at h
    cases hp : onPath (fun up u => sharedActors sem sc.bn nick up u s) p [] t with
    | none => rw [hp] at h; cases h; exact ht
    | some r =>
      obtain ⟨t1, s1, o1⟩ := r
      rw [hp] at h
      cases h
      refine (onPath_all hR (fun _ => True) p [] t (fun up u _ _ hu => ?_) ht hp trivial).1
      obtain ⟨h1, h2, h3, -⟩ := kept_sharedActors sem hw hg k nick up u s hu
      exact ⟨h1, h2, h3⟩
  | localSampler p j =>
    simp only [step] at h
    cases hp : onPath (fun up u => localSampler sem sc.bn j up u s) p [] t with
    | none => rw [hp] at h; cases h; exact ht
    | some r =>
      obtain ⟨t1, s1, o1⟩ := r
      rw [hp] at h
      cases h
      refine (onPath_all hR (fun _ => True) p [] t (fun up u _ _ hu => ?_) ht hp trivial).1
      obtain ⟨h1, h2, h3, -⟩ := kept_localActors sem hw hg k up u s hu
      unfold localSampler
      rcases hl : localActors sem sc.bn up u s with ⟨⟨c, ts⟩, s2, _ | _⟩
      · rw [hl] at h1 h2 h3
        exact ⟨h1, h2, h3⟩
      · rw [hl] at h1 h2 h3
        refine ⟨⟨⟨h1.1.1, ?_⟩, h1.2⟩, h2, h3⟩
        intro a ha
        rcases ha with ⟨d, hd, hk⟩ | hh
        · cases hd
          refine fresh_makeSampler sem (fun _ _ _ _ _ => rfl) (fun a ha => ?_) s2 hk
          cases hca : c.actors with
          | none => rw [hca] at ha; cases ha
          | some d => rw [hca] at ha; exact h1.1.2 a (.inl ⟨d, hca, ha⟩)
        · exact h1.1.2 a (.inr hh)
  | sharedSampler p nick j =>
    simp only [step] at h
    cases hp : onPath (fun up u => sharedSampler sem sc.bn nick j up u s) p [] t with
    | none => rw [hp] at h; cases h; exact ht
    | some r =>
      obtain ⟨t1, s1, o1⟩ := r
      rw [hp] at h
      cases h
      refine (onPath_all hR (fun _ => True) p [] t (fun up u hwalk _ hu => ?_) ht hp trivial).1
      obtain ⟨h1, h2, h3, h4, h5⟩ := kept_sharedActors sem hw hg k nick up u s hu
      unfold sharedSampler
      rcases hl : sharedActors sem sc.bn nick up u s with ⟨⟨c, ts⟩, s2, _ | _⟩
      · rw [hl] at h1 h2 h3
        exact ⟨h1, h2, h3⟩
      · rw [hl] at h1 h2 h3 h4 h5
        simp only
        cases hch : child nick ts with
        | none => exact ⟨h1, h2, h3⟩
        | some v =>
          simp only
          refine ⟨⟨⟨h1.1.1, ?_⟩, h1.2⟩, h2, h3⟩
          intro a ha
          have hold : ∀ g d, (c.childActors.getD []).get? g = some d → ∀ a, d.get? k = some a →
              ActorOk sc.bn k a ∧ (a.isFrozen = true → a.Reflects sem (chainMap (c.locus :: up))) := by
            intro g d hd a ha
            cases hca : c.childActors with
            | none => rw [hca] at hd; cases hd
            | some ds => rw [hca] at hd; exact h1.1.2 a (.inr ⟨ds, g, d, hca, hd, ha⟩)
          rcases ha with hh | ⟨ds, g, d, hds, hgd, hk⟩
          · exact h1.1.2 a (.inl hh)
          · cases hds
            rw [Dict.get?_set] at hgd
            split at hgd
            · cases hgd
              refine fresh_makeSampler sem (pas := chainMap (c.locus :: up)) (fun hj l hl q hq => ?_) (fun a ha => ?_) s2 hk
              · have hwv : walk t (p ++ [nick]) = .ok v := by
                  rw [walk_append hwalk]
                  simp only [walk]
                  have : u.kids = ts := h4.symm
                  rw [this, hch]
                have hq' := hc hj v hwv q ((hw.edges q k).2 ⟨l, hl, hq⟩)
                rw [chainMap_cons, (Dict.get?_eq_none_iff _ _).2 hq']
                rfl
              · cases hgg : (c.childActors.getD []).get? v.label.group.name with
                | none => rw [hgg] at ha; cases ha
                | some d => rw [hgg] at ha; exact hold _ d hgg a ha
            · exact hold g d hgd a hk

/-- **C51, partial**: along every history of operations from a generated root core in which no impulse fails or sets `k`
itself, and no child that holds a parent of `k` asks for the shared sampler of `k`, every frozen actor of `k` held by a
core reflects the values of its parents that the core reads.  (Missing: the excluded cases, where it is false, see
`C51_refuted` and `C51_refuted_sampler`.) -/
theorem C51_partial (sem : Sem N V C O S (XR K)) {noneV : V} {bn : BN N V C O} (hr : Ready bn) {ns : Tree (NSet N)}
    {sc : SimCore N V C O} (hsc : asSimCore bn ns = .ok sc) {nick : N} {exo : Dict N V} {s s1 s2 : S} {c : Core N V C O S K}
    (hroot : Core.generateRoot sem noneV sc nick exo s = (.ok c, s1)) {k : N} {t : CoreTree N V C O S K}
    (h : History sem noneV sc k (.node c []) s1 t s2) :
    All (fun up c _ => ∀ a, Holds c k a → a.isFrozen = true → bn.loci.get? k = some a.loci ∧
      a.Reflects sem (chainMap (c.locus :: up))) [] t := by
  obtain ⟨hw, -, -⟩ := hr.facts
  obtain ⟨rfl, hg⟩ := groups_ok hr hsc
  have h0 : All (Kept sem sc k) [] (.node c []) := by
    refine ⟨?_, trivial⟩
    unfold Core.generateRoot at hroot
    split at hroot
    · simp at hroot
    · rename_i g hgr
      have hchd : c.group = g ∧ c.actors = none ∧ c.childActors = none := by
        unfold Core.generate at hroot
        split at hroot
        · simp at hroot
        · split at hroot
          · simp at hroot
          · simp only [Prod.mk.injEq, Except.ok.injEq] at hroot
            obtain ⟨rfl, -⟩ := hroot
            exact ⟨rfl, rfl, rfl⟩
      refine ⟨⟨_, by rw [hchd.1]; exact hgr⟩, ?_⟩
      intro a ha
      rcases ha with ⟨d, hd, -⟩ | ⟨ds, _, _, hds, -⟩
      · rw [hchd.2.1] at hd; cases hd
      · rw [hchd.2.2] at hds; cases hds
  have h1 : All (Kept sem sc k) [] t := by
    clear hroot
    generalize (Tree.node c [] : CoreTree N V C O S K) = t0 at h h0
    induction h with
    | nil => exact h0
    | step op _ hst hcf ih => exact kept_step sem hw hg hst hcf ih
  exact h1.imp (fun up c ts hk a ha hf => ⟨(hk.2 a ha).1.loci, (hk.2 a ha).2 hf⟩)

/-- A frozen actor that reflects the values draws what its definition draws on them. -/
theorem reflects_draws {sem : Sem N V C O S (XR K)} {a : Actor N V C O S K} {pas : N → Option V} (hf : a.isFrozen = true)
    (hd : a.loci.isDist = true) (h : a.Reflects sem pas) (noneV : V) (pas' : N → Option V) (s : S) :
    a.sample sem noneV pas' s = a.loci.render sem (fun p => if p ∈ a.loci.parents then pas p else none) s := by
  have ht : a.type = .frozen := by simpa [Actor.isFrozen] using hf
  cases hl : a.loci with
  | dist n f ps =>
    obtain ⟨d, h1, h2⟩ := h.1 n f ps hl
    rw [hl] at h2
    simp only [Actor.sample, ht, hl, Loci.isDist, if_true, h1, Loci.render, h2]
  | value _ _ => rw [hl] at hd; cases hd
  | exo _ => rw [hl] at hd; cases hd
  | func _ _ _ => rw [hl] at hd; cases hd
  | pseudo _ _ => rw [hl] at hd; cases hd

/-- Read off a value that is there. -/
theorem of_some {α : Type} {o : Option α} {P : α → Prop} (d : ∀ a, Decidable (P a))
    (h : o.any (fun a => decide (P a)) = true) : ∃ a, o = some a ∧ P a := by
  cases o with
  | some a => exact ⟨a, rfl, of_decide_eq_true h⟩
  | none => cases h

/-- The local actor of a core. -/
def localActor (c : Core N V C O S K) (k : N) : Option (Actor N V C O S K) := c.actors.bind (fun d => d.get? k)

/-- The actor held for a group of children. -/
def hoistedActor (c : Core N V C O S K) (g k : N) : Option (Actor N V C O S K) :=
  c.childActors.bind (fun ds => (ds.get? g).bind (fun d => d.get? k))

theorem localActor_holds {c : Core N V C O S K} {k : N} {a : Actor N V C O S K} (h : localActor c k = some a) : Holds c k a := by
  obtain ⟨d, h1, h2⟩ := Option.bind_eq_some_iff.1 h
  exact .inl ⟨d, h1, h2⟩

theorem hoistedActor_holds {c : Core N V C O S K} {g k : N} {a : Actor N V C O S K} (h : hoistedActor c g k = some a) : Holds c k a := by
  obtain ⟨ds, h1, h2⟩ := Option.bind_eq_some_iff.1 h
  obtain ⟨d, h3, h4⟩ := Option.bind_eq_some_iff.1 h2
  exact .inr ⟨ds, g, d, h1, h3, h4⟩

/-- Not reflecting, from two draws that differ. -/
theorem not_reflects {sem : Sem N V C O S (XR K)} {a : Actor N V C O S K} {pas : N → Option V} (noneV : V) (s : S)
    (h : a.isFrozen = true ∧ a.loci.isDist = true ∧
      (a.sample sem noneV pas s).1 ≠ (a.loci.render sem (fun p => if p ∈ a.loci.parents then pas p else none) s).1) :
    a.isFrozen = true ∧ ¬ a.Reflects sem pas :=
  ⟨h.1, fun hr => h.2.2 (by rw [reflects_draws h.1 h.2.1 hr])⟩

/-- **C51 is false of the code**: when an impulse sets a frozen variable together with one of its parents, its sampler
keeps drawing with the old value of the parent. -/
theorem C51_refuted : ∃ (bn : BN String Toy.TV Toy.TC Unit) (sc : SimCore String Toy.TV Toy.TC Unit) (ns : Tree (NSet String))
    (t t' : CoreTree String Toy.TV Toy.TC Unit Int Int) (i : Impulse String Toy.TV) (s s' : Int) (u : CoreTree String Toy.TV Toy.TC Unit Int Int)
    (a : Actor String Toy.TV Toy.TC Unit Int Int), Ready bn ∧ asSimCore bn ns = .ok sc ∧ All (Members sc) [] t ∧
    step Toy.lit (.str "None") sc t s (.impulse ["A"] i) = (t', s', .ok ()) ∧ walk t' ["A"] = .ok u ∧
    Holds u.label "z" a ∧ a.isFrozen = true ∧ ¬ a.Reflects Toy.lit (chainMap [u.label.locus, t'.label.locus]) := by
  obtain ⟨u, hu, hP⟩ := Props.NodeSet.of_ok (r := walk (step Toy.lit (.str "None") sc49
      (step Toy.lit (.str "None") sc49 pc49 20 (.localActors ["A"])).1 20 (.impulse ["A"] (.dict [("x", some (.num 5)), ("z", some (.num 0))]))).1 ["A"])
    (P := fun u => (localActor u.label "z").any (fun a => decide (a.isFrozen = true ∧ a.loci.isDist = true ∧
        (a.sample Toy.lit (.str "None") (chainMap [u.label.locus, pc49.label.locus]) 0).1 ≠
          (a.loci.render Toy.lit (fun p => if p ∈ a.loci.parents then chainMap [u.label.locus, pc49.label.locus] p else none) 0).1)) = true)
    (fun _ => inferInstance) (by decide +kernel)
  obtain ⟨a, ha, hn⟩ := of_some (fun _ => inferInstance) hP
  obtain ⟨h1, h2⟩ := not_reflects _ _ hn
  refine ⟨n49, sc49, ns49, _, _, _, 20, _, u, a, n49_ready, sc49_ok, ?_, split_ok (by decide +kernel), hu, localActor_holds ha, h1, ?_⟩
  · exact all_of_check (f := fun c => decide (sc49.groups.get? c.group.name = some c.group))
      (fun _ c _ h => ⟨c.group.name, of_decide_eq_true h⟩) _ _ (by decide +kernel)
  · have e : (step Toy.lit (.str "None") sc49 (step Toy.lit (.str "None") sc49 pc49 20 (.localActors ["A"])).1 20
        (.impulse ["A"] (.dict [("x", some (.num 5)), ("z", some (.num 0))]))).1.label.locus = pc49.label.locus := by decide +kernel
    rw [e]
    exact h2

/-- **C51 is false of the code** in another way: a child with its own value of a parent that asks for a shared sampler
changes the actor that is held for all its siblings. -/
theorem C51_refuted_sampler : ∃ (bn : BN String Toy.TV Toy.TC Unit) (sc : SimCore String Toy.TV Toy.TC Unit) (ns : Tree (NSet String))
    (t : CoreTree String Toy.TV Toy.TC Unit Int Int) (s : Int) (a : Actor String Toy.TV Toy.TC Unit Int Int), Ready bn ∧
    asSimCore bn ns = .ok sc ∧ All (Members sc) [] t ∧
    Holds (step Toy.lit (.str "None") sc t s (.sharedSampler [] "B" "w")).1.label "w" a ∧ a.isFrozen = true ∧
    ¬ a.Reflects Toy.lit (chainMap [(step Toy.lit (.str "None") sc t s (.sharedSampler [] "B" "w")).1.label.locus]) := by
  obtain ⟨a, ha, hn⟩ := of_some (o := hoistedActor (step Toy.lit (.str "None") sc49 pc49 20 (.sharedSampler [] "B" "w")).1.label "agent" "w")
    (P := fun a => a.isFrozen = true ∧ a.loci.isDist = true ∧
        (a.sample Toy.lit (.str "None") (chainMap [pc49.label.locus]) 0).1 ≠
          (a.loci.render Toy.lit (fun p => if p ∈ a.loci.parents then chainMap [pc49.label.locus] p else none) 0).1)
    (fun _ => inferInstance) (by decide +kernel)
  obtain ⟨h1, h2⟩ := not_reflects _ _ hn
  refine ⟨n49, sc49, ns49, pc49, 20, a, n49_ready, sc49_ok, pc49_members _, hoistedActor_holds ha, h1, ?_⟩
  have e : (step Toy.lit (.str "None") sc49 pc49 20 (.sharedSampler [] "B" "w")).1.label.locus = pc49.label.locus := by decide +kernel
  rw [e]
  exact h2

/-- A careful history for `w`: both agents ask for their samplers, the root is intervened upon, a sampler is asked for
and an agent is removed. -/
def ops49 : List (Op String Toy.TV) := [.breed [] "A" "agent" [], .breed [] "B" "agent" [("k", .num 7)], .localActors ["A"],
  .sharedActors [] "B", .impulse [] (.dict [("k", some (.num 3)), ("z", some (.num 0))]), .sharedSampler [] "A" "w", .remove [] "B",
  .impulse ["A"] (.list ["x"])]

/-- The root core of the examples. -/
def root49 : Core String Toy.TV Toy.TC Unit Int Int := take ⟨"", ⟨"", [], [], [], [], [], [], []⟩, [], .nan, none, none, none, none⟩
  (Core.generateRoot Toy.lit (.str "None") sc49 "R" [] 10).1

attribute [irreducible] root49

/-- The boolean version of `Careful`. -/
def carefulB (bn : BN N V C O) (k : N) (t : CoreTree N V C O S K) (o : Result Unit) : Op N V → Bool
  | .impulse _ (.dict d) => o = .ok () && decide d.keys.Nodup && (d.get? k).join.isNone
  | .impulse _ _ => o = .ok ()
  | .sharedSampler p nick j => j ≠ k || (match walk t (p ++ [nick]) with
    | .ok u => bn.dag.edges.all (fun e => e.2 ≠ k || e.1 ∉ u.label.locus.keys)
    | .error _ => true)
  | _ => true

theorem careful_of_check {bn : BN N V C O} {k : N} {t : CoreTree N V C O S K} {o : Result Unit} {op : Op N V}
    (h : carefulB bn k t o op = true) : Careful bn k t o op := by
  cases op with
  | impulse p i =>
    cases i with
    | dict d =>
      simp only [carefulB, Bool.and_eq_true, decide_eq_true_eq, Option.isNone_iff_eq_none] at h
      exact ⟨h.1.1, h.1.2, h.2⟩
    | list l => exact ⟨by simpa [carefulB] using h, trivial, rfl⟩
    | other => exact ⟨by simpa [carefulB] using h, trivial, rfl⟩
  | sharedSampler p nick j =>
    intro hj u hu q hq
    subst hj
    simp only [carefulB, ne_eq, not_true_eq_false, decide_false, Bool.false_or, hu] at h
    have := List.all_eq_true.1 h (q, j) hq
    simpa using this
  | _ => trivial

/-- Check a history. -/
def carefulRun (sem : Sem N V C O S (XR K)) (noneV : V) (sc : SimCore N V C O) (k : N) : List (Op N V) → CoreTree N V C O S K → S → Bool
  | [], _, _ => true
  | op :: ops, t, s =>
    carefulB sc.bn k t (step sem noneV sc t s op).2.2 op &&
      carefulRun sem noneV sc k ops (step sem noneV sc t s op).1 (step sem noneV sc t s op).2.1

theorem history_of_check {sem : Sem N V C O S (XR K)} {noneV : V} {sc : SimCore N V C O} {k : N} :
    ∀ (ops : List (Op N V)) {t0 t : CoreTree N V C O S K} {s0 s : S}, History sem noneV sc k t0 s0 t s →
      carefulRun sem noneV sc k ops t s = true → History sem noneV sc k t0 s0 (run sem noneV sc ops t s).1 (run sem noneV sc ops t s).2 := by
  intro ops
  induction ops with
  | nil => intro t0 t s0 s h _; exact h
  | cons op ops ih =>
    intro t0 t s0 s h hc
    simp only [carefulRun, Bool.and_eq_true] at hc
    exact ih (h.step op rfl (careful_of_check hc.1)) hc.2

/-- The hypotheses of `C51_partial` are met by a history in which actors are made, updated and asked for. -/
example : History Toy.lit (.str "None") sc49 "w" (.node root49 []) 11 (run Toy.lit (.str "None") sc49 ops49 (.node root49 []) 11).1
    (run Toy.lit (.str "None") sc49 ops49 (.node root49 []) 11).2 :=
  history_of_check ops49 (.nil _ _) (by decide +kernel)

example : (run Toy.lit (.str "None") sc49 ops49 (.node root49 []) 11).1.kids.map (fun u => (u.label.locus, (localActor u.label "w").isSome)) =
    [([("x", .num 33)], true)] := by decide +kernel

/-! ## C53 -/

/-- **C53**, mediators: sampling with mediators draws the same target, from the same random stream, as sampling without,
and the mediators are recorded under their own names. -/
theorem C53_mediators (sem : Sem N V C O S (XR K)) (noneV : V) (a : Actor N V C O S K) (hc : a.type = .compound)
    (pas : N → Option V) (s : S) :
    (∀ v s', a.sample sem noneV pas s = (.ok v, s') → ∃ r, a.sampleWithMediators sem pas s = (.ok r, s') ∧ r.get? a.field = some v ∧
      ∀ x, x ∈ r.keys ↔ x = a.field ∨ ∃ l ∈ a.flow, x = l.name) ∧
    (∀ e s', a.sample sem noneV pas s = (.error e, s') ↔ a.sampleWithMediators sem pas s = (.error e, s')) := by
  have key : ∀ (fl : List (Loci N V C O)) (d res : Dict N V) (s : S),
      (∀ r s', Actor.flowLoop sem fl d s = (.ok r, s') → ∃ res', Actor.flowLoop2 sem fl d res s = (.ok (r, res'), s') ∧
        ∀ x, x ∈ res'.keys ↔ x ∈ res.keys ∨ ∃ l ∈ fl, x = l.name) ∧
      (∀ e s', Actor.flowLoop sem fl d s = (.error e, s') → Actor.flowLoop2 sem fl d res s = (.error e, s')) := by
    intro fl
    induction fl with
    | nil =>
      intro d res s
      refine ⟨?_, ?_⟩
      · intro r s' h
        simp only [Actor.flowLoop, Prod.mk.injEq, Except.ok.injEq] at h
        obtain ⟨rfl, rfl⟩ := h
        exact ⟨res, rfl, by simp⟩
      · intro e s' h; simp [Actor.flowLoop] at h
    | cons l ls ih =>
      intro d res s
      simp only [Actor.flowLoop, Actor.flowLoop2]
      rcases hl : l.render sem d.get? s with ⟨_ | v, s1⟩
      · simp
      · simp only
        obtain ⟨h1, h2⟩ := ih (d.set l.name v) (res.set l.name v) s1
        refine ⟨fun r s' h => ?_, h2⟩
        obtain ⟨res', h3, h4⟩ := h1 r s' h
        refine ⟨res', h3, fun x => ?_⟩
        rw [h4, Dict.mem_keys_set]
        simp only [List.mem_cons, exists_eq_or_imp]
        constructor
        · rintro ((h | h) | h)
          · exact .inr (.inl h)
          · exact .inl h
          · exact .inr (.inr h)
        · rintro (h | h | h)
          · exact .inl (.inr h)
          · exact .inl (.inl h)
          · exact .inr h
  have hs : a.sample sem noneV pas s = match Actor.flowLoop sem a.flow (Actor.readUpstream a.toRead pas) s with
      | (.error e, s') => (.error e, s')
      | (.ok up, s') => a.loci.render sem up.get? s' := by
    simp only [Actor.sample, hc]
    rfl
  rw [hs]
  unfold Actor.sampleWithMediators
  obtain ⟨k1, k2⟩ := key a.flow (Actor.readUpstream a.toRead pas) [] s
  rcases hf : Actor.flowLoop sem a.flow (Actor.readUpstream a.toRead pas) s with ⟨e0 | up, s1⟩
  · rw [k2 e0 s1 hf]
    simp
  · obtain ⟨res, h1, h2⟩ := k1 up s1 hf
    rw [h1]
    simp only
    rcases hr : a.loci.render sem up.get? s1 with ⟨e0 | v, s2⟩
    · simp
    · simp only [Prod.mk.injEq, Except.ok.injEq, reduceCtorEq, false_and, implies_true, and_true]
      rintro v' s' ⟨rfl, rfl⟩
      refine ⟨_, ⟨rfl, rfl⟩, Dict.get?_set_self _ _ _, fun x => ?_⟩
      rw [Dict.mem_keys_set, h2]
      simp [Dict.keys]

/-- **C53**, reading only: what an actor draws depends on the core only through the variables it is to read, and a frozen
actor does not look at the core at all. -/
theorem C53_reads (sem : Sem N V C O S (XR K)) (noneV : V) (a : Actor N V C O S K) {pas pas' : N → Option V}
    (h : a.type ≠ .frozen → ∀ x ∈ a.toRead, pas x = pas' x) (s : S) : a.sample sem noneV pas s = a.sample sem noneV pas' s := by
  by_cases hf : a.type = .frozen
  · simp only [Actor.sample, hf]
  · have e : (Actor.readUpstream a.toRead pas).get? = (Actor.readUpstream a.toRead pas').get? := by
      rw [Actor.readUpstream_eq, Actor.readUpstream_eq]
      funext x
      split
      · rename_i hx; exact h hf x hx
      · rfl
    have e2 : Actor.readUpstream a.toRead pas = Actor.readUpstream a.toRead pas' := by
      unfold Actor.readUpstream
      refine List.foldl_ext _ _ _ (fun up p hp => ?_)
      rw [h hf p hp]
    unfold Actor.sample
    rw [e2]

/-- A compound actor: `y ~ norm(m, 1)` through `m = a + 1`. -/
def act53 : Actor String Toy.TV Toy.TC Unit Int Int :=
  ⟨"y", .compound, .dist "y" (Toy.app "norm" [] [("loc", Toy.var "m"), ("scale", Toy.int 1)]) ["m"], ["a"],
    [.func "m" (Toy.plus (Toy.var "a") (Toy.int 1)) ["a"]], none⟩

example : act53.sample Toy.lit (.str "None") (Dict.get? [("a", .num 4), ("b", .num 1)]) 10 = (.ok (.num 15), 11) ∧
    act53.sampleWithMediators Toy.lit (Dict.get? [("a", .num 4), ("b", .num 1)]) 10 = (.ok [("m", .num 5), ("y", .num 15)], 11) := by
  decide

theorem heap_at_lt {h : Heap N V} {r : Nat} (hr : r < h.length) (g : Heap N V) : (h ++ g).cell r = h.cell r := by
  simp only [Heap.cell, List.getElem?_append_left hr]

theorem heap_at_put (h : Heap N V) {r q : Nat} (k : N) (v : V) (hr : r < h.length) :
    (h.put r k v).cell q = if q = r then (h.cell r).set k v else h.cell q := by
  simp only [Heap.cell, Heap.put, List.getElem?_set]
  by_cases hq : r = q
  · subst hq; simp [hr]
  · simp [hq, Ne.symm hq]

theorem heap_put_length (h : Heap N V) (r : Nat) (k : N) (v : V) : (h.put r k v).length = h.length := by
  simp [Heap.put]

/-- Only `up` is written by the loop. -/
theorem readLoopH_spec (cs : List Nat) (up : Nat) (hcs : up ∉ cs) : ∀ (ps : List N) (h : Heap N V), up < h.length →
    (Actor.readLoopH cs up ps h).length = h.length ∧ (∀ q, q ≠ up → (Actor.readLoopH cs up ps h).cell q = h.cell q) ∧
    (Actor.readLoopH cs up ps h).cell up =
      ps.foldl (fun u p => match chainMap (h.chain cs) p with | some v => u.set p v | none => u) (h.cell up) := by
  intro ps
  induction ps with
  | nil => intro h _; exact ⟨rfl, fun _ _ => rfl, rfl⟩
  | cons p ps ih =>
    intro h hu
    simp only [Actor.readLoopH]
    cases hc : chainGet (h.chain cs) p with
    | error e =>
      simp only
      obtain ⟨h1, h2, h3⟩ := ih h hu
      refine ⟨h1, h2, ?_⟩
      rw [h3, List.foldl_cons]
      simp only [chainMap, hc, Except.toOption]
    | ok v =>
      simp only
      have hch : (h.put up p v).chain cs = h.chain cs := by
        simp only [Heap.chain]
        refine List.map_congr_left (fun q hq => ?_)
        rw [heap_at_put h p v hu, if_neg (show ¬ q = up from fun hh => hcs (hh ▸ hq))]
      obtain ⟨h1, h2, h3⟩ := ih (h.put up p v) (by rw [heap_put_length]; exact hu)
      refine ⟨by rw [h1, heap_put_length], fun q hq => ?_, ?_⟩
      · rw [h2 q hq, heap_at_put h p v hu, if_neg hq]
      · rw [h3, List.foldl_cons, hch, heap_at_put h p v hu, if_pos rfl]
        simp only [chainMap, hc, Except.toOption]

theorem readUpstreamH_spec (toRead : List N) (cs : List Nat) (h : Heap N V) (hcs : ∀ c ∈ cs, c < h.length) :
    (Actor.readUpstreamH toRead cs h).1 = h.length ∧ (Actor.readUpstreamH toRead cs h).2.length = h.length + 1 ∧
    (∀ q < h.length, (Actor.readUpstreamH toRead cs h).2.cell q = h.cell q) ∧
    (Actor.readUpstreamH toRead cs h).2.cell h.length = Actor.readUpstream toRead (chainMap (h.chain cs)) := by
  have hch : (h ++ [[]]).chain cs = h.chain cs := by
    simp only [Heap.chain]
    exact List.map_congr_left (fun q hq => heap_at_lt (hcs q hq) _)
  obtain ⟨h1, h2, h3⟩ := readLoopH_spec cs h.length (fun hh => absurd (hcs _ hh) (by omega)) toRead (h ++ [[]]) (by simp)
  refine ⟨rfl, by simp only [Actor.readUpstreamH]; rw [h1]; simp, fun q hq => ?_, ?_⟩
  · simp only [Actor.readUpstreamH]
    rw [h2 q (by omega), heap_at_lt hq]
  · simp only [Actor.readUpstreamH]
    rw [h3, hch]
    have : (h ++ [[]] : Heap N V).cell h.length = [] := by simp [Heap.cell]
    rw [this]
    rfl

theorem flowLoopH_spec (sem : Sem N V C O S (XR K)) (pas : Nat) : ∀ (fl : List (Loci N V C O)) (h : Heap N V) (s : S), pas < h.length →
    (∀ q, q ≠ pas → (Actor.flowLoopH sem pas fl h s).2.2.cell q = h.cell q) ∧
    (∀ r s', Actor.flowLoop sem fl (h.cell pas) s = (.ok r, s') → ∃ h', Actor.flowLoopH sem pas fl h s = (.ok (), s', h') ∧ h'.cell pas = r) ∧
    (∀ e s', Actor.flowLoop sem fl (h.cell pas) s = (.error e, s') → ∃ h', Actor.flowLoopH sem pas fl h s = (.error e, s', h')) := by
  intro fl
  induction fl with
  | nil =>
    intro h s _
    refine ⟨fun _ _ => rfl, ?_, ?_⟩
    · intro r s' hr
      simp only [Actor.flowLoop, Prod.mk.injEq, Except.ok.injEq] at hr
      exact ⟨h, by simp [Actor.flowLoopH, hr.2], hr.1⟩
    · intro e s' hr; simp [Actor.flowLoop] at hr
  | cons l ls ih =>
    intro h s hp
    simp only [Actor.flowLoop, Actor.flowLoopH]
    rcases hl : l.render sem (h.cell pas).get? s with ⟨e0 | v, s1⟩
    · simp
    · simp only
      obtain ⟨h1, h2, h3⟩ := ih (h.put pas l.name v) s1 (by rw [heap_put_length]; exact hp)
      have e : (h.put pas l.name v).cell pas = (h.cell pas).set l.name v := by rw [heap_at_put h _ v hp, if_pos rfl]
      rw [e] at h2 h3
      exact ⟨fun q hq => by rw [h1 q hq, heap_at_put h _ v hp, if_neg hq], h2, h3⟩

/-- **C53**, no side effect: sampling through any actor leaves every dictionary that existed before as it was, in
particular those of the core and its ancestors `cs`, and draws what it should. -/
theorem C53_pure (sem : Sem N V C O S (XR K)) (noneV : V) (a : Actor N V C O S K) (cs : List Nat) (h : Heap N V)
    (hcs : ∀ c ∈ cs, c < h.length) (s : S) :
    (∀ q < h.length, (a.sampleH sem noneV cs h s).2.2.cell q = h.cell q) ∧
    ((a.sampleH sem noneV cs h s).1, (a.sampleH sem noneV cs h s).2.1) = a.sample sem noneV (chainMap (h.chain cs)) s := by
  obtain ⟨u1, u2, u3, u4⟩ := readUpstreamH_spec a.toRead cs h hcs
  cases ht : a.type with
  | frozen =>
    simp only [Actor.sampleH, Actor.sample, ht]
    split
    · split <;> exact ⟨fun _ _ => rfl, rfl⟩
    · split <;> exact ⟨fun _ _ => rfl, rfl⟩
  | single =>
    simp only [Actor.sampleH, Actor.sample, ht]
    refine ⟨u3, ?_⟩
    rw [u1, u4]
  | compound =>
    obtain ⟨f1, f2, f3⟩ := flowLoopH_spec sem h.length a.flow (Actor.readUpstreamH a.toRead cs h).2 s (by omega)
    rw [u4] at f2 f3
    simp only [Actor.sampleH, Actor.sample, ht, u1]
    rcases hf : Actor.flowLoop sem a.flow (Actor.readUpstream a.toRead (chainMap (h.chain cs))) s with ⟨e0 | r, s1⟩
    · obtain ⟨h', hh⟩ := f3 e0 s1 hf
      rw [hh] at f1 ⊢
      exact ⟨fun q hq => by rw [← u3 q hq]; exact f1 q (by omega), rfl⟩
    · obtain ⟨h', hh, hr⟩ := f2 r s1 hf
      rw [hh] at f1 ⊢
      simp only [hr]
      exact ⟨fun q hq => by rw [← u3 q hq]; exact f1 q (by omega), by trivial⟩

example : act53.sampleH Toy.lit (.str "None") [1, 0] [[("b", .num 1)], [("a", .num 4)]] 10 =
    (.ok (.num 15), 11, [[("b", .num 1)], [("a", .num 4)], [("a", .num 4), ("m", .num 5)]]) := by decide

end Props.SimCore
