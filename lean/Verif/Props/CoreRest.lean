import Verif.Props.Clones
import Verif.Model.CoreRest
import Mathlib.Data.List.Induction

/-!
# All samplers at once, pseudo cores as mappings, groups by name (C196 to C198)
-/

namespace Props.SimCore

set_option linter.unusedSectionVars false

open Py Spec Relation Model Model.CoreTree Props.Sampling

variable {N V C O S K : Type} [DecidableEq N] [AddCommMonoid K]

/-! ## C196 -/

/-- Do something for each of the names, until one raises. -/
def oneByOne {T : Type} (f : N → T → S → T × S × Result Unit) : List N → T → S → T × S × Result Unit
  | [], t, s => (t, s, .ok ())
  | k :: ks, t, s =>
    match f k t s with
    | (t, s, .ok ()) => oneByOne f ks t s
    | (t, s, .error e) => (t, s, .error e)

theorem set_mid {α : Type} (pre : Dict N α) (k : N) (a b : α) (r : Dict N α) (h : k ∉ pre.keys) :
    Dict.set (pre ++ (k, a) :: r) k b = pre ++ (k, b) :: r := by
  induction pre with
  | nil => simp [Dict.set]
  | cons p pre ih =>
    obtain ⟨j, x⟩ := p
    simp only [Dict.keys_cons, List.mem_cons, not_or] at h
    have : j ≠ k := fun e => h.1 e.symm
    simp only [List.cons_append, Dict.set, this, if_false]
    rw [ih h.2]

theorem get_mid {α : Type} (pre : Dict N α) (k : N) (a : α) (r : Dict N α) (h : k ∉ pre.keys) :
    Dict.get? (pre ++ (k, a) :: r) k = some a := by
  rw [Dict.get?_append, (Dict.get?_eq_none_iff _ _).2 h, Dict.get?_cons]
  simp

theorem updateAll_eq (sem : Sem N V C O S (XR K)) (chain : List (Dict N V)) : ∀ (d pre : Dict N (Actor N V C O S K)) (s : S),
    Dict.WF (pre ++ d) →
    oneByOne (fun k d s => makeSampler sem chain d k s) d.keys (pre ++ d) s =
      (pre ++ (updateAll sem chain d s).1, (updateAll sem chain d s).2.1, (updateAll sem chain d s).2.2) := by
  intro d
  induction d with
  | nil => intro pre s _; rfl
  | cons p r ih =>
    intro pre s hw
    obtain ⟨k, a⟩ := p
    have hk : k ∉ pre.keys := by
      intro h
      have hn : (pre.keys ++ k :: Dict.keys r).Nodup := by
        have := hw
        simp only [Dict.WF, Dict.keys, List.map_append, List.map_cons] at this
        exact this
      exact (List.disjoint_of_nodup_append hn) h (by simp)
    simp only [Dict.keys_cons, oneByOne, makeSampler, get_mid pre k a r hk, updateAll]
    by_cases hf : a.isFrozen = true
    · simp only [if_pos hf]
      rcases hu : a.update sem (chainMap chain) s with ⟨a', s', _ | _⟩
      · simp only [set_mid pre k a a' r hk]
      · simp only [set_mid pre k a a' r hk]
        have hw' : Dict.WF ((pre ++ [(k, a')]) ++ r) := by
          simp only [Dict.WF, Dict.keys, List.map_append, List.map_cons, List.map_nil] at hw ⊢
          simpa using hw
        have := ih (pre ++ [(k, a')]) s' hw'
        simp only [List.append_assoc, List.cons_append, List.nil_append] at this
        exact this
    · simp only [if_neg hf]
      have hw' : Dict.WF ((pre ++ [(k, a)]) ++ r) := by
        simpa using hw
      have := ih (pre ++ [(k, a)]) s hw'
      simp only [List.append_assoc, List.cons_append, List.nil_append] at this
      exact this

theorem composeAll_keys {bn : BN N V C O} {d : Dict N (Blueprint N)} {d' : Dict N (Actor N V C O S K)}
    (h : Core.composeAll bn d = .ok d') : d'.keys = d.keys := by
  induction d generalizing d' with
  | nil =>
    unfold Core.composeAll at h
    rw [List.mapM_nil, NSet.pure_ok] at h
    subst h
    rfl
  | cons p d ih =>
    unfold Core.composeAll at h
    rw [List.mapM_cons] at h
    obtain ⟨q, h1, h⟩ := NSet.bind_ok.1 h
    obtain ⟨r, h2, h⟩ := NSet.bind_ok.1 h
    rw [NSet.pure_ok] at h
    subst h
    obtain ⟨a0, h3, h1⟩ := NSet.bind_ok.1 h1
    rw [NSet.pure_ok] at h1
    subst h1
    rw [Dict.keys_cons, Dict.keys_cons, ih h2]

theorem freezeAll_keys (sem : Sem N V C O S (XR K)) (pas : N → Option V) {d d' : Dict N (Actor N V C O S K)} {s s' : S}
    (h : Core.freezeAll sem pas d s = (.ok d', s')) : d'.keys = d.keys := by
  have h1 := Core.freezeAll_ok sem pas d s h
  clear h
  induction h1 with
  | nil => rfl
  | cons h _ ih => rw [Dict.keys_cons, Dict.keys_cons, h.1, ih]

/-- **C196**, names: a core lists as its own actors exactly the nodes for which its group has local blueprints, in their
order, and a sampler of any other name is refused with KeyError. -/
theorem C196_names (sem : Sem N V C O S (XR K)) (bn : BN N V C O) (up : List (Dict N V)) {t t' : CoreTree N V C O S K} {s s' : S} {ns : List N}
    (hk : ∀ d, t.label.actors = some d → d.keys = t.label.group.localA.keys) (h : listLocal sem bn up t s = (t', s', .ok ns)) :
    ns = t.label.group.localA.keys ∧ (∀ d, t'.label.actors = some d → d.keys = ns) ∧
    ∀ k, k ∉ ns → (localSampler sem bn k up t s).2.2 = .error .KeyError := by
  obtain ⟨c, ts⟩ := t
  unfold listLocal at h
  rcases ha : localActors sem bn up (.node c ts) s with ⟨⟨c1, ts1⟩, s1, e | _⟩
  · rw [ha] at h; cases h
  · rw [ha] at h
    simp only [Prod.mk.injEq, Except.ok.injEq, label_node] at h
    obtain ⟨rfl, rfl, rfl⟩ := h
    have hkeys : ∃ d, c1.actors = some d ∧ d.keys = c.group.localA.keys := by
      simp only [localActors] at ha
      cases hc : c.actors with
      | some d =>
        rw [hc] at ha
        simp only [Prod.mk.injEq, Tree.node.injEq] at ha
        obtain ⟨⟨rfl, -⟩, -⟩ := ha
        exact ⟨d, hc, hk d hc⟩
      | none =>
        rw [hc] at ha
        simp only [Prod.mk.injEq, Tree.node.injEq] at ha
        obtain ⟨⟨h1, -⟩, h2, h3⟩ := ha
        unfold Core.putLocal at h1 h3
        cases hp : Core.composeAll (S := S) (K := K) bn c.group.localA with
        | error e => rw [hp] at h3; cases h3
        | ok d =>
          rw [hp] at h1 h3
          simp only at h1 h3
          rcases hf : Core.freezeAll sem (chainMap (c.locus :: up)) d s with ⟨_ | d', s2⟩
          · rw [hf] at h3; cases h3
          · rw [hf] at h1
            simp only at h1
            subst h1
            exact ⟨d', rfl, (freezeAll_keys sem _ hf).trans (composeAll_keys hp)⟩
    obtain ⟨d, hd, hdk⟩ := hkeys
    simp only [hd, Option.getD_some]
    refine ⟨hdk, fun d' h => ?_, fun k hn => ?_⟩
    · rw [label_node, hd] at h; cases h; rfl
    · unfold localSampler
      simp only [ha, hd, Option.getD_some, makeSampler, (Dict.get?_eq_none_iff _ _).2 hn]

theorem oneByOne_local (sem : Sem N V C O S (XR K)) (bn : BN N V C O) (up : List (Dict N V)) (ts : List (CoreTree N V C O S K)) :
    ∀ (ks : List N) (c : Core N V C O S K) (d : Dict N (Actor N V C O S K)) (s : S), c.actors = some d →
      oneByOne (fun k t s => localSampler sem bn k up t s) ks (.node c ts) s =
        (.node { c with actors := some (oneByOne (fun k d s => makeSampler sem (c.locus :: up) d k s) ks d s).1 } ts,
          (oneByOne (fun k d s => makeSampler sem (c.locus :: up) d k s) ks d s).2.1,
          (oneByOne (fun k d s => makeSampler sem (c.locus :: up) d k s) ks d s).2.2) := by
  intro ks
  induction ks with
  | nil =>
    intro c d s h
    simp only [oneByOne]
    congr
    rw [← h]
  | cons k ks ih =>
    intro c d s h
    have hl : localSampler sem bn k up (.node c ts) s = (.node { c with actors := some (makeSampler sem (c.locus :: up) d k s).1 } ts,
        (makeSampler sem (c.locus :: up) d k s).2.1, (makeSampler sem (c.locus :: up) d k s).2.2) := by
      simp only [localSampler, localActors, h, Option.getD_some]
    simp only [oneByOne, hl]
    rcases hm : makeSampler sem (c.locus :: up) d k s with ⟨d', s', e | _⟩
    · rfl
    · simp only
      rw [ih _ d' s' rfl]

/-- **C196**: `get_samplers` of a core's own actors leaves the hierarchy, the random stream and the outcome that calling
`get_sampler` for each of the listed names in turn would, up to the first that raises. -/
theorem C196 (sem : Sem N V C O S (XR K)) (bn : BN N V C O) (up : List (Dict N V)) {t t' : CoreTree N V C O S K} {s s' : S} {ns : List N}
    (h : listLocal sem bn up t s = (t', s', .ok ns)) (hw : ns.Nodup) :
    localSamplers sem bn up t s = oneByOne (fun k t s => localSampler sem bn k up t s) ns t' s' := by
  unfold listLocal at h
  rcases ha : localActors sem bn up t s with ⟨⟨c, ts⟩, s1, e | _⟩
  · rw [ha] at h; cases h
  · rw [ha] at h
    simp only [Prod.mk.injEq, Except.ok.injEq, label_node] at h
    obtain ⟨rfl, rfl, rfl⟩ := h
    have hs : ∃ d, c.actors = some d := by
      obtain ⟨c0, ts0⟩ := t
      simp only [localActors] at ha
      cases hc : c0.actors with
      | some d =>
        rw [hc] at ha
        simp only [Prod.mk.injEq, Tree.node.injEq] at ha
        obtain ⟨⟨rfl, -⟩, -⟩ := ha
        exact ⟨d, hc⟩
      | none =>
        rw [hc] at ha
        simp only [Prod.mk.injEq, Tree.node.injEq] at ha
        obtain ⟨⟨h1, -⟩, h2, h3⟩ := ha
        unfold Core.putLocal at h1 h3
        cases hp : Core.composeAll (S := S) (K := K) bn c0.group.localA with
        | error e => rw [hp] at h3; cases h3
        | ok d =>
          rw [hp] at h1 h3
          simp only at h1 h3
          rcases hf : Core.freezeAll sem (chainMap (c0.locus :: up)) d s with ⟨_ | d', s2⟩
          · rw [hf] at h3; cases h3
          · rw [hf] at h1
            simp only at h1
            subst h1
            exact ⟨d', rfl⟩
    obtain ⟨d, hd⟩ := hs
    rw [hd] at hw
    have hu := updateAll_eq sem (c.locus :: up) d [] s1 hw
    rw [oneByOne_local sem bn up ts _ c d s1 hd]
    unfold localSamplers
    simp only [ha, hd, Option.getD_some]
    simp only [List.nil_append] at hu
    rw [hu]

theorem set_again {α : Type} (d : Dict N α) (k : N) (a b : α) : (d.set k a).set k b = d.set k b := by
  induction d with
  | nil => simp [Dict.set]
  | cons p d ih =>
    obtain ⟨j, x⟩ := p
    by_cases h : j = k
    · simp [Dict.set, h]
    · simp only [Dict.set, h, if_false]
      rw [ih]

theorem set_here {α : Type} (d : Dict N α) (k : N) (a : α) (h : d.get? k = some a) : d.set k a = d := by
  induction d with
  | nil => cases h
  | cons p d ih =>
    obtain ⟨j, x⟩ := p
    rw [Dict.get?_cons] at h
    by_cases e : j = k
    · rw [if_pos e] at h
      cases h
      simp [Dict.set, e]
    · rw [if_neg e] at h
      simp only [Dict.set, e, if_false]
      rw [ih h]

theorem oneByOne_shared (sem : Sem N V C O S (XR K)) (bn : BN N V C O) (nick : N) (up : List (Dict N V)) (ts : List (CoreTree N V C O S K))
    {u : CoreTree N V C O S K} (hu : child nick ts = some u) :
    ∀ (ks : List N) (c : Core N V C O S K) (cd : Dict N (Dict N (Actor N V C O S K))) (d : Dict N (Actor N V C O S K)) (s : S),
      c.childActors = some cd → cd.get? u.label.group.name = some d →
      oneByOne (fun k t s => sharedSampler sem bn nick k up t s) ks (.node c ts) s =
        (.node { c with childActors := some (cd.set u.label.group.name
            (oneByOne (fun k d s => makeSampler sem (u.label.locus :: c.locus :: up) d k s) ks d s).1) } ts,
          (oneByOne (fun k d s => makeSampler sem (u.label.locus :: c.locus :: up) d k s) ks d s).2.1,
          (oneByOne (fun k d s => makeSampler sem (u.label.locus :: c.locus :: up) d k s) ks d s).2.2) := by
  intro ks
  induction ks with
  | nil =>
    intro c cd d s h hd
    simp only [oneByOne, set_here cd _ d hd]
    congr
    rw [← h]
  | cons k ks ih =>
    intro c cd d s h hd
    have hl : sharedSampler sem bn nick k up (.node c ts) s =
        (.node { c with childActors := some (cd.set u.label.group.name (makeSampler sem (u.label.locus :: c.locus :: up) d k s).1) } ts,
        (makeSampler sem (u.label.locus :: c.locus :: up) d k s).2.1, (makeSampler sem (u.label.locus :: c.locus :: up) d k s).2.2) := by
      simp only [sharedSampler, sharedActors, hu, h, hd, Option.getD_some]
    simp only [oneByOne, hl]
    rcases hm : makeSampler sem (u.label.locus :: c.locus :: up) d k s with ⟨d', s', e | _⟩
    · rfl
    · simp only
      rw [ih _ (cd.set u.label.group.name d') d' s' rfl (Dict.get?_set_self _ _ _)]
      simp only [set_again]

/-- **C196**, shared: the same for the actors that a child shares with its siblings. -/
theorem C196_shared (sem : Sem N V C O S (XR K)) (bn : BN N V C O) (nick : N) (up : List (Dict N V)) {t t' : CoreTree N V C O S K} {s s' : S}
    {ns : List N} (h : listShared sem bn nick up t s = (t', s', .ok ns)) (hw : ns.Nodup) :
    sharedSamplers sem bn nick up t s = oneByOne (fun k t s => sharedSampler sem bn nick k up t s) ns t' s' := by
  unfold listShared at h
  rcases ha : sharedActors sem bn nick up t s with ⟨⟨c, ts⟩, s1, e | _⟩
  · rw [ha] at h; cases h
  · rw [ha] at h
    simp only [label_node, kids_node] at h
    cases hu : child nick ts with
    | none => rw [hu] at h; cases h
    | some u =>
      rw [hu] at h
      simp only [Prod.mk.injEq, Except.ok.injEq] at h
      obtain ⟨rfl, rfl, rfl⟩ := h
      have hs : ∃ cd d, c.childActors = some cd ∧ cd.get? u.label.group.name = some d := by
        obtain ⟨c0, ts0⟩ := t
        simp only [sharedActors] at ha
        cases hc : child nick ts0 with
        | none => rw [hc] at ha; simp at ha
        | some v =>
          rw [hc] at ha
          simp only at ha
          cases hg : (c0.childActors.getD []).get? v.label.group.name with
          | some d =>
            rw [hg] at ha
            simp only [Prod.mk.injEq, Tree.node.injEq] at ha
            obtain ⟨⟨rfl, rfl⟩, -⟩ := ha
            rw [hc] at hu
            cases hu
            cases hcd : c0.childActors with
            | none => rw [hcd] at hg; cases hg
            | some cd => rw [hcd] at hg; exact ⟨cd, d, rfl, hg⟩
          | none =>
            rw [hg] at ha
            simp only [Prod.mk.injEq, Tree.node.injEq] at ha
            obtain ⟨⟨h1, rfl⟩, h2, h3⟩ := ha
            rw [hc] at hu
            cases hu
            unfold Core.putShared at h1 h3
            cases hp : Core.composeAll (S := S) (K := K) bn u.label.group.sharedA with
            | error e => rw [hp] at h3; cases h3
            | ok d =>
              rw [hp] at h1 h3
              simp only at h1 h3
              rcases hf : Core.freezeAll sem (chainMap (c0.locus :: up)) d s with ⟨_ | d', s2⟩
              · rw [hf] at h3; cases h3
              · rw [hf] at h1
                simp only at h1
                subst h1
                exact ⟨_, d', rfl, Dict.get?_set_self _ _ _⟩
      obtain ⟨cd, d, hcd, hd⟩ := hs
      simp only [hcd, Option.getD_some, hd] at hw ⊢
      have hup := updateAll_eq sem (u.label.locus :: c.locus :: up) d [] s1 hw
      rw [oneByOne_shared sem bn nick up ts hu _ c cd d s1 hcd hd]
      unfold sharedSamplers
      simp only [ha, hu, hcd, hd, Option.getD_some]
      simp only [List.nil_append] at hup
      rw [hup]

/-- In `pc49` the root and the agents have two actors each, own or shared. -/
example : (listLocal Toy.lit n49 [] pc49 5).2.2 = .ok ["z", "w"] ∧
    (listShared Toy.lit n49 "A" [] pc49 5).2.2 = .ok ["z", "w"] ∧
    (match child "A" pc49.kids with
      | some u => (listLocal Toy.lit n49 [pc49.label.locus] u 5).2.2
      | none => .ok []) = .ok ["z", "w"] ∧
    (sharedSamplers Toy.lit n49 "A" [] pc49 5).2.2 = .ok () ∧
    (sharedDraw Toy.lit (.str "None") "A" "w" [] (sharedSamplers Toy.lit n49 "A" [] pc49 5).1 5).1 = .ok (.num 6) := by
  decide +kernel

/-! ## C197 -/

/-- **C197 is false of the code**: a pseudo core that was given a value contains its key, counts it and yields it, but
neither returns it nor can be made a dictionary. -/
theorem C197_refuted (d : Dict N V) (x : N) (v : V) :
    Pseudo.contains (Pseudo.setItem d x v) x = true ∧ (x, v) ∈ Pseudo.iterate (Pseudo.setItem d x v) ∧
    Pseudo.getItem (Pseudo.setItem d x v) x = .error .KeyError ∧ Pseudo.toDict (Pseudo.setItem d x v) = .error .KeyError := by
  have hk : x ∈ (d.set x v).keys := (Dict.mem_keys_set _ _ _ _).2 (.inl rfl)
  refine ⟨decide_eq_true hk, ?_, rfl, ?_⟩
  · exact Dict.mem_of_get? (Dict.get?_set_self d x v)
  · unfold Pseudo.toDict Pseudo.setItem
    cases hks : (d.set x v).keys with
    | nil => rw [hks] at hk; cases hk
    | cons k ks => rfl

/-- **C197, partial**: membership, length and iteration of a pseudo core agree: iteration yields one pair for every key it
contains, the last value stored, and as many as its length; without values it is an empty mapping in every respect, and
nothing is found.  (Missing: looking a value up and making a dictionary of a core with values, which always raise, see
`C197_refuted`.) -/
theorem C197_partial (ops : List (N × V)) :
    let d := ops.foldl (fun d p => Pseudo.setItem d p.1 p.2) []
    (∀ x, Pseudo.contains d x = true ↔ ∃ v, (x, v) ∈ ops) ∧
    (∀ x v, (x, v) ∈ Pseudo.iterate d ↔ ∃ pre suf, ops = pre ++ (x, v) :: suf ∧ ∀ w, (x, w) ∉ suf) ∧
    ((Pseudo.iterate d).map Prod.fst).Nodup ∧ (Pseudo.iterate d).length = Pseudo.length d ∧
    (ops = [] → Pseudo.toDict d = .ok [] ∧ Pseudo.length d = 0) := by
  intro d
  have hd : d = Dict.update [] ops := rfl
  have hw : d.WF := by
    rw [hd]
    exact Dict.WF.update Dict.wf_nil _
  have key : ∀ (ops : List (N × V)) (x : N) (v : V), (ops.foldl (fun d p => Pseudo.setItem d p.1 p.2) ([] : Dict N V)).get? x = some v ↔
      ∃ pre suf, ops = pre ++ (x, v) :: suf ∧ ∀ w, (x, w) ∉ suf := by
    intro ops x v
    induction ops using List.reverseRec with
    | nil => simp
    | append_singleton ops p ih =>
      obtain ⟨y, w⟩ := p
      rw [List.foldl_append]
      simp only [List.foldl_cons, List.foldl_nil, Pseudo.setItem]
      rw [Dict.get?_set]
      by_cases e : y = x
      · subst e
        rw [if_pos rfl]
        constructor
        · rintro h
          cases h
          exact ⟨ops, [], rfl, by simp⟩
        · rintro ⟨pre, suf, h1, h2⟩
          rcases List.eq_nil_or_concat suf with rfl | ⟨suf', q, rfl⟩
          · have := List.append_inj_right' h1 rfl
            cases this
            rfl
          · rw [List.concat_eq_append] at h1 h2
            have h3 : ops ++ [(y, w)] = (pre ++ (y, v) :: suf') ++ [q] := by simpa using h1
            have := List.append_inj_right' h3 rfl
            cases this
            exact absurd (by simp) (h2 w)
      · rw [if_neg e]
        have hih := ih
        simp only [Pseudo.setItem] at hih
        rw [hih]
        constructor
        · rintro ⟨pre, suf, rfl, h⟩
          refine ⟨pre, suf ++ [(y, w)], by simp, fun z hz => ?_⟩
          rcases List.mem_append.1 hz with hz | hz
          · exact h z hz
          · simp at hz
            exact e hz.1.symm
        · rintro ⟨pre, suf, h1, h2⟩
          rcases List.eq_nil_or_concat suf with rfl | ⟨suf', q, rfl⟩
          · have := List.append_inj_right' h1 rfl
            cases this
            exact absurd rfl e
          · rw [List.concat_eq_append] at h1 h2
            have h3 : ops ++ [(y, w)] = (pre ++ (x, v) :: suf') ++ [q] := by simpa using h1
            have h4 := List.append_inj_left' h3 rfl
            exact ⟨pre, suf', h4, fun z hz => h2 z (by simp [hz])⟩
  refine ⟨fun x => ?_, fun x v => ?_, hw, rfl, ?_⟩
  · unfold Pseudo.contains
    rw [decide_eq_true_eq, Dict.mem_keys_iff_exists]
    constructor
    · rintro ⟨v, hv⟩
      obtain ⟨pre, suf, h, -⟩ := (key ops x v).1 hv
      exact ⟨v, by rw [h]; simp⟩
    · rintro ⟨v, hv⟩
      rw [← Dict.mem_keys_iff_exists, hd, Dict.mem_keys_update]
      exact .inr (List.mem_map.2 ⟨_, hv, rfl⟩)
  · rw [← key ops x v]
    exact ⟨fun h => Dict.get?_of_mem hw h, Dict.mem_of_get?⟩
  · rintro rfl
    exact ⟨rfl, rfl⟩

/-- **C197**, actors: whatever the hierarchy, the log prior of a pseudo core is 0, it has no samplers, and freezing, cloning
and asking for the actors of a child raise. -/
theorem C197_actors (t : Tree (Pseudo N)) (d : Dict N V) (group name : N) (b1 b2 : Bool) :
    Pseudo.deepLogPrior t = 0 ∧ Pseudo.getSamplers t = [] ∧ Pseudo.freeze d = (d, .error .AttributeError) ∧
    Pseudo.clone b1 b2 t = .error .AttributeError ∧ Pseudo.childActors t group = .error .TypeError ∧
    Pseudo.childActor t group name = .error .TypeError := by
  refine ⟨?_, rfl, rfl, rfl, rfl, rfl⟩
  refine Tree.ind (P := fun t => Pseudo.deepLogPrior t = 0) (Q := fun ts => Pseudo.deepLogPriorL ts = 0) ?_ ?_ ?_ t
  · intro a ts ih
    simp only [Pseudo.deepLogPrior, ih, add_zero]
  · rfl
  · intro t ts h1 h2
    simp only [Pseudo.deepLogPriorL, h1, h2, add_zero]

example : Pseudo.iterate ([("a", 1), ("b", 2), ("a", 3)].foldl (fun d p => Pseudo.setItem d p.1 p.2) ([] : Dict String Nat)) =
    [("a", 3), ("b", 2)] ∧ Pseudo.getItem ([("a", 3)] : Dict String Nat) "a" = .error .KeyError ∧
    Pseudo.deepLogPrior (Pseudo.breed "x" "g" (Pseudo.new "r" "g")).1 = 0 := by
  decide +kernel

/-! ## C198 -/

theorem simGroups_keys : ∀ (t : Tree (NSet N)) (d : Dict N (Model.Group N)) (k : N),
    k ∈ (simGroups t d).keys ↔ k ∈ d.keys ∨ ∃ a ∈ t.labels, a.name = k := by
  intro t
  refine Tree.ind
    (P := fun t => ∀ (d : Dict N (Model.Group N)) (k : N), k ∈ (simGroups t d).keys ↔ k ∈ d.keys ∨ ∃ a ∈ t.labels, a.name = k)
    (Q := fun ts => ∀ (d : Dict N (Model.Group N)) (k : N), k ∈ (simGroupsL ts d).keys ↔ k ∈ d.keys ∨ ∃ a ∈ Tree.labelsL ts, a.name = k)
    ?_ ?_ ?_ t
  · intro a ts ih d k
    simp only [simGroups]
    rw [ih, Dict.mem_keys_set]
    simp only [Tree.labels, List.mem_cons, exists_eq_or_imp]
    constructor
    · rintro ((rfl | h) | h)
      · exact .inr (.inl rfl)
      · exact .inl h
      · exact .inr (.inr h)
    · rintro (h | rfl | h)
      · exact .inl (.inr h)
      · exact .inl (.inl rfl)
      · exact .inr h
  · intro d k
    simp [simGroupsL, Tree.labelsL]
  · intro t ts h1 h2 d k
    simp only [simGroupsL]
    rw [h2, h1]
    simp only [Tree.labelsL, List.mem_append]
    constructor
    · rintro ((h | ⟨a, h, e⟩) | ⟨a, h, e⟩)
      · exact .inl h
      · exact .inr ⟨a, .inl h, e⟩
      · exact .inr ⟨a, .inr h, e⟩
    · rintro (h | ⟨a, h | h, e⟩)
      · exact .inl (.inl h)
      · exact .inl (.inr ⟨a, h, e⟩)
      · exact .inr ⟨a, h, e⟩

/-- **C198**: a simulation core has a group for every node set of its hierarchy, under its name, and for no other name
(KeyError); where names are unique the group has the nodes and the children of that node set. -/
theorem C198 (bn : BN N V C O) (t : Tree (NSet N)) (k : N) :
    ((∃ g, (SimCore.new bn t).get k = .ok g) ↔ ∃ a ∈ t.labels, a.name = k) ∧
    ((¬ ∃ a ∈ t.labels, a.name = k) → (SimCore.new bn t).get k = .error .KeyError) ∧
    ∀ g, (SimCore.new bn t).get k = .ok g → ∃ a ∈ t.labels, a.name = k ∧ g.name = k ∧ g.fixed = a.fixed ∧
      g.floating = a.floating ∧ g.exogenous = a.exo ∧ g.localA = a.localS ∧ g.sharedA = a.sharedS := by
  have hk := simGroups_keys t [] k
  simp only [Dict.keys_nil, List.not_mem_nil, false_or] at hk
  have hg : (SimCore.new bn t).get k = match (simGroups t []).get? k with | some g => .ok g | none => .error .KeyError := rfl
  refine ⟨?_, fun hn => ?_, fun g h => ?_⟩
  · rw [← hk, hg, Dict.mem_keys_iff_exists]
    cases h : (simGroups t []).get? k with
    | none => simp
    | some g => simp
  · rw [hg, (Dict.get?_eq_none_iff _ _).2 (fun h => hn (hk.1 h))]
  · rw [hg] at h
    cases hs : (simGroups t []).get? k with
    | none => rw [hs] at h; cases h
    | some g' =>
      rw [hs] at h
      cases h
      rcases simGroups_mem t [] hs with h | ⟨a, ha, ts, rfl, rfl⟩
      · cases h
      · exact ⟨a, ha, rfl, rfl, rfl, rfl, rfl, rfl, rfl⟩

/-- The groups of `sc49`. -/
example : (match sc49.get "agent" with | .ok g => g.fixed | .error _ => []) = ["x"] ∧
    (match sc49.get "nobody" with | .ok _ => none | .error e => some e) = some .KeyError := by
  decide +kernel

end Props.SimCore
