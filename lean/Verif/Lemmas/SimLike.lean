import Verif.Lemmas.SimCore

/-!
# Hierarchies of cores that hold the same values behave alike
-/

namespace Model

set_option linter.unusedSectionVars false

open Py Spec

variable {N V C O S K : Type} [DecidableEq N] [AddCommMonoid K]

/-- Two cores of the same name and group with the same values and the same actors; their probabilities may differ. -/
structure Core.Same (c c' : Core N V C O S K) : Prop where
  nick : c.nick = c'.nick
  group : c.group = c'.group
  values : c.locus.get? = c'.locus.get?
  actors : c.actors = c'.actors
  childActors : c.childActors = c'.childActors

/-- Hierarchies of the same shape with the same names, groups, values and actors. -/
abbrev CoreTree.Like (t t' : CoreTree N V C O S K) : Prop := Tree.Rel Core.Same t t'

theorem chainGet_eq {d d' : Dict N V} {up up' : List (Dict N V)} (hd : d.get? = d'.get?) (h : chainGet up = chainGet up') :
    chainGet (d :: up) = chainGet (d' :: up') := by
  funext x
  rw [chainGet_cons, chainGet_cons, hd, h]

theorem chainMap_eq {up up' : List (Dict N V)} (h : chainGet up = chainGet up') : chainMap up = chainMap up' := by
  funext x
  unfold chainMap
  rw [h]

theorem Dict.keys_same {d d' : Dict N V} (h : d.get? = d'.get?) (x : N) : x ∈ d.keys ↔ x ∈ d'.keys := by
  rw [← Dict.get?_isSome_iff, h, Dict.get?_isSome_iff]

theorem Dict.set_same {d d' : Dict N V} (h : d.get? = d'.get?) (x : N) (v : V) : (d.set x v).get? = (d'.set x v).get? := by
  funext y
  rw [Dict.get?_set, Dict.get?_set, h]

/-- Outcomes that differ in related first components only. -/
def Alike {A B : Type} (R : A → A → Prop) (x y : A × B) : Prop := R x.1 y.1 ∧ x.2 = y.2

namespace Core

theorem Same.refl (c : Core N V C O S K) : Same c c := ⟨rfl, rfl, rfl, rfl, rfl⟩

theorem Same.symm {c c' : Core N V C O S K} (h : Same c c') : Same c' c :=
  ⟨h.nick.symm, h.group.symm, h.values.symm, h.actors.symm, h.childActors.symm⟩

theorem Same.trans {a b c : Core N V C O S K} (h : Same a b) (h' : Same b c) : Same a c :=
  ⟨h.nick.trans h'.nick, h.group.trans h'.group, h.values.trans h'.values, h.actors.trans h'.actors, h.childActors.trans h'.childActors⟩

theorem respond_like (sem : Sem N V C O S (XR K)) (bn : BN N V C O) {up up' : List (Dict N V)} (hup : chainGet up = chainGet up')
    (imp : Dict N V) {sh sh' : List N} (hsh : ∀ x, x ∈ sh ↔ x ∈ sh') : ∀ (ds : List N) (p : XR K) (c c' : Core N V C O S K) (s : S), Same c c' →
      Alike Same (respond sem bn up imp sh ds p c s) (respond sem bn up' imp sh' ds p c' s) := by
  intro ds
  induction ds with
  | nil => intro p c c' s h; exact ⟨h, rfl⟩
  | cons d ds ih =>
    intro p c c' s h
    have hev : ∀ (e e' : Core N V C O S K), Same e e' → chainMap (e.locus :: up) = chainMap (e'.locus :: up') :=
      fun e e' he => chainMap_eq (chainGet_eq he.values hup)
    simp only [respond]
    cases bn.get d with
    | error e => exact ⟨h, rfl⟩
    | ok l =>
      simp only
      cases imp.get? d with
      | some v =>
        have h1 : Same { c with locus := c.locus.set d v } { c' with locus := c'.locus.set d v } :=
          ⟨h.nick, h.group, Dict.set_same h.values d v, h.actors, h.childActors⟩
        have he := hev _ _ h1
        simp only at he ⊢
        rw [he]
        cases l.evaluate sem (chainMap (c'.locus.set d v :: up')) with
        | error e => exact ⟨h1, rfl⟩
        | ok q => exact ih _ _ _ _ h1
      | none =>
        simp only [hsh]
        split
        · rw [hev _ _ h]
          rcases l.render sem (chainMap (c'.locus :: up')) s with ⟨o, m⟩
          cases o with
          | error e => exact ⟨h, rfl⟩
          | ok v =>
            have h1 : Same (c.set d v) (c'.set d v) := ⟨h.nick, h.group, Dict.set_same h.values d v, h.actors, h.childActors⟩
            simp only
            rw [hev _ _ h1]
            cases l.evaluate sem (chainMap ((c'.set d v).locus :: up')) with
            | error e => exact ⟨h1, rfl⟩
            | ok q => exact ih _ _ _ _ h1
        · rw [hev _ _ h]
          cases l.evaluate sem (chainMap (c'.locus :: up')) with
          | error e => exact ⟨h, rfl⟩
          | ok q => exact ih _ _ _ _ h

theorem updateLocal_like (sem : Sem N V C O S (XR K)) {pas pas' : N → Option V} (hp : pas = pas') (sh : List N)
    {c c' : Core N V C O S K} (h : Same c c') (s : S) : Alike Same (c.updateLocal sem pas sh s) (c'.updateLocal sem pas' sh s) := by
  subst hp
  simp only [updateLocal, h.actors]
  cases c'.actors with
  | none => exact ⟨h, rfl⟩
  | some d => exact ⟨⟨h.nick, h.group, h.values, rfl, h.childActors⟩, rfl⟩

theorem updateShared_like (sem : Sem N V C O S (XR K)) {pas pas' : N → Option V} (hp : pas = pas') (sh : List N)
    {c c' : Core N V C O S K} (h : Same c c') (s : S) : Alike Same (c.updateShared sem pas sh s) (c'.updateShared sem pas' sh s) := by
  subst hp
  simp only [updateShared, h.childActors]
  cases c'.childActors with
  | none => exact ⟨h, rfl⟩
  | some d => exact ⟨⟨h.nick, h.group, h.values, h.actors, rfl⟩, rfl⟩

theorem setResponse_like (sem : Sem N V C O S (XR K)) (bn : BN N V C O) {up up' : List (Dict N V)} (hup : chainGet up = chainGet up')
    (imp : Dict N V) (sh : List N) {c c' : Core N V C O S K} (h : Same c c') (s : S) :
    Alike Same (c.setResponse sem bn up imp sh s) (c'.setResponse sem bn up' imp sh s) := by
  have h0 := respond_like sem bn hup imp (sh := sh.filter (· ∈ c.locus.keys)) (sh' := sh.filter (· ∈ c'.locus.keys))
    (fun x => by simp [Dict.keys_same h.values]) c'.group.fixed 0 c c' s h
  simp only [setResponse, h.group]
  rcases h1 : respond sem bn up imp (sh.filter (· ∈ c.locus.keys)) c'.group.fixed 0 c s with ⟨d, m, o⟩
  rcases h2 : respond sem bn up' imp (sh.filter (· ∈ c'.locus.keys)) c'.group.fixed 0 c' s with ⟨d', m', o'⟩
  rw [h1, h2] at h0
  obtain ⟨h3, h4⟩ := h0
  cases h4
  cases o with
  | error e => exact ⟨h3, rfl⟩
  | ok p =>
    have h5 : Same { d with logPrior := some p } { d' with logPrior := some p } :=
      ⟨h3.nick, h3.group, h3.values, h3.actors, h3.childActors⟩
    simp only
    have h6 := updateLocal_like sem (chainMap_eq (chainGet_eq h5.values hup)) sh h5 m
    simp only at h6
    rcases h7 : updateLocal sem (chainMap (d.locus :: up)) sh { d with logPrior := some p } m with ⟨e, n, o⟩
    rcases h8 : updateLocal sem (chainMap (d'.locus :: up')) sh { d' with logPrior := some p } m with ⟨e', n', o'⟩
    rw [h7, h8] at h6
    obtain ⟨h9, ha⟩ := h6
    cases ha
    cases o with
    | error e => exact ⟨h9, rfl⟩
    | ok u => exact updateShared_like sem (chainMap_eq (chainGet_eq h9.values hup)) sh h9 n

theorem finish_same {held held' : List N} (hh : held.isEmpty = held'.isEmpty) {c c' : Core N V C O S K} (h : Same c c') :
    Same (finish held c) (finish held' c') := by
  unfold finish
  rw [hh]
  split
  · exact h
  · exact ⟨h.nick, h.group, h.values, h.actors, h.childActors⟩

theorem readExo_up (sem : Sem N V C O S (XR K)) (noneV : V) (bn : BN N V C O) {up up' : List (Dict N V)}
    (h : chainGet up = chainGet up') : ∀ (ds : List N) (vs : Dict N V) (s : S),
    readExo sem noneV bn up ds vs s = readExo sem noneV bn up' ds vs s := by
  intro ds
  induction ds with
  | nil => intro vs s; rfl
  | cons d ds ih =>
    intro vs s
    simp only [readExo, h, ih]

theorem generate_up (sem : Sem N V C O S (XR K)) (noneV : V) (bn : BN N V C O) {up up' : List (Dict N V)}
    (h : chainGet up = chainGet up') (g : Group N) (nick : N) (exo : Dict N V) (s : S) :
    generate (K := K) sem noneV bn g nick up exo s = generate sem noneV bn g nick up' exo s := by
  unfold generate
  rw [readExo_up sem noneV bn h]

theorem putLocal_like (sem : Sem N V C O S (XR K)) (bn : BN N V C O) {up up' : List (Dict N V)} (hup : chainGet up = chainGet up')
    {c c' : Core N V C O S K} (h : Same c c') (s : S) : Alike Same (c.putLocal sem bn up s) (c'.putLocal sem bn up' s) := by
  simp only [putLocal, h.group, chainMap_eq (chainGet_eq h.values hup)]
  cases composeAll bn c'.group.localA with
  | error e => exact ⟨h, rfl⟩
  | ok d =>
    simp only
    rcases freezeAll sem (chainMap (c'.locus :: up')) d s with ⟨o, m⟩
    cases o with
    | error e => exact ⟨h, rfl⟩
    | ok d' => exact ⟨⟨h.nick, rfl, h.values, rfl, h.childActors⟩, rfl⟩

theorem putShared_like (sem : Sem N V C O S (XR K)) (bn : BN N V C O) (g : Group N) {up up' : List (Dict N V)} (hup : chainGet up = chainGet up')
    {c c' : Core N V C O S K} (h : Same c c') (s : S) : Alike Same (c.putShared sem bn g up s) (c'.putShared sem bn g up' s) := by
  simp only [putShared, h.childActors, chainMap_eq (chainGet_eq h.values hup)]
  cases composeAll bn g.sharedA with
  | error e => exact ⟨h, rfl⟩
  | ok d =>
    simp only
    rcases freezeAll sem (chainMap (c'.locus :: up')) d s with ⟨o, m⟩
    cases o with
    | error e => exact ⟨h, rfl⟩
    | ok d' => exact ⟨⟨h.nick, h.group, h.values, h.actors, rfl⟩, rfl⟩

end Core

namespace CoreTree

open Core

theorem Like.refl (t : CoreTree N V C O S K) : Like t t := by
  refine Tree.ind (P := fun t => Tree.Rel Same t t) (Q := fun ts => Tree.RelL Same ts ts) ?_ ?_ ?_ t
  · intro c ts h; exact ⟨Same.refl c, h⟩
  · trivial
  · intro t ts h1 h2; exact ⟨h1, h2⟩

theorem likeL_refl (ts : List (CoreTree N V C O S K)) : Tree.RelL Same ts ts := by
  induction ts with
  | nil => trivial
  | cons t ts ih => exact ⟨Like.refl t, ih⟩

theorem likeL_iff : ∀ {ts us : List (CoreTree N V C O S K)}, Tree.RelL Same ts us ↔ List.Forall₂ Like ts us := by
  intro ts
  induction ts with
  | nil =>
    intro us
    cases us with
    | nil => exact ⟨fun _ => .nil, fun _ => trivial⟩
    | cons u us => exact ⟨fun h => h.elim, fun h => by cases h⟩
  | cons t ts ih =>
    intro us
    cases us with
    | nil => exact ⟨fun h => h.elim, fun h => by cases h⟩
    | cons u us =>
      rw [List.forall₂_cons, ← ih]
      exact Iff.rfl

theorem Like.trans' : ∀ {t u v : CoreTree N V C O S K}, Like t u → Like u v → Like t v := by
  intro t
  refine Tree.ind (P := fun t => ∀ {u v : CoreTree N V C O S K}, Like t u → Like u v → Like t v)
    (Q := fun ts => ∀ {us vs : List (CoreTree N V C O S K)}, Tree.RelL Same ts us → Tree.RelL Same us vs → Tree.RelL Same ts vs) ?_ ?_ ?_ t
  · intro c ts ih u v h1 h2
    cases u; cases v
    exact ⟨h1.1.trans h2.1, ih h1.2 h2.2⟩
  · intro us vs h1 h2
    cases us with
    | nil => exact h2
    | cons u us => exact h1.elim
  · intro t ts ih1 ih2 us vs h1 h2
    cases us with
    | nil => exact h1.elim
    | cons u us =>
      cases vs with
      | nil => exact h2.elim
      | cons v vs => exact ⟨ih1 h1.1 h2.1, ih2 h1.2 h2.2⟩

theorem Like.symm' : ∀ {t u : CoreTree N V C O S K}, Like t u → Like u t := by
  intro t
  refine Tree.ind (P := fun t => ∀ {u : CoreTree N V C O S K}, Like t u → Like u t)
    (Q := fun ts => ∀ {us : List (CoreTree N V C O S K)}, Tree.RelL Same ts us → Tree.RelL Same us ts) ?_ ?_ ?_ t
  · intro c ts ih u h1
    cases u
    exact ⟨h1.1.symm, ih h1.2⟩
  · intro us h1
    cases us with
    | nil => trivial
    | cons u us => exact h1.elim
  · intro t ts ih1 ih2 us h1
    cases us with
    | nil => exact h1.elim
    | cons u us => exact ⟨ih1 h1.1, ih2 h1.2⟩

theorem Like.label {t u : CoreTree N V C O S K} (h : Like t u) : Same t.label u.label := by
  cases t; cases u; exact h.1

theorem Like.kids {t u : CoreTree N V C O S K} (h : Like t u) : Tree.RelL Same t.kids u.kids := by
  cases t; cases u; exact h.2

theorem setResponse_like (sem : Sem N V C O S (XR K)) (bn : BN N V C O) (imp : Dict N V) (sh : List N) :
    ∀ (t t' : CoreTree N V C O S K) (up up' : List (Dict N V)) (s : S), chainGet up = chainGet up' → Like t t' →
      Alike Like (setResponse sem bn imp sh up t s) (setResponse sem bn imp sh up' t' s) := by
  intro t
  refine Tree.ind (P := fun t => ∀ (t' : CoreTree N V C O S K) (up up' : List (Dict N V)) (s : S), chainGet up = chainGet up' → Like t t' →
      Alike Like (setResponse sem bn imp sh up t s) (setResponse sem bn imp sh up' t' s))
    (Q := fun ts => ∀ (ts' : List (CoreTree N V C O S K)) (up up' : List (Dict N V)) (s : S), chainGet up = chainGet up' → Tree.RelL Same ts ts' →
      Alike (Tree.RelL Same) (setResponseL sem bn imp sh up ts s) (setResponseL sem bn imp sh up' ts' s)) ?_ ?_ ?_ t
  · intro c ts ih t' up up' s hup h
    cases t' with
    | node c' ts' =>
      obtain ⟨hc, hts⟩ := h
      have h0 := Core.setResponse_like sem bn hup imp sh hc s
      simp only [setResponse]
      rcases h1 : Core.setResponse sem bn up imp sh c s with ⟨d, m, o⟩
      rcases h2 : Core.setResponse sem bn up' imp sh c' s with ⟨d', m', o'⟩
      rw [h1, h2] at h0
      obtain ⟨h3, h4⟩ := h0
      cases h4
      cases o with
      | error e => exact ⟨⟨h3, hts⟩, rfl⟩
      | ok u =>
        simp only
        have h5 := ih ts' (d.locus :: up) (d'.locus :: up') m (chainGet_eq h3.values hup) hts
        rcases h6 : setResponseL sem bn imp sh (d.locus :: up) ts m with ⟨us, n, o⟩
        rcases h7 : setResponseL sem bn imp sh (d'.locus :: up') ts' m with ⟨us', n', o'⟩
        rw [h6, h7] at h5
        obtain ⟨h8, h9⟩ := h5
        cases h9
        cases o with
        | error e => exact ⟨⟨h3, h8⟩, rfl⟩
        | ok u =>
          refine ⟨⟨finish_same ?_ h3, h8⟩, rfl⟩
          congr 1
          exact List.filter_congr (fun x _ => by simp [Dict.keys_same hc.values])
  · intro ts' up up' s hup h
    cases ts' with
    | nil => exact ⟨trivial, rfl⟩
    | cons u us => exact h.elim
  · intro t ts ih1 ih2 ts' up up' s hup h
    cases ts' with
    | nil => exact h.elim
    | cons t' ts' =>
      obtain ⟨ht, hts⟩ := h
      have h0 := ih1 t' up up' s hup ht
      simp only [setResponseL]
      rcases h1 : setResponse sem bn imp sh up t s with ⟨d, m, o⟩
      rcases h2 : setResponse sem bn imp sh up' t' s with ⟨d', m', o'⟩
      rw [h1, h2] at h0
      obtain ⟨h3, h4⟩ := h0
      cases h4
      cases o with
      | error e => exact ⟨⟨h3, hts⟩, rfl⟩
      | ok u =>
        simp only
        have h5 := ih2 ts' up up' m hup hts
        rcases h6 : setResponseL sem bn imp sh up ts m with ⟨us, n, o⟩
        rcases h7 : setResponseL sem bn imp sh up' ts' m with ⟨us', n', o'⟩
        rw [h6, h7] at h5
        obtain ⟨h8, h9⟩ := h5
        cases h9
        exact ⟨⟨h3, h8⟩, rfl⟩

theorem setResponseL_like (sem : Sem N V C O S (XR K)) (bn : BN N V C O) (imp : Dict N V) (sh : List N) :
    ∀ (ts ts' : List (CoreTree N V C O S K)) (up up' : List (Dict N V)) (s : S), chainGet up = chainGet up' → Tree.RelL Same ts ts' →
      Alike (Tree.RelL Same) (setResponseL sem bn imp sh up ts s) (setResponseL sem bn imp sh up' ts' s) := by
  intro ts
  induction ts with
  | nil =>
    intro ts' up up' s hup h
    cases ts' with
    | nil => exact ⟨trivial, rfl⟩
    | cons u us => exact h.elim
  | cons t ts ih =>
    intro ts' up up' s hup h
    cases ts' with
    | nil => exact h.elim
    | cons t' ts' =>
      obtain ⟨ht, hts⟩ := h
      have h0 := setResponse_like sem bn imp sh t t' up up' s hup ht
      simp only [setResponseL]
      rcases h1 : setResponse sem bn imp sh up t s with ⟨d, m, o⟩
      rcases h2 : setResponse sem bn imp sh up' t' s with ⟨d', m', o'⟩
      rw [h1, h2] at h0
      obtain ⟨h3, h4⟩ := h0
      cases h4
      cases o with
      | error e => exact ⟨⟨h3, hts⟩, rfl⟩
      | ok u =>
        have h5 := ih ts' up up' m hup hts
        exact ⟨⟨h3, h5.1⟩, h5.2⟩

theorem likeL_trans {ts us vs : List (CoreTree N V C O S K)} (h : Tree.RelL Same ts us) (h' : Tree.RelL Same us vs) :
    Tree.RelL Same ts vs := by
  rw [likeL_iff] at *
  induction h generalizing vs with
  | nil => exact h'
  | cons h _ ih =>
    cases h' with
    | cons h1 h2 => exact .cons (h.trans' h1) (ih h2)

theorem likeL_symm {ts us : List (CoreTree N V C O S K)} (h : Tree.RelL Same ts us) : Tree.RelL Same us ts := by
  rw [likeL_iff] at *
  induction h with
  | nil => exact .nil
  | cons h _ ih => exact .cons h.symm' ih

theorem impulse_like (sem : Sem N V C O S (XR K)) (bn : BN N V C O) (i : Impulse N V) {t t' : CoreTree N V C O S K}
    {up up' : List (Dict N V)} (s : S) (hup : chainGet up = chainGet up') (h : Like t t') :
    Alike Like (impulse sem bn up t i s) (impulse sem bn up' t' i s) := by
  unfold impulse
  cases shocks bn i with
  | error e => exact ⟨h, rfl⟩
  | ok r => exact setResponse_like sem bn _ _ t t' up up' s hup h

theorem likeL_nicks : ∀ {ts us : List (CoreTree N V C O S K)}, Tree.RelL Same ts us →
    ts.map (fun t => t.label.nick) = us.map (fun t => t.label.nick) := by
  intro ts us h
  rw [likeL_iff] at h
  induction h with
  | nil => rfl
  | cons h _ ih => simp only [List.map_cons, ih, h.label.nick]

theorem likeL_append {ts us ts' us' : List (CoreTree N V C O S K)} (h : Tree.RelL Same ts us) (h' : Tree.RelL Same ts' us') :
    Tree.RelL Same (ts ++ ts') (us ++ us') := by
  rw [likeL_iff] at *
  exact List.rel_append h h'

theorem breed_like (sem : Sem N V C O S (XR K)) (noneV : V) (sc : SimCore N V C O) (nick group : N) (exo : Dict N V)
    {t t' : CoreTree N V C O S K} {up up' : List (Dict N V)} (s : S) (hup : chainGet up = chainGet up') (h : Like t t') :
    Alike Like (breed sem noneV sc up t nick group exo s) (breed sem noneV sc up' t' nick group exo s) := by
  cases t with
  | node c ts =>
  cases t' with
  | node c' ts' =>
    obtain ⟨hc, hts⟩ := h
    simp only [breed, likeL_nicks hts, hc.group]
    split
    · exact ⟨⟨hc, hts⟩, rfl⟩
    split
    · exact ⟨⟨hc, hts⟩, rfl⟩
    cases sc.groups.get? group with
    | none => exact ⟨⟨hc, hts⟩, rfl⟩
    | some g =>
      simp only [Core.generate_up sem noneV sc.bn (chainGet_eq hc.values hup) g nick exo s]
      rcases Core.generate (K := K) sem noneV sc.bn g nick (c'.locus :: up') exo s with ⟨o, m⟩
      cases o with
      | error e => exact ⟨⟨hc, hts⟩, rfl⟩
      | ok d => exact ⟨⟨hc, likeL_append hts (likeL_refl _)⟩, rfl⟩

/-- Both have it or none. -/
theorem child_like (k : N) : ∀ {ts us : List (CoreTree N V C O S K)}, Tree.RelL Same ts us →
    (child k ts = none ∧ child k us = none) ∨ ∃ t u, child k ts = some t ∧ child k us = some u ∧ Like t u := by
  intro ts us h
  rw [likeL_iff] at h
  induction h with
  | nil => exact .inl ⟨rfl, rfl⟩
  | cons h _ ih =>
    simp only [child, h.label.nick]
    split
    · exact .inr ⟨_, _, rfl, rfl, h⟩
    · exact ih

theorem removeChild_like (k : N) {t t' : CoreTree N V C O S K} (h : Like t t') : Like (removeChild t k) (removeChild t' k) := by
  cases t with
  | node c ts =>
  cases t' with
  | node c' ts' =>
    obtain ⟨hc, hts⟩ := h
    refine ⟨hc, ?_⟩
    rw [likeL_iff] at *
    induction hts with
    | nil => exact .nil
    | cons h _ ih =>
      simp only [List.filter_cons, h.label.nick]
      split
      · exact .cons h ih
      · exact ih

theorem localActors_like (sem : Sem N V C O S (XR K)) (bn : BN N V C O) {t t' : CoreTree N V C O S K}
    {up up' : List (Dict N V)} (s : S) (hup : chainGet up = chainGet up') (h : Like t t') :
    Alike Like (localActors sem bn up t s) (localActors sem bn up' t' s) := by
  cases t with
  | node c ts =>
  cases t' with
  | node c' ts' =>
    obtain ⟨hc, hts⟩ := h
    simp only [localActors, hc.actors]
    cases c'.actors with
    | some d => exact ⟨⟨hc, hts⟩, rfl⟩
    | none =>
      have h0 := Core.putLocal_like sem bn hup hc s
      exact ⟨⟨h0.1, hts⟩, h0.2⟩

theorem sharedActors_like (sem : Sem N V C O S (XR K)) (bn : BN N V C O) (k : N) {t t' : CoreTree N V C O S K}
    {up up' : List (Dict N V)} (s : S) (hup : chainGet up = chainGet up') (h : Like t t') :
    Alike Like (sharedActors sem bn k up t s) (sharedActors sem bn k up' t' s) := by
  cases t with
  | node c ts =>
  cases t' with
  | node c' ts' =>
    obtain ⟨hc, hts⟩ := h
    simp only [sharedActors, hc.childActors]
    rcases child_like k hts with ⟨h1, h2⟩ | ⟨u, u', h1, h2, hu⟩
    · rw [h1, h2]; exact ⟨⟨hc, hts⟩, rfl⟩
    · rw [h1, h2]
      simp only [hu.label.group]
      cases (c'.childActors.getD []).get? u'.label.group.name with
      | some d => exact ⟨⟨hc, hts⟩, rfl⟩
      | none =>
        have h0 := Core.putShared_like sem bn u'.label.group hup hc s
        exact ⟨⟨h0.1, hts⟩, h0.2⟩

theorem makeSampler_same (sem : Sem N V C O S (XR K)) {ch ch' : List (Dict N V)} (h : chainGet ch = chainGet ch')
    (d : Dict N (Actor N V C O S K)) (k : N) (s : S) : makeSampler sem ch d k s = makeSampler sem ch' d k s := by
  unfold makeSampler
  rw [chainMap_eq h]

theorem localSampler_like (sem : Sem N V C O S (XR K)) (bn : BN N V C O) (k : N) {t t' : CoreTree N V C O S K}
    {up up' : List (Dict N V)} (s : S) (hup : chainGet up = chainGet up') (h : Like t t') :
    Alike Like (localSampler sem bn k up t s) (localSampler sem bn k up' t' s) := by
  have h0 := localActors_like sem bn s hup h
  simp only [localSampler]
  rcases h1 : localActors sem bn up t s with ⟨⟨c, ts⟩, m, o⟩
  rcases h2 : localActors sem bn up' t' s with ⟨⟨c', ts'⟩, m', o'⟩
  rw [h1, h2] at h0
  obtain ⟨⟨hc, hts⟩, h4⟩ := h0
  cases h4
  cases o with
  | error e => exact ⟨⟨hc, hts⟩, rfl⟩
  | ok u =>
    simp only [hc.actors, makeSampler_same sem (chainGet_eq hc.values hup)]
    exact ⟨⟨⟨hc.nick, hc.group, hc.values, rfl, hc.childActors⟩, hts⟩, rfl⟩

theorem sharedSampler_like (sem : Sem N V C O S (XR K)) (bn : BN N V C O) (nick k : N) {t t' : CoreTree N V C O S K}
    {up up' : List (Dict N V)} (s : S) (hup : chainGet up = chainGet up') (h : Like t t') :
    Alike Like (sharedSampler sem bn nick k up t s) (sharedSampler sem bn nick k up' t' s) := by
  have h0 := sharedActors_like sem bn nick s hup h
  simp only [sharedSampler]
  rcases h1 : sharedActors sem bn nick up t s with ⟨⟨c, ts⟩, m, o⟩
  rcases h2 : sharedActors sem bn nick up' t' s with ⟨⟨c', ts'⟩, m', o'⟩
  rw [h1, h2] at h0
  obtain ⟨⟨hc, hts⟩, h4⟩ := h0
  cases h4
  cases o with
  | error e => exact ⟨⟨hc, hts⟩, rfl⟩
  | ok u =>
    rcases child_like nick hts with ⟨h1, h2⟩ | ⟨u, u', h1, h2, hu⟩
    · simp only [h1, h2]; exact ⟨⟨hc, hts⟩, rfl⟩
    · simp only [h1, h2, hu.label.group, hc.childActors,
        makeSampler_same sem (chainGet_eq hu.label.values (chainGet_eq hc.values hup))]
      exact ⟨⟨⟨hc.nick, hc.group, hc.values, hc.actors, rfl⟩, hts⟩, rfl⟩

theorem onChild_like {α : Type} (k : N) {f f' : CoreTree N V C O S K → CoreTree N V C O S K × α}
    (hf : ∀ t t', Like t t' → Alike Like (f t) (f' t')) : ∀ {ts us : List (CoreTree N V C O S K)}, Tree.RelL Same ts us →
    (onChild k f ts = none ∧ onChild k f' us = none) ∨
      ∃ r r', onChild k f ts = some r ∧ onChild k f' us = some r' ∧ Alike (Tree.RelL Same) r r' := by
  intro ts us h
  have h' := h
  rw [likeL_iff] at h
  induction h with
  | nil => exact .inl ⟨rfl, rfl⟩
  | cons h hr ih =>
    simp only [onChild, h.label.nick]
    split
    · have h1 := hf _ _ h
      exact .inr ⟨_, _, rfl, rfl, ⟨h1.1, h'.2⟩, h1.2⟩
    · rcases ih h'.2 with ⟨h1, h2⟩ | ⟨⟨us, a⟩, ⟨us', a'⟩, h1, h2, h3, h4⟩
      · rw [h1, h2]; exact .inl ⟨rfl, rfl⟩
      · rw [h1, h2]; exact .inr ⟨_, _, rfl, rfl, ⟨h, h3⟩, h4⟩

theorem onPath_like {α : Type} {f f' : List (Dict N V) → CoreTree N V C O S K → CoreTree N V C O S K × α}
    (hf : ∀ up up' t t', chainGet up = chainGet up' → Like t t' → Alike Like (f up t) (f' up' t')) :
    ∀ (p : List N) (up up' : List (Dict N V)) (t t' : CoreTree N V C O S K), chainGet up = chainGet up' → Like t t' →
    (onPath f p up t = none ∧ onPath f' p up' t' = none) ∨
      ∃ r r', onPath f p up t = some r ∧ onPath f' p up' t' = some r' ∧ Alike Like r r' := by
  intro p
  induction p with
  | nil => intro up up' t t' hup h; exact .inr ⟨_, _, rfl, rfl, hf up up' t t' hup h⟩
  | cons k ks ih =>
    intro up up' t t' hup h
    cases t with
    | node c ts =>
    cases t' with
    | node c' ts' =>
      obtain ⟨hc, hts⟩ := h
      simp only [onPath]
      rcases child_like k hts with ⟨h1, h2⟩ | ⟨u, u', h1, h2, hu⟩
      · rw [h1, h2]; exact .inl ⟨rfl, rfl⟩
      · rw [h1, h2]
        simp only
        rcases ih (c.locus :: up) (c'.locus :: up') u u' (chainGet_eq hc.values hup) hu with ⟨h3, h4⟩ | ⟨⟨v, a⟩, ⟨v', a'⟩, h3, h4, h5, h6⟩
        · rw [h3, h4]; exact .inl ⟨rfl, rfl⟩
        · rw [h3, h4]
          simp only
          rcases onChild_like k (f := fun _ => (v, a)) (f' := fun _ => (v', a')) (fun _ _ _ => ⟨h5, h6⟩) hts with
            ⟨h7, h8⟩ | ⟨⟨us, b⟩, ⟨us', b'⟩, h7, h8, h9, h10⟩
          · rw [h7, h8]; exact .inl ⟨rfl, rfl⟩
          · rw [h7, h8]; exact .inr ⟨_, _, rfl, rfl, ⟨hc, h9⟩, h10⟩

/-- Every operation does the same to hierarchies that hold the same. -/
theorem step_like (sem : Sem N V C O S (XR K)) (noneV : V) (sc : SimCore N V C O) {t t' : CoreTree N V C O S K} (h : Like t t')
    (s : S) (o : Op N V) : Alike Like (step sem noneV sc t s o) (step sem noneV sc t' s o) := by
  cases o with
  | breed p nick g exo =>
    simp only [step]
    rcases onPath_like (f := fun up u => breed sem noneV sc up u nick g exo s) (f' := fun up u => breed sem noneV sc up u nick g exo s)
      (fun up up' t t' hup h => breed_like sem noneV sc nick g exo s hup h) p [] [] t t' rfl h with
      ⟨h1, h2⟩ | ⟨⟨u, m, r⟩, ⟨u', m', r'⟩, h1, h2, h3, h4⟩
    · rw [h1, h2]; exact ⟨h, rfl⟩
    · rw [h1, h2]; exact ⟨h3, h4⟩
  | remove p nick =>
    simp only [step]
    rcases onPath_like (f := fun _ u => (removeChild u nick, ())) (f' := fun _ u => (removeChild u nick, ()))
      (fun up up' t t' hup h => ⟨removeChild_like nick h, rfl⟩) p [] [] t t' rfl h with
      ⟨h1, h2⟩ | ⟨⟨u, r⟩, ⟨u', r'⟩, h1, h2, h3, h4⟩
    · rw [h1, h2]; exact ⟨h, rfl⟩
    · rw [h1, h2]; exact ⟨h3, rfl⟩
  | impulse p i =>
    simp only [step]
    rcases onPath_like (f := fun up u => impulse sem sc.bn up u i s) (f' := fun up u => impulse sem sc.bn up u i s)
      (fun up up' t t' hup h => impulse_like sem sc.bn i s hup h) p [] [] t t' rfl h with
      ⟨h1, h2⟩ | ⟨⟨u, m, r⟩, ⟨u', m', r'⟩, h1, h2, h3, h4⟩
    · rw [h1, h2]; exact ⟨h, rfl⟩
    · rw [h1, h2]; exact ⟨h3, h4⟩
  | localActors p =>
    simp only [step]
    rcases onPath_like (f := fun up u => localActors sem sc.bn up u s) (f' := fun up u => localActors sem sc.bn up u s)
      (fun up up' t t' hup h => localActors_like sem sc.bn s hup h) p [] [] t t' rfl h with
      ⟨h1, h2⟩ | ⟨⟨u, m, r⟩, ⟨u', m', r'⟩, h1, h2, h3, h4⟩
    · rw [h1, h2]; exact ⟨h, rfl⟩
    · rw [h1, h2]; exact ⟨h3, h4⟩
  | sharedActors p nick =>
    simp only [step]
    rcases onPath_like (f := fun up u => sharedActors sem sc.bn nick up u s) (f' := fun up u => sharedActors sem sc.bn nick up u s)
      (fun up up' t t' hup h => sharedActors_like sem sc.bn nick s hup h) p [] [] t t' rfl h with
      ⟨h1, h2⟩ | ⟨⟨u, m, r⟩, ⟨u', m', r'⟩, h1, h2, h3, h4⟩
    · rw [h1, h2]; exact ⟨h, rfl⟩
    · rw [h1, h2]; exact ⟨h3, h4⟩
  | localSampler p k =>
    simp only [step]
    rcases onPath_like (f := fun up u => localSampler sem sc.bn k up u s) (f' := fun up u => localSampler sem sc.bn k up u s)
      (fun up up' t t' hup h => localSampler_like sem sc.bn k s hup h) p [] [] t t' rfl h with
      ⟨h1, h2⟩ | ⟨⟨u, m, r⟩, ⟨u', m', r'⟩, h1, h2, h3, h4⟩
    · rw [h1, h2]; exact ⟨h, rfl⟩
    · rw [h1, h2]; exact ⟨h3, h4⟩
  | sharedSampler p nick k =>
    simp only [step]
    rcases onPath_like (f := fun up u => sharedSampler sem sc.bn nick k up u s) (f' := fun up u => sharedSampler sem sc.bn nick k up u s)
      (fun up up' t t' hup h => sharedSampler_like sem sc.bn nick k s hup h) p [] [] t t' rfl h with
      ⟨h1, h2⟩ | ⟨⟨u, m, r⟩, ⟨u', m', r'⟩, h1, h2, h3, h4⟩
    · rw [h1, h2]; exact ⟨h, rfl⟩
    · rw [h1, h2]; exact ⟨h3, h4⟩

end CoreTree

end Model
