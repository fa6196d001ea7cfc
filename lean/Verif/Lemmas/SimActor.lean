import Verif.Lemmas.SimCore
import Verif.Lemmas.NodeSet

/-!
# Lemmas on actors
-/

namespace Model

set_option linter.unusedSectionVars false

open Py Spec Relation

variable {N V C O S K : Type} [DecidableEq N] [AddCommMonoid K]

/-- Looking up in dictionaries that agree entry by entry. -/
theorem forall2_get {α β : Type} {R : N × α → N × β → Prop} (hk : ∀ x y, R x y → y.1 = x.1) {d : Dict N α} {d' : Dict N β}
    (h : List.Forall₂ R d d') {k : N} {b : β} (hb : Dict.get? d' k = some b) : ∃ a, Dict.get? d k = some a ∧ R (k, a) (k, b) := by
  induction h with
  | nil => cases hb
  | @cons x y l1 l2 hxy _ ih =>
    obtain ⟨x1, x2⟩ := x
    obtain ⟨y1, y2⟩ := y
    have e : y1 = x1 := hk _ _ hxy
    subst e
    rw [Dict.get?_cons] at hb
    rw [Dict.get?_cons]
    split at hb
    · rename_i hh
      subst hh
      cases hb
      exact ⟨x2, by simp, hxy⟩
    · rename_i hh
      rw [if_neg hh]
      exact ih hb

namespace Actor

theorem readUpstream_get (toRead : List N) (pas : N → Option V) (x : N) :
    (readUpstream toRead pas).get? x = if x ∈ toRead then pas x else none := by
  have key : ∀ (l : List N) (acc : Dict N V),
      (l.foldl (fun up p => match pas p with | some v => up.set p v | none => up) acc).get? x =
        if x ∈ l then (pas x).or (acc.get? x) else acc.get? x := by
    intro l
    induction l with
    | nil => intro acc; simp
    | cons p l ih =>
      intro acc
      rw [List.foldl_cons, ih]
      cases hp : pas p with
      | none =>
        by_cases hx : x = p
        · subst hx
          simp [hp]
        · simp [hx]
      | some v =>
        simp only
        by_cases hx : x = p
        · subst hx
          rw [Dict.get?_set_self]
          simp [hp]
        · rw [Dict.get?_set_ne _ _ (Ne.symm hx)]
          simp [hx]
  refine (key toRead []).trans ?_
  simp [Dict.get?]

/-- The mapping an actor works on. -/
theorem readUpstream_eq (toRead : List N) (pas : N → Option V) :
    (readUpstream toRead pas).get? = fun x => if x ∈ toRead then pas x else none :=
  funext (readUpstream_get toRead pas)

/-- A frozen actor holds what its definition gives on the current values of its parents. -/
def Reflects (sem : Sem N V C O S (XR K)) (a : Actor N V C O S K) (pas : N → Option V) : Prop :=
  (∀ n f ps, a.loci = .dist n f ps → ∃ d, a.sampler = some (.dist d) ∧
    getDistribution sem f (fun p => if p ∈ a.loci.parents then pas p else none) = .ok d) ∧
  (a.loci.isDist = false → ∃ v s1 s2, a.sampler = some (.val v) ∧
    a.loci.render sem (fun p => if p ∈ a.loci.parents then pas p else none) s1 = (.ok v, s2))

theorem Reflects.congr {sem : Sem N V C O S (XR K)} {a : Actor N V C O S K} {pas pas' : N → Option V} (h : a.Reflects sem pas)
    (he : ∀ p ∈ a.loci.parents, pas p = pas' p) : a.Reflects sem pas' := by
  have e : (fun p => if p ∈ a.loci.parents then pas p else none) = fun p => if p ∈ a.loci.parents then pas' p else none := by
    funext p
    split
    · rename_i hp; exact he p hp
    · rfl
  unfold Reflects at *
  rwa [e] at h

/-- What an update changes. -/
theorem update_frame (sem : Sem N V C O S (XR K)) (a : Actor N V C O S K) (pas : N → Option V) (s : S) :
    (a.update sem pas s).1.field = a.field ∧ (a.update sem pas s).1.type = a.type ∧ (a.update sem pas s).1.loci = a.loci ∧
    (a.update sem pas s).1.toRead = a.toRead ∧ (a.update sem pas s).1.flow = a.flow := by
  unfold update
  simp only
  split
  · split <;> exact ⟨rfl, rfl, rfl, rfl, rfl⟩
  · split <;> exact ⟨rfl, rfl, rfl, rfl, rfl⟩

theorem update_error (sem : Sem N V C O S (XR K)) (a : Actor N V C O S K) (pas : N → Option V) (s : S) {e : Err}
    (h : (a.update sem pas s).2.2 = .error e) : (a.update sem pas s).1 = a := by
  unfold update at *
  simp only at *
  split at h
  · split at h
    · cases h
    · rfl
  · split at h
    · cases h
    · rfl

theorem update_reflects (sem : Sem N V C O S (XR K)) {a a' : Actor N V C O S K} {pas : N → Option V} {s s' : S}
    (hr : ∀ p, p ∈ a.toRead ↔ p ∈ a.loci.parents) (h : a.update sem pas s = (a', s', .ok ())) : a'.Reflects sem pas := by
  obtain ⟨-, -, hl, -, -⟩ := update_frame sem a pas s
  rw [h] at hl
  simp only at hl
  have e : (readUpstream a.toRead pas).get? = fun p => if p ∈ a.loci.parents then pas p else none := by
    rw [readUpstream_eq]
    funext p
    simp only [hr]
  unfold Reflects
  rw [hl]
  unfold update at h
  simp only [e] at h
  split at h
  · rename_i n f ps hloci
    split at h
    · rename_i d hd
      simp only [Prod.mk.injEq, and_true] at h
      obtain ⟨rfl, -⟩ := h
      refine ⟨fun n' f' ps' hh => ⟨d, rfl, ?_⟩, fun hh => ?_⟩
      · rw [hloci] at hh
        cases hh
        exact hd
      · rw [hloci] at hh; cases hh
    · simp at h
  · rename_i hno
    split at h
    · rename_i v s1 hv
      simp only [Prod.mk.injEq, and_true] at h
      obtain ⟨rfl, rfl⟩ := h
      exact ⟨fun n f ps hh => absurd hh (hno n f ps), fun _ => ⟨v, s, s1, rfl, hv⟩⟩
    · simp at h

end Actor

/-- What is known of an actor of the variable `k`. -/
structure ActorOk (bn : BN N V C O) (k : N) (a : Actor N V C O S K) : Prop where
  field : a.field = k
  loci : bn.loci.get? k = some a.loci
  reads : a.isFrozen = true → ∀ p, p ∈ a.toRead ↔ p ∈ a.loci.parents

theorem ActorOk.update {bn : BN N V C O} {k : N} {a : Actor N V C O S K} (h : ActorOk bn k a) (sem : Sem N V C O S (XR K))
    (pas : N → Option V) (s : S) : ActorOk bn k (a.update sem pas s).1 := by
  obtain ⟨h1, h2, h3, h4, -⟩ := Actor.update_frame sem a pas s
  refine ⟨h1.trans h.field, by rw [h3]; exact h.loci, ?_⟩
  intro hf
  rw [h3, h4]
  refine h.reads ?_
  unfold Actor.isFrozen at *
  rwa [h2] at hf

theorem compose_ok {bn : BN N V C O} {b : Blueprint N} {a : Actor N V C O S K} (h : b.compose bn = .ok a) :
    a.field = b.name ∧ bn.loci.get? b.name = some a.loci ∧ a.type = b.type ∧ a.toRead = b.toRead ∧ a.sampler = none := by
  unfold Blueprint.compose at h
  have key : ∀ {l : Loci N V C O}, bn.get b.name = .ok l → bn.loci.get? b.name = some l := by
    intro l hl
    exact get_eq_ok hl
  split at h
  · rename_i ht
    obtain ⟨fl, -, h⟩ := NSet.bind_ok.1 h
    obtain ⟨l, hl, h⟩ := NSet.bind_ok.1 h
    rw [NSet.pure_ok] at h
    subst h
    exact ⟨rfl, key hl, ht.symm, rfl, rfl⟩
  · obtain ⟨l, hl, h⟩ := NSet.bind_ok.1 h
    rw [NSet.pure_ok] at h
    subst h
    exact ⟨rfl, key hl, rfl, rfl, rfl⟩

namespace Core

theorem composeAll_get {bn : BN N V C O} : ∀ {d : Dict N (Blueprint N)} {d' : Dict N (Actor N V C O S K)},
    composeAll bn d = .ok d' → ∀ {k : N} {a : Actor N V C O S K}, d'.get? k = some a →
      ∃ b, d.get? k = some b ∧ b.compose bn = .ok a := by
  intro d
  unfold composeAll
  induction d with
  | nil =>
    intro d' h k a ha
    rw [List.mapM_nil, NSet.pure_ok] at h
    subst h
    cases ha
  | cons p d ih =>
    intro d' h k a ha
    rw [List.mapM_cons] at h
    obtain ⟨q, h1, h⟩ := NSet.bind_ok.1 h
    obtain ⟨r, h2, h⟩ := NSet.bind_ok.1 h
    rw [NSet.pure_ok] at h
    subst h
    obtain ⟨a0, h3, h1⟩ := NSet.bind_ok.1 h1
    rw [NSet.pure_ok] at h1
    subst h1
    obtain ⟨p1, p2⟩ := p
    rw [Dict.get?_cons] at ha
    rw [Dict.get?_cons]
    split at ha
    · rename_i hh
      cases ha
      rw [if_pos hh]
      exact ⟨p2, rfl, h3⟩
    · rename_i hh
      rw [if_neg hh]
      exact ih h2 ha

theorem freezeAll_ok (sem : Sem N V C O S (XR K)) (pas : N → Option V) :
    ∀ (d : Dict N (Actor N V C O S K)) (s : S) {d' : Dict N (Actor N V C O S K)} {s' : S},
      freezeAll sem pas d s = (.ok d', s') → List.Forall₂ (fun x y => y.1 = x.1 ∧
        (x.2.isFrozen = true → ∃ s1 s2, x.2.update sem pas s1 = (y.2, s2, .ok ())) ∧ (x.2.isFrozen = false → y.2 = x.2)) d d' := by
  intro d
  induction d with
  | nil =>
    intro s d' s' h
    simp only [freezeAll, Prod.mk.injEq, Except.ok.injEq] at h
    obtain ⟨rfl, -⟩ := h
    exact .nil
  | cons p r ih =>
    intro s d' s' h
    obtain ⟨k, a⟩ := p
    unfold freezeAll at h
    by_cases hf : a.isFrozen = true
    · rw [if_pos hf] at h
      rcases hu : a.update sem pas s with ⟨a', s1, _ | _⟩
      · rw [hu] at h; simp at h
      · rw [hu] at h
        simp only at h
        rcases hr : freezeAll sem pas r s1 with ⟨_ | r', s2⟩
        · rw [hr] at h; simp at h
        · rw [hr] at h
          simp only [Prod.mk.injEq, Except.ok.injEq] at h
          obtain ⟨rfl, rfl⟩ := h
          exact .cons ⟨rfl, fun _ => ⟨s, s1, hu⟩, fun hh => by simp [hf] at hh⟩ (ih s1 hr)
    · rw [if_neg hf] at h
      rcases hr : freezeAll sem pas r s with ⟨_ | r', s2⟩
      · rw [hr] at h; simp at h
      · rw [hr] at h
        simp only [Prod.mk.injEq, Except.ok.injEq] at h
        obtain ⟨rfl, rfl⟩ := h
        exact .cons ⟨rfl, fun hh => absurd hh hf, fun _ => rfl⟩ (ih s hr)

end Core

end Model
