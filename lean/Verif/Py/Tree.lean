import Mathlib.Data.List.Basic

/-!
# Finite trees

Hierarchies of node sets.  The children of a node are kept in insertion order.
-/

namespace Py

/-- A labelled tree. -/
inductive Tree (α : Type)
  | node (a : α) (kids : List (Tree α))

namespace Tree

variable {α β : Type}

/-- The label of the root. -/
def label : Tree α → α
  | .node a _ => a

/-- The children of the root. -/
def kids : Tree α → List (Tree α)
  | .node _ ts => ts

mutual
/-- Equality of trees is decidable. -/
def decEq [DecidableEq α] : (s t : Tree α) → Decidable (s = t)
  | .node a ts, .node b us =>
    match decEq' ts us with
    | isTrue h => if h' : a = b then isTrue (by rw [h, h']) else isFalse (by rintro ⟨⟩; exact h' rfl)
    | isFalse h => isFalse (by rintro ⟨⟩; exact h rfl)
/-- In a list of children. -/
def decEq' [DecidableEq α] : (s t : List (Tree α)) → Decidable (s = t)
  | [], [] => isTrue rfl
  | [], _ :: _ => isFalse (by rintro ⟨⟩)
  | _ :: _, [] => isFalse (by rintro ⟨⟩)
  | s :: ss, t :: ts =>
    match decEq s t with
    | isTrue h =>
      match decEq' ss ts with
      | isTrue h' => isTrue (by rw [h, h'])
      | isFalse h' => isFalse (by rintro ⟨⟩; exact h' rfl)
    | isFalse h => isFalse (by rintro ⟨⟩; exact h rfl)
end

instance [DecidableEq α] : DecidableEq (Tree α) := decEq

mutual
/-- All labels, a node before its descendants. -/
def labels : Tree α → List α
  | .node a ts => a :: labelsL ts
/-- Of a list of trees. -/
def labelsL : List (Tree α) → List α
  | [] => []
  | t :: ts => labels t ++ labelsL ts
end

mutual
/-- Change every label. -/
def map (f : α → β) : Tree α → Tree β
  | .node a ts => .node (f a) (mapL f ts)
/-- In a list of trees. -/
def mapL (f : α → β) : List (Tree α) → List (Tree β)
  | [] => []
  | t :: ts => map f t :: mapL f ts
end

mutual
/-- Induction over a tree and its lists of children. -/
theorem ind {P : Tree α → Prop} {Q : List (Tree α) → Prop} (h1 : ∀ a ts, Q ts → P (.node a ts)) (h2 : Q [])
    (h3 : ∀ t ts, P t → Q ts → Q (t :: ts)) : ∀ t, P t
  | .node a ts => h1 a ts (indL h1 h2 h3 ts)
/-- The same for lists. -/
theorem indL {P : Tree α → Prop} {Q : List (Tree α) → Prop} (h1 : ∀ a ts, Q ts → P (.node a ts)) (h2 : Q [])
    (h3 : ∀ t ts, P t → Q ts → Q (t :: ts)) : ∀ ts, Q ts
  | [] => h2
  | t :: ts => h3 t ts (ind h1 h2 h3 t) (indL h1 h2 h3 ts)
end

mutual
/-- Two trees of the same shape whose labels are related one by one. -/
def Rel (R : α → β → Prop) : Tree α → Tree β → Prop
  | .node a ts, .node b us => R a b ∧ RelL R ts us
/-- The same for lists of trees. -/
def RelL (R : α → β → Prop) : List (Tree α) → List (Tree β) → Prop
  | [], [] => True
  | t :: ts, u :: us => Rel R t u ∧ RelL R ts us
  | [], _ :: _ => False
  | _ :: _, [] => False
end

theorem Rel.refl {R : α → α → Prop} (h : ∀ a, R a a) : ∀ t : Tree α, Rel R t t :=
  ind (Q := fun ts => RelL R ts ts) (fun a _ hts => ⟨h a, hts⟩) trivial (fun _ _ h1 h2 => ⟨h1, h2⟩)

theorem RelL.refl {R : α → α → Prop} (h : ∀ a, R a a) : ∀ ts : List (Tree α), RelL R ts ts
  | [] => trivial
  | t :: ts => ⟨Rel.refl h t, RelL.refl h ts⟩

theorem RelL.append {R : α → β → Prop} : ∀ {ts us : List (Tree α)} {ts' us' : List (Tree β)}, RelL R ts ts' →
    RelL R us us' → RelL R (ts ++ us) (ts' ++ us')
  | [], _, [], _, _, h => h
  | _ :: _, _, _ :: _, _, ⟨h1, h2⟩, h => ⟨h1, RelL.append h2 h⟩
  | [], _, _ :: _, _, h, _ => h.elim
  | _ :: _, _, [], _, h, _ => h.elim

section
variable {γ : Type} {R : α → β → Prop} {S : β → γ → Prop} {T : α → γ → Prop}

theorem Rel.trans (h : ∀ a b c, R a b → S b c → T a c) : ∀ {t : Tree α} {u : Tree β} {v : Tree γ},
    Rel R t u → Rel S u v → Rel T t v := by
  intro t
  refine ind (P := fun t => ∀ {u : Tree β} {v : Tree γ}, Rel R t u → Rel S u v → Rel T t v)
    (Q := fun ts => ∀ {us : List (Tree β)} {vs : List (Tree γ)}, RelL R ts us → RelL S us vs → RelL T ts vs)
    ?_ ?_ ?_ t
  · rintro a ts ih ⟨b, us⟩ ⟨c, vs⟩ ⟨h1, h2⟩ ⟨h3, h4⟩
    exact ⟨h a b c h1 h3, ih h2 h4⟩
  · rintro (_ | ⟨u, us⟩) (_ | ⟨v, vs⟩) h1 h2
    · trivial
    · exact h2.elim
    · exact h1.elim
    · exact h1.elim
  · rintro t ts ih1 ih2 (_ | ⟨u, us⟩) (_ | ⟨v, vs⟩) h1 h2
    · exact h1.elim
    · exact h1.elim
    · exact h2.elim
    · exact ⟨ih1 h1.1 h2.1, ih2 h1.2 h2.2⟩

theorem RelL.trans (h : ∀ a b c, R a b → S b c → T a c) : ∀ {t : List (Tree α)} {u : List (Tree β)}
    {v : List (Tree γ)}, RelL R t u → RelL S u v → RelL T t v
  | [], [], [], _, _ => trivial
  | _ :: _, _ :: _, _ :: _, h1, h2 => ⟨Rel.trans h h1.1 h2.1, RelL.trans h h1.2 h2.2⟩
  | [], [], _ :: _, _, h => h.elim
  | [], _ :: _, _, h, _ => h.elim
  | _ :: _, [], _, h, _ => h.elim
  | _ :: _, _ :: _, [], _, h => h.elim
end

/-- Every label on the right has its partner on the left. -/
theorem Rel.right {R : α → β → Prop} : ∀ {t : Tree α} {u : Tree β}, Rel R t u → ∀ b ∈ u.labels, ∃ a ∈ t.labels, R a b := by
  intro t
  refine ind (P := fun t => ∀ {u : Tree β}, Rel R t u → ∀ b ∈ u.labels, ∃ a ∈ t.labels, R a b)
    (Q := fun ts => ∀ {us : List (Tree β)}, RelL R ts us → ∀ b ∈ labelsL us, ∃ a ∈ labelsL ts, R a b) ?_ ?_ ?_ t
  · rintro a ts ih ⟨b, us⟩ ⟨h1, h2⟩ x hx
    rcases List.mem_cons.1 hx with rfl | hx
    · exact ⟨a, by simp [labels], h1⟩
    · obtain ⟨y, hy, hxy⟩ := ih h2 x hx
      exact ⟨y, by simp [labels, hy], hxy⟩
  · rintro (_ | ⟨u, us⟩) h x hx
    · cases hx
    · exact h.elim
  · rintro t ts ih1 ih2 (_ | ⟨u, us⟩) h x hx
    · exact h.elim
    · rcases List.mem_append.1 hx with hx | hx
      · obtain ⟨y, hy, hxy⟩ := ih1 h.1 x hx
        exact ⟨y, by simp [labelsL, hy], hxy⟩
      · obtain ⟨y, hy, hxy⟩ := ih2 h.2 x hx
        exact ⟨y, by simp [labelsL, hy], hxy⟩

/-- Every label on the left has its partner on the right. -/
theorem Rel.left {R : α → β → Prop} : ∀ {t : Tree α} {u : Tree β}, Rel R t u → ∀ a ∈ t.labels, ∃ b ∈ u.labels, R a b := by
  intro t
  refine ind (P := fun t => ∀ {u : Tree β}, Rel R t u → ∀ b ∈ t.labels, ∃ a ∈ u.labels, R b a)
    (Q := fun ts => ∀ {us : List (Tree β)}, RelL R ts us → ∀ b ∈ labelsL ts, ∃ a ∈ labelsL us, R b a) ?_ ?_ ?_ t
  · rintro a ts ih ⟨b, us⟩ ⟨h1, h2⟩ x hx
    rcases List.mem_cons.1 hx with rfl | hx
    · exact ⟨b, by simp [labels], h1⟩
    · obtain ⟨y, hy, hxy⟩ := ih h2 x hx
      exact ⟨y, by simp [labels, hy], hxy⟩
  · rintro us h x hx
    cases hx
  · rintro t ts ih1 ih2 (_ | ⟨u, us⟩) h x hx
    · exact h.elim
    · rcases List.mem_append.1 hx with hx | hx
      · obtain ⟨y, hy, hxy⟩ := ih1 h.1 x hx
        exact ⟨y, by simp [labelsL, hy], hxy⟩
      · obtain ⟨y, hy, hxy⟩ := ih2 h.2 x hx
        exact ⟨y, by simp [labelsL, hy], hxy⟩

/-- What related labels share makes the same tree. -/
theorem Rel.map_eq {γ : Type} {R : α → β → Prop} {f : α → γ} {g : β → γ} (hR : ∀ a b, R a b → g b = f a) :
    ∀ {t : Tree α} {u : Tree β}, Rel R t u → u.map g = t.map f := by
  intro t
  refine ind (P := fun t => ∀ {u : Tree β}, Rel R t u → u.map g = t.map f)
    (Q := fun ts => ∀ {us : List (Tree β)}, RelL R ts us → mapL g us = mapL f ts) ?_ ?_ ?_ t
  · rintro a ts ih ⟨b, us⟩ ⟨h1, h2⟩
    simp only [map, hR a b h1, ih h2]
  · rintro (_ | ⟨u, us⟩) h
    · rfl
    · exact h.elim
  · rintro t ts ih1 ih2 (_ | ⟨u, us⟩) h
    · exact h.elim
    · simp only [mapL, ih1 h.1, ih2 h.2]

mutual
/-- `l` lists the labels from the root down to some node. -/
def Path : Tree α → List α → Prop
  | .node a ts, l => l = [a] ∨ ∃ l', l = a :: l' ∧ PathL ts l'
/-- Through one of the trees. -/
def PathL : List (Tree α) → List α → Prop
  | [], _ => False
  | t :: ts, l => Path t l ∨ PathL ts l
end

mutual
/-- No node has two children. -/
def Chain : Tree α → Prop
  | .node _ ts => ChainL ts
/-- At most one tree. -/
def ChainL : List (Tree α) → Prop
  | [] => True
  | t :: ts => Chain t ∧ ts = []
end

theorem Rel.imp {R S : α → β → Prop} (hRS : ∀ a b, R a b → S a b) : ∀ {t : Tree α} {u : Tree β}, Rel R t u → Rel S t u := by
  intro t
  refine ind (P := fun t => ∀ {u : Tree β}, Rel R t u → Rel S t u) (Q := fun ts => ∀ {us : List (Tree β)}, RelL R ts us → RelL S ts us)
    ?_ ?_ ?_ t
  · rintro a ts ih ⟨b, us⟩ ⟨h1, h2⟩
    exact ⟨hRS a b h1, ih h2⟩
  · rintro (_ | ⟨u, us⟩) h
    · trivial
    · exact h.elim
  · rintro t ts ih1 ih2 (_ | ⟨u, us⟩) h
    · exact h.elim
    · exact ⟨ih1 h.1, ih2 h.2⟩

theorem Chain.rel {R : α → β → Prop} : ∀ {t : Tree α} {u : Tree β}, Chain t → Rel R t u → Chain u := by
  intro t
  refine ind (P := fun t => ∀ {u : Tree β}, Chain t → Rel R t u → Chain u)
    (Q := fun ts => ∀ {us : List (Tree β)}, ChainL ts → RelL R ts us → ChainL us) ?_ ?_ ?_ t
  · rintro a ts ih ⟨b, us⟩ h ⟨-, h2⟩
    exact ih h h2
  · rintro (_ | ⟨u, us⟩) _ h
    · trivial
    · exact h.elim
  · rintro t ts ih1 _ (_ | ⟨u, us⟩) hc h
    · exact h.elim
    · obtain ⟨hc, rfl⟩ := hc
      refine ⟨ih1 hc h.1, ?_⟩
      cases us with
      | nil => rfl
      | cons v vs => exact h.2.elim

/-- The same path in a related tree. -/
theorem Rel.path {R : α → β → Prop} : ∀ {t : Tree α} {u : Tree β}, Rel R t u → ∀ l, Path t l →
    ∃ l', Path u l' ∧ List.Forall₂ R l l' := by
  intro t
  refine ind (P := fun t => ∀ {u : Tree β}, Rel R t u → ∀ l, Path t l → ∃ l', Path u l' ∧ List.Forall₂ R l l')
    (Q := fun ts => ∀ {us : List (Tree β)}, RelL R ts us → ∀ l, PathL ts l → ∃ l', PathL us l' ∧ List.Forall₂ R l l') ?_ ?_ ?_ t
  · rintro a ts ih ⟨b, us⟩ ⟨h1, h2⟩ l (rfl | ⟨l', rfl, h⟩)
    · exact ⟨[b], .inl rfl, .cons h1 .nil⟩
    · obtain ⟨l'', h3, h4⟩ := ih h2 l' h
      exact ⟨b :: l'', .inr ⟨l'', rfl, h3⟩, .cons h1 h4⟩
  · rintro us _ l h
    exact h.elim
  · rintro t ts ih1 ih2 (_ | ⟨u, us⟩) h l hl
    · exact h.elim
    · rcases hl with hl | hl
      · obtain ⟨l', h3, h4⟩ := ih1 h.1 l hl
        exact ⟨l', .inl h3, h4⟩
      · obtain ⟨l', h3, h4⟩ := ih2 h.2 l hl
        exact ⟨l', .inr h3, h4⟩

end Tree

end Py
