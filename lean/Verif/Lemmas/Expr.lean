import Verif.Spec.Expr
import Verif.Model.Loci

/-!
# Lemmas about expressions, `ast.walk` and call completion
-/

namespace Model

set_option linter.unusedSectionVars false

open Py Spec

variable {N V C O S L : Type}

/-! ## Names and called names -/

mutual
theorem Expr.mem_called (f : N) : (e : Expr N C O) → (f ∈ e.called ↔ Calls e f)
  | .const c => by
    simp only [Expr.called, List.not_mem_nil, false_iff]
    rintro ⟨as, ks, h⟩; cases h
  | .name x => by
    simp only [Expr.called, List.not_mem_nil, false_iff]
    rintro ⟨as, ks, h⟩; cases h
  | .op o as => by
    simp only [Expr.called]
    rw [Args.mem_called f as]
    constructor
    · rintro ⟨e, he, bs, ks, h⟩; exact ⟨bs, ks, .operand he h⟩
    · rintro ⟨bs, ks, h⟩
      cases h with
      | operand he h => exact ⟨_, he, bs, ks, h⟩
  | .call g as ks => by
    simp only [Expr.called, List.mem_cons, List.mem_append]
    rw [Args.mem_called f as, Kws.mem_called f ks]
    constructor
    · rintro (rfl | ⟨e, he, bs, js, h⟩ | ⟨k, e, he, bs, js, h⟩)
      · exact ⟨as, ks, .refl _⟩
      · exact ⟨bs, js, .argument he h⟩
      · exact ⟨bs, js, .keyword he h⟩
    · rintro ⟨bs, js, h⟩
      cases h with
      | refl => exact Or.inl rfl
      | argument he h => exact Or.inr (Or.inl ⟨_, he, bs, js, h⟩)
      | keyword he h => exact Or.inr (Or.inr ⟨_, _, he, bs, js, h⟩)
theorem Args.mem_called (f : N) : (as : Args N C O) →
    (f ∈ as.called ↔ ∃ e ∈ as.toList, Calls e f)
  | .nil => by simp [Args.called, Args.toList]
  | .cons e as => by
    simp only [Args.called, List.mem_append, Args.toList, List.mem_cons, exists_eq_or_imp]
    rw [Expr.mem_called f e, Args.mem_called f as]
theorem Kws.mem_called (f : N) : (ks : Kws N C O) →
    (f ∈ ks.called ↔ ∃ k e, (k, e) ∈ ks.toList ∧ Calls e f)
  | .nil => by simp [Kws.called, Kws.toList]
  | .cons k e ks => by
    simp only [Kws.called, List.mem_append, Kws.toList, List.mem_cons, Prod.mk.injEq]
    rw [Expr.mem_called f e, Kws.mem_called f ks]
    constructor
    · rintro (h | ⟨k', e', h1, h2⟩)
      · exact ⟨k, e, Or.inl ⟨rfl, rfl⟩, h⟩
      · exact ⟨k', e', Or.inr h1, h2⟩
    · rintro ⟨k', e', ⟨rfl, rfl⟩ | h1, h2⟩
      · exact Or.inl h2
      · exact Or.inr ⟨k', e', h1, h2⟩
end

mutual
theorem Expr.mem_names (x : N) : (e : Expr N C O) → (x ∈ e.names ↔ Uses e x ∨ Calls e x)
  | .const c => by
    simp only [Expr.names, List.not_mem_nil, false_iff]
    rintro (h | ⟨as, ks, h⟩) <;> cases h
  | .name y => by
    simp only [Expr.names, List.mem_singleton]
    constructor
    · rintro rfl; exact Or.inl (.refl _)
    · rintro (h | ⟨as, ks, h⟩)
      · cases h; rfl
      · cases h
  | .op o as => by
    simp only [Expr.names]
    rw [Args.mem_names x as]
    constructor
    · rintro ⟨e, he, h | ⟨bs, ks, h⟩⟩
      · exact Or.inl (.operand he h)
      · exact Or.inr ⟨bs, ks, .operand he h⟩
    · rintro (h | ⟨bs, ks, h⟩)
      · cases h with
        | operand he h => exact ⟨_, he, Or.inl h⟩
      · cases h with
        | operand he h => exact ⟨_, he, Or.inr ⟨bs, ks, h⟩⟩
  | .call g as ks => by
    simp only [Expr.names, List.mem_cons, List.mem_append]
    rw [Args.mem_names x as, Kws.mem_names x ks]
    constructor
    · rintro (rfl | ⟨e, he, h | ⟨bs, js, h⟩⟩ | ⟨k, e, he, h | ⟨bs, js, h⟩⟩)
      · exact Or.inr ⟨as, ks, .refl _⟩
      · exact Or.inl (.argument he h)
      · exact Or.inr ⟨bs, js, .argument he h⟩
      · exact Or.inl (.keyword he h)
      · exact Or.inr ⟨bs, js, .keyword he h⟩
    · rintro (h | ⟨bs, js, h⟩)
      · cases h with
        | argument he h => exact Or.inr (Or.inl ⟨_, he, Or.inl h⟩)
        | keyword he h => exact Or.inr (Or.inr ⟨_, _, he, Or.inl h⟩)
      · cases h with
        | refl => exact Or.inl rfl
        | argument he h => exact Or.inr (Or.inl ⟨_, he, Or.inr ⟨bs, js, h⟩⟩)
        | keyword he h => exact Or.inr (Or.inr ⟨_, _, he, Or.inr ⟨bs, js, h⟩⟩)
theorem Args.mem_names (x : N) : (as : Args N C O) →
    (x ∈ as.names ↔ ∃ e ∈ as.toList, Uses e x ∨ Calls e x)
  | .nil => by simp [Args.names, Args.toList]
  | .cons e as => by
    simp only [Args.names, List.mem_append, Args.toList, List.mem_cons, exists_eq_or_imp]
    rw [Expr.mem_names x e, Args.mem_names x as]
theorem Kws.mem_names (x : N) : (ks : Kws N C O) →
    (x ∈ ks.names ↔ ∃ k e, (k, e) ∈ ks.toList ∧ (Uses e x ∨ Calls e x))
  | .nil => by simp [Kws.names, Kws.toList]
  | .cons k e ks => by
    simp only [Kws.names, List.mem_append, Kws.toList, List.mem_cons, Prod.mk.injEq]
    rw [Expr.mem_names x e, Kws.mem_names x ks]
    constructor
    · rintro (h | ⟨k', e', h1, h2⟩)
      · exact ⟨k, e, Or.inl ⟨rfl, rfl⟩, h⟩
      · exact ⟨k', e', Or.inr h1, h2⟩
    · rintro ⟨k', e', ⟨rfl, rfl⟩ | h1, h2⟩
      · exact Or.inl h2
      · exact Or.inr ⟨k', e', h1, h2⟩
end

/-! ## Evaluation looks only at the names of the expression -/

theorem lookup_congr {glob loc loc' : N → Option V} {x : N} (h : loc x = loc' x) :
    lookup glob loc x = lookup glob loc' x := by
  unfold lookup; rw [h]

mutual
theorem Expr.eval_congr (sem : Sem N V C O S L) (glob : N → Option V) {loc loc' : N → Option V} :
    (e : Expr N C O) → (∀ x ∈ e.names, loc x = loc' x) → e.eval sem glob loc = e.eval sem glob loc'
  | .const c, _ => by simp [Expr.eval]
  | .name x, h => by
    simp only [Expr.eval]
    exact lookup_congr (h x (by simp [Expr.names]))
  | .op o as, h => by
    simp only [Expr.eval]
    rw [Args.eval_congr sem glob as (fun x hx => h x (by simpa [Expr.names] using hx))]
  | .call f as ks, h => by
    simp only [Expr.eval]
    rw [Args.eval_congr sem glob as (fun x hx => h x (by simp [Expr.names, hx])),
      Kws.eval_congr sem glob ks (fun x hx => h x (by simp [Expr.names, hx])),
      lookup_congr (h f (by simp [Expr.names]))]
theorem Args.eval_congr (sem : Sem N V C O S L) (glob : N → Option V) {loc loc' : N → Option V} :
    (as : Args N C O) → (∀ x ∈ as.names, loc x = loc' x) →
    as.eval sem glob loc = as.eval sem glob loc'
  | .nil, _ => rfl
  | .cons e as, h => by
    simp only [Args.eval]
    rw [Expr.eval_congr sem glob e (fun x hx => h x (by simp [Args.names, hx])),
      Args.eval_congr sem glob as (fun x hx => h x (by simp [Args.names, hx]))]
theorem Kws.eval_congr (sem : Sem N V C O S L) (glob : N → Option V) {loc loc' : N → Option V} :
    (ks : Kws N C O) → (∀ x ∈ ks.names, loc x = loc' x) →
    ks.eval sem glob loc = ks.eval sem glob loc'
  | .nil, _ => rfl
  | .cons k e ks, h => by
    simp only [Kws.eval]
    rw [Expr.eval_congr sem glob e (fun x hx => h x (by simp [Kws.names, hx])),
      Kws.eval_congr sem glob ks (fun x hx => h x (by simp [Kws.names, hx]))]
end

/-- Operators and functions do not raise NameError on their own account: if an application ends in NameError, one of
the arguments did. -/
structure NoOwnNameError (sem : Sem N V C O S L) : Prop where
  op : ∀ o rs, sem.op o rs = .error .NameError → .error .NameError ∈ rs
  call : ∀ v rs ks, sem.call v rs ks = .error .NameError →
    .error .NameError ∈ rs ∨ ∃ k, (k, .error .NameError) ∈ ks

mutual
theorem Expr.eval_nameError {sem : Sem N V C O S L} (hs : NoOwnNameError sem)
    {glob loc : N → Option V} : (e : Expr N C O) → e.eval sem glob loc = .error .NameError →
    ∃ x ∈ e.names, loc x = none ∧ glob x = none
  | .const c, h => by simp [Expr.eval] at h
  | .name x, h => by
    simp only [Expr.eval, lookup] at h
    refine ⟨x, by simp [Expr.names], ?_⟩
    cases h1 : loc x with
    | some v => simp [h1] at h
    | none =>
      cases h2 : glob x with
      | some v => simp [h1, h2] at h
      | none => exact ⟨rfl, rfl⟩
  | .op o as, h => by
    simp only [Expr.eval] at h
    obtain ⟨x, hx, h'⟩ := Args.eval_nameError hs as (hs.op _ _ h)
    exact ⟨x, by simpa [Expr.names] using hx, h'⟩
  | .call f as ks, h => by
    simp only [Expr.eval] at h
    cases hl : lookup glob loc f with
    | error err =>
      rw [hl] at h
      refine ⟨f, by simp [Expr.names], ?_⟩
      simp only [lookup] at hl
      cases h1 : loc f with
      | some v => simp [h1] at hl
      | none =>
        cases h2 : glob f with
        | some v => simp [h1, h2] at hl
        | none => exact ⟨rfl, rfl⟩
    | ok v =>
      rw [hl] at h
      rcases hs.call _ _ _ h with h | ⟨k, h⟩
      · obtain ⟨x, hx, h'⟩ := Args.eval_nameError hs as h
        exact ⟨x, by simp [Expr.names, hx], h'⟩
      · obtain ⟨x, hx, h'⟩ := Kws.eval_nameError hs ks h
        exact ⟨x, by simp [Expr.names, hx], h'⟩
theorem Args.eval_nameError {sem : Sem N V C O S L} (hs : NoOwnNameError sem)
    {glob loc : N → Option V} : (as : Args N C O) → .error .NameError ∈ as.eval sem glob loc →
    ∃ x ∈ as.names, loc x = none ∧ glob x = none
  | .nil, h => by simp [Args.eval] at h
  | .cons e as, h => by
    simp only [Args.eval, List.mem_cons] at h
    rcases h with h | h
    · obtain ⟨x, hx, h'⟩ := Expr.eval_nameError hs e h.symm
      exact ⟨x, by simp [Args.names, hx], h'⟩
    · obtain ⟨x, hx, h'⟩ := Args.eval_nameError hs as h
      exact ⟨x, by simp [Args.names, hx], h'⟩
theorem Kws.eval_nameError {sem : Sem N V C O S L} (hs : NoOwnNameError sem)
    {glob loc : N → Option V} {k : N} : (ks : Kws N C O) →
    (k, .error .NameError) ∈ ks.eval sem glob loc → ∃ x ∈ ks.names, loc x = none ∧ glob x = none
  | .nil, h => by simp [Kws.eval] at h
  | .cons k' e ks, h => by
    simp only [Kws.eval, List.mem_cons, Prod.mk.injEq] at h
    rcases h with ⟨-, h⟩ | h
    · obtain ⟨x, hx, h'⟩ := Expr.eval_nameError hs e h.symm
      exact ⟨x, by simp [Kws.names, hx], h'⟩
    · obtain ⟨x, hx, h'⟩ := Kws.eval_nameError hs ks h
      exact ⟨x, by simp [Kws.names, hx], h'⟩
end

/-! ## `ast.walk` -/

namespace Ast

/-- `In a r`: `a` is a node of the tree `r`. -/
inductive In : Ast N C O → Ast N C O → Prop
  | refl (a) : In a a
  | kid {a c k cs} : c ∈ cs → In a c → In a (.node k cs)

theorem sizeL_append (l m : List (Ast N C O)) : sizeL (l ++ m) = sizeL l + sizeL m := by
  induction l with
  | nil => simp [sizeL]
  | cons a l ih => simp [sizeL, ih, Nat.add_assoc]

theorem size_pos (a : Ast N C O) : 1 ≤ a.size := by
  cases a; simp [size]

theorem length_le_sizeL (l : List (Ast N C O)) : l.length ≤ sizeL l := by
  induction l with
  | nil => simp [sizeL]
  | cons a l ih => simp only [List.length_cons, sizeL]; have := size_pos a; omega

theorem mem_walkQ : ∀ (n : Nat) (q : List (Ast N C O)), sizeL q ≤ n →
    ∀ a, a ∈ walkQ n q ↔ ∃ r ∈ q, In a r := by
  intro n
  induction n with
  | zero =>
    intro q h a
    cases q with
    | nil => simp [walkQ]
    | cons r q =>
      simp only [sizeL] at h
      have := size_pos r
      omega
  | succ n ih =>
    intro q h a
    cases q with
    | nil => simp [walkQ]
    | cons r q =>
      obtain ⟨k, cs⟩ := r
      simp only [walkQ, kids, List.mem_cons]
      rw [ih _ (by
        rw [sizeL_append]
        simp only [sizeL, size] at h
        omega)]
      simp only [List.mem_append, exists_eq_or_imp]
      constructor
      · rintro (rfl | ⟨r, hr | hr, h⟩)
        · exact Or.inl (.refl _)
        · exact Or.inr ⟨r, hr, h⟩
        · exact Or.inl (.kid hr h)
      · rintro (h | ⟨r, hr, h⟩)
        · cases h with
          | refl => exact Or.inl rfl
          | kid hc h => exact Or.inr ⟨_, Or.inr hc, h⟩
        · exact Or.inr ⟨r, Or.inl hr, h⟩

/-- The walk visits exactly the nodes of the tree. -/
theorem mem_walk (r a : Ast N C O) : a ∈ r.walk ↔ In a r := by
  unfold walk
  rw [mem_walkQ _ _ (by simp [sizeL])]
  simp

/-- A whole layer of the queue is visited before its children. -/
theorem walkQ_layer : ∀ (q r : List (Ast N C O)) (n : Nat),
    walkQ (q.length + n) (q ++ r) = q ++ walkQ n (r ++ q.flatMap kids) := by
  intro q
  induction q with
  | nil => intro r n; simp
  | cons a q ih =>
    intro r n
    have h1 : (a :: q).length + n = (q.length + n) + 1 := by simp only [List.length_cons]; omega
    rw [h1]
    simp only [List.cons_append, walkQ, List.flatMap_cons]
    rw [List.append_assoc, ih]
    simp [List.append_assoc]

end Ast

theorem mem_walkNames (x : N) (l : List (Ast N C O)) :
    x ∈ walkNames l ↔ ∃ cs, Ast.node (.name x) cs ∈ l := by
  induction l with
  | nil => simp [walkNames]
  | cons a l ih =>
    obtain ⟨k, cs⟩ := a
    cases k <;> simp [walkNames, Ast.kind, ih]
    constructor
    · rintro (rfl | ⟨c, h⟩)
      · exact ⟨cs, Or.inl ⟨rfl, rfl⟩⟩
      · exact ⟨c, Or.inr h⟩
    · rintro ⟨c, ⟨rfl, rfl⟩ | h⟩
      · exact Or.inl rfl
      · exact Or.inr ⟨c, h⟩

theorem mem_walkCalled (f : N) (l : List (Ast N C O)) :
    f ∈ walkCalled l ↔ ∃ cs ds, Ast.node .call (.node (.name f) cs :: ds) ∈ l := by
  induction l with
  | nil => simp [walkCalled]
  | cons a l ih =>
    unfold walkCalled
    split
    · rename_i x cs ds
      simp only [List.mem_cons, ih]
      constructor
      · rintro (rfl | ⟨c, d, h⟩)
        · exact ⟨cs, ds, Or.inl rfl⟩
        · exact ⟨c, d, Or.inr h⟩
      · rintro ⟨c, d, h | h⟩
        · cases h; exact Or.inl rfl
        · exact Or.inr ⟨c, d, h⟩
    · rename_i hne
      rw [ih]
      constructor
      · rintro ⟨c, d, h⟩; exact ⟨c, d, by simp [h]⟩
      · rintro ⟨c, d, h⟩
        rcases List.mem_cons.1 h with h | h
        · exact absurd h.symm (by intro e; exact hne _ _ _ e)
        · exact ⟨c, d, h⟩

/-! ### The tree of an expression -/

theorem Args.toAsts_eq : (as : Args N C O) → as.toAsts = as.toList.map Expr.toAst
  | .nil => rfl
  | .cons e as => by simp only [Args.toAsts, Args.toList, List.map_cons]; rw [Args.toAsts_eq as]

theorem Kws.toAsts_eq : (ks : Kws N C O) →
    ks.toAsts = ks.toList.map (fun p => .node (.keyword p.1) [p.2.toAst])
  | .nil => rfl
  | .cons k e ks => by simp only [Kws.toAsts, Kws.toList, List.map_cons]; rw [Kws.toAsts_eq ks]

open Ast in
mutual
theorem Expr.in_name (x : N) : (e : Expr N C O) →
    ((∃ cs, In (.node (.name x) cs) e.toAst) ↔ Uses e x ∨ Calls e x)
  | .const c => by
    simp only [Expr.toAst]
    constructor
    · rintro ⟨cs, h⟩
      cases h with
      | kid hc _ => simp at hc
    · rintro (h | ⟨as, ks, h⟩) <;> cases h
  | .name y => by
    simp only [Expr.toAst]
    constructor
    · rintro ⟨cs, h⟩
      cases h with
      | refl => exact Or.inl (.refl _)
      | kid hc h =>
        simp at hc; subst hc
        cases h with
        | kid hc _ => simp at hc
    · rintro (h | ⟨as, ks, h⟩)
      · cases h; exact ⟨_, .refl _⟩
      · cases h
  | .op o as => by
    have hsplit : (∃ cs, In (.node (.name x) cs) (Expr.op o as).toAst) ↔
        ∃ cs, ∃ a ∈ as.toAsts, In (.node (.name x) cs) a := by
      cases as with
      | nil =>
        simp only [Expr.toAst, Args.toAsts]
        constructor
        · rintro ⟨cs, h⟩
          cases h with
          | kid hc h =>
            simp at hc; subst hc
            cases h with
            | kid hc _ => simp at hc
        · rintro ⟨cs, a, ha, -⟩; simp at ha
      | cons e as =>
        simp only [Expr.toAst, Args.toAsts]
        constructor
        · rintro ⟨cs, h⟩
          cases h with
          | kid hc h =>
            simp only [List.mem_cons] at hc
            rcases hc with rfl | rfl | hc
            · exact ⟨cs, _, by simp, h⟩
            · cases h with
              | kid hc _ => simp at hc
            · exact ⟨cs, _, by simp [hc], h⟩
        · rintro ⟨cs, a, ha, h⟩
          simp only [List.mem_cons] at ha
          rcases ha with rfl | ha
          · exact ⟨cs, .kid (by simp) h⟩
          · exact ⟨cs, .kid (by simp [ha]) h⟩
    rw [hsplit, Args.in_name x as]
    constructor
    · rintro ⟨e, he, h | ⟨bs, ks, h⟩⟩
      · exact Or.inl (.operand he h)
      · exact Or.inr ⟨bs, ks, .operand he h⟩
    · rintro (h | ⟨bs, ks, h⟩)
      · cases h with
        | operand he h => exact ⟨_, he, Or.inl h⟩
      · cases h with
        | operand he h => exact ⟨_, he, Or.inr ⟨bs, ks, h⟩⟩
  | .call g as ks => by
    have hsplit : (∃ cs, In (.node (.name x) cs) (Expr.call g as ks).toAst) ↔
        x = g ∨ (∃ cs, ∃ a ∈ as.toAsts, In (.node (.name x) cs) a) ∨
          ∃ cs, ∃ a ∈ ks.toAsts, In (.node (.name x) cs) a := by
      simp only [Expr.toAst]
      constructor
      · rintro ⟨cs, h⟩
        cases h with
        | kid hc h =>
          simp only [List.mem_cons, List.mem_append] at hc
          rcases hc with rfl | hc | hc
          · cases h with
            | refl => exact Or.inl rfl
            | kid hc h =>
              simp at hc; subst hc
              cases h with
              | kid hc _ => simp at hc
          · exact Or.inr (Or.inl ⟨cs, _, hc, h⟩)
          · exact Or.inr (Or.inr ⟨cs, _, hc, h⟩)
      · rintro (rfl | ⟨cs, a, ha, h⟩ | ⟨cs, a, ha, h⟩)
        · exact ⟨[.node .load []], .kid (by simp) (.refl _)⟩
        · exact ⟨cs, .kid (by simp [ha]) h⟩
        · exact ⟨cs, .kid (by simp [ha]) h⟩
    rw [hsplit, Args.in_name x as, Kws.in_name x ks]
    constructor
    · rintro (rfl | ⟨e, he, h | ⟨bs, js, h⟩⟩ | ⟨k, e, he, h | ⟨bs, js, h⟩⟩)
      · exact Or.inr ⟨as, ks, .refl _⟩
      · exact Or.inl (.argument he h)
      · exact Or.inr ⟨bs, js, .argument he h⟩
      · exact Or.inl (.keyword he h)
      · exact Or.inr ⟨bs, js, .keyword he h⟩
    · rintro (h | ⟨bs, js, h⟩)
      · cases h with
        | argument he h => exact Or.inr (Or.inl ⟨_, he, Or.inl h⟩)
        | keyword he h => exact Or.inr (Or.inr ⟨_, _, he, Or.inl h⟩)
      · cases h with
        | refl => exact Or.inl rfl
        | argument he h => exact Or.inr (Or.inl ⟨_, he, Or.inr ⟨bs, js, h⟩⟩)
        | keyword he h => exact Or.inr (Or.inr ⟨_, _, he, Or.inr ⟨bs, js, h⟩⟩)
theorem Args.in_name (x : N) : (as : Args N C O) →
    ((∃ cs, ∃ a ∈ as.toAsts, In (.node (.name x) cs) a) ↔ ∃ e ∈ as.toList, Uses e x ∨ Calls e x)
  | .nil => by simp [Args.toAsts, Args.toList]
  | .cons e as => by
    simp only [Args.toAsts, Args.toList, List.mem_cons, exists_eq_or_imp]
    rw [← Expr.in_name x e, ← Args.in_name x as]
    exact exists_or
theorem Kws.in_name (x : N) : (ks : Kws N C O) →
    ((∃ cs, ∃ a ∈ ks.toAsts, In (.node (.name x) cs) a) ↔
      ∃ k e, (k, e) ∈ ks.toList ∧ (Uses e x ∨ Calls e x))
  | .nil => by simp [Kws.toAsts, Kws.toList]
  | .cons k e ks => by
    have ih := Kws.in_name x ks
    have ihe := Expr.in_name x e
    simp only [Kws.toAsts, Kws.toList, List.mem_cons, exists_eq_or_imp, Prod.mk.injEq]
    constructor
    · rintro ⟨cs, h | ⟨a, ha, h⟩⟩
      · cases h with
        | kid hc h =>
          simp at hc; subst hc
          exact ⟨k, e, Or.inl ⟨rfl, rfl⟩, ihe.1 ⟨cs, h⟩⟩
      · obtain ⟨k', e', h1, h2⟩ := ih.1 ⟨cs, a, ha, h⟩
        exact ⟨k', e', Or.inr h1, h2⟩
    · rintro ⟨k', e', ⟨rfl, rfl⟩ | h1, h2⟩
      · obtain ⟨cs, h⟩ := ihe.2 h2
        exact ⟨cs, Or.inl (.kid (by simp) h)⟩
      · obtain ⟨cs, a, ha, h⟩ := ih.2 ⟨k', e', h1, h2⟩
        exact ⟨cs, Or.inr ⟨a, ha, h⟩⟩
end

open Ast in
mutual
theorem Expr.in_call (x : N) : (e : Expr N C O) →
    ((∃ cs ds, In (.node .call (.node (.name x) cs :: ds)) e.toAst) ↔ Calls e x)
  | .const c => by
    simp only [Expr.toAst]
    constructor
    · rintro ⟨cs, ds, h⟩
      cases h with
      | kid hc _ => simp at hc
    · rintro ⟨as, ks, h⟩; cases h
  | .name y => by
    simp only [Expr.toAst]
    constructor
    · rintro ⟨cs, ds, h⟩
      cases h with
      | kid hc h =>
        simp at hc; subst hc
        cases h with
        | kid hc _ => simp at hc
    · rintro ⟨as, ks, h⟩; cases h
  | .op o as => by
    have hsplit : (∃ cs ds, In (.node .call (.node (.name x) cs :: ds)) (Expr.op o as).toAst) ↔
        ∃ cs ds, ∃ a ∈ as.toAsts, In (.node .call (.node (.name x) cs :: ds)) a := by
      cases as with
      | nil =>
        simp only [Expr.toAst, Args.toAsts]
        constructor
        · rintro ⟨cs, ds, h⟩
          cases h with
          | kid hc h =>
            simp at hc; subst hc
            cases h with
            | kid hc _ => simp at hc
        · rintro ⟨cs, ds, a, ha, -⟩; simp at ha
      | cons e as =>
        simp only [Expr.toAst, Args.toAsts]
        constructor
        · rintro ⟨cs, ds, h⟩
          cases h with
          | kid hc h =>
            simp only [List.mem_cons] at hc
            rcases hc with rfl | rfl | hc
            · exact ⟨cs, ds, _, by simp, h⟩
            · cases h with
              | kid hc _ => simp at hc
            · exact ⟨cs, ds, _, by simp [hc], h⟩
        · rintro ⟨cs, ds, a, ha, h⟩
          simp only [List.mem_cons] at ha
          rcases ha with rfl | ha
          · exact ⟨cs, ds, .kid (by simp) h⟩
          · exact ⟨cs, ds, .kid (by simp [ha]) h⟩
    rw [hsplit, Args.in_call x as]
    constructor
    · rintro ⟨e, he, bs, ks, h⟩; exact ⟨bs, ks, .operand he h⟩
    · rintro ⟨bs, ks, h⟩
      cases h with
      | operand he h => exact ⟨_, he, bs, ks, h⟩
  | .call g as ks => by
    have hsplit : (∃ cs ds, In (.node .call (.node (.name x) cs :: ds)) (Expr.call g as ks).toAst) ↔
        x = g ∨ (∃ cs ds, ∃ a ∈ as.toAsts, In (.node .call (.node (.name x) cs :: ds)) a) ∨
          ∃ cs ds, ∃ a ∈ ks.toAsts, In (.node .call (.node (.name x) cs :: ds)) a := by
      simp only [Expr.toAst]
      constructor
      · rintro ⟨cs, ds, h⟩
        cases h with
        | refl => exact Or.inl rfl
        | kid hc h =>
          simp only [List.mem_cons, List.mem_append] at hc
          rcases hc with rfl | hc | hc
          · cases h with
            | kid hc h =>
              simp at hc; subst hc
              cases h with
              | kid hc _ => simp at hc
          · exact Or.inr (Or.inl ⟨cs, ds, _, hc, h⟩)
          · exact Or.inr (Or.inr ⟨cs, ds, _, hc, h⟩)
      · rintro (rfl | ⟨cs, ds, a, ha, h⟩ | ⟨cs, ds, a, ha, h⟩)
        · exact ⟨_, _, .refl _⟩
        · exact ⟨cs, ds, .kid (by simp [ha]) h⟩
        · exact ⟨cs, ds, .kid (by simp [ha]) h⟩
    rw [hsplit, Args.in_call x as, Kws.in_call x ks]
    constructor
    · rintro (rfl | ⟨e, he, bs, js, h⟩ | ⟨k, e, he, bs, js, h⟩)
      · exact ⟨as, ks, .refl _⟩
      · exact ⟨bs, js, .argument he h⟩
      · exact ⟨bs, js, .keyword he h⟩
    · rintro ⟨bs, js, h⟩
      cases h with
      | refl => exact Or.inl rfl
      | argument he h => exact Or.inr (Or.inl ⟨_, he, bs, js, h⟩)
      | keyword he h => exact Or.inr (Or.inr ⟨_, _, he, bs, js, h⟩)
theorem Args.in_call (x : N) : (as : Args N C O) →
    ((∃ cs ds, ∃ a ∈ as.toAsts, In (.node .call (.node (.name x) cs :: ds)) a) ↔
      ∃ e ∈ as.toList, Calls e x)
  | .nil => by simp [Args.toAsts, Args.toList]
  | .cons e as => by
    simp only [Args.toAsts, Args.toList, List.mem_cons, exists_eq_or_imp]
    rw [← Expr.in_call x e, ← Args.in_call x as]
    constructor
    · rintro ⟨cs, ds, h | h⟩
      · exact Or.inl ⟨cs, ds, h⟩
      · exact Or.inr ⟨cs, ds, h⟩
    · rintro (⟨cs, ds, h⟩ | ⟨cs, ds, h⟩)
      · exact ⟨cs, ds, Or.inl h⟩
      · exact ⟨cs, ds, Or.inr h⟩
theorem Kws.in_call (x : N) : (ks : Kws N C O) →
    ((∃ cs ds, ∃ a ∈ ks.toAsts, In (.node .call (.node (.name x) cs :: ds)) a) ↔
      ∃ k e, (k, e) ∈ ks.toList ∧ Calls e x)
  | .nil => by simp [Kws.toAsts, Kws.toList]
  | .cons k e ks => by
    have ih := Kws.in_call x ks
    have ihe := Expr.in_call x e
    simp only [Kws.toAsts, Kws.toList, List.mem_cons, exists_eq_or_imp, Prod.mk.injEq]
    constructor
    · rintro ⟨cs, ds, h | ⟨a, ha, h⟩⟩
      · cases h with
        | kid hc h =>
          simp at hc; subst hc
          exact ⟨k, e, Or.inl ⟨rfl, rfl⟩, ihe.1 ⟨cs, ds, h⟩⟩
      · obtain ⟨k', e', h1, h2⟩ := ih.1 ⟨cs, ds, a, ha, h⟩
        exact ⟨k', e', Or.inr h1, h2⟩
    · rintro ⟨k', e', ⟨rfl, rfl⟩ | h1, h2⟩
      · obtain ⟨cs, ds, h⟩ := ihe.2 h2
        exact ⟨cs, ds, Or.inl (.kid (by simp) h)⟩
      · obtain ⟨cs, ds, a, ha, h⟩ := ih.2 ⟨k', e', h1, h2⟩
        exact ⟨cs, ds, Or.inr ⟨a, ha, h⟩⟩
end

/-! ### `find_ast_parents` on trees -/

section
variable [DecidableEq N]

theorem mem_findAstParents_fst (e : Expr N C O) (x : N) :
    x ∈ (findAstParents e.toAst).1 ↔ Uses e x ∧ ¬ Calls e x := by
  simp only [findAstParents, List.mem_filter, List.mem_dedup, decide_eq_true_eq, mem_walkNames, mem_walkCalled,
    Ast.mem_walk]
  rw [Expr.in_name, Expr.in_call]
  tauto

theorem mem_findAstParents_snd (e : Expr N C O) (x : N) :
    x ∈ (findAstParents e.toAst).2 ↔ Calls e x := by
  simp only [findAstParents, List.mem_dedup, mem_walkCalled, Ast.mem_walk]
  rw [Expr.in_call]

theorem mem_parseParents_fst (e : Expr N C O) (x : N) :
    x ∈ (parseParents e).1 ↔ Uses e x ∧ ¬ Calls e x := by
  simp only [parseParents, List.mem_filter, List.mem_dedup, decide_eq_true_eq, Expr.mem_names, Expr.mem_called]
  tauto

theorem mem_parseParents_snd (e : Expr N C O) (x : N) : x ∈ (parseParents e).2 ↔ Calls e x := by
  simp only [parseParents, List.mem_dedup, Expr.mem_called]

/-- The two wrapper nodes of `ast.parse` add nothing. -/
theorem in_parsed {a : Ast N C O} (e : Expr N C O) :
    Ast.In a e.parsed ↔ a = e.parsed ∨ a = .node .exprStmt [e.toAst] ∨ Ast.In a e.toAst := by
  unfold Expr.parsed
  constructor
  · intro h
    cases h with
    | refl => exact Or.inl rfl
    | kid hc h =>
      simp at hc; subst hc
      cases h with
      | refl => exact Or.inr (Or.inl rfl)
      | kid hc h => simp at hc; subst hc; exact Or.inr (Or.inr h)
  · rintro (rfl | rfl | h)
    · exact .refl _
    · exact .kid (by simp) (.refl _)
    · exact .kid (c := .node .exprStmt [e.toAst]) (by simp) (.kid (c := e.toAst) (by simp) h)

theorem walkNames_parsed (e : Expr N C O) (x : N) :
    x ∈ walkNames e.parsed.walk ↔ x ∈ walkNames e.toAst.walk := by
  simp only [mem_walkNames, Ast.mem_walk, in_parsed]
  simp [Expr.parsed]

theorem walkCalled_parsed (e : Expr N C O) (x : N) :
    x ∈ walkCalled e.parsed.walk ↔ x ∈ walkCalled e.toAst.walk := by
  simp only [mem_walkCalled, Ast.mem_walk, in_parsed]
  simp [Expr.parsed]

theorem mem_findAstParents_parsed_fst (e : Expr N C O) (x : N) :
    x ∈ (findAstParents e.parsed).1 ↔ Uses e x ∧ ¬ Calls e x := by
  rw [← mem_findAstParents_fst]
  simp only [findAstParents, List.mem_filter, List.mem_dedup, decide_eq_true_eq, walkNames_parsed,
    walkCalled_parsed]

theorem mem_findAstParents_parsed_snd (e : Expr N C O) (x : N) :
    x ∈ (findAstParents e.parsed).2 ↔ Calls e x := by
  rw [← mem_findAstParents_snd]
  simp only [findAstParents, List.mem_dedup, walkCalled_parsed]

end

/-! ### `parse_function` -/

theorem walk_call (f : N) (as : Args N C O) (ks : Kws N C O) :
    ∃ rest, (Expr.call f as ks).parsed.walk =
      (Expr.call f as ks).parsed :: .node .exprStmt [(Expr.call f as ks).toAst] ::
      (Expr.call f as ks).toAst :: .node (.name f) [.node .load []] ::
      (as.toAsts ++ ks.toAsts) ++ .node .load [] :: rest := by
  have h1 : (Expr.call f as ks).parsed.size = 3 + ((as.toAsts ++ ks.toAsts).length + 1) +
      ((Ast.sizeL (as.toAsts ++ ks.toAsts) - (as.toAsts ++ ks.toAsts).length) + 1) := by
    have h := Ast.length_le_sizeL (as.toAsts ++ ks.toAsts)
    simp only [Expr.parsed, Expr.toAst, Ast.size, Ast.sizeL] at *
    omega
  unfold Ast.walk
  rw [h1]
  generalize hn : Ast.sizeL (as.toAsts ++ ks.toAsts) - (as.toAsts ++ ks.toAsts).length = n
  rw [show 3 + ((as.toAsts ++ ks.toAsts).length + 1) + (n + 1)
    = ((as.toAsts ++ ks.toAsts).length + 1 + (n + 1)) + 1 + 1 + 1 by omega]
  have h2 := Ast.walkQ_layer ((.node (.name f) [.node .load []] : Ast N C O) :: (as.toAsts ++ ks.toAsts)) []
    (n + 1)
  rw [List.append_nil, List.length_cons] at h2
  generalize (as.toAsts ++ ks.toAsts).length + 1 + (n + 1) = m at h2 ⊢
  simp only [Ast.walkQ, Expr.parsed, Expr.toAst, Ast.kids, List.nil_append]
  rw [h2]
  refine ⟨Ast.walkQ n (((as.toAsts ++ ks.toAsts).flatMap Ast.kids) ++ []), ?_⟩
  simp [Ast.walkQ, Ast.kids, List.flatMap_cons]

theorem parseArgsLoop_args (rest : List (Ast N C O)) : (as : Args N C O) →
    parseArgsLoop false (as.toAsts ++ rest) =
      as.toList.map (fun e => ((none : Option N), e.toAst)) ++ parseArgsLoop false rest
  | .nil => rfl
  | .cons e as => by
    have ih := parseArgsLoop_args rest as
    simp only [Args.toAsts, Args.toList, List.cons_append, List.map_cons]
    rw [← ih]
    cases e with
    | op o bs => cases bs <;> simp [Expr.toAst, parseArgsLoop]
    | _ => simp [Expr.toAst, parseArgsLoop]

theorem parseArgsLoop_kws (rest : List (Ast N C O)) (b : Bool) : (ks : Kws N C O) →
    parseArgsLoop b (ks.toAsts ++ .node .load [] :: rest) =
      ks.toList.map (fun p => (some p.1, p.2.toAst))
  | .nil => by simp [Kws.toAsts, Kws.toList, parseArgsLoop]
  | .cons k e ks => by
    simp only [Kws.toAsts, Kws.toList, List.cons_append, List.map_cons, parseArgsLoop]
    rw [parseArgsLoop_kws rest true ks]

theorem parseFunction_call (f : N) (as : Args N C O) (ks : Kws N C O) :
    parseFunction (Expr.call f as ks).parsed =
      (some f, as.toList.map (fun e => (none, e.toAst)) ++ ks.toList.map (fun p => (some p.1, p.2.toAst))) := by
  obtain ⟨rest, h⟩ := walk_call f as ks
  unfold parseFunction
  rw [h]
  simp only [List.cons_append, parseFunctionLoop, Expr.parsed, Expr.toAst, List.append_assoc]
  rw [parseArgsLoop_args, parseArgsLoop_kws]

end Model
