import Verif.Model.Parsed
import Verif.Lemmas.Expr

/-!
# Printing trees, outcomes of lists, evaluation with other tables
-/

namespace Model

open Py

variable {N V C O S L : Type}

theorem toAst_kind (e : Expr N C O) : (∀ k, e.toAst.kind ≠ .keyword k) ∧ ∀ o, e.toAst.kind ≠ .operator o := by
  cases e with
  | const c => exact ⟨fun k h => (by cases h), fun k h => (by cases h)⟩
  | name x => exact ⟨fun k h => (by cases h), fun k h => (by cases h)⟩
  | op o as => cases as <;> exact ⟨fun k h => (by cases h), fun k h => (by cases h)⟩
  | call f as ks => exact ⟨fun k h => (by cases h), fun k h => (by cases h)⟩

theorem operands_cons (e : Expr N C O) (cs : List (Ast N C O)) : Ast.operands (e.toAst :: cs) =
    match e.toAst.expr?, Ast.operands cs with
    | some e, some as => some (.cons e as)
    | _, _ => none := by
  have h := (toAst_kind e).2
  generalize e.toAst = a at h ⊢
  obtain ⟨k, vs⟩ := a
  cases k with
  | operator o => exact absurd rfl (h o)
  | _ => rfl

theorem arguments_cons (e : Expr N C O) (cs : List (Ast N C O)) : Ast.arguments (e.toAst :: cs) =
    match e.toAst.expr?, Ast.arguments cs with
    | some e, some (as, ks) => some (.cons e as, ks)
    | _, _ => none := by
  have h := (toAst_kind e).1
  generalize e.toAst = a at h ⊢
  obtain ⟨k, vs⟩ := a
  cases k with
  | keyword o => exact absurd rfl (h o)
  | _ => rfl

mutual
/-- Printing the tree of an expression and parsing the text gives the expression. -/
theorem expr?_toAst : (e : Expr N C O) → e.toAst.expr? = some e
  | .const _ => rfl
  | .name _ => rfl
  | .op o .nil => rfl
  | .op o (.cons e as) => by
    show (Ast.operands (e.toAst :: .node (.operator o) [] :: as.toAsts)).map _ = _
    rw [operands_cons, expr?_toAst e]
    have : Ast.operands (Ast.node (Kind.operator o) [] :: as.toAsts) = Ast.operands as.toAsts := rfl
    rw [this, operands_toAsts as]
    rfl
  | .call f as ks => by
    show Ast.applied (.node (.name f) [.node .load []] :: (as.toAsts ++ ks.toAsts)) = _
    rw [Ast.applied, arguments_toAsts as (keywords_toAsts ks)]
    rfl
theorem operands_toAsts : (as : Args N C O) → Ast.operands as.toAsts = some as
  | .nil => rfl
  | .cons e as => by
    show Ast.operands (e.toAst :: as.toAsts) = _
    rw [operands_cons, expr?_toAst e, operands_toAsts as]
theorem arguments_toAsts {cs : List (Ast N C O)} {ks : Kws N C O} : (as : Args N C O) → Ast.arguments cs = some (.nil, ks) →
    Ast.arguments (as.toAsts ++ cs) = some (as, ks)
  | .nil, h => h
  | .cons e as, h => by
    show Ast.arguments (e.toAst :: (as.toAsts ++ cs)) = _
    rw [arguments_cons, expr?_toAst e, arguments_toAsts as h]
theorem keywords_toAsts : (ks : Kws N C O) → Ast.arguments ks.toAsts = some (.nil, ks)
  | .nil => rfl
  | .cons k e ks => by
    show Ast.arguments (.node (.keyword k) [e.toAst] :: ks.toAsts) = _
    rw [Ast.arguments]
    simp only [Ast.first]
    rw [expr?_toAst e, keywords_toAsts ks]
end

/-! ## Lists of outcomes -/

theorem mapM_cons' {α β : Type} (f : α → Result β) (a : α) (l : List α) : (a :: l).mapM f =
    (match f a with
      | .error e => .error e
      | .ok b => match l.mapM f with
        | .error e => .error e
        | .ok bs => .ok (b :: bs)) := by
  rw [List.mapM_cons]
  cases f a with
  | error e => rfl
  | ok b => cases l.mapM f <;> rfl

theorem mapM_ok_iff {α β : Type} (f : α → Result β) : ∀ (l : List α) (bs : List β),
    l.mapM f = .ok bs ↔ List.Forall₂ (fun a b => f a = .ok b) l bs
  | [], bs => by
    constructor
    · intro h; cases h; exact .nil
    · intro h; cases h; rfl
  | a :: l, bs => by
    rw [mapM_cons']
    constructor
    · intro h
      cases ha : f a with
      | error e => rw [ha] at h; cases h
      | ok b =>
        rw [ha] at h
        cases hl : l.mapM f with
        | error e => rw [hl] at h; cases h
        | ok bs' =>
          rw [hl] at h; cases h
          exact .cons ha ((mapM_ok_iff f l bs').1 hl)
    · intro h
      cases h with
      | cons ha hl =>
        rw [ha, (mapM_ok_iff f l _).2 hl]

theorem mapM_error_iff {α β : Type} (f : α → Result β) : ∀ (l : List α) (e : Err),
    l.mapM f = .error e ↔ ∃ pre a post, l = pre ++ a :: post ∧ (∀ x ∈ pre, ∃ b, f x = .ok b) ∧ f a = .error e
  | [], e => by
    constructor
    · intro h; cases h
    · rintro ⟨pre, a, post, h, -⟩; cases pre <;> cases h
  | a :: l, e => by
    rw [mapM_cons']
    constructor
    · intro h
      cases ha : f a with
      | error e' =>
        rw [ha] at h; cases h
        exact ⟨[], a, l, rfl, by simp, ha⟩
      | ok b =>
        rw [ha] at h
        cases hl : l.mapM f with
        | error e' =>
          rw [hl] at h; cases h
          obtain ⟨pre, x, post, h1, h2, h3⟩ := (mapM_error_iff f l e).1 hl
          refine ⟨a :: pre, x, post, by rw [h1]; rfl, ?_, h3⟩
          intro y hy
          rcases List.mem_cons.1 hy with rfl | hy
          · exact ⟨b, ha⟩
          · exact h2 y hy
        | ok bs' => rw [hl] at h; cases h
    · rintro ⟨pre, x, post, h1, h2, h3⟩
      cases pre with
      | nil => cases h1; rw [h3]
      | cons y pre =>
        obtain ⟨rfl, rfl⟩ : a = y ∧ l = pre ++ x :: post := by
          rw [List.cons_append, List.cons.injEq] at h1
          exact h1
        obtain ⟨b, hb⟩ := h2 a (List.mem_cons_self ..)
        rw [hb, (mapM_error_iff f _ e).2 ⟨pre, x, post, rfl, fun z hz => h2 z (List.mem_cons_of_mem _ hz), h3⟩]

/-! ## Other globals -/

theorem lookup_globals {glob glob' loc : N → Option V} {x : N} (h : glob x = glob' x) : lookup glob loc x = lookup glob' loc x := by
  unfold lookup
  cases loc x with
  | some v => rfl
  | none => simp only [h]

mutual
/-- Evaluation looks at the globals under the names of the expression only. -/
theorem Expr.eval_globals {sem sem' : Sem N V C O S L} (hc : sem.const = sem'.const) (ho : sem.op = sem'.op) (hk : sem.call = sem'.call)
    {glob glob' : N → Option V} (loc : N → Option V) : (e : Expr N C O) → (∀ x ∈ e.names, glob x = glob' x) →
    e.eval sem glob loc = e.eval sem' glob' loc
  | .const c, _ => by simp only [Expr.eval, hc]
  | .name x, h => lookup_globals (h x (by simp [Expr.names]))
  | .op o as, h => by
    simp only [Expr.eval, ho]
    rw [Args.eval_globals hc ho hk loc as (fun x hx => h x (by simpa [Expr.names] using hx))]
  | .call f as ks, h => by
    simp only [Expr.eval, hk]
    rw [Args.eval_globals hc ho hk loc as (fun x hx => h x (by simp [Expr.names, hx])),
      Kws.eval_globals hc ho hk loc ks (fun x hx => h x (by simp [Expr.names, hx])),
      lookup_globals (h f (by simp [Expr.names]))]
theorem Args.eval_globals {sem sem' : Sem N V C O S L} (hc : sem.const = sem'.const) (ho : sem.op = sem'.op) (hk : sem.call = sem'.call)
    {glob glob' : N → Option V} (loc : N → Option V) : (as : Args N C O) → (∀ x ∈ as.names, glob x = glob' x) →
    as.eval sem glob loc = as.eval sem' glob' loc
  | .nil, _ => rfl
  | .cons e as, h => by
    simp only [Args.eval]
    rw [Expr.eval_globals hc ho hk loc e (fun x hx => h x (by simp [Args.names, hx])),
      Args.eval_globals hc ho hk loc as (fun x hx => h x (by simp [Args.names, hx]))]
theorem Kws.eval_globals {sem sem' : Sem N V C O S L} (hc : sem.const = sem'.const) (ho : sem.op = sem'.op) (hk : sem.call = sem'.call)
    {glob glob' : N → Option V} (loc : N → Option V) : (ks : Kws N C O) → (∀ x ∈ ks.names, glob x = glob' x) →
    ks.eval sem glob loc = ks.eval sem' glob' loc
  | .nil, _ => rfl
  | .cons k e ks, h => by
    simp only [Kws.eval]
    rw [Expr.eval_globals hc ho hk loc e (fun x hx => h x (by simp [Kws.names, hx])),
      Kws.eval_globals hc ho hk loc ks (fun x hx => h x (by simp [Kws.names, hx]))]
end

end Model
