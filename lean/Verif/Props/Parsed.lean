import Verif.Lemmas.Parsed
import Verif.Props.Failures

/-!
# Properties of function objects and function tables: C179 - C184
-/

namespace Props.Parsed

set_option linter.unusedSectionVars false

open Py Spec Model

variable {N V C O S L D : Type} [DecidableEq N]

/-- The arguments of a call as they are written: keys and expressions. -/
def written (as : Args N C O) (ks : Kws N C O) : List (Option N × Expr N C O) :=
  as.toList.map (fun e => (none, e)) ++ ks.toList.map (fun p => (some p.1, p.2))

theorem parsedFn_call (f : N) (as : Args N C O) (ks : Kws N C O) : parsedFn (.call f as ks) =
    ⟨.call f as ks, some f, (written as ks).map (fun a => (a.1, astToMath a.2.toAst))⟩ := by
  unfold parsedFn written
  rw [parseFunction_call]
  simp [Function.comp_def]

theorem execute_toAst (sem : Sem N V C O S L) (loc : N → Option V) (e : Expr N C O) :
    (astToMath e.toAst).execute sem loc = e.eval sem sem.math loc := by
  unfold MathExpr.execute astToMath
  simp only [expr?_toAst]

theorem getArguments_call (sem : Sem N V C O S L) (loc : N → Option V) (f : N) (as : Args N C O) (ks : Kws N C O) :
    (parsedFn (.call f as ks)).getArguments sem loc =
      (written as ks).mapM (fun a => (a.2.eval sem sem.math loc).map (fun v => (a.1, v))) := by
  rw [parsedFn_call]
  unfold ParsedFn.getArguments
  rw [List.mapM_map]
  congr 1
  funext a
  simp only [Function.comp, execute_toAst]
  cases a.2.eval sem sem.math loc <;> rfl

/-! ## C179 -/

/-- **C179**: evaluating the call `f(a1, .., k1=e1, ..)`, however its arguments are nested, gives the function `f` with the values of
the arguments, in order and under their keys - exactly when all of them have a value. -/
theorem C179 (sem : Sem N V C O S L) (loc : N → Option V) (f : N) (as : Args N C O) (ks : Kws N C O) (r : EvaluatedFn N V C O) :
    (parsedFn (.call f as ks)).evaluate sem loc = .ok r ↔ r.source = .call f as ks ∧ r.function = some f ∧
      List.Forall₂ (fun (a : Option N × Expr N C O) b => b.1 = a.1 ∧ a.2.eval sem sem.math loc = .ok b.2)
        (as.toList.map (fun e => (none, e)) ++ ks.toList.map (fun p => (some p.1, p.2))) r.arguments := by
  have hF : ∀ bs : List (Option N × V), (written as ks).mapM (fun a => (a.2.eval sem sem.math loc).map (fun v => (a.1, v))) = .ok bs ↔
      List.Forall₂ (fun (a : Option N × Expr N C O) b => b.1 = a.1 ∧ a.2.eval sem sem.math loc = .ok b.2) (written as ks) bs := by
    intro bs
    rw [mapM_ok_iff]
    have : ∀ (a : Option N × Expr N C O) (b : Option N × V), (a.2.eval sem sem.math loc).map (fun v => (a.1, v)) = .ok b ↔
        b.1 = a.1 ∧ a.2.eval sem sem.math loc = .ok b.2 := by
      intro a b
      cases a.2.eval sem sem.math loc with
      | error e => exact ⟨fun h => (by cases h), fun h => (by cases h.2)⟩
      | ok v =>
        constructor
        · intro h; cases h; exact ⟨rfl, rfl⟩
        · rintro ⟨h1, h2⟩
          cases h2
          show Except.ok (a.1, b.2) = _
          rw [← h1]
    simp only [this]
  unfold ParsedFn.evaluate
  rw [getArguments_call]
  change _ ↔ _ ∧ _ ∧ List.Forall₂ _ (written as ks) _
  rw [← hF]
  rw [parsedFn_call]
  obtain ⟨s, g, bs⟩ := r
  cases (written as ks).mapM (fun a => (a.2.eval sem sem.math loc).map (fun v => (a.1, v))) with
  | error e => exact ⟨fun h => (by cases h), fun h => (by cases h.2.2)⟩
  | ok l =>
    constructor
    · intro h; cases h; exact ⟨rfl, rfl, rfl⟩
    · rintro ⟨h1, h2, h3⟩
      cases h1; cases h2; cases h3; rfl

/-- **C179**, failures: otherwise the exception is the one of the first argument that has no value. -/
theorem C179_error (sem : Sem N V C O S L) (loc : N → Option V) (f : N) (as : Args N C O) (ks : Kws N C O) (e : Err) :
    (parsedFn (.call f as ks)).evaluate sem loc = .error e ↔ ∃ pre a post,
      as.toList ++ ks.toList.map Prod.snd = pre ++ a :: post ∧ (∀ x ∈ pre, ∃ v, x.eval sem sem.math loc = .ok v) ∧
      a.eval sem sem.math loc = .error e := by
  have h0 : (parsedFn (.call f as ks)).evaluate sem loc = .error e ↔
      (as.toList ++ ks.toList.map Prod.snd).mapM (fun x => x.eval sem sem.math loc) = .error e := by
    have h1 : as.toList ++ ks.toList.map Prod.snd = (written as ks).map Prod.snd := by
      simp [written, Function.comp_def]
    rw [h1, List.mapM_map]
    unfold ParsedFn.evaluate
    rw [getArguments_call]
    generalize written as ks = l
    have h2 : l.mapM (fun a => (a.2.eval sem sem.math loc).map (fun v => (a.1, v))) = .error e ↔
        l.mapM ((fun x => x.eval sem sem.math loc) ∘ Prod.snd) = .error e := by
      rw [mapM_error_iff, mapM_error_iff]
      refine exists_congr fun pre => exists_congr fun a => exists_congr fun post => and_congr_right fun _ => ?_
      refine and_congr ?_ ?_
      · refine forall_congr' fun x => forall_congr' fun _ => ?_
        simp only [Function.comp]
        cases x.2.eval sem sem.math loc with
        | error e => exact ⟨fun ⟨_, h⟩ => (by cases h), fun ⟨_, h⟩ => (by cases h)⟩
        | ok v => exact ⟨fun _ => ⟨v, rfl⟩, fun _ => ⟨_, rfl⟩⟩
      · simp only [Function.comp]
        cases a.2.eval sem sem.math loc with
        | error e => exact ⟨fun h => (by cases h; rfl), fun h => (by cases h; rfl)⟩
        | ok v => exact ⟨fun h => (by cases h), fun h => (by cases h)⟩
    rw [← h2]
    cases l.mapM (fun a => (a.2.eval sem sem.math loc).map (fun v => (a.1, v))) with
    | error e' => exact ⟨fun h => (by cases h; rfl), fun h => (by cases h; rfl)⟩
    | ok l => exact ⟨fun h => (by cases h), fun h => (by cases h)⟩
  rw [h0, mapM_error_iff]

/-- **C179**, blueprints: the blueprint of a call is the one of the evaluated call. -/
theorem C179_blueprint (sem : Sem N V C O S L) (loc : N → Option V) (pf : ParsedFn N C O) (name : N) :
    pf.toBlueprint sem name loc = (pf.evaluate sem loc).map (fun r => r.toBlueprint name) := by
  unfold ParsedFn.toBlueprint ParsedFn.evaluate
  cases pf.getArguments sem loc <;> rfl

/-- `g(dbl(x), 1, t=y)` -/
def g179 : Toy.TE := Toy.app "g" [Toy.app "dbl" [Toy.var "x"], Toy.int 1] [("t", Toy.var "y")]

example : (parsedFn g179).evaluate Toy.sem (Toy.env [("x", .num 3), ("y", .num 5)])
    = .ok ⟨g179, some "g", [(none, .num 6), (none, .num 1), (some "t", .num 5)]⟩ := by decide

example : (parsedFn g179).evaluate Toy.sem (Toy.env [("x", .num 3)]) = .error .NameError := by decide

/-! ## C180 -/

/-- **C180**: the JSON form of a call has for every argument its value, or the argument as it is written when a name is not defined; any
other exception of an argument is raised. -/
theorem C180 (sem : Sem N V C O S L) (loc : N → Option V) (f : N) (as : Args N C O) (ks : Kws N C O)
    (r : Expr N C O × Option N × List (V ⊕ Option (Expr N C O))) :
    (parsedFn (.call f as ks)).toJson sem loc = .ok r ↔ r.1 = .call f as ks ∧ r.2.1 = some f ∧
      List.Forall₂ (fun (a : Expr N C O) b => (∃ v, a.eval sem sem.math loc = .ok v ∧ b = .inl v) ∨
          (a.eval sem sem.math loc = .error .NameError ∧ b = .inr (some a)))
        (as.toList ++ ks.toList.map Prod.snd) r.2.2 := by
  have hc : ∀ a : Option N × Expr N C O, (astToMath a.2.toAst).call sem loc = (match a.2.eval sem sem.math loc with
      | .ok v => .ok (.inl v)
      | .error .NameError => .ok (.inr (some a.2))
      | .error e => .error e) := by
    intro a
    unfold MathExpr.call
    rw [execute_toAst]
    cases a.2.eval sem sem.math loc with
    | ok v => rfl
    | error e =>
      cases e with
      | NameError => simp only [astToMath, expr?_toAst]
      | _ => rfl
  have h1 : as.toList ++ ks.toList.map Prod.snd = (written as ks).map Prod.snd := by simp [written, Function.comp_def]
  have h2 : ∀ bs, ((written as ks).map (fun a => (a.1, astToMath a.2.toAst))).mapM (fun a => a.2.call sem loc) = .ok bs ↔
      List.Forall₂ (fun (a : Expr N C O) b => (∃ v, a.eval sem sem.math loc = .ok v ∧ b = .inl v) ∨
          (a.eval sem sem.math loc = .error .NameError ∧ b = .inr (some a))) ((written as ks).map Prod.snd) bs := by
    intro bs
    rw [mapM_ok_iff, List.forall₂_map_left_iff, List.forall₂_map_left_iff]
    have : ∀ (a : Option N × Expr N C O) b, (astToMath a.2.toAst).call sem loc = .ok b ↔
        ((∃ v, a.2.eval sem sem.math loc = .ok v ∧ b = .inl v) ∨
          (a.2.eval sem sem.math loc = .error .NameError ∧ b = .inr (some a.2))) := by
      intro a b
      rw [hc]
      cases a.2.eval sem sem.math loc with
      | ok v =>
        constructor
        · intro h; cases h; exact Or.inl ⟨v, rfl, rfl⟩
        · rintro (⟨w, hw, rfl⟩ | ⟨hw, -⟩)
          · cases hw; rfl
          · cases hw
      | error e =>
        by_cases he : e = .NameError
        · subst he
          constructor
          · intro h; cases h; exact Or.inr ⟨rfl, rfl⟩
          · rintro (⟨w, hw, -⟩ | ⟨-, rfl⟩)
            · cases hw
            · rfl
        · constructor
          · intro h
            split at h
            · rename_i hv; cases hv
            · rename_i hv; cases hv; exact absurd rfl he
            · cases h
          · rintro (⟨w, hw, -⟩ | ⟨hw, -⟩)
            · cases hw
            · cases hw; exact absurd rfl he
    simp only [this]
  rw [h1, ← h2]
  rw [parsedFn_call]
  unfold ParsedFn.toJson
  obtain ⟨s, g, bs⟩ := r
  dsimp only
  cases ((written as ks).map (fun a => (a.1, astToMath a.2.toAst))).mapM (fun a => a.2.call sem loc) with
  | error e => exact ⟨fun h => (by cases h), fun h => (by cases h.2.2)⟩
  | ok l =>
    constructor
    · intro h; cases h; exact ⟨rfl, rfl, rfl⟩
    · rintro ⟨h1, h2, h3⟩
      cases h1; cases h2; cases h3; rfl

/-- **C180**, full evaluation: for a call all of whose arguments have a value, the JSON forms before and after evaluation agree. -/
theorem C180_agree (sem : Sem N V C O S L) (loc : N → Option V) (f : N) (as : Args N C O) (ks : Kws N C O) {r : EvaluatedFn N V C O}
    (h : (parsedFn (.call f as ks)).evaluate sem loc = .ok r) :
    (parsedFn (.call f as ks)).toJson sem loc = .ok (r.toJson.1, r.toJson.2.1, r.toJson.2.2.map .inl) := by
  rw [C179] at h
  rw [C180]
  refine ⟨h.1, h.2.1, ?_⟩
  have h1 : as.toList ++ ks.toList.map Prod.snd = (written as ks).map Prod.snd := by simp [written, Function.comp_def]
  have h2 := h.2.2
  rw [h1]
  show List.Forall₂ _ _ ((r.arguments.map Prod.snd).map Sum.inl)
  rw [List.map_map, List.forall₂_map_left_iff, List.forall₂_map_right_iff]
  exact List.Forall₂.imp (fun a b hab => Or.inl ⟨b.2, hab.2, rfl⟩) h2

/-- **C180**, texts: an argument that is left as it is written has a name that is neither given nor known. -/
theorem C180_text (sem : Sem N V C O S L) (hs : NoOwnNameError sem) (loc : N → Option V) (m : MathExpr N C O) {e : Option (Expr N C O)}
    (h : m.call sem loc = .ok (.inr e)) : ∃ t, e = some t ∧ m.expr = some t ∧ ∃ x, (Uses t x ∨ Calls t x) ∧ loc x = none ∧
      sem.math x = none := by
  unfold MathExpr.call MathExpr.execute at h
  cases hm : m.expr with
  | none => rw [hm] at h; cases h
  | some t =>
    rw [hm] at h
    cases ht : t.eval sem sem.math loc with
    | ok v => simp only [ht] at h; cases h
    | error err =>
      have hn : err = .NameError := by
        cases err <;> simp only [ht] at h <;> first | rfl | cases h
      subst hn
      simp only [ht] at h
      cases h
      obtain ⟨x, hx, hl, hg⟩ := Expr.eval_nameError hs t ht
      exact ⟨t, rfl, rfl, x, (Expr.mem_names x t).1 hx, hl, hg⟩

example : (parsedFn g179).toJson Toy.sem (Toy.env [("y", .num 5)])
    = .ok (g179, some "g", [.inr (some (Toy.app "dbl" [Toy.var "x"])), .inl (.num 1), .inl (.num 5)]) := rfl

/-! ## C181 -/

/-- **C181 (the part that holds)**: what `is_executable` accepts is never left as text for want of a name.  Missing: the converse
(`C181_refuted`). -/
theorem C181_partial (sem : Sem N V C O S L) (hs : NoOwnNameError sem) (table : Dict N V) (builtins : N → Option V) (e : Expr N C O)
    (loc : N → Option V) (h : (parseMath e).isExecutable table loc = true) (t : Option (Expr N C O)) :
    (parseMath e).execute (withMath sem table builtins) loc ≠ .error .NameError ∧
    (parseMath e).call (withMath sem table builtins) loc ≠ .ok (.inr t) := by
  have hx : (parseMath e).execute (withMath sem table builtins) loc ≠ .error .NameError := by
    unfold MathExpr.isExecutable at h
    rw [Bool.and_eq_true, List.all_eq_true, List.all_eq_true] at h
    have hs' : NoOwnNameError (withMath sem table builtins) := ⟨hs.1, hs.2⟩
    refine Props.Expr.C32_no_name_error _ hs' e (fun x hx => ?_) (fun f hf => ?_)
    · exact h.1 x (((Props.Expr.C32_walk e).1 x).2 hx)
    · have := h.2 f (((Props.Expr.C32_walk e).2 f).2 hf)
      rw [decide_eq_true_eq] at this
      simp only [withMath]
      cases hg : table.get? f with
      | some v => rfl
      | none => exact absurd this ((Dict.get?_eq_none_iff _ _).1 hg)
  refine ⟨hx, fun hc => hx ?_⟩
  unfold MathExpr.call at hc
  cases hr : (parseMath e).execute (withMath sem table builtins) loc with
  | ok v => rw [hr] at hc; cases hc
  | error err =>
    rw [hr] at hc
    cases err <;> first | rfl | cases hc

/-- **C181 is false of the code**: an expression that calls a function of Python (here `dbl`) is refused by `is_executable` and can be
executed. -/
theorem C181_refuted : ∃ (e : Toy.TE) (loc : String → Option Toy.TV),
    (parseMath e).isExecutable ([] : Dict String Toy.TV) loc = false ∧
    (parseMath e).execute (withMath Toy.sem [] Toy.sem.math) loc = .ok (.num 6) :=
  ⟨Toy.app "dbl" [Toy.var "x"], Toy.env [("x", .num 3)], by decide, by decide⟩

example : (parseMath (Toy.plus (Toy.app "dbl" [Toy.var "x"]) (Toy.var "y"))).isExecutable [("dbl", Toy.TV.fn "dbl")]
    (Toy.env [("x", .num 3), ("y", .num 1)]) = true := by decide

/-! ## C182 -/

/-- `MATH_FUNC` after functions were added one after the other. -/
def addAll (callable : V → Bool) (table : Dict N V) (regs : List (N × V)) : Dict N V :=
  regs.foldl (fun d p => addMathFunc callable d p.1 p.2) table

theorem addAll_other (callable : V → Bool) (f : N) : ∀ (regs : List (N × V)) (table : Dict N V),
    (∀ p ∈ regs, p.1 = f → callable p.2 = false) → (addAll callable table regs).get? f = table.get? f
  | [], _, _ => rfl
  | p :: regs, table, h => by
    show (addAll callable (addMathFunc callable table p.1 p.2) regs).get? f = _
    rw [addAll_other callable f regs _ (fun q hq => h q (List.mem_cons_of_mem _ hq))]
    unfold addMathFunc
    split
    · rename_i hc
      have hne : p.1 ≠ f := fun he => by rw [h p (List.mem_cons_self ..) he] at hc; cases hc
      rw [Dict.get?_set_ne _ _ hne]
    · rfl

/-- **C182**: after any functions were added, a call of `f` applies the last one that was added under `f` and can be called; what cannot be
called was ignored. -/
theorem C182 (sem : Sem N V C O S L) (callable : V → Bool) (table : Dict N V) (builtins : N → Option V) (pre post : List (N × V)) (f : N)
    (fn : V) (hf : callable fn = true) (hpost : ∀ p ∈ post, p.1 = f → callable p.2 = false) (as : Args N C O) (ks : Kws N C O)
    (loc : N → Option V) (hloc : loc f = none) :
    let sem' := withMath sem (addAll callable table (pre ++ (f, fn) :: post)) builtins
    (Expr.call f as ks).eval sem' sem'.math loc = sem.call fn (as.eval sem' sem'.math loc) (ks.eval sem' sem'.math loc) := by
  intro sem'
  have hg : sem'.math f = some fn := by
    have : (addAll callable table (pre ++ (f, fn) :: post)).get? f = some fn := by
      unfold addAll
      rw [List.foldl_append, List.foldl_cons]
      show (addAll callable _ post).get? f = _
      rw [addAll_other callable f post _ hpost]
      simp only [addMathFunc, hf, if_true]
      exact Dict.get?_set_self ..
    show (match (addAll callable table (pre ++ (f, fn) :: post)).get? f with | some v => some v | none => builtins f) = _
    rw [this]
  have hl : lookup sem'.math loc f = .ok fn := by simp only [lookup, hloc, hg]
  simp only [Expr.eval, hl]
  rfl

/-- **C182**, the rest: functions that are added make no difference to an expression that does not mention them. -/
theorem C182_others (sem : Sem N V C O S L) (callable : V → Bool) (table : Dict N V) (builtins : N → Option V) (regs : List (N × V))
    (e : Expr N C O) (loc : N → Option V) (h : ∀ p ∈ regs, ¬ Uses e p.1 ∧ ¬ Calls e p.1) :
    (parseMath e).execute (withMath sem (addAll callable table regs) builtins) loc = (parseMath e).execute (withMath sem table builtins) loc := by
  show e.eval _ _ loc = e.eval _ _ loc
  refine Expr.eval_globals (sem := withMath sem (addAll callable table regs) builtins) (sem' := withMath sem table builtins) rfl rfl rfl
    loc e (fun x hx => ?_)
  have : (addAll callable table regs).get? x = table.get? x := by
    refine addAll_other callable x regs table (fun p hp he => ?_)
    subst he
    rcases (Expr.mem_names _ e).1 hx with hu | hu
    · exact absurd hu (h p hp).1
    · exact absurd hu (h p hp).2
  simp only [withMath, this]

example : let sem' := withMath Toy.sem (addAll (fun v => match v with | .fn _ => true | _ => false) []
      [("twice", .fn "dbl"), ("twice", .num 4), ("once", .num 1)]) (fun _ => none)
    (Toy.app "twice" [Toy.int 4]).eval sem' sem'.math (fun _ => none) = .ok (.num 8) := by decide

/-! ## C183 -/

/-- `DATA_FUNC` after a number of calls of `add_data_func`, whose exceptions are caught. -/
def offer (table : Dict N (DataFn N V D)) (regs : List (N × DataFn N V D)) : Dict N (DataFn N V D) :=
  regs.foldl (fun d p => (addDataFunc d p.1 p.2).1) table

theorem addDataFunc_old {table : Dict N (DataFn N V D)} {f : N} {fn : DataFn N V D} (h : table.get? f = some fn) (g : N)
    (fn' : DataFn N V D) : ((addDataFunc table g fn').1).get? f = some fn := by
  have hk : f ∈ table.keys := (Dict.mem_keys_iff_exists _ _).2 ⟨_, h⟩
  unfold addDataFunc
  dsimp only
  split
  · exact h
  · exact h
  · split
    · exact h
    · rename_i hg
      rw [Dict.get?_set_ne _ _ (fun (he : g = f) => hg (he ▸ hk))]
      exact h

/-- **C183 (the part that holds)**: a data function that has been accepted stays, whatever is offered afterwards; offering another one under
its name is an AssertionError; and its sampler is the one its `get_sampler` makes.  Missing: functions without `get_sampler`
(`C183_refuted`), and the use in definitions (`C183_unusable`). -/
theorem C183_partial (table : Dict N (DataFn N V D)) (f : N) (fn : DataFn N V D) (h : (addDataFunc table f fn).2 = .ok ())
    (regs : List (N × DataFn N V D)) :
    let table' := offer (addDataFunc table f fn).1 regs
    table'.get? f = some fn ∧ (∀ fn', (addDataFunc table' f fn').2 ≠ .ok () ∧ (addDataFunc table' f fn').1 = table') ∧
    ∀ g, fn.getSampler = some (some g) → ∀ loc, findDataSampler table' f loc = g loc := by
  intro table'
  have h0 : ((addDataFunc table f fn).1).get? f = some fn := by
    unfold addDataFunc at h ⊢
    dsimp only at h ⊢
    split at h
    · cases h
    · cases h
    · split at h
      · cases h
      · rename_i hx hk
        rw [if_neg hk]
        exact Dict.get?_set_self ..
  have h1 : ∀ (regs : List (N × DataFn N V D)) (d : Dict N (DataFn N V D)), d.get? f = some fn → (offer d regs).get? f = some fn := by
    intro regs
    induction regs with
    | nil => intro d hd; exact hd
    | cons p regs ih => intro d hd; exact ih _ (addDataFunc_old hd p.1 p.2)
  have h2 : table'.get? f = some fn := h1 regs _ h0
  refine ⟨h2, fun fn' => ?_, fun g hg loc => ?_⟩
  · have hk : f ∈ table'.keys := (Dict.mem_keys_iff_exists _ _).2 ⟨_, h2⟩
    unfold addDataFunc
    dsimp only
    split
    · exact ⟨fun he => (by cases he), rfl⟩
    · exact ⟨fun he => (by cases he), rfl⟩
    · rw [if_pos hk]; exact ⟨fun he => (by cases he), rfl⟩
  · simp only [findDataSampler, h2, hg]

/-- **C183**, refusals: what is neither callable nor has a `get_sampler` is an AttributeError, and an AssertionError when its
`get_sampler` is no function; a sampler that is not registered is a KeyError, and one whose `get_sampler` is no function a TypeError;
the table stays as it was. -/
theorem C183_refusals (table : Dict N (DataFn N V D)) (f : N) (loc : N → Option V) :
    addDataFunc table f ⟨false, none⟩ = (table, .error .AttributeError) ∧
    addDataFunc table f ⟨false, some none⟩ = (table, .error .AssertionError) ∧
    (f ∉ table.keys → findDataSampler table f loc = .error .KeyError) ∧
    (∀ c, table.get? f = some ⟨c, some none⟩ → findDataSampler table f loc = .error .TypeError) ∧
    (∀ c, table.get? f = some ⟨c, none⟩ → findDataSampler table f loc = .error .AttributeError) := by
  refine ⟨rfl, rfl, fun h => ?_, fun c h => ?_, fun c h => ?_⟩
  · simp only [findDataSampler, (Dict.get?_eq_none_iff _ _).2 h]
  · simp only [findDataSampler, h]
  · simp only [findDataSampler, h]

/-- **C183 is false of the code**: a plain function is accepted as a data function and then has no sampler. -/
theorem C183_refuted (f : N) (loc : N → Option V) : ∃ fn : DataFn N V D, (addDataFunc [] f fn).2 = .ok () ∧
    findDataSampler (addDataFunc [] f fn).1 f loc = .error .AttributeError :=
  ⟨⟨true, none⟩, rfl, by
    have : (addDataFunc ([] : Dict N (DataFn N V D)) f ⟨true, none⟩).1 = [(f, ⟨true, none⟩)] := rfl
    rw [this]
    simp [findDataSampler, Dict.get?]⟩

/-- **C183 is false of the code**, definitions: no random variable can be defined by a data function that is not also a distribution,
whatever has been added - the definition is a KeyError. -/
theorem C183_unusable (sem : Sem N V C O S L) {f : N} (hf : sem.schema f = none) (n : N) (as : Args N C O) (ks : Kws N C O) (pas : List N) :
    mkDist sem n (.call f as ks) pas = .error .KeyError := by
  unfold mkDist
  have : completeDef sem (.call f as ks : Expr N C O) = .error .KeyError := by
    unfold completeDef
    have h1 : firstCall (Expr.call f as ks : Expr N C O).size [.call f as ks] = some (f, as.toList, ks.toList) := by
      have : (Expr.call f as ks : Expr N C O).size = (as.size + ks.size) + 1 := by simp only [Expr.size]; omega
      rw [this]; rfl
    rw [h1]
    simp only [hf]
  rw [this]; rfl

example : (addDataFunc (offer [] [("a", (⟨false, some (some (fun _ => .ok 1))⟩ : DataFn String Toy.TV Nat)), ("a", ⟨true, none⟩)])
    "a" ⟨true, none⟩).2 = .error .AssertionError := by rfl

example : findDataSampler (offer [] [("a", (⟨false, some (some (fun _ => .ok 1))⟩ : DataFn String Toy.TV Nat)), ("a", ⟨true, none⟩)])
    "a" (fun _ => none) = .ok 1 := by rfl

/-! ## C184 -/

/-- The environment in which two values are the functions `ifelse` and `step`. -/
def withCases [DecidableEq V] (sem : Sem N V C O S L) (truth : V → Result Bool) (lt : V → V → Result Bool) (fi fs : V) :
    Sem N V C O S L :=
  { sem with call := fun v as ks =>
      if v = fi then strictly (ifelse truth) as ks
      else if v = fs then strictly (stepFn lt) as ks
      else sem.call v as ks }

/-- **C184 (the part that holds)**: `ifelse(c, a, b)` has a value exactly when `c`, `a` and `b` have one and `c` can be tested, and then it
is the value of `a` or of `b`.  Missing: the branch that is not taken must have a value, too (`C184_refuted`). -/
theorem C184_partial [DecidableEq V] (sem : Sem N V C O S L) (truth : V → Result Bool) (lt : V → V → Result Bool) (fi fs : V) (f : N)
    (loc glob : N → Option V) (hl : loc f = none) (hg : glob f = some fi) (c a b : Expr N C O) (v : V) :
    let sem' := withCases sem truth lt fi fs
    (Expr.call f (Args.ofList [c, a, b]) .nil).eval sem' glob loc = .ok v ↔ ∃ vc va vb t,
      c.eval sem' glob loc = .ok vc ∧ a.eval sem' glob loc = .ok va ∧ b.eval sem' glob loc = .ok vb ∧ truth vc = .ok t ∧
      v = if t then va else vb := by
  intro sem'
  have h0 : (Expr.call f (Args.ofList [c, a, b]) .nil).eval sem' glob loc =
      strictly (N := N) (ifelse truth) [c.eval sem' glob loc, a.eval sem' glob loc, b.eval sem' glob loc] [] := by
    simp only [Expr.eval, lookup, hl, hg, Args.ofList, Args.eval, Kws.eval]
    show (if fi = fi then _ else _) = _
    rw [if_pos rfl]
  rw [h0]
  constructor
  · intro h
    cases hc : c.eval sem' glob loc with
    | error e => rw [hc] at h; cases h
    | ok vc =>
      cases ha : a.eval sem' glob loc with
      | error e => rw [hc, ha] at h; cases h
      | ok va =>
        cases hb : b.eval sem' glob loc with
        | error e => rw [hc, ha, hb] at h; cases h
        | ok vb =>
          rw [hc, ha, hb] at h
          change (do return if ← truth vc then va else vb) = Except.ok v at h
          cases ht : truth vc with
          | error e => rw [ht] at h; cases h
          | ok t =>
            rw [ht] at h
            cases h
            exact ⟨vc, va, vb, t, rfl, rfl, rfl, ht, rfl⟩
  · rintro ⟨vc, va, vb, t, hc, ha, hb, ht, rfl⟩
    rw [hc, ha, hb]
    show (do return if ← truth vc then va else vb) = Except.ok _
    rw [ht]; rfl

/-- **C184**, steps: `step(k, c, a, b)` has the value of `a` below the cut and of `b` from the cut on. -/
theorem C184_step [DecidableEq V] (sem : Sem N V C O S L) (truth : V → Result Bool) (lt : V → V → Result Bool) {fi fs : V} (hne : fs ≠ fi)
    (f : N) (loc glob : N → Option V) (hl : loc f = none) (hg : glob f = some fs) (k c a b : Expr N C O) (v : V) :
    let sem' := withCases sem truth lt fi fs
    (Expr.call f (Args.ofList [k, c, a, b]) .nil).eval sem' glob loc = .ok v ↔ ∃ vk vc va vb t,
      k.eval sem' glob loc = .ok vk ∧ c.eval sem' glob loc = .ok vc ∧ a.eval sem' glob loc = .ok va ∧ b.eval sem' glob loc = .ok vb ∧
      lt vk vc = .ok t ∧ v = if t then va else vb := by
  intro sem'
  have h0 : (Expr.call f (Args.ofList [k, c, a, b]) .nil).eval sem' glob loc = strictly (N := N) (stepFn lt)
      [k.eval sem' glob loc, c.eval sem' glob loc, a.eval sem' glob loc, b.eval sem' glob loc] [] := by
    simp only [Expr.eval, lookup, hl, hg, Args.ofList, Args.eval, Kws.eval]
    show (if fs = fi then _ else if fs = fs then _ else _) = _
    rw [if_neg hne, if_pos rfl]
  rw [h0]
  constructor
  · intro h
    cases hk : k.eval sem' glob loc with
    | error e => rw [hk] at h; cases h
    | ok vk =>
      cases hc : c.eval sem' glob loc with
      | error e => rw [hk, hc] at h; cases h
      | ok vc =>
        cases ha : a.eval sem' glob loc with
        | error e => rw [hk, hc, ha] at h; cases h
        | ok va =>
          cases hb : b.eval sem' glob loc with
          | error e => rw [hk, hc, ha, hb] at h; cases h
          | ok vb =>
            rw [hk, hc, ha, hb] at h
            change (do return if ← lt vk vc then va else vb) = Except.ok v at h
            cases ht : lt vk vc with
            | error e => rw [ht] at h; cases h
            | ok t =>
              rw [ht] at h
              cases h
              exact ⟨vk, vc, va, vb, t, rfl, rfl, rfl, rfl, ht, rfl⟩
  · rintro ⟨vk, vc, va, vb, t, hk, hc, ha, hb, ht, rfl⟩
    rw [hk, hc, ha, hb]
    show (do return if ← lt vk vc then va else vb) = Except.ok _
    rw [ht]; rfl

/-- Numbers are true when they are not zero; comparing is for numbers. -/
def truth184 : Toy.TV → Result Bool
  | .num n => .ok (n ≠ 0)
  | _ => .ok true

/-- `a < b`. -/
def lt184 : Toy.TV → Toy.TV → Result Bool
  | .num m, .num n => .ok (m < n)
  | _, _ => .error .TypeError

/-- The environment of the examples. -/
def sem184 : Sem String Toy.TV Toy.TC Unit Int (XR Int) := withCases Toy.sem truth184 lt184 (.fn "ifelse") (.fn "step")

/-- **C184**, exceptions: the first argument without a value, in the order in which they are written, decides the exception
of the call, whatever the others are; without such an argument, it is that of testing the condition. -/
theorem C184_exceptions [DecidableEq V] (sem : Sem N V C O S L) (truth : V → Result Bool) (lt : V → V → Result Bool) (fi fs : V) (f : N)
    (loc glob : N → Option V) (hl : loc f = none) (hg : glob f = some fi) (c a b : Expr N C O) (e : Err) :
    let sem' := withCases sem truth lt fi fs
    (Expr.call f (Args.ofList [c, a, b]) .nil).eval sem' glob loc = .error e ↔
      c.eval sem' glob loc = .error e ∨
      (∃ vc, c.eval sem' glob loc = .ok vc ∧ (a.eval sem' glob loc = .error e ∨
        ∃ va, a.eval sem' glob loc = .ok va ∧ (b.eval sem' glob loc = .error e ∨
          ∃ vb, b.eval sem' glob loc = .ok vb ∧ truth vc = .error e))) := by
  intro sem'
  have h0 : (Expr.call f (Args.ofList [c, a, b]) .nil).eval sem' glob loc =
      strictly (N := N) (ifelse truth) [c.eval sem' glob loc, a.eval sem' glob loc, b.eval sem' glob loc] [] := by
    simp only [Expr.eval, lookup, hl, hg, Args.ofList, Args.eval, Kws.eval]
    show (if fi = fi then _ else _) = _
    rw [if_pos rfl]
  rw [h0]
  cases hc : c.eval sem' glob loc with
  | error e' =>
    have : strictly (N := N) (ifelse truth) [.error e', a.eval sem' glob loc, b.eval sem' glob loc] [] = .error e' := rfl
    rw [this]; simp
  | ok vc =>
    cases ha : a.eval sem' glob loc with
    | error e' =>
      have : strictly (N := N) (ifelse truth) [.ok vc, .error e', b.eval sem' glob loc] [] = .error e' := rfl
      rw [this]; simp
    | ok va =>
      cases hb : b.eval sem' glob loc with
      | error e' =>
        have : strictly (N := N) (ifelse truth) [.ok vc, .ok va, .error e'] [] = .error e' := rfl
        rw [this]; simp
      | ok vb =>
        have : strictly (N := N) (ifelse truth) [.ok vc, .ok va, .ok vb] [] = (do return if ← truth vc then va else vb) := rfl
        rw [this]
        cases ht : truth vc with
        | error e' =>
          have : (do return if ← (Except.error e' : Result Bool) then va else vb : Result V) = .error e' := rfl
          rw [this]; simp [ht]
        | ok t =>
          have : (do return if ← (Except.ok t : Result Bool) then va else vb : Result V) = .ok (if t then va else vb) := rfl
          rw [this]; simp [ht]

/-- Its functions. -/
def glob184 : String → Option Toy.TV := Toy.env [("ifelse", .fn "ifelse"), ("step", .fn "step"), ("dbl", .fn "dbl")]

/-- **C184 is false of the code**: the branch that is not taken is evaluated, and its exception is the outcome. -/
theorem C184_refuted : (Toy.app "ifelse" [Toy.int 1, Toy.int 7, Toy.app "dbl" []]).eval sem184 glob184 (fun _ => none) = .error .TypeError ∧
    (Toy.int 7).eval sem184 glob184 (fun _ => none) = .ok (.num 7) := by decide

example : (Toy.app "ifelse" [Toy.int 1, Toy.var "z", Toy.app "dbl" []]).eval sem184 glob184 (fun _ => none) = .error .NameError ∧
    (Toy.app "dbl" []).eval sem184 glob184 (fun _ => none) = .error .TypeError := by decide

example : (Toy.app "ifelse" [Toy.int 0, Toy.int 7, Toy.app "dbl" [Toy.int 4]]).eval sem184 glob184 (fun _ => none) = .ok (.num 8) := by decide

example : (Toy.app "step" [Toy.int 3, Toy.int 3, Toy.int 7, Toy.int 8]).eval sem184 glob184 (fun _ => none) = .ok (.num 8) ∧
    (Toy.app "step" [Toy.int 2, Toy.int 3, Toy.int 7, Toy.int 8]).eval sem184 glob184 (fun _ => none) = .ok (.num 7) := by decide

end Props.Parsed
