import Verif.Model.Operators
import Verif.Props.Parsed

/-!
# Properties of the operators of the genetic algorithm by name: C185
-/

namespace Props.Operators

set_option linter.unusedSectionVars false

open Py Model

variable {V C O S L : Type}

theorem firstCall_self (f : String) (as : Args String C O) (ks : Kws String C O) :
    firstCall (Expr.call f as ks : Expr String C O).size [.call f as ks] = some (f, as.toList, ks.toList) := by
  have : (Expr.call f as ks : Expr String C O).size = (as.size + ks.size) + 1 := by simp only [Expr.size]; omega
  rw [this]; rfl

/-- Completion and evaluation of a call. -/
theorem getOperator_eq (base : Sem String V C O S L) (positive : OpVal V → Result Nat) (three : C)
    {parse : Text → Result (Expr String C O)} (centre : Centre) {seq : Text} (hs : seq.getLast? = some ')') {e : Expr String C O}
    (hp : parse seq = .ok e) : getOperator base positive three parse centre seq =
      (do match ← getBlueprint (workshop base positive three centre) e (fun _ => none) with
          | .blueprint o => return o
          | _ => .error .AttributeError) := by
  unfold getOperator
  rw [if_pos hs]
  show (do
    let e ← parse seq
    match ← getBlueprint (workshop base positive three centre) e (fun _ => none) with
    | .blueprint o => return o
    | _ => .error .AttributeError) = _
  rw [hp]; rfl

/-- **C185**, parentheses: a text that does not end in a parenthesis stands for the one with an empty pair added. -/
theorem C185_bare (base : Sem String V C O S L) (positive : OpVal V → Result Nat) (three : C) (parse : Text → Result (Expr String C O))
    (centre : Centre) {seq : Text} (hs : seq.getLast? ≠ some ')') :
    getOperator base positive three parse centre seq = getOperator base positive three parse centre (seq ++ "()".toList) := by
  have h : (seq ++ ['(', ')']).getLast? = some ')' := by simp
  show _ = getOperator base positive three parse centre (seq ++ ['(', ')'])
  unfold getOperator
  rw [if_neg hs, if_pos h]

/-- **C185**, names: the five names give the operators they name, the tournament being among three. -/
theorem C185_names (base : Sem String V C O S L) (positive : OpVal V → Result Nat) {three : C} {parse : Text → Result (Expr String C O)}
    (h3 : base.reparse three = .const three) (hk : positive (.plain (base.const three)) = .ok 3)
    (hp : ∀ f ∈ ["average", "shuffle", "rw", "tour", "importance"], parse (f.toList ++ "()".toList) = .ok (.call f .nil .nil)) :
    getOperator base positive three parse .crossover "average".toList = .ok .average ∧
    getOperator base positive three parse .crossover "shuffle".toList = .ok .shuffle ∧
    getOperator base positive three parse .mutator "rw".toList = .ok .rw ∧
    getOperator base positive three parse .selector "tour".toList = .ok (.tour 3) ∧
    getOperator base positive three parse .selector "importance".toList = .ok .importance := by
  have plain : ∀ (c : Centre) (f : String) (o : Operator), f ∈ c.names → f ≠ "tour" →
      callCreator positive f [] [] = .ok (.blueprint o) →
      parse (f.toList ++ "()".toList) = .ok (.call f .nil .nil) → f.toList.getLast? ≠ some ')' →
      getOperator base positive three parse c f.toList = .ok o := by
    intro c f o hc hf hcall hpf hl
    rw [C185_bare base positive three parse c hl, getOperator_eq base positive three c (by simp) hpf]
    have h1 : completeDef (workshop base positive three c) (.call f .nil .nil) = .ok (.call f .nil .nil) := by
      unfold completeDef
      rw [firstCall_self]
      simp [workshop, hc, hf]
    have h2 : getBlueprint (workshop base positive three c) (.call f .nil .nil) (fun _ => none) = .ok (.blueprint o) := by
      unfold getBlueprint
      rw [h1]
      show (Expr.call f .nil .nil).eval _ _ _ = _
      have hl : lookup (workshop base positive three c).creators (fun _ => none) f = .ok (.creator f) := by
        simp [lookup, workshop, hc]
      simp only [Expr.eval, hl]
      exact hcall
    rw [h2]; rfl
  refine ⟨plain .crossover _ _ (by decide) (by decide) rfl (hp _ (by simp)) (by decide),
    plain .crossover _ _ (by decide) (by decide) rfl (hp _ (by simp)) (by decide),
    plain .mutator _ _ (by decide) (by decide) rfl (hp _ (by simp)) (by decide), ?_,
    plain .selector _ _ (by decide) (by decide) rfl (hp _ (by simp)) (by decide)⟩
  rw [C185_bare base positive three parse .selector (by decide), getOperator_eq base positive three .selector (by decide) (hp "tour" (by simp))]
  have h1 : completeDef (workshop base positive three .selector) (.call "tour" .nil .nil) =
      .ok (.call "tour" .nil (.cons "K" (.const three) .nil)) := by
    have h : completeDef (workshop base positive three .selector) (.call "tour" .nil .nil) =
      .ok (.call "tour" .nil (.cons "K" (base.reparse three) .nil)) := rfl
    rw [h, h3]
  have h2 : getBlueprint (workshop base positive three .selector) (.call "tour" .nil .nil) (fun _ => none) = .ok (.blueprint (.tour 3)) := by
    unfold getBlueprint
    rw [h1]
    show (do return OpVal.blueprint (.tour (← positive (.plain (base.const three)))) : Result (OpVal V)) = _
    rw [hk]; rfl
  rw [h2]; rfl

/-- **C185**, the number of a tournament: `tour(c)` and `tour(K=c)` are tournaments among the number `c`; what is no positive number is
refused with the exception of the validation.  Missing: arguments that are too many (`C185_refuted`). -/
theorem C185_tour_partial (base : Sem String V C O S L) (positive : OpVal V → Result Nat) (three : C) {parse : Text → Result (Expr String C O)}
    {c : C} (hr : base.reparse c = .const c) {seq : Text} (hs : seq.getLast? = some ')')
    (hp : parse seq = .ok (.call "tour" (.cons (.const c) .nil) .nil) ∨ parse seq = .ok (.call "tour" .nil (.cons "K" (.const c) .nil))) :
    getOperator base positive three parse .selector seq = (positive (.plain (base.const c))).map Operator.tour := by
  rcases hp with hp | hp
  · rw [getOperator_eq base positive three .selector hs hp]
    have h1 : completeDef (workshop base positive three .selector) (.call "tour" (.cons (.const c) .nil) .nil) =
        .ok (.call "tour" .nil (.cons "K" (.const c) .nil)) := by
      have h : completeDef (workshop base positive three .selector) (.call "tour" (.cons (.const c) .nil) .nil) =
        .ok (.call "tour" .nil (.cons "K" (base.reparse c) .nil)) := rfl
      rw [h, hr]
    have h2 : getBlueprint (workshop base positive three .selector) (.call "tour" (.cons (.const c) .nil) .nil) (fun _ => none) =
        (do return OpVal.blueprint (.tour (← positive (.plain (base.const c))))) := by
      unfold getBlueprint
      rw [h1]; rfl
    rw [h2]
    cases positive (.plain (base.const c)) <;> rfl
  · rw [getOperator_eq base positive three .selector hs hp]
    have h2 : getBlueprint (workshop base positive three .selector) (.call "tour" .nil (.cons "K" (.const c) .nil)) (fun _ => none) =
        (do return OpVal.blueprint (.tour (← positive (.plain (base.const c))))) := rfl
    rw [h2]
    cases positive (.plain (base.const c)) <;> rfl

/-- The names that each workshop knows. -/
def Known : Centre → String → Prop
  | .crossover, f => f = "average" ∨ f = "shuffle"
  | .mutator, f => f = "rw"
  | .selector, f => f = "tour" ∨ f = "importance"

theorem known_iff (c : Centre) (f : String) : Known c f ↔ f ∈ c.names := by cases c <;> simp [Known, Centre.names]

/-- **C185**, refusals: a name that is not registered with the workshop is a KeyError, also when it is registered with another one; a text
that is no call of a function is an AttributeError; arguments for an operator that takes none are a TypeError. -/
theorem C185_refused (base : Sem String V C O S L) (positive : OpVal V → Result Nat) (three : C) {parse : Text → Result (Expr String C O)}
    (centre : Centre) {seq : Text} (hs : seq.getLast? = some ')') {e : Expr String C O} (hp : parse seq = .ok e) :
    (∀ f as ks, e = .call f as ks → ¬ Known centre f → getOperator base positive three parse centre seq = .error .KeyError) ∧
    (e.called = [] → getOperator base positive three parse centre seq = .error .AttributeError) ∧
    (∀ f c cs, e = .call f (.cons (.const c) cs) .nil → Known centre f → f ≠ "tour" → (∀ a ∈ cs.toList, ∃ c, a = .const c) →
      getOperator base positive three parse centre seq = .error .TypeError) := by
  simp only [known_iff]
  rw [getOperator_eq base positive three centre hs hp]
  refine ⟨?_, ?_, ?_⟩
  · rintro f as ks rfl hf
    have h1 : completeDef (workshop base positive three centre) (.call f as ks) = .error .KeyError := by
      unfold completeDef
      rw [firstCall_self]
      simp [workshop, hf]
    unfold getBlueprint
    rw [h1]; rfl
  · intro hc
    have hfc : ∀ (n : Nat) (q : List (Expr String C O)), (∀ a ∈ q, a.called = []) → firstCall n q = none := by
      intro n
      induction n with
      | zero => intro q _; rfl
      | succ n ih =>
        intro q hq
        cases q with
        | nil => rfl
        | cons a q =>
          have hq' : ∀ b ∈ q, b.called = [] := fun b hb => hq b (List.mem_cons_of_mem _ hb)
          cases a with
          | const c => exact ih q hq'
          | name x => exact ih q hq'
          | op o as =>
            refine ih (q ++ as.toList) (fun b hb => ?_)
            rcases List.mem_append.1 hb with hb | hb
            · exact hq' b hb
            · have h0 := hq _ (List.mem_cons_self ..)
              have : ∀ (as : Args String C O), as.called = [] → ∀ b ∈ as.toList, b.called = [] := by
                intro as
                induction as using Args.rec (motive_1 := fun _ => True) (motive_3 := fun _ => True) with
                | nil => intro _ b hb; cases hb
                | cons e as _ ih =>
                  intro h b hb
                  simp only [Args.called, List.append_eq_nil_iff] at h
                  rcases List.mem_cons.1 hb with rfl | hb
                  · exact h.1
                  · exact ih h.2 b hb
                | _ => trivial
              exact this as h0 b hb
          | call f as ks =>
            have h0 := hq _ (List.mem_cons_self ..)
            simp [Expr.called] at h0
    have h1 : completeDef (workshop base positive three centre) e = .error .AttributeError := by
      unfold completeDef
      rw [hfc e.size [e] (by simpa using hc)]
    unfold getBlueprint
    rw [h1]; rfl
  · rintro f c cs rfl hf ht hcs
    have h1 : completeDef (workshop base positive three centre) (.call f (.cons (.const c) cs) .nil) = .ok (.call f (.cons (.const c) cs) .nil) := by
      unfold completeDef
      rw [firstCall_self]
      simp [workshop, hf, ht]
    have hev : ∀ cs : Args String C O, (∀ a ∈ cs.toList, ∃ c, a = .const c) → ∃ vs,
        (cs.eval (workshop base positive three centre) (workshop base positive three centre).creators (fun _ => none)).mapM id = .ok vs := by
      intro cs
      induction cs using Args.rec (motive_1 := fun _ => True) (motive_3 := fun _ => True) with
      | nil => intro _; exact ⟨[], rfl⟩
      | cons e as _ ih =>
        intro h
        obtain ⟨c, rfl⟩ := h e (List.mem_cons_self ..)
        obtain ⟨vs, hv⟩ := ih (fun a ha => h a (List.mem_cons_of_mem _ ha))
        refine ⟨.plain (base.const c) :: vs, ?_⟩
        rw [Args.eval, mapM_cons']
        simp only [Expr.eval, id, hv]
        rfl
      | _ => trivial
    obtain ⟨vs, hv⟩ := hev cs hcs
    have h2 : getBlueprint (workshop base positive three centre) (.call f (.cons (.const c) cs) .nil) (fun _ => none) = .error .TypeError := by
      unfold getBlueprint
      rw [h1]
      show (Expr.call f (.cons (.const c) cs) .nil).eval _ _ _ = _
      have hl : lookup (workshop base positive three centre).creators (fun _ => none) f = .ok (.creator f) := by
        simp [lookup, workshop, hf]
      simp only [Expr.eval, hl, Args.eval, Kws.eval]
      have h3 : ∀ rs : List (Result (OpVal V)), (workshop base positive three centre).call (.creator f) rs [] =
          strictly (callCreator positive f) rs [] := fun rs => rfl
      rw [h3]
      unfold strictly
      rw [mapM_cons']
      simp only [id, hv]
      rfl
    rw [h2]; rfl

/-! ## A concrete workshop -/

/-- Numbers are positive or refused. -/
def positive185 : OpVal Toy.TV → Result Nat
  | .plain (.num n) => if 0 < n then .ok n.toNat else .error .ValidationError
  | _ => .error .ValidationError

/-- What the texts of the examples parse to. -/
def parse185 (t : Text) : Result Toy.TE :=
  if t = "tour(5)".toList then .ok (Toy.app "tour" [Toy.int 5])
  else if t = "tour(K=5)".toList then .ok (Toy.app "tour" [] [("K", Toy.int 5)])
  else if t = "tour(0)".toList then .ok (Toy.app "tour" [Toy.int 0])
  else if t = "tour(2,5)".toList then .ok (Toy.app "tour" [Toy.int 2, Toy.int 5])
  else if t = "tour(N=5)".toList then .ok (Toy.app "tour" [] [("N", Toy.int 5)])
  else if t = "average(1)".toList then .ok (Toy.app "average" [Toy.int 1])
  else if t = "tour()".toList then .ok (Toy.app "tour" [])
  else if t = "rw()".toList then .ok (Toy.app "rw" [])
  else .error .SyntaxError

/-- The function of the examples. -/
abbrev get185 : Centre → Text → Result Operator := getOperator Toy.lit positive185 (.int 3) parse185

/-- **C185 is false of the code** where an argument is too many: `tour(2, 5)` is a tournament among two, `tour(N=5)` one among three. -/
theorem C185_refuted : get185 .selector "tour(2,5)".toList = .ok (.tour 2) ∧ get185 .selector "tour(N=5)".toList = .ok (.tour 3) := by
  constructor <;> decide +kernel

example : get185 .selector "tour(5)".toList = .ok (.tour 5) ∧ get185 .selector "tour(K=5)".toList = .ok (.tour 5) ∧
    get185 .selector "tour".toList = .ok (.tour 3) ∧ get185 .selector "tour(0)".toList = .error .ValidationError := by
  refine ⟨?_, ?_, ?_, ?_⟩ <;> decide +kernel

example : get185 .selector "rw".toList = .error .KeyError ∧ get185 .mutator "rw".toList = .ok .rw ∧
    get185 .crossover "average(1)".toList = .error .TypeError := by
  refine ⟨?_, ?_, ?_⟩ <;> decide +kernel

end Props.Operators
