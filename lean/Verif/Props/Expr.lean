import Verif.Lemmas.Expr
import Verif.Props.Toy

/-!
# Properties of expressions and definitions: C32 - C36
-/

namespace Props.Expr

set_option linter.unusedSectionVars false

open Py Spec Model

variable {N V C O S L : Type} [DecidableEq N]

/-! ## C32 -/

/-- **C32**, first part: the parents are exactly the variables that are read and never called, the functions exactly
the called names. -/
theorem C32_parents (e : Expr N C O) :
    (∀ x, x ∈ (parseParents e).1 ↔ Uses e x ∧ ¬ Calls e x) ∧
    (∀ f, f ∈ (parseParents e).2 ↔ Calls e f) :=
  ⟨mem_parseParents_fst e, mem_parseParents_snd e⟩

/-- The walk over the `ast` tree, as the library performs it, collects the same names. -/
theorem C32_walk (e : Expr N C O) :
    (∀ x, x ∈ (findAstParents e.parsed).1 ↔ x ∈ (parseParents e).1) ∧
    (∀ f, f ∈ (findAstParents e.parsed).2 ↔ f ∈ (parseParents e).2) := by
  refine ⟨fun x => ?_, fun f => ?_⟩
  · rw [mem_findAstParents_parsed_fst, mem_parseParents_fst]
  · rw [mem_findAstParents_parsed_snd, mem_parseParents_snd]

/-- **C32**, second part: `execute` gives the same outcome on any two environments that agree on the parents and on
the called names.  Missing: environments that bind a called name differently (`C32_refuted`). -/
theorem C32_depends_partial (sem : Sem N V C O S L) (glob : N → Option V) (e : Expr N C O)
    {loc loc' : N → Option V} (h1 : ∀ x ∈ (parseParents e).1, loc x = loc' x)
    (h2 : ∀ f, Calls e f → loc f = loc' f) :
    e.eval sem glob loc = e.eval sem glob loc' := by
  refine Expr.eval_congr sem glob e (fun x hx => ?_)
  by_cases hc : Calls e x
  · exact h2 x hc
  · rcases (Expr.mem_names x e).1 hx with h | h
    · exact h1 x ((mem_parseParents_fst e x).2 ⟨h, hc⟩)
    · exact absurd h hc

/-- **C32**, third part: with all parents bound and all called names known, `execute` does not end in NameError
(unless an operator or function raises it by itself). -/
theorem C32_no_name_error (sem : Sem N V C O S L) (hs : NoOwnNameError sem) (e : Expr N C O)
    {loc : N → Option V} (h1 : ∀ x ∈ (parseParents e).1, (loc x).isSome)
    (h2 : ∀ f ∈ (parseParents e).2, (sem.math f).isSome) :
    e.eval sem sem.math loc ≠ .error .NameError := by
  intro h
  obtain ⟨x, hx, hl, hg⟩ := Expr.eval_nameError hs e h
  by_cases hc : Calls e x
  · have := h2 x ((mem_parseParents_snd e x).2 hc)
    rw [hg] at this; cases this
  · rcases (Expr.mem_names x e).1 hx with h' | h'
    · have := h1 x ((mem_parseParents_fst e x).2 ⟨h', hc⟩)
      rw [hl] at this; cases this
    · exact hc h'

/-- **C32 is false** as stated: an environment that happens to contain a variable called like a function changes the
outcome of `execute`, although the parents (here `x`) are the same. -/
theorem C32_refuted : ∃ (e : Toy.TE) (loc loc' : String → Option Toy.TV),
    (∀ x ∈ (parseParents e).1, loc x = loc' x) ∧
    e.eval Toy.sem Toy.sem.math loc ≠ e.eval Toy.sem Toy.sem.math loc' := by
  refine ⟨Toy.app "dbl" [Toy.var "x"], Toy.env [("x", .num 3)], Toy.env [("x", .num 3), ("dbl", .num 7)], ?_, ?_⟩
  · have : (parseParents (Toy.app "dbl" [Toy.var "x"])).1 = ["x"] := by decide
    rw [this]; simp [Toy.env]
  · decide

example : (parseParents (Toy.plus (Toy.app "dbl" [Toy.var "x"]) (Toy.var "y"))) = (["x", "y"], ["dbl"]) := by decide

example : NoOwnNameError Toy.sem := by
  have hn : ∀ rs : List (Result Toy.TV), Toy.nums rs = .error .NameError → .error .NameError ∈ rs := by
    intro rs
    induction rs with
    | nil => intro h; cases h
    | cons r rs ih =>
      intro h
      rcases r with e | v
      · simp only [Toy.nums, Except.error.injEq] at h; subst h; simp
      · cases v with
        | num n =>
          simp only [Toy.nums] at h
          cases hr : Toy.nums rs with
          | error e => rw [hr] at h; cases h; exact List.mem_cons_of_mem _ (ih hr)
          | ok l => rw [hr] at h; cases h
        | _ => simp [Toy.nums] at h
  refine ⟨?_, ?_⟩
  · intro o rs h
    simp only [Toy.sem] at h
    cases hr : Toy.nums rs with
    | error e => rw [hr] at h; cases h; exact hn rs hr
    | ok l => rw [hr] at h; cases h
  · intro v rs ks h
    simp only [Toy.sem] at h
    split at h
    · cases hr : Toy.nums rs with
      | error e => rw [hr] at h; cases h; exact Or.inl (hn rs hr)
      | ok l =>
        rw [hr] at h
        change (match l with | [n] => _ | _ => _) = _ at h
        split at h <;> cases h
    · split at h
      · cases hr : Toy.nums (ks.map Prod.snd) with
        | error e =>
          rw [hr] at h; cases h
          obtain ⟨p, hp, hp2⟩ := List.mem_map.1 (hn _ hr)
          exact Or.inr ⟨p.1, by rw [← hp2]; exact hp⟩
        | ok l => rw [hr] at h; cases h
      · cases h
    · cases h

/-! ## C33 -/

/-- **C33**: the outcome of rendering a function node is determined by the values of its own parents. -/
theorem C33_no_capture (sem : Sem N V C O S L) (n : N) (e : Expr N C O) (ps : List N)
    {pas pas' : N → Option V} (h : ∀ p ∈ ps, pas p = pas' p) (s : S) :
    (Loci.func n e ps : Loci N V C O).render sem pas s = (Loci.func n e ps : Loci N V C O).render sem pas' s := by
  have h1 : (ps.all fun p => (pas p).isSome) = ps.all fun p => (pas' p).isSome := by
    rw [Bool.eq_iff_iff, List.all_eq_true, List.all_eq_true]
    exact ⟨fun hh p hp => h p hp ▸ hh p hp, fun hh p hp => (h p hp).symm ▸ hh p hp⟩
  have h2 : (fun x => if x ∈ ps then pas x else none) = fun x => if x ∈ ps then pas' x else none := by
    funext x
    by_cases hx : x ∈ ps
    · simp [hx, h x hx]
    · simp [hx]
  simp only [Loci.render, renderFunc, h1, h2]

/-- A function node defined from source text: when its parents are given and the functions it calls exist, the outcome is the
value of the expression in any environment that does not shadow its functions (no random number is drawn). -/
theorem C33_value (sem : Sem N V C O S L) (hs : NoOwnNameError sem) (n : N) (e : Expr N C O)
    {pas : N → Option V} (h1 : ∀ x, Uses e x → ¬ Calls e x → (pas x).isSome)
    (h2 : ∀ f, Calls e f → (sem.math f).isSome ∧ pas f = none) (s : S) :
    (mkFunc n e [] : Loci N V C O).render sem pas s = (e.eval sem sem.math pas, s) := by
  have h3 : ((parseParents e).1.all fun p => (pas p).isSome) = true := by
    rw [List.all_eq_true]
    intro p hp
    obtain ⟨ha, hb⟩ := (mem_parseParents_fst e p).1 hp
    exact h1 p ha hb
  have h4 : e.eval sem sem.math (fun x => if x ∈ (parseParents e).1 then pas x else none)
      = e.eval sem sem.math pas := by
    refine C32_depends_partial sem _ e (fun x hx => by simp [hx]) (fun f hf => ?_)
    have : f ∉ (parseParents e).1 := fun hh => ((mem_parseParents_fst e f).1 hh).2 hf
    simp [this, (h2 f hf).2]
  have h5 : e.eval sem sem.math pas ≠ .error .NameError :=
    C32_no_name_error sem hs e
      (fun x hx => by
        obtain ⟨ha, hb⟩ := (mem_parseParents_fst e x).1 hx
        exact h1 x ha hb)
      (fun f hf => (h2 f ((mem_parseParents_snd e f).1 hf)).1)
  simp only [mkFunc, List.isEmpty_nil, if_true, Loci.render, renderFunc, h3, h4]

example : (mkFunc "y" (Toy.plus (Toy.var "x") (Toy.int 1)) [] : Toy.TL).render Toy.sem (Toy.env [("x", .num 3)]) 0
    = (.ok (.num 4), 0) := by decide

/-! ## C36 -/

/-- **C36**, first part: of a call `f(a1, .., k1=e1, ..)`, at any nesting of the arguments, `parse_function` returns
the name `f` and exactly the positional and keyword arguments, in order. -/
theorem C36_parse_function (f : N) (as : Args N C O) (ks : Kws N C O) :
    parseFunction (Expr.call f as ks).parsed =
      (some f, as.toList.map (fun e => (none, e.toAst)) ++ ks.toList.map (fun p => (some p.1, p.2.toAst))) :=
  parseFunction_call f as ks

/-- **C36**, second part: `Parents` is the union of the parents of the arguments.  Missing: calls without
arguments, for which reading `Parents` is a TypeError (`C36_no_arguments`). -/
theorem C36_parents_partial (f : N) (as : Args N C O) (ks : Kws N C O)
    (hne : as.toList ≠ [] ∨ ks.toList ≠ []) :
    ∃ ps, parsedParents (parseFunction (Expr.call f as ks).parsed).2 = .ok ps ∧
      ∀ x, x ∈ ps ↔ ∃ a, (a ∈ as.toList ∨ ∃ k, (k, a) ∈ ks.toList) ∧ x ∈ (parseParents a).1 := by
  rw [parseFunction_call]
  generalize hl : (as.toList.map (fun e => ((none : Option N), e.toAst)) ++
    ks.toList.map (fun p => (some p.1, p.2.toAst))) = l
  have hl' : l ≠ [] := by
    subst hl
    intro h
    simp only [List.append_eq_nil_iff, List.map_eq_nil_iff] at h
    rcases hne with h' | h'
    · exact h' h.1
    · exact h' h.2
  cases l with
  | nil => exact absurd rfl hl'
  | cons a l =>
    refine ⟨_, rfl, ?_⟩
    intro x
    rw [← hl]
    simp only [List.mem_dedup, List.mem_flatMap, List.mem_append, List.mem_map]
    constructor
    · rintro ⟨y, ⟨e, he, rfl⟩ | ⟨p, hp, rfl⟩, hx⟩
      · exact ⟨e, Or.inl he, (mem_parseParents_fst e x).2 ((mem_findAstParents_fst e x).1 hx)⟩
      · exact ⟨p.2, Or.inr ⟨p.1, hp⟩, (mem_parseParents_fst _ x).2 ((mem_findAstParents_fst _ x).1 hx)⟩
    · rintro ⟨e, he | ⟨k, hk⟩, hx⟩
      · exact ⟨_, Or.inl ⟨e, he, rfl⟩, (mem_findAstParents_fst e x).2 ((mem_parseParents_fst e x).1 hx)⟩
      · exact ⟨_, Or.inr ⟨(k, e), hk, rfl⟩, (mem_findAstParents_fst e x).2 ((mem_parseParents_fst e x).1 hx)⟩

/-- **C36 is false** for calls without arguments: `Parents` is a TypeError, so a random variable such as
`x ~ f()` can never be defined, whatever defaults `f` has. -/
theorem C36_no_arguments (sem : Sem N V C O S L) (f n : N) :
    parsedParents (parseFunction (Expr.call f .nil .nil : Expr N C O).parsed).2 = .error .TypeError ∧
    ∃ e, mkDist sem n (Expr.call f .nil .nil) [] = .error e := by
  have h : parsedParents (parseFunction (Expr.call f .nil .nil : Expr N C O).parsed).2 = .error .TypeError := by
    rw [parseFunction_call]; rfl
  refine ⟨h, ?_⟩
  unfold mkDist
  cases completeDef sem (Expr.call f .nil .nil : Expr N C O) with
  | error e => exact ⟨e, rfl⟩
  | ok f' =>
    refine ⟨.TypeError, ?_⟩
    simp only [List.isEmpty_nil, if_true, h]
    rfl

example : (parseFunction (Toy.app "g" [Toy.app "dbl" [Toy.var "x"], Toy.var "y"] [("k", Toy.var "z")]).parsed).1
    = some "g" := by rw [show Toy.app "g" _ _ = Expr.call "g" _ _ from rfl, C36_parse_function]

/-! ## C35 -/

theorem fillUnnamed_ok (sem : Sem N V C O S L) : ∀ (fs : List (N × Option C)) (as : List (Expr N C O)),
    (∀ (i : Nat) fd, fs[i]? = some fd → as.length ≤ i → fd.2.isSome) →
    ∃ t, fillUnnamed sem fs as = .ok t ∧ t.map Prod.fst = fs.map Prod.fst ∧
      (∀ (i : Nat) (fd : N × Option C) (a : Expr N C O), fs[i]? = some fd → as[i]? = some a → t[i]? = some (fd.1, printArg sem a)) ∧
      (∀ (i : Nat) (k : N) (d : C), fs[i]? = some (k, some d) → as.length ≤ i → t[i]? = some (k, sem.reparse d)) := by
  intro fs
  induction fs with
  | nil => intro as _; exact ⟨[], rfl, rfl, by simp, by simp⟩
  | cons fd fs ih =>
    obtain ⟨k, d⟩ := fd
    intro as h
    cases as with
    | cons a as =>
      obtain ⟨t, h1, h2, h3, h4⟩ := ih as (fun i fd hi hl => h (i + 1) fd (by simpa using hi) (by simpa using hl))
      refine ⟨(k, printArg sem a) :: t, ?_, by simp [h2], ?_, ?_⟩
      · simp only [fillUnnamed, h1]; rfl
      · intro i fd b hi hb
        cases i with
        | zero => simp at hi hb; subst hi; subst hb; simp
        | succ i => simp at hi hb ⊢; exact h3 i fd b hi hb
      · intro i k' d' hi hl
        cases i with
        | zero => simp at hl
        | succ i => simp at hi hl ⊢; exact h4 i k' d' hi hl
    | nil =>
      have h0 := h 0 (k, d) (by simp) (by simp)
      cases d with
      | none => simp at h0
      | some d =>
        obtain ⟨t, h1, h2, h3, h4⟩ := ih [] (fun i fd hi hl => h (i + 1) fd (by simpa using hi) (by simp))
        refine ⟨(k, sem.reparse d) :: t, ?_, by simp [h2], by simp, ?_⟩
        · simp only [fillUnnamed, h1]; rfl
        · intro i k' d' hi hl
          cases i with
          | zero => simp at hi; obtain ⟨rfl, rfl⟩ := hi; simp
          | succ i => simp at hi ⊢; exact h4 i k' d' hi (by simp)

theorem fillUnnamed_error (sem : Sem N V C O S L) : ∀ (fs : List (N × Option C)) (as : List (Expr N C O)),
    (∃ (i : Nat) (k : N), fs[i]? = some (k, none) ∧ as.length ≤ i) → fillUnnamed sem fs as = .error .KeyError := by
  intro fs
  induction fs with
  | nil => rintro as ⟨i, k, h, -⟩; simp at h
  | cons fd fs ih =>
    obtain ⟨k, d⟩ := fd
    rintro as ⟨i, k', hi, hl⟩
    cases as with
    | cons a as =>
      cases i with
      | zero => simp at hl
      | succ i =>
        have := ih as ⟨i, k', by simpa using hi, by simpa using hl⟩
        simp only [fillUnnamed, this]; rfl
    | nil =>
      cases d with
      | none => rfl
      | some d =>
        cases i with
        | zero => simp at hi
        | succ i =>
          have := ih [] ⟨i, k', by simpa using hi, by simp⟩
          simp only [fillUnnamed, this]; rfl

theorem firstCall_call (f : N) (as : Args N C O) (ks : Kws N C O) :
    firstCall (Expr.call f as ks).size [Expr.call f as ks] = some (f, as.toList, ks.toList) := by
  rw [show (Expr.call f as ks).size = (as.size + ks.size) + 1 by simp only [Expr.size]; omega]
  rfl

/-- The fields of `req` that are not given by keyword, in schema order. -/
def remaining (req : List (N × Option C)) (kws : List (N × Expr N C O)) : List (N × Option C) :=
  req.filter (fun f => f.1 ∉ kws.map Prod.fst)

theorem completeDef_call (sem : Sem N V C O S L) {f : N} {as : Args N C O} {ks : Kws N C O}
    {req : List (N × Option C)} (hs : sem.schema f = some req) :
    completeDef sem (.call f as ks) =
      if (remaining req ks.toList).isEmpty then .ok (.call f as ks)
      else (do
        let temp ← fillUnnamed sem (remaining req ks.toList) as.toList
        return .call f .nil (Kws.ofList (temp ++ ks.toList))) := by
  unfold completeDef
  rw [firstCall_call]
  simp only [hs]
  rfl

/-- **C35**, for calls with at most as many positional arguments as there are fields left, and literals that survive
printing.  If every field left over by the arguments has a default, completion succeeds with a call that has keyword
arguments only; given keywords are kept, the i-th remaining field takes the i-th positional argument, the others their
default; every field of the schema is bound, nothing is bound twice; completing again changes nothing.
Otherwise completion raises KeyError.
Missing: surplus positional arguments (`C35_refuted`, `C35_surplus_dropped`) and string literals
(`C35_refuted_string`). -/
theorem C35_complete_partial (sem : Sem N V C O S L) (hlit : ∀ c, sem.reparse c = .const c) {f : N}
    {as : Args N C O} {ks : Kws N C O} {req : List (N × Option C)} (hs : sem.schema f = some req)
    (hreq : (req.map Prod.fst).Nodup) (hkw : (ks.toList.map Prod.fst).Nodup)
    (hlen : as.toList.length ≤ (remaining req ks.toList).length) :
    ((∀ (i : Nat) fd, (remaining req ks.toList)[i]? = some fd → as.toList.length ≤ i → fd.2.isSome) →
      ∃ kws, completeDef sem (.call f as ks) = .ok (.call f .nil (Kws.ofList kws)) ∧
        (∀ k e, (k, e) ∈ ks.toList → (k, e) ∈ kws) ∧
        (∀ (i : Nat) k d a, (remaining req ks.toList)[i]? = some (k, d) → as.toList[i]? = some a → (k, a) ∈ kws) ∧
        (∀ (i : Nat) k d, (remaining req ks.toList)[i]? = some (k, some d) → as.toList.length ≤ i →
          (k, .const d) ∈ kws) ∧
        (kws.map Prod.fst).Nodup ∧ (∀ k d, (k, d) ∈ req → k ∈ kws.map Prod.fst) ∧
        (∀ k ∈ kws.map Prod.fst, k ∈ req.map Prod.fst ∨ k ∈ ks.toList.map Prod.fst) ∧
        completeDef sem (.call f .nil (Kws.ofList kws)) = .ok (.call f .nil (Kws.ofList kws))) ∧
    ((∃ (i : Nat) (k : N), (remaining req ks.toList)[i]? = some (k, none) ∧ as.toList.length ≤ i) →
      completeDef sem (.call f as ks) = .error .KeyError) := by
  have hprint : ∀ e : Expr N C O, printArg sem e = e := by
    intro e; cases e <;> simp [printArg, hlit]
  refine ⟨fun hdef => ?_, ?_⟩
  · obtain ⟨t, h1, h2, h3, h4⟩ := fillUnnamed_ok sem _ as.toList hdef
    have hcover : ∀ k d, (k, d) ∈ req → k ∈ (t ++ ks.toList).map Prod.fst := by
      intro k d hk
      rw [List.map_append, h2, List.mem_append]
      by_cases hn : k ∈ ks.toList.map Prod.fst
      · exact Or.inr hn
      · refine Or.inl (List.mem_map.2 ⟨(k, d), ?_, rfl⟩)
        rw [remaining, List.mem_filter]
        exact ⟨hk, by simpa using hn⟩
    have hrem : remaining req (Kws.ofList (t ++ ks.toList) : Kws N C O).toList = [] := by
      rw [remaining, List.filter_eq_nil_iff]
      rintro ⟨k, d⟩ hk
      have := hcover k d hk
      simp only [Kws.toList_ofList, decide_not, Bool.not_eq_eq_eq_not, Bool.not_true, decide_eq_false_iff_not,
        not_not]
      exact this
    refine ⟨t ++ ks.toList, ?_, fun k e h => by simp [h], ?_, ?_, ?_, hcover, ?_, ?_⟩
    · rw [completeDef_call sem hs]
      by_cases hr : (remaining req ks.toList).isEmpty
      · have hr' : remaining req ks.toList = [] := by simpa using hr
        have has : as = .nil := by
          rw [hr'] at hlen
          cases as with
          | nil => rfl
          | cons e as => simp [Args.toList] at hlen
        rw [if_pos hr]
        rw [hr'] at h1
        cases h1
        simp [has]
      · rw [if_neg hr, h1]; rfl
    · intro i k d a hi ha
      have := h3 i (k, d) a hi ha
      rw [hprint] at this
      exact List.mem_append_left _ (List.mem_of_getElem? this)
    · intro i k d hi hl
      have := h4 i k d hi hl
      rw [hlit] at this
      exact List.mem_append_left _ (List.mem_of_getElem? this)
    · rw [List.map_append, h2, List.nodup_append]
      refine ⟨?_, hkw, ?_⟩
      · exact hreq.sublist (List.filter_sublist.map _)
      · rintro k hk k' hk' rfl
        obtain ⟨fd, hfd, rfl⟩ := List.mem_map.1 hk
        have := (List.mem_filter.1 hfd).2
        simp at this
        obtain ⟨p, hp, hpe⟩ := List.mem_map.1 hk'
        exact this p.2 (by rw [← hpe]; exact hp)
    · intro k hk
      rw [List.map_append, h2, List.mem_append] at hk
      rcases hk with hk | hk
      · obtain ⟨fd, hfd, rfl⟩ := List.mem_map.1 hk
        exact Or.inl (List.mem_map.2 ⟨fd, (List.mem_filter.1 hfd).1, rfl⟩)
      · exact Or.inr hk
    · rw [completeDef_call sem hs, hrem]; rfl
  · intro hex
    rw [completeDef_call sem hs, fillUnnamed_error sem _ _ hex, if_neg]
    · rfl
    · obtain ⟨i, k, hi, -⟩ := hex
      intro hr
      have hr' : remaining req ks.toList = [] := by simpa using hr
      rw [hr'] at hi
      simp at hi

/-- Completion is idempotent for every call, whatever the number of arguments. -/
theorem C35_idempotent (sem : Sem N V C O S L) {f : N} {as : Args N C O} {ks : Kws N C O} {e' : Expr N C O}
    (h : completeDef sem (.call f as ks) = .ok e') : completeDef sem e' = .ok e' := by
  cases hs : sem.schema f with
  | none => simp [completeDef, firstCall_call, hs] at h
  | some req =>
    rw [completeDef_call sem hs] at h
    by_cases hr : (remaining req ks.toList).isEmpty
    · rw [if_pos hr] at h
      cases h
      rw [completeDef_call sem hs, if_pos hr]
    · rw [if_neg hr] at h
      cases ht : fillUnnamed sem (remaining req ks.toList) as.toList with
      | error err => rw [ht] at h; cases h
      | ok t =>
        rw [ht] at h
        cases h
        have hns : ∀ (i : Nat) fd, (remaining req ks.toList)[i]? = some fd → as.toList.length ≤ i → fd.2.isSome := by
          rintro i ⟨k, d⟩ hi hl
          cases d with
          | some d => rfl
          | none => rw [fillUnnamed_error sem _ _ ⟨i, k, hi, hl⟩] at ht; cases ht
        obtain ⟨t', h1, h2, -⟩ := fillUnnamed_ok sem _ as.toList hns
        rw [ht] at h1; cases h1
        rw [completeDef_call sem hs, if_pos]
        rw [List.isEmpty_iff, remaining, List.filter_eq_nil_iff]
        rintro ⟨k, d⟩ hk
        simp only [Kws.toList_ofList, decide_not, Bool.not_eq_eq_eq_not, Bool.not_true, decide_eq_false_iff_not,
          not_not]
        rw [List.map_append, h2, List.mem_append]
        by_cases hn : k ∈ ks.toList.map Prod.fst
        · exact Or.inr hn
        · refine Or.inl (List.mem_map.2 ⟨(k, d), ?_, rfl⟩)
          rw [remaining, List.mem_filter]
          exact ⟨hk, by simpa using hn⟩

theorem fillUnnamed_take (sem : Sem N V C O S L) : ∀ (fs : List (N × Option C)) (as : List (Expr N C O)),
    fillUnnamed sem fs as = fillUnnamed sem fs (as.take fs.length) := by
  intro fs
  induction fs with
  | nil => intro as; simp [fillUnnamed]
  | cons fd fs ih =>
    obtain ⟨k, d⟩ := fd
    intro as
    cases as with
    | nil => rfl
    | cons a as =>
      simp only [List.length_cons, List.take_succ_cons, fillUnnamed]
      rw [ih]

/-- **C35 is false** of surplus positional arguments, in general: when a field is left to fill, positional arguments
beyond the remaining fields have no effect at all (no error either). -/
theorem C35_surplus_dropped (sem : Sem N V C O S L) {f : N} {as : Args N C O} {ks : Kws N C O}
    {req : List (N × Option C)} (hs : sem.schema f = some req) (hr : remaining req ks.toList ≠ []) :
    completeDef sem (.call f as ks) =
      completeDef sem (.call f (Args.ofList (as.toList.take (remaining req ks.toList).length)) ks) := by
  have hr' : ¬ (remaining req ks.toList).isEmpty = true := by simpa using hr
  rw [completeDef_call sem hs, completeDef_call sem hs, if_neg hr', if_neg hr', fillUnnamed_take]
  simp

/-- `norm(1, 2, 3)` is completed to `norm(loc=1, scale=2)`. -/
theorem C35_refuted : completeDef Toy.sem (Toy.app "norm" [Toy.int 1, Toy.int 2, Toy.int 3])
    = .ok (Toy.app "norm" [] [("loc", Toy.int 1), ("scale", Toy.int 2)]) := by rfl

/-- The positional string literal of `norm("a")` becomes the variable `a`. -/
theorem C35_refuted_string : completeDef Toy.sem (Toy.app "norm" [.const (.str "a")])
    = .ok (Toy.app "norm" [] [("loc", Toy.var "a"), ("scale", Toy.int 1)]) := by rfl

/-- What surrounds the first call is dropped as soon as something has to be completed: `2 + norm(0)`. -/
theorem C35_refuted_context : completeDef Toy.sem (Toy.plus (Toy.int 2) (Toy.app "norm" [Toy.int 0]))
    = .ok (Toy.app "norm" [] [("loc", Toy.int 0), ("scale", Toy.int 1)]) := by rfl

example : Toy.sem.schema "norm" = some [("loc", none), ("scale", some (.int 1))] ∧
    completeDef Toy.sem (Toy.app "norm" []) = .error .KeyError ∧
    completeDef Toy.sem (Toy.app "norm" [Toy.int 4] [("scale", Toy.var "s")])
      = .ok (Toy.app "norm" [] [("loc", Toy.int 4), ("scale", Toy.var "s")]) := ⟨rfl, rfl, rfl⟩

/-! ## C34 -/

theorem Args.names_ofMem {as : Args N C O} {e : Expr N C O} (h : e ∈ as.toList) {x : N} (hx : x ∈ e.names) :
    x ∈ as.names := (Args.mem_names x as).2 ⟨e, h, (Expr.mem_names x e).1 hx⟩

theorem firstCall_names : ∀ (n : Nat) (q : List (Expr N C O)) {f as ks}, firstCall n q = some (f, as, ks) →
    (f ∈ q.flatMap Expr.names) ∧ (∀ e ∈ as, ∀ x ∈ e.names, x ∈ q.flatMap Expr.names) ∧
    (∀ k e, (k, e) ∈ ks → ∀ x ∈ e.names, x ∈ q.flatMap Expr.names) := by
  intro n
  induction n with
  | zero => intro q f as ks h; simp [firstCall] at h
  | succ n ih =>
    intro q f as ks h
    cases q with
    | nil => simp [firstCall] at h
    | cons e q =>
      simp only [List.flatMap_cons, List.mem_append]
      cases e with
      | const c =>
        obtain ⟨h1, h2, h3⟩ := ih q h
        exact ⟨Or.inr h1, fun e he x hx => Or.inr (h2 e he x hx), fun k e he x hx => Or.inr (h3 k e he x hx)⟩
      | name y =>
        obtain ⟨h1, h2, h3⟩ := ih q h
        exact ⟨Or.inr h1, fun e he x hx => Or.inr (h2 e he x hx), fun k e he x hx => Or.inr (h3 k e he x hx)⟩
      | op o bs =>
        obtain ⟨h1, h2, h3⟩ := ih (q ++ bs.toList) h
        have key : ∀ x, x ∈ (q ++ bs.toList).flatMap Expr.names →
            x ∈ (Expr.op o bs).names ∨ x ∈ q.flatMap Expr.names := by
          intro x hx
          rw [List.flatMap_append, List.mem_append] at hx
          rcases hx with hx | hx
          · exact Or.inr hx
          · obtain ⟨e, he, hx⟩ := List.mem_flatMap.1 hx
            exact Or.inl (by simpa [Expr.names] using Args.names_ofMem he hx)
        exact ⟨key _ h1, fun e he x hx => key _ (h2 e he x hx), fun k e he x hx => key _ (h3 k e he x hx)⟩
      | call g bs js =>
        simp only [firstCall, Option.some.injEq, Prod.mk.injEq] at h
        obtain ⟨rfl, rfl, rfl⟩ := h
        refine ⟨Or.inl (by simp [Expr.names]), fun e he x hx => Or.inl ?_, fun k e he x hx => Or.inl ?_⟩
        · simp [Expr.names, Args.names_ofMem he hx]
        · have : x ∈ js.names := (Kws.mem_names x js).2 ⟨k, e, he, (Expr.mem_names x e).1 hx⟩
          simp [Expr.names, this]

theorem fillUnnamed_names (sem : Sem N V C O S L) (hcl : ∀ c, (sem.reparse c).names = []) :
    ∀ (fs : List (N × Option C)) (as : List (Expr N C O)) {t}, fillUnnamed sem fs as = .ok t →
    ∀ k e, (k, e) ∈ t → ∀ x ∈ e.names, ∃ a ∈ as, x ∈ a.names := by
  intro fs
  induction fs with
  | nil => intro as t h; cases h; simp
  | cons fd fs ih =>
    obtain ⟨k, d⟩ := fd
    intro as t h
    cases as with
    | cons a as =>
      simp only [fillUnnamed] at h
      cases hr : fillUnnamed sem fs as with
      | error e => rw [hr] at h; cases h
      | ok t' =>
        rw [hr] at h; cases h
        intro k' e he x hx
        rcases List.mem_cons.1 he with he | he
        · cases he
          refine ⟨a, by simp, ?_⟩
          cases a with
          | const c => simp [printArg, hcl] at hx
          | _ => exact hx
        · obtain ⟨b, hb, hx⟩ := ih as hr k' e he x hx
          exact ⟨b, by simp [hb], hx⟩
    | nil =>
      cases d with
      | none => cases h
      | some d =>
        simp only [fillUnnamed] at h
        cases hr : fillUnnamed sem fs [] with
        | error e => rw [hr] at h; cases h
        | ok t' =>
          rw [hr] at h; cases h
          intro k' e he x hx
          rcases List.mem_cons.1 he with he | he
          · cases he; simp [hcl] at hx
          · exact ih [] hr k' e he x hx

/-- Completion introduces no names (when literals are printed as closed expressions). -/
theorem completeDef_names (sem : Sem N V C O S L) (hcl : ∀ c, (sem.reparse c).names = []) {e e' : Expr N C O}
    (h : completeDef sem e = .ok e') : ∀ x ∈ e'.names, x ∈ e.names := by
  unfold completeDef at h
  cases hf : firstCall e.size [e] with
  | none => rw [hf] at h; cases h
  | some p =>
    obtain ⟨tp, as, ks⟩ := p
    rw [hf] at h
    obtain ⟨h1, h2, h3⟩ := firstCall_names _ _ hf
    simp only [List.flatMap_cons, List.flatMap_nil, List.append_nil] at h1 h2 h3
    cases hs : sem.schema tp with
    | none => simp [hs] at h
    | some req =>
      simp only [hs] at h
      split at h
      · cases h; exact fun x hx => hx
      · cases ht : fillUnnamed sem (req.filter (fun f => f.1 ∉ ks.map Prod.fst)) as with
        | error err => rw [ht] at h; cases h
        | ok t =>
          rw [ht] at h
          cases h
          intro x hx
          simp only [Expr.names, Args.names, List.nil_append, List.mem_cons] at hx
          rcases hx with rfl | hx
          · exact h1
          · rw [Kws.mem_names, Kws.toList_ofList] at hx
            obtain ⟨k, e1, he, hx⟩ := hx
            have hx' := (Expr.mem_names x e1).2 hx
            rcases List.mem_append.1 he with he | he
            · obtain ⟨a, ha, hxa⟩ := fillUnnamed_names sem hcl _ _ ht k e1 he x hx'
              exact h2 a ha x hxa
            · exact h3 k e1 he x hx'

theorem getDistribution_congr (sem : Sem N V C O S L) (hcl : ∀ c, (sem.reparse c).names = [])
    {e : Expr N C O} {pas pas' : N → Option V} (h : ∀ x ∈ e.names, pas x = pas' x) :
    getDistribution sem e pas = getDistribution sem e pas' := by
  have : parseDistribution sem e pas = parseDistribution sem e pas' := by
    unfold parseDistribution getBlueprint
    cases hc : completeDef sem e with
    | error err => rfl
    | ok e' =>
      have := Expr.eval_congr sem sem.creators (loc := pas) (loc' := pas') e'
        (fun x hx => h x (completeDef_names sem hcl hc x hx))
      show (do sem.create (← e'.eval sem sem.creators pas)) = (do sem.create (← e'.eval sem sem.creators pas'))
      rw [this]
  unfold getDistribution
  rw [this]

/-- **C34**, the part that holds: for a random variable defined by a call, with literals printed as closed
expressions, the distribution is determined by the values of the parents and of the names called in the definition.
Missing: environments that differ on a called name (`C34_refuted`). -/
theorem C34_no_capture_partial (sem : Sem N V C O S L) (hcl : ∀ c, (sem.reparse c).names = []) {n f : N}
    {as : Args N C O} {ks : Kws N C O} {l : Loci N V C O}
    (hl : mkDist sem n (.call f as ks) [] = .ok l) {pas pas' : N → Option V}
    (h1 : ∀ p ∈ l.parents, pas p = pas' p) (h2 : ∀ g, Calls (.call f as ks) g → pas g = pas' g) (s : S) :
    l.render sem pas s = l.render sem pas' s := by
  unfold mkDist at hl
  cases hc : completeDef sem (.call f as ks) with
  | error err => rw [hc] at hl; cases hl
  | ok e' =>
    by_cases hne : as.toList ≠ [] ∨ ks.toList ≠ []
    · obtain ⟨ps, hp, hmem⟩ := C36_parents_partial f as ks hne
      rw [hc] at hl
      simp only [List.isEmpty_nil, if_true, hp] at hl
      cases hl
      have : getDistribution sem e' pas = getDistribution sem e' pas' := by
        refine getDistribution_congr sem hcl (fun x hx => ?_)
        have hx' := completeDef_names sem hcl hc x hx
        by_cases hcall : Calls (.call f as ks) x
        · exact h2 x hcall
        · rcases (Expr.mem_names x _).1 hx' with h | h
          · refine h1 x ((hmem x).2 ?_)
            cases h with
            | argument he hs =>
              refine ⟨_, Or.inl he, (mem_parseParents_fst _ x).2 ⟨hs, ?_⟩⟩
              rintro ⟨bs, js, hh⟩
              exact hcall ⟨bs, js, .argument he hh⟩
            | keyword he hs =>
              refine ⟨_, Or.inr ⟨_, he⟩, (mem_parseParents_fst _ x).2 ⟨hs, ?_⟩⟩
              rintro ⟨bs, js, hh⟩
              exact hcall ⟨bs, js, .keyword he hh⟩
          · exact absurd h hcall
      simp only [Loci.render, this]
    · push Not at hne
      have has : as = .nil := by cases as with | nil => rfl | cons e as => simp [Args.toList] at hne
      have hks : ks = .nil := by cases ks with | nil => rfl | cons k e ks => simp [Kws.toList] at hne
      subst has hks
      have := (C36_no_arguments sem f n).1
      rw [hc] at hl
      simp only [List.isEmpty_nil, if_true, this] at hl
      cases hl

/-- **C34 is false**: `x ~ norm(m)` has the only parent `m`, but another variable that is named `norm` changes the
outcome (here into a TypeError). -/
theorem C34_refuted : ∃ (l : Toy.TL) (pas pas' : String → Option Toy.TV),
    mkDist Toy.sem "x" (Toy.app "norm" [Toy.var "m"]) [] = .ok l ∧ (∀ p ∈ l.parents, pas p = pas' p) ∧
    (l.render Toy.sem pas 0).1 = .ok (.num 5) ∧ (l.render Toy.sem pas' 0).1 = .error .TypeError := by
  refine ⟨.dist "x" (Toy.app "norm" [] [("loc", Toy.var "m"), ("scale", Toy.int 1)]) ["m"],
    Toy.env [("m", .num 5)], Toy.env [("m", .num 5), ("norm", .num 2)], by rfl, ?_, by rfl, by rfl⟩
  simp [Loci.parents, Toy.env]

end Props.Expr
