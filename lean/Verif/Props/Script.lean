import Verif.Lemmas.Script
import Verif.Lemmas.BN
import Verif.Lemmas.Expr
import Verif.Props.BN
import Verif.Props.Toy

/-!
# Properties of definitions and networks as text: C18, C37, C38
-/

namespace Props.Script

set_option linter.unusedSectionVars false

open Py Model Model.BN Spec Props.BN

variable {N V C O S L : Type} [DecidableEq N]

/-! ## Examples: characters, names and expressions -/

/-- Letters and digits are word characters; blank, tab and newline are white space. -/
def cls : CharClass where
  word := fun c => ('a' ≤ c && c ≤ 'z') || ('A' ≤ c && c ≤ 'Z') || ('0' ≤ c && c ≤ '9')
  space := fun c => c == ' ' || c == '\t' || c == '\n'
  word_space := by
    intro c h
    by_cases h1 : c = ' '
    · subst h1; exact absurd h (by decide)
    by_cases h2 : c = '\t'
    · subst h2; exact absurd h (by decide)
    by_cases h3 : c = '\n'
    · subst h3; exact absurd h (by decide)
    simp [h1, h2, h3]
  word_sep := by decide
  space_sep := by decide
  space_blank := by decide

/-- `1` is a literal, `norm` and `f(x)` are calls, every other text is a name. -/
def ts : TextSem Text Int Int Unit where
  parse := fun t =>
    if t = ['1'] then .ok (.const 1)
    else if t = ['n', '(', 'x', ')'] then .ok (.call ['n'] (.cons (.name ['x']) .nil) .nil)
    else if t = ['f', '(', 'x', ')'] then .ok (.call ['f'] (.cons (.name ['x']) .nil) .nil)
    else if t.all cls.word then .ok (.name t)
    else .error .SyntaxError
  toName := id
  ofName := id
  rhs := fun l => match l with
    | .value _ _ => ['1']
    | .dist _ _ _ => ['n', '(', 'x', ')']
    | _ => ['x']

/-- Nothing but literals evaluates. -/
def sem : Sem Text Int Int Unit Int Int where
  const := id
  op := fun _ _ => .error .TypeError
  call := fun _ _ _ => .error .TypeError
  math := fun _ => none
  creators := fun _ => none
  create := fun _ => .error .TypeError
  schema := fun f => if f = ['n'] then some [(['l'], none)] else none
  reparse := .const
  reload := .ok

/-! ## C37 -/

/-- **C37** (blanks): texts that differ in blanks only are read alike. -/
theorem C37_blanks (cls : CharClass) (ts : TextSem N V C O) (sem : Sem N V C O S L) {a b : Text}
    (h : a.filter (fun c => decide (c ≠ ' ')) = b.filter (fun c => decide (c ≠ ' '))) :
    parseLoci cls ts sem a = parseLoci cls ts sem b := by
  unfold parseLoci stripBlanks
  rw [h]

example : parseLoci cls ts sem [' ', 'y', ' ', '=', ' ', '1'] = parseLoci cls ts sem ['y', '=', '1'] :=
  C37_blanks _ _ _ (by decide)

theorem stripBlanks_id {t : Text} (h : ' ' ∉ t) : stripBlanks t = t := by
  unfold stripBlanks
  rw [List.filter_eq_self]
  intro c hc
  simp only [decide_eq_true_eq]
  rintro rfl
  exact h hc

theorem parseLoci_noHash (cls : CharClass) (ts : TextSem N V C O) (sem : Sem N V C O S L) {df t : Text}
    (ht : stripBlanks df = t) (hh : '#' ∉ t) :
    parseLoci cls ts sem df = (do return (← parseBody cls ts sem t, [])) := by
  unfold parseLoci
  simp only [ht]
  rw [if_neg hh]

theorem not_mem_of_word {cls : CharClass} {n : Text} (h : ∀ c ∈ n, cls.word c = true) {s : Char}
    (hs : s ∈ ['#', '~', '=', '{', '}', '(']) : s ∉ n := fun hn => by
  have := h s hn; rw [cls.word_sep s hs] at this; cases this

theorem not_mem_form {cls : CharClass} {n b : Text} {sep s : Char} (hn : ∀ c ∈ n, cls.word c = true)
    (hs : s ∈ ['#', '~', '=', '{', '}', '(']) (hne : s ≠ sep) (hb : s ∉ b) : s ∉ n ++ sep :: b := by
  simp only [List.mem_append, List.mem_cons, not_or]
  exact ⟨not_mem_of_word hn hs, hne, hb⟩

/-- **C37** (random variable): `name~expr` is the distribution `expr` of `name`. -/
theorem C37_random (cls : CharClass) (ts : TextSem N V C O) (sem : Sem N V C O S L) {df n b : Text} {e : Expr N C O}
    (ht : stripBlanks df = n ++ '~' :: b) (hn : n ≠ []) (hw : ∀ c ∈ n, cls.word c = true) (hb : b ≠ [])
    (hs : ∀ c ∈ b, cls.space c = false) (hh : '#' ∉ b) (he : ts.parse b = .ok e) :
    parseLoci cls ts sem df = (fun l => (l, ([] : Text))) <$> mkDist sem (ts.toName n) e [] := by
  rw [parseLoci_noHash cls ts sem ht (not_mem_form hw (by simp) (by decide) hh)]
  have : matchSep cls '~' (n ++ '~' :: b) = some (n, b) :=
    (matchSep_iff cls (cls.word_sep '~' (by simp)) _ _ _).2 ⟨hn, hb, hw, hs, [], by simp, by simp⟩
  unfold parseBody
  rw [if_pos (by simp), this]
  simp only [he]
  show (do return (← mkDist sem (ts.toName n) e [], []) : Result _) = _
  cases mkDist sem (ts.toName n) e [] <;> rfl

/-- `y ~ n(x)` -/
example : parseLoci cls ts sem ['y', ' ', '~', ' ', 'n', '(', 'x', ')']
    = .ok (.dist ['y'] (.call ['n'] .nil (.cons ['l'] (.name ['x']) .nil)) [['x']], []) := by decide

/-- **C37** (pseudo node): `name=f(...)` is a pseudo node. -/
theorem C37_pseudo (cls : CharClass) (ts : TextSem N V C O) (sem : Sem N V C O S L) {df n b : Text} {e : Expr N C O}
    (ht : stripBlanks df = n ++ '=' :: 'f' :: '(' :: b) (hn : n ≠ []) (hw : ∀ c ∈ n, cls.word c = true)
    (hs : ∀ c ∈ 'f' :: '(' :: b, cls.space c = false) (hh : '#' ∉ b) (hd : '~' ∉ b)
    (he : ts.parse ('f' :: '(' :: b) = .ok e) :
    parseLoci cls ts sem df = (fun l => (l, ([] : Text))) <$> mkPseudo (ts.toName n) e [] := by
  rw [parseLoci_noHash cls ts sem ht (not_mem_form hw (by simp) (by decide) (by simp [hh]))]
  have : matchSep cls '=' (n ++ '=' :: 'f' :: '(' :: b) = some (n, 'f' :: '(' :: b) :=
    (matchSep_iff cls (cls.word_sep '=' (by simp)) _ _ _).2 ⟨hn, by simp, hw, hs, [], by simp, by simp⟩
  unfold parseBody
  rw [if_neg (not_mem_form hw (by simp) (by decide) (by simp [hd])), this]
  simp only [he]
  rw [if_pos (by simp [List.isPrefixOf])]
  show (do return (← mkPseudo (ts.toName n) e [], []) : Result _) = _
  cases mkPseudo (V := V) (C := C) (O := O) (ts.toName n) e [] <;> rfl

/-- `y = f(x)` -/
example : parseLoci cls ts sem ['y', ' ', '=', ' ', 'f', '(', 'x', ')']
    = .ok (.pseudo ['y'] [['x']], []) := by decide

theorem parse_assign (cls : CharClass) (ts : TextSem N V C O) (sem : Sem N V C O S L) {df n b : Text} {e : Expr N C O}
    (ht : stripBlanks df = n ++ '=' :: b) (hn : n ≠ []) (hw : ∀ c ∈ n, cls.word c = true) (hb : b ≠ [])
    (hs : ∀ c ∈ b, cls.space c = false) (hh : '#' ∉ b) (hd : '~' ∉ b) (hf : ¬ ['f', '('] <+: b)
    (he : ts.parse b = .ok e) :
    parseLoci cls ts sem df = match mkValue sem (ts.toName n) e with
      | .error .NameError => .ok (mkFunc (ts.toName n) e [], [])
      | .error x => .error x
      | .ok l => .ok (l, []) := by
  rw [parseLoci_noHash cls ts sem ht (not_mem_form hw (by simp) (by decide) hh)]
  have : matchSep cls '=' (n ++ '=' :: b) = some (n, b) :=
    (matchSep_iff cls (cls.word_sep '=' (by simp)) _ _ _).2 ⟨hn, hb, hw, hs, [], by simp, by simp⟩
  unfold parseBody
  rw [if_neg (not_mem_form hw (by simp) (by decide) hd), this]
  simp only [he]
  rw [if_neg (by rw [List.isPrefixOf_iff_prefix]; exact hf)]
  have hbind : (do mkValue sem (ts.toName n) (← (.ok e)) : Result (Loci N V C O)) = mkValue sem (ts.toName n) e := rfl
  rw [hbind]
  rcases mkValue sem (ts.toName n) e with x | l
  · cases x <;> rfl
  · rfl

/-- **C37** (constant): `name=expr` is a constant when `expr` has a value by itself. -/
theorem C37_constant (cls : CharClass) (ts : TextSem N V C O) (sem : Sem N V C O S L) {df n b : Text} {e : Expr N C O}
    (ht : stripBlanks df = n ++ '=' :: b) (hn : n ≠ []) (hw : ∀ c ∈ n, cls.word c = true) (hb : b ≠ [])
    (hs : ∀ c ∈ b, cls.space c = false) (hh : '#' ∉ b) (hd : '~' ∉ b) (hf : ¬ ['f', '('] <+: b)
    (he : ts.parse b = .ok e) {v : V} (hv : e.eval sem sem.math (fun _ => none) = .ok v) :
    parseLoci cls ts sem df = .ok (.value (ts.toName n) v, []) := by
  rw [parse_assign cls ts sem ht hn hw hb hs hh hd hf he]
  simp [mkValue, hv]

example : parseLoci cls ts sem ['y', '=', '1'] = .ok (.value ['y'] 1, []) :=
  C37_constant cls ts sem (n := ['y']) (b := ['1']) (e := .const 1) (v := 1)
    (by decide) (by decide) (by decide) (by decide) (by decide) (by decide) (by decide) (by decide) (by decide)
    (by decide)

/-- **C37** (function): `name=expr` is a function of the names in `expr` when one of them is unknown. -/
theorem C37_function (cls : CharClass) (ts : TextSem N V C O) (sem : Sem N V C O S L) {df n b : Text} {e : Expr N C O}
    (ht : stripBlanks df = n ++ '=' :: b) (hn : n ≠ []) (hw : ∀ c ∈ n, cls.word c = true) (hb : b ≠ [])
    (hs : ∀ c ∈ b, cls.space c = false) (hh : '#' ∉ b) (hd : '~' ∉ b) (hf : ¬ ['f', '('] <+: b)
    (he : ts.parse b = .ok e) (hv : e.eval sem sem.math (fun _ => none) = .error .NameError) :
    ∃ ps, parseLoci cls ts sem df = .ok (.func (ts.toName n) e ps, []) ∧
      ∀ x, x ∈ ps ↔ Uses e x ∧ ¬ Calls e x := by
  refine ⟨(parseParents e).1, ?_, mem_parseParents_fst e⟩
  rw [parse_assign cls ts sem ht hn hw hb hs hh hd hf he]
  simp [mkValue, hv, mkFunc]

example : parseLoci cls ts sem ['y', '=', 'x'] = .ok (.func ['y'] (.name ['x']) [['x']], []) := by decide

/-- **C37** (exogenous node): a bare name. -/
theorem C37_exogenous (cls : CharClass) (ts : TextSem N V C O) (sem : Sem N V C O S L) {df n : Text}
    (ht : stripBlanks df = n) (hn : n ≠ []) (hw : ∀ c ∈ n, cls.word c = true) :
    parseLoci cls ts sem df = .ok (.exo (ts.toName n), []) := by
  rw [parseLoci_noHash cls ts sem ht (not_mem_of_word hw (by simp))]
  unfold parseBody
  rw [if_neg (not_mem_of_word hw (by simp)), matchSep_words cls hw]
  simp only
  rw [if_pos ⟨hn, List.all_eq_true.2 hw⟩]
  rfl

example : parseLoci cls ts sem ['y', ' ', 'z'] = .ok (.exo ['y', 'z'], []) :=
  C37_exogenous cls ts sem (by decide) (by decide) (by decide)

/-- **C37** (description): what follows `#` becomes the description and does not influence the definition. -/
theorem C37_description (cls : CharClass) (ts : TextSem N V C O) (sem : Sem N V C O S L) {df t d : Text}
    (ht : stripBlanks df = t ++ '#' :: d) (h1 : t ≠ []) (h2 : d ≠ []) (hs1 : ∀ c ∈ t, cls.space c = false)
    (hs2 : ∀ c ∈ d, cls.space c = false) (hh1 : '#' ∉ t) (hh2 : '#' ∉ d) :
    parseLoci cls ts sem df = (fun r => (r.1, d)) <$> parseLoci cls ts sem t := by
  have hst : stripBlanks t = t := stripBlanks_id (fun h => by
    have := hs1 _ h; rw [cls.space_blank ' ' (by simp)] at this; cases this)
  rw [parseLoci_noHash cls ts sem hst hh1]
  have := matchHash_split cls (r := []) h1 h2 hs1 hs2 hh2 (by simp)
  rw [List.append_nil] at this
  unfold parseLoci
  simp only [ht]
  rw [if_pos (by simp), this]
  simp only
  cases parseBody cls ts sem t <;> rfl

example : parseLoci cls ts sem ['y', ' ', '=', '1', ' ', '#', ' ', 'a', 'b'] = .ok (.value ['y'] 1, ['a', 'b']) := by
  decide

/-- **C37** (refusal): a line without `~` and `#` that is neither `name=expr` nor a name raises `ScriptException`. -/
theorem C37_refusal (cls : CharClass) (ts : TextSem N V C O) (sem : Sem N V C O S L) {df t : Text}
    (ht : stripBlanks df = t) (hh : '#' ∉ t) (hd : '~' ∉ t)
    (h1 : ∀ n b r, n ≠ [] → b ≠ [] → (∀ c ∈ n, cls.word c = true) → (∀ c ∈ b, cls.space c = false) →
      t ≠ n ++ '=' :: (b ++ r))
    (h2 : t = [] ∨ ∃ c ∈ t, cls.word c = false) :
    parseLoci cls ts sem df = .error .ScriptException := by
  rw [parseLoci_noHash cls ts sem ht hh]
  unfold parseBody
  rw [if_neg hd]
  have : matchSep cls '=' t = none := by
    cases hm : matchSep cls '=' t with
    | none => rfl
    | some p =>
      obtain ⟨n, b⟩ := p
      obtain ⟨a1, a2, a3, a4, r, a5, -⟩ := (matchSep_iff cls (cls.word_sep '=' (by simp)) _ _ _).1 hm
      exact absurd a5 (h1 n b r a1 a2 a3 a4)
  rw [this]
  simp only
  rw [if_neg]
  · rfl
  · rintro ⟨a, b⟩
    rcases h2 with h2 | ⟨c, hc, h2⟩
    · exact a h2
    · rw [List.all_eq_true.1 b c hc] at h2; cases h2

/-- A line of neither form, without any separator. -/
theorem refused_of_no_sep (cls : CharClass) (ts : TextSem N V C O) (sem : Sem N V C O S L) {df t : Text}
    (ht : stripBlanks df = t) (hh : '#' ∉ t) (hd : '~' ∉ t) (he : '=' ∉ t)
    (h2 : t = [] ∨ ∃ c ∈ t, cls.word c = false) :
    parseLoci cls ts sem df = .error .ScriptException :=
  C37_refusal cls ts sem ht hh hd (fun n b r _ _ _ _ h => he (by rw [h]; simp)) h2

example : parseLoci cls ts sem ['x', ' ', '<', ' ', 'y'] = .error .ScriptException :=
  refused_of_no_sep cls ts sem rfl (by decide) (by decide) (by decide) (by decide)

/-- **C37** fails for ill-formed lines with `~` or `#`: whatever the rest of the run-time does, `~a` and `x#` raise
`AttributeError`, and a description containing `#` makes the definition part of the description. -/
theorem C37_refuted (cls : CharClass) (ts : TextSem N V C O) (sem : Sem N V C O S L) :
    (∀ t, parseLoci cls ts sem ('~' :: t) ≠ .error .ScriptException) ∧
    parseLoci cls ts sem ['~', 'a'] = .error .AttributeError ∧
    (cls.space 'x' = false → parseLoci cls ts sem ['x', '#'] = .error .AttributeError) ∧
    (cls.space 'x' = false → cls.space 'a' = false → cls.space 'b' = false →
      parseLoci cls ts sem ['x', '#', 'a', '#', 'b'] = .error .ScriptException) := by
  have hw : cls.word '~' = false := cls.word_sep _ (by simp)
  have hm : ∀ t, matchSep cls '~' ('~' :: t) = none := by
    intro t
    unfold matchSep
    rw [List.takeWhile_cons_of_neg (by rw [hw]; simp)]
    simp
  have hb : ∀ t, parseBody cls ts sem ('~' :: t) = .error .AttributeError := by
    intro t
    unfold parseBody
    rw [if_pos (by simp), hm]
  refine ⟨?_, ?_, ?_, ?_⟩
  · intro t
    have hst : stripBlanks ('~' :: t) = '~' :: stripBlanks t := rfl
    unfold parseLoci
    simp only [hst]
    split
    · cases hmh : matchHash cls ('~' :: stripBlanks t) with
      | none => simp
      | some p =>
        obtain ⟨t', d⟩ := p
        have ht' : ∃ r, t' = '~' :: r := by
          unfold matchHash at hmh
          obtain ⟨i, hi, h⟩ := List.exists_of_findSome?_eq_some hmh
          split at h
          · rename_i hc
            cases h
            have hsp : cls.space '~' = false := cls.space_sep _ (by simp)
            rw [List.takeWhile_cons_of_pos (by rw [hsp]; rfl)]
            obtain ⟨j, rfl⟩ : ∃ j, i = j + 1 := ⟨i - 1, by omega⟩
            exact ⟨_, List.take_succ_cons⟩
          · cases h
        obtain ⟨r, rfl⟩ := ht'
        simp only [hb]
        intro h; cases h
    · rw [hb]; intro h; cases h
  · rw [parseLoci_noHash cls ts sem (t := ['~', 'a']) (by decide) (by decide), hb]; rfl
  · intro hx
    have h3 : cls.space '#' = false := cls.space_sep _ (by simp)
    unfold parseLoci
    have : stripBlanks ['x', '#'] = ['x', '#'] := by decide
    simp only [this]
    have hm : matchHash cls ['x', '#'] = none := by
      unfold matchHash
      simp [List.takeWhile, hx, h3, List.range_succ]
    rw [if_pos (by decide), hm]
  · intro hx ha hb'
    have h3 : cls.space '#' = false := cls.space_sep _ (by simp)
    have h4 : cls.word '#' = false := cls.word_sep _ (by simp)
    unfold parseLoci
    have : stripBlanks ['x', '#', 'a', '#', 'b'] = ['x', '#', 'a', '#', 'b'] := by decide
    simp only [this]
    have hm : matchHash cls ['x', '#', 'a', '#', 'b'] = some (['x', '#', 'a'], ['b']) := by
      unfold matchHash
      simp [List.takeWhile, hx, h3, ha, hb', List.range_succ]
    rw [if_pos (by decide), hm]
    simp only
    have hb2 : parseBody cls ts sem ['x', '#', 'a'] = .error .ScriptException := by
      unfold parseBody
      have : matchSep cls '=' ['x', '#', 'a'] = none := by
        cases hm : matchSep cls '=' ['x', '#', 'a'] with
        | none => rfl
        | some p =>
          obtain ⟨n, b⟩ := p
          obtain ⟨-, -, -, -, r, a5, -⟩ := (matchSep_iff cls (cls.word_sep '=' (by simp)) _ _ _).1 hm
          have : '=' ∈ ['x', '#', 'a'] := by rw [a5]; simp
          exact absurd this (by decide)
      rw [if_neg (by decide), this]
      simp [h4]
    rw [hb2]; rfl

/-- **C37** (converse): whatever is accepted has one of the five forms, and its kind is the one of that form. -/
theorem C37_forms (cls : CharClass) (ts : TextSem N V C O) (sem : Sem N V C O S L) {df t d : Text}
    {l : Loci N V C O} (ht : stripBlanks df = t) (hh : '#' ∉ t) (h : parseLoci cls ts sem df = .ok (l, d)) :
    d = [] ∧ ∃ n, n ≠ [] ∧ (∀ c ∈ n, cls.word c = true) ∧ l.name = ts.toName n ∧
      ((∃ b r, t = n ++ '~' :: (b ++ r) ∧ l.isDist = true) ∨
       (∃ b r, t = n ++ '=' :: 'f' :: '(' :: (b ++ r) ∧ l.isPseudo = true) ∨
       (∃ b r, t = n ++ '=' :: (b ++ r) ∧ '~' ∉ t ∧ b ≠ [] ∧ ¬ ['f', '('] <+: b ∧
          ((∃ v, l = .value (ts.toName n) v) ∨ ∃ e ps, l = .func (ts.toName n) e ps)) ∨
       (t = n ∧ l = .exo (ts.toName n))) := by
  rw [parseLoci_noHash cls ts sem ht hh] at h
  obtain ⟨l', hb, he⟩ : ∃ l', parseBody cls ts sem t = .ok l' ∧ (l', ([] : Text)) = (l, d) := by
    cases hb : parseBody cls ts sem t with
    | error x => rw [hb] at h; cases h
    | ok l' => rw [hb] at h; exact ⟨l', rfl, by cases h; rfl⟩
  cases he
  refine ⟨rfl, ?_⟩
  unfold parseBody at hb
  split at hb
  · cases hm : matchSep cls '~' t with
    | none => rw [hm] at hb; cases hb
    | some p =>
      obtain ⟨n, b⟩ := p
      obtain ⟨a1, a2, a3, a4, r, a5, -⟩ := (matchSep_iff cls (cls.word_sep '~' (by simp)) _ _ _).1 hm
      rw [hm] at hb
      simp only at hb
      cases hp : ts.parse b with
      | error x => rw [hp] at hb; cases hb
      | ok e =>
        rw [hp] at hb
        have hb : mkDist sem (ts.toName n) e [] = .ok l := hb
        unfold mkDist at hb
        cases hc : completeDef sem e with
        | error x => rw [hc] at hb; cases hb
        | ok f =>
          rw [hc] at hb
          cases hpp : parsedParents (parseFunction e.parsed).2 with
          | error x => rw [hpp] at hb; cases hb
          | ok ps =>
            rw [hpp] at hb
            cases hb
            exact ⟨n, a1, a3, rfl, Or.inl ⟨b, r, a5, rfl⟩⟩
  · rename_i hd
    cases hm : matchSep cls '=' t with
    | none =>
      rw [hm] at hb
      simp only at hb
      split at hb
      · rename_i hw
        cases hb
        exact ⟨t, hw.1, List.all_eq_true.1 hw.2, rfl, Or.inr (Or.inr (Or.inr ⟨rfl, rfl⟩))⟩
      · cases hb
    | some p =>
      obtain ⟨n, b⟩ := p
      obtain ⟨a1, a2, a3, a4, r, a5, -⟩ := (matchSep_iff cls (cls.word_sep '=' (by simp)) _ _ _).1 hm
      rw [hm] at hb
      simp only at hb
      cases hp : ts.parse b with
      | error x =>
        rw [hp] at hb
        split at hb
        · cases hb
        · revert hb
          cases x <;> (intro hb; cases hb)
      | ok e =>
        rw [hp] at hb
        split at hb
        · rename_i hf
          rw [List.isPrefixOf_iff_prefix] at hf
          obtain ⟨b', rfl⟩ := hf
          have hb : mkPseudo (ts.toName n) e [] = .ok l := hb
          unfold mkPseudo at hb
          cases hpp : parsedParents (parseFunction e.parsed).2 with
          | error x => rw [hpp] at hb; cases hb
          | ok ps =>
            rw [hpp] at hb
            cases hb
            exact ⟨n, a1, a3, rfl, Or.inr (Or.inl ⟨b', r, by simpa using a5, rfl⟩)⟩
        · rename_i hf
          rw [List.isPrefixOf_iff_prefix] at hf
          have hbind : (do mkValue sem (ts.toName n) (← (.ok e)) : Result (Loci N V C O))
            = mkValue sem (ts.toName n) e := rfl
          rw [hbind] at hb
          unfold mkValue at hb
          cases hv : e.eval sem sem.math (fun _ => none) with
          | ok v =>
            rw [hv] at hb
            cases hb
            exact ⟨n, a1, a3, rfl, Or.inr (Or.inr (Or.inl ⟨b, r, a5, hd, a2, hf, Or.inl ⟨v, rfl⟩⟩))⟩
          | error x =>
            rw [hv] at hb
            have : l = mkFunc (ts.toName n) e [] := by
              revert hb
              cases x <;> (intro hb; first | (cases hb; done) | (cases hb; rfl))
            exact ⟨n, a1, a3, by rw [this]; rfl,
              Or.inr (Or.inr (Or.inl ⟨b, r, a5, hd, a2, hf, Or.inr ⟨e, _, this⟩⟩))⟩

example : ∃ l, parseLoci cls ts sem ['y', '=', 'f', '(', 'x', ')'] = .ok (l, []) ∧ l.isPseudo = true :=
  ⟨_, rfl, rfl⟩

/-! ## C18 -/

/-- How a line is refused. -/
def Refused (cls : CharClass) (ts : TextSem N V C O) (sem : Sem N V C O S L) (t : Text) : Prop :=
  parseLoci cls ts sem t = .error .ScriptException ∨ parseLoci cls ts sem t = .error .AttributeError

theorem readLines_refused (cls : CharClass) (ts : TextSem N V C O) (sem : Sem N V C O S L) (bn : BN N V C O) :
    ∀ ls : List Text, (∀ t ∈ ls, Refused cls ts sem t) →
      (readLines cls ts sem ls bn).1 = bn ∧
      ((∃ t ∈ ls, parseLoci cls ts sem t = .error .AttributeError) →
        (readLines cls ts sem ls bn).2 = .error .AttributeError) := by
  intro ls
  induction ls with
  | nil => intro _; exact ⟨rfl, by simp⟩
  | cons t ls ih =>
    intro h
    have hi := ih (fun x hx => h x (by simp [hx]))
    rcases h t (by simp) with e | e
    · have : readLines cls ts sem (t :: ls) bn = readLines cls ts sem ls bn := by
        simp only [readLines, appendFromDefinition, e]
      rw [this]
      refine ⟨hi.1, ?_⟩
      rintro ⟨x, hx, hx'⟩
      rcases List.mem_cons.1 hx with rfl | hx
      · rw [e] at hx'; cases hx'
      · exact hi.2 ⟨x, hx, hx'⟩
    · have : readLines cls ts sem (t :: ls) bn = (bn, .error .AttributeError) := by
        simp only [readLines, appendFromDefinition, e]
      rw [this]
      exact ⟨rfl, fun _ => rfl⟩

theorem takeWhile_head_neg {p : Char → Bool} {c : Char} {r : Text} (h : p c = false) : (c :: r).takeWhile p = [] :=
  List.takeWhile_cons_of_neg (by rw [h]; simp)

/-- A line that starts with a tab is never a definition. -/
theorem tab_refused (cls : CharClass) (ts : TextSem N V C O) (sem : Sem N V C O S L) (r : Text) :
    Refused cls ts sem ('\t' :: r) ∧
    ('~' ∈ r ∨ '#' ∈ r → parseLoci cls ts sem ('\t' :: r) = .error .AttributeError) := by
  have hst : stripBlanks ('\t' :: r) = '\t' :: stripBlanks r := rfl
  have hsp : cls.space '\t' = true := cls.space_blank _ (by simp)
  have hw : cls.word '\t' = false := by
    cases h : cls.word '\t' with
    | false => rfl
    | true => rw [cls.word_space _ h] at hsp; cases hsp
  have hm : ∀ s q, s ≠ '\t' → matchSep cls s ('\t' :: q) = none := by
    intro s q hs
    unfold matchSep
    rw [takeWhile_head_neg hw]
    simp
  have hmem : ∀ s, s ≠ ' ' → (s ∈ stripBlanks r ↔ s ∈ r) := by
    intro s hs
    simp [stripBlanks, hs]
  by_cases hh : '#' ∈ r
  · have : parseLoci cls ts sem ('\t' :: r) = .error .AttributeError := by
      unfold parseLoci
      simp only [hst]
      rw [if_pos (by simp [hmem '#' (by decide), hh]),
        matchHash_none_of_space cls (by intro c hc; simp at hc; subst hc; exact hsp)]
    exact ⟨Or.inr this, fun _ => this⟩
  · rw [Refused, parseLoci_noHash cls ts sem hst (by simp [hmem '#' (by decide), hh])]
    by_cases hd : '~' ∈ r
    · have : parseBody cls ts sem ('\t' :: stripBlanks r) = .error .AttributeError := by
        unfold parseBody
        rw [if_pos (by simp [hmem '~' (by decide), hd]), hm _ _ (by decide)]
      rw [this]
      exact ⟨Or.inr rfl, fun _ => rfl⟩
    · have : parseBody cls ts sem ('\t' :: stripBlanks r) = .error .ScriptException := by
        unfold parseBody
        rw [if_neg (by simp [hmem '~' (by decide), hd]), hm _ _ (by decide)]
        simp [hw]
      rw [this]
      exact ⟨Or.inl rfl, fun h => absurd h (by simp [hd, hh])⟩

theorem word_ne_blank {cls : CharClass} {n : Text} (h : ∀ c ∈ n, cls.word c = true) {s : Char}
    (hs : s ∈ [' ', '\t', '\n']) : s ∉ n := fun hn => by
  have h1 := cls.word_space _ (h s hn)
  rw [cls.space_blank s hs] at h1; cases h1

/-- The stripped lines of the text `form_script` prints. -/
theorem lines_formScript (cls : CharClass) (ts : TextSem N V C O) {bn : BN N V C O} {s : Text}
    (hn : ∀ c ∈ ts.ofName bn.name, cls.word c = true) (hs : formScript ts bn = .ok s)
    (hl : ∀ x ∈ bn.dag.nodes, ∀ t, scriptLine ts bn x = .ok t → '\n' ∉ t) :
    ∃ ls, bn.dag.nodes.mapM (scriptLine ts bn) = .ok ls ∧
      (splitLines s).map stripBlanks = (['P', 'C', 'o', 'r', 'e'] ++ ts.ofName bn.name ++ ['{']) ::
        (ls.map stripBlanks ++ [['}']]) := by
  unfold formScript at hs
  cases hm : bn.dag.nodes.mapM (scriptLine ts bn) with
  | error e => rw [hm] at hs; cases hs
  | ok ls =>
    rw [hm] at hs
    have hs : ['P', 'C', 'o', 'r', 'e', ' '] ++ ts.ofName bn.name ++ [' ', '{', '\n']
      ++ ls.flatMap (fun l => l ++ ['\n']) ++ ['}'] = s := by cases hs; rfl
    refine ⟨ls, rfl, ?_⟩
    have hnl : ∀ t ∈ ls, '\n' ∉ t := by
      intro t ht
      obtain ⟨x, hx, hxt⟩ := (mapM_ok_mem hm).1 t ht
      exact hl x hx t hxt
    have e : s = (['P', 'C', 'o', 'r', 'e', ' '] ++ ts.ofName bn.name ++ [' ', '{']) ++ '\n' ::
        (ls.flatMap (fun l => l ++ ['\n']) ++ ['}']) := by
      rw [← hs]; simp
    rw [e, splitLines_append, splitLines_join ls hnl, splitLines_single (by decide)]
    · have h1 : stripBlanks (['P', 'C', 'o', 'r', 'e', ' '] ++ ts.ofName bn.name ++ [' ', '{'])
          = ['P', 'C', 'o', 'r', 'e'] ++ ts.ofName bn.name ++ ['{'] := by
        have := stripBlanks_id (word_ne_blank (s := ' ') hn (by simp))
        unfold stripBlanks at this ⊢
        rw [List.filter_append, List.filter_append, this]
        rfl
      rw [List.map_cons, List.map_append, h1]
      rfl
    · have := word_ne_blank (s := '\n') hn (by simp)
      simp [this]

/-- Every line of the text `form_script` prints is refused. -/
theorem formScript_refused (cls : CharClass) (ts : TextSem N V C O) (sem : Sem N V C O S L) {bn : BN N V C O} {s : Text}
    (hn : ∀ c ∈ ts.ofName bn.name, cls.word c = true) (hs : formScript ts bn = .ok s)
    (hl : ∀ x ∈ bn.dag.nodes, ∀ t, scriptLine ts bn x = .ok t → '\n' ∉ t) :
    ∀ t ∈ (splitLines s).map stripBlanks, Refused cls ts sem t := by
  obtain ⟨ls, hm, e⟩ := lines_formScript cls ts hn hs hl
  rw [e]
  intro t ht
  rcases List.mem_cons.1 ht with rfl | ht
  · left
    have h1 := not_mem_of_word hn (s := '#') (by simp)
    have h2 := not_mem_of_word hn (s := '~') (by simp)
    have h3 := not_mem_of_word hn (s := '=') (by simp)
    have h4 := word_ne_blank (s := ' ') hn (by simp)
    exact refused_of_no_sep cls ts sem (t := ['P', 'C', 'o', 'r', 'e'] ++ ts.ofName bn.name ++ ['{'])
      (stripBlanks_id (by simp [h4])) (by simp [h1]) (by simp [h2]) (by simp [h3])
      (Or.inr ⟨'{', by simp, cls.word_sep _ (by simp)⟩)
  · rcases List.mem_append.1 ht with ht | ht
    · obtain ⟨u, hu, rfl⟩ := List.mem_map.1 ht
      obtain ⟨x, hx, hxu⟩ := (mapM_ok_mem hm).1 u hu
      obtain ⟨r, rfl⟩ : ∃ r, u = '\t' :: r := by
        unfold scriptLine at hxu
        cases hg : bn.get x with
        | error e => rw [hg] at hxu; cases hxu
        | ok l => rw [hg] at hxu; cases hxu; exact ⟨_, rfl⟩
      exact (tab_refused cls ts sem _).1
    · rw [List.mem_singleton] at ht
      subst ht
      exact Or.inl (refused_of_no_sep cls ts sem (df := ['}']) (t := ['}']) (by decide) (by decide) (by decide)
        (by decide) (Or.inr ⟨'}', by simp, cls.word_sep _ (by simp)⟩))

/-- **C18** fails: whatever network `form_script` prints, what `bayes_net_from_script` returns for the text has no
nodes at all, because each printed line starts with a tab. -/
theorem C18_refuted (cls : CharClass) (f : N) (ts : TextSem N V C O) (sem : Sem N V C O S L) {bn : BN N V C O}
    {s s' : Text} {b' : BN N V C O} (hn : ∀ c ∈ ts.ofName bn.name, cls.word c = true) (hs : formScript ts bn = .ok s)
    (hl : ∀ x ∈ bn.dag.nodes, ∀ t, scriptLine ts bn x = .ok t → '\n' ∉ t)
    (h : fromScript cls f ts sem s = .ok (b', s')) : b'.dag.nodes = [] ∧ b'.loci = [] := by
  have hr := formScript_refused cls ts sem hn hs hl
  unfold fromScript at h
  simp only at h
  cases hh : ((splitLines s).map stripBlanks).findSome? (matchHeader cls) with
  | none => rw [hh] at h; cases h
  | some n =>
    rw [hh] at h
    simp only at h
    have hrr := (readLines_refused cls ts sem (BN.empty (ts.toName n)) _ hr).1
    cases hrl : readLines cls ts sem ((splitLines s).map stripBlanks) (BN.empty (ts.toName n)) with
    | mk b1 res =>
      rw [hrl] at h hrr
      have hb1 : b1 = BN.empty (ts.toName n) := hrr
      subst hb1
      cases res with
      | error e => cases h
      | ok u =>
        simp only at h
        cases hc : (BN.empty (ts.toName n) : BN N V C O).complete f with
        | mk b2 r2 =>
          rw [hc] at h
          cases r2 with
          | error e => cases h
          | ok u =>
            cases h
            have : ((BN.empty (ts.toName n) : BN N V C O).complete f).1 = b' := by rw [hc]
            rw [← this]
            exact ⟨rfl, rfl⟩

/-- **C18** fails: a network with a random variable or a described node prints text that cannot be read at all. -/
theorem C18_refuted_error (cls : CharClass) (f : N) (ts : TextSem N V C O) (sem : Sem N V C O S L) {bn : BN N V C O}
    {s : Text} (hn : ∀ c ∈ ts.ofName bn.name, cls.word c = true) (hne : ts.ofName bn.name ≠ [])
    (hs : formScript ts bn = .ok s)
    (hl : ∀ x ∈ bn.dag.nodes, ∀ t, scriptLine ts bn x = .ok t → '\n' ∉ t)
    {x : N} (hx : x ∈ bn.dag.nodes)
    (hd : (∃ y e ps, bn.loci.get? x = some (.dist y e ps)) ∨ ∃ d, bn.des.get? x = some d) :
    fromScript cls f ts sem s = .error .AttributeError := by
  have hr := formScript_refused cls ts sem hn hs hl
  obtain ⟨ls, hm, e⟩ := lines_formScript cls ts hn hs hl
  have hh : ((splitLines s).map stripBlanks).findSome? (matchHeader cls) = some (ts.ofName bn.name) := by
    rw [e, List.findSome?_cons]
    have : matchHeader cls (['P', 'C', 'o', 'r', 'e'] ++ ts.ofName bn.name ++ ['{']) = some (ts.ofName bn.name) := by
      unfold matchHeader
      rw [if_pos (by rw [List.append_assoc]; simp)]
      have e1 : (['P', 'C', 'o', 'r', 'e'] ++ ts.ofName bn.name ++ ['{']).drop 5 = ts.ofName bn.name ++ ['{'] := by
        rw [List.append_assoc]; rfl
      have e2 : (ts.ofName bn.name ++ ['{']).takeWhile cls.word = ts.ofName bn.name :=
        takeWhile_split hn (by intro c hc; simp at hc; subst hc; exact cls.word_sep _ (by simp))
      simp only [e1, e2]
      simp [hne]
    rw [this]
  have ha : ∃ t ∈ (splitLines s).map stripBlanks, parseLoci cls ts sem t = .error .AttributeError := by
    obtain ⟨u, hu, hxu⟩ := (mapM_ok_mem hm).2 x hx
    refine ⟨stripBlanks u, ?_, ?_⟩
    · rw [e]
      simp only [List.mem_cons, List.mem_append, List.mem_map]
      exact Or.inr (Or.inl ⟨u, hu, rfl⟩)
    · unfold scriptLine at hxu
      cases hg : bn.get x with
      | error e => rw [hg] at hxu; cases hxu
      | ok l =>
        rw [hg] at hxu
        cases hxu
        refine (tab_refused cls ts sem _).2 ?_
        rcases hd with ⟨y, e', ps, hd⟩ | ⟨d, hd⟩
        · have : l = .dist y e' ps := by
            unfold BN.get at hg
            rw [hd] at hg
            cases hg
            rfl
          subst this
          left
          rw [List.mem_filter]
          exact ⟨by simp [reprLoci], by decide⟩
        · right
          rw [List.mem_filter]
          exact ⟨by simp [hd], by decide⟩
  unfold fromScript
  simp only [hh]
  have hrl := (readLines_refused cls ts sem (BN.empty (ts.toName (ts.ofName bn.name))) _ hr).2 ha
  cases hrr : readLines cls ts sem ((splitLines s).map stripBlanks) (BN.empty (ts.toName (ts.ofName bn.name))) with
  | mk b1 res =>
    rw [hrr] at hrl
    rw [show res = .error .AttributeError from hrl]

/-- `y ~ n(x)` and `x` -/
def exBN : BN Text Int Int Unit :=
  defineAll (.empty ['m']) [.dist ['y'] (.call ['n'] .nil (.cons ['l'] (.name ['x']) .nil)) [['x']]]

/-- `y = 1` -/
def exBN' : BN Text Int Int Unit := defineAll (.empty ['m']) [.value ['y'] 1]

example : exBN.dag.nodes = [['y'], ['x']] ∧ ∃ s, formScript ts exBN = .ok s ∧
    fromScript cls ['f'] ts sem s = .error .AttributeError := ⟨by decide, _, rfl, by decide⟩

example : exBN'.dag.nodes = [['y']] ∧ ∃ s, formScript ts exBN' = .ok s ∧
    ∃ b, fromScript cls ['f'] ts sem s = .ok (b, s) ∧ b.dag.nodes = [] := ⟨by decide, _, rfl, _, rfl, by decide⟩

theorem complete_frozen (f : N) (bn : BN N V C O) : (bn.complete f).1.frozen = true := by
  unfold BN.complete
  simp only
  split
  · rfl
  · split
    · rfl
    · split
      · rfl
      · split <;> rfl

/-- **C18** (the provable part): a network that was read from text prints that text, so reading what it prints gives
the same network again. -/
theorem C18_partial (cls : CharClass) (f : N) (ts : TextSem N V C O) (sem : Sem N V C O S L) {s t : Text}
    {bn : BN N V C O} (h : fromScript cls f ts sem s = .ok (bn, t)) :
    ∃ s', toScript ts bn (some t) = .ok s' ∧ fromScript cls f ts sem s' = .ok (bn, t) := by
  have hh := h
  unfold fromScript at h
  simp only at h
  split at h
  · cases h
  · split at h
    · cases h
    · rename_i b1 _
      split at h
      · cases h
      · rename_i b2 hc
        cases h
        refine ⟨s, ?_, hh⟩
        have hf : bn.frozen = true := by
          have : (b1.complete f).1 = bn := by rw [hc]
          rw [← this]
          exact complete_frozen f b1
        unfold toScript
        rw [if_pos hf]

example : ∃ s b, fromScript cls ['f'] ts sem s = .ok (b, s) ∧ b.dag.nodes = [['y'], ['x']] :=
  ⟨['P', 'C', 'o', 'r', 'e', ' ', 'm', '{', '\n', 'y', '=', 'x', '\n', '}'], _, rfl, by decide⟩

/-! ## C38 -/

/-- The definitions found in the lines of a text. -/
def defsOf (cls : CharClass) (ts : TextSem N V C O) (sem : Sem N V C O S L) (ls : List Text) : List (Loci N V C O) :=
  ls.filterMap (fun t => (parseLoci cls ts sem t).toOption.map Prod.fst)

/-- The parent-child relation a list of definitions asks for. -/
def Wanted (ds : List (Loci N V C O)) (p x : N) : Prop := ∃ l ∈ ds, x = l.name ∧ p ∈ l.parents

/-- Every line is a definition or refused with `ScriptException`. -/
def Readable (cls : CharClass) (ts : TextSem N V C O) (sem : Sem N V C O S L) (ls : List Text) : Prop :=
  ∀ t ∈ ls, ∀ e, parseLoci cls ts sem t = .error e → e = .ScriptException

theorem lastDef_none {ds : List (Loci N V C O)} {x : N} (h : x ∉ ds.map Loci.name) : lastDef ds x = none := by
  unfold lastDef
  rw [List.find?_eq_none]
  intro l hl
  simp only [decide_eq_true_eq]
  rintro rfl
  exact h (List.mem_map_of_mem (List.mem_reverse.1 hl))

theorem lastDef_mem {ds : List (Loci N V C O)} (hnd : (ds.map Loci.name).Nodup) {l : Loci N V C O} (hl : l ∈ ds) :
    lastDef ds l.name = some l := by
  cases h : lastDef ds l.name with
  | none =>
    unfold lastDef at h
    rw [List.find?_eq_none] at h
    exact absurd (by simp) (h l (List.mem_reverse.2 hl))
  | some k =>
    have hk : k ∈ ds := List.mem_reverse.1 (List.mem_of_find?_eq_some h)
    have hn : k.name = l.name := by simpa using List.find?_some h
    rw [List.inj_on_of_nodup_map hnd hk hl hn]

/-- Reading the lines defines, in order, what they contain. -/
theorem readLines_built (cls : CharClass) (ts : TextSem N V C O) (sem : Sem N V C O S L) :
    ∀ (ls : List Text) (pre : List (Loci N V C O)) (bn b' : BN N V C O), Built pre bn → Readable cls ts sem ls →
      readLines cls ts sem ls bn = (b', .ok ()) → Built (pre ++ defsOf cls ts sem ls) b' := by
  intro ls
  induction ls with
  | nil =>
    intro pre bn b' hb _ h
    cases h
    simpa [defsOf] using hb
  | cons t ls ih =>
    intro pre bn b' hb hr h
    have hr' : Readable cls ts sem ls := fun x hx => hr x (by simp [hx])
    cases hp : parseLoci cls ts sem t with
    | error e =>
      have he := hr t (by simp) e hp
      subst he
      have e1 : defsOf cls ts sem (t :: ls) = defsOf cls ts sem ls := by
        simp [defsOf, hp, Except.toOption]
      have e2 : readLines cls ts sem (t :: ls) bn = readLines cls ts sem ls bn := by
        simp only [readLines, appendFromDefinition, hp]
      rw [e1]
      rw [e2] at h
      exact ih pre bn b' hb hr' h
    | ok p =>
      obtain ⟨l, des⟩ := p
      have e1 : defsOf cls ts sem (t :: ls) = l :: defsOf cls ts sem ls := by
        simp [defsOf, hp, Except.toOption]
      rw [e1]
      simp only [readLines, appendFromDefinition, hp] at h
      cases ha : bn.appendLoci l (if des = [] then none else some (ts.toName des)) with
      | mk b1 res =>
        rw [ha] at h
        cases res with
        | error e =>
          exfalso
          have hne : e ≠ .ScriptException := by
            rintro rfl
            obtain ⟨hw, hf, -, -⟩ := built_inv hb
            rcases appendLoci_cases hw.toRep hf hw.acyclic l (if des = [] then none else some (ts.toName des)) with
              ⟨⟨b2, e', -⟩, -⟩ | ⟨-, e'⟩ | ⟨-, -, b2, e', -⟩ | ⟨-, -, -, b2, e', -⟩
            all_goals (rw [ha] at e'; cases e')
          cases e <;> first | (exact hne rfl) | (cases h)
        | ok u =>
          have := ih (pre ++ [l]) b1 b' (.define hb ha) hr' h
          simpa using this

/-- It succeeds when no name is defined twice and the relation is acyclic. -/
theorem readLines_ok (cls : CharClass) (ts : TextSem N V C O) (sem : Sem N V C O S L) :
    ∀ (ls : List Text) (pre : List (Loci N V C O)) (bn : BN N V C O), Built pre bn → Readable cls ts sem ls →
      ((pre ++ defsOf cls ts sem ls).map Loci.name).Nodup → Acyclic (Wanted (pre ++ defsOf cls ts sem ls)) →
      ∃ b', readLines cls ts sem ls bn = (b', .ok ()) ∧ b'.name = bn.name := by
  intro ls
  induction ls with
  | nil => intro pre bn hb _ _ _; exact ⟨bn, rfl, rfl⟩
  | cons t ls ih =>
    intro pre bn hb hr hnd hac
    have hr' : Readable cls ts sem ls := fun x hx => hr x (by simp [hx])
    cases hp : parseLoci cls ts sem t with
    | error e =>
      have he := hr t (by simp) e hp
      subst he
      have e1 : defsOf cls ts sem (t :: ls) = defsOf cls ts sem ls := by
        simp [defsOf, hp, Except.toOption]
      have e2 : readLines cls ts sem (t :: ls) bn = readLines cls ts sem ls bn := by
        simp only [readLines, appendFromDefinition, hp]
      rw [e1] at hnd hac
      rw [e2]
      exact ih pre bn hb hr' hnd hac
    | ok p =>
      obtain ⟨l, des⟩ := p
      have e1 : defsOf cls ts sem (t :: ls) = l :: defsOf cls ts sem ls := by
        simp [defsOf, hp, Except.toOption]
      rw [e1] at hnd hac
      have e3 : pre ++ l :: defsOf cls ts sem ls = (pre ++ [l]) ++ defsOf cls ts sem ls := by simp
      obtain ⟨-, -, -, -, hE⟩ := C12_well_formed hb
      have hnl : l.name ∉ pre.map Loci.name := by
        rw [List.map_append, List.nodup_append] at hnd
        intro h
        exact hnd.2.2 _ h _ (by simp) rfl
      have hok : (bn.appendLoci l (if des = [] then none else some (ts.toName des))).2 = .ok () := by
        rw [C12_accepted_iff hb]
        refine ⟨?_, acyclic_mono (fun a b hab => ?_) hac⟩
        · intro p hp
          obtain ⟨k, hk, -⟩ := (hE _ _).1 hp
          rw [lastDef_none hnl] at hk
          cases hk
        · rcases hab with hab | ⟨rfl, hab⟩
          · obtain ⟨k, hk, hpk⟩ := (hE _ _).1 hab
            have hk' : k ∈ pre := List.mem_reverse.1 (List.mem_of_find?_eq_some hk)
            have hn : k.name = b := by simpa using List.find?_some hk
            exact ⟨k, by simp [hk'], hn.symm, hpk⟩
          · exact ⟨l, by simp, rfl, hab⟩
      have ha : bn.appendLoci l (if des = [] then none else some (ts.toName des))
        = ((bn.appendLoci l (if des = [] then none else some (ts.toName des))).1, .ok ()) := Prod.ext rfl hok
      generalize (bn.appendLoci l (if des = [] then none else some (ts.toName des))).1 = b1 at ha
      have hn1 : b1.name = bn.name := by
        obtain ⟨hw, -, -, -⟩ := built_inv hb
        have := congrArg (fun t => t.1)
          (appendLoci_rep_other hw.toRep l (if des = [] then none else some (ts.toName des))).2
        rw [ha] at this
        exact this
      rw [e3] at hnd hac
      obtain ⟨b', hb', hn'⟩ := ih (pre ++ [l]) b1 (.define hb ha) hr' hnd hac
      refine ⟨b', ?_, hn'.trans hn1⟩
      simp only [readLines, appendFromDefinition, hp, ha]
      exact hb'

/-- What a network says: its nodes, the definition of each, and its edges. -/
def Says (ds : List (Loci N V C O)) (bn : BN N V C O) : Prop :=
  (∀ x, x ∈ bn.dag.nodes ↔ ∃ l ∈ ds, x = l.name ∨ x ∈ l.parents) ∧
  (∀ l ∈ ds, bn.loci.get? l.name = some l) ∧
  (∀ x ∈ bn.dag.nodes, (∀ l ∈ ds, l.name ≠ x) → bn.loci.get? x = some (.exo x)) ∧
  (∀ x, x ∉ bn.dag.nodes → bn.loci.get? x = none) ∧
  (∀ p x, bn.dag.E p x ↔ Wanted ds p x)

theorem says_of_built {ds : List (Loci N V C O)} {bn : BN N V C O} (hb : Built ds bn)
    (hnd : (ds.map Loci.name).Nodup) : Says ds bn := by
  obtain ⟨-, h1, h2, h3, h4⟩ := C12_well_formed hb
  refine ⟨h1, fun l hl => h2 _ _ (lastDef_mem hnd hl), fun x hx h => h3 x hx (lastDef_none ?_), ?_, ?_⟩
  · intro hm
    obtain ⟨l, hl, e⟩ := List.mem_map.1 hm
    exact h l hl e
  · intro x hx
    obtain ⟨-, -, hm, hl⟩ := built_inv hb
    rw [hl, lastDef_none]
    · simp [hx]
    · intro h
      obtain ⟨l, hl, e⟩ := List.mem_map.1 h
      exact hx ((hm x).2 ⟨l, hl, Or.inl e.symm⟩)
  · intro p x
    rw [h4]
    constructor
    · rintro ⟨l, hl, hp⟩
      have hm : l ∈ ds := List.mem_reverse.1 (List.mem_of_find?_eq_some hl)
      have hn : l.name = x := by simpa using List.find?_some hl
      exact ⟨l, hm, hn.symm, hp⟩
    · rintro ⟨l, hl, rfl, hp⟩
      exact ⟨l, lastDef_mem hnd hl, hp⟩

/-- The lines of a text, without blanks. -/
def linesOf (s : Text) : List Text := (splitLines s).map (fun t => t.filter (fun c => decide (c ≠ ' ')))

/-- **C38** (reading): a text with a header, every line of which is a definition or refused with `ScriptException`,
and which defines no name twice, is read exactly when the relation its definitions ask for is acyclic; the network then
has the defined and the referenced names, with their definitions. -/
theorem C38_read (cls : CharClass) (f : N) (ts : TextSem N V C O) (sem : Sem N V C O S L) {s n : Text}
    (hh : (linesOf s).findSome? (matchHeader cls) = some n) (hr : Readable cls ts sem (linesOf s))
    (hnd : ((defsOf cls ts sem (linesOf s)).map Loci.name).Nodup) :
    (Acyclic (Wanted (defsOf cls ts sem (linesOf s))) →
      ∃ bn, fromScript cls f ts sem s = .ok (bn, s) ∧ bn.name = ts.toName n ∧ bn.frozen = true ∧
        Says (defsOf cls ts sem (linesOf s)) bn) ∧
    (¬ Acyclic (Wanted (defsOf cls ts sem (linesOf s))) → ∃ e, fromScript cls f ts sem s = .error e) := by
  have hh' : ((splitLines s).map stripBlanks).findSome? (matchHeader cls) = some n := hh
  have hb0 : Built [] (BN.empty (ts.toName n) : BN N V C O) := .empty _
  constructor
  · intro hac
    obtain ⟨b', hb', hname⟩ := readLines_ok cls ts sem (linesOf s) [] _ hb0 hr (by simpa using hnd) (by simpa using hac)
    have hbt := readLines_built cls ts sem (linesOf s) [] _ _ hb0 hr hb'
    rw [List.nil_append] at hbt
    obtain ⟨hw, -, -, -⟩ := built_inv hbt
    obtain ⟨od, ho, -⟩ := Digraph.order_ok_of_acyclic hw.wf hw.acyclic
    have hc := complete_ok hw.toRep ho f
    have hb'' : readLines cls ts sem ((splitLines s).map stripBlanks) (BN.empty (ts.toName n)) = (b', .ok ()) := hb'
    refine ⟨b'.completed f od, ?_, hname, rfl, ?_⟩
    · unfold fromScript
      simp only [hh', hb'', hc]
    · have := says_of_built hbt hnd
      exact this
  · intro hac
    cases hrl : readLines cls ts sem ((splitLines s).map stripBlanks) (BN.empty (ts.toName n)) with
    | mk b' res =>
      cases res with
      | error e =>
        refine ⟨e, ?_⟩
        unfold fromScript
        simp only [hh', hrl]
      | ok u =>
        exfalso
        have hbt := readLines_built cls ts sem (linesOf s) [] _ _ hb0 hr hrl
        rw [List.nil_append] at hbt
        have hs := says_of_built hbt hnd
        obtain ⟨hw, -, -, -⟩ := built_inv hbt
        exact hac (acyclic_mono (fun a b h => (hs.2.2.2.2 a b).2 h) hw.acyclic)

/-- `PCore m {`, `y = x`, `x = 1`, `}` -/
def exText : Text :=
  ['P', 'C', 'o', 'r', 'e', ' ', 'm', '{', '\n', 'y', ' ', '=', 'x', '\n', 'x', '=', ' ', '1', '\n', '}']

example : (linesOf exText).findSome? (matchHeader cls) = some ['m'] ∧
    defsOf cls ts sem (linesOf exText) = [.func ['y'] (.name ['x']) [['x']], .value ['x'] 1] := by
  exact ⟨by decide, by decide⟩

example : ∃ bn, fromScript cls ['f'] ts sem exText = .ok (bn, exText) ∧ bn.dag.nodes = [['y'], ['x']] :=
  ⟨_, rfl, by decide⟩

/-- **C38** (order): the order of the lines has no influence on whether the text is read, nor on what the network
says. -/
theorem C38_order (cls : CharClass) (f : N) (ts : TextSem N V C O) (sem : Sem N V C O S L) {s s' n : Text}
    (hp : (linesOf s).Perm (linesOf s'))
    (hh : (linesOf s).findSome? (matchHeader cls) = some n) (hr : Readable cls ts sem (linesOf s))
    (hnd : ((defsOf cls ts sem (linesOf s)).map Loci.name).Nodup) :
    ((∃ r, fromScript cls f ts sem s = .ok r) ↔ ∃ r, fromScript cls f ts sem s' = .ok r) ∧
    ∀ b b' t t', fromScript cls f ts sem s = .ok (b, t) → fromScript cls f ts sem s' = .ok (b', t') →
      (∀ x, x ∈ b.dag.nodes ↔ x ∈ b'.dag.nodes) ∧ (∀ x, b.loci.get? x = b'.loci.get? x) ∧
      ∀ p x, b.dag.E p x ↔ b'.dag.E p x := by
  have hd : (defsOf cls ts sem (linesOf s)).Perm (defsOf cls ts sem (linesOf s')) := hp.filterMap _
  have hr' : Readable cls ts sem (linesOf s') := fun t ht => hr t (hp.mem_iff.2 ht)
  have hnd' : ((defsOf cls ts sem (linesOf s')).map Loci.name).Nodup := (hd.map _).nodup_iff.1 hnd
  obtain ⟨n', hh'⟩ : ∃ n', (linesOf s').findSome? (matchHeader cls) = some n' := by
    cases h : (linesOf s').findSome? (matchHeader cls) with
    | some n' => exact ⟨n', rfl⟩
    | none =>
      exfalso
      obtain ⟨t, ht, e⟩ := List.exists_of_findSome?_eq_some hh
      rw [List.findSome?_eq_none_iff] at h
      rw [h t (hp.mem_iff.1 ht)] at e
      cases e
  have hW : ∀ p x, Wanted (defsOf cls ts sem (linesOf s)) p x ↔ Wanted (defsOf cls ts sem (linesOf s')) p x := by
    intro p x
    unfold Wanted
    constructor
    · rintro ⟨l, hl, h⟩; exact ⟨l, hd.mem_iff.1 hl, h⟩
    · rintro ⟨l, hl, h⟩; exact ⟨l, hd.mem_iff.2 hl, h⟩
  obtain ⟨h1, h2⟩ := C38_read cls f ts sem hh hr hnd
  obtain ⟨h1', h2'⟩ := C38_read cls f ts sem hh' hr' hnd'
  have hac : Acyclic (Wanted (defsOf cls ts sem (linesOf s))) ↔ Acyclic (Wanted (defsOf cls ts sem (linesOf s'))) :=
    ⟨acyclic_mono (fun a b h => (hW a b).2 h), acyclic_mono (fun a b h => (hW a b).1 h)⟩
  by_cases ha : Acyclic (Wanted (defsOf cls ts sem (linesOf s)))
  · obtain ⟨bn, e, -, -, c1, c2, c3, c5, c4⟩ := h1 ha
    obtain ⟨bn', e', -, -, d1, d2, d3, d5, d4⟩ := h1' (hac.1 ha)
    refine ⟨⟨fun _ => ⟨_, e'⟩, fun _ => ⟨_, e⟩⟩, ?_⟩
    intro b b' t t' hb hb'
    rw [e] at hb; rw [e'] at hb'
    cases hb; cases hb'
    have hm : ∀ x, x ∈ bn.dag.nodes ↔ x ∈ bn'.dag.nodes := by
      intro x
      rw [c1, d1]
      constructor
      · rintro ⟨l, hl, h⟩; exact ⟨l, hd.mem_iff.1 hl, h⟩
      · rintro ⟨l, hl, h⟩; exact ⟨l, hd.mem_iff.2 hl, h⟩
    refine ⟨hm, ?_, fun p x => by rw [c4, d4, hW]⟩
    intro x
    by_cases hx : ∃ l ∈ defsOf cls ts sem (linesOf s), l.name = x
    · obtain ⟨l, hl, rfl⟩ := hx
      rw [c2 l hl, d2 l (hd.mem_iff.1 hl)]
    · have hn : ∀ l ∈ defsOf cls ts sem (linesOf s), l.name ≠ x := fun l hl e => hx ⟨l, hl, e⟩
      by_cases hm' : x ∈ bn.dag.nodes
      · rw [c3 x hm' hn, d3 x ((hm x).1 hm') (fun l hl => hn l (hd.mem_iff.2 hl))]
      · rw [c5 x hm', d5 x (fun h => hm' ((hm x).2 h))]
  · obtain ⟨e, he⟩ := h2 ha
    obtain ⟨e', he'⟩ := h2' (fun h => ha (hac.2 h))
    refine ⟨⟨?_, ?_⟩, ?_⟩
    · rintro ⟨r, h⟩; rw [he] at h; cases h
    · rintro ⟨r, h⟩; rw [he'] at h; cases h
    · intro b b' t t' hb; rw [he] at hb; cases hb

/-- The same lines in another order. -/
def exText' : Text :=
  ['x', '=', '1', '\n', 'P', 'C', 'o', 'r', 'e', ' ', 'm', '{', '\n', 'y', '=', 'x', '\n', '}']

example : (linesOf exText).Perm (linesOf exText') ∧
    ∃ bn, fromScript cls ['f'] ts sem exText' = .ok (bn, exText') ∧ bn.dag.nodes = [['x'], ['y']] :=
  ⟨by decide, _, rfl, by decide⟩

theorem readLines_skip (cls : CharClass) (ts : TextSem N V C O) (sem : Sem N V C O S L) {g : Text}
    (hg : parseLoci cls ts sem g = .error .ScriptException) (b : List Text) : ∀ (a : List Text) (bn : BN N V C O),
    readLines cls ts sem (a ++ g :: b) bn = readLines cls ts sem (a ++ b) bn := by
  intro a
  induction a with
  | nil =>
    intro bn
    simp only [List.nil_append, readLines, appendFromDefinition, hg]
  | cons t a ih =>
    intro bn
    simp only [List.cons_append, readLines]
    generalize bn.appendFromDefinition cls ts sem t = r
    rcases r with ⟨b1, res⟩
    rcases res with e | u
    · cases e <;> first | rfl | exact ih b1
    · exact ih b1

/-- **C38** fails for the last part: a line that is neither header nor definition is dropped without a report - the
network is the one read from the text without the line. -/
theorem C38_refuted (cls : CharClass) (f : N) (ts : TextSem N V C O) (sem : Sem N V C O S L) {s s' g : Text}
    {a b : List Text} (h : linesOf s = a ++ b) (h' : linesOf s' = a ++ g :: b) (hg : matchHeader cls g = none)
    (hp : parseLoci cls ts sem g = .error .ScriptException) :
    Prod.fst <$> fromScript cls f ts sem s' = Prod.fst <$> fromScript cls f ts sem s := by
  have e1 : (splitLines s).map stripBlanks = a ++ b := h
  have e2 : (splitLines s').map stripBlanks = a ++ g :: b := h'
  unfold fromScript
  simp only [e1, e2]
  have e3 : (a ++ g :: b).findSome? (matchHeader cls) = (a ++ b).findSome? (matchHeader cls) := by
    simp [List.findSome?_append, hg]
  rw [e3]
  cases (a ++ b).findSome? (matchHeader cls) with
  | none => rfl
  | some n =>
    simp only [readLines_skip cls ts sem hp]
    generalize readLines cls ts sem (a ++ b) (BN.empty (ts.toName n)) = r
    rcases r with ⟨b1, e | u⟩
    · rfl
    · dsimp only
      rcases b1.complete f with ⟨b2, e | u⟩ <;> rfl

/-- The line `x:=1` in the text is ignored and `x` is left without a value. -/
example : ∃ bn, fromScript cls ['f'] ts sem
    ['P', 'C', 'o', 'r', 'e', 'm', '{', '\n', 'y', '=', 'x', '\n', 'x', ':', '=', '1', '\n', '}'] = .ok (bn,
      ['P', 'C', 'o', 'r', 'e', 'm', '{', '\n', 'y', '=', 'x', '\n', 'x', ':', '=', '1', '\n', '}']) ∧
    bn.loci.get? ['x'] = some (.exo ['x']) := ⟨_, rfl, by decide⟩

end Props.Script
