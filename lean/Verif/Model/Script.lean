import Verif.Model.BN

/-!
# Definitions and networks as text (bayesnet/loci.py `parse_loci`, bayesnet/bn.py scripts)

Text is a list of characters.  The regular expressions used by the code are written out as the matches Python's
backtracking matcher finds (greedy, from the start of the text).
-/

namespace Model

open Py

/-- Text. -/
abbrev Text := List Char

/-- The character classes `\w` and `\s` of `re`, with the facts used about separators. -/
structure CharClass where
  word : Char → Bool
  space : Char → Bool
  word_space : ∀ c, word c = true → space c = false
  word_sep : ∀ c ∈ ['#', '~', '=', '{', '}', '('], word c = false
  space_sep : ∀ c ∈ ['#', '~', '=', '{', '}', '('], space c = false
  space_blank : ∀ c ∈ [' ', '\t', '\n'], space c = true

/-- What turns text into names and expressions and back; nothing is assumed about any of it.
* `parse` = `ast.parse` of the text of one expression (a `SyntaxError` otherwise);
* `toName`, `ofName`: identifiers and their text;
* `rhs`: the text after the name and separator in `repr(loci)`
  (`str(self.Value)` or `str(self.Func)`). -/
structure TextSem (N V C O : Type) where
  parse : Text → Result (Expr N C O)
  toName : Text → N
  ofName : N → Text
  rhs : Loci N V C O → Text

variable {N V C O S L : Type} [DecidableEq N]

/-- `df.replace(' ', '')`. -/
def stripBlanks (t : Text) : Text := t.filter (· ≠ ' ')

/-- `re.match(r'\A(\S+)#(\S+)', t)` - /repo/src/sims_pars/bayesnet/loci.py:251.  The first group is tried from the
longest run of non-space characters downwards. -/
def matchHash (cls : CharClass) (t : Text) : Option (Text × Text) :=
  let p := t.takeWhile (fun c => !cls.space c)
  (List.range p.length).reverse.findSome? fun i =>
    if 1 ≤ i ∧ p[i]? = some '#' ∧ i + 1 < p.length then some (p.take i, p.drop (i + 1)) else none

/-- `re.match(r'\A(\w+)~(\S+)', t)` and `re.match(r'\A(\w+)=(\S+)', t)`
- /repo/src/sims_pars/bayesnet/loci.py:256, 258-259.  The separator is no word character, so the first group is the
whole run of word characters. -/
def matchSep (cls : CharClass) (sep : Char) (t : Text) : Option (Text × Text) :=
  let n := t.takeWhile cls.word
  match t.drop n.length with
  | c :: r =>
    let b := r.takeWhile (fun c => !cls.space c)
    if c = sep ∧ n ≠ [] ∧ b ≠ [] then some (n, b) else none
  | [] => none

/-- The part of `parse_loci` after the description has been split off
- /repo/src/sims_pars/bayesnet/loci.py:255-270.  A failed match of line 256 is `None.groups()`. -/
def parseBody (cls : CharClass) (ts : TextSem N V C O) (sem : Sem N V C O S L) (t : Text) :
    Result (Loci N V C O) :=
  if '~' ∈ t then
    match matchSep cls '~' t with
    | none => .error .AttributeError
    | some (n, b) => do mkDist sem (ts.toName n) (← ts.parse b) []
  else
    match matchSep cls '=' t with
    | some (n, b) =>
      if ['f', '('].isPrefixOf b then do mkPseudo (ts.toName n) (← ts.parse b) []
      else
        match (do mkValue sem (ts.toName n) (← ts.parse b) : Result (Loci N V C O)) with
        | .error .NameError => do return mkFunc (ts.toName n) (← ts.parse b) []
        | r => r
    | none =>
      if t ≠ [] ∧ t.all cls.word then .ok (.exo (ts.toName t))
      else .error .ScriptException

/-- `parse_loci` - /repo/src/sims_pars/bayesnet/loci.py:247-271: the definition and the description. -/
def parseLoci (cls : CharClass) (ts : TextSem N V C O) (sem : Sem N V C O S L) (df : Text) :
    Result (Loci N V C O × Text) :=
  let t := stripBlanks df
  if '#' ∈ t then
    match matchHash cls t with
    | none => .error .AttributeError
    | some (t', des) => do return (← parseBody cls ts sem t', des)
  else do return (← parseBody cls ts sem t, [])

namespace BN

/-- `append_from_definition` - /repo/src/sims_pars/bayesnet/bn.py:99-107. -/
def appendFromDefinition (cls : CharClass) (ts : TextSem N V C O) (sem : Sem N V C O S L) (bn : BN N V C O)
    (df : Text) : BN N V C O × Result Unit :=
  match parseLoci cls ts sem df with
  | .error e => (bn, .error e)
  | .ok (l, des) => bn.appendLoci l (if des = [] then none else some (ts.toName des))

/-- `script.split('\n')`. -/
def splitLines : Text → List Text
  | [] => [[]]
  | c :: t =>
    if c = '\n' then [] :: splitLines t
    else match splitLines t with
      | [] => [[c]]
      | l :: ls => (c :: l) :: ls

/-- `re.match(r'pcore(\w+){', line, re.I)` - /repo/src/sims_pars/bayesnet/bn.py:297: the name. -/
def matchHeader (cls : CharClass) (line : Text) : Option Text :=
  if (line.take 5).map Char.toLower = ['p', 'c', 'o', 'r', 'e'] then
    let n := (line.drop 5).takeWhile cls.word
    match (line.drop 5).drop n.length with
    | '{' :: _ => if n = [] then none else some n
    | _ => none
  else none

/-- The second loop of `bayes_net_from_script` - /repo/src/sims_pars/bayesnet/bn.py:303-307: a `ScriptException`
(only `parse_loci` raises it) is skipped. -/
def readLines (cls : CharClass) (ts : TextSem N V C O) (sem : Sem N V C O S L) : List Text → BN N V C O →
    BN N V C O × Result Unit
  | [], bn => (bn, .ok ())
  | line :: ls, bn =>
    match bn.appendFromDefinition cls ts sem line with
    | (b1, .ok ()) => readLines cls ts sem ls b1
    | (b1, .error .ScriptException) => readLines cls ts sem ls b1
    | r => r

/-- `bayes_net_from_script` - /repo/src/sims_pars/bayesnet/bn.py:288-310: the network and its `script` attribute. -/
def fromScript (cls : CharClass) (f : N) (ts : TextSem N V C O) (sem : Sem N V C O S L) (script : Text) :
    Result (BN N V C O × Text) :=
  let lines := (splitLines script).map stripBlanks
  match lines.findSome? (matchHeader cls) with
  | none => .error .ScriptException
  | some n =>
    match readLines cls ts sem lines (BN.empty (ts.toName n)) with
    | (_, .error e) => .error e
    | (b1, .ok ()) =>
      match b1.complete f with
      | (_, .error e) => .error e
      | (b2, .ok ()) => .ok (b2, script)

/-- `repr(loci)` - /repo/src/sims_pars/bayesnet/loci.py:75-78, 107-110, 153-156, 189-192, 225-228. -/
def reprLoci (ts : TextSem N V C O) (l : Loci N V C O) : Text :=
  match l with
  | .exo n => ts.ofName n
  | .dist n _ _ => ts.ofName n ++ [' ', '~', ' '] ++ ts.rhs l
  | l => ts.ofName l.name ++ [' ', '=', ' '] ++ ts.rhs l

/-- One line of `form_script` - /repo/src/sims_pars/bayesnet/bn.py:44-48. -/
def scriptLine (ts : TextSem N V C O) (bn : BN N V C O) (x : N) : Result Text := do
  let l ← bn.get x
  return '\t' :: (reprLoci ts l ++ match bn.des.get? x with
    | some d => [' ', '#', ' '] ++ ts.ofName d
    | none => [])

/-- `form_script` - /repo/src/sims_pars/bayesnet/bn.py:42-50. -/
def formScript (ts : TextSem N V C O) (bn : BN N V C O) : Result Text := do
  let ls ← bn.dag.nodes.mapM (scriptLine ts bn)
  return ['P', 'C', 'o', 'r', 'e', ' '] ++ ts.ofName bn.name ++ [' ', '{', '\n']
    ++ ls.flatMap (fun l => l ++ ['\n']) ++ ['}']

/-- `to_script` - /repo/src/sims_pars/bayesnet/bn.py:225-226, for a network with its `script` attribute. -/
def toScript (ts : TextSem N V C O) (bn : BN N V C O) (script : Option Text) : Result Text :=
  if bn.frozen then
    match script with
    | some s => .ok s
    | none => .error .TypeError
  else bn.formScript ts

end BN

end Model
