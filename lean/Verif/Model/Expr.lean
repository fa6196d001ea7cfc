import Verif.Py.Err
import Mathlib.Data.List.Dedup

/-!
# Expressions

Abstract syntax of the Python expressions that definitions are written in, and their evaluation.
Text-level parsing (`ast.parse`) and printing (`ast.unparse`) are trusted to be inverse to each other.

* `N` identifiers, `V` run-time values, `C` literal constants, `O` operators.
-/

namespace Model

open Py

mutual
/-- The expressions of the definition language: constants, names, operators (arithmetic, comparison, boolean,
conditional, subscript, ...), and calls `f(a1, .., k1=e1, ..)` of a named function. -/
inductive Expr (N C O : Type)
  | const (c : C)
  | name (x : N)
  | op (o : O) (as : Args N C O)
  | call (f : N) (as : Args N C O) (ks : Kws N C O)
/-- Positional arguments / operands. -/
inductive Args (N C O : Type)
  | nil
  | cons (e : Expr N C O) (as : Args N C O)
/-- Keyword arguments. -/
inductive Kws (N C O : Type)
  | nil
  | cons (k : N) (e : Expr N C O) (ks : Kws N C O)
end

deriving instance DecidableEq for Expr, Args, Kws

namespace Args
variable {N C O : Type}

/-- As a list. -/
def toList : Args N C O → List (Expr N C O)
  | .nil => []
  | .cons e as => e :: as.toList

/-- From a list. -/
def ofList : List (Expr N C O) → Args N C O
  | [] => .nil
  | e :: l => .cons e (ofList l)

@[simp] theorem toList_ofList (l : List (Expr N C O)) : (ofList l).toList = l := by
  induction l with
  | nil => rfl
  | cons e l ih => simp [ofList, toList, ih]

end Args

namespace Kws
variable {N C O : Type}

/-- As a list. -/
def toList : Kws N C O → List (N × Expr N C O)
  | .nil => []
  | .cons k e ks => (k, e) :: ks.toList

/-- From a list. -/
def ofList : List (N × Expr N C O) → Kws N C O
  | [] => .nil
  | (k, e) :: l => .cons k e (ofList l)

@[simp] theorem toList_ofList (l : List (N × Expr N C O)) : (ofList l).toList = l := by
  induction l with
  | nil => rfl
  | cons p l ih => obtain ⟨k, e⟩ := p; simp [ofList, toList, ih]

@[simp] theorem ofList_toList : (ks : Kws N C O) → ofList ks.toList = ks
  | .nil => rfl
  | .cons k e ks => by simp only [toList, ofList]; rw [ofList_toList ks]

end Kws

/-- A distribution object: `sample` draws with the random state `S`, `logpdf` gives a log density
- /repo/src/sims_pars/prob.py:21-75 (the abstract interface). -/
structure Dist (V S L : Type) where
  sample : S → Result V × S
  logpdf : V → Result L

/-- What the run-time environment supplies; nothing is assumed about any of it.
* `const` value of a literal;
* `op`, `call` apply operators / callable values to evaluated arguments.  They receive the *outcomes* of the
  arguments, so short-circuiting operators are covered;
* `math` = `MATH_FUNC` and builtins (/repo/src/sims_pars/util.py:24-41), the globals of function definitions;
* `creators` = `Creators` and builtins (/repo/src/sims_pars/factory/craftstation.py:17), the globals of
  distribution definitions;
* `create` = `bp.create()` (/repo/src/sims_pars/factory/craftstation.py:65);
* `schema` = fields and defaults of a registered creator (`Creators[tp].schema()['properties']`);
* `reparse` = the expression obtained by printing a constant with `str` and parsing it again;
* `reload` = `eval(val, MATH_FUNC) if isinstance(val, str) else val` on a stored value
  (/repo/src/sims_pars/bayesnet/loci.py:54). -/
structure Sem (N V C O S L : Type) where
  const : C → V
  op : O → List (Result V) → Result V
  call : V → List (Result V) → List (N × Result V) → Result V
  math : N → Option V
  creators : N → Option V
  create : V → Result (Dist V S L)
  schema : N → Option (List (N × Option C))
  reparse : C → Expr N C O
  reload : V → Result V

variable {N V C O S L : Type}

/-- Name lookup in `eval(expr, globals, locals)`: locals, then globals (and builtins), else NameError. -/
def lookup (glob loc : N → Option V) (x : N) : Result V :=
  match loc x with
  | some v => .ok v
  | none => match glob x with
    | some v => .ok v
    | none => .error .NameError

mutual
/-- `eval(expr, globals, locals)` - used at /repo/src/sims_pars/util.py:139,
/repo/src/sims_pars/bayesnet/loci.py:54, /repo/src/sims_pars/factory/craftstation.py:61. -/
def Expr.eval (sem : Sem N V C O S L) (glob loc : N → Option V) : Expr N C O → Result V
  | .const c => .ok (sem.const c)
  | .name x => lookup glob loc x
  | .op o as => sem.op o (as.eval sem glob loc)
  | .call f as ks =>
    match lookup glob loc f with
    | .error e => .error e
    | .ok v => sem.call v (as.eval sem glob loc) (ks.eval sem glob loc)
/-- The outcomes of the arguments. -/
def Args.eval (sem : Sem N V C O S L) (glob loc : N → Option V) : Args N C O → List (Result V)
  | .nil => []
  | .cons e as => e.eval sem glob loc :: as.eval sem glob loc
/-- The outcomes of the keyword arguments. -/
def Kws.eval (sem : Sem N V C O S L) (glob loc : N → Option V) : Kws N C O → List (N × Result V)
  | .nil => []
  | .cons k e ks => (k, e.eval sem glob loc) :: ks.eval sem glob loc
end

mutual
/-- All `ast.Name` identifiers of an expression, called ones included
(`v` of /repo/src/sims_pars/util.py:113-115). -/
def Expr.names : Expr N C O → List N
  | .const _ => []
  | .name x => [x]
  | .op _ as => as.names
  | .call f as ks => f :: (as.names ++ ks.names)
/-- Same for arguments. -/
def Args.names : Args N C O → List N
  | .nil => []
  | .cons e as => e.names ++ as.names
/-- Same for keyword arguments. -/
def Kws.names : Kws N C O → List N
  | .nil => []
  | .cons _ e ks => e.names ++ ks.names
end

mutual
/-- The called identifiers (`f` of /repo/src/sims_pars/util.py:116-117). -/
def Expr.called : Expr N C O → List N
  | .const _ => []
  | .name _ => []
  | .op _ as => as.called
  | .call f as ks => f :: (as.called ++ ks.called)
/-- Same for arguments. -/
def Args.called : Args N C O → List N
  | .nil => []
  | .cons e as => e.called ++ as.called
/-- Same for keyword arguments. -/
def Kws.called : Kws N C O → List N
  | .nil => []
  | .cons _ e ks => e.called ++ ks.called
end

variable [DecidableEq N]

/-- `find_ast_parents` / `parse_parents` - /repo/src/sims_pars/util.py:110-122: (parents, functions).
Written on expressions; `Verif/Model/Ast.lean` has the walk over `ast` nodes and
`Props.Expr.C32_walk` shows the two agree. -/
def parseParents (e : Expr N C O) : List N × List N :=
  (e.names.dedup.filter (· ∉ e.called), e.called.dedup)

end Model
