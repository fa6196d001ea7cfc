import Verif.Model.Factory
import Verif.Py.Dict

/-!
# Function objects and function tables (util.py)

`MathExpression`, `ParsedFunction`, `EvaluatedFunction`, and the tables `MATH_FUNC` and `DATA_FUNC` with the functions that
add to them.  The text of an expression is identified with the expression that it parses to; `re.sub(r'\s+', '', seq)` at
/repo/src/sims_pars/util.py:208 is taken not to change the meaning (it does for text with operators spelled in letters, such
as `a if b else c`, and for text with string constants that contain blanks).
-/

namespace Model

open Py

variable {N V C O S L : Type}

mutual
/-- `ast.unparse(seq_ast)`, as the expression that the text parses to; `none` is the empty text, which is what the node of an
operator such as `Add` is printed as. -/
def Ast.expr? : Ast N C O → Option (Expr N C O)
  | .node (.constant c) _ => some (.const c)
  | .node (.name x) _ => some (.name x)
  | .node (.operation o) cs => (Ast.operands cs).map (.op o)
  | .node .call cs => Ast.applied cs
  | .node _ _ => none
/-- The operands among the children of an operation. -/
def Ast.operands : List (Ast N C O) → Option (Args N C O)
  | [] => some .nil
  | .node (.operator _) _ :: cs => Ast.operands cs
  | c :: cs =>
    match c.expr?, Ast.operands cs with
    | some e, some as => some (.cons e as)
    | _, _ => none
/-- A call from its children: the name of the function comes first. -/
def Ast.applied : List (Ast N C O) → Option (Expr N C O)
  | [] => none
  | a :: cs =>
    match a.kind, Ast.arguments cs with
    | .name f, some (as, ks) => some (.call f as ks)
    | _, _ => none
/-- The positional and the keyword arguments among the children of a call. -/
def Ast.arguments : List (Ast N C O) → Option (Args N C O × Kws N C O)
  | [] => some (.nil, .nil)
  | a :: cs =>
    match a with
    | .node (.keyword k) vs =>
      match Ast.first vs, Ast.arguments cs with
      | some e, some (as, ks) => some (as, .cons k e ks)
      | _, _ => none
    | .node k vs =>
      match (Ast.node k vs).expr?, Ast.arguments cs with
      | some e, some (as, ks) => some (.cons e as, ks)
      | _, _ => none
/-- The value of a keyword node is its first child. -/
def Ast.first : List (Ast N C O) → Option (Expr N C O)
  | [] => none
  | a :: _ => a.expr?
end

variable [DecidableEq N]

/-- `MathExpression` - /repo/src/sims_pars/util.py:125-129: the text (`none` is the empty one), the variables, the functions. -/
structure MathExpr (N C O : Type) where
  expr : Option (Expr N C O)
  vars : List N
  funcs : List N

/-- `parse_math_expression(seq)` - /repo/src/sims_pars/util.py:154-156. -/
def parseMath (e : Expr N C O) : MathExpr N C O := ⟨some e, (findAstParents e.parsed).1, (findAstParents e.parsed).2⟩

/-- `ast_to_math_expression(seq_ast)` - /repo/src/sims_pars/util.py:159-162. -/
def astToMath (a : Ast N C O) : MathExpr N C O := ⟨a.expr?, (findAstParents a).1, (findAstParents a).2⟩

namespace MathExpr

/-- `m.execute(loc)` - /repo/src/sims_pars/util.py:137-139.  Evaluating the empty text is a SyntaxError. -/
def execute (sem : Sem N V C O S L) (loc : N → Option V) (m : MathExpr N C O) : Result V :=
  match m.expr with
  | none => .error .SyntaxError
  | some e => e.eval sem sem.math loc

/-- `m(loc)` - /repo/src/sims_pars/util.py:131-135: the value, or the text when a name is not defined. -/
def call (sem : Sem N V C O S L) (loc : N → Option V) (m : MathExpr N C O) : Result (V ⊕ Option (Expr N C O)) :=
  match m.execute sem loc with
  | .ok v => .ok (.inl v)
  | .error .NameError => .ok (.inr m.expr)
  | .error e => .error e

/-- `m.is_executable(loc)` - /repo/src/sims_pars/util.py:145-146; `table` is `MATH_FUNC`. -/
def isExecutable (table : Dict N V) (loc : N → Option V) (m : MathExpr N C O) : Bool :=
  m.vars.all (fun v => (loc v).isSome) && m.funcs.all (fun f => f ∈ table.keys)

end MathExpr

/-- `ParsedFunction` - /repo/src/sims_pars/util.py:165-169: the source, the function, the arguments with their keys. -/
structure ParsedFn (N C O : Type) where
  source : Expr N C O
  function : Option N
  arguments : List (Option N × MathExpr N C O)

/-- `EvaluatedFunction` - /repo/src/sims_pars/util.py:240-244. -/
structure EvaluatedFn (N V C O : Type) where
  source : Expr N C O
  function : Option N
  arguments : List (Option N × V)
  deriving DecidableEq

/-- `parse_function(seq)` as the object - /repo/src/sims_pars/util.py:207-237. -/
def parsedFn (e : Expr N C O) : ParsedFn N C O :=
  ⟨e, (parseFunction e.parsed).1, (parseFunction e.parsed).2.map (fun a => (a.1, astToMath a.2))⟩

namespace ParsedFn

/-- `pf.get_arguments(loc)` - /repo/src/sims_pars/util.py:171-181: a NameError is raised again as NameError. -/
def getArguments (sem : Sem N V C O S L) (loc : N → Option V) (pf : ParsedFn N C O) : Result (List (Option N × V)) :=
  pf.arguments.mapM (fun a => do return (a.1, ← a.2.execute sem loc))

/-- `pf.to_blueprint(name, loc)` - /repo/src/sims_pars/util.py:183-188. -/
def toBlueprint (sem : Sem N V C O S L) (name : N) (loc : N → Option V) (pf : ParsedFn N C O) :
    Result (N × Option N × List (Option N × V)) := do
  return (name, pf.function, ← pf.getArguments sem loc)

/-- `pf.to_json(loc)` - /repo/src/sims_pars/util.py:194-199: the source, the function, the values or texts of the arguments
without their keys. -/
def toJson (sem : Sem N V C O S L) (loc : N → Option V) (pf : ParsedFn N C O) :
    Result (Expr N C O × Option N × List (V ⊕ Option (Expr N C O))) := do
  return (pf.source, pf.function, ← pf.arguments.mapM (fun a => a.2.call sem loc))

/-- `evaluate_function(pf, loc)` - /repo/src/sims_pars/util.py:266-268. -/
def evaluate (sem : Sem N V C O S L) (loc : N → Option V) (pf : ParsedFn N C O) : Result (EvaluatedFn N V C O) := do
  return ⟨pf.source, pf.function, ← pf.getArguments sem loc⟩

end ParsedFn

namespace EvaluatedFn

/-- `ef.to_blueprint(name)` - /repo/src/sims_pars/util.py:246-251. -/
def toBlueprint (name : N) (ef : EvaluatedFn N V C O) : N × Option N × List (Option N × V) :=
  (name, ef.function, ef.arguments)

/-- `ef.to_json()` - /repo/src/sims_pars/util.py:253-258. -/
def toJson (ef : EvaluatedFn N V C O) : Expr N C O × Option N × List V :=
  (ef.source, ef.function, ef.arguments.map Prod.snd)

end EvaluatedFn

/-! ## `MATH_FUNC` -/

/-- The environment with a given `MATH_FUNC` (/repo/src/sims_pars/util.py:24-41); `builtins` are the names that Python adds to
the globals of `eval`. -/
def withMath (sem : Sem N V C O S L) (table : Dict N V) (builtins : N → Option V) : Sem N V C O S L :=
  { sem with math := fun x => match table.get? x with
      | some v => some v
      | none => builtins x }

/-- `add_math_func(fn_name, fn)` - /repo/src/sims_pars/util.py:44-51. -/
def addMathFunc (callable : V → Bool) (table : Dict N V) (name : N) (fn : V) : Dict N V :=
  if callable fn then table.set name fn else table

/-- How Python calls a function: the arguments are evaluated first, in order, and the first exception is the outcome. -/
def strictly (f : List V → List (N × V) → Result V) (as : List (Result V)) (ks : List (N × Result V)) : Result V :=
  match as.mapM id with
  | .error e => .error e
  | .ok vs =>
    match ks.mapM (fun k => k.2.map (fun v => (k.1, v))) with
    | .error e => .error e
    | .ok kvs => f vs kvs

/-- `ifelse(cond, a, b)` - /repo/src/sims_pars/util.py:16-17, called with positional arguments; `truth` is `bool(..)`. -/
def ifelse (truth : V → Result Bool) : List V → List (N × V) → Result V
  | [c, a, b], [] => do return if ← truth c then a else b
  | _, _ => .error .TypeError

/-- `step(key, cut, a, b)` - /repo/src/sims_pars/util.py:20-21, called with positional arguments; `lt` is `key < cut` as a truth
value. -/
def stepFn (lt : V → V → Result Bool) : List V → List (N × V) → Result V
  | [k, c, a, b], [] => do return if ← lt k c then a else b
  | _, _ => .error .TypeError

/-! ## `DATA_FUNC` -/

/-- What can be registered as a data function: whether it can be called, and its attribute `get_sampler` - missing, not callable
(`some none`), or a method. -/
structure DataFn (N V D : Type) where
  callable : Bool
  getSampler : Option (Option ((N → Option V) → Result D))

variable {D : Type}

/-- `add_data_func(fn_name, fn)` - /repo/src/sims_pars/util.py:57-60. -/
def addDataFunc (table : Dict N (DataFn N V D)) (name : N) (fn : DataFn N V D) : Dict N (DataFn N V D) × Result Unit :=
  let usable : Result Bool := if fn.callable then .ok true else match fn.getSampler with
    | none => .error .AttributeError
    | some g => .ok g.isSome
  match usable with
  | .error e => (table, .error e)
  | .ok false => (table, .error .AssertionError)
  | .ok true => if name ∈ table.keys then (table, .error .AssertionError) else (table.set name fn, .ok ())

/-- `find_data_sampler(fn_name, loc)` - /repo/src/sims_pars/util.py:63-65. -/
def findDataSampler (table : Dict N (DataFn N V D)) (name : N) (loc : N → Option V) : Result D :=
  match table.get? name with
  | none => .error .KeyError
  | some fn =>
    match fn.getSampler with
    | none => .error .AttributeError
    | some none => .error .TypeError
    | some (some g) => g loc

end Model
