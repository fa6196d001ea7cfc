import Verif.Model.Expr

/-!
# `ast` trees, `ast.walk`, `parse_function`

The concrete tree that Python's `ast.parse` yields for an expression of `Model.Expr`, with the nodes that
`ast.walk` visits (operators, contexts, keyword nodes), because `parse_function` depends on the visiting order.
-/

namespace Model

open Py

/-- Labels of `ast` nodes. -/
inductive Kind (N C O : Type)
  | module | exprStmt
  | constant (c : C)
  | name (x : N)
  | load
  | operation (o : O)
  | operator (o : O)
  | call
  | keyword (k : N)
  deriving DecidableEq

/-- An `ast` node with its child nodes in the order of `ast.iter_child_nodes`. -/
inductive Ast (N C O : Type)
  | node (k : Kind N C O) (cs : List (Ast N C O))

namespace Ast
variable {N C O : Type}

/-- Label. -/
def kind : Ast N C O → Kind N C O
  | .node k _ => k

/-- Child nodes. -/
def kids : Ast N C O → List (Ast N C O)
  | .node _ cs => cs

mutual
/-- Number of nodes. -/
def size : Ast N C O → Nat
  | .node _ cs => 1 + sizeL cs
/-- Number of nodes of a forest. -/
def sizeL : List (Ast N C O) → Nat
  | [] => 0
  | a :: l => a.size + sizeL l
end

/-- `ast.walk`: breadth first with a queue, a node is yielded when popped and its children appended.
`fuel` bounds the number of nodes. -/
def walkQ : Nat → List (Ast N C O) → List (Ast N C O)
  | 0, _ => []
  | _ + 1, [] => []
  | n + 1, a :: q => a :: walkQ n (q ++ a.kids)

/-- `ast.walk(tree)`. -/
def walk (a : Ast N C O) : List (Ast N C O) := walkQ a.size [a]

end Ast

variable {N C O : Type}

mutual
/-- The tree of an expression.  `Name` has the context node `Load` as child; an operator application has
its operands and the operator token (after the first operand, as for `BinOp`; for other operators only the
relative position of the token differs). `Call` has the function name, the arguments, the keywords. -/
def Expr.toAst : Expr N C O → Ast N C O
  | .const c => .node (.constant c) []
  | .name x => .node (.name x) [.node .load []]
  | .op o .nil => .node (.operation o) [.node (.operator o) []]
  | .op o (.cons e as) => .node (.operation o) (e.toAst :: .node (.operator o) [] :: as.toAsts)
  | .call f as ks =>
    .node .call (.node (.name f) [.node .load []] :: (as.toAsts ++ ks.toAsts))
/-- Trees of the arguments. -/
def Args.toAsts : Args N C O → List (Ast N C O)
  | .nil => []
  | .cons e as => e.toAst :: as.toAsts
/-- `keyword` nodes. -/
def Kws.toAsts : Kws N C O → List (Ast N C O)
  | .nil => []
  | .cons k e ks => .node (.keyword k) [e.toAst] :: ks.toAsts
end

/-- `ast.parse(seq)` of an expression: a module with one expression statement. -/
def Expr.parsed (e : Expr N C O) : Ast N C O := .node .module [.node .exprStmt [e.toAst]]

/-- `v` and `f` of `find_ast_parents` - /repo/src/sims_pars/util.py:110-118 - collected over a walk. -/
def walkNames : List (Ast N C O) → List N
  | [] => []
  | a :: l => match a.kind with
    | .name x => x :: walkNames l
    | _ => walkNames l

/-- `f.add(s.func.id)`: the function of a `Call` is its first child. -/
def walkCalled : List (Ast N C O) → List N
  | [] => []
  | a :: l => match a with
    | .node .call (.node (.name x) _ :: _) => x :: walkCalled l
    | _ => walkCalled l

/-- The argument list collected by `parse_function`: an optional keyword and the tree of the value. -/
abbrev ParsedArg (N C O : Type) := Option N × Ast N C O

/-- The loop of `parse_function` - /repo/src/sims_pars/util.py:218-236 - once the function name has been
found (`start = True`). -/
def parseArgsLoop : Bool → List (Ast N C O) → List (ParsedArg N C O)
  | _, [] => []
  | keylock, s :: rest =>
    match s with
    | .node .load _ => []
    | .node (.keyword k) (v :: _) => (some k, v) :: parseArgsLoop true rest
    | s => if keylock then parseArgsLoop keylock rest
           else (none, s) :: parseArgsLoop keylock rest

/-- The loop of `parse_function` before the function name has been found
- /repo/src/sims_pars/util.py:218-221. -/
def parseFunctionLoop : List (Ast N C O) → Option N × List (ParsedArg N C O)
  | [] => (none, [])
  | s :: rest =>
    match s with
    | .node (.name x) _ => (some x, parseArgsLoop false rest)
    | _ => parseFunctionLoop rest

/-- `parse_function` - /repo/src/sims_pars/util.py:207-237. -/
def parseFunction (a : Ast N C O) : Option N × List (ParsedArg N C O) := parseFunctionLoop a.walk

variable [DecidableEq N]

/-- `find_ast_parents` - /repo/src/sims_pars/util.py:110-118 - on a tree: (`v - f`, `f`). -/
def findAstParents (a : Ast N C O) : List N × List N :=
  ((walkNames a.walk).dedup.filter (· ∉ walkCalled a.walk), (walkCalled a.walk).dedup)

/-- `ParsedFunction.Parents` - /repo/src/sims_pars/util.py:190-192: `set.union(*[...])`, a TypeError without
arguments. -/
def parsedParents (args : List (ParsedArg N C O)) : Result (List N) :=
  match args with
  | [] => .error .TypeError
  | args => .ok (args.flatMap (fun a => (findAstParents a.2).1)).dedup

end Model
