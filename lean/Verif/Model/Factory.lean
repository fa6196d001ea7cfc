import Verif.Model.Ast

/-!
# Call completion and distribution creation (factory/craftstation.py, prob.py)
-/

namespace Model

open Py

variable {N V C O S L : Type} [DecidableEq N]

/-- The first `ast.Call` met by `ast.walk` - /repo/src/sims_pars/factory/craftstation.py:24-28.  Before the
first call only operator nodes have children to visit, so keyword nodes do not matter here. -/
def firstCall : Nat → List (Expr N C O) → Option (N × List (Expr N C O) × List (N × Expr N C O))
  | 0, _ => none
  | _ + 1, [] => none
  | n + 1, e :: q =>
    match e with
    | .call f as ks => some (f, as.toList, ks.toList)
    | .op _ as => firstCall n (q ++ as.toList)
    | _ => firstCall n q

mutual
/-- Number of sub-expressions. -/
def Expr.size : Expr N C O → Nat
  | .const _ => 1
  | .name _ => 1
  | .op _ as => 1 + as.size
  | .call _ as ks => 1 + as.size + ks.size
/-- Same for arguments. -/
def Args.size : Args N C O → Nat
  | .nil => 0
  | .cons e as => e.size + as.size
/-- Same for keyword arguments. -/
def Kws.size : Kws N C O → Nat
  | .nil => 0
  | .cons _ e ks => e.size + ks.size
end

/-- Lines 33 and 47-51: a positional argument is printed; constants through `str`, everything else
through `ast.unparse` (which re-parses to the same expression). -/
def printArg (sem : Sem N V C O S L) : Expr N C O → Expr N C O
  | .const c => sem.reparse c
  | e => e

/-- The loop of `complete_def` - /repo/src/sims_pars/factory/craftstation.py:45-51: the i-th unnamed field takes
the i-th positional argument, or its default (KeyError when it has none). -/
def fillUnnamed (sem : Sem N V C O S L) : List (N × Option C) → List (Expr N C O) →
    Result (List (N × Expr N C O))
  | [], _ => .ok []
  | (k, _) :: fs, e :: as => do
    return (k, printArg sem e) :: (← fillUnnamed sem fs as)
  | (k, some d) :: fs, [] => do
    return (k, sem.reparse d) :: (← fillUnnamed sem fs [])
  | (_, none) :: _, [] => .error .KeyError

/-- `Atelier.complete_def` - /repo/src/sims_pars/factory/craftstation.py:22-56. -/
def completeDef (sem : Sem N V C O S L) (e : Expr N C O) : Result (Expr N C O) :=
  match firstCall e.size [e] with
  | none => .error .AttributeError
  | some (tp, args, kws) =>
    match sem.schema tp with
    | none => .error .KeyError
    | some req =>
      let named := kws.map Prod.fst
      let unnamed := req.filter (fun f => f.1 ∉ named)
      if unnamed.isEmpty then .ok e
      else do
        let temp ← fillUnnamed sem unnamed args
        return .call tp .nil (Kws.ofList (temp ++ kws))

/-- `Atelier.get_blueprint` with `to_complete=True` - /repo/src/sims_pars/factory/craftstation.py:58-61. -/
def getBlueprint (sem : Sem N V C O S L) (e : Expr N C O) (loc : N → Option V) : Result V := do
  (← completeDef sem e).eval sem sem.creators loc

/-- `parse_distribution` = `Atelier.create` - /repo/src/sims_pars/factory/craftstation.py:63-79,
/repo/src/sims_pars/prob.py:399-400 (the source annotations are left out). -/
def parseDistribution (sem : Sem N V C O S L) (e : Expr N C O) (loc : N → Option V) :
    Result (Dist V S L) := do
  sem.create (← getBlueprint sem e loc)

end Model
