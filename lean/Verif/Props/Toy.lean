import Verif.Model.Loci

/-!
# A small concrete run-time environment, used only by the `example`s beside the theorems
-/

namespace Toy

open Py Model

/-- Literals. -/
inductive TC
  | int (n : Int)
  | str (s : String)
  deriving DecidableEq

/-- Values. -/
inductive TV
  | num (n : Int)
  | str (s : String)
  | fn (f : String)
  | bp (f : String) (args : List (String × Int))
  deriving DecidableEq

/-- First error, or all numbers. -/
def nums : List (Result TV) → Result (List Int)
  | [] => .ok []
  | .error e :: _ => .error e
  | .ok (.num n) :: l => do return n :: (← nums l)
  | .ok _ :: _ => .error .TypeError

/-- A distribution shifting the counter by `loc`. -/
def shifted (loc : Int) : Dist TV Int (XR Int) where
  sample := fun s => (.ok (.num (loc + s)), s + 1)
  logpdf := fun v => match v with
    | .num n => .ok (.fin (-((n - loc) * (n - loc))))
    | _ => .error .TypeError

/-- Integers with one operator (sum), the function `dbl` and the distributions `norm(loc, scale=1)`, `unif(lo, hi)`. -/
def sem : Sem String TV TC Unit Int (XR Int) where
  const := fun c => match c with
    | .int n => .num n
    | .str s => .str s
  op := fun _ rs => do return .num (← nums rs).sum
  call := fun v rs ks => match v with
    | .fn "dbl" => do
      match ← nums rs with
      | [n] => return .num (2 * n)
      | _ => .error .TypeError
    | .fn f => do
      if rs.isEmpty then return .bp f ((ks.map Prod.fst).zip (← nums (ks.map Prod.snd)))
      else .error .TypeError
    | _ => .error .TypeError
  math := fun f => if f = "dbl" then some (.fn "dbl") else none
  creators := fun f => if f = "norm" ∨ f = "unif" then some (.fn f) else none
  create := fun v => match v with
    | .bp "norm" args => match args.lookup "loc" with
      | some m => .ok (shifted m)
      | none => .error .ValidationError
    | _ => .error .TypeError
  schema := fun f =>
    if f = "norm" then some [("loc", none), ("scale", some (.int 1))]
    else if f = "unif" then some [("lo", none), ("hi", none)]
    else none
  reparse := fun c => match c with
    | .int n => .const (.int n)
    | .str s => .name s
  reload := .ok

/-- The same environment where defaults are literals: re-parsing one mentions no names. -/
def lit : Sem String TV TC Unit Int (XR Int) := { sem with reparse := .const }

theorem lit_closed : ∀ c, (lit.reparse c).names = [] := fun _ => rfl

/-- Expressions. -/
abbrev TE := Expr String TC Unit
/-- Definitions. -/
abbrev TL := Loci String TV TC Unit

/-- `n` -/
def int (n : Int) : TE := .const (.int n)
/-- `x` -/
def var (x : String) : TE := .name x
/-- `a + b` -/
def plus (a b : TE) : TE := .op () (.cons a (.cons b .nil))
/-- `f(args, kws)` -/
def app (f : String) (as : List TE) (ks : List (String × TE) := []) : TE :=
  .call f (Args.ofList as) (Kws.ofList ks)
/-- A dictionary as an environment. -/
def env (d : List (String × TV)) (x : String) : Option TV := d.lookup x

end Toy
