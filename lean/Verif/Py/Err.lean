/-!
# Python exceptions as values

`Except Err a` is the outcome of a Python call: `ok` for a normal return, `error` for a raised
exception.  Only the class of the exception is kept, never its message.
-/

namespace Py

/-- The exception classes that the modelled code can raise.
`NetworkXError` and `NetworkXUnfeasible` come from networkx, `ValidationError` from pydantic,
`ScriptException` from /repo/src/sims_pars/util.py:68-73; the others are Python built-ins. -/
inductive Err
  | KeyError | ValueError | NameError | AttributeError | TypeError | AssertionError
  | IndexError | ZeroDivisionError | SyntaxError | UnboundLocalError
  | NetworkXError | NetworkXUnfeasible | ValidationError | ScriptException
  deriving DecidableEq, Repr

/-- A Python call that may raise. -/
abbrev Result (a : Type _) := Except Err a

deriving instance DecidableEq for Except

end Py
