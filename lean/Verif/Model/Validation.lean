import Verif.Py.Json

/-!
# Validation code: a log and exceptions

Validators write entries to a log (`ocfl/validation_logger.py`) and may raise. A computation is
the value and the entries it adds, or an exception. The entries made before an exception are
dropped: no caller of the modelled code looks at them.
-/

namespace Ocfl

/-- One call of `ValidationLogger.error` or `.warning`: severity and code. Message texts are not
modelled (`validation_logger.py` lines 85-133 never raises with the codes and texts of
`data/validation-errors.json`). -/
structure Entry where
  isError : Bool
  code : Str
  deriving DecidableEq, Repr

/-- A validation step: a value and the entries added to the log, or an exception. -/
inductive V (α : Type) where
  | done (value : α) (entries : List Entry)
  | raised (e : PyErr)

namespace V

variable {α β : Type}

def ret (a : α) : V α := .done a []

def bind (m : V α) (f : α → V β) : V β :=
  match m with
  | .raised e => .raised e
  | .done a es =>
    match f a with
    | .raised e => .raised e
    | .done b es' => .done b (es ++ es')

instance : Monad V where
  pure := ret
  bind := bind

/-- `self._error(code)` -/
def err (code : Str) : V Unit := .done () [⟨true, code⟩]

/-- `self._warning(code)` -/
def warn (code : Str) : V Unit := .done () [⟨false, code⟩]

/-- An expression that may raise. -/
def lift (x : Py α) : V α :=
  match x with
  | .error e => .raised e
  | .ok a => .done a []

/-- Raise an exception. -/
def raise (e : PyErr) : V α := .raised e

/-- `for x in l: body(x)` with a state carried along. -/
def forM {σ : Type} (body : σ → α → V σ) : List α → σ → V σ
  | [], s => ret s
  | x :: xs, s => bind (body s x) (fun s' => forM body xs s')

end V
end Ocfl
