import Verif.Py.Basic

/-!
# Model of `ocfl/validation_logger.py`
-/

namespace Ocfl

/-- `ValidationLogger`, `ocfl/validation_logger.py` lines 43-78. The tables of descriptions are
not part of the state; see `log`. -/
structure Logger where
  logWarnings : Bool := false
  logErrors : Bool := true
  /-- code to last message -/
  codes : Dict Str Str := []
  messages : List Str := []
  numErrors : Nat := 0
  numWarnings : Nat := 0
  deriving DecidableEq, Repr

namespace Logger

/-- `log(code, is_error, **args)`, `ocfl/validation_logger.py` lines 85-133. The message text is
made from code, severity and arguments by the lookup in `data/validation-errors.json` (lines
101-129); the model takes the finished text as an argument (`Messages.message`). -/
def log (code text : Str) (isError : Bool) (l : Logger) : Logger :=
  let l := { l with codes := Dict.set l.codes code text }
  if (isError && l.logErrors) || (!isError && l.logWarnings) then
    { l with messages := l.messages ++ [text] }
  else l

/-- `error(code, **args)`, `ocfl/validation_logger.py` lines 135-138. -/
def error (code text : Str) (l : Logger) : Logger :=
  let l := l.log code text true
  { l with numErrors := l.numErrors + 1 }

/-- `warning(code, **args)`, `ocfl/validation_logger.py` lines 140-143. -/
def warning (code text : Str) (l : Logger) : Logger :=
  let l := l.log code text false
  { l with numWarnings := l.numWarnings + 1 }

/-- A call of `error` or `warning`. -/
structure Call where
  isError : Bool
  code : Str
  text : Str
  deriving DecidableEq, Repr

/-- Perform one call. -/
def call (l : Logger) (c : Call) : Logger :=
  if c.isError then l.error c.code c.text else l.warning c.code c.text

/-- Perform a sequence of calls. -/
def calls (l : Logger) (cs : List Call) : Logger := cs.foldl call l

end Logger
end Ocfl
