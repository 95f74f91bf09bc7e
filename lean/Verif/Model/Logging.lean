import Verif.Base.Py

/-!
# Model of `dorado/logging_config.py`

Simplifications: warnings are not turned into exceptions; level names are ASCII, or not names of the logging module after `upper()`; handlers are truthy.
-/

namespace Dorado

/-- A handler object: given by the user, or a `StreamHandler` created by dorado (logging_config.py:50). -/
inductive LogHandler where
  | custom (n : Nat)
  | stream (n : Nat)
  deriving DecidableEq, Repr

/-- The logger `dorado` (logging_config.py:14): level, handlers in order, handlers that got dorado's formatter (lines 51-53),
handlers dorado itself added (line 54; recorded for the specification), number of stream handlers created. -/
structure LogState where
  level : Int
  handlers : List LogHandler
  formatted : List LogHandler
  added : List LogHandler
  streams : Nat
  deriving DecidableEq, Repr

/-- The argument `level` (logging_config.py:17): a string, bytes, or an object without `upper`. -/
inductive LevelArg where
  | str (s : String)
  | bytes (s : String)
  | other
  deriving DecidableEq, Repr

/-- An attribute of the module `logging` (logging_config.py:43). -/
inductive LogAttr where
  | int (n : Int)
  | str
  | other
  deriving DecidableEq, Repr

/-- The attributes of the standard module `logging` whose name has no lower-case letter (logging_config.py:43). -/
def loggingAttr : String → Option LogAttr
  | "CRITICAL" => some (.int 50)
  | "FATAL" => some (.int 50)
  | "ERROR" => some (.int 40)
  | "WARNING" => some (.int 30)
  | "WARN" => some (.int 30)
  | "INFO" => some (.int 20)
  | "DEBUG" => some (.int 10)
  | "NOTSET" => some (.int 0)
  | "BASIC_FORMAT" => some .str
  | "_STYLES" => some .other
  | _ => none

/-- `getattr(logging, level.upper())` with AttributeError turned into ValueError (logging_config.py:42-47); a bytes name raises TypeError. -/
def numericLevel : LevelArg → Except PyErr LogAttr
  | .str s => match loggingAttr s.toUpper with
    | some a => .ok a
    | none => .error .valueError
  | .bytes _ => .error .typeError
  | .other => .error .valueError

/-- `logger.setLevel` (logging_config.py:48): strings must name a level (`BASIC_FORMAT` does not), other objects raise TypeError. -/
def checkLevel : LogAttr → Except PyErr Int
  | .int n => .ok n
  | .str => .error .valueError
  | .other => .error .typeError

/-- The end of `setup_logging` (logging_config.py:49-54): a handler is added only if the logger has none. -/
def ensureHandler (s : LogState) (handler : Option LogHandler) : LogState :=
  if s.handlers.isEmpty then
    let h := handler.getD (.stream s.streams)
    { s with handlers := [h], formatted := h :: s.formatted, added := h :: s.added, streams := if handler.isSome then s.streams else s.streams + 1 }
  else s

/-- `setup_logging` (logging_config.py:17-54): new state and exception. -/
def setupLogging (s : LogState) (level : LevelArg) (handler : Option LogHandler) : LogState × Except PyErr Unit :=
  match numericLevel level with
  | .error e => (s, .error e)
  | .ok a => match checkLevel a with
    | .error e => (s, .error e)
    | .ok n => (ensureHandler { s with level := n } handler, .ok ())

/-- `handle_verbose_deprecation` (logging_config.py:57-79): `none` is None, else the truth value. -/
def handleVerbose (s : LogState) (verbose : Option Bool) : LogState × Except PyErr Unit :=
  match verbose with
  | none => (s, .ok ())
  | some b => setupLogging s (.str (if b then "INFO" else "ERROR")) none

/-- What may happen to the logger: calls of dorado (`setup_logging`, any function with `verbose=`, logging_config.py:17, 57), and calls of the user on the
exported logger (`dorado.logger`, __init__.py:14). -/
inductive LogCall where
  | setup (level : LevelArg) (handler : Option LogHandler)
  | verbose (v : Option Bool)
  | userAdd (n : Nat)
  | userRemove (h : LogHandler)
  deriving DecidableEq, Repr

/-- Effect of one call (logging_config.py:17-79); `Logger.addHandler` ignores a handler it already has. -/
def logStep (s : LogState) : LogCall → LogState × Except PyErr Unit
  | .setup l h => setupLogging s l h
  | .verbose v => handleVerbose s v
  | .userAdd n => (if LogHandler.custom n ∈ s.handlers then s else { s with handlers := s.handlers ++ [.custom n] }, .ok ())
  | .userRemove h => ({ s with handlers := s.handlers.erase h, added := s.added.erase h }, .ok ())

/-- The logger at import (logging_config.py:14). -/
def logInit : LogState := ⟨0, [], [], [], 0⟩

/-- State after a sequence of calls, exceptions caught by the caller (logging_config.py:17-79). -/
def logRun (calls : List LogCall) : LogState := calls.foldl (fun s c => (logStep s c).1) logInit

end Dorado
