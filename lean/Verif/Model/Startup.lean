import Verif.Model.Py

/-!
What happens when the package is imported: the logger, `acetn/utils/logger.py` 7-42, and the compiled extension,
`acetn/evolution/_extensions/__init__.py`.

Not modelled: the format of the messages, handlers the user adds to the root logger.
-/

set_option autoImplicit false

namespace AceTN.Startup

/-- The two kinds of python values that meet in `log_level == logging.DEBUG`. -/
inductive Val
  | str (s : String)
  | int (n : ℕ)
  deriving DecidableEq

/-- `logging.DEBUG`, …, `logging.CRITICAL`. -/
def DEBUG : ℕ := 10
def INFO : ℕ := 20
def WARNING : ℕ := 30
def ERROR : ℕ := 40
def CRITICAL : ℕ := 50

/-- `log_levels`, logger.py 11-17. -/
def logLevels : PyDict String ℕ :=
  [("DEBUG", DEBUG), ("INFO", INFO), ("WARNING", WARNING), ("ERROR", ERROR), ("CRITICAL", CRITICAL)]

/-- A logger of the `logging` module: threshold and number of console handlers. -/
structure PyLogger where
  level : ℕ
  handlers : ℕ

/-- `Logger.setLevel` of the `logging` module: `None` is neither an integer nor a name. -/
def setLevel (lg : PyLogger) : Option ℕ → Except PyErr PyLogger
  | some n => .ok { lg with level := n }
  | none => .error .typeError

/-- The object made by `Logger.__init__`. -/
structure Logger where
  logger : PyLogger
  log_file : Option String

/-- `Logger.__init__` and `_configure_handlers`, logger.py 8-32.  `lg` is what `logging.getLogger(name)` returns, `env` the
variable `ACETN_LOG_LEVEL` and `upper` is `str.upper`.  The argument `log_level` is never read. -/
def Logger.init (upper : String → String) (env : Option String) (lg : PyLogger) (log_file : String := "debug.log") :
    Except PyErr Logger := do
  let log_level := upper (env.getD "INFO")
  let lg ← setLevel lg (logLevels.get? log_level)
  let log_file := if Val.str log_level = Val.int DEBUG then some log_file else none
  return ⟨{ lg with handlers := lg.handlers + 1 }, log_file⟩

/-- `logger.isEnabledFor(level)`, evolve.py 33, for a logger whose own level is set. -/
def PyLogger.isEnabledFor (lg : PyLogger) (level : ℕ) : Bool := decide (lg.level ≤ level)

/-- The lines a call such as `logger.debug(msg)`, evolve.py 49-52, shows on the console. -/
def PyLogger.log (lg : PyLogger) (level : ℕ) (msg : String) : List String :=
  if lg.isEnabledFor level then List.replicate lg.handlers msg else []

/-- What `from acetn.evolution._extensions import _C_cutensor` can do, `_extensions/__init__.py` 20-24. -/
inductive Attempt
  | loaded
  /-- `ImportError`: the module or a library it needs is missing -/
  | importError
  /-- another exception derived from `Exception` -/
  | exception
  /-- an exception that is not, such as `KeyboardInterrupt` -/
  | interrupt

/-- How loading the extension ends: the value of `CUTENSOR_AVAILABLE` and whether a warning is shown, or an exception. -/
inductive Loaded
  | done (available warned : Bool)
  | raised

/-- `load_cutensor_extension`, `_extensions/__init__.py` 12-36.  `strict`: warnings are turned into exceptions. -/
def loadCutensor (strict : Bool) : Attempt → Loaded
  | .loaded => .done true false
  | .importError => .done false false
  | .exception => if strict then .raised else .done false true
  | .interrupt => .raised

end AceTN.Startup
