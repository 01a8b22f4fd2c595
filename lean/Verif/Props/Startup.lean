import Verif.Model.Startup
import Verif.Model.Timing

/-!
# C81: The log level is a matter of messages only
-/

set_option autoImplicit false

namespace AceTN.Startup

namespace Spec

/-- The documented names with their order. -/
def names : List String := ["DEBUG", "INFO", "WARNING", "ERROR", "CRITICAL"]

/-- The setting: the name in the variable in capitals, `INFO` without the variable. -/
def chosen (upper : String → String) (env : Option String) : String := upper (env.getD "INFO")

/-- The package can be imported whatever the variable contains. -/
def ImportSucceeds : Prop := ∀ (upper : String → String) (env : Option String) (lg : PyLogger), ∃ l, Logger.init upper env lg = .ok l

/-- In debug mode messages go to the log file as well. -/
def DebugFile : Prop := ∀ (upper : String → String) (env : Option String) (lg : PyLogger) (file : String) (l : Logger),
  chosen upper env = "DEBUG" → Logger.init upper env lg file = .ok l → l.log_file = some file

/-- Importing the package never fails because of the extension. -/
def LoadSucceeds : Prop := ∀ (strict : Bool) (a : Attempt), ∃ av w, loadCutensor strict a = .done av w

end Spec

open Spec

theorem get?_levels (s : String) : logLevels.get? s = if s = "DEBUG" then some 10 else if s = "INFO" then some 20 else
    if s = "WARNING" then some 30 else if s = "ERROR" then some 40 else if s = "CRITICAL" then some 50 else none := by
  simp only [logLevels, PyDict.get?, DEBUG, INFO, WARNING, ERROR, CRITICAL, eq_comm]

theorem init_eq (upper : String → String) (env : Option String) (lg : PyLogger) (file : String) :
    Logger.init upper env lg file = match logLevels.get? (chosen upper env) with
      | some n => .ok ⟨⟨n, lg.handlers + 1⟩, none⟩
      | none => .error .typeError := by
  unfold Logger.init chosen
  simp only [reduceCtorEq, if_false]
  cases logLevels.get? (upper (env.getD "INFO")) <;> rfl

/-- **C81 (levels).** With the name number `i` (in any letter case) in the variable the logger is made, and a message of the
level number `j` is shown if and only if `i ≤ j`. -/
theorem C81_level (upper : String → String) (env : Option String) (file : String) (i : ℕ) (h : names[i]? = some (chosen upper env)) :
    ∃ l, Logger.init upper env ⟨0, 0⟩ file = .ok l ∧ ∀ (j : ℕ) (_ : j < 5) (msg : String),
      l.logger.log (10 * (j + 1)) msg = if i ≤ j then [msg] else [] := by
  have key : ∀ (n : ℕ), logLevels.get? (chosen upper env) = some n → n = 10 * (i + 1) →
      ∃ l, Logger.init upper env ⟨0, 0⟩ file = .ok l ∧ ∀ (j : ℕ) (_ : j < 5) (msg : String),
      l.logger.log (10 * (j + 1)) msg = if i ≤ j then [msg] else [] := by
    intro n hn hi
    refine ⟨_, by rw [init_eq, hn], fun j _ msg => ?_⟩
    simp only [PyLogger.log, PyLogger.isEnabledFor, hi]
    by_cases hij : i ≤ j
    · rw [if_pos hij, if_pos (by simp; omega)]
      rfl
    · rw [if_neg hij, if_neg (by simp; omega)]
  have hi : i < 5 := by
    by_contra hi
    rw [List.getElem?_eq_none (by simp [names]; omega)] at h
    simp at h
  rcases i with _ | _ | _ | _ | _ | i
  · exact key 10 (by rw [← Option.some.inj h]; rfl) rfl
  · exact key 20 (by rw [← Option.some.inj h]; rfl) rfl
  · exact key 30 (by rw [← Option.some.inj h]; rfl) rfl
  · exact key 40 (by rw [← Option.some.inj h]; rfl) rfl
  · exact key 50 (by rw [← Option.some.inj h]; rfl) rfl
  · omega

/-- **C81 (timing report).** The debugging branch of `evolve` (C57) is entered if and only if the level is `DEBUG`. -/
theorem C81_debug_mode (upper : String → String) (env : Option String) (lg : PyLogger) (l : Logger)
    (h : Logger.init upper env lg = .ok l) : l.logger.isEnabledFor DEBUG = true ↔ chosen upper env = "DEBUG" := by
  rw [init_eq, get?_levels] at h
  by_cases h1 : chosen upper env = "DEBUG"
  · rw [if_pos h1] at h
    simp only [Except.ok.injEq] at h
    subst h
    simp [PyLogger.isEnabledFor, DEBUG, h1]
  · rw [if_neg h1] at h
    simp only [h1, iff_false]
    split_ifs at h <;> simp only [Except.ok.injEq] at h <;> subst h <;>
      simp [PyLogger.isEnabledFor, DEBUG]

/-- **C81 (import).** Importing the package raises `TypeError` if and only if the variable contains something else. -/
theorem C81_import_partial (upper : String → String) (env : Option String) (lg : PyLogger) :
    (Logger.init upper env lg = .error .typeError ↔ chosen upper env ∉ names) ∧
      ((∃ l, Logger.init upper env lg = .ok l) ↔ chosen upper env ∈ names) := by
  rw [init_eq, get?_levels]
  unfold names
  simp only [List.mem_cons, List.not_mem_nil, or_false]
  split_ifs with h1 h2 h3 h4 h5 <;> simp_all

/-- `str.upper` for texts of plain letters. -/
def asciiUpper (s : String) : String := String.ofList (s.toList.map Char.toUpper)

/-- **C81 is violated**: a value that is not the name of a level, also an empty one, makes `import acetn` fail. -/
theorem C81_violated_import : ¬ ImportSucceeds := by
  intro h
  obtain ⟨l, hl⟩ := h asciiUpper (some "") ⟨0, 0⟩
  have := (C81_import_partial asciiUpper (some "") ⟨0, 0⟩).2.1 ⟨l, hl⟩
  revert this
  decide

/-- **C81 is violated**: no log file is kept, because a name is compared with a number. -/
theorem C81_violated_log_file : ¬ DebugFile := by
  intro h
  have := h id (some "DEBUG") ⟨0, 0⟩ "debug.log" _ rfl rfl
  simp at this

/-- **C81 (no file).** At no level. -/
theorem C81_no_file (upper : String → String) (env : Option String) (lg : PyLogger) (file : String) (l : Logger)
    (h : Logger.init upper env lg file = .ok l) : l.log_file = none := by
  rw [init_eq] at h
  cases h2 : logLevels.get? (chosen upper env) with
  | none => rw [h2] at h; simp at h
  | some n =>
    rw [h2] at h
    simp only [Except.ok.injEq] at h
    rw [← h]

/-- **C81 (repeated set-up).** Every further set-up of the same logger repeats each message once more. -/
theorem C81_repeated (upper : String → String) (env : Option String) (lg : PyLogger) (l : Logger)
    (h : Logger.init upper env lg = .ok l) : l.logger.handlers = lg.handlers + 1 := by
  rw [init_eq] at h
  cases h2 : logLevels.get? (chosen upper env) with
  | none => rw [h2] at h; simp at h
  | some n =>
    rw [h2] at h
    simp only [Except.ok.injEq] at h
    rw [← h]

/-- **C81 (extension).** The extension is reported as available if and only if it was loaded; unless it is interrupted or
warnings are exceptions, loading it never fails. -/
theorem C81_extension_partial (strict : Bool) (a : Attempt) : (∀ av w, loadCutensor strict a = .done av w → (av = true ↔ a = .loaded)) ∧
    (strict = false → a ≠ .interrupt → ∃ av w, loadCutensor strict a = .done av w) := by
  cases a <;> cases strict <;> simp [loadCutensor]

/-- **C81 is violated** for interpreters that turn warnings into exceptions: an extension that cannot be loaded then makes
`import acetn` fail. -/
theorem C81_violated_strict : ¬ LoadSucceeds := by
  intro h
  obtain ⟨av, w, h⟩ := h true .exception
  simp [loadCutensor] at h

/-- The names work in any letter case. -/
example : names[0]? = some (chosen asciiUpper (some "debug")) ∧ names[1]? = some (chosen asciiUpper none) := by decide

end AceTN.Startup
