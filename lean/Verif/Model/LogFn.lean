/-!
# The log function of C++ programs

`log_msg` and `set_log_function` (include/spead2/common_logging.h 35-130, src/common_logging.cpp 50-71).

`log_function` is a static `std::function` without any lock.  A message is given to it by calling it in place, so that it is in use until the call returns; `set_log_function` copies it and then overwrites it.  Threads are numbers.  Formatting with `boost::format` is not modelled: a message is its text.
-/

namespace Spead2.LogFn

/-- `log_level` (include/spead2/common_logging.h 35-40). -/
inductive Level where
  | warning
  | info
  | debug
  deriving DecidableEq, Repr

/-- The numbers of the levels (include/spead2/common_logging.h 37-39). -/
def Level.num : Level → Nat
  | .warning => 0
  | .info => 1
  | .debug => 2

/-- What threads do.  `F` are the functions; `none` is an empty `std::function`. -/
inductive Ev (F : Type) where
  /-- a thread logs a message -/
  | log (t : Nat) (level : Level) (msg : String)
  /-- that call returns, or ends with an exception -/
  | done (t : Nat)
  /-- a thread enters `set_log_function` -/
  | set (t : Nat) (f : Option F)
  /-- and leaves it -/
  | setDone (t : Nat)

/-- The static variable, and what has been seen of it. -/
structure State (F : Type) where
  /-- `log_function` (src/common_logging.cpp 53) -/
  current : Option F
  /-- calls of functions, oldest first -/
  delivered : List (F × Level × String)
  /-- messages for which `std::bad_function_call` was thrown -/
  raised : List (Level × String)
  /-- threads that are calling `log_function` now -/
  logging : List Nat
  /-- the thread that is overwriting `log_function` now, and with what -/
  setting : Option (Nat × Option F)
  /-- results of `set_log_function`, oldest first -/
  returned : List (Option F)
  /-- a data race, or a function destroyed while it runs -/
  undefined : Bool

/-- Start of the program: the default function writes to std::cerr (src/common_logging.cpp 48-53). -/
def init {F : Type} (dflt : F) : State F := ⟨some dflt, [], [], [], none, [], false⟩

/-- One step (include/spead2/common_logging.h 72-100; src/common_logging.cpp 55-71).  `max` is SPEAD2_MAX_LOG_LEVEL, fixed when the program is compiled. -/
def step {F : Type} (max : Level) (s : State F) : Ev F → State F
  | .log t level msg =>
    if level.num ≤ max.num then
      if s.setting.isSome then { s with undefined := true }
      else match s.current with
        | some f => { s with delivered := s.delivered ++ [(f, level, msg)], logging := t :: s.logging }
        | none => { s with raised := s.raised ++ [(level, msg)], logging := t :: s.logging }
    else s
  | .done t => { s with logging := s.logging.erase t }
  | .set t f =>
    if s.logging = [] ∧ s.setting.isNone then { s with setting := some (t, f) }
    else { s with undefined := true }
  | .setDone t =>
    match s.setting with
    | some (t', f) => if t = t' then { s with returned := s.returned ++ [s.current], current := f, setting := none } else s
    | none => s

/-- A history. -/
def run {F : Type} (max : Level) (s : State F) (evs : List (Ev F)) : State F := evs.foldl (step max) s

end Spead2.LogFn
