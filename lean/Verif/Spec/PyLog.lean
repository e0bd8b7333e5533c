import Verif.Model.PyLog

/-!
# Words used in the statements about log messages
-/

namespace Spead2.PyLog

/-- The method of a Python logger for a level. -/
def Level.method : Level → String
  | .warning => "warning"
  | .info => "info"
  | .debug => "debug"

/-- The messages of the library among what was passed to Python. -/
def messages (out : List Line) : List Msg :=
  out.filterMap (fun l => match l with | .msg m => some m | .overflow => none)

/-- How often Python was told that messages were lost. -/
def reports (out : List Line) : Nat := out.count .overflow

/-- The calls that the library made. -/
def emitted (ops : List Op) : List Msg :=
  ops.filterMap (fun op => match op with | .emit m => some m | _ => none)

/-- How often the logging thread goes on. -/
def works (ops : List Op) : Nat := ops.count .work

/-- The message that the logging thread has taken and not yet passed on. -/
def inHand : Pc → List Msg
  | .put m _ => [m]
  | .log m _ => [m]
  | _ => []

/-- The states along an infinite schedule. -/
def trace (s : St) (sched : Nat → Op) : Nat → St
  | 0 => s
  | k + 1 => step (trace s sched k) (sched k)

/-- The logging thread and the calls of the library go on again and again. -/
def Fair (sched : Nat → Op) : Prop :=
  (∀ i, ∃ j, i ≤ j ∧ sched j = .work) ∧ (∀ i, ∃ j, i ≤ j ∧ sched j = .flag)

end Spead2.PyLog
