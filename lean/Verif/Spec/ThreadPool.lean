import Verif.Model.ThreadPool

/-!
# What thread pools should do
-/

namespace Spead2.ThreadPool

/-- States that can be reached with a pool of a number of threads. -/
inductive Run (n : Int) : St → Prop where
  | init {s : St} : make n = some s → Run n s
  | step {s s' : St} {e : Ev} : Run n s → s.step e = some s' → Run n s'

/-- The handler that a thread runs. -/
def Thread.handler? : Thread → Option Nat
  | .busy h => some h
  | _ => none

/-- The handlers that run. -/
def St.running (s : St) : List Nat := s.threads.filterMap Thread.handler?

/-- The constructor did not return or throw. -/
def Main.making? : Main → Bool
  | .making _ | .unwinding _ => true
  | _ => false

/-- `stop` was called and did not return. -/
def Main.joining? : Main → Bool
  | .joining _ => true
  | _ => false

/-- A list over and over again, up to a number of entries. -/
def roundRobin (l : List Int) (n : Nat) : List Int := (List.replicate n l).flatten.take n

end Spead2.ThreadPool
