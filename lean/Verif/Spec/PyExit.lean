import Verif.Model.PyExit

/-!
# What the exit of a Python program should do
-/

namespace Spead2.PyExit

/-- The history is possible, and leads to a state. -/
def Reach (evs : List Ev) (s : St) : Prop := run {} evs = some s

/-- An object that has threads of its own or handlers that may block, and was not stopped. -/
def Active (s : St) (o : Nat) : Prop := ∃ x, s.objs[o]? = some x ∧ x.stopped = false ∧ ∀ p, x.kind ≠ .send p

/-- The object is a stream that uses a pool. -/
def Uses (s : St) (o p : Nat) : Prop := ∃ x, s.objs[o]? = some x ∧ x.kind.pool? = some p

/-- `o` comes before `p` in a list. -/
def Before (l : List Nat) (o p : Nat) : Prop := ∃ a b c, l = a ++ o :: b ++ p :: c

/-- The exit is finished. -/
def Finished (s : St) : Prop := ∀ x ∈ s.objs, x.alive = false

/-- A send stream with nothing to do: all heaps were reported, and its writer waits to be woken. -/
def Idle (x : Obj) : Prop := x.queued = 0 ∧ x.pending = false

/-- All send streams that still exist are idle. -/
def AllIdle (s : St) : Prop := ∀ x ∈ s.objs, ∀ p, x.kind = .send p → x.alive = true → Idle x

/-- What the thread that exits does. -/
def Ev.main : Ev → Bool
  | .stopper | .destroy _ => true
  | _ => false

/-- What is left to do for it. -/
def St.left (s : St) : Nat := s.entries.length + (s.objs.filter (·.alive)).length

end Spead2.PyExit
