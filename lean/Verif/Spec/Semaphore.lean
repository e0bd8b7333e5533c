import Verif.Model.Semaphore

/-!
# What a semaphore is

A counter that is changed by one action at a time: an increment, or a decrement when it is positive.
-/

namespace Spead2.Spec

/-- One action on an abstract counter `v`, of which `given` and `taken` tell the completed increments and decrements. -/
inductive CounterStep : (Nat × Nat × Nat) → (Nat × Nat × Nat) → Prop
  | nothing (v g t : Nat) : CounterStep (v, g, t) (v, g, t)
  | up (v g t : Nat) : CounterStep (v, g, t) (v + 1, g + 1, t)
  | down (v g t : Nat) : CounterStep (v + 1, g, t) (v, g, t + 1)

/-- The view of a semaphore as a counter: its value, the calls of `put` that returned, and the calls of `get` and `try_get` that returned 0. -/
def counterView (s : SemState) : Nat × Nat × Nat := (s.value, s.stats.putOk, s.stats.getOk + s.stats.tryOk)

/-- The thread is in a call of `get`. -/
def inGet : SemPc → Bool
  | .get1 | .get2 _ => true
  | _ => false

end Spead2.Spec
