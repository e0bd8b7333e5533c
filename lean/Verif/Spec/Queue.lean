import Verif.Model.Queue
import Verif.Spec.Ring

/-!
# Specification of the unbounded queue

The vocabulary of histories (`pushed`, `popped`, `Phase`, ...) is that of the ring buffer (Verif/Spec/Ring.lean).
-/

namespace Spead2.Spec

/-- A history: any number of threads, making any calls, in any interleaving. -/
def QueueReach {α : Type} (n : Nat) (ops : List (UOp α)) (s : UState α) (tr : List (REv α)) : Prop :=
  UState.run ops (UState.new α n) = some (s, tr)

/-- Thread `t` waits in `pop`. -/
def queueWaits {α : Type} (s : UState α) (t : Nat) : Prop := s.threads[t]? = some .getSem

/-- The first `n` transitions of a schedule in which existing calls continue. -/
def queueActs {α : Type} (sched : Nat → Nat) (n : Nat) : List (UOp α) := (List.range n).map (fun k => .act (sched k))

end Spead2.Spec
