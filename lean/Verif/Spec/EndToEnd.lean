import Verif.Spec.Send
import Verif.Spec.Heap

/-!
# Specification of end-to-end delivery

What a receiver should get for the items of a heap.
-/

namespace Spead2.Spec

/-- The non-empty items that travel in the payload, with their bytes, in the order they were added.
(An empty item cannot be represented in a received heap.) -/
def addressedItems (w : Nat) (items : List SendItem) : List (Nat × Bytes) :=
  items.filterMap (fun it => if itemPayload w it = [] then none else some (it.id, itemPayload w it))

/-- The items that travel inside their item pointer, as numbers. -/
def immediateItems (w : Nat) (items : List SendItem) : List (Nat × Nat) :=
  items.filterMap (fun it =>
    match it.value with
    | .inline v => some (it.id, v)
    | .buffer b allow => if allow = true ∧ b.length ≤ w then some (it.id, beNat b) else none)

/-- No zero-length item travels in the payload. -/
def NoEmpty (w : Nat) (items : List SendItem) : Prop :=
  ∀ it ∈ items, ∀ b allow, it.value = .buffer b allow → ¬ (allow = true ∧ b.length ≤ w) → b ≠ []

end Spead2.Spec
