import Verif.Spec.PyGroup

/-!
# A sender and a receiver of an item group

The sender changes its group and sends heaps from a `HeapGenerator`; the receiver updates its own
group from each heap (that heaps arrive as they were sent is C09, C52, C55 and C69; that values do is
C72).
-/

namespace Spead2.Spec

variable {D V R : Type}

/-- The sender's group and generator, and the receiver's group. -/
structure SyncState (D V : Type) where
  grp : PyGroup D V
  gen : PyGen
  recv : PyGroup D V

/-- What the sender does. -/
inductive SyncOp (D V : Type) where
  | add (id : Option Nat) (name : String) (rest : D) (value : Option V)
  | set (o : Nat) (v : V)
  | bump (o : Nat)
  | send (dm vm : SendMode)

/-- The heap that is sent from a state. -/
def SyncState.heap (enc : D → V → R) (s : SyncState D V) (dm vm : SendMode) : PyHeap D R := (s.gen.getHeap s.grp enc dm vm).2

/-- One operation; `none` stands for an exception in the sender or in the receiver. -/
def SyncOp.run [DecidableEq D] (enc : D → V → R) (dec : D → R → Option V) (s : SyncState D V) :
    SyncOp D V → Option (SyncState D V)
  | .add i n d v => (s.grp.addItem i n d v).map (fun p => { s with grp := p.1 })
  | .set o v => some { s with grp := s.grp.setValue o v }
  | .bump o => some { s with grp := s.grp.bump o }
  | .send dm vm =>
    match s.recv.update dec (s.heap enc dm vm) with
    | some (r, false) => some { s with gen := (s.gen.getHeap s.grp enc dm vm).1, recv := r }
    | _ => none

/-- The operations in order. -/
def runSync [DecidableEq D] (enc : D → V → R) (dec : D → R → Option V) : SyncState D V → List (SyncOp D V) → Option (SyncState D V)
  | s, [] => some s
  | s, op :: ops => match op.run enc dec s with
    | none => none
    | some s => runSync enc dec s ops

/-- At the start, with a descriptor frequency. -/
def SyncState.start (frequency : Option Nat) : SyncState D V := ⟨PyGroup.empty, PyGen.new frequency, PyGroup.empty⟩

/-- The item is in a group, with this descriptor and, if there is one, this value. -/
def _root_.Spead2.PyGroup.Shows (g : PyGroup D V) (i : Nat) (n : String) (d : D) (w : Option V) : Prop :=
  ∃ o y, g.getId i = some (o, y) ∧ y.name = n ∧ y.rest = d ∧ ∀ v, w = some v → y.value = some v

/-- The receiver has every item of the sender, with the same name, descriptor and value. -/
def SyncState.Mirrors (s : SyncState D V) : Prop :=
  ∀ i o x, s.grp.getId i = some (o, x) → s.recv.Shows i x.name x.rest x.value

/-- The user's part: ids up to 6 are the protocol's, and values are not sent on their own. -/
def SyncOp.Proper : SyncOp D V → Prop
  | .add (some i) _ _ _ => 6 < i
  | .send dm vm => dm = .none → vm = .none
  | _ => True

/-- No id that has left the group comes back; `used` are the ids that have been in the group. -/
def NoReuse [DecidableEq D] (enc : D → V → R) (dec : D → R → Option V) : (Nat → Prop) → SyncState D V → List (SyncOp D V) → Prop
  | _, _, [] => True
  | used, s, op :: ops => ∀ s', op.run enc dec s = some s' →
      (∀ j, s'.grp.getId j ≠ none → s.grp.getId j ≠ none ∨ ¬ used j) ∧
        NoReuse enc dec (fun j => used j ∨ s'.grp.getId j ≠ none) s' ops

/-- The heaps that are sent, each with the state before it was generated. -/
def sentHeaps [DecidableEq D] (enc : D → V → R) (dec : D → R → Option V) :
    SyncState D V → List (SyncOp D V) → List (SyncState D V × PyHeap D R)
  | _, [] => []
  | s, op :: ops =>
    let this := match op with | .send dm vm => [(s, s.heap enc dm vm)] | _ => []
    match op.run enc dec s with
    | none => this
    | some s' => this ++ sentHeaps enc dec s' ops

end Spead2.Spec
