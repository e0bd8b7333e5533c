import Verif.Model.ChunkGroup
import Verif.Spec.ChunkWindow

/-!
# Specification of chunk stream groups
-/

namespace Spead2.Spec

/-- The callbacks made by the group in a trace. -/
def groupEvs (tr : List GroupEv) : List WinEv := tr.filterMap (fun | .win e => some e | _ => none)

/-- The chunk is held by the group: the user supplied it, and it has not been handed over. -/
def GroupHeld (cfg : GroupConfig) (tr : List GroupEv) (c : Chunk) : Prop :=
  c ∈ supplied cfg.alloc (groupEvs tr) ∧ c ∉ readied (groupEvs tr)

/-- What callers guarantee: chunk ids of heaps are non-negative 64-bit integers. -/
def _root_.Spead2.GroupOp.Valid : GroupOp → Prop
  | .get _ id => id < 2 ^ 63
  | _ => True

/-- An execution of a group with members of the given `max_chunks`: any interleaving. -/
def GroupReach (cfg : GroupConfig) (maxs : List Nat) (ops : List GroupOp) (g : Group) (tr : List GroupEv) : Prop :=
  (∀ m ∈ maxs, 0 < m ∧ m ≤ cfg.maxChunks) ∧ (∀ op ∈ ops, op.Valid) ∧
    ∃ g0, Group.new cfg maxs = some g0 ∧ Group.run cfg ops g0 = some (g, tr)

/-- Member `i` waits for room in the group's window. -/
def Blocked (cfg : GroupConfig) (g : Group) (i : Nat) : Prop :=
  ∃ m id, g.members[i]? = some m ∧ m.pc = .wait id ∧ g.window.headChunk + cfg.maxChunks ≤ m.window.tailChunk

/-- The chunk that member `i` waits for. -/
def waitsFor (g : Group) (i : Nat) : Nat := ((g.members[i]?).map (fun m => m.window.tailChunk)).getD 0

/-- Transitions of threads that are already at work, in which no new packet is received. -/
def _root_.Spead2.Internal : GroupOp → Prop
  | .advance _ => True
  | .flush _ => True
  | _ => False

/-- The first `n` transitions of a schedule. -/
def prefixOf (sched : Nat → GroupOp) (n : Nat) : List GroupOp := (List.range n).map sched

/-- The thread of each of `count` members is run again and again, and so are the requests posted to it. -/
def FairSchedule (count : Nat) (sched : Nat → GroupOp) : Prop :=
  ∀ i, i < count → ∀ n, (∃ k, n ≤ k ∧ sched k = .advance i) ∧ (∃ k, n ≤ k ∧ sched k = .flush i)

end Spead2.Spec
