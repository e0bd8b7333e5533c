import Verif.Model.ChunkRings
import Verif.Spec.ChunkRecv

/-!
# Specification of chunk streams on ringbuffers
-/

namespace Spead2.Spec

/-- A stream with a correct place callback (whichever chunks it gets), and whose history, if it ends, ends with the flush of
`stop_received`. -/
structure GoodFeed (fd : Feed) : Prop where
  max : 0 < fd.cfg.maxChunks
  valid : ValidOps { fd.cfg with alloc := fun _ => true } fd.ops
  flushed : fd.ends = true → ∃ a, fd.ops = a ++ [.flush]

/-- What a stream has done so far, as a chunk stream. -/
def _root_.Spead2.Feeder.effects (f : Feeder) : List ChunkEv := f.log.filterMap (fun | .ev e => some e | .remove => none)

/-- Where a chunk can be. -/
inductive Whereabout
  | free | window (stream : Nat) (c : Chunk) | data | graveyard (stream : Nat) | user | freed
  deriving DecidableEq, Repr

/-- Where all the chunks are. -/
def whereabouts (s : ChunkRings) : List (Whereabout × Nat) :=
  s.free.map (fun p => (Whereabout.free, p)) ++
  s.feeders.zipIdx.flatMap (fun x => x.1.held.map (fun h => (Whereabout.window x.2 h.1, h.2)) ++ x.1.grave.map (fun p => (Whereabout.graveyard x.2, p))) ++
  s.data.map (fun x => (Whereabout.data, x.2.2)) ++
  s.user.map (fun p => (Whereabout.user, p)) ++
  s.freed.map (fun p => (Whereabout.freed, p))

/-- The chunks of stream `i` that the consumer got, in order. -/
def delivered (i : Nat) (outs : List RingsOut) : List Chunk :=
  outs.filterMap (fun o => match o with | .got j c _ => if j = i then some c else none | _ => none)

/-- The chunks of stream `i` in the data ring, in order. -/
def queued (i : Nat) (s : ChunkRings) : List Chunk :=
  s.data.filterMap (fun x => if x.1 = i then some x.2.1 else none)

/-- The contents of chunk `p` are what effects `tr` make of chunk `c`: exactly the flags that were set, and the bytes that were
written. -/
structure Filled (s : ChunkRings) (tr : List ChunkEv) (c : Chunk) (p : Nat) : Prop where
  flags : ∀ k, s.present p k = true ↔ .present c k ∈ tr
  bytes : ∀ k b, lastWritten c.chunkId k tr = some b → s.bytes p k = b

/-- The stream has done everything. -/
def _root_.Spead2.Feeder.Finished (fd : Feed) (f : Feeder) : Prop := ∃ l, fd.acts f.ans = some l ∧ l.length ≤ f.log.length

end Spead2.Spec
