import Verif.Model.ChunkStream
import Verif.Spec.ChunkWindow

/-!
# Specification of chunk streams
-/

namespace Spead2.Spec

/-- The callbacks of the window in a trace. -/
def winEvs (tr : List ChunkEv) : List WinEv := tr.filterMap (fun | .win e => some e | _ => none)

/-- The chunk to which an event writes. -/
def target : ChunkEv → Option Chunk
  | .write c _ _ => some c
  | .present c _ => some c
  | .extra c _ _ => some c
  | _ => none

/-- The chunk is held by the library: the user supplied it, and it has not been handed over. -/
def Held (cfg : ChunkConfig) (tr : List ChunkEv) (c : Chunk) : Prop :=
  c ∈ supplied cfg.alloc (winEvs tr) ∧ c ∉ readied (winEvs tr)

/-- The write stays inside the array. -/
def InBounds (cfg : ChunkConfig) : ChunkEv → Prop
  | .write c off data => off + data.length ≤ cfg.dataSize c.chunkId
  | .present c i => i < cfg.presentSize c.chunkId
  | .extra c off data => off + data.length ≤ cfg.extraSize c.chunkId
  | _ => True

/-- The first chunk id that is not too old: the last head that was reported. -/
def headAfter (tr : List ChunkEv) : Nat := (headsOf (winEvs tr)).getLastD 0

/-- Where the user placed the heaps, by number of allocation. -/
def placements (ops : List ChunkOp) : List Place := ops.filterMap (fun | .allocate pl => some pl | _ => none)

/-- The place callback chose a chunk, and the user supplies that chunk. -/
def _root_.Spead2.Place.Supplied (cfg : ChunkConfig) (pl : Place) : Prop := 0 ≤ pl.chunkId ∧ cfg.alloc pl.chunkId.toNat = true

/-- What the user of the chunk layer guarantees about a callback, after the heaps placed at `pls`: chunk ids are 64-bit,
heaps (with their extra data and flags) are placed inside the arrays of the chunk, if there is one, and only heaps that were allocated
are mentioned. -/
def _root_.Spead2.ChunkOp.Valid (cfg : ChunkConfig) (pls : List Place) : ChunkOp → Prop
  | .allocate pl => pl.chunkId < 2 ^ 63 ∧ (pl.Supplied cfg → pl.extraOffset + pl.extra.length ≤ cfg.extraSize pl.chunkId.toNat)
  | .copy h off data => ∃ pl, pls[h]? = some pl ∧ (pl.Supplied cfg → pl.heapOffset + off + data.length ≤ cfg.dataSize pl.chunkId.toNat) ∧
      (pl.Supplied cfg → cfg.presenceSize ≠ 0 → pl.heapIndex + off / cfg.presenceSize < cfg.presentSize pl.chunkId.toNat)
  | .heapReady h _ => ∃ pl, pls[h]? = some pl ∧ (pl.Supplied cfg → cfg.presenceSize = 0 → pl.heapIndex < cfg.presentSize pl.chunkId.toNat)
  | .flush => True
  | .flushUntil t => t < 2 ^ 64

/-- A history in which every callback is valid. -/
def ValidOps (cfg : ChunkConfig) (ops : List ChunkOp) : Prop :=
  ∀ a op b, ops = a ++ op :: b → op.Valid cfg (placements a)

/-- The heap can be stored: its chunk is one that the user supplies and is not too old. -/
def Storable (cfg : ChunkConfig) (tr : List ChunkEv) (pl : Place) : Prop :=
  0 ≤ pl.chunkId ∧ headAfter tr ≤ pl.chunkId.toNat ∧ cfg.alloc pl.chunkId.toNat = true

end Spead2.Spec
