import Verif.Model.MemPool

/-!
# Specification of the memory pool
-/

namespace Spead2.Spec

/-- Buffers obtained from, and returned to, the base allocator. -/
def allocated (tr : List PoolEv) : List Buf := tr.filterMap (fun | .baseAlloc b => some b | _ => none)
def freed (tr : List PoolEv) : List Buf := tr.filterMap (fun | .baseFree b => some b | _ => none)

/-- Buffers handed to users by `allocate`, and released by them. -/
def given (tr : List PoolEv) : List Buf := tr.filterMap (fun | .give b _ => some b | _ => none)
def givenBack (tr : List PoolEv) : List Buf := tr.filterMap (fun | .back b => some b | _ => none)

/-- Buffers that users have, buffers in refill tasks, and all buffers that have an owner. -/
def withUsers (p : Pool) : List Buf := p.held.map Held.buf
def inRefill (p : Pool) : List Buf := p.refills.filterMap (fun | .ready b => some b | .start => none)
def owned (p : Pool) : List Buf := p.free ++ withUsers p ++ inRefill p

/-- A use of a pool by any number of threads: `p` and the events since before the constructor. -/
def PoolReach (cfg : PoolConfig) (ops : List PoolOp) (p : Pool) (tr : List PoolEv) : Prop :=
  p = ((Pool.new cfg).1.run cfg ops).1 ∧ tr = (Pool.new cfg).2 ++ ((Pool.new cfg).1.run cfg ops).2

/-- What must be true of the events `a` so far for the next event to be proper. The base allocator gives out new buffers; a
buffer returned to the base allocator, handed to a user or released by a user was obtained from the base allocator and
was not returned to it; a buffer that is handed to a user, or returned to the base allocator, is not with a user; and a
buffer that is released is with exactly one user. -/
def EvProper (a : List PoolEv) : PoolEv → Prop
  | .baseAlloc b => ∀ c ∈ allocated a, c.id ≠ b.id
  | .baseFree b => b ∈ allocated a ∧ b ∉ freed a ∧ (given a).count b = (givenBack a).count b
  | .give b _ => b ∈ allocated a ∧ b ∉ freed a ∧ (given a).count b = (givenBack a).count b
  | .back b => b ∈ allocated a ∧ b ∉ freed a ∧ (given a).count b = (givenBack a).count b + 1

/-- Requests served from free buffers: allocations in range of a pool with free buffers. -/
def isTake (cfg : PoolConfig) (p : Pool) : PoolOp → Bool
  | .allocate size => p.handle && decide (cfg.lower ≤ size ∧ size ≤ cfg.upper) && !p.free.isEmpty
  | _ => false

/-- How often the refill task executed its loop, and how often buffers were taken from the pool, in an execution. -/
def refillRounds (cfg : PoolConfig) : List PoolOp → Pool → Nat
  | [], _ => 0
  | op :: ops, p => (match op with | .refill i => (match p.refills[i]? with | some (.ready _) => 1 | _ => 0) | _ => 0) + refillRounds cfg ops (p.step cfg op).1
def takes (cfg : PoolConfig) : List PoolOp → Pool → Nat
  | [], _ => 0
  | op :: ops, p => (if isTake cfg p op then 1 else 0) + takes cfg ops (p.step cfg op).1

end Spead2.Spec
