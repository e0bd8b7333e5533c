/-!
# The memory pool

Models `memory_pool` (src/common_memory_pool.cpp). A transition is one critical section of the pool's mutex together with
the private steps of the same thread next to it, so any use of the pool by any number of threads is a list of
transitions. The base allocator is modelled as giving out a new buffer of the requested size each time: a buffer is
an allocation, not an address. Exceptions from the base allocator are not modelled, nor is logging.
-/

namespace Spead2

/-- The bounds given to the constructor (lines 93-105). -/
structure PoolConfig where
  lower : Nat
  upper : Nat
  maxFree : Nat
  initial : Nat
  lowWater : Nat
  deriving DecidableEq, Repr

/-- The assertions of the constructor (lines 103-105). -/
def PoolConfig.Valid (c : PoolConfig) : Prop := c.lower ≤ c.upper ∧ c.initial ≤ c.maxFree ∧ c.lowWater ≤ c.initial

/-- An allocation made by the base allocator. -/
structure Buf where
  id : Nat
  size : Nat
  deriving DecidableEq, Repr

/-- A pointer held by a user: `pooled` if its deleter is a `memory_pool_deleter` (lines 52-88). -/
structure Held where
  buf : Buf
  pooled : Bool
  deriving DecidableEq, Repr

/-- Events: the base allocator gives out or gets back a buffer; `allocate` returns a buffer for a request of `size` bytes;
a user releases a buffer. -/
inductive PoolEv
  | baseAlloc (b : Buf) | baseFree (b : Buf) | give (b : Buf) (size : Nat) | back (b : Buf)
  deriving DecidableEq, Repr

/-- A refill task: about to allocate, or with a new buffer (lines 147-171). -/
inductive Refill
  | start | ready (b : Buf)
  deriving DecidableEq, Repr

/-- The pool (fields in include/spead2/common_memory_pool.h), the base allocator's counter, the users and their calls.
`handle` is whether the users still have a `shared_ptr` to the pool; `alive` whether it has not been destroyed; `waiting`
are the requests of calls of `allocate` that found the pool empty and have released the mutex; `refills` are the refill
tasks that have been posted and have not ended. -/
structure Pool where
  free : List Buf := []
  refilling : Bool := false
  next : Nat := 0
  held : List Held := []
  waiting : List Nat := []
  refills : List Refill := []
  handle : Bool := true
  alive : Bool := true
  deriving DecidableEq, Repr

/-- Transitions: a call of `allocate`, its second half after finding the pool empty, the release of the `i`-th held
pointer, a step of the `i`-th refill task, and the users dropping their `shared_ptr`. -/
inductive PoolOp
  | allocate (size : Nat) | finish (i : Nat) | release (i : Nat) | refill (i : Nat) | drop
  deriving DecidableEq, Repr

/-- The loop of the constructor (lines 107-108). -/
def Pool.fill (cfg : PoolConfig) : Nat → Pool → Pool × List PoolEv
  | 0, p => (p, [])
  | n + 1, p =>
    let b : Buf := { id := p.next, size := cfg.upper }
    let (q, ev) := Pool.fill cfg n { p with free := b :: p.free, next := p.next + 1 }
    (q, .baseAlloc b :: ev)

/-- The constructor (lines 93-109). -/
def Pool.new (cfg : PoolConfig) : Pool × List PoolEv := Pool.fill cfg cfg.initial {}

/-- When the last `shared_ptr` is gone the pool is destroyed with the free buffers. The deleters of pooled pointers hold
a `shared_ptr` (lines 60, 141-142), and so does a caller during a call. -/
def Pool.reap (p : Pool) : Pool × List PoolEv :=
  if p.alive ∧ p.handle = false ∧ p.waiting = [] ∧ p.held.all (fun h => !h.pooled) then
    ({ p with alive := false, free := [] }, p.free.map .baseFree)
  else (p, [])

/-- `allocate` (lines 173-222) up to the release of the mutex. -/
def Pool.allocate (cfg : PoolConfig) (p : Pool) (size : Nat) : Pool × List PoolEv :=
  if cfg.lower ≤ size ∧ size ≤ cfg.upper then
    match p.free with
    | b :: rest =>
      let p := { p with free := rest, held := ⟨b, true⟩ :: p.held }
      let p := if rest.length < cfg.lowWater ∧ p.refilling = false then { p with refilling := true, refills := .start :: p.refills } else p
      (p, [.give b size])
    | [] => ({ p with waiting := size :: p.waiting }, [])
  else
    let b : Buf := { id := p.next, size := size }
    ({ p with next := p.next + 1, held := ⟨b, false⟩ :: p.held }, [.baseAlloc b, .give b size])

/-- The rest of `allocate` when the pool was empty (line 209). -/
def Pool.finish (cfg : PoolConfig) (p : Pool) (i : Nat) : Pool × List PoolEv :=
  match p.waiting[i]? with
  | none => (p, [])
  | some size =>
    let b : Buf := { id := p.next, size := cfg.upper }
    ({ p with next := p.next + 1, waiting := p.waiting.eraseIdx i, held := ⟨b, true⟩ :: p.held }, [.baseAlloc b, .give b size])

/-- A pointer is destroyed: `memory_pool_deleter::operator()` (lines 80-85) with `free_impl` (lines 116-131), or the deleter
of the base allocator. -/
def Pool.release (cfg : PoolConfig) (p : Pool) (i : Nat) : Pool × List PoolEv :=
  match p.held[i]? with
  | none => (p, [])
  | some h =>
    let p := { p with held := p.held.eraseIdx i }
    if h.pooled then
      if p.free.length < cfg.maxFree then ({ p with free := h.buf :: p.free }, [.back h.buf])
      else (p, [.back h.buf, .baseFree h.buf])
    else (p, [.back h.buf, .baseFree h.buf])

/-- A step of a refill task (lines 147-171). -/
def Pool.refillStep (cfg : PoolConfig) (p : Pool) (i : Nat) : Pool × List PoolEv :=
  match p.refills[i]? with
  | none => (p, [])
  | some .start =>
    let b : Buf := { id := p.next, size := cfg.upper }
    ({ p with next := p.next + 1, refills := p.refills.set i (.ready b) }, [.baseAlloc b])
  | some (.ready b) =>
    if p.alive then
      let (p, ev) := if p.free.length < cfg.maxFree then ({ p with free := b :: p.free }, []) else (p, [PoolEv.baseFree b])
      if cfg.initial ≤ p.free.length then ({ p with refilling := false, refills := p.refills.eraseIdx i }, ev)
      else ({ p with refills := p.refills.set i .start }, ev)
    else ({ p with refills := p.refills.eraseIdx i }, [.baseFree b])

/-- One transition. Calls need a `shared_ptr`. -/
def Pool.step (cfg : PoolConfig) (p : Pool) (op : PoolOp) : Pool × List PoolEv :=
  let (p, ev) :=
    match op with
    | .allocate size => if p.handle then p.allocate cfg size else (p, [])
    | .finish i => p.finish cfg i
    | .release i => p.release cfg i
    | .refill i => p.refillStep cfg i
    | .drop => ({ p with handle := false }, [])
  let (p, ev') := p.reap
  (p, ev ++ ev')

/-- An execution. -/
def Pool.run (cfg : PoolConfig) : List PoolOp → Pool → Pool × List PoolEv
  | [], p => (p, [])
  | op :: ops, p =>
    let (p, ev) := p.step cfg op
    let (p, ev') := Pool.run cfg ops p
    (p, ev ++ ev')

end Spead2
