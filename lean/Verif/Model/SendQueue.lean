/-!
# The queue of a send stream

Models `stream` (include/spead2/send_stream.h, src/send_stream.cpp) and the part of `writer` (src/send_writer.cpp) that
takes packets from the queue and completes groups. Rate limiting is modelled in Verif/Model/Rate.lean. A transition is one
critical section, one atomic access or one step of the writer, so a use of a stream by any number of threads is a list of
transitions. Indices are unbounded here and wrap at 2^64 in the code. Logging is not modelled.

`none` means undefined behaviour, a failed assertion, a call of an empty handler, a loop that does not end, or a queue entry
constructed in a slot that still holds another.
-/

namespace Spead2

/-- `group_mode` (include/spead2/send_stream.h:49-60). -/
inductive GroupMode
  | roundRobin | serial
  deriving DecidableEq, Repr

/-- The loop of `compute_queue_mask` (src/send_stream.cpp:50-52); `f` bounds the iterations, and 64 are enough. -/
def pow2Loop (size : Nat) : Nat → Nat → Nat
  | 0, p2 => p2
  | f + 1, p2 => if p2 < size then pow2Loop size f (2 * p2) else p2

/-- `compute_queue_mask` (src/send_stream.cpp:44-54). `none`: an exception. -/
def queueMask (size : Nat) : Option Nat :=
  if size = 0 then none
  else if 2 ^ 63 < size then none
  else some (pow2Loop size 64 1 - 1)

/-- A heap as given by the caller: `heap_reference` (include/spead2/send_stream.h:62-121). `bits` are the heap address bits
of its flavour; `cnt` is `none` for a negative value. -/
structure SendRef (H : Type) where
  heap : H
  bits : Nat
  cnt : Option Nat
  substream : Nat
  deriving DecidableEq, Repr

/-- What is fixed for a stream: the sizes of the queue (include/spead2/send_stream.h:198-203), and the packets of a heap
with a given cnt (`packet_generator`, modelled in Verif/Model/Send.lean); `none` if its constructor throws. -/
structure SqEnv (H π : Type) where
  size : Nat
  mask : Nat
  substreams : Nat
  gen : H → Nat → Option (List π)
  bytes : π → Nat

/-- `queue_item` (include/spead2/send_stream.h:131-166). `pkts` are the packets that the generator has not yet produced,
`handler` is the call whose handler it holds, `waiters` the calls of `flush` waiting. -/
structure SqEntry (π : Type) where
  pkts : List π
  substream : Nat
  groupEnd : Nat
  groupNext : Nat
  mode : GroupMode
  bytes : Nat := 0
  failed : Bool := false
  handler : Option Nat := none
  waiters : List Nat := []
  deriving DecidableEq, Repr

/-- The slots of the queue (include/spead2/send_stream.h:212-217): `none` is storage without an object. -/
abbrev SqSlots (π : Type) := Nat → Option (SqEntry π)

/-- A heap that has been put in the queue: its cnt, substream and packets. -/
structure Admitted (π : Type) where
  cnt : Nat
  substream : Nat
  pkts : List π
  deriving DecidableEq, Repr

/-- The result given to a completion handler. -/
inductive SqResult
  | ok | failed | invalid | wouldBlock
  deriving DecidableEq, Repr

/-- Events. `accept` and `reject`: `async_send_heaps` returns true or false; `placed` is how many heaps of the group had been
put in the queue when the call failed; `threw`: it throws; `flush`: a call of `flush` begins; `packet`: `get_packet` gives
the transport a packet, with its substream and whether it is the last of its group; `sent`: the transport has sent a
packet, or failed after some of its bytes; `handler`: a completion handler is called with a result and a number of bytes; `flushed`: a call of
`flush` can return. -/
inductive SqEv (π : Type)
  | accept (c : Nat) (mode : GroupMode) (hs : List (Admitted π))
  | reject (c : Nat) (r : SqResult) (placed : Nat)
  | threw (c : Nat)
  | packet (p : π) (substream : Nat) (last : Bool)
  | sent (r : Option Nat)
  | handler (c : Nat) (r : SqResult) (bytes : Nat)
  | flush (f : Nat)
  | flushed (f : Nat)
  deriving DecidableEq, Repr

/-- A call of `async_send_heaps` that holds `tail_mutex` and has read the head. -/
structure SqCall (H : Type) where
  id : Nat
  refs : List (SendRef H)
  mode : GroupMode
  head : Nat
  deriving DecidableEq, Repr

/-- A packet that the transport has and has not yet sent: `transmit_packet` (include/spead2/send_writer.h:179-186). `start` is
the index behind the pointer `item`. -/
structure SqOut (π : Type) where
  pkt : π
  start : Nat
  last : Bool
  deriving DecidableEq, Repr

/-- The writer: waiting with `need_wakeup` set, with a wakeup posted, or active. -/
inductive Wake
  | need | queued | running
  deriving DecidableEq, Repr

/-- The stream (include/spead2/send_stream.h:218-247), the calls in progress, and the writer (include/spead2/send_writer.h:
133-142). `unwinding` are the ranges of unwinders of failed calls that are still to be destroyed; `posted` the handlers of
rejected calls, posted to the `io_context`; `fin` the number of groups that the transport has finished and not yet reported;
`calling` and `waking` are local variables of `groups_completed`: handlers still to be called, promises still to be set. -/
structure Sq (H π : Type) where
  slots : SqSlots π := fun _ => none
  tail : Nat := 0
  head : Nat := 0
  nextCnt : Nat := 1
  stepCnt : Nat := 1
  calls : Nat := 0
  flushes : Nat := 0
  sender : Option (SqCall H) := none
  unwinding : List (Nat × Nat) := []
  posted : List (Nat × SqResult) := []
  wk : Wake := .need
  whead : Nat := 0
  wtail : Nat := 0
  active : Nat := 0
  start : Nat := 0
  out : List (SqOut π) := []
  fin : Nat := 0
  calling : List (Nat × SqResult × Nat) := []
  waking : List Nat := []

/-- Transitions. `enter`: a call takes the mutex and reads the head; `commit`: the rest of its critical section; `unwind`: the
destructor of an unwinder; `flush` and `setCnt`: these calls; `dispatch`: the `io_context` runs a posted handler. The
others are steps of the writer: `wake`: the posted wakeup runs; `get`: `get_packet`; `sent`: the first packet that the
transport has is done: sent, or failed after some bytes; `complete`: one batch of `groups_completed`; `call` and `notify`: its calls of handlers and
promises; `repost`: the writer arranges to run again (`post_wakeup`, `sleep`); `request`: `request_wakeup`. -/
inductive SqOp (H : Type)
  | enter (refs : List (SendRef H)) (mode : GroupMode)
  | commit
  | unwind (i : Nat)
  | flush
  | setCnt (next step : Nat)
  | dispatch (i : Nat)
  | wake
  | get
  | sent (r : Option Nat)
  | complete (k : Nat)
  | call
  | notify
  | repost
  | request
  deriving DecidableEq, Repr

/-- Write a slot. -/
def SqSlots.set {π : Type} (sl : SqSlots π) (x : Nat) (v : Option (SqEntry π)) : SqSlots π := fun y => if y = x then v else sl y

/-- `get_queue_storage(i).construct(…)` (include/spead2/send_stream.h:353-356, src/send_stream.cpp:34-37). -/
def SqSlots.construct {π : Type} (mask : Nat) (sl : SqSlots π) (i : Nat) (e : SqEntry π) : Option (SqSlots π) :=
  match sl (i &&& mask) with
  | none => some (sl.set (i &&& mask) (some e))
  | some _ => none

/-- Access through `get_queue(i)` (src/send_stream.cpp:39-42). -/
def SqSlots.modify {π : Type} (mask : Nat) (sl : SqSlots π) (i : Nat) (f : SqEntry π → SqEntry π) : Option (SqSlots π) :=
  match sl (i &&& mask) with
  | none => none
  | some e => some (sl.set (i &&& mask) (some (f e)))

/-- `unwinder::abort` (src/send_stream.cpp:66-70): destroys `n` entries from index `i`. -/
def SqSlots.destroy {π : Type} (mask : Nat) : Nat → Nat → SqSlots π → Option (SqSlots π)
  | 0, _, sl => some sl
  | n + 1, i, sl =>
    match sl (i &&& mask) with
    | none => none
    | some _ => SqSlots.destroy mask n (i + 1) (sl.set (i &&& mask) none)

/-- How the loop of `async_send_heaps_impl` ends. -/
inductive AdmitEnd
  | ok | badSubstream | full | badCnt | threw
  deriving DecidableEq, Repr

/-- Local variables of the loop; `heaps` are those put in the queue so far. -/
structure AdmitSt (π : Type) where
  slots : SqSlots π
  tail : Nat
  nextCnt : Nat
  heaps : List (Admitted π) := []

/-- The end of the body of the loop (include/spead2/send_stream.h:351-358). -/
def admitPlace {H π : Type} (env : SqEnv H π) (mode : GroupMode) (r : SendRef H) (cnt nextCnt : Nat) (st : AdmitSt π) : Option (AdmitSt π × Option AdmitEnd) :=
  match env.gen r.heap cnt with
  | none => some (st, some .threw)
  | some pkts =>
    match st.slots.construct env.mask st.tail { pkts := pkts, substream := r.substream, groupEnd := st.tail + 1, groupNext := st.tail, mode := mode } with
    | none => none
    | some sl => some ({ slots := sl, tail := st.tail + 1, nextCnt := nextCnt, heaps := st.heaps ++ [⟨cnt, r.substream, pkts⟩] }, none)

/-- The body of the loop (include/spead2/send_stream.h:306-358). -/
def admitOne {H π : Type} (env : SqEnv H π) (head step : Nat) (mode : GroupMode) (r : SendRef H) (st : AdmitSt π) : Option (AdmitSt π × Option AdmitEnd) :=
  if env.substreams ≤ r.substream then some (st, some .badSubstream)
  else if st.tail - head = env.size then some (st, some .full)
  else
    match r.cnt with
    | none => admitPlace env mode r (st.nextCnt &&& (2 ^ r.bits - 1)) ((st.nextCnt + step) % 2 ^ 64) st
    | some c => if 2 ^ r.bits - 1 < c then some (st, some .badCnt) else admitPlace env mode r c st.nextCnt st

/-- The loop (include/spead2/send_stream.h:304-359). -/
def admitLoop {H π : Type} (env : SqEnv H π) (head step : Nat) (mode : GroupMode) : List (SendRef H) → AdmitSt π → Option (AdmitSt π × AdmitEnd)
  | [], st => some (st, .ok)
  | r :: rs, st =>
    match admitOne env head step mode r st with
    | none => none
    | some (st, some e) => some (st, e)
    | some (st, none) => admitLoop env head step mode rs st

/-- `group_next` of entry `i` of a group from `orig` to `tail` (include/spead2/send_stream.h:369-378). -/
def linkNext (mode : GroupMode) (orig tail i : Nat) : Nat :=
  if i + 1 = tail then (match mode with | .roundRobin => orig | .serial => i) else i + 1

/-- The loop that links the entries of a group (include/spead2/send_stream.h:365-379), `n` iterations from `i`. -/
def linkLoop {π : Type} (mask : Nat) (mode : GroupMode) (orig tail : Nat) : Nat → Nat → SqSlots π → Option (SqSlots π)
  | 0, _, sl => some sl
  | n + 1, i, sl =>
    match sl.modify mask i (fun e => { e with groupEnd := tail, groupNext := linkNext mode orig tail i }) with
    | none => none
    | some sl => linkLoop mask mode orig tail n (i + 1) sl

/-- The call gets `tail_mutex` and reads the head (include/spead2/send_stream.h:298-302); calls without heaps are rejected
before that (lines 534-539). -/
def Sq.enter {H π : Type} (s : Sq H π) (refs : List (SendRef H)) (mode : GroupMode) : Sq H π × List (SqEv π) :=
  match refs with
  | [] => ({ s with calls := s.calls + 1, posted := s.posted ++ [(s.calls, .invalid)] }, [.reject s.calls .invalid 0])
  | _ :: _ => ({ s with calls := s.calls + 1, sender := some ⟨s.calls, refs, mode, s.head⟩ }, [])

/-- The result of a failed call. -/
def AdmitEnd.result : AdmitEnd → SqResult
  | .full => .wouldBlock
  | _ => .invalid

/-- The end of a call that puts all its heaps in the queue (include/spead2/send_stream.h:361-399). -/
def Sq.accept {H π : Type} (env : SqEnv H π) (s : Sq H π) (c : SqCall H) (st : AdmitSt π) : Option (Sq H π × List (SqEv π)) :=
  match st.slots.modify env.mask s.tail (fun e => { e with handler := some c.id }) with
  | none => none
  | some sl =>
    match (if st.tail ≠ s.tail + 1 then linkLoop env.mask c.mode s.tail st.tail (st.tail - s.tail) s.tail sl else some sl) with
    | none => none
    | some sl =>
      some ({ s with
        slots := sl
        tail := st.tail
        nextCnt := st.nextCnt
        sender := none
        wk := if s.wk = .need then .queued else s.wk },
        [.accept c.id c.mode st.heaps])

/-- The end of a call that fails (include/spead2/send_stream.h:328-351). `abort` is called with the mutex held, except
when the cnt is out of range; the destructor of the unwinder calls it again after the mutex has been released. -/
def Sq.reject {H π : Type} (env : SqEnv H π) (s : Sq H π) (c : SqCall H) (st : AdmitSt π) (e : AdmitEnd) : Option (Sq H π × List (SqEv π)) :=
  match (if e = .badCnt then some st.slots else SqSlots.destroy env.mask (st.tail - s.tail) s.tail st.slots) with
  | none => none
  | some sl =>
    some ({ s with
      slots := sl
      sender := none
      unwinding := s.unwinding ++ [(s.tail, st.tail)]
      posted := s.posted ++ [(c.id, e.result)] },
      [.reject c.id e.result (st.tail - s.tail)])

/-- The constructor of a packet generator throws: the unwinder is destroyed before the mutex is released. -/
def Sq.throw {H π : Type} (env : SqEnv H π) (s : Sq H π) (c : SqCall H) (st : AdmitSt π) : Option (Sq H π × List (SqEv π)) :=
  match SqSlots.destroy env.mask (st.tail - s.tail) s.tail st.slots with
  | none => none
  | some sl => some ({ s with slots := sl, sender := none }, [.threw c.id])

/-- The critical section of `async_send_heaps_impl` after the head has been read (include/spead2/send_stream.h:303-400). -/
def Sq.commit {H π : Type} (env : SqEnv H π) (s : Sq H π) : Option (Sq H π × List (SqEv π)) :=
  match s.sender with
  | none => some (s, [])
  | some c =>
    match admitLoop env c.head s.stepCnt c.mode c.refs { slots := s.slots, tail := s.tail, nextCnt := s.nextCnt } with
    | none => none
    | some (st, .ok) => s.accept env c st
    | some (st, .threw) => s.throw env c st
    | some (st, e) => s.reject env c st e

/-- The destructor of the unwinder of a failed call (include/spead2/send_stream.h:279). -/
def Sq.unwind {H π : Type} (env : SqEnv H π) (s : Sq H π) (i : Nat) : Option (Sq H π × List (SqEv π)) :=
  match s.unwinding[i]? with
  | none => some (s, [])
  | some (a, b) =>
    match SqSlots.destroy env.mask (b - a) a s.slots with
    | none => none
    | some sl => some ({ s with slots := sl, unwinding := s.unwinding.eraseIdx i }, [])

/-- `flush` (src/send_stream.cpp:138-156) up to waiting. -/
def Sq.flush {H π : Type} (env : SqEnv H π) (s : Sq H π) : Option (Sq H π × List (SqEv π)) :=
  if s.sender.isSome then some (s, [])
  else if s.head = s.tail then some ({ s with flushes := s.flushes + 1 }, [.flush s.flushes, .flushed s.flushes])
  else
    match s.slots.modify env.mask (s.tail - 1) (fun e => { e with waiters := s.flushes :: e.waiters }) with
    | none => none
    | some sl => some ({ s with slots := sl, flushes := s.flushes + 1 }, [.flush s.flushes])

/-- `set_cnt_sequence` (src/send_stream.cpp:119-126). -/
def Sq.setCnt {H π : Type} (s : Sq H π) (next step : Nat) : Sq H π :=
  if s.sender.isSome ∨ step = 0 then s else { s with nextCnt := next % 2 ^ 64, stepCnt := step % 2 ^ 64 }

/-- The search for the next heap in round-robin mode (src/send_writer.cpp:156-174). `some none`: the group is exhausted.
`f` bounds the iterations. -/
def rrLoop {π : Type} (mask : Nat) (sl : SqSlots π) (active : Nat) : Nat → Nat → Option (Option Nat)
  | 0, _ => none
  | f + 1, next =>
    match sl (next &&& mask) with
    | none => none
    | some e =>
      if e.pkts ≠ [] then some (some next)
      else if next = active then some none
      else rrLoop mask sl active f e.groupNext

/-- The search for the next heap in serial mode (src/send_writer.cpp:179-195): the new `active`, and whether the group is
exhausted. -/
def serialLoop {π : Type} (mask : Nat) (sl : SqSlots π) (groupEnd : Nat) : Nat → Nat → Option (Nat × Bool)
  | 0, _ => none
  | f + 1, active =>
    match sl (active &&& mask) with
    | none => none
    | some e =>
      if e.pkts ≠ [] then some (active, false)
      else if active + 1 = groupEnd then some (active + 1, true)
      else serialLoop mask sl groupEnd f (active + 1)

/-- The part of `get_packet` after a packet has been generated (src/send_writer.cpp:143-197). `sl` are the slots after that,
`cur` the entry that it came from. -/
def Sq.advance {H π : Type} (env : SqEnv H π) (s : Sq H π) (sl : SqSlots π) (cur : SqEntry π) (p : π) : Option (Sq H π × List (SqEv π)) :=
  match cur.mode with
  | .roundRobin =>
    match rrLoop env.mask sl s.active (env.mask + 1) cur.groupNext with
    | none => none
    | some none =>
      some ({ s with slots := sl, active := cur.groupEnd, start := cur.groupEnd, out := s.out ++ [⟨p, s.start, true⟩] }, [.packet p cur.substream true])
    | some (some next) =>
      match sl.modify env.mask s.active (fun e => { e with groupNext := next }) with
      | none => none
      | some sl => some ({ s with slots := sl, active := next, out := s.out ++ [⟨p, s.start, false⟩] }, [.packet p cur.substream false])
  | .serial =>
    match serialLoop env.mask sl cur.groupEnd (env.mask + 1) s.active with
    | none => none
    | some (a, true) => some ({ s with slots := sl, active := a, start := a, out := s.out ++ [⟨p, s.start, true⟩] }, [.packet p cur.substream true])
    | some (a, false) => some ({ s with slots := sl, active := a, out := s.out ++ [⟨p, s.start, false⟩] }, [.packet p cur.substream false])

/-- `get_packet` (src/send_writer.cpp:106-198) without rate limiting. -/
def Sq.get {H π : Type} (env : SqEnv H π) (s : Sq H π) : Option (Sq H π × List (SqEv π)) :=
  let s := if s.active = s.wtail then { s with wtail := s.tail } else s
  if s.active = s.wtail then some (s, [])
  else
    match s.slots (s.active &&& env.mask) with
    | none => none
    | some cur =>
      match cur.pkts with
      | [] => none
      | p :: rest => s.advance env (s.slots.set (s.active &&& env.mask) (some { cur with pkts := rest })) cur p

/-- What a transport records when it is done with a packet. -/
def recordSent {π : Type} (bytes : Nat) (r : Option Nat) (e : SqEntry π) : SqEntry π :=
  match r with
  | none => { e with bytes := e.bytes + bytes }
  | some n => { e with bytes := e.bytes + n, failed := true }

/-- The transport is done with the first packet that it has. All transports handle packets in order, and record the bytes
or the error in the entry (src/send_inproc.cpp:83-93, src/send_streambuf.cpp:59-76, src/send_tcp.cpp:119-139,
src/send_udp.cpp:124-212). -/
def Sq.sent {H π : Type} (env : SqEnv H π) (s : Sq H π) (r : Option Nat) : Option (Sq H π × List (SqEv π)) :=
  match s.out with
  | [] => some (s, [])
  | o :: out =>
    match s.slots.modify env.mask o.start (recordSent (env.bytes o.pkt) r) with
    | none => none
    | some sl => some ({ s with slots := sl, out := out, fin := if o.last then s.fin + 1 else s.fin }, [.sent r])

/-- The inner loop of `groups_completed` (src/send_writer.cpp:240-246): destroys `n` entries from `i` and collects waiters. -/
def vacate {π : Type} (mask : Nat) : Nat → Nat → SqSlots π → List Nat → Option (SqSlots π × List Nat)
  | 0, _, sl, ws => some (sl, ws)
  | n + 1, i, sl, ws =>
    match sl (i &&& mask) with
    | none => none
    | some e => vacate mask n (i + 1) (sl.set (i &&& mask) none) (e.waiters ++ ws)

/-- The loop over the groups of a batch (src/send_writer.cpp:228-248). The handler is that of the first entry. -/
def completeLoop {H π : Type} (env : SqEnv H π) : Nat → Sq H π → Option (Sq H π)
  | 0, s => some s
  | k + 1, s =>
    match s.slots (s.whead &&& env.mask) with
    | none => none
    | some cur =>
      match cur.handler with
      | none => none
      | some c =>
        if cur.groupEnd ≤ s.whead then none
        else
          match vacate env.mask (cur.groupEnd - s.whead) s.whead s.slots s.waking with
          | none => none
          | some (sl, ws) =>
            completeLoop env k { s with
              slots := sl
              waking := ws
              whead := cur.groupEnd
              calling := s.calling ++ [(c, (if cur.failed then .failed else .ok), cur.bytes)] }

/-- One batch of `groups_completed` (src/send_writer.cpp:224-252) up to the release of `head_mutex`. The code reports up to
16 groups in a batch; here any number. -/
def Sq.complete {H π : Type} (env : SqEnv H π) (s : Sq H π) (k : Nat) : Option (Sq H π × List (SqEv π)) :=
  if k ≤ s.fin then
    match completeLoop env k s with
    | none => none
    | some s' => some ({ s' with head := s'.whead, fin := s.fin - k }, [])
  else some (s, [])

/-- `request_wakeup` (src/send_writer.cpp:285-300). Writers call it when `get_packet` has found no packet, and
all packets that they were given are done and reported (src/send_inproc.cpp:73-75, src/send_streambuf.cpp:78-86,
src/send_tcp.cpp:115-117, src/send_udp.cpp:260-262, src/send_udp_ibv.cpp:428-438). -/
def Sq.request {H π : Type} (s : Sq H π) : Sq H π :=
  if s.sender.isSome ∨ s.active ≠ s.wtail ∨ s.out ≠ [] ∨ s.fin ≠ 0 then s
  else if s.tail = s.wtail then { s with wk := .need } else { s with wtail := s.tail, wk := .queued }

/-- Whether the writer can take another step: it is active and not inside `groups_completed`. -/
def Sq.ready {H π : Type} (s : Sq H π) : Bool := s.wk == .running && s.calling.isEmpty && s.waking.isEmpty

/-- One transition. -/
def Sq.step {H π : Type} (env : SqEnv H π) (s : Sq H π) : SqOp H → Option (Sq H π × List (SqEv π))
  | .enter refs mode => if s.sender.isSome then some (s, []) else some (s.enter refs mode)
  | .commit => s.commit env
  | .unwind i => s.unwind env i
  | .flush => s.flush env
  | .setCnt next step => some (s.setCnt next step, [])
  | .dispatch i =>
    match s.posted[i]? with
    | none => some (s, [])
    | some (c, r) => some ({ s with posted := s.posted.eraseIdx i }, [.handler c r 0])
  | .wake => some (if s.wk = .queued then { s with wk := .running } else s, [])
  | .get => if s.ready then s.get env else some (s, [])
  | .sent r => if s.ready then s.sent env r else some (s, [])
  | .complete k => if s.ready then s.complete env k else some (s, [])
  | .call =>
    match s.calling with
    | [] => some (s, [])
    | (c, r, b) :: rest => some ({ s with calling := rest }, [.handler c r b])
  | .notify =>
    match s.calling, s.waking with
    | [], f :: rest => some ({ s with waking := rest }, [.flushed f])
    | _, _ => some (s, [])
  | .repost => some (if s.ready then { s with wk := .queued } else s, [])
  | .request => some (if s.ready then s.request else s, [])

/-- An execution. -/
def Sq.run {H π : Type} (env : SqEnv H π) : List (SqOp H) → Sq H π → Option (Sq H π × List (SqEv π))
  | [], s => some (s, [])
  | op :: ops, s =>
    match s.step env op with
    | none => none
    | some (s, ev) =>
      match Sq.run env ops s with
      | none => none
      | some (s, ev') => some (s, ev ++ ev')

end Spead2
