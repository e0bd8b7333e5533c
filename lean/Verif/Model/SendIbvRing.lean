import Verif.Model.SendIbv

/-!
# Sending with ibverbs: the ring of slots

Models `udp_ibv_writer::wakeup`, `reap` and `wait_for_space` (src/send_udp_ibv.cpp:225-440) together with the card: a send queue, a completion queue and
the completion channel. The card runs at the same time as the writer, so it may act between any two packets, and between the last poll and the request
for a notification. Completions that arrive while the completion queue is polled are modelled by polls that overlook completions.

What is trusted about the card (manual pages of `ibv_post_send`, `ibv_poll_cq`, `ibv_req_notify_cq`): it processes work requests in order, reads the
buffers at some time before it completes the request, generates a completion for a request that is signaled or that fails, fails all requests after a
failed one, and generates an event for the first completion that is added after a request for notification.

The pointers `wr.next` are modelled by the list of the slots that are linked. Failures of `post_send`, `req_notify` and so on, which throw, are left out.
-/

namespace Spead2

/-- `slot` (src/send_udp_ibv.cpp:87-95); `payload` is an offset into the internal buffer. -/
structure ISlot where
  payload : Nat
  sges : List Sge := []
  wrId : Nat := 0
  item : Option Nat := none
  last : Bool := false
  deriving DecidableEq, Repr

/-- A work request that the card has been given. -/
structure Wqe where
  sges : List Sge
  wrId : Nat
  signaled : Bool
  deriving DecidableEq, Repr

/-- Why `get_packet` gave no packet, or that the batch is complete. -/
inductive IEnd
  | full | sleep | empty
  deriving DecidableEq, Repr

/-- Where the thread is: not in `wakeup`, in the loop over packets with `i` packets so far (`more` is `more_cqe`), or before `req_notify`. -/
inductive IPc
  | idle | building (i : Nat) (more : Bool) | toArm
  deriving DecidableEq, Repr

/-- What will call `wakeup` next: it was posted to the `io_context`, a timer, an event on the completion channel, or the next heap to be queued. -/
inductive ISched
  | running | posted | sleeping | waiting | requested
  deriving DecidableEq, Repr

/-- What can be observed: packets taken from the queue of heaps, frames on the wire, updates of `bytes_sent` and `result` of an item,
calls of `groups_completed`. -/
inductive IEv
  | got (p : IPkt) | wire (frame : Bytes) | sent (item bytes : Nat) | failed (item : Nat) | groups (n : Nat)
  deriving DecidableEq, Repr

/-- The writer and the card. -/
structure IbvW where
  buf : Bytes
  slots : List ISlot
  head : Nat := 0
  tail : Nat := 0
  avail : Nat
  pc : IPc := .idle
  sched : ISched := .requested
  /-- the slots of this batch -/
  chain : List Nat := []
  /-- send queue: not yet processed by the card -/
  wq : List Wqe := []
  /-- completion queue: `wr_id` and success -/
  cq : List (Nat × Bool) := []
  /-- the queue pair is in the error state -/
  dead : Bool := false
  /-- a notification was requested -/
  armed : Bool := false
  /-- there is an event on the completion channel -/
  event : Bool := false
  deriving DecidableEq, Repr

/-- The constructor (src/send_udp_ibv.cpp:454-560). `none`: undefined behaviour in `calc_target_batch`. -/
def IbvCfg.start (c : IbvCfg) : Option IbvW :=
  if 262144 / c.maxRaw < 1 then none
  else (c.prefillAll c.nSlots 0 (List.replicate (c.maxRaw * c.nSlots) 0)).map fun r : Bytes × List Nat =>
    { buf := r.1, slots := r.2.map (fun pl => { payload := pl }), avail := c.nSlots }

/-- `++i`, back to 0 at the end. -/
def IbvCfg.next (c : IbvCfg) (i : Nat) : Nat := if i + 1 = c.nSlots then 0 else i + 1

/-- The slots of one completion (src/send_udp_ibv.cpp:250-269). `none`: a slot that was never used. -/
def IbvW.reapSlots (c : IbvCfg) (ok : Bool) : Nat → IbvW → Option (IbvW × List IEv × Nat)
  | 0, w => some (w, [], 0)
  | n + 1, w =>
    match w.slots[w.head]? with
    | none => none
    | some s =>
      match s.item with
      | none => none
      | some item =>
        match IbvW.reapSlots c ok n { w with head := c.next w.head } with
        | none => none
        | some (w', evs, g) =>
          some (w', (if ok then .sent item ((s.sges.map (·.len)).sum - ibvHeader) else .failed item) :: evs, (if s.last then 1 else 0) + g)

/-- The loop of `reap` (src/send_udp_ibv.cpp:233-271). `polls` says which polls find a completion if there is one; after these, polls find nothing. The
result has the number of groups and of retries left. -/
def IbvW.reapLoop (c : IbvCfg) (minAvail : Nat) : List Bool → Nat → IbvW → Option (IbvW × List IEv × Nat × Nat)
  | polls, retries, w =>
    if minAvail ≤ w.avail then some (w, [], 0, retries)
    else
      match polls with
      | [] => some (w, [], 0, 0)
      | a :: polls =>
        match w.cq with
        | [] => if retries ≤ 1 then some (w, [], 0, 0) else IbvW.reapLoop c minAvail polls (retries - 1) w
        | (batch, ok) :: cq =>
          if a then
            match IbvW.reapSlots c ok batch { w with cq := cq } with
            | none => none
            | some (w1, evs1, g1) =>
              match IbvW.reapLoop c minAvail polls retries { w1 with avail := w1.avail + batch } with
              | none => none
              | some (w2, evs2, g2, r) => some (w2, evs1 ++ evs2, g1 + g2, r)
          else if retries ≤ 1 then some (w, [], 0, 0) else IbvW.reapLoop c minAvail polls (retries - 1) w

/-- `reap` (src/send_udp_ibv.cpp:225-275). -/
def IbvW.reap (c : IbvCfg) (w : IbvW) (polls : List Bool) : Option (IbvW × List IEv × Bool) :=
  (IbvW.reapLoop c (min c.nSlots (w.avail + c.targetBatch)) polls c.maxPoll w).map fun r : IbvW × List IEv × Nat × Nat =>
    (r.1, r.2.1 ++ (if 0 < r.2.2.1 then [.groups r.2.2.1] else []), decide (r.1.avail < c.nSlots) && decide (0 < r.2.2.2))

/-- `wait_for_space` (src/send_udp_ibv.cpp:280-298), up to `req_notify`. -/
def IbvW.waitForSpace (c : IbvCfg) (w : IbvW) : IbvW :=
  if c.channel then { w with pc := .toArm } else { w with pc := .idle, sched := .posted }

/-- `wakeup` up to the loop over packets (src/send_udp_ibv.cpp:300-312). The events of the completion channel were consumed (lines 287-292). -/
def IbvW.wake (c : IbvCfg) (w : IbvW) (polls : List Bool) : Option (IbvW × List IEv) :=
  (IbvW.reap c { w with sched := .running, event := false } polls).map fun r : IbvW × List IEv × Bool =>
    (if r.1.avail < c.targetBatch then r.1.waitForSpace c else { r.1 with pc := .building 0 r.2.2, chain := [] }, r.2.1)

/-- One packet (src/send_udp_ibv.cpp:313-407). -/
def IbvW.packet (c : IbvCfg) (um : Nat → UInt8) (w : IbvW) (i : Nat) (more : Bool) (p : IPkt) : Option (IbvW × List IEv) :=
  match w.slots[w.tail]? with
  | none => none
  | some s =>
    match c.fill um w.buf w.tail s.payload p with
    | none => none
    | some (buf, sges) =>
      if w.avail = 0 then none
      else
        some ({ w with
          buf := buf, slots := w.slots.set w.tail { s with sges := sges, item := some p.item, last := p.last }
          chain := w.chain ++ [w.tail], tail := c.next w.tail, avail := w.avail - 1, pc := .building (i + 1) more }, [.got p])

/-- The work requests of the slots `chain`; the last one is signaled. -/
def wqes (slots : List ISlot) : List Nat → Option (List Wqe)
  | [] => some []
  | j :: js =>
    match slots[j]?, wqes slots js with
    | some s, some l => some (⟨s.sges, s.wrId, js.isEmpty⟩ :: l)
    | _, _ => none

/-- `wr_id` of the last slot is set and the batch is posted (src/send_udp_ibv.cpp:409-414). -/
def IbvW.post (w : IbvW) (i : Nat) : Option IbvW :=
  match w.chain.getLast? with
  | none => some w
  | some j =>
    match w.slots[j]? with
    | none => none
    | some s =>
      let slots := w.slots.set j { s with wrId := i }
      (wqes slots w.chain).map fun l => { w with slots := slots, wq := w.wq ++ l, chain := [] }

/-- The end of `wakeup` (src/send_udp_ibv.cpp:409-440). -/
def IbvW.finish (c : IbvCfg) (w : IbvW) (i : Nat) (more : Bool) (r : IEnd) : Option IbvW :=
  (w.post i).map fun w =>
    if 0 < i || more then { w with pc := .idle, sched := .posted }
    else if r = .sleep then { w with pc := .idle, sched := .sleeping }
    else if w.avail < c.nSlots then w.waitForSpace c
    else { w with pc := .idle, sched := .requested }

/-- The card adds a completion. -/
def IbvW.complete (w : IbvW) (x : Nat × Bool) : IbvW := { w with cq := w.cq ++ [x], event := w.event || w.armed, armed := false }

/-- `req_notify` and `async_wait` (src/send_udp_ibv.cpp:284-294). -/
def IbvW.arm (c : IbvCfg) (w : IbvW) : IbvW :=
  { w with pc := .idle, sched := .waiting, armed := !(c.pending && !w.cq.isEmpty), event := w.event || (c.pending && !w.cq.isEmpty) }

/-- What may happen next: a heap is queued while a wake-up is requested; the timer; `wakeup` is called; `get_packet` gives a packet, or not; a
notification is requested; the card sends a frame, or fails. -/
inductive IOp
  | heap | timer | wake (polls : List Bool) | packet (p : IPkt) | finish (r : IEnd) | arm | send | err
  deriving DecidableEq, Repr

/-- When it may happen. -/
def IbvW.enabled (c : IbvCfg) (w : IbvW) : IOp → Prop
  | .heap => w.sched = .requested
  | .timer => w.sched = .sleeping
  | .wake _ => w.sched = .posted ∨ w.sched = .waiting ∧ w.event = true
  | .packet _ => ∃ i more, w.pc = .building i more ∧ i < c.targetBatch
  | .finish r => ∃ i more, w.pc = .building i more ∧ (i < c.targetBatch ↔ r ≠ .full)
  | .arm => w.pc = .toArm
  | .send => w.wq ≠ [] ∧ w.dead = false
  | .err => w.wq ≠ []

/-- What happens then. `none`: undefined behaviour or an exception. -/
def IbvW.exec (c : IbvCfg) (um : Nat → UInt8) (w : IbvW) : IOp → Option (IbvW × List IEv)
  | .heap => some ({ w with sched := .posted }, [])
  | .timer => some ({ w with sched := .posted }, [])
  | .wake polls => w.wake c polls
  | .packet p =>
    match w.pc with
    | .building i more => w.packet c um i more p
    | _ => none
  | .finish r =>
    match w.pc with
    | .building i more => (w.finish c i more r).map fun w => (w, [])
    | _ => none
  | .arm => some (w.arm c, [])
  | .send =>
    match w.wq with
    | [] => none
    | q :: wq => (c.gather um w.buf q.sges).map fun f => (if q.signaled then { w with wq := wq }.complete (q.wrId, true) else { w with wq := wq }, [.wire f])
  | .err =>
    match w.wq with
    | [] => none
    | q :: wq => some ({ { w with wq := wq, dead := true }.complete (q.wrId, false) with dead := true }, [])

/-- Any number of actions, each of which may happen, and what can be observed. -/
inductive IbvRun (c : IbvCfg) (um : Nat → UInt8) : IbvW → List IOp → IbvW → List IEv → Prop
  | nil (w : IbvW) : IbvRun c um w [] w []
  | snoc {w w' w'' : IbvW} {ops : List IOp} {op : IOp} {evs evs' : List IEv} : IbvRun c um w ops w' evs → w'.enabled c op →
      w'.exec c um op = some (w'', evs') → IbvRun c um w (ops ++ [op]) w'' (evs ++ evs')

end Spead2
