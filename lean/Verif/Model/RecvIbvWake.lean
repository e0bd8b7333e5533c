import Verif.Model.Bytes

/-!
# Receiving with ibverbs: polling, notification and recycling of slots

Models `udp_ibv_reader_base::packet_handler` and `enqueue_receive` (include/spead2/recv_udp_ibv.h:161-245) with `udp_ibv_reader::poll_once`
(src/recv_udp_ibv.cpp:170-229) or `udp_ibv_mprq_reader::poll_once` (src/recv_udp_ibv_mprq.cpp:74-130), and the card, which runs at the same time. What is
done with the packets is in `Verif.Model.RecvUdp`.

The card is trusted as in `Verif.Model.SendIbvRing`: it fills the posted slots in order; an event is generated for the first completion after a request for
notification, and for no earlier one; `poll` gives all completions up to the number asked for. With the multi-packet receive queue the card may add
completions at any time; posting of memory is left out for it. Errors of system calls are left out.
-/

namespace Spead2

/-- The parameters of the reader. -/
structure IRxCfg where
  /-- multi-packet receive queue -/
  mprq : Bool := false
  nSlots : Nat
  maxPoll : Nat := 10
  channel : Bool := true
  postBatch : Nat
  deriving DecidableEq, Repr

/-- `max_iter` (src/recv_udp_ibv_mprq.cpp:79). -/
def mprqMaxIter : Nat := 256

/-- Where the thread is: not in the handler; at the head of the loop; before `poll`; processing completions, with those that are left, and the slots that are
linked for posting; in the loop of the multi-packet `poll_once`. `need` is `need_poll`. -/
inductive IRxPc
  | idle | loop (i : Nat) (need : Bool) | poll (i : Nat) (need : Bool) | proc (i : Nat) (need : Bool) (todo cur : List Nat)
  | next (i : Nat) (need : Bool) (iter : Nat)
  deriving DecidableEq, Repr

/-- What will call the handler next. -/
inductive IRxWake
  | running | posted | waiting | stopped
  deriving DecidableEq, Repr

/-- The reader and the card. Completions are numbers of slots. -/
structure IRx where
  rq : List Nat
  cq : List Nat := []
  armed : Bool := false
  event : Bool := false
  pc : IRxPc := .idle
  wake : IRxWake := .posted
  /-- everything the card has received, in order -/
  arrived : List Nat := []
  /-- everything that was given to the stream, in order -/
  given : List Nat := []
  deriving DecidableEq, Repr

/-- The constructor and `start` (src/recv_udp_ibv.cpp:256-277): all slots are posted, and the handler. -/
def IRxCfg.init (c : IRxCfg) : IRx := { rq := if c.mprq then [] else List.range c.nSlots }

/-- The next thing that happens. -/
inductive IRxStep (c : IRxCfg) : IRx → IRx → Prop
  /-- a posted handler is called -/
  | run (s : IRx) : s.wake = .posted → IRxStep c s { s with wake := .running, pc := .loop 0 true }
  /-- the handler is called for an event, and consumes all (include/spead2/recv_udp_ibv.h:172-183) -/
  | notified (s : IRx) : s.wake = .waiting → s.event = true → IRxStep c s { s with wake := .running, event := false, pc := .loop 0 true }
  /-- head of the loop, without or with the request for notification (lines 184-202) -/
  | again (s : IRx) (i : Nat) (need : Bool) : s.pc = .loop i need → i < c.maxPoll → (c.channel = true → i ≠ c.maxPoll - 1) →
      IRxStep c s { s with pc := .poll i need }
  | arm (s : IRx) (i : Nat) (need : Bool) : s.pc = .loop i need → i < c.maxPoll → c.channel = true → i = c.maxPoll - 1 →
      IRxStep c s { s with pc := .poll i false, armed := true }
  /-- end of the loop, `enqueue_receive` -/
  | leave (s : IRx) (i : Nat) (need : Bool) : s.pc = .loop i need → ¬ i < c.maxPoll →
      IRxStep c s { s with pc := .idle, wake := if c.channel && !need then .waiting else .posted }
  /-- `recv_cq.poll(n_slots)` -/
  | poll (s : IRx) (i : Nat) (need : Bool) : s.pc = .poll i need → c.mprq = false →
      IRxStep c s { s with pc := .proc i need (s.cq.take c.nSlots) [], cq := s.cq.drop c.nSlots }
  /-- one completion; the slot is linked -/
  | take (s : IRx) (i : Nat) (need : Bool) (x : Nat) (todo cur : List Nat) : s.pc = .proc i need (x :: todo) cur → cur.length + 1 ≠ c.postBatch →
      IRxStep c s { s with pc := .proc i need todo (cur ++ [x]), given := s.given ++ [x] }
  /-- one completion; the slot is linked and the batch is posted -/
  | takePost (s : IRx) (i : Nat) (need : Bool) (x : Nat) (todo cur : List Nat) : s.pc = .proc i need (x :: todo) cur → cur.length + 1 = c.postBatch →
      IRxStep c s { s with pc := .proc i need todo [], given := s.given ++ [x], rq := s.rq ++ (cur ++ [x]) }
  /-- one completion, whose packet stops the stream -/
  | takeStop (s : IRx) (i : Nat) (need : Bool) (x : Nat) (todo cur : List Nat) : s.pc = .proc i need (x :: todo) cur →
      IRxStep c s { s with pc := .idle, wake := .stopped, given := s.given ++ [x] }
  /-- the rest is posted; `drained` -/
  | post (s : IRx) (i : Nat) (need : Bool) (cur : List Nat) : s.pc = .proc i need [] cur →
      IRxStep c s { s with pc := .loop (i + 1) need, rq := s.rq ++ cur }
  /-- multi-packet receive queue: the loop begins -/
  | mBegin (s : IRx) (i : Nat) (need : Bool) : s.pc = .poll i need → c.mprq = true → IRxStep c s { s with pc := .next i need 0 }
  /-- there is no completion: `drained` -/
  | mDrained (s : IRx) (i : Nat) (need : Bool) (iter : Nat) : c.mprq = true → s.pc = .next i need iter → iter < mprqMaxIter → s.cq = [] →
      IRxStep c s { s with pc := .loop (i + 1) need }
  | mTake (s : IRx) (i : Nat) (need : Bool) (iter x : Nat) (cq : List Nat) : c.mprq = true → s.pc = .next i need iter → iter < mprqMaxIter → s.cq = x :: cq →
      IRxStep c s { s with pc := .next i need (iter + 1), cq := cq, given := s.given ++ [x] }
  | mStop (s : IRx) (i : Nat) (need : Bool) (iter x : Nat) (cq : List Nat) : c.mprq = true → s.pc = .next i need iter → iter < mprqMaxIter → s.cq = x :: cq →
      IRxStep c s { s with pc := .idle, wake := .stopped, cq := cq, given := s.given ++ [x] }
  /-- `partial` -/
  | mPartial (s : IRx) (i : Nat) (need : Bool) (iter : Nat) : c.mprq = true → s.pc = .next i need iter → ¬ iter < mprqMaxIter →
      IRxStep c s { s with pc := .loop (i + 1) true }
  /-- the card receives a packet -/
  | card (s : IRx) (x : Nat) (rq : List Nat) : c.mprq = false → s.rq = x :: rq →
      IRxStep c s { s with rq := rq, cq := s.cq ++ [x], arrived := s.arrived ++ [x], event := s.event || s.armed, armed := false }
  | mCard (s : IRx) (x : Nat) : c.mprq = true →
      IRxStep c s { s with cq := s.cq ++ [x], arrived := s.arrived ++ [x], event := s.event || s.armed, armed := false }

/-- Any number of steps from the start. -/
inductive IRxReach (c : IRxCfg) : IRx → Prop
  | init : IRxReach c c.init
  | step {s s' : IRx} : IRxReach c s → IRxStep c s s' → IRxReach c s'

end Spead2
