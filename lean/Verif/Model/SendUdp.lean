import Verif.Model.Bytes

/-!
# The UDP writer with `sendmmsg` and segmentation offload

Models src/send_udp.cpp:42-324 with `SPEAD2_USE_SENDMMSG` and `SPEAD2_USE_GSO`. The kernel is the environment: every system call
is given its outcome. Sizes are less than 2^31, so conversions to `int` are not modelled.
-/

namespace Spead2

/-- `transmit_packet` (include/spead2/send_writer.h:179-186). `item` identifies the first `queue_item` of the group. -/
structure UPkt where
  bufs : List Bytes
  sub : Nat
  item : Nat
  last : Bool
  deriving DecidableEq, Repr

/-- `data.size = boost::asio::buffer_size(data.buffers)` (src/send_writer.cpp:140). -/
def UPkt.size (p : UPkt) : Nat := (p.bufs.map List.length).sum

/-- The contents of the packet. -/
def UPkt.bytes (p : UPkt) : Bytes := p.bufs.flatten

/-- The fields of `struct msghdr` that are used. `iov` is the index of the first element in the vector `msg_iov`; `name` is the
index of the endpoint. -/
structure MsgHdr where
  iov : Nat
  iovlen : Nat
  name : Nat
  deriving DecidableEq, Repr

/-- `max_batch` (src/send_udp.cpp:52). -/
def udpMaxBatch : Nat := 64

/-- `max_gso_message_size` (src/send_udp.cpp:62). -/
def maxGsoMessage : Nat := 65535

/-- What is fixed: whether the kernel knows the option `UDP_SEGMENT`. -/
structure UEnv where
  supported : Bool
  deriving DecidableEq, Repr

/-- The outcome of `sendmmsg`: some messages were sent; `EAGAIN`; another error, with nothing sent. -/
inductive SendResp
  | sent (k : Nat)
  | again
  | error (e : Nat)
  deriving DecidableEq, Repr

/-- The writer (src/send_udp.cpp:44-76), and the option `UDP_SEGMENT` of the socket (`opt`; zero is off). `firstPacket` to
`lastMsg` are the arguments of the next call of `send_packets`, if `busy`. `bytes` and `result` are `bytes_sent` and `result`
of the items. -/
structure UdpW where
  gso : Int := 0
  opt : Nat := 0
  iov : List Bytes := []
  packets : List UPkt := []
  merged : Nat → Bool := fun _ => false
  msgvec : Nat → MsgHdr := fun _ => ⟨0, 0, 0⟩
  firstPacket : Nat := 0
  lastPacket : Nat := 0
  firstMsg : Nat := 0
  lastMsg : Nat := 0
  busy : Bool := false
  bytes : Nat → Nat := fun _ => 0
  result : Nat → Option Nat := fun _ => none

/-- Events: `get_packet` gave packets; a datagram leaves; a packet is recorded as sent or with an error; `groups_completed`;
`async_wait`; `post_wakeup`. -/
inductive UEv
  | got (ps : List UPkt)
  | dgram (name : Nat) (d : Bytes)
  | done (p : UPkt) (e : Option Nat)
  | completed (k : Nat)
  | wait
  | post
  deriving DecidableEq, Repr

/-- The error numbers that matter: `ENOPROTOOPT`, and `EINVAL` for any other. -/
def enoprotoopt : Nat := 92
def einval : Nat := 22

/-- The kernel's side of `set_gso_size` (src/send_udp.cpp:110-121): the new option or an error. A kernel that does not know the
option refuses it with `ENOPROTOOPT`; one that does may refuse a size, but does not refuse to turn the option off. -/
def setGso (env : UEnv) (opt size : Nat) (refuse : Bool) : Nat × Option Nat :=
  if !env.supported then (opt, some enoprotoopt)
  else if size ≠ 0 ∧ refuse then (opt, some einval)
  else (size, none)

/-- The kernel sends a message: it cuts it into segments of `g` bytes, unless `g` is zero. `f` bounds the number of segments. -/
def kernelCut (g : Nat) : Nat → Bytes → List Bytes
  | 0, d => [d]
  | f + 1, d => if g = 0 ∨ d.length ≤ g then [d] else d.take g :: kernelCut g f (d.drop g)

/-- The kernel's side of `sendmmsg` for one message. `none`: it reads outside `msg_iov`. -/
def UdpW.kernelSend (w : UdpW) (m : Nat) : Option (List UEv) :=
  let h := w.msgvec m
  if h.iov + h.iovlen ≤ w.iov.length then
    let d := ((w.iov.drop h.iov).take h.iovlen).flatten
    some ((kernelCut w.opt d.length d).map (UEv.dgram h.name))
  else none

/-- The kernel's side of `sendmmsg` for `k` messages from `m`. -/
def UdpW.kernelSends (w : UdpW) : Nat → Nat → Option (List UEv)
  | 0, _ => some []
  | k + 1, m =>
    match w.kernelSend m, w.kernelSends k (m + 1) with
    | some a, some b => some (a ++ b)
    | _, _ => none

/-- The variables of `prepare_msgvec`. -/
structure Prep where
  mergedSize : Nat
  iov : Nat
  msg : Nat
  msgvec : Nat → MsgHdr
  merged : Nat → Bool

/-- The condition for a new header (src/send_udp.cpp:223-227). -/
def newHeader (gso : Int) (mergedSize : Nat) (q p : UPkt) : Bool :=
  decide ((q.size : Int) ≠ gso) || decide (p.sub ≠ q.sub) || decide (mergedSize + p.size > maxGsoMessage)

/-- Lines 229-238: a new header. -/
def Prep.header (st : Prep) (i : Nat) (p : UPkt) : Option Prep :=
  if st.msg < udpMaxBatch then
    some { st with
      msgvec := fun j => if j = st.msg then ⟨st.iov, 0, p.sub⟩ else st.msgvec j
      msg := st.msg + 1
      merged := fun j => if j = i then false else st.merged j
      mergedSize := 0 }
  else none

/-- Lines 244-247: the packet goes into the last header. -/
def Prep.append (st : Prep) (p : UPkt) : Prep :=
  { st with
    msgvec := fun j => if j = st.msg - 1 then { st.msgvec j with iovlen := (st.msgvec j).iovlen + p.bufs.length } else st.msgvec j
    mergedSize := st.mergedSize + p.size
    iov := st.iov + p.bufs.length }

/-- The body of the loop of `prepare_msgvec` (src/send_udp.cpp:221-247). -/
def Prep.step (pkts : List UPkt) (gso : Int) (first i : Nat) (st : Prep) : Option Prep :=
  match pkts[i]? with
  | none => none
  | some p =>
    if i = first then (st.header i p).map (fun st => st.append p)
    else
      match pkts[i - 1]? with
      | none => none
      | some q =>
        if newHeader gso st.mergedSize q p then (st.header i p).map (fun st => st.append p)
        else some (Prep.append { st with merged := fun j => if j = i then true else st.merged j } p)

/-- The loop of `prepare_msgvec`: `n` iterations from `i`. -/
def Prep.loop (pkts : List UPkt) (gso : Int) (first : Nat) : Nat → Nat → Prep → Option Prep
  | 0, _, st => some st
  | n + 1, i, st =>
    match st.step pkts gso first i with
    | none => none
    | some st => Prep.loop pkts gso first n (i + 1) st

/-- `prepare_msgvec` (src/send_udp.cpp:214-250). It gives the new value of `last_msg`. -/
def UdpW.prepare (w : UdpW) (firstPacket lastPacket firstMsg firstIov : Nat) (gso : Int) : Option UdpW :=
  match Prep.loop w.packets gso firstPacket (lastPacket - firstPacket) firstPacket ⟨0, firstIov, firstMsg, w.msgvec, w.merged⟩ with
  | none => none
  | some st => some { w with msgvec := st.msgvec, merged := st.merged, firstPacket := firstPacket, lastPacket := lastPacket, firstMsg := firstMsg, lastMsg := st.msg }

/-- Lines 164-167 and 185-187: a packet is recorded. -/
def UdpW.record (w : UdpW) (p : UPkt) : Option Nat → UdpW
  | some e => { w with result := fun j => if j = p.item then (match w.result j with | some r => some r | none => some e) else w.result j }
  | none => { w with bytes := fun j => if j = p.item then w.bytes j + p.size else w.bytes j }

/-- The loops in lines 162-169 and 183-189: the packets of one message are recorded. Also gives the number of groups that end. `f` bounds
the iterations. -/
def UdpW.recordMsg (e : Option Nat) : Nat → UdpW → Option (UdpW × Nat × List UEv)
  | 0, _ => none
  | f + 1, w =>
    match w.packets[w.firstPacket]? with
    | none => none
    | some p =>
      let w' := { w.record p e with firstPacket := w.firstPacket + 1 }
      let k := if p.last then 1 else 0
      if w'.firstPacket < w'.lastPacket ∧ w'.merged w'.firstPacket = true then
        match UdpW.recordMsg e f w' with
        | none => none
        | some (w'', k', evs) => some (w'', k + k', .done p e :: evs)
      else some (w', k, [.done p e])

/-- Line 181: the loop over the messages that were sent. -/
def UdpW.recordMsgs : Nat → UdpW → Option (UdpW × Nat × List UEv)
  | 0, w => some (w, 0, [])
  | n + 1, w =>
    match w.recordMsg none (w.lastPacket - w.firstPacket) with
    | none => none
    | some (w', k, evs) =>
      match UdpW.recordMsgs n w' with
      | none => none
      | some (w'', k', evs') => some (w'', k + k', evs ++ evs')

/-- Lines 194-211: the end of `send_packets`. -/
def UdpW.finish (w : UdpW) (groups : Nat) : UdpW × List UEv :=
  let evs := if groups > 0 then [UEv.completed groups] else []
  if w.firstMsg < w.lastMsg then (w, evs ++ [.wait]) else ({ w with busy := false }, evs ++ [.post])

/-- Lines 162-170: the first message has failed. -/
def UdpW.fail (w : UdpW) (e : Nat) : Option (UdpW × List UEv) :=
  match w.recordMsg (some e) (w.lastPacket - w.firstPacket) with
  | none => none
  | some (w', k, evs) => let (w'', evs') := UdpW.finish { w' with firstMsg := w'.firstMsg + 1 } k; some (w'', evs ++ evs')

/-- Lines 133-171: `sendmmsg` failed. `goto restart` leads to the next outcome of `sendmmsg` without any event. -/
def UdpW.sendError (env : UEnv) (w : UdpW) (e : Nat) (refuse : Bool) : Option (UdpW × List UEv) :=
  if w.gso = -2 then UdpW.fail { w with gso := 0 } e
  else if w.gso > 0 then
    match setGso env w.opt 0 refuse with
    | (_, some e') => w.fail e'
    | (opt, none) =>
      (UdpW.prepare { w with opt := opt, gso := -2 } w.firstPacket w.lastPacket w.firstMsg (w.msgvec w.firstMsg).iov 0).map (fun w => (w, []))
  else w.fail e

/-- `send_packets` (src/send_udp.cpp:124-212), with the outcome of `sendmmsg` (and of `setsockopt`). The kernel does not report
more messages than it was given. -/
def UdpW.sendPackets (env : UEnv) (w : UdpW) (r : SendResp) (refuse : Bool) : Option (UdpW × List UEv) :=
  match r with
  | .error e => w.sendError env e refuse
  | .again => some (w.finish 0)
  | .sent k =>
    if k = 0 ∨ w.lastMsg < w.firstMsg + k then some (w.finish 0)
    else
      match w.kernelSends k w.firstMsg with
      | none => none
      | some out =>
        match UdpW.recordMsgs k { w with gso := if w.gso = -2 then -1 else w.gso } with
        | none => none
        | some (w', groups, evs) => let (w'', evs') := UdpW.finish { w' with firstMsg := w'.firstMsg + k } groups; some (w'', out ++ evs ++ evs')

/-- Lines 280-307: the option is adapted to the largest packet. -/
def UdpW.adapt (env : UEnv) (w : UdpW) (size : Nat) (refuse : Bool) : UdpW :=
  if (size : Int) ≠ w.gso ∧ w.gso ≥ 0 then
    match setGso env w.opt size refuse with
    | (opt, none) => { w with opt := opt, gso := size }
    | (opt, some e) =>
      if e = enoprotoopt then { w with opt := opt, gso := -1 }
      else
        match setGso env opt 0 refuse with
        | (opt, none) => { w with opt := opt, gso := 0 }
        | (opt, some _) => { w with opt := opt }
  else w

/-- `wakeup` (src/send_udp.cpp:252-324). `ps` are the packets that `get_packet` would give before it gives something else than
`SUCCESS`. The call of `send_packets` at the end is left to the next operation. -/
def UdpW.wakeup (env : UEnv) (w : UdpW) (ps : List UPkt) (refuse : Bool) : Option (UdpW × List UEv) :=
  if w.busy then some (w, [])
  else
    match ps.take udpMaxBatch with
    | [] => some (w, [])
    | p :: t =>
      let size := t.foldl (fun m q => max m q.size) p.size
      let w := w.adapt env size refuse
      (UdpW.prepare { w with packets := p :: t, iov := (p :: t).flatMap UPkt.bufs, busy := true } 0 (t.length + 1) 0 0 w.gso).map (fun w => (w, [.got (p :: t)]))

/-- What can happen: the writer is woken, or a call of `send_packets` is made. -/
inductive UdpOp
  | wakeup (ps : List UPkt) (refuse : Bool)
  | send (r : SendResp) (refuse : Bool)
  deriving DecidableEq, Repr

def UdpW.step (env : UEnv) (w : UdpW) : UdpOp → Option (UdpW × List UEv)
  | .wakeup ps refuse => w.wakeup env ps refuse
  | .send r refuse => if w.busy then w.sendPackets env r refuse else some (w, [])

def UdpW.run (env : UEnv) : UdpW → List UdpOp → Option (UdpW × List UEv)
  | w, [] => some (w, [])
  | w, op :: ops =>
    match w.step env op with
    | none => none
    | some (w', evs) =>
      match UdpW.run env w' ops with
      | none => none
      | some (w'', evs') => some (w'', evs ++ evs')

end Spead2
