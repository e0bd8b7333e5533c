import Verif.Model.SendWriter
import Verif.Model.SendUdp

/-!
# A send stream with the UDP writer that uses `sendmmsg`

Puts `udp_writer` (Verif/Model/SendUdp.lean; src/send_udp.cpp:42-324) on the queue of Verif/Model/SendQueue.lean. Between any two steps other
threads may call the stream.
-/

namespace Spead2

/-- What the writer does next: `send_packets` again once there is space in the socket (src/send_udp.cpp:200-206), `post_wakeup` or `sleep`, or `request_wakeup`. -/
inductive MNext
  | send | repost | request
  deriving DecidableEq, Repr

/-- Where the writer is: not running; in `wakeup` before `get_packet`, with the packets that it already has; before `sendmmsg`; before `groups_completed` for `k`
groups, or for `k` more groups; about to call handlers in `groups_completed`; at the end of `wakeup` or `send_packets`. A packet comes with its substream and whether
it is the last of its group. -/
inductive MPc (π : Type)
  | rest
  | collect (acc : List ((π × Nat) × Bool))
  | sending
  | report (k : Nat) (nx : MNext)
  | calling (k : Nat) (nx : MNext)
  | next (nx : MNext)
  deriving DecidableEq, Repr

/-- The stream and its writer. What is recorded in the items is modelled in the queue, so `bytes` and `result` of `u` do not matter here. -/
structure MSt (H π : Type) where
  sq : Sq H π
  u : UdpW
  pc : MPc π

/-- The `transmit_packet` of a packet (include/spead2/send_writer.h:182-189). -/
def WEnv.upkt {H π : Type} (env : WEnv H π) (x : (π × Nat) × Bool) : UPkt := ⟨env.bufs x.1.1, x.1.2, 0, x.2⟩

/-- A step of the queue. -/
def MSt.on {H π : Type} (env : WEnv H π) (m : MSt H π) (op : SqOp H) (pc : MPc π) : Option (MSt H π × List (WEv π)) :=
  match m.sq.step env.sq op with
  | none => none
  | some (s, ev) => some (⟨s, m.u, pc⟩, ev.map WEv.sq)

/-- The end of the loop of `wakeup` (src/send_udp.cpp:254-264, 268-279): without packets the writer ends as `nx` says; otherwise it prepares to send them
(src/send_udp.cpp:280-323). -/
def MSt.batch {H π : Type} (genv : UEnv) (env : WEnv H π) (s : Sq H π) (u : UdpW) (acc : List ((π × Nat) × Bool)) (nx : MNext) (refuse : Bool) (ev : List (WEv π)) : Option (MSt H π × List (WEv π)) :=
  match acc with
  | [] => some (⟨s, u, .next nx⟩, ev)
  | x :: acc =>
    match u.wakeup genv ((x :: acc).map env.upkt) refuse with
    | none => none
    | some (u, _) => some (⟨s, u, .sending⟩, ev)

/-- `get_packet` succeeds, or says `EMPTY` (src/send_udp.cpp:254-276). -/
def MSt.got {H π : Type} (genv : UEnv) (env : WEnv H π) (u : UdpW) (acc : List ((π × Nat) × Bool)) (refuse : Bool) : Option (Sq H π × List (SqEv π)) → Option (MSt H π × List (WEv π))
  | none => none
  | some (s, .packet p sub last :: ev) =>
    if acc.length + 1 < udpMaxBatch then some (⟨s, u, .collect (acc ++ [((p, sub), last)])⟩, (SqEv.packet p sub last :: ev).map WEv.sq)
    else MSt.batch genv env s u (acc ++ [((p, sub), last)]) .repost refuse ((SqEv.packet p sub last :: ev).map WEv.sq)
  | some (s, ev) => MSt.batch genv env s u acc .request refuse (ev.map WEv.sq)

/-- The effect of `send_packets` on the network and the items (src/send_udp.cpp:133-193): datagrams leave, and packets are recorded as sent, or with an error and
no bytes. -/
def MSt.settle {H π : Type} (env : WEnv H π) : List UEv → Sq H π → Option (Sq H π × List (WEv π))
  | [], s => some (s, [])
  | .dgram n d :: evs, s => (MSt.settle env evs s).map (fun r => (r.1, .wire n d :: r.2))
  | .done _ e :: evs, s =>
    match s.step env.sq (.sent (e.map (fun _ => 0))) with
    | none => none
    | some (s, ev) => (MSt.settle env evs s).map (fun r => (r.1, ev.map WEv.sq ++ r.2))
  | _ :: evs, s => MSt.settle env evs s

/-- The argument of `groups_completed` at the end of `send_packets` (src/send_udp.cpp:195-196). -/
def groupsOf : List UEv → Nat
  | [] => 0
  | .completed k :: evs => k + groupsOf evs
  | _ :: evs => groupsOf evs

/-- Whether `send_packets` has ended, and not begun again (`goto restart`, src/send_udp.cpp:158). -/
def UEv.ends : UEv → Bool
  | .wait | .post => true
  | _ => false

/-- A call of `groups_completed`, if any groups are to be reported (src/send_udp.cpp:195-211). -/
def mmsgThen {π : Type} (k : Nat) (nx : MNext) : MPc π := if k > 0 then .report k nx else .next nx

/-- The kernel does not report more messages than it was given. -/
def UdpW.answer (u : UdpW) : SendResp → SendResp
  | .sent k => .sent (min k (u.lastMsg - u.firstMsg))
  | r => r

/-- `send_packets` (src/send_udp.cpp:124-212), with the answers of the kernel. -/
def MSt.sendPackets {H π : Type} (genv : UEnv) (env : WEnv H π) (m : MSt H π) (r : SendResp) (refuse : Bool) : Option (MSt H π × List (WEv π)) :=
  match m.u.sendPackets genv (m.u.answer r) refuse with
  | none => none
  | some (u, evs) =>
    match MSt.settle env evs m.sq with
    | none => none
    | some (s, out) => some (⟨s, u, if evs.any UEv.ends then mmsgThen (groupsOf evs) (if u.busy then .send else .repost) else .sending⟩, out)

/-- One step of the writer. `sleepy`: if it calls `get_packet`, that says `SLEEP`. `r`: what the kernel answers, if it is asked. `groups_completed` works in
batches of 16 (src/send_writer.cpp:219-261). -/
def MSt.tick {H π : Type} (genv : UEnv) (env : WEnv H π) (m : MSt H π) (sleepy : Bool) (r : WResp) : Option (MSt H π × List (WEv π)) :=
  match m.pc with
  | .rest => if m.sq.wk = .queued then m.on env .wake (.collect []) else some (m, [])
  | .collect acc => if sleepy then MSt.batch genv env m.sq m.u acc .repost r.refuse [] else MSt.got genv env m.u acc r.refuse (m.sq.step env.sq .get)
  | .sending => m.sendPackets genv env r.kernel r.refuse
  | .report k nx => m.on env (.complete (min 16 k)) (.calling (k - 16) nx)
  | .calling k nx =>
    if m.sq.calling ≠ [] then m.on env .call (.calling k nx)
    else if m.sq.waking ≠ [] then m.on env .notify (.calling k nx)
    else some (⟨m.sq, m.u, mmsgThen k nx⟩, [])
  | .next .send => some (⟨m.sq, m.u, .sending⟩, [])
  | .next .repost => m.on env .repost .rest
  | .next .request => if m.sq.sender.isSome then some (m, []) else m.on env .request .rest

def MSt.step {H π : Type} (genv : UEnv) (env : WEnv H π) (m : MSt H π) : WOp H → Option (MSt H π × List (WEv π))
  | .caller op => if op.ofCaller then m.on env op m.pc else some (m, [])
  | .tick sleepy r => m.tick genv env sleepy r

def MSt.run {H π : Type} (genv : UEnv) (env : WEnv H π) : List (WOp H) → MSt H π → Option (MSt H π × List (WEv π))
  | [], m => some (m, [])
  | op :: ops, m =>
    match m.step genv env op with
    | none => none
    | some (m, ev) =>
      match MSt.run genv env ops m with
      | none => none
      | some (m, ev') => some (m, ev ++ ev')

/-- A new stream: `start` calls `request_wakeup` (include/spead2/send_writer.h:179). -/
def MSt.new {H π : Type} : MSt H π := ⟨{ wk := .running }, {}, .next .request⟩

end Spead2
