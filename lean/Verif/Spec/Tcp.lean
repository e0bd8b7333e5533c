import Verif.Spec.Mem
import Verif.Model.Tcp

/-!
# Specification: packets in a TCP byte stream
-/

namespace Spead2.Spec

/-- The header and the complete item table at the start of `d` announce a packet of `n` bytes. -/
def Announces (d : Bytes) (n : Nat) : Prop :=
  ∃ aw table rest len, HasTable d aw table rest ∧ firstImm aw.toNat 4 table = some len ∧ n = 8 + 8 * table.length + len

/-- `d` cannot be the start of a packet: whatever follows, it has no header, or its item table lacks the payload
length. -/
def Malformed (d : Bytes) : Prop :=
  8 ≤ d.length ∧ ((∀ e aw table rest, ¬ HasTable (d ++ e) aw table rest) ∨
    ∃ aw table rest, HasTable d aw table rest ∧ firstImm aw.toNat 4 table = none)

/-- The packets in the byte stream `d`, in order: packets of at most `max` bytes are taken, longer ones are skipped,
after a malformed start eight bytes are skipped. The reader looks at no more than `64 * max` bytes to find out the
size of a packet; if that is not enough it skips them. -/
inductive TcpPackets (max : Nat) : Bytes → List Pkt → Prop
  | malformed {d ps} : Malformed (d.take (64 * max)) → TcpPackets max (d.drop 8) ps → TcpPackets max d ps
  | oversize {d n ps} : Announces (d.take (64 * max)) n → max < n → TcpPackets max (d.drop n) ps → TcpPackets max d ps
  | packet {d n p ps} : Announces (d.take (64 * max)) n → n ≤ max → IsPacket (d.take n) p → n ≤ d.length →
      TcpPackets max (d.drop n) ps → TcpPackets max d (p :: ps)
  | invalid {d n ps} : Announces (d.take (64 * max)) n → n ≤ max → n ≤ d.length → (∀ p, ¬ IsPacket (d.take n) p) →
      TcpPackets max (d.drop n) ps → TcpPackets max d ps
  | short {d n} : Announces (d.take (64 * max)) n → n ≤ max → d.length < n → TcpPackets max d []
  | endless {d ps} : ¬ Malformed (d.take (64 * max)) → (∀ n, ¬ Announces (d.take (64 * max)) n) → 64 * max ≤ d.length →
      TcpPackets max (d.drop (64 * max)) ps → TcpPackets max d ps
  | more {d} : ¬ Malformed (d.take (64 * max)) → (∀ n, ¬ Announces (d.take (64 * max)) n) → d.length < 64 * max → TcpPackets max d []

/-- The bytes received, in order. -/
def received : List TcpEvent → Bytes
  | [] => []
  | .data b :: rest => b ++ received rest
  | _ :: rest => received rest

/-- A receive completes with no more data than was asked for. -/
def ReadFits (r : TcpReader) : TcpEvent → Prop
  | .data b => b.length ≤ r.tcp.space
  | _ => True

/-- The states of a reader and of the stream it feeds: the connection is accepted on a stream with any history,
receives complete, and others operate on the stream in between (stop, flush, other readers). -/
inductive TcpReachable (cfg : StreamConfig) (max : Nat) : TcpReader → Stream → Prop
  | start {ops s out fill r} : (∀ op ∈ ops, op.Valid) → Stream.run cfg ops (Stream.new cfg) = some (s, out) →
      TcpReader.accepted max fill = some r → TcpReachable cfg max r s
  | receive {r s ev r' s' out} : TcpReachable cfg max r s → ReadFits r ev → r.step cfg max s ev = some (r', s', out) →
      TcpReachable cfg max r' s'
  | other {r s op s' out} : TcpReachable cfg max r s → op.Valid → s.step cfg op = some (s', out) →
      TcpReachable cfg max r s'

end Spead2.Spec
