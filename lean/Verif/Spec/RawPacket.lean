import Verif.Model.Bytes

/-!
# IPv4 and UDP framing (RFC 791, RFC 768, RFC 1071)
-/

namespace Spead2.Spec

/-- `d` is a frame with a link header of `n` bytes that ends with the type 0x0800, around an unfragmented IPv4 packet with
protocol 17 (UDP), around a UDP datagram with payload `p`. The IP packet may be followed by padding, and the datagram by
other bytes of the IP packet. -/
def IsUdpFrame (n : Nat) (d p : Bytes) : Prop :=
  ∃ (link ip udp rest : Bytes) (v tos : UInt8) (len ident frag : Bytes) (ttl : UInt8) (tail ports ulen usum : Bytes),
    d = link ++ ip ++ udp ++ p ++ rest ∧
    link.length = n ∧ link.drop (n - 2) = [0x08, 0x00] ∧
    ip = v :: tos :: len ++ ident ++ frag ++ [ttl, 17] ++ tail ∧
    len.length = 2 ∧ ident.length = 2 ∧ frag.length = 2 ∧
    v.toNat / 16 = 4 ∧ ip.length = 4 * (v.toNat % 16) ∧ 20 ≤ ip.length ∧ beNat frag % 2 ^ 14 = 0 ∧
    udp = ports ++ ulen ++ usum ∧ ports.length = 4 ∧ ulen.length = 2 ∧ usum.length = 2 ∧
    beNat ulen = udp.length + p.length ∧
    ip.length + udp.length + p.length ≤ beNat len ∧ beNat len ≤ ip.length + udp.length + p.length + rest.length

/-- Sixteen-bit one's complement addition: a carry out of the top goes back in at the bottom. -/
def onesAdd (a b : Nat) : Nat := if 0xffff < a + b then a + b - 0xffff else a + b

/-- The sixteen-bit words of a header. -/
def hdrWords : Bytes → List Nat
  | a :: b :: bs => (a.toNat * 256 + b.toNat) :: hdrWords bs
  | [a] => [a.toNat * 256]
  | [] => []

/-- A header is intact if the one's complement sum of its words, including the checksum, is all ones. -/
def ChecksumOk (h : Bytes) : Prop := (hdrWords h).foldl onesAdd 0 = 0xffff

end Spead2.Spec
