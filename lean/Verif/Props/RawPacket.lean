import Verif.Lemmas.RawPacket
import Verif.Model.Stats

/-!
# C43, C44: raw frames
-/

namespace Spead2

open Spec

/-- **C43**, safety: whatever bytes a frame has, the parser reads nothing outside it, and a payload it returns is inside it. -/
theorem C43_safe (d : Bytes) :
    (∃ r, udpFromEthernet d = some r ∧ ∀ b, r = .ok b → b.off + b.size ≤ d.length) ∧
    (∃ r, udpFromLinuxSll d = some r ∧ ∀ b, r = .ok b → b.off + b.size ≤ d.length) := by
  constructor
  · refine ⟨_, udpFromFrame_eq (n := 14) (by decide) d, fun b hb => ?_⟩
    exact (frame_of_parse (n := 14) (by decide) (by rw [← hb]; exact udpFromFrame_eq (by decide) d)).1
  · refine ⟨_, udpFromFrame_eq (n := 16) (by decide) d, fun b hb => ?_⟩
    exact (frame_of_parse (n := 16) (by decide) (by rw [← hb]; exact udpFromFrame_eq (by decide) d)).1

theorem frame_exact {n : Nat} (hn : 2 ≤ n) (d p : Bytes) :
    (∃ b, udpFromFrame n d = some (.ok b) ∧ slice? d b.off b.size = some p) ↔ IsUdpFrame n d p := by
  constructor
  · rintro ⟨b, h, hs⟩
    obtain ⟨h1, h2⟩ := frame_of_parse hn h
    rw [slice?_eq_some h1] at hs
    rw [← Option.some.inj hs]
    exact h2
  · intro h
    obtain ⟨b, h1, h2, _, h4⟩ := parse_of_frame hn h
    exact ⟨b, h1, by rw [slice?_eq_some h4, h2]⟩

/-- **C43**, exactness, ethernet: the payload is `p` exactly if the frame is an ethernet frame around an unfragmented IPv4 packet
around a UDP datagram with payload `p`. -/
theorem C43_ethernet (d p : Bytes) : (∃ b, udpFromEthernet d = some (.ok b) ∧ slice? d b.off b.size = some p) ↔ IsUdpFrame 14 d p :=
  frame_exact (by decide) d p

/-- **C43**, exactness, Linux SLL. -/
theorem C43_sll (d p : Bytes) : (∃ b, udpFromLinuxSll d = some (.ok b) ∧ slice? d b.off b.size = some p) ↔ IsUdpFrame 16 d p :=
  frame_exact (by decide) d p

/-- **C43**: anything else ends in an exception. -/
theorem C43_otherwise (d : Bytes) :
    ((∀ p, ¬ IsUdpFrame 14 d p) ↔ ∃ e, udpFromEthernet d = some (.error e)) ∧ ((∀ p, ¬ IsUdpFrame 16 d p) ↔ ∃ e, udpFromLinuxSll d = some (.error e)) := by
  have key : ∀ n, 2 ≤ n → ((∀ p, ¬ IsUdpFrame n d p) ↔ ∃ e, udpFromFrame n d = some (.error e)) := by
    intro n hn
    constructor
    · intro h
      obtain ⟨r, hr⟩ : ∃ r, udpFromFrame n d = some r := ⟨_, udpFromFrame_eq hn d⟩
      cases r with
      | error e => exact ⟨e, hr⟩
      | ok b => exact absurd (frame_of_parse hn hr).2 (h _)
    · rintro ⟨e, he⟩ p hp
      obtain ⟨b, hb, _⟩ := parse_of_frame hn hp
      rw [he] at hb
      cases hb
  exact ⟨key 14 (by decide), key 16 (by decide)⟩

/-- **C44**: for any IPv4 header (any header length the first byte can announce, from the minimum of 20 bytes, any contents) at any
place in memory, `update_checksum` leaves a header whose checksum is right, and changes nothing but the checksum field. -/
theorem C44_checksum (pre hdr post : Bytes) (v : UInt8) (p : PBuf) (hp : p.off = pre.length) (hv : hdr.head? = some v)
    (hl : hdr.length = 4 * (v.toNat % 16)) (h20 : 20 ≤ hdr.length) :
    ∃ c1 c2, updateChecksum (pre ++ hdr ++ post) p = some (pre ++ (hdr.take 10 ++ [c1, c2] ++ hdr.drop 12) ++ post) ∧
      ChecksumOk (hdr.take 10 ++ [c1, c2] ++ hdr.drop 12) := by
  obtain ⟨a, b, hab⟩ := take_two (d := hdr) (o := 10) (by omega)
  have hsplit : hdr = hdr.take 10 ++ [a, b] ++ hdr.drop 12 := by
    rw [← hab, show (12 : Nat) = 10 + 2 from rfl, ← List.drop_drop, List.append_assoc, List.take_append_drop, List.take_append_drop]
  have hv' : (hdr.take 10).head? = some v := by
    cases hdr with
    | nil => simp at hv
    | cons x t => simpa using hv
  obtain ⟨c, e, h1, h2⟩ := updateChecksum_spec (pre := pre) (x := hdr.take 10) (y := hdr.drop 12) (z := post) (a := a) (b := b) (v := v) (p := p) hp.symm
    (by rw [List.length_take]; omega) hv' (by rw [List.length_take, List.length_drop]; omega)
  refine ⟨c, e, ?_, h2⟩
  have hin : pre ++ hdr ++ post = pre ++ hdr.take 10 ++ [a, b] ++ (hdr.drop 12 ++ post) := by
    conv => lhs; rw [hsplit]
    simp only [List.append_assoc]
  rw [hin, h1]
  simp only [List.append_assoc]



/-- A frame with a payload of four bytes, two bytes after the datagram, and an ethernet trailer. -/
def rawDemo : Bytes :=
  [1, 0, 0x5e, 1, 2, 3, 2, 2, 2, 2, 2, 2, 0x08, 0x00] ++
  [0x45, 0, 0, 34, 0, 0, 0x40, 0, 1, 17, 0xb4, 0xc3, 10, 0, 0, 1, 239, 1, 2, 3] ++
  [0x12, 0x34, 0x1b, 0x58, 0, 12, 0, 0] ++ [0x53, 4, 2, 6] ++ [7, 7, 0, 0, 0, 0]

/-- Non-vacuity of C43. -/
example : udpFromEthernet rawDemo = some (.ok ⟨42, 4⟩) ∧ udpFromLinuxSll rawDemo = some (.error .type) ∧
    udpFromEthernet (rawDemo.take 47) = some (.error .length) := by decide +kernel

example : IsUdpFrame 14 rawDemo [0x53, 4, 2, 6] := (C43_ethernet _ _).mp ⟨⟨42, 4⟩, by decide +kernel, by decide +kernel⟩

/-- Non-vacuity of C44: a header with options, in the middle of a frame. -/
example : updateChecksum ([9, 9] ++ [0x46, 0, 0, 34, 0, 0, 0x40, 0, 1, 17, 0xff, 0xff, 10, 0, 0, 1, 239, 1, 2, 3, 1, 1, 1, 0] ++ [5]) ⟨2, 40⟩ =
    some ([9, 9] ++ [0x46, 0, 0, 34, 0, 0, 0x40, 0, 1, 17, 0x7b, 0xc5, 10, 0, 0, 1, 239, 1, 2, 3, 1, 1, 1, 0] ++ [5]) ∧
    ChecksumOk [0x46, 0, 0, 34, 0, 0, 0x40, 0, 1, 17, 0x7b, 0xc5, 10, 0, 0, 1, 239, 1, 2, 3, 1, 1, 1, 0] ∧
    ¬ ChecksumOk [0x46, 0, 0, 34, 0, 0, 0x40, 0, 1, 17, 0x7b, 0xc4, 10, 0, 0, 1, 239, 1, 2, 3, 1, 1, 1, 0] := by
  unfold ChecksumOk
  decide +kernel

end Spead2
