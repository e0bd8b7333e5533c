import Verif.Props.Traffic
import Verif.Lemmas.Tcp

/-!
# The packets of a sender in a byte stream
-/

namespace Spead2
open Spec

theorem announce_packetBytes {w cnt hl off : Nat} {ptrs : List Nat} {payload : Bytes} (hw1 : 1 ≤ w) (hw : w ≤ 7)
    (hcnt : cnt < 2 ^ (8 * w)) (hhl : hl < 2 ^ (8 * w)) (hoff : off + payload.length ≤ hl)
    (hn : 4 + ptrs.length < 65536) (hp : ∀ p ∈ ptrs, p < 2 ^ 64) :
    Announces (packetBytes w cnt hl off ptrs payload) (40 + 8 * ptrs.length + payload.length) := by
  have hw256 : (UInt8.ofNat w).toNat = w := by simp; omega
  have hpow4 : 4 < 2 ^ (63 - 8 * w) := Nat.lt_of_lt_of_le (by decide : 4 < 2 ^ 7) (Nat.pow_le_pow_right (by omega) (by omega))
  have i1 := imm_fields (w := w) (id := 1) (v := cnt) hw (by omega) hcnt
  have i2 := imm_fields (w := w) (id := 2) (v := hl) hw (by omega) hhl
  have i3 := imm_fields (w := w) (id := 3) (v := off) hw (by omega) (by omega)
  have i4 := imm_fields (w := w) (id := 4) (v := payload.length) hw (by omega) (by omega)
  have hlt1 : ∀ p ∈ [2 ^ 63 + 1 * 2 ^ (8 * w) + cnt, 2 ^ 63 + 2 * 2 ^ (8 * w) + hl, 2 ^ 63 + 3 * 2 ^ (8 * w) + off,
      2 ^ 63 + 4 * 2 ^ (8 * w) + payload.length], p < 2 ^ 64 := by
    have : 2 ^ (8 * w) ≤ 2 ^ 56 := Nat.pow_le_pow_right (by omega) (by omega)
    intro p hpm
    simp only [List.mem_cons, List.not_mem_nil, or_false] at hpm
    rcases hpm with rfl | rfl | rfl | rfl <;> omega
  generalize ht1 : 2 ^ 63 + 1 * 2 ^ (8 * w) + cnt = q1 at *
  generalize ht2 : 2 ^ 63 + 2 * 2 ^ (8 * w) + hl = q2 at *
  generalize ht3 : 2 ^ 63 + 3 * 2 ^ (8 * w) + off = q3 at *
  generalize ht4 : 2 ^ 63 + 4 * 2 ^ (8 * w) + payload.length = q4 at *
  have htab : HasTable (packetBytes w cnt hl off ptrs payload) (UInt8.ofNat w) ([q1, q2, q3, q4] ++ ptrs) payload := by
    refine ⟨UInt8.ofNat (8 - w), 0, 0, ?_, ?_, ?_, ?_, by simp; omega, ?_⟩
    · unfold packetBytes
      rw [ht1, ht2, ht3, ht4]
      congr 3
      simp; omega
    · intro hc; have := congrArg UInt8.toNat hc; simp at this; omega
    · intro hc; have := congrArg UInt8.toNat hc; simp at this; omega
    · simp; omega
    · intro p hpm
      rcases List.mem_append.1 hpm with h | h
      · exact hlt1 p h
      · exact hp p h
  refine ⟨UInt8.ofNat w, [q1, q2, q3, q4] ++ ptrs, payload, payload.length, htab, ?_, by simp; omega⟩
  rw [hw256]
  unfold firstImm
  have n1 : ¬ (ptrImmediate q1 ∧ ptrId w q1 = 4) := fun h => by have := i1.2.1; omega
  have n2 : ¬ (ptrImmediate q2 ∧ ptrId w q2 = 4) := fun h => by have := i2.2.1; omega
  have n3 : ¬ (ptrImmediate q3 ∧ ptrId w q3 = 4) := fun h => by have := i3.2.1; omega
  have n4 : ptrImmediate q4 ∧ ptrId w q4 = 4 := ⟨i4.1, i4.2.1⟩
  simp only [List.cons_append, List.nil_append, List.filter_cons, n1, n2, n3, n4, decide_true, decide_false, if_true, Bool.false_eq_true, if_false,
    List.head?_cons, Option.map_some, i4.2.2, and_self]

theorem packetBytes_length {w cnt hl off : Nat} {ptrs : List Nat} {payload : Bytes} :
    (packetBytes w cnt hl off ptrs payload).length = 40 + 8 * ptrs.length + payload.length := by
  have h8 : ∀ l : List Nat, (l.flatMap (beBytes 8)).length = 8 * l.length := by
    intro l
    induction l with
    | nil => rfl
    | cons a l ih => rw [List.flatMap_cons, List.length_append, ih, beBytes_length, List.length_cons]; omega
  unfold packetBytes
  rw [List.length_append, List.length_append, h8]
  simp [headerBytes]
  omega

theorem packetSeq_mem {w cnt hl : Nat} {d : Bytes} : ∀ (parts : List (List Nat × Bytes)) (off : Nat), off + (parts.map (fun x => x.2.length)).sum ≤ hl → d ∈ packetSeq w cnt hl off parts →
    ∃ o x, x ∈ parts ∧ o + x.2.length ≤ hl ∧ d = packetBytes w cnt hl o x.1 x.2
  | [], off, _, h => by simp [packetSeq] at h
  | (ptrs, payload) :: rest, off, hs, h => by
    simp only [List.map_cons, List.sum_cons] at hs
    rw [packetSeq] at h
    rcases List.mem_cons.1 h with rfl | h
    · exact ⟨off, _, List.mem_cons_self, by show off + payload.length ≤ hl; omega, rfl⟩
    · obtain ⟨o, x, h1, h2, h3⟩ := packetSeq_mem rest _ (by omega) h
      exact ⟨o, x, List.mem_cons_of_mem _ h1, h2, h3⟩

/-- Every datagram of a heap is one packet that announces its own length, which is at most the packet size of the sender. -/
theorem _root_.Spead2.Spec.Sent.Ok.framed {x : Sent} (ok : x.Ok) {d : Bytes} (hd : d ∈ x.wire) : Announces d d.length ∧ IsPacket d (recvOr d) ∧ d.length ≤ x.mps := by
  obtain ⟨h, cnt, mps, w, pkts⟩ := x
  have hw := ok.hab
  have hf := ok.fits
  have hid := ok.ids
  have hs := ok.sends
  simp only at hw hf hid hs
  replace hd : d ∈ pkts.map GenPacket.bytes := hd
  have e8 : h.hab / 8 = w := by omega
  have hsuf := suffix_of_heap hw hf hid
  obtain ⟨g, parts, hg, gok, rok⟩ := sends_spec hs hw hf
  obtain ⟨_, hh, hcc, hm, hp, hn, hfp⟩ := gen_ok h cnt mps g hg w hw hf
  obtain ⟨he, hsum⟩ := runOk_parts g w gok rok
  have hw1 := gok.w1
  have hw7 := gok.w7
  have hbytes : pkts.map GenPacket.bytes = packetSeq w cnt (heapLength mps h) 0 parts := by
    rw [rok.bytes, hcc, hp]
  rw [hp] at hsum
  have hH : heapPtrs mps h = itemPtrs w 0 h.items ++ (if padded mps h then [(realPayload (h.hab / 8) h.items).length] else []) := by
    unfold heapPtrs; rw [e8]
  have hpart : ∀ x ∈ parts, ∀ q ∈ x.1, q ∈ heapPtrs mps h := by
    intro x hx q hq
    rw [← hfp]
    cases hr : g.heap.repeatPointers with
    | true => rw [rok.rep hr x hx] at hq; exact hq
    | false =>
      have := rok.once hr
      rw [List.drop_zero] at this
      rw [← this]
      exact List.mem_flatten.2 ⟨x.1, List.mem_map.2 ⟨x, hx, rfl⟩, hq⟩
  have hparts4 : ∀ x ∈ parts, 4 + x.1.length < 65536 := by
    intro x hx
    have h1 := rok.small x hx
    have h0 : 0 < x.2.length := List.length_pos_iff.2 (rok.nonempty x hx)
    have hm := gok.mps
    have : x.1.length ≤ g.total := by
      rw [← g.fullPtrs_length w]
      cases hr : g.heap.repeatPointers with
      | true => rw [rok.rep hr x hx]; exact Nat.le_refl _
      | false =>
        have := rok.once hr
        rw [List.drop_zero] at this
        rw [← this]
        exact (List.sublist_flatten_of_mem (List.mem_map.2 ⟨x, hx, rfl⟩)).length_le
    have := gok.count
    omega
  have hH64 : ∀ q ∈ heapPtrs mps h, q < 2 ^ 64 := by rw [← hfp]; exact fullPtrs_lt g w gok
  have hplain := suffix_plain hsuf
  rw [← hH] at hplain
  have hcnt' : cnt < 2 ^ (8 * w) := by rw [← hcc]; exact gok.cnt
  have hlen' : heapLength mps h < 2 ^ (8 * w) := by rw [← hp]; exact gok.size
  rw [hbytes] at hd
  obtain ⟨o, x, hx, hox, rfl⟩ := packetSeq_mem parts 0 (by omega) hd
  refine ⟨?_, ?_, ?_⟩
  · rw [packetBytes_length]
    exact announce_packetBytes hw1 hw7 hcnt' hlen' hox (hparts4 x hx) (fun q hq => hH64 q (hpart x hx q hq))
  · obtain ⟨table, wf, hl, hdrop⟩ := wf_packetBytes hw1 hw7 hcnt' hlen' hox (hparts4 x hx) (fun q hq => hH64 q (hpart x hx q hq)) (fun q hq => (hplain q (hpart x hx q hq)).1)
    have hw256 : (UInt8.ofNat w).toNat = w := by simp; omega
    refine ⟨_, table, x.2, cnt, o, _, wf, by rw [packetBytes_length, hl]; omega, ?_⟩
    rw [hw256, hdrop]
    exact recvOr_of (recv_packetBytes hw1 hw7 hcnt' hlen' hox (hparts4 x hx) (fun q hq => hH64 q (hpart x hx q hq)) (fun q hq => (hplain q (hpart x hx q hq)).1))
  · rw [packetBytes_length]
    have h1 := rok.small x hx
    have : g.maxPacketSize ≤ mps := by
      rw [hm]; omega
    show _ ≤ mps
    omega

/-- The packets in a byte stream made of announced packets. -/
theorem tcpParse_packets {max : Nat} (f : Bytes → Pkt) : ∀ (ds : List Bytes), (∀ d ∈ ds, Announces d d.length ∧ IsPacket d (f d) ∧ d.length ≤ max) →
    tcpParse max ds.flatten = (ds.map f, [], 0)
  | [], _ => tcpParse_nil max
  | d :: ds, h => by
    obtain ⟨h1, h2, h3⟩ := h d List.mem_cons_self
    obtain ⟨k1, k2, k3⟩ := announces_size h1
    have hg : gps max (d ++ ds.flatten) = some (d.length : Int) := gps_append _ (by rw [gps_eq (by omega)]; exact k1) (by omega)
    rw [List.flatten_cons, tcpParse_frame hg k2 h3 (by simp), List.take_left, List.drop_left, framePkt_packet h2, tcpParse_packets f ds (fun d hd => h d (List.mem_cons_of_mem _ hd))]
    rfl

end Spead2
