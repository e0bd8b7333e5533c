import Verif.Lemmas.PlaceData
import Verif.Props.Wire
import Verif.Props.Send

/-!
# C81: what the place callback of a chunk stream is given
-/

namespace Spead2.PlaceCb

open Spead2.Spec

/-- C81: for every datagram that the receiver accepts and every choice of items, whatever the structure had in it before,
the place callback is called with the exact size of the packet, with -1 as the chunk and 0 in the other outputs, and for
each requested item with the last immediate value the packet has for it, or -1. Nothing outside the datagram is read. -/
theorem C81_place (d : Bytes) (h : PacketHeader) (size : Nat) (hd : decodePacket d = some (some (h, size))) (ids : List Nat)
    (old : PlaceData) (ho : old.items.length = ids.length) :
    ∃ (aw : UInt8) (table : List Nat) (payload rest : Bytes), HasTable d aw table (payload ++ rest) ∧
      (payload.length : Int) = h.payloadLength ∧ size = d.length - rest.length ∧
      fillPlace d h ids old = some ⟨size, requested ids (immediates aw.toNat table), -1, 0, 0, 0, 0⟩ := by
  obtain ⟨aw, table, payload, cnt, off, hlen, wf, e1, e2, e3, e4, e5, e6, e7, e8, e9⟩ := (C04_accept_iff d h size).1 hd
  obtain ⟨rest, ht⟩ := wf.layout
  have hf := hasTable_facts ht
  have hl := hf.2.1
  rw [List.length_append] at hl
  refine ⟨aw, table, payload, rest, ht, e5.symm, by omega, ?_⟩
  unfold fillPlace
  rw [e1, e8, scan_table ht ids old.items ho]
  simp only [e5, Int.toNat_natCast]
  congr 2
  omega

/-- A datagram with two values for item 9 and an addressed item 11, and a larger old structure. -/
def sampleTable : List Nat :=
  [2 ^ 63 + 1 * 2 ^ 40 + 5, 2 ^ 63 + 3 * 2 ^ 40 + 0, 2 ^ 63 + 4 * 2 ^ 40 + 2, 2 ^ 63 + 9 * 2 ^ 40 + 77, 11 * 2 ^ 40 + 0, 2 ^ 63 + 9 * 2 ^ 40 + 78]

/-- The datagram of `sampleTable`, with three more bytes behind the payload. -/
def sampleDatagram : Bytes := headerBytes 3 5 0 0 6 ++ sampleTable.flatMap (beBytes 8) ++ [1, 2, 3, 4, 5]

example : ∃ h, decodePacket sampleDatagram = some (some (h, 58)) ∧
    fillPlace sampleDatagram h [9, 11, 1, 4, 9] ⟨0, [100, 101, 102, 103, 104], 7, 8, 9, 10, 11⟩ = some ⟨58, [78, -1, 5, 2, 78], -1, 0, 0, 0, 0⟩ := by
  refine ⟨⟨40, 3, 5, -1, 0, 2, 32, 56⟩, by decide +kernel, by decide +kernel⟩

/-- C81 (missing items): the value for a requested item is -1 exactly when the packet has no immediate item with its
identifier; otherwise it is the value of one, which is between 0 and 2^56. -/
theorem C81_missing (d : Bytes) (h : PacketHeader) (size : Nat) (hd : decodePacket d = some (some (h, size))) (ids : List Nat)
    (old out : PlaceData) (ho : old.items.length = ids.length) (hf : fillPlace d h ids old = some out) (aw : UInt8) (table : List Nat) (rest : Bytes)
    (ht : HasTable d aw table rest) (j id : Nat) (hj : ids[j]? = some id) :
    ∃ v : Int, out.items[j]? = some v ∧ (v = -1 ↔ ∀ p ∈ table, ptrImmediate p → ptrId aw.toNat p ≠ id) ∧
      (v ≠ -1 → 0 ≤ v ∧ v < 2 ^ 56 ∧ ∃ p ∈ table, ptrImmediate p ∧ ptrId aw.toNat p = id ∧ (ptrValue aw.toNat p : Int) = v) := by
  obtain ⟨aw', table', payload, rest', ht', _, _, hq⟩ := C81_place d h size hd ids old ho
  obtain ⟨rfl, rfl, _⟩ := hasTable_unique ht ht'
  rw [hf] at hq
  have hq := Option.some.inj hq
  subst hq
  have hw := (hasTable_facts ht).2.2.2.2.2
  refine ⟨optField (lastValue id (immediates aw.toNat table)), ?_, ?_, ?_⟩
  · show (requested ids _)[j]? = _
    unfold requested
    rw [List.getElem?_map, hj]; rfl
  · rw [optField_eq_neg, ← lastImm_eq]
    unfold lastImm
    rw [Option.map_eq_none_iff, List.getLast?_eq_none_iff, List.filter_eq_nil_iff]
    constructor
    · intro hn p hp hi he
      exact hn p hp (decide_eq_true ⟨hi, he⟩)
    · intro hn p hp hc
      have hc := of_decide_eq_true hc
      exact hn p hp hc.1 hc.2
  · rw [← lastImm_eq]
    intro hne
    cases hl : lastImm aw.toNat id table with
    | none => rw [hl] at hne; exact absurd rfl hne
    | some v =>
      unfold lastImm at hl
      rw [Option.map_eq_some_iff] at hl
      obtain ⟨p, hp, rfl⟩ := hl
      have hm := List.mem_of_getLast? hp
      rw [List.mem_filter] at hm
      have hc := of_decide_eq_true hm.2
      have hv : ptrValue aw.toNat p < 2 ^ 56 := by
        unfold ptrValue
        refine Nat.lt_of_lt_of_le (Nat.mod_lt _ (Nat.two_pow_pos _)) (Nat.pow_le_pow_right (by omega) (by omega))
      show 0 ≤ (ptrValue aw.toNat p : Int) ∧ (ptrValue aw.toNat p : Int) < 2 ^ 56 ∧ _
      exact ⟨by omega, by omega, p, hm.1, hc.1, hc.2, rfl⟩

/-- C81 (packet items): identifiers 1 to 4 may be requested too; they give the heap cnt, the heap length (-1 when the
packet does not have it), the payload offset and the payload length with which the packet is then processed. -/
theorem C81_packet_items (d : Bytes) (h : PacketHeader) (size : Nat) (hd : decodePacket d = some (some (h, size)))
    (old : PlaceData) (ho : old.items.length = 4) :
    fillPlace d h [1, 2, 3, 4] old = some ⟨size, [h.heapCnt, h.heapLength, h.payloadOffset, h.payloadLength], -1, 0, 0, 0, 0⟩ := by
  obtain ⟨aw, table, payload, cnt, off, hlen, wf, e1, e2, e3, e4, e5, e6, e7, e8, e9⟩ := (C04_accept_iff d h size).1 hd
  obtain ⟨rest, ht⟩ := wf.layout
  obtain ⟨aw', table', payload', rest', ht', _, _, hq⟩ := C81_place d h size hd [1, 2, 3, 4] old ho
  obtain ⟨rfl, rfl, _⟩ := hasTable_unique ht ht'
  rw [hq]
  congr 2
  unfold requested
  simp only [List.map_cons, List.map_nil, ← lastImm_eq]
  rw [wf.heapCnt, wf.heapLength, wf.payloadOffset, wf.payloadLength, e2, e3, e4, e5]
  rfl

example : ∃ h, decodePacket sampleDatagram = some (some (h, 58)) := ⟨⟨40, 3, 5, -1, 0, 2, 32, 56⟩, by decide +kernel⟩

/-- What the callback sees for one packet of a sent heap: the packet's own items and the immediate items whose pointers are
in it. -/
theorem sent_place (hp : SendHeap) (cnt mps w : Nat) (hw : hp.hab = 8 * w) (hf : Fits hp cnt mps) (hid : ∀ it ∈ hp.items, 4 < it.id)
    (pkts : List GenPacket) (hs : Sends hp cnt mps pkts) (i : Nat) (d : Bytes) (hi : (pkts.map GenPacket.bytes)[i]? = some d) (ids : List Nat)
    (old : PlaceData) (ho : old.items.length = ids.length) :
    ∃ h : PacketHeader, decodePacket d = some (some (h, d.length)) ∧
      fillPlace d h ids old = some ⟨d.length, requested ids
        (packetItems cnt (heapLength mps hp) (pkts.map GenPacket.bytes) i d ++ immediates w (wirePointers d)), -1, 0, 0, 0, 0⟩ := by
  have hsuf := suffix_of_heap hw hf hid
  obtain ⟨g, parts, hg, gok, rok⟩ := sends_spec hs hw hf
  obtain ⟨_, hh, hcc, hm, hpp, hn, hfp⟩ := gen_ok hp cnt mps g hg w hw hf
  obtain ⟨he, hsum⟩ := runOk_parts g w gok rok
  have hw1 := gok.w1
  have hw7 := gok.w7
  have e8 : hp.hab / 8 = w := by omega
  have hbytes : pkts.map GenPacket.bytes = packetSeq w cnt (heapLength mps hp) 0 parts := by
    rw [rok.bytes, hcc, hpp]
  rw [hpp] at hsum
  have hH : heapPtrs mps hp = itemPtrs w 0 hp.items ++ (if padded mps hp then [(realPayload (hp.hab / 8) hp.items).length] else []) := by
    unfold heapPtrs; rw [e8]
  have hpart : ∀ x ∈ parts, ∀ q ∈ x.1, q ∈ heapPtrs mps hp := by
    intro x hx q hq
    rw [← hfp]
    cases hr : g.heap.repeatPointers with
    | true => rw [rok.rep hr x hx] at hq; exact hq
    | false =>
      have := rok.once hr
      rw [List.drop_zero] at this
      rw [← this]
      exact List.mem_flatten.2 ⟨x.1, List.mem_map.2 ⟨x, hx, rfl⟩, hq⟩
  have hparts4 : ∀ x ∈ parts, 4 + x.1.length < 65536 := by
    intro x hx
    have h1 := rok.small x hx
    have h0 : 0 < x.2.length := List.length_pos_iff.2 (rok.nonempty x hx)
    have hm := gok.mps
    have : x.1.length ≤ g.total := by
      rw [← g.fullPtrs_length w]
      cases hr : g.heap.repeatPointers with
      | true => rw [rok.rep hr x hx]; exact Nat.le_refl _
      | false =>
        have := rok.once hr
        rw [List.drop_zero] at this
        rw [← this]
        exact (List.sublist_flatten_of_mem (List.mem_map.2 ⟨x, hx, rfl⟩)).length_le
    have := gok.count
    omega
  have hH64 : ∀ q ∈ heapPtrs mps hp, q < 2 ^ 64 := by rw [← hfp]; exact fullPtrs_lt g w gok
  have hplain := suffix_plain hsuf
  rw [← hH] at hplain
  have hcnt' : cnt < 2 ^ (8 * w) := by rw [← hcc]; exact gok.cnt
  have hlen' : heapLength mps hp < 2 ^ (8 * w) := by rw [← hpp]; exact gok.size
  have hmem : d ∈ pkts.map GenPacket.bytes := List.mem_of_getElem? hi
  have hw256 : (UInt8.ofNat w).toNat = w := by simp; omega
  rw [hbytes] at hi
  obtain ⟨x, hx, hdx, hox⟩ := packetSeq_get parts 0 i d hi (by omega)
  have hxm := List.mem_of_getElem? hx
  rw [Nat.zero_add] at hdx hox
  have htake : ((parts.take i).map (fun x => x.2.length)).sum =
      (((pkts.map GenPacket.bytes).take i).map (fun e => (wirePayload e).length)).sum := by
    rw [he, ← List.map_take, ← List.map_take, List.map_map, List.map_map]; rfl
  have hwire := wire_packetBytes (w := w) (cnt := cnt) (hlen := heapLength mps hp)
    (off := ((parts.take i).map (fun x => x.2.length)).sum) (ptrs := x.1) (payload := x.2) hw7 hcnt' hlen' (by omega) (by omega)
    (hparts4 x hxm) (fun q hq => hH64 q (hpart x hxm q hq))
  rw [← hdx] at hwire
  obtain ⟨table, ht, htl, him⟩ := hasTable_packetBytes (off := ((parts.take i).map (fun x => x.2.length)).sum) hw1 hw7 hcnt' hlen' hox
    (hparts4 x hxm) (fun q hq => hH64 q (hpart x hxm q hq))
  rw [← hdx] at ht
  obtain ⟨table2, wf, hl2, _⟩ := wf_packetBytes (off := ((parts.take i).map (fun x => x.2.length)).sum) hw1 hw7 hcnt' hlen' hox
    (hparts4 x hxm) (fun q hq => hH64 q (hpart x hxm q hq)) (fun q hq => (hplain q (hpart x hxm q hq)).1)
  rw [← hdx] at wf
  have hdl := (hasTable_facts ht).2.1
  have hdec := (C04_accept_iff d ⟨_, _, _, _, _, _, _, _⟩ _).2
    ⟨_, table2, x.2, cnt, _, _, wf, rfl, rfl, rfl, rfl, rfl, rfl, rfl, rfl, rfl⟩
  have hsz : 8 + 8 * table2.length + x.2.length = d.length := by omega
  rw [hsz] at hdec
  refine ⟨_, hdec, ?_⟩
  obtain ⟨aw', table', payload', rest', ht', _, _, hq⟩ := C81_place d _ _ hdec ids old ho
  obtain ⟨rfl, rfl, _⟩ := hasTable_unique ht ht'
  rw [hq, hw256, him, hwire.2.1]
  unfold packetItems
  rw [hwire.2.2, htake]

/-- C81 (heaps sent with repeated pointers): whichever packet of such a heap arrives first, the place callback sees all the
immediate items of the heap, next to the packet's own. -/
theorem C81_repeat (hp : SendHeap) (cnt mps w : Nat) (hw : hp.hab = 8 * w) (hf : Fits hp cnt mps) (hid : ∀ it ∈ hp.items, 4 < it.id)
    (hr : hp.repeatPointers = true)
    (pkts : List GenPacket) (hs : Sends hp cnt mps pkts) (i : Nat) (d : Bytes) (hi : (pkts.map GenPacket.bytes)[i]? = some d) (ids : List Nat)
    (old : PlaceData) (ho : old.items.length = ids.length) :
    ∃ h : PacketHeader, decodePacket d = some (some (h, d.length)) ∧
      fillPlace d h ids old = some ⟨d.length, requested ids
        (packetItems cnt (heapLength mps hp) (pkts.map GenPacket.bytes) i d ++ immediateItems w hp.items), -1, 0, 0, 0, 0⟩ := by
  obtain ⟨h, h1, h2⟩ := sent_place hp cnt mps w hw hf hid pkts hs i d hi ids old ho
  refine ⟨h, h1, ?_⟩
  obtain ⟨p, hpm, rfl⟩ := List.mem_map.1 (List.mem_of_getElem? hi)
  have hH : heapPtrs mps hp = itemPtrs w 0 hp.items ++ (if padded mps hp then [(realPayload (hp.hab / 8) hp.items).length] else []) := by
    unfold heapPtrs
    have e8 : hp.hab / 8 = w := by omega
    rw [e8]
  rw [h2, (C08_pointers hp cnt mps w hw hf pkts hs).2 hr p hpm, hH, immediates_items (suffix_of_heap hw hf hid)]

/-- C81 (other heaps): each immediate item is seen in exactly one of the packets. -/
theorem C81_once (hp : SendHeap) (cnt mps w : Nat) (hw : hp.hab = 8 * w) (hf : Fits hp cnt mps) (hid : ∀ it ∈ hp.items, 4 < it.id)
    (hr : hp.repeatPointers = false) (pkts : List GenPacket) (hs : Sends hp cnt mps pkts) :
    ∃ seen : List (List (Nat × Nat)), seen.length = pkts.length ∧ seen.flatten = immediateItems w hp.items ∧
      ∀ (i : Nat) (d : Bytes) (here : List (Nat × Nat)), (pkts.map GenPacket.bytes)[i]? = some d → seen[i]? = some here →
      ∀ (ids : List Nat) (old : PlaceData), old.items.length = ids.length →
        ∃ h : PacketHeader, decodePacket d = some (some (h, d.length)) ∧
          fillPlace d h ids old = some ⟨d.length, requested ids
            (packetItems cnt (heapLength mps hp) (pkts.map GenPacket.bytes) i d ++ here), -1, 0, 0, 0, 0⟩ := by
  refine ⟨pkts.map (fun p => immediates w (wirePointers p.bytes)), by simp, ?_, ?_⟩
  · have hH : heapPtrs mps hp = itemPtrs w 0 hp.items ++ (if padded mps hp then [(realPayload (hp.hab / 8) hp.items).length] else []) := by
      unfold heapPtrs
      have e8 : hp.hab / 8 = w := by omega
      rw [e8]
    rw [← immediates_items (suffix_of_heap hw hf hid), ← hH, ← (C08_pointers hp cnt mps w hw hf pkts hs).1 hr]
    clear hs hH
    induction pkts with
    | nil => rfl
    | cons p ps ih => rw [List.map_cons, List.flatten_cons, ih, List.flatMap_cons, immediates_append]
  · intro i d here hi hh ids old ho
    obtain ⟨h, h1, h2⟩ := sent_place hp cnt mps w hw hf hid pkts hs i d hi ids old ho
    refine ⟨h, h1, ?_⟩
    rw [h2]
    rw [List.getElem?_map] at hi hh
    cases hp : pkts[i]? with
    | none => rw [hp] at hi; simp at hi
    | some p =>
      rw [hp] at hi hh
      simp only [Option.map_some, Option.some.injEq] at hi hh
      rw [← hi, ← hh]

/-- The heap of C06 with repeated pointers; it needs packets of 104 bytes. -/
def repeatHeap : SendHeap := { sampleHeap with repeatPointers := true }

theorem repeatHeap_fits : Fits repeatHeap 5 104 where
  width := ⟨5, by decide⟩
  ids := by decide
  inline := sampleHeap_fits.inline
  cnt := by decide
  length := by decide
  count := by decide

example : (∃ pkts, Sends repeatHeap 5 104 pkts) ∧ (∃ pkts, Sends sampleHeap 5 64 pkts) ∧ (∀ it ∈ repeatHeap.items, 4 < it.id) ∧
    immediateItems 5 repeatHeap.items = [(0x1000, 77), (0x1001, 0x010203)] := by
  refine ⟨?_, ?_, by decide, by decide⟩
  · obtain ⟨p, hp, _⟩ := (C06_terminates_within_limit repeatHeap 5 104 5 rfl (by decide)).2.2 (by decide) (by decide)
    exact ⟨p, hp⟩
  · obtain ⟨p, hp, _⟩ := (C06_terminates_within_limit sampleHeap 5 64 5 rfl (by decide)).2.2 (by decide) (by decide)
    exact ⟨p, hp⟩

/-- C81 (storage): the structure, the array of items and the extra bytes are in the allocation, one after the other, without
overlap, and each where its type may be. -/
theorem C81_layout (structSize maxAlign nItems maxHeapExtra : Nat) (ha : 8 ∣ maxAlign) (h0 : 0 < maxAlign) (hm : maxAlign ≤ 2 ^ 16)
    (hs : structSize < 2 ^ 16) (hn : nItems < 2 ^ 59) (he : maxHeapExtra < 2 ^ 63) :
    let l := layout structSize maxAlign nItems maxHeapExtra
    structSize ≤ l.itemOffset ∧ l.itemOffset % 8 = 0 ∧ l.itemOffset + 8 * nItems ≤ l.extraOffset ∧ l.extraOffset % maxAlign = 0 ∧
      l.extraOffset + maxHeapExtra ≤ l.space ∧ l.space % maxAlign = 0 := by
  have key : ∀ size align : Nat, 0 < align → align ≤ 2 ^ 16 → size < 2 ^ 63 + 2 ^ 62 + 2 ^ 20 →
      size ≤ roundUp size align ∧ roundUp size align < size + align ∧ roundUp size align % align = 0 := by
    intro size align h0 h1 h2
    unfold roundUp
    rw [Nat.mod_eq_of_lt (by omega)]
    have hd := Nat.div_add_mod (size + align - 1) align
    have hlt := Nat.mod_lt (size + align - 1) h0
    have hc : (size + align - 1) / align * align = align * ((size + align - 1) / align) := Nat.mul_comm _ _
    rw [hc]
    refine ⟨by omega, by omega, Nat.mul_mod_right _ _⟩
  obtain ⟨a1, a2, a3⟩ := key structSize 8 (by omega) (by omega) (by omega)
  have m1 : (roundUp structSize 8 + nItems * 8) % 2 ^ 64 = roundUp structSize 8 + nItems * 8 := Nat.mod_eq_of_lt (by omega)
  obtain ⟨b1, b2, b3⟩ := key (roundUp structSize 8 + nItems * 8) maxAlign h0 hm (by omega)
  have m2 : (roundUp (roundUp structSize 8 + nItems * 8) maxAlign + maxHeapExtra) % 2 ^ 64 =
      roundUp (roundUp structSize 8 + nItems * 8) maxAlign + maxHeapExtra := Nat.mod_eq_of_lt (by omega)
  obtain ⟨c1, c2, c3⟩ := key (roundUp (roundUp structSize 8 + nItems * 8) maxAlign + maxHeapExtra) maxAlign h0 hm (by omega)
  unfold layout
  simp only [m1, m2]
  exact ⟨a1, a3, by omega, b3, c1, c3⟩

example : layout 80 16 3 10 = ⟨80, 112, 128⟩ := by decide

end Spead2.PlaceCb
