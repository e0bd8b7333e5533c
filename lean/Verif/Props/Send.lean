import Verif.Lemmas.Send
import Verif.Props.Wire

/-!
# C06–C09: packetising a heap

`Sends h cnt mps pkts` (Verif/Model/Send.lean): the generator for heap `h` is constructed without an
exception and run to its end, giving `pkts`. What should come out is described in Verif/Spec/Send.lean.
-/

namespace Spead2
open Spec

/-- A heap with an inline item, a small buffer, an empty buffer and two longer buffers. -/
def sampleHeap : SendHeap where
  hab := 40
  items := [⟨0x1000, .inline 77⟩, ⟨0x1001, .buffer [1, 2, 3] true⟩, ⟨0x1002, .buffer [] false⟩,
    ⟨0x1003, .buffer [4, 5, 6, 7, 8, 9, 10] false⟩, ⟨0x1004, .buffer (List.replicate 30 0xAA) true⟩]

theorem sampleHeap_fits : Fits sampleHeap 5 64 where
  width := ⟨5, by decide⟩
  ids := by decide
  inline := by
    intro it hit v hv
    simp only [sampleHeap, List.mem_cons, List.not_mem_nil, or_false] at hit
    rcases hit with rfl | rfl | rfl | rfl | rfl <;> simp at hv
    subst hv; decide
  cnt := by decide
  length := by decide
  count := by decide

/-- C06: the constructor throws exactly in the two documented cases, and otherwise the generator ends
after finitely many packets, each carrying payload and none longer than the limit. No assumption is made
about the values in the heap. -/
theorem C06_terminates_within_limit (h : SendHeap) (cnt mps w : Nat) (hw : h.hab = 8 * w) (hw7 : w ≤ 7) :
    (Gen.new h cnt mps = .error .tooSmall ↔ mps < 56) ∧
    (Gen.new h cnt mps = .error .tooSmallToRepeat ↔
      56 ≤ mps ∧ h.repeatPointers = true ∧ mps / 8 - 6 ≤ h.items.length) ∧
    (56 ≤ mps → (h.repeatPointers = true → h.items.length < mps / 8 - 6) →
      ∃ pkts, Sends h cnt mps pkts ∧ (∀ other, Sends h cnt mps other → other = pkts) ∧
        pkts.length ≤ heapLength mps h ∧
        ∀ p ∈ pkts, p.bytes.length ≤ mps ∧ 0 < p.pad + p.slices.flatten.length) := by
  rw [Gen.new_eq]
  refine ⟨?_, ?_, ?_⟩
  · split
    · simpa
    · split <;> simp <;> omega
  · split
    · simp; omega
    · split
      · rename_i h1 h2; exact iff_of_true rfl ⟨by omega, h2⟩
      · rename_i h1 h2; simp only [reduceCtorEq, false_iff, maxPointers] at h2 ⊢
        rintro ⟨_, hc⟩; exact h2 hc
  · intro h56 hrep
    obtain ⟨g, hg⟩ : ∃ g, Gen.new h cnt mps = .ok g := by
      rw [Gen.new_eq, if_neg (by omega), if_neg]
      · exact ⟨_, rfl⟩
      · rintro ⟨a, b⟩; have := hrep a; unfold maxPointers at b; omega
    have hg' := hg
    rw [Gen.new_eq, if_neg (by omega)] at hg'
    split at hg'
    · simp at hg'
    simp only [Except.ok.injEq] at hg'
    have hh : g.heap = h := by rw [← hg']
    have hm : g.maxPacketSize = mps / 8 * 8 := by rw [← hg']
    have hm2 : g.maxItemPointers = maxPointers mps := by rw [← hg']
    have hp : g.payloadSize = heapLength mps h := by rw [← hg']
    obtain ⟨pkts, st', r1, r2, r3, r4⟩ := run_size g w (by omega) (by rw [hh, hw])
      (by rw [hm, hm2]; unfold maxPointers; omega) g.payloadSize {} ⟨by simp, OffOk_zero _ _, by simp⟩ (by simp)
    refine ⟨pkts, ⟨g, _, st', hg, r1, r2⟩, fun o ho => sends_unique ho ⟨g, _, st', hg, r1, r2⟩, ?_, ?_⟩
    · rw [← hp]; simpa using r3
    · intro p hpm
      obtain ⟨a, b⟩ := r4 p hpm
      refine ⟨by omega, ?_⟩
      simpa [GenPacket.piece] using b

example : 56 ≤ 64 ∧ (sampleHeap.repeatPointers = true → sampleHeap.items.length < 64 / 8 - 6) := by decide

/-- C07: the packets are consecutive pieces of one heap: every packet announces heap cnt `cnt`, heap length
`heapLength mps h`, an offset equal to the total payload of the packets before it, and the length of the
payload bytes that really follow its item table (`packetSeq`, `packetBytes`); the payload lengths add up
to the heap length. -/
theorem C07_tiling (h : SendHeap) (cnt mps w : Nat) (hw : h.hab = 8 * w) (hf : Fits h cnt mps)
    (pkts : List GenPacket) (hs : Sends h cnt mps pkts) :
    let wire := pkts.map GenPacket.bytes
    wire = packetSeq w cnt (heapLength mps h) 0 (wire.map (fun d => (wirePointers d, wirePayload d))) ∧
    (wire.map (fun d => (wirePayload d).length)).sum = heapLength mps h ∧
    ∀ d ∈ wire, wirePayload d ≠ [] := by
  obtain ⟨g, parts, hg, ok, rok⟩ := sends_spec hs hw hf
  obtain ⟨_, hh, hc, hm, hp, hn, hfp⟩ := gen_ok h cnt mps g hg w hw hf
  obtain ⟨he, hsum⟩ := runOk_parts g w ok rok
  simp only [List.map_map, Function.comp_def]
  refine ⟨?_, ?_, ?_⟩
  · rw [rok.bytes, hc, hp, ← he]
  · rw [he, List.map_map, hp] at hsum; exact hsum
  · intro d hd
    obtain ⟨p, hpm, rfl⟩ := List.mem_map.1 hd
    exact rok.nonempty (wirePointers p.bytes, wirePayload p.bytes) (he ▸ List.mem_map.2 ⟨p, hpm, rfl⟩)

example : ∃ pkts, Sends sampleHeap 5 64 pkts := by
  obtain ⟨p, hp, _⟩ := (C06_terminates_within_limit sampleHeap 5 64 5 rfl (by decide)).2.2 (by decide) (by decide)
  exact ⟨p, hp⟩

/-- C08: what the pointers of the packets are. Without repetition the packets' pointer lists concatenate
to the heap's pointer list; with repetition every packet has the whole list. -/
theorem C08_pointers (h : SendHeap) (cnt mps w : Nat) (hw : h.hab = 8 * w) (hf : Fits h cnt mps)
    (pkts : List GenPacket) (hs : Sends h cnt mps pkts) :
    (h.repeatPointers = false → pkts.flatMap (fun p => wirePointers p.bytes) = heapPtrs mps h) ∧
    (h.repeatPointers = true → ∀ p ∈ pkts, wirePointers p.bytes = heapPtrs mps h) := by
  obtain ⟨g, parts, hg, ok, rok⟩ := sends_spec hs hw hf
  obtain ⟨_, hh, hc, hm, hp, hn, hfp⟩ := gen_ok h cnt mps g hg w hw hf
  obtain ⟨he, hsum⟩ := runOk_parts g w ok rok
  refine ⟨fun hr => ?_, fun hr p hpm => ?_⟩
  · have := rok.once (by rw [hh]; exact hr)
    rw [he, List.map_map, List.drop_zero, hfp] at this
    rw [← this, List.flatMap_def]; rfl
  · have := rok.rep (by rw [hh]; exact hr) (wirePointers p.bytes, wirePayload p.bytes) (he ▸ List.mem_map.2 ⟨p, hpm, rfl⟩)
    rw [← hfp]; exact this

/-- C08 (what the list is): one pointer per item, in order, carrying the item's id; immediate pointers
carry the value, addressed pointers the position of the item's bytes in the concatenated payload. At most
one further pointer follows, with id 0 and the end of the real payload as address. -/
theorem C08_pointer_of_item (h : SendHeap) (cnt mps w : Nat) (hw : h.hab = 8 * w) (hf : Fits h cnt mps) :
    ((heapPtrs mps h).length = h.items.length ∨
      ((heapPtrs mps h).length = h.items.length + 1 ∧ ∀ p, (heapPtrs mps h)[h.items.length]? = some p →
        ¬ ptrImmediate p ∧ ptrId w p = 0 ∧ ptrValue w p = (realPayload w h.items).length)) ∧
    ∀ (i : Nat) (it : SendItem), h.items[i]? = some it → ∃ p, (heapPtrs mps h)[i]? = some p ∧ ptrId w p = it.id ∧
      match it.value with
      | .inline v => ptrImmediate p ∧ ptrValue w p = v
      | .buffer b allow =>
        if allow = true ∧ b.length ≤ w then ptrImmediate p ∧ ptrValue w p = beNat b
        else ¬ ptrImmediate p ∧ ((realPayload w h.items).drop (ptrValue w p)).take b.length = b := by
  obtain ⟨w', hw1, hw7, hww⟩ := hf.width
  have : w' = w := by omega
  subst this
  have e8 : h.hab / 8 = w' := by omega
  have hpow : 2 ^ 63 = 2 ^ (8 * w') * 2 ^ (63 - 8 * w') := by rw [← Nat.pow_add]; congr 1; omega
  have himm : ∀ id v, id < 2 ^ (63 - 8 * w') → v < 2 ^ (8 * w') →
      ptrImmediate (2 ^ 63 + id * 2 ^ (8 * w') + v) ∧ ptrId w' (2 ^ 63 + id * 2 ^ (8 * w') + v) = id ∧
      ptrValue w' (2 ^ 63 + id * 2 ^ (8 * w') + v) = v := by
    intro id v hid hv
    have e : 2 ^ 63 + id * 2 ^ (8 * w') + v = v + 2 ^ (8 * w') * (2 ^ (63 - 8 * w') + id) := by
      rw [hpow, Nat.mul_add, Nat.mul_comm id]; omega
    refine ⟨by unfold ptrImmediate; omega, ?_, ?_⟩
    · unfold ptrId
      rw [e, Nat.add_mul_div_left _ _ (Nat.two_pow_pos _), Nat.div_eq_of_lt hv, Nat.zero_add,
        Nat.add_mod_left, Nat.mod_eq_of_lt hid]
    · unfold ptrValue
      rw [e, Nat.add_mul_mod_self_left, Nat.mod_eq_of_lt hv]
  have hadr : ∀ id v, id < 2 ^ (63 - 8 * w') → v < 2 ^ (8 * w') →
      ¬ ptrImmediate (id * 2 ^ (8 * w') + v) ∧ ptrId w' (id * 2 ^ (8 * w') + v) = id ∧
      ptrValue w' (id * 2 ^ (8 * w') + v) = v := by
    intro id v hid hv
    have e : id * 2 ^ (8 * w') + v = v + 2 ^ (8 * w') * id := by rw [Nat.mul_comm]; omega
    refine ⟨?_, ?_, ?_⟩
    · unfold ptrImmediate
      have : 2 ^ (8 * w') * (id + 1) ≤ 2 ^ (8 * w') * 2 ^ (63 - 8 * w') := Nat.mul_le_mul_left _ hid
      rw [← hpow, Nat.mul_succ] at this
      omega
    · unfold ptrId
      rw [e, Nat.add_mul_div_left _ _ (Nat.two_pow_pos _), Nat.div_eq_of_lt hv, Nat.zero_add, Nat.mod_eq_of_lt hid]
    · unfold ptrValue
      rw [e, Nat.add_mul_mod_self_left, Nat.mod_eq_of_lt hv]
  have hrl : (realPayload w' h.items).length < 2 ^ (8 * w') := by
    have := hf.length
    unfold heapLength at this
    rw [e8, hw] at this
    omega
  constructor
  · unfold heapPtrs
    rw [e8]
    by_cases hp : padded mps h
    · right
      rw [if_pos hp]
      refine ⟨by simp [itemPtrs_length], ?_⟩
      intro p hpe
      rw [List.getElem?_append_right (by rw [itemPtrs_length]; omega)] at hpe
      simp [itemPtrs_length] at hpe
      subst hpe
      have := hadr 0 _ (Nat.two_pow_pos _) hrl
      simpa using this
    · left
      rw [if_neg hp]; simp [itemPtrs_length]
  · intro i it hit
    have hlt : i < h.items.length := (List.getElem?_eq_some_iff.1 hit).1
    have hmem : it ∈ h.items := List.mem_of_getElem? hit
    have hid := hf.ids it hmem
    rw [hw] at hid
    have htk : h.items.take (i + 1) = h.items.take i ++ [it] := by
      rw [List.take_succ_eq_append_getElem hlt, (List.getElem?_eq_some_iff.1 hit).2]
    have hreal : realPayload w' h.items = realPayload w' (h.items.take i) ++ (itemPayload w' it ++
        realPayload w' (h.items.drop (i + 1))) := by
      conv => lhs; rw [← List.take_append_drop (i + 1) h.items, htk]
      simp [realPayload_append]
    refine ⟨itemPtr w' (realPayload w' (h.items.take i)).length it, ?_, ?_⟩
    · unfold heapPtrs
      rw [e8, List.getElem?_append_left (by rw [itemPtrs_length]; omega), itemPtrs_getElem?, hit]
      simp
    · have hle := take_real_le w' h.items i
      unfold itemPtr
      cases hv : it.value with
      | inline v =>
        have hvv := hf.inline it hmem v hv
        rw [hw] at hvv
        have := himm it.id v hid hvv
        exact ⟨this.2.1, this.1, this.2.2⟩
      | buffer b allow =>
        simp only
        by_cases hc : allow = true ∧ b.length ≤ w'
        · rw [if_pos hc, if_pos hc]
          have hb : beNat b < 2 ^ (8 * w') := by
            rw [← pow256_eq]
            exact Nat.lt_of_lt_of_le (beNat_lt b) (Nat.pow_le_pow_right (by omega) hc.2)
          have := himm it.id (beNat b) hid hb
          exact ⟨this.2.1, this.1, this.2.2⟩
        · rw [if_neg hc, if_neg hc]
          have := hadr it.id (realPayload w' (h.items.take i)).length hid (by omega)
          refine ⟨this.2.1, this.1, ?_⟩
          rw [this.2.2, hreal, List.drop_left]
          have hib : itemPayload w' it = b := by unfold itemPayload; rw [hv]; simp only; rw [if_neg hc]
          rw [hib, List.take_left]

/-- C09, the full property: the concatenated packet payloads are the items' bytes followed by zeros. -/
def C09_statement : Prop :=
  ∀ (h : SendHeap) (cnt mps w : Nat) (pkts : List GenPacket), h.hab = 8 * w → Fits h cnt mps → Sends h cnt mps pkts →
    pkts.flatMap (fun p => wirePayload p.bytes) = realPayload w h.items ++
      List.replicate (heapLength mps h - (realPayload w h.items).length) 0

theorem wire_payload {h : SendHeap} {cnt mps w : Nat} (hw : h.hab = 8 * w) (hf : Fits h cnt mps)
    {pkts : List GenPacket} (hs : Sends h cnt mps pkts) :
    ∃ g : Gen, g.heap = h ∧ g.needNull = decide (padded mps h) ∧ g.payloadSize = heapLength mps h ∧
      pkts.flatMap (fun p => wirePayload p.bytes) = g.wire w := by
  obtain ⟨g, parts, hg, ok, rok⟩ := sends_spec hs hw hf
  obtain ⟨_, hh, hc, hm, hp, hn, hfp⟩ := gen_ok h cnt mps g hg w hw hf
  obtain ⟨he, hsum⟩ := runOk_parts g w ok rok
  refine ⟨g, hh, hn, hp, ?_⟩
  have := rok.payload
  rw [he, List.map_map, List.drop_zero] at this
  rw [← this, List.flatMap_def]; rfl

/-- C09 for every heap that needs no padding, or whose real payload is a multiple of 8 bytes (in
particular empty): the concatenated packet payloads are the items' bytes followed by zero padding.
Missing: padded heaps with any other payload length, for which the code is wrong
(`C09_violated`, `C09_actual_payload`). -/
theorem C09_payload_partial (h : SendHeap) (cnt mps w : Nat) (hw : h.hab = 8 * w) (hf : Fits h cnt mps)
    (pkts : List GenPacket) (hs : Sends h cnt mps pkts)
    (hgood : minPayload mps h ≤ (realPayload w h.items).length ∨ (realPayload w h.items).length % 8 = 0) :
    pkts.flatMap (fun p => wirePayload p.bytes) = realPayload w h.items ++
      List.replicate (heapLength mps h - (realPayload w h.items).length) 0 := by
  have e8 : h.hab / 8 = w := by omega
  obtain ⟨g, hh, hn, hp, he⟩ := wire_payload hw hf hs
  rw [he]
  unfold Gen.wire
  rw [hh, hn, hp]
  by_cases hpd : padded mps h
  · have h0 : (realPayload w h.items).length % 8 = 0 := by
      unfold padded at hpd; rw [e8] at hpd; omega
    simp only [hpd, decide_true, if_true]
    rw [h0, show (realPayload w h.items).length / 8 * 8 = (realPayload w h.items).length by omega]
    simp
  · simp only [hpd, decide_false]
    unfold padded at hpd
    rw [e8] at hpd
    rw [show heapLength mps h - (realPayload w h.items).length = 0 by unfold heapLength; rw [e8]; omega]
    simp

example : minPayload 64 sampleHeap ≤ (realPayload 5 sampleHeap.items).length := by decide

/-- C09: what the code sends in the remaining case, for every heap: with `n` the real payload length
(padded heap, `n % 8 ≠ 0`) the zero padding that completes the packet is sent *before* the last `n % 8`
bytes of the real payload. -/
theorem C09_actual_payload (h : SendHeap) (cnt mps w : Nat) (hw : h.hab = 8 * w) (hf : Fits h cnt mps)
    (pkts : List GenPacket) (hs : Sends h cnt mps pkts)
    (hbad : (realPayload w h.items).length < minPayload mps h ∧ (realPayload w h.items).length % 8 ≠ 0) :
    let real := realPayload w h.items
    let n := real.length
    pkts.flatMap (fun p => wirePayload p.bytes) =
      real.take (n / 8 * 8) ++ List.replicate (8 - n % 8) 0 ++ real.drop (n / 8 * 8) ++
        List.replicate (heapLength mps h - (n / 8 * 8 + 8)) 0 := by
  have e8 : h.hab / 8 = w := by omega
  obtain ⟨g, hh, hn, hp, he⟩ := wire_payload hw hf hs
  simp only [he]
  unfold Gen.wire
  have hpd : padded mps h := by unfold padded; rw [e8]; exact hbad.1
  rw [hh, hn, hp]
  simp only [hpd, decide_true, if_true]
  rw [show (8 - (realPayload w h.items).length % 8) % 8 = 8 - (realPayload w h.items).length % 8 by omega]
  rw [show heapLength mps h - (realPayload w h.items).length - (8 - (realPayload w h.items).length % 8) =
    heapLength mps h - ((realPayload w h.items).length / 8 * 8 + 8) by omega]
  simp

/-- The heap that shows it: one 3-byte item and two inline items with a 64-byte packet limit. -/
def paddingHeap : SendHeap where
  hab := 40
  items := [⟨0x1000, .buffer [1, 2, 3] false⟩, ⟨0x1001, .inline 1⟩, ⟨0x1002, .inline 2⟩]

theorem paddingHeap_fits : Fits paddingHeap 1 64 where
  width := ⟨5, by decide⟩
  ids := by decide
  inline := by
    intro it hit v hv
    simp only [paddingHeap, List.mem_cons, List.not_mem_nil, or_false] at hit
    rcases hit with rfl | rfl | rfl <;> simp at hv <;> subst hv <;> decide
  cnt := by decide
  length := by decide
  count := by decide

/-- C09 does not hold of the code: the payload sent for `paddingHeap` is `00 00 00 00 00 01 02 03 00`. -/
theorem C09_violated : ¬ C09_statement := by
  intro hall
  obtain ⟨pkts, hs, _⟩ := (C06_terminates_within_limit paddingHeap 1 64 5 rfl (by decide)).2.2 (by decide) (by decide)
  have h1 := hall paddingHeap 1 64 5 pkts rfl paddingHeap_fits hs
  rw [C09_actual_payload paddingHeap 1 64 5 rfl paddingHeap_fits pkts hs (by decide)] at h1
  revert h1
  decide +kernel

/-- C06–C09 (assertions): for a heap without padding, or whose items all travel in their pointers, none of
the generator's `assert`s fails on any packet. -/
theorem C06_asserts_hold (h : SendHeap) (cnt mps w : Nat) (hw : h.hab = 8 * w) (hf : Fits h cnt mps)
    (pkts : List GenPacket) (hs : Sends h cnt mps pkts)
    (hc : minPayload mps h ≤ (realPayload w h.items).length ∨ ∀ it ∈ h.items, useImmediate it w = true) :
    ∀ p ∈ pkts, p.assertsOk = true := by
  obtain ⟨g, parts, hg, ok, rok⟩ := sends_spec hs hw hf
  obtain ⟨_, hh, _, hm, hp, hn, hfp⟩ := gen_ok h cnt mps g hg w hw hf
  apply rok.asserts
  rcases hc with hc | hc
  · left
    rw [hn]
    simp only [decide_eq_false_iff_not]
    unfold padded
    rw [show h.hab / 8 = w by omega]
    omega
  · right; rw [hh]; exact hc

end Spead2
