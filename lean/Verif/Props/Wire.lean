import Verif.Model.Wire
import Verif.Spec.Wire
import Verif.Lemmas.Pointer
import Verif.Lemmas.Decode

/-!
# Properties C01–C05: wire format
-/

namespace Spead2
open Spec

/-! ## C01 -/

/-- C01 (immediate pointers): layout and round trip. -/
theorem C01_immediate_roundtrip (hab id v : Nat) (hh : hab < 64) (hid : id < 2 ^ (63 - hab)) (hv : v < 2 ^ hab) :
    encodeImmediate hab id v = 2 ^ 63 + id * 2 ^ hab + v ∧
    encodeImmediate hab id v < 2 ^ 64 ∧
    isImmediate (encodeImmediate hab id v) = true ∧
    getId hab (encodeImmediate hab id v) = id ∧
    getImmediate hab (encodeImmediate hab id v) = v :=
  ⟨by rw [encodeImmediate_eq hh hid hv]; omega, encodeImmediate_lt hh hid hv,
   isImmediate_encodeImmediate hh hid hv, getId_encodeImmediate hh hid hv,
   getImmediate_encodeImmediate hh hid hv⟩

/-- C01 (addressed pointers): layout and round trip. -/
theorem C01_address_roundtrip (hab id a : Nat) (hh : hab < 64) (hid : id < 2 ^ (63 - hab)) (ha : a < 2 ^ hab) :
    encodeAddress hab id a = id * 2 ^ hab + a ∧
    encodeAddress hab id a < 2 ^ 64 ∧
    isImmediate (encodeAddress hab id a) = false ∧
    getId hab (encodeAddress hab id a) = id ∧
    getAddress hab (encodeAddress hab id a) = a :=
  ⟨encodeAddress_eq hh hid ha, by have := encodeAddress_lt hh hid ha; omega,
   isImmediate_encodeAddress hh hid ha, getId_encodeAddress hh hid ha, getAddress_encodeAddress hh hid ha⟩

/-- C01 (completeness): every 64-bit word is the encoding of the fields it decodes to, so the codec is a
bijection and different triples never share a wire value. -/
theorem C01_decode_encode (hab p : Nat) (hh : hab < 64) (hp : p < 2 ^ 64) :
    getId hab p < 2 ^ (63 - hab) ∧ getAddress hab p < 2 ^ hab ∧
    p = if isImmediate p then encodeImmediate hab (getId hab p) (getImmediate hab p)
        else encodeAddress hab (getId hab p) (getAddress hab p) := by
  have hid : getId hab p < 2 ^ (63 - hab) := by rw [getId_eq]; exact Nat.mod_lt _ (Nat.two_pow_pos _)
  have ha : getAddress hab p < 2 ^ hab := by rw [getAddress_eq]; exact Nat.mod_lt _ (Nat.two_pow_pos _)
  refine ⟨hid, ha, ?_⟩
  have e : 2 ^ 63 = 2 ^ hab * 2 ^ (63 - hab) := by rw [← Nat.pow_add]; congr 1; omega
  have hlow : getId hab p * 2 ^ hab + getAddress hab p = p % 2 ^ 63 := by
    rw [getId_eq, getAddress_eq, e, Nat.mod_mul, Nat.mul_comm, Nat.add_comm]
  split
  · rename_i him
    rw [isImmediate_iff] at him
    rw [encodeImmediate_eq hh hid (v := getImmediate hab p) ha]
    have : getImmediate hab p = getAddress hab p := rfl
    rw [this, hlow]; omega
  · rename_i him
    rw [isImmediate_iff] at him
    rw [encodeAddress_eq hh hid ha, hlow]; omega

/-- C01 (no aliasing): equal wire values come from equal (mode, id, value). -/
theorem C01_injective (hab id v id' v' : Nat) (hh : hab < 64) (hid : id < 2 ^ (63 - hab)) (hv : v < 2 ^ hab)
    (hid' : id' < 2 ^ (63 - hab)) (hv' : v' < 2 ^ hab) :
    (encodeImmediate hab id v = encodeImmediate hab id' v' → id = id' ∧ v = v') ∧
    (encodeAddress hab id v = encodeAddress hab id' v' → id = id' ∧ v = v') ∧
    encodeImmediate hab id v ≠ encodeAddress hab id' v' := by
  refine ⟨fun h => ?_, fun h => ?_, fun h => ?_⟩
  · have a := congrArg (getId hab) h
    have b := congrArg (getImmediate hab) h
    rw [getId_encodeImmediate hh hid hv, getId_encodeImmediate hh hid' hv'] at a
    rw [getImmediate_encodeImmediate hh hid hv, getImmediate_encodeImmediate hh hid' hv'] at b
    exact ⟨a, b⟩
  · have a := congrArg (getId hab) h
    have b := congrArg (getAddress hab) h
    rw [getId_encodeAddress hh hid hv, getId_encodeAddress hh hid' hv'] at a
    rw [getAddress_encodeAddress hh hid hv, getAddress_encodeAddress hh hid' hv'] at b
    exact ⟨a, b⟩
  · have a := congrArg isImmediate h
    rw [isImmediate_encodeImmediate hh hid hv, isImmediate_encodeAddress hh hid' hv'] at a
    simp at a

/-- Non-vacuity: a SPEAD-64-40 pointer with large fields. -/
example : (40 < 64 ∧ 0x7fffff < 2 ^ (63 - 40) ∧ 0x123456789a < 2 ^ 40) ∧
    getId 40 (encodeImmediate 40 0x7fffff 0x123456789a) = 0x7fffff := by decide

/-! ## C02 -/

/-- C02: a flavour can be constructed exactly for version 4, 64-bit pointers and a heap address width that
is one of 8, 16, ..., 56; it then reports that width and bug-compat mask; otherwise it throws. -/
theorem C02_flavour_valid (version ipb hab : Int) (bc : Nat) :
    ((∃ f, Flavour.mk? version ipb hab bc = .ok f) ↔
      (version = 4 ∧ ipb = 64 ∧ ∃ k : Nat, 1 ≤ k ∧ k ≤ 7 ∧ hab = 8 * k)) ∧
    (∀ f, Flavour.mk? version ipb hab bc = .ok f → f.heapAddressBits = hab ∧ f.bugCompat = bc) := by
  unfold Flavour.mk?
  constructor
  · constructor
    · rintro ⟨f, hf⟩
      split at hf
      · simp at hf
      split at hf
      · simp at hf
      split at hf
      · simp at hf
      split at hf
      · simp at hf
      rename_i h1 h2 h3 h4
      rw [Int.tmod_eq_emod_of_nonneg (by omega)] at h4
      exact ⟨by omega, by omega, (hab / 8).toNat, by omega, by omega, by omega⟩
    · rintro ⟨rfl, rfl, k, h1, h2, rfl⟩
      rw [if_neg (by omega), if_neg (by omega), if_neg (by omega),
        if_neg (by rw [Int.tmod_eq_emod_of_nonneg (by omega)]; omega)]
      exact ⟨_, rfl⟩
  · intro f hf
    split at hf
    · simp at hf
    split at hf
    · simp at hf
    split at hf
    · simp at hf
    split at hf
    · simp at hf
    simp only [Except.ok.injEq] at hf
    subst hf
    exact ⟨rfl, rfl⟩

example : ∃ f, Flavour.mk? 4 64 48 0 = .ok f := ⟨_, rfl⟩
example : Flavour.mk? 4 64 64 0 = .error .addressRange := rfl

/-! ## C03 -/

/-- C03: decoding any datagram performs no out-of-bounds read, and an accepted header describes an item
table and a payload inside the datagram. -/
theorem C03_decode_safe (d : Bytes) :
    getPacketSize d ≠ none ∧ decodePacket d ≠ none ∧
    ∀ h size, decodePacket d = some (some (h, size)) →
      8 ≤ h.pointers ∧ h.payload = h.pointers + 8 * h.nItems ∧
      0 ≤ h.payloadLength ∧ 0 ≤ h.payloadOffset ∧ 0 ≤ h.heapCnt ∧
      (h.payload : Int) + h.payloadLength = size ∧ size ≤ d.length ∧
      h.heapAddressBits ∈ [8, 16, 24, 32, 40, 48, 56] := by
  by_cases h8 : d.length < 8
  · simp [getPacketSize, decodePacket, h8]
  · rcases datagram_cases d (by omega) with ⟨hd, hn⟩ | ⟨hab, n, hd, hl, hn⟩ | ⟨aw, table, rest, ht⟩
    · simp [getPacketSize, decodePacket, h8, hd]
    · simp [getPacketSize, decodePacket, h8, hd, hl]
    · rw [getPacketSize_table ht, decodePacket_table ht]
      refine ⟨by simp, by simp, ?_⟩
      obtain ⟨f1, f2, f3, f4, f5, f6⟩ := hasTable_facts ht
      intro h size hh
      simp only [Option.some.injEq] at hh
      have hfr : (table.takeWhile (fun p => isPacketItem aw.toNat p)).length ≤ table.length :=
        List.Sublist.length_le (List.takeWhile_sublist _)
      split at hh
      · split at hh
        · simp at hh
        split at hh
        · simp at hh
        simp only [Option.some.injEq, Prod.mk.injEq] at hh
        obtain ⟨rfl, rfl⟩ := hh
        have hw : 8 * aw.toNat ∈ [8, 16, 24, 32, 40, 48, 56] := by
          simp only [List.mem_cons, List.not_mem_nil, or_false]; omega
        refine ⟨?_, ?_, ?_, ?_, ?_, ?_, ?_, hw⟩ <;> (try simp only) <;> omega
      · simp at hh

/-! ## C04 -/

/-- C04: `decode_packet` accepts exactly the well-formed packets, and reports their contents: the
packet-level fields, the item pointers that follow the leading packet-level items, the position of the
payload and the total size. -/
theorem C04_accept_iff (d : Bytes) (h : PacketHeader) (size : Nat) :
    decodePacket d = some (some (h, size)) ↔
    ∃ aw table payload cnt off hlen, WellFormed d aw table payload cnt off hlen ∧
      h.heapAddressBits = 8 * aw.toNat ∧ h.heapCnt = cnt ∧ h.heapLength = optField hlen ∧
      h.payloadOffset = off ∧ h.payloadLength = payload.length ∧
      h.pointers = 8 + 8 * (table.takeWhile (fun p => isPacketItem aw.toNat p)).length ∧
      h.nItems = (table.dropWhile (fun p => isPacketItem aw.toNat p)).length ∧
      h.payload = 8 + 8 * table.length ∧ size = 8 + 8 * table.length + payload.length := by
  have key : ∀ (table : List Nat) (aw : UInt8), table.length =
      (table.takeWhile (fun p => isPacketItem aw.toNat p)).length +
      (table.dropWhile (fun p => isPacketItem aw.toNat p)).length := by
    intro table aw
    rw [← List.length_append, List.takeWhile_append_dropWhile]
  constructor
  · intro hd
    by_cases h8 : d.length < 8
    · simp [decodePacket, h8] at hd
    rcases datagram_cases d (by omega) with ⟨hh, hn⟩ | ⟨hab, n, hh, hl, hn⟩ | ⟨aw, table, rest, ht⟩
    · simp [decodePacket, h8, hh] at hd
    · simp [decodePacket, h8, hh, hl] at hd
    · rw [decodePacket_table ht] at hd
      simp only [Option.some.injEq] at hd
      have hk := key table aw
      cases c1 : lastImm aw.toNat 1 table with
      | none => rw [c1] at hd; simp at hd
      | some cnt =>
        cases c3 : lastImm aw.toNat 3 table with
        | none => rw [c1, c3] at hd; simp at hd
        | some off =>
          cases c4 : lastImm aw.toNat 4 table with
          | none => rw [c1, c3, c4] at hd; simp at hd
          | some len =>
            rw [c1, c3, c4] at hd
            simp only at hd
            split at hd
            · simp at hd
            split at hd
            · simp at hd
            rename_i hs hov
            simp only [Option.some.injEq, Prod.mk.injEq] at hd
            obtain ⟨rfl, rfl⟩ := hd
            have hlen : (rest.take len).length = len := by simp; omega
            refine ⟨aw, table, rest.take len, cnt, off, lastImm aw.toNat 2 table, ?_, ?_⟩
            · refine ⟨⟨rest.drop len, by rwa [List.take_append_drop]⟩, c1, rfl, c3, by rw [c4, hlen], ?_⟩
              intro hl hhl
              rw [hlen]
              apply Nat.le_of_not_lt
              intro hlt
              exact hov ⟨hl, hhl, hlt⟩
            · rw [hlen]
              refine ⟨rfl, rfl, rfl, rfl, rfl, ?_, ?_, rfl, ?_⟩ <;> (try simp only) <;> omega
  · rintro ⟨aw, table, payload, cnt, off, hlen, wf, e1, e2, e3, e4, e5, e6, e7, e8, e9⟩
    obtain ⟨rest, ht⟩ := wf.layout
    have hk := key table aw
    rw [decodePacket_table ht, wf.heapCnt, wf.payloadOffset, wf.payloadLength]
    simp only
    rw [if_neg (by simp), if_neg ?_]
    · rw [wf.heapLength]
      congr 2
      rw [Prod.mk.injEq]
      constructor
      · cases h
        simp only at *
        subst e1 e2 e3 e4 e5 e6 e7 e8
        congr 1
        · omega
        · omega
      · omega
    · rintro ⟨hl, h1, h2⟩
      rw [wf.heapLength] at h1
      have := wf.fits hl h1
      omega

/-- C04 (rejection): a datagram is rejected exactly when it is not a well-formed packet. -/
theorem C04_reject_iff (d : Bytes) :
    decodePacket d = some none ↔ ¬ ∃ aw table payload cnt off hlen, WellFormed d aw table payload cnt off hlen := by
  constructor
  · intro hd
    rintro ⟨aw, table, payload, cnt, off, hlen, wf⟩
    have := (C04_accept_iff d ⟨_, _, _, _, _, _, _, _⟩ _).2
      ⟨aw, table, payload, cnt, off, hlen, wf, rfl, rfl, rfl, rfl, rfl, rfl, rfl, rfl, rfl⟩
    rw [hd] at this
    simp at this
  · intro hn
    cases hd : decodePacket d with
    | none => exact absurd hd (C03_decode_safe d).2.1
    | some r =>
      cases r with
      | none => rfl
      | some r =>
        obtain ⟨h, size⟩ := r
        obtain ⟨aw, table, payload, cnt, off, hlen, wf, _⟩ := (C04_accept_iff d h size).1 hd
        exact absurd ⟨aw, table, payload, cnt, off, hlen, wf⟩ hn

/-- A concrete packet: SPEAD-64-40, heap cnt 7, no heap length, payload offset 0, payload length 2, one
immediate item 0x1000. -/
def samplePacket : Bytes :=
  [0x53, 4, 3, 5, 0, 0, 0, 4] ++ beBytes 8 (encodeImmediate 40 1 7) ++ beBytes 8 (encodeImmediate 40 3 0) ++
  beBytes 8 (encodeImmediate 40 4 2) ++ beBytes 8 (encodeImmediate 40 0x1000 99) ++ [0xaa, 0xbb]

/-- Non-vacuity of C03/C04: the sample packet is accepted (trailing bytes allowed). -/
example : decodePacket (samplePacket ++ [1, 2, 3]) =
    some (some (⟨40, 1, 7, -1, 0, 2, 32, 40⟩, 42)) := by decide +kernel

/-! ## C05 -/

/-- C05 (stability): a verdict of `get_packet_size` other than "need more data" never changes when more
bytes arrive. -/
theorem C05_stable (d e : Bytes) (r : Int) (h : getPacketSize d = some r) (hr : r ≠ 0) :
    getPacketSize (d ++ e) = some r := by
  by_cases h8 : d.length < 8
  · simp [getPacketSize, h8] at h; omega
  rcases datagram_cases d (by omega) with ⟨hh, hn⟩ | ⟨hab, n, hh, hl, hn⟩ | ⟨aw, table, rest, ht⟩
  · have h' : decodeHeader (d ++ e) = some none := by
      obtain ⟨m0, m1, iw, aw, r0, r1, n0, n1, rest, rfl⟩ := exists_eight (d := d) (by omega)
      rw [List.append_assoc, decodeHeader_bytes]
      rwa [decodeHeader_bytes] at hh
    have h8' : ¬ (d ++ e).length < 8 := by simp; omega
    simp only [getPacketSize, h8, hh, h8', h'] at h ⊢
    exact h
  · simp [getPacketSize, h8, hh, hl] at h; omega
  · have ht' : HasTable (d ++ e) aw table (rest ++ e) := by
      obtain ⟨iw, r0, r1, he, g⟩ := ht
      exact ⟨iw, r0, r1, by rw [he]; simp, g⟩
    rw [getPacketSize_table ht] at h
    rw [getPacketSize_table ht', h]

/-- C05 ("need more" is honest): the verdict 0 is given only for a strict prefix of something that gets a
verdict. -/
theorem C05_zero_means_more (d : Bytes) (h : getPacketSize d = some 0) :
    (∃ e, getPacketSize (d ++ e) ≠ some 0) ∧
    (d.length < 8 ∨ ∃ hab n, decodeHeader d = some (some (hab, n)) ∧ d.length < 8 * n + 8) := by
  have nz : ∀ (d : Bytes) aw table rest, HasTable d aw table rest → getPacketSize d ≠ some 0 := by
    intro d aw table rest ht
    rw [getPacketSize_table ht]
    split
    · simp
    · intro h; have h := Option.some.inj h; have h2 : (_ : Nat) = 0 := Int.ofNat_eq_zero.1 h; omega
  constructor
  · refine ⟨List.replicate (8 * 65535 + 8) 0, ?_⟩
    generalize hD : d ++ List.replicate (8 * 65535 + 8) (0 : UInt8) = D
    have hlen : D.length = d.length + (8 * 65535 + 8) := by
      rw [← hD, List.length_append, List.length_replicate]
    rcases datagram_cases D (by omega) with ⟨hh, hn⟩ | ⟨hab, n, hh, hl, hn⟩ | ⟨aw, table, rest, ht⟩
    · have h8 : ¬ D.length < 8 := by omega
      simp [getPacketSize, h8, hh]
    · obtain ⟨_, _, _, _, _, _, _, _, _, _, hlt⟩ := decodeHeader_inv (by omega) hh
      omega
    · exact nz _ _ _ _ ht
  · by_cases h8 : d.length < 8
    · exact Or.inl h8
    · rcases datagram_cases d (by omega) with ⟨hh, hn⟩ | ⟨hab, n, hh, hl, hn⟩ | ⟨aw, table, rest, ht⟩
      · simp [getPacketSize, h8, hh] at h
      · exact Or.inr ⟨hab, n, hh, by omega⟩
      · exact absurd h (nz _ _ _ _ ht)

/-- C05 (agreement): if the item table has one payload-length item, the predicted size `n` is what
decoding consumes: decoding the `n` bytes either rejects or consumes exactly `n`; and whenever any
extension of the data is accepted, the accepted size is the predicted one. -/
theorem C05_agrees (d : Bytes) (aw : UInt8) (table : List Nat) (rest : Bytes) (ht : HasTable d aw table rest)
    (huniq : (table.filter (fun p => ptrImmediate p ∧ ptrId aw.toNat p = 4)).length ≤ 1)
    (n : Nat) (hn : getPacketSize d = some (n : Int)) :
    (n ≤ d.length → decodePacket (d.take n) = some none ∨ ∃ h, decodePacket (d.take n) = some (some (h, n))) ∧
    (∀ e h size, decodePacket (d ++ e) = some (some (h, size)) → size = n) := by
  have heq : firstImm aw.toNat 4 table = lastImm aw.toNat 4 table := by
    unfold firstImm lastImm
    match hf : table.filter (fun p => ptrImmediate p ∧ ptrId aw.toNat p = 4), huniq with
    | [], _ => rfl
    | [a], _ => rfl
    | a :: b :: l, hu => simp at hu
  rw [getPacketSize_table ht] at hn
  cases hf : firstImm aw.toNat 4 table with
  | none => rw [hf] at hn; simp only [Option.some.injEq] at hn; omega
  | some len =>
    rw [hf] at hn
    simp only [Option.some.injEq] at hn
    have hn' : n = len + 8 * table.length + 8 := by omega
    obtain ⟨f1, f2, ⟨pre, hp, hpd⟩, f4, f5, f6⟩ := hasTable_facts ht
    have dec : ∀ (d' : Bytes) rest', HasTable d' aw table rest' → ∀ h size,
        decodePacket d' = some (some (h, size)) → size = n := by
      intro d' rest' ht' h size hd
      rw [decodePacket_table ht', ← heq, hf] at hd
      simp only [Option.some.injEq] at hd
      split at hd
      · rename_i h3
        simp only [Option.some.injEq] at h3
        split at hd
        · simp at hd
        split at hd
        · simp at hd
        simp only [Option.some.injEq, Prod.mk.injEq] at hd
        omega
      · simp at hd
    constructor
    · intro hle
      have ht' : HasTable (d.take n) aw table (rest.take len) := by
        obtain ⟨iw, r0, r1, he, g⟩ := ht
        refine ⟨iw, r0, r1, ?_, g⟩
        rw [he, List.take_append, List.take_of_length_le]
        · congr 2
          simp only [headerBytes, List.length_append, flatMap_be_length, beBytes_length, List.length_cons,
            List.length_nil]
          omega
        · simp only [headerBytes, List.length_append, flatMap_be_length, beBytes_length, List.length_cons,
            List.length_nil]
          omega
      cases hd : decodePacket (d.take n) with
      | none => exact absurd hd (C03_decode_safe _).2.1
      | some r =>
        cases r with
        | none => exact Or.inl rfl
        | some r =>
          obtain ⟨h, size⟩ := r
          have := dec _ _ ht' h size hd
          subst this
          exact Or.inr ⟨h, rfl⟩
    · intro e h size hd
      have ht' : HasTable (d ++ e) aw table (rest ++ e) := by
        obtain ⟨iw, r0, r1, he, g⟩ := ht
        exact ⟨iw, r0, r1, by rw [he]; simp, g⟩
      exact dec _ _ ht' h size hd

/-- Non-vacuity of C05: the sample packet has a single payload-length item and predicted size 42. -/
example : getPacketSize samplePacket = some 42 := by decide +kernel
example : getPacketSize (samplePacket.take 40) = some 42 ∧ getPacketSize (samplePacket.take 39) = some 0 := by
  decide +kernel

/-- Without the single-item hypothesis the two functions disagree: the size prediction uses the first
payload-length item, decoding uses the last (src/recv_packet.cpp:86-90 and 137-139). -/
theorem C05_disagrees_on_repeated_item :
    ∃ d : Bytes, getPacketSize d = some 42 ∧ ∃ h, decodePacket d = some (some (h, 40)) := by
  refine ⟨[0x53, 4, 3, 5, 0, 0, 0, 4] ++ beBytes 8 (encodeImmediate 40 1 7) ++ beBytes 8 (encodeImmediate 40 3 0) ++
    beBytes 8 (encodeImmediate 40 4 2) ++ beBytes 8 (encodeImmediate 40 4 0) ++ [0xaa, 0xbb], ?_, ⟨40, 0, 7, -1, 0, 0, 40, 40⟩, ?_⟩
  · decide +kernel
  · decide +kernel

end Spead2
