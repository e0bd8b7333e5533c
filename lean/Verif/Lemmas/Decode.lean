import Verif.Model.Wire
import Verif.Spec.Wire
import Verif.Lemmas.Bytes
import Verif.Lemmas.Pointer

namespace Spead2
open Spec

theorem isImm_spec (p : Nat) : (isImmediate p = true) ↔ ptrImmediate p := isImmediate_iff p
theorem getId_spec (w p : Nat) : getId (8 * w) p = ptrId w p := getId_eq _ _
theorem getImmediate_spec (w p : Nat) : getImmediate (8 * w) p = ptrValue w p := getImmediate_eq _ _

/-- Any byte string whose length is a multiple of 8 is an item table. -/
theorem exists_table (n : Nat) (t : Bytes) (h : t.length = 8 * n) :
    ∃ table : List Nat, table.length = n ∧ (∀ p ∈ table, p < 2 ^ 64) ∧ t = table.flatMap (beBytes 8) := by
  induction n generalizing t with
  | zero => exact ⟨[], rfl, by simp, by simpa using h⟩
  | succ n ih =>
    obtain ⟨tb, h1, h2, h3⟩ := ih (t.drop 8) (by simp; omega)
    refine ⟨beNat (t.take 8) :: tb, by simp [h1], ?_, ?_⟩
    · intro p hp
      rcases List.mem_cons.1 hp with rfl | hp
      · have := beNat_lt (t.take 8)
        rw [List.length_take, show min 8 t.length = 8 by omega] at this
        simpa using this
      · exact h2 p hp
    · have e : (t.take 8).length = 8 := by simp; omega
      have := beBytes_beNat (t.take 8)
      rw [e] at this
      simp only [List.flatMap_cons]
      rw [this, ← h3, List.take_append_drop]

theorem flatMap_be_length (table : List Nat) : (table.flatMap (beBytes 8)).length = 8 * table.length := by
  induction table with
  | nil => rfl
  | cons a t ih => simp [List.flatMap_cons, ih]; omega

theorem load64?_mid (pre rest : Bytes) (p : Nat) (hp : p < 2 ^ 64) :
    load64? (pre ++ (beBytes 8 p ++ rest)) pre.length = some p := by
  rw [load64?_eq_some (by simp), List.drop_left, List.take_left' (by simp)]
  congr 1
  exact beNat_beBytes_of_lt (by simpa using hp)

/-- Pure version of `decodeLoop`. -/
def decodeFold (hab : Nat) : List Nat → Nat → DecodeAcc → DecodeAcc
  | [], _, acc => acc
  | p :: ps, i, acc => decodeFold hab ps (i + 1) (decodeStep hab acc i p)

theorem decodeLoop_eq (hab : Nat) (table : List Nat) (pre rest : Bytes) (i : Nat) (acc : DecodeAcc)
    (hpre : pre.length = 8 + i * 8) (hlt : ∀ p ∈ table, p < 2 ^ 64) :
    decodeLoop (pre ++ (table.flatMap (beBytes 8) ++ rest)) hab table.length i acc =
      some (decodeFold hab table i acc) := by
  induction table generalizing pre i acc with
  | nil => rfl
  | cons p ps ih =>
    simp only [List.length_cons, decodeLoop, decodeFold, List.flatMap_cons, List.append_assoc]
    rw [← hpre, load64?_mid _ _ _ (hlt p (by simp))]
    simp only [Option.bind_eq_bind, Option.bind_some]
    have := ih (pre ++ beBytes 8 p) (i + 1) (decodeStep hab acc i p) (by simp [hpre]; omega)
      (fun q hq => hlt q (by simp [hq]))
    simpa using this

/-- Pure version of `findPayloadLength`. -/
theorem findPayloadLength_eq (w : Nat) (table : List Nat) (pre rest : Bytes) (i : Nat)
    (hpre : pre.length = 8 + i * 8) (hlt : ∀ p ∈ table, p < 2 ^ 64) :
    findPayloadLength (pre ++ (table.flatMap (beBytes 8) ++ rest)) (8 * w) table.length i =
      some (optField (firstImm w 4 table)) := by
  induction table generalizing pre i with
  | nil => rfl
  | cons p ps ih =>
    simp only [List.length_cons, findPayloadLength, List.flatMap_cons, List.append_assoc]
    rw [← hpre, load64?_mid _ _ _ (hlt p (by simp))]
    simp only [Option.bind_eq_bind, Option.bind_some]
    have := ih (pre ++ beBytes 8 p) (i + 1) (by simp [hpre]; omega) (fun q hq => hlt q (by simp [hq]))
    simp only [List.append_assoc] at this
    rw [this]
    by_cases hc : ptrImmediate p ∧ ptrId w p = 4
    · have hc' : isImmediate p = true ∧ getId (8 * w) p = PAYLOAD_LENGTH_ID := by
        rw [isImm_spec, getId_spec]; exact hc
      rw [if_pos hc']
      simp [firstImm, hc, optField, getImmediate_spec]
    · have hc' : ¬(isImmediate p = true ∧ getId (8 * w) p = PAYLOAD_LENGTH_ID) := by
        rw [isImm_spec, getId_spec]; exact hc
      rw [if_neg hc']
      simp [firstImm, hc]

/-- `lastImm` with a default, on a cons. -/
theorem lastImm_cons (w id p : Nat) (ps : List Nat) :
    lastImm w id (p :: ps) =
      (lastImm w id ps).or (if ptrImmediate p ∧ ptrId w p = id then some (ptrValue w p) else none) := by
  unfold lastImm
  by_cases h : ptrImmediate p ∧ ptrId w p = id
  · simp only [List.filter_cons, h, and_self, decide_true, if_true]
    cases hf : List.filter (fun p => decide (ptrImmediate p ∧ ptrId w p = id)) ps with
    | nil => simp
    | cons a l => simp [List.getLast?_cons]
  · simp only [List.filter_cons, h, decide_false, if_false, Bool.false_eq_true]
    simp

theorem foldField (o : Option Nat) (d : Int) (v : Nat) :
    ((o.or (some v)).map (fun (x : Nat) => (x : Int))).getD d = (o.map (fun (x : Nat) => (x : Int))).getD v := by
  cases o <;> simp

theorem decodeFold_fields (w : Nat) (table : List Nat) (i : Nat) (acc : DecodeAcc) :
    let r := decodeFold (8 * w) table i acc
    r.heapCnt = ((lastImm w 1 table).map (fun (x : Nat) => (x : Int))).getD acc.heapCnt ∧
    r.heapLength = ((lastImm w 2 table).map (fun (x : Nat) => (x : Int))).getD acc.heapLength ∧
    r.payloadOffset = ((lastImm w 3 table).map (fun (x : Nat) => (x : Int))).getD acc.payloadOffset ∧
    r.payloadLength = ((lastImm w 4 table).map (fun (x : Nat) => (x : Int))).getD acc.payloadLength := by
  induction table generalizing i acc with
  | nil => simp [decodeFold, lastImm]
  | cons p ps ih =>
    simp only [decodeFold]
    obtain ⟨h1, h2, h3, h4⟩ := ih (i + 1) (decodeStep (8 * w) acc i p)
    refine ⟨?_, ?_, ?_, ?_⟩
    · rw [h1, lastImm_cons]
      simp only [decodeStep, isImm_spec, getId_spec, getImmediate_spec, HEAP_CNT_ID, HEAP_LENGTH_ID,
        PAYLOAD_OFFSET_ID, PAYLOAD_LENGTH_ID]
      by_cases hi : ptrImmediate p <;> simp only [hi, if_true, if_false, true_and, false_and]
      · split <;> (try split) <;> (try split) <;> (try split) <;> simp_all
      · simp
    · rw [h2, lastImm_cons]
      simp only [decodeStep, isImm_spec, getId_spec, getImmediate_spec, HEAP_CNT_ID, HEAP_LENGTH_ID,
        PAYLOAD_OFFSET_ID, PAYLOAD_LENGTH_ID]
      by_cases hi : ptrImmediate p <;> simp only [hi, if_true, if_false, true_and, false_and]
      · split <;> (try split) <;> (try split) <;> (try split) <;> simp_all
      · simp
    · rw [h3, lastImm_cons]
      simp only [decodeStep, isImm_spec, getId_spec, getImmediate_spec, HEAP_CNT_ID, HEAP_LENGTH_ID,
        PAYLOAD_OFFSET_ID, PAYLOAD_LENGTH_ID]
      by_cases hi : ptrImmediate p <;> simp only [hi, if_true, if_false, true_and, false_and]
      · split <;> (try split) <;> (try split) <;> (try split) <;> simp_all
      · simp
    · rw [h4, lastImm_cons]
      simp only [decodeStep, isImm_spec, getId_spec, getImmediate_spec, HEAP_CNT_ID, HEAP_LENGTH_ID,
        PAYLOAD_OFFSET_ID, PAYLOAD_LENGTH_ID]
      by_cases hi : ptrImmediate p <;> simp only [hi, if_true, if_false, true_and, false_and]
      · split <;> (try split) <;> (try split) <;> (try split) <;> simp_all
      · simp

theorem decodeStep_firstRegular (w : Nat) (acc : DecodeAcc) (i p : Nat) :
    (decodeStep (8 * w) acc i p).firstRegular =
      if isPacketItem w p then acc.firstRegular else min acc.firstRegular i := by
  simp only [decodeStep, isImm_spec, getId_spec, HEAP_CNT_ID, HEAP_LENGTH_ID,
    PAYLOAD_OFFSET_ID, PAYLOAD_LENGTH_ID, isPacketItem]
  by_cases hi : ptrImmediate p <;> simp only [hi, if_true, if_false, true_and, false_and]
  split <;> (try split) <;> (try split) <;> (try split) <;> simp_all

theorem decodeFold_mono (w : Nat) (table : List Nat) (i : Nat) (acc : DecodeAcc) (h : acc.firstRegular ≤ i) :
    (decodeFold (8 * w) table i acc).firstRegular = acc.firstRegular := by
  induction table generalizing i acc with
  | nil => rfl
  | cons p ps ih =>
    simp only [decodeFold]
    have e : (decodeStep (8 * w) acc i p).firstRegular = acc.firstRegular := by
      rw [decodeStep_firstRegular]; split <;> omega
    rw [ih _ _ (by omega), e]

theorem decodeFold_firstRegular (w : Nat) (table : List Nat) (i : Nat) (acc : DecodeAcc)
    (h : acc.firstRegular = i + table.length) :
    (decodeFold (8 * w) table i acc).firstRegular =
      i + (table.takeWhile (fun p => isPacketItem w p)).length := by
  induction table generalizing i acc with
  | nil => simpa [decodeFold] using h
  | cons p ps ih =>
    simp only [decodeFold]
    by_cases hp : isPacketItem w p
    · have e : (decodeStep (8 * w) acc i p).firstRegular = (i + 1) + ps.length := by
        rw [decodeStep_firstRegular, if_pos hp, h]; simp; omega
      rw [ih _ _ e]
      simp [hp]; omega
    · have e : (decodeStep (8 * w) acc i p).firstRegular = i := by
        rw [decodeStep_firstRegular, if_neg hp, h]; simp
      rw [decodeFold_mono _ _ _ _ (by omega), e]
      simp [hp]

theorem decodeHeader_bytes (m0 m1 iw aw r0 r1 n0 n1 : UInt8) (rest : Bytes) :
    decodeHeader ([m0, m1, iw, aw, r0, r1, n0, n1] ++ rest) =
      some (if m0 = 0x53 ∧ m1 = 0x04 ∧ iw ≠ 0 ∧ aw ≠ 0 ∧ iw.toNat + aw.toNat = 8 then
        some (8 * aw.toNat, n0.toNat * 256 + n1.toNat) else none) := by
  have h0 := m0.toNat_lt; have h1 := m1.toNat_lt
  have y1 := beNat_mid [] [m0, m1] [iw, aw, r0, r1, n0, n1]
  have y2 := beNat_mid [m0, m1] [iw] [aw, r0, r1, n0, n1]
  have y3 := beNat_mid [m0, m1, iw] [aw] [r0, r1, n0, n1]
  have y4 := beNat_mid [m0, m1, iw, aw, r0, r1] [n0, n1] []
  simp only [List.nil_append, List.cons_append, List.length_cons, List.length_nil, Nat.zero_add] at y1 y2 y3 y4
  unfold decodeHeader
  rw [load64?_eq_some (by simp)]
  rw [show List.take 8 (List.drop 0 ([m0, m1, iw, aw, r0, r1, n0, n1] ++ rest)) =
    [m0, m1, iw, aw, r0, r1, n0, n1] by simp]
  generalize beNat [m0, m1, iw, aw, r0, r1, n0, n1] = v at *
  rw [Option.bind_eq_bind, Option.bind_some]
  have e0 : m0 = 0x53 ↔ m0.toNat = 0x53 := by rw [← UInt8.toNat_inj]; rfl
  have e1 : m1 = 0x04 ↔ m1.toNat = 0x04 := by rw [← UInt8.toNat_inj]; rfl
  have e2 : iw = 0 ↔ iw.toNat = 0 := by rw [← UInt8.toNat_inj]; rfl
  have e3 : aw = 0 ↔ aw.toNat = 0 := by rw [← UInt8.toNat_inj]; rfl
  have x1 : extractBits v 48 16 = m0.toNat * 256 + m1.toNat := by
    rw [extractBits_eq]; simpa [beNat] using y1
  have x2 : extractBits v 40 8 = iw.toNat := by rw [extractBits_eq]; simpa [beNat] using y2
  have x3 : extractBits v 32 8 = aw.toNat := by rw [extractBits_eq]; simpa [beNat] using y3
  have x4 : extractBits v 0 16 = n0.toNat * 256 + n1.toNat := by rw [extractBits_eq]; simpa [beNat] using y4
  have em : magicVersion = 0x5304 := rfl
  clear y1 y2 y3 y4
  by_cases hc : extractBits v 48 16 ≠ magicVersion
  · rw [if_pos hc]
    rw [x1, em] at hc
    rw [if_neg (by rw [e0, e1]; omega)]; rfl
  · rw [if_neg hc]
    rw [x1, em] at hc
    simp only [x2, x3, x4]
    by_cases hc2 : iw.toNat * 8 = 0 ∨ aw.toNat * 8 = 0
    · rw [if_pos hc2]
      rw [if_neg (by rw [ne_eq, ne_eq, e2, e3]; omega)]; rfl
    · rw [if_neg hc2]
      by_cases hc3 : iw.toNat * 8 + aw.toNat * 8 ≠ 8 * 8
      · rw [if_pos hc3, if_neg (by omega)]; rfl
      · rw [if_neg hc3, if_pos (by rw [ne_eq, ne_eq, e0, e1, e2, e3]; omega), Nat.mul_comm]; rfl

theorem exists_eight {d : Bytes} (h : 8 ≤ d.length) :
    ∃ m0 m1 iw aw r0 r1 n0 n1 rest, d = [m0, m1, iw, aw, r0, r1, n0, n1] ++ rest := by
  match d, h with
  | m0 :: m1 :: iw :: aw :: r0 :: r1 :: n0 :: n1 :: rest, _ =>
    exact ⟨m0, m1, iw, aw, r0, r1, n0, n1, rest, rfl⟩

theorem beBytes_two (n0 n1 : UInt8) : beBytes 2 (n0.toNat * 256 + n1.toNat) = [n0, n1] := by
  have := beBytes_beNat [n0, n1]
  simpa [beNat] using this

theorem two_bytes (n : Nat) (h : n < 65536) : ∃ n0 n1 : UInt8, beBytes 2 n = [n0, n1] ∧ n0.toNat * 256 + n1.toNat = n := by
  refine ⟨UInt8.ofNat (n / 256), UInt8.ofNat n, ?_, ?_⟩
  · simp [beBytes]
  · simp; omega

/-- Header decoding succeeds exactly on the specified header bytes. -/
theorem decodeHeader_headerBytes (iw aw r0 r1 : UInt8) (n : Nat) (rest : Bytes) (hn : n < 65536)
    (h1 : iw ≠ 0) (h2 : aw ≠ 0) (h3 : iw.toNat + aw.toNat = 8) :
    decodeHeader (headerBytes iw aw r0 r1 n ++ rest) = some (some (8 * aw.toNat, n)) := by
  obtain ⟨n0, n1, hb, hv⟩ := two_bytes n hn
  have : headerBytes iw aw r0 r1 n ++ rest = [0x53, 0x04, iw, aw, r0, r1, n0, n1] ++ rest := by
    simp [headerBytes, hb]
  rw [this, decodeHeader_bytes, if_pos ⟨rfl, rfl, h1, h2, h3⟩, hv]

theorem decodeHeader_inv {d : Bytes} {hab n : Nat} (h8 : 8 ≤ d.length)
    (h : decodeHeader d = some (some (hab, n))) :
    ∃ iw aw r0 r1 : UInt8, ∃ rest, d = headerBytes iw aw r0 r1 n ++ rest ∧ hab = 8 * aw.toNat ∧
      iw ≠ 0 ∧ aw ≠ 0 ∧ iw.toNat + aw.toNat = 8 ∧ n < 65536 := by
  obtain ⟨m0, m1, iw, aw, r0, r1, n0, n1, rest, rfl⟩ := exists_eight h8
  rw [decodeHeader_bytes] at h
  split at h
  · rename_i hc
    simp only [Option.some.injEq, Prod.mk.injEq] at h
    obtain ⟨rfl, rfl⟩ := h
    refine ⟨iw, aw, r0, r1, rest, ?_, rfl, hc.2.2.1, hc.2.2.2.1, hc.2.2.2.2, ?_⟩
    · rw [headerBytes, beBytes_two, hc.1, hc.2.1]; rfl
    · have := n0.toNat_lt; have := n1.toNat_lt; omega
  · simp at h

/-- Every datagram falls in one of: too short, bad header, truncated table, complete table. -/
theorem datagram_cases (d : Bytes) (h8 : 8 ≤ d.length) :
    (decodeHeader d = some none ∧ ¬ ∃ aw table rest, HasTable d aw table rest) ∨
    (∃ hab n, decodeHeader d = some (some (hab, n)) ∧ d.length < n * 8 + 8 ∧ ¬ ∃ aw table rest, HasTable d aw table rest) ∨
    (∃ aw table rest, HasTable d aw table rest) := by
  obtain ⟨m0, m1, iw, aw, r0, r1, n0, n1, rest, rfl⟩ := exists_eight h8
  by_cases hc : m0 = 0x53 ∧ m1 = 0x04 ∧ iw ≠ 0 ∧ aw ≠ 0 ∧ iw.toNat + aw.toNat = 8
  · by_cases hl : ([m0, m1, iw, aw, r0, r1, n0, n1] ++ rest).length < (n0.toNat * 256 + n1.toNat) * 8 + 8
    · right; left
      refine ⟨_, _, by rw [decodeHeader_bytes, if_pos hc], hl, ?_⟩
      rintro ⟨aw', table, rest', iw', r0', r1', he, g1, g2, g3, g4, g5⟩
      have hd := congrArg decodeHeader he
      rw [decodeHeader_bytes, if_pos hc, List.append_assoc,
        decodeHeader_headerBytes _ _ _ _ _ _ g4 g1 g2 g3] at hd
      simp only [Option.some.injEq, Prod.mk.injEq] at hd
      have hlen := congrArg List.length he
      simp only [headerBytes, List.length_append, flatMap_be_length, beBytes_length, List.length_cons,
        List.length_nil] at hlen hl
      omega
    · right; right
      obtain ⟨table, t1, t2, t3⟩ := exists_table (n0.toNat * 256 + n1.toNat)
        (rest.take (8 * (n0.toNat * 256 + n1.toNat))) (by
          simp only [List.length_append, List.length_cons, List.length_nil] at hl
          simp only [List.length_take]; omega)
      refine ⟨aw, table, rest.drop (8 * (n0.toNat * 256 + n1.toNat)), iw, r0, r1, ?_, hc.2.2.1, hc.2.2.2.1,
        hc.2.2.2.2, ?_, t2⟩
      · rw [← t3, t1, headerBytes, beBytes_two, hc.1, hc.2.1]
        simp
      · have := n0.toNat_lt; have := n1.toNat_lt; omega
  · left
    refine ⟨by rw [decodeHeader_bytes, if_neg hc], ?_⟩
    rintro ⟨aw', table, rest', iw', r0', r1', he, g1, g2, g3, g4, g5⟩
    have hd := congrArg decodeHeader he
    rw [decodeHeader_bytes, if_neg hc, List.append_assoc,
      decodeHeader_headerBytes _ _ _ _ _ _ g4 g1 g2 g3] at hd
    simp at hd

theorem hasTable_facts {d : Bytes} {aw : UInt8} {table : List Nat} {rest : Bytes} (h : HasTable d aw table rest) :
    decodeHeader d = some (some (8 * aw.toNat, table.length)) ∧ d.length = 8 + 8 * table.length + rest.length ∧
    (∃ pre : Bytes, pre.length = 8 ∧ d = pre ++ (table.flatMap (beBytes 8) ++ rest)) ∧
    (∀ p ∈ table, p < 2 ^ 64) ∧ 0 < aw.toNat ∧ aw.toNat < 8 := by
  obtain ⟨iw, r0, r1, he, g1, g2, g3, g4, g5⟩ := h
  have e2 : aw.toNat ≠ 0 := by intro h; apply g2; rw [← UInt8.toNat_inj]; exact h
  have e3 : iw.toNat ≠ 0 := by intro h; apply g1; rw [← UInt8.toNat_inj]; exact h
  refine ⟨?_, ?_, ⟨headerBytes iw aw r0 r1 table.length, by simp [headerBytes], by rw [he]; simp⟩, g5, by omega, by omega⟩
  · rw [he, List.append_assoc, decodeHeader_headerBytes _ _ _ _ _ _ g4 g1 g2 g3]
  · rw [he]; simp only [headerBytes, List.length_append, flatMap_be_length, beBytes_length, List.length_cons, List.length_nil]

theorem optField_eq_neg {o : Option Nat} : optField o = -1 ↔ o = none := by
  cases o <;> simp [optField]

theorem getD_eq_optField (o : Option Nat) : (o.map (fun (x : Nat) => (x : Int))).getD (-1) = optField o := by
  cases o <;> simp [optField]

/-- `decodePacket` on a datagram with a complete table. -/
theorem decodePacket_table {d : Bytes} {aw : UInt8} {table : List Nat} {rest : Bytes} (h : HasTable d aw table rest) :
    decodePacket d = some (
      match lastImm aw.toNat 1 table, lastImm aw.toNat 3 table, lastImm aw.toNat 4 table with
      | some cnt, some off, some len =>
        if rest.length < len then none
        else if ∃ hl, lastImm aw.toNat 2 table = some hl ∧ hl < off + len then none
        else
          let fr := (table.takeWhile (fun p => isPacketItem aw.toNat p)).length
          some ({ heapAddressBits := 8 * aw.toNat, nItems := table.length - fr, heapCnt := cnt,
                  heapLength := optField (lastImm aw.toNat 2 table), payloadOffset := off,
                  payloadLength := len, pointers := 8 + fr * 8,
                  payload := 8 + 8 * table.length }, len + 8 * table.length + 8)
      | _, _, _ => none) := by
  obtain ⟨h1, h2, ⟨pre, hp, hd⟩, h4, h5, h6⟩ := hasTable_facts h
  unfold decodePacket
  rw [if_neg (by omega), h1]
  simp only [Option.bind_eq_bind, Option.bind_some]
  rw [if_neg (by omega)]
  have hl := decodeLoop_eq (8 * aw.toNat) table pre rest 0 { firstRegular := table.length } (by omega) h4
  rw [← hd] at hl
  rw [hl]
  simp only [Option.bind_some]
  obtain ⟨f1, f2, f3, f4⟩ := decodeFold_fields aw.toNat table 0 { firstRegular := table.length }
  have f5 := decodeFold_firstRegular aw.toNat table 0 { firstRegular := table.length } (by simp)
  simp only [getD_eq_optField] at f1 f2 f3 f4
  rw [f1, f2, f3, f4, f5]
  have hfr : (table.takeWhile (fun p => isPacketItem aw.toNat p)).length ≤ table.length :=
    List.Sublist.length_le (List.takeWhile_sublist _)
  cases c1 : lastImm aw.toNat 1 table with
  | none => simp [optField]
  | some cnt =>
    cases c3 : lastImm aw.toNat 3 table with
    | none => simp [optField]
    | some off =>
      cases c4 : lastImm aw.toNat 4 table with
      | none => simp [optField]
      | some len =>
        have k1 : optField (some cnt) = (cnt : Int) := rfl
        have k3 : optField (some off) = (off : Int) := rfl
        have k4 : optField (some len) = (len : Int) := rfl
        have k5 : (optField (some len)).toNat = len := by rw [k4]; simp
        rw [if_neg (by omega)]
        simp only [k5]
        by_cases hsz : rest.length < len
        · rw [if_pos (by omega), if_pos hsz]; rfl
        · rw [if_neg (by omega), if_neg hsz]
          cases c2 : lastImm aw.toNat 2 table with
          | none =>
            have k2 : optField none = -1 := rfl
            rw [if_neg (by omega), if_neg (by simp)]
            simp only [pure, Nat.zero_add, k1, k3, k4]
            congr 4
            · omega
            · omega
          | some hl =>
            have k2 : optField (some hl) = (hl : Int) := rfl
            by_cases hov : hl < off + len
            · rw [if_pos (by omega), if_pos ⟨hl, rfl, hov⟩]; rfl
            · rw [if_neg (by omega), if_neg (by simp; omega)]
              simp only [pure, Nat.zero_add, k1, k2, k3, k4]
              congr 4
              · omega
              · omega

/-- Uniqueness of the table decomposition. -/
theorem hasTable_unique {d : Bytes} {aw aw' : UInt8} {table table' : List Nat} {rest rest' : Bytes}
    (h : HasTable d aw table rest) (h' : HasTable d aw' table' rest') : aw = aw' ∧ table = table' ∧ rest = rest' := by
  have f := hasTable_facts h
  have f' := hasTable_facts h'
  have hh := f.1.symm.trans f'.1
  simp only [Option.some.injEq, Prod.mk.injEq] at hh
  have ha : aw = aw' := by apply UInt8.toNat_inj.1; omega
  obtain ⟨pre, hp, hd⟩ := f.2.2.1
  obtain ⟨pre', hp', hd'⟩ := f'.2.2.1
  have e1 := List.append_inj (hd.symm.trans hd') (by omega)
  have e2 := List.append_inj e1.2 (by rw [flatMap_be_length, flatMap_be_length]; omega)
  refine ⟨ha, ?_, e2.2⟩
  have hb := f.2.2.2.1
  have hb' := f'.2.2.2.1
  have hlen : table.length = table'.length := hh.2
  have hm := e2.1
  clear h h' f f' hh ha hd hd' e1 e2
  induction table generalizing table' with
  | nil => cases table' with
    | nil => rfl
    | cons => simp at hlen
  | cons p ps ih =>
    cases table' with
    | nil => simp at hlen
    | cons q qs =>
      simp only [List.flatMap_cons] at hm
      have e := List.append_inj hm (by simp)
      have := beBytes_inj (k := 8) (by simpa using hb p (by simp)) (by simpa using hb' q (by simp)) e.1
      rw [this, ih (fun x hx => hb x (by simp [hx])) (fun x hx => hb' x (by simp [hx])) (by simpa using hlen) e.2]

theorem getPacketSize_table {d : Bytes} {aw : UInt8} {table : List Nat} {rest : Bytes} (h : HasTable d aw table rest) :
    getPacketSize d = some (match firstImm aw.toNat 4 table with
      | none => -1
      | some len => (len + 8 * table.length + 8 : Nat)) := by
  obtain ⟨h1, h2, ⟨pre, hp, hd⟩, h4, h5, h6⟩ := hasTable_facts h
  unfold getPacketSize
  rw [if_neg (by omega), h1]
  simp only [Option.bind_eq_bind, Option.bind_some]
  rw [if_neg (by omega)]
  have hl := findPayloadLength_eq aw.toNat table pre rest 0 (by omega) h4
  rw [← hd] at hl
  rw [hl]
  simp only [Option.bind_some]
  cases firstImm aw.toNat 4 table with
  | none => simp [optField]
  | some len =>
    have k : optField (some len) = (len : Int) := rfl
    rw [if_neg (by omega), k]
    simp only [pure]
    congr 1
    omega

end Spead2
