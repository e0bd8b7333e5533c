import Verif.Model.Send
import Verif.Spec.Send
import Verif.Lemmas.Pointer
import Verif.Lemmas.Decode

namespace Spead2
open Spec

/-! ### Items and payload -/

theorem itemPayload_of_useImmediate {w : Nat} {it : SendItem} (h : useImmediate it w = true) :
    itemPayload w it = [] := by
  unfold useImmediate at h; unfold itemPayload
  cases hv : it.value with
  | inline v => rfl
  | buffer b allow => rw [hv] at h; simp_all

theorem not_useImmediate {w : Nat} {it : SendItem} (h : useImmediate it w = false) :
    ∃ b allow, it.value = .buffer b allow ∧ itemPayload w it = b ∧ ¬(allow = true ∧ b.length ≤ w) := by
  unfold useImmediate at h; unfold itemPayload
  cases hv : it.value with
  | inline v => rw [hv] at h; simp at h
  | buffer b allow =>
    rw [hv] at h
    simp only [Bool.and_eq_false_iff, decide_eq_false_iff_not] at h
    refine ⟨b, allow, rfl, ?_, ?_⟩
    · simp only
      rw [if_neg]
      rintro ⟨h1, h2⟩
      rcases h with h | h
      · simp [h1] at h
      · exact h h2
    · rintro ⟨h1, h2⟩
      rcases h with h | h
      · simp [h1] at h
      · exact h h2

theorem itemPayloadLength_eq (w : Nat) (it : SendItem) : itemPayloadLength it w = (itemPayload w it).length := by
  unfold itemPayloadLength
  cases h : useImmediate it w with
  | true => simp [itemPayload_of_useImmediate h]
  | false =>
    obtain ⟨b, allow, hv, hp, _⟩ := not_useImmediate h
    simp [hv, hp]

theorem sum_payloadLength (w : Nat) (items : List SendItem) :
    (items.map (fun it => itemPayloadLength it w)).sum = (realPayload w items).length := by
  induction items with
  | nil => rfl
  | cons it rest ih => simp [realPayload, itemPayloadLength_eq] at ih ⊢

@[simp] theorem realPayload_nil (w : Nat) : realPayload w [] = [] := rfl
@[simp] theorem realPayload_cons (w : Nat) (it : SendItem) (rest : List SendItem) :
    realPayload w (it :: rest) = itemPayload w it ++ realPayload w rest := by simp [realPayload]
theorem realPayload_append (w : Nat) (a b : List SendItem) :
    realPayload w (a ++ b) = realPayload w a ++ realPayload w b := by simp [realPayload]

/-! ### Constructor -/

theorem Gen.new_eq (h : SendHeap) (cnt mps : Nat) :
    Gen.new h cnt mps =
      if mps < 56 then .error .tooSmall
      else if h.repeatPointers = true ∧ maxPointers mps ≤ h.items.length then .error .tooSmallToRepeat
      else .ok ⟨h, cnt, mps / 8 * 8, maxPointers mps, heapLength mps h, decide (padded mps h)⟩ := by
  unfold Gen.new
  simp only [prefixSize, sum_payloadLength]
  by_cases h1 : mps < 56
  · rw [if_pos (by omega), if_pos h1]
  · rw [if_neg (by omega), if_neg h1]
    have hm : (mps / 8 * 8 - (8 + 4 * 8 + 8)) / 8 = maxPointers mps := by unfold maxPointers; omega
    have hpos : 0 < maxPointers mps := by unfold maxPointers; omega
    rw [hm]
    have hiff : h.items.length / maxPointers mps + 1 > 1 ↔ maxPointers mps ≤ h.items.length := by
      rw [show h.items.length / maxPointers mps + 1 > 1 ↔ 0 < h.items.length / maxPointers mps by omega]
      exact Nat.div_pos_iff.trans ⟨fun h => h.2, fun h => ⟨hpos, h⟩⟩
    by_cases h2 : h.repeatPointers = true ∧ maxPointers mps ≤ h.items.length
    · rw [if_pos ⟨h2.1, hiff.2 h2.2⟩, if_pos h2]
    · rw [if_neg (fun hc => h2 ⟨hc.1, hiff.1 hc.2⟩), if_neg h2]
      have hmin : (h.items.length / maxPointers mps + 1 - 1) * 8 + 1 = minPayload mps h := by
        unfold minPayload; omega
      rw [hmin]
      by_cases h3 : (realPayload (h.hab / 8) h.items).length < minPayload mps h
      · rw [if_pos h3]
        have hp : padded mps h := h3
        have : heapLength mps h = minPayload mps h := by unfold heapLength; omega
        simp [this, hp]
      · rw [if_neg h3]
        have hp : ¬ padded mps h := h3
        have : heapLength mps h = (realPayload (h.hab / 8) h.items).length := by unfold heapLength; omega
        simp [this, hp]

/-! ### Item pointers -/

theorem itemPtrs_length (w a : Nat) (items : List SendItem) : (itemPtrs w a items).length = items.length := by
  induction items generalizing a with
  | nil => rfl
  | cons it rest ih => simp [itemPtrs, ih]

theorem itemPtrs_getElem? (w a : Nat) (items : List SendItem) (i : Nat) :
    (itemPtrs w a items)[i]? =
      items[i]?.map (itemPtr w (a + (realPayload w (items.take i)).length)) := by
  induction items generalizing a i with
  | nil => simp [itemPtrs]
  | cons it rest ih =>
    cases i with
    | zero => simp [itemPtrs]
    | succ i => simp [itemPtrs, ih, Nat.add_assoc]

theorem pow256_eq (w : Nat) : 256 ^ w = 2 ^ (8 * w) := by rw [Nat.pow_mul]

theorem beNat_lt_of_le {w : Nat} {b : Bytes} (h : b.length ≤ w) : beNat b < 2 ^ (8 * w) := by
  rw [← pow256_eq]
  exact Nat.lt_of_lt_of_le (beNat_lt b) (Nat.pow_le_pow_right (by omega) h)

/-- Overwriting the low bytes of an immediate pointer stores the value. -/
theorem overwrite_low {w id : Nat} {b : Bytes} (hw : w ≤ 7) (hid : id < 2 ^ (63 - 8 * w)) (hb : b.length ≤ w) :
    (beBytes 8 (encodeImmediate (8 * w) id 0)).take (8 - b.length) ++ b =
      beBytes 8 (2 ^ 63 + id * 2 ^ (8 * w) + beNat b) := by
  rw [encodeImmediate_eq (by omega) hid (Nat.two_pow_pos _)]
  have e8 : 8 = (8 - b.length) + b.length := by omega
  generalize hX : 2 ^ 63 + (id * 2 ^ (8 * w) + 0) = X
  have hX' : X = (2 ^ (63 - 8 * b.length) + id * 2 ^ (8 * (w - b.length))) * 256 ^ b.length := by
    rw [← hX, pow256_eq, Nat.add_mul, Nat.mul_assoc, Nat.add_zero,
      Nat.pow_sub_mul_pow 2 (show 8 * b.length ≤ 63 by omega), Nat.mul_sub,
      Nat.pow_sub_mul_pow 2 (show 8 * b.length ≤ 8 * w by omega)]
  have hpos : 0 < 256 ^ b.length := Nat.pow_pos (by omega)
  generalize hY : 2 ^ (63 - 8 * b.length) + id * 2 ^ (8 * (w - b.length)) = Y at hX'
  have l1 : beBytes 8 X = beBytes (8 - b.length) (X / 256 ^ b.length) ++ beBytes b.length X := by
    rw [← beBytes_add, ← e8]
  have l2 : beBytes 8 (X + beNat b) =
      beBytes (8 - b.length) ((X + beNat b) / 256 ^ b.length) ++ beBytes b.length (X + beNat b) := by
    rw [← beBytes_add, ← e8]
  rw [l1, l2, List.take_left' (by simp), hX']
  congr 1
  · congr 1
    rw [Nat.mul_comm, Nat.mul_div_cancel_left _ hpos, Nat.mul_add_div hpos, Nat.div_eq_of_lt (beNat_lt b)]
    rfl
  · rw [← beBytes_mod _ _ (Nat.le_refl b.length), Nat.mul_comm, Nat.mul_add_mod,
      Nat.mod_eq_of_lt (beNat_lt b), beBytes_beNat]

theorem encodeAsserts_iff {w id v : Nat} (hw1 : 1 ≤ w) (hw : w ≤ 7) :
    encodeAsserts (8 * w) id v ↔ id < 2 ^ (63 - 8 * w) ∧ v < 2 ^ (8 * w) := by
  unfold encodeAsserts
  rw [Nat.shiftLeft_eq, Nat.shiftLeft_eq, Nat.one_mul, Nat.one_mul, show 64 - 1 - 8 * w = 63 - 8 * w by omega]
  constructor
  · rintro ⟨_, _, _, a, b⟩; exact ⟨a, b⟩
  · rintro ⟨a, b⟩; exact ⟨by omega, by omega, by omega, a, b⟩

theorem itemPointerBytes_eq {w : Nat} {it : SendItem} {addr : Nat} (hw1 : 1 ≤ w) (hw : w ≤ 7)
    (hid : it.id < 2 ^ (63 - 8 * w)) (hin : ∀ v, it.value = .inline v → v < 2 ^ (8 * w))
    (ha : addr < 2 ^ (8 * w)) :
    itemPointerBytes (8 * w) it addr =
      (beBytes 8 (itemPtr w addr it), addr + (itemPayload w it).length, true) := by
  unfold itemPointerBytes itemPtr itemPayload
  have e : 8 * w / 8 = w := by omega
  cases hv : it.value with
  | inline v =>
    have := hin v hv
    have ha : encodeAsserts (8 * w) it.id v := (encodeAsserts_iff hw1 hw).2 ⟨hid, this⟩
    simp only [ha, decide_true, List.length_nil, Nat.add_zero]
    rw [encodeImmediate_eq (by omega) hid this, Nat.add_assoc]
  | buffer b allow =>
    simp only [e]
    by_cases hc : allow = true ∧ b.length ≤ w
    · have hc' : (allow && decide (b.length ≤ w)) = true := by simp [hc.1, hc.2]
      have ha : encodeAsserts (8 * w) it.id 0 := (encodeAsserts_iff hw1 hw).2 ⟨hid, Nat.two_pow_pos _⟩
      have ho := overwrite_low hw hid hc.2
      rw [if_pos hc', if_pos hc, if_pos hc, ho]
      simp [ha]
    · have hc' : ¬ (allow && decide (b.length ≤ w)) = true := by simpa using hc
      have haa : encodeAsserts (8 * w) it.id addr := (encodeAsserts_iff hw1 hw).2 ⟨hid, ha⟩
      rw [if_neg hc', if_neg hc, if_neg hc, encodeAddress_eq (by omega) hid ha]
      simp [haa]

/-- The full pointer list of a generator. -/
def Gen.fullPtrs (g : Gen) (w : Nat) : List Nat :=
  itemPtrs w 0 g.heap.items ++ (if g.needNull then [(realPayload w g.heap.items).length] else [])

def Gen.total (g : Gen) : Nat := g.heap.items.length + (if g.needNull then 1 else 0)

theorem Gen.fullPtrs_length (g : Gen) (w : Nat) : (g.fullPtrs w).length = g.total := by
  unfold Gen.fullPtrs Gen.total
  cases g.needNull <;> simp [itemPtrs_length]

/-- Side conditions on a generator. -/
structure Gen.Ok (g : Gen) (w : Nat) : Prop where
  w1 : 1 ≤ w
  w7 : w ≤ 7
  hab : g.heap.hab = 8 * w
  ids : ∀ it ∈ g.heap.items, it.id < 2 ^ (63 - 8 * w)
  inl : ∀ it ∈ g.heap.items, ∀ v, it.value = .inline v → v < 2 ^ (8 * w)
  cnt : g.cnt < 2 ^ (8 * w)
  size : g.payloadSize < 2 ^ (8 * w)
  real : (realPayload w g.heap.items).length ≤ g.payloadSize
  count : min g.maxItemPointers g.total + 4 < 65536
  mps : g.maxPacketSize = 8 * g.maxItemPointers + 48
  mpos : 0 < g.maxItemPointers
  rep : g.heap.repeatPointers = true → g.total ≤ g.maxItemPointers
  enough : g.total ≤ g.maxItemPointers * ((g.payloadSize + 7) / 8)
  nonnull : g.needNull = false → g.payloadSize = (realPayload w g.heap.items).length
  null : g.needNull = true → g.payloadSize = 8 * (g.heap.items.length / g.maxItemPointers) + 1 ∧
    (realPayload w g.heap.items).length < g.payloadSize

theorem take_real_le (w : Nat) (items : List SendItem) (i : Nat) :
    (realPayload w (items.take i)).length ≤ (realPayload w items).length := by
  conv => rhs; rw [← List.take_append_drop i items, realPayload_append, List.length_append]
  omega

theorem pointerLoop_spec (g : Gen) (w : Nat) (ok : g.Ok w) (k nip : Nat) (h : nip + k ≤ g.total) :
    pointerLoop g k nip (realPayload w (g.heap.items.take nip)).length =
      some ((((g.fullPtrs w).drop nip).take k).flatMap (beBytes 8),
        (realPayload w (g.heap.items.take (nip + k))).length, true) := by
  induction k generalizing nip with
  | zero => simp [pointerLoop]
  | succ k ih =>
    have hlen := g.fullPtrs_length w
    have hdrop : (g.fullPtrs w).drop nip =
        (g.fullPtrs w)[nip]'(by omega) :: (g.fullPtrs w).drop (nip + 1) :=
      List.drop_eq_getElem_cons (by omega)
    have hreal := ok.real
    have hsize := ok.size
    unfold pointerLoop
    by_cases hn : nip = g.heap.items.length
    · have hnull : g.needNull = true := by
        cases hh : g.needNull
        · simp [Gen.total, hh] at h; omega
        · rfl
      have hk : k = 0 := by simp [Gen.total, hnull] at h; omega
      subst hk
      have hval : (g.fullPtrs w)[nip]'(by omega) = (realPayload w g.heap.items).length := by
        simp only [Gen.fullPtrs, hnull, if_true, hn]
        rw [List.getElem_append_right (by rw [itemPtrs_length]; omega)]
        simp [itemPtrs_length]
      rw [if_pos hn, hdrop, hval]
      subst hn
      have ha : encodeAsserts (8 * w) NULL_ID (realPayload w g.heap.items).length :=
        (encodeAsserts_iff ok.w1 ok.w7).2 ⟨Nat.two_pow_pos _, by omega⟩
      have hw7 := ok.w7
      have he := encodeAddress_eq (hab := 8 * w) (id := NULL_ID) (a := (realPayload w g.heap.items).length)
        (by omega) (Nat.two_pow_pos _) (by omega)
      have he' : encodeAddress (8 * w) NULL_ID (realPayload w g.heap.items).length =
          (realPayload w g.heap.items).length := by
        rw [he, NULL_ID]; omega
      simp only [pointerLoop, List.take_length, ok.hab, he', hnull, ha, decide_true, Bool.and_self]
      rw [List.take_of_length_le (i := g.heap.items.length + (0 + 1)) (by omega)]
      simp
    · have hlt : nip < g.heap.items.length := by
        have : g.total ≤ g.heap.items.length + 1 := by unfold Gen.total; split <;> omega
        omega
      rw [if_neg hn, List.getElem?_eq_getElem hlt]
      simp only
      have hmem : g.heap.items[nip] ∈ g.heap.items := List.getElem_mem hlt
      have hle := take_real_le w g.heap.items nip
      rw [ok.hab, itemPointerBytes_eq ok.w1 ok.w7 (ok.ids _ hmem) (ok.inl _ hmem) (by omega)]
      have htake : g.heap.items.take (nip + 1) = g.heap.items.take nip ++ [g.heap.items[nip]] := by
        rw [List.take_succ_eq_append_getElem hlt]
      have haddr : (realPayload w (g.heap.items.take nip)).length + (itemPayload w g.heap.items[nip]).length =
          (realPayload w (g.heap.items.take (nip + 1))).length := by
        rw [htake, realPayload_append]; simp
      simp only [haddr]
      rw [ih (nip + 1) (by omega)]
      have hval : (g.fullPtrs w)[nip]'(by omega) =
          itemPtr w (realPayload w (g.heap.items.take nip)).length g.heap.items[nip] := by
        unfold Gen.fullPtrs
        rw [List.getElem_append_left (by rw [itemPtrs_length]; omega)]
        have := itemPtrs_getElem? w 0 g.heap.items nip
        rw [List.getElem?_eq_getElem (by rw [itemPtrs_length]; omega), List.getElem?_eq_getElem hlt] at this
        simpa using this
      rw [hdrop, hval, show nip + 1 + k = nip + (k + 1) by omega]
      simp

/-! ### Payload loop -/

/-- What remains to be sent from a list of items when `off` bytes of the first have gone. -/
def realRem (w : Nat) : List SendItem → Nat → Bytes
  | [], _ => []
  | it :: rest, off => (itemPayload w it).drop off ++ realPayload w rest

/-- The offset is inside the first item. -/
def OffOk (w : Nat) : List SendItem → Nat → Prop
  | [], _ => True
  | it :: _, off => off ≤ (itemPayload w it).length

theorem realRem_zero (w : Nat) (items : List SendItem) : realRem w items 0 = realPayload w items := by
  cases items <;> simp [realRem]

theorem OffOk_zero (w : Nat) (items : List SendItem) : OffOk w items 0 := by
  cases items <;> simp [OffOk]

theorem payloadLoop_spec (w : Nat) (items : List SendItem) (ni off len : Nat) (hoff : OffOk w items off) :
    let r := payloadLoop w items ni off len
    r.slices.flatten = (realRem w items off).take len ∧
    r.pad = len - (realRem w items off).length ∧
    ∃ k, k ≤ items.length ∧ r.nextItem = ni + k ∧ OffOk w (items.drop k) r.nextItemOffset ∧
      realRem w (items.drop k) r.nextItemOffset = (realRem w items off).drop len := by
  induction items generalizing ni off len with
  | nil => exact ⟨by simp [payloadLoop, realRem], by simp [payloadLoop, realRem], 0, by simp, rfl, trivial,
      by simp [realRem]⟩
  | cons it rest ih =>
    unfold payloadLoop
    by_cases hl : len = 0
    · subst hl
      rw [if_pos rfl]
      exact ⟨by simp, by simp, 0, by simp, rfl, hoff, by simp⟩
    rw [if_neg hl]
    cases hi : useImmediate it w with
    | true =>
      have hp := itemPayload_of_useImmediate hi
      have hr : realRem w (it :: rest) off = realRem w rest 0 := by
        rw [realRem_zero]; simp [realRem, hp]
      obtain ⟨h1, h2, k, h3, h4, h5, h6⟩ := ih (ni + 1) 0 len (OffOk_zero w rest)
      rw [hr]
      exact ⟨h1, h2, k + 1, by simp; omega, by simp only [if_true]; rw [h4]; omega, h5, h6⟩
    | false =>
      obtain ⟨b, allow, hv, hp, _⟩ := not_useImmediate hi
      simp only [Bool.false_eq_true, if_false, hv]
      have hob : off ≤ b.length := by simpa [OffOk, hp] using hoff
      have hr : realRem w (it :: rest) off = b.drop off ++ realPayload w rest := by simp [realRem, hp]
      rw [hr]
      by_cases hc : off + min (b.length - off) len = b.length
      · rw [if_pos hc]
        have hmin : min (b.length - off) len = b.length - off := by omega
        rw [hmin]
        obtain ⟨h1, h2, k, h3, h4, h5, h6⟩ := ih (ni + 1) 0 (len - (b.length - off)) (OffOk_zero w rest)
        rw [realRem_zero] at h1 h2 h6
        have hdl : (b.drop off).length = b.length - off := by simp
        refine ⟨?_, ?_, k + 1, by simp; omega, ?_, h5, ?_⟩
        · simp only [List.flatten_cons, h1]
          rw [List.take_append, hdl, List.take_of_length_le (Nat.le_of_eq hdl),
            List.take_of_length_le (show (b.drop off).length ≤ len by omega)]
        · simp only [h2, List.length_append, hdl]; omega
        · simp only [h4]; omega
        · simp only [List.drop_succ_cons]
          rw [h6, List.drop_append, hdl, List.drop_of_length_le (l := b.drop off) (by simp; omega)]
          simp
      · rw [if_neg hc]
        have hmin : min (b.length - off) len = len := by omega
        have hlt : len < b.length - off := by omega
        rw [hmin]
        refine ⟨?_, ?_, 0, by simp, rfl, ?_, ?_⟩
        · simp only [List.flatten_cons, List.flatten_nil, List.append_nil]
          rw [List.take_append_of_le_length (by simp; omega)]
        · simp; omega
        · simp [OffOk, hp]; omega
        · simp only [List.drop_zero, realRem, hp]
          rw [List.drop_append_of_le_length (by simp; omega), List.drop_drop]

/-! ### Packet layout -/

theorem headerWord_bytes_aux (M w k : Nat) (hM : M < 65536) (hw : w ≤ 7) (hk : k + 4 < 65536) :
    beBytes 8 (M * 2 ^ 48 + (8 - w) * 2 ^ 40 + w * 2 ^ 32 + (k + 4)) =
      beBytes 2 M ++ ([UInt8.ofNat (8 - w), UInt8.ofNat w, 0, 0] ++ beBytes 2 (4 + k)) := by
  have h1 : M * 2 ^ 48 + (8 - w) * 2 ^ 40 + w * 2 ^ 32 + (k + 4) =
      beNat (beBytes 2 M ++ ([UInt8.ofNat (8 - w), UInt8.ofNat w, 0, 0] ++ beBytes 2 (4 + k))) := by
    rw [beNat_append, beNat_append, beNat_beBytes_of_lt (by omega), beNat_beBytes_of_lt (by omega)]
    simp [beNat]
    omega
  rw [h1]
  have := beBytes_beNat (beBytes 2 M ++ ([UInt8.ofNat (8 - w), UInt8.ofNat w, 0, 0] ++ beBytes 2 (4 + k)))
  simpa using this

theorem headerWord_bytes (w k : Nat) (hw : w ≤ 7) (hk : k + 4 < 65536) :
    beBytes 8 (packetHeaderWord w k) = headerBytes (UInt8.ofNat (8 - w)) (UInt8.ofNat w) 0 0 (4 + k) := by
  have e : packetHeaderWord w k = 0x5304 * 2 ^ 48 + (8 - w) * 2 ^ 40 + w * 2 ^ 32 + (k + 4) := by
    unfold packetHeaderWord
    generalize 0x5304 = M
    have a3 : k + 4 < 2 ^ 32 := by omega
    rw [Nat.shiftLeft_eq, Nat.shiftLeft_eq, Nat.shiftLeft_eq, Nat.or_assoc, Nat.or_assoc]
    have b3 := Nat.two_pow_add_eq_or_of_lt a3 w
    rw [Nat.mul_comm w, ← b3]
    have c2 : 2 ^ 32 * w + (k + 4) < 2 ^ 40 := by omega
    have b2 := Nat.two_pow_add_eq_or_of_lt c2 (8 - w)
    rw [Nat.mul_comm (8 - w), ← b2]
    have c1 : 2 ^ 40 * (8 - w) + (2 ^ 32 * w + (k + 4)) < 2 ^ 48 := by omega
    have b1 := Nat.two_pow_add_eq_or_of_lt c1 M
    rw [Nat.mul_comm M, ← b1]
    omega
  rw [e, headerWord_bytes_aux _ _ _ (by decide) hw hk]
  have : beBytes 2 0x5304 = [0x53, 0x04] := by decide
  rw [this]
  rfl

/-! ### Invariant of the generator -/

structure GInv (g : Gen) (w : Nat) (st : GenState) : Prop where
  off : st.payloadOffset ≤ g.payloadSize
  ni : st.nextItem ≤ g.heap.items.length
  offok : OffOk w (g.heap.items.drop st.nextItem) st.nextItemOffset
  rem : realRem w (g.heap.items.drop st.nextItem) st.nextItemOffset =
    (realPayload w g.heap.items).drop st.payloadOffset
  ptr : g.heap.repeatPointers = false → st.nextItemPointer ≤ g.total ∧
    st.nextAddress = (realPayload w (g.heap.items.take st.nextItemPointer)).length ∧
    g.total - st.nextItemPointer ≤ g.maxItemPointers * ((g.payloadSize - st.payloadOffset + 7) / 8)
  tight : g.needNull = true → g.payloadSize - st.payloadOffset = 0 ∨
    ∃ j, g.payloadSize - st.payloadOffset = 8 * j + 1 ∧
      (g.heap.repeatPointers = false → g.maxItemPointers * j + 1 ≤ g.total - st.nextItemPointer)

theorem GInv.init (g : Gen) (w : Nat) (ok : g.Ok w) : GInv g w {} where
  off := by simp
  ni := by simp
  offok := OffOk_zero _ _
  rem := by simp [realRem_zero]
  ptr := by
    intro _
    refine ⟨by simp, by simp, ?_⟩
    simpa using ok.enough
  tight := by
    intro hn
    right
    refine ⟨g.heap.items.length / g.maxItemPointers, by simpa using (ok.null hn).1, ?_⟩
    intro _
    simp only [Gen.total, hn, if_true, Nat.sub_zero]
    have := Nat.mul_div_le g.heap.items.length g.maxItemPointers
    omega

/-- The payload piece of a packet as it appears on the wire. -/
def GenPacket.piece (p : GenPacket) : Bytes := List.replicate p.pad 0 ++ p.slices.flatten

/-- First pointer of the next packet. -/
def Gen.nip (g : Gen) (st : GenState) : Nat := if g.heap.repeatPointers then 0 else st.nextItemPointer

/-- Number of pointers of the next packet. -/
def Gen.nptr (g : Gen) (st : GenState) : Nat := min g.maxItemPointers (g.total - g.nip st)

/-- Payload length of the next packet. -/
def Gen.plen (g : Gen) (st : GenState) : Nat :=
  min (g.payloadSize - st.payloadOffset) (g.maxPacketSize - g.nptr st * 8 - prefixSize)

theorem Gen.nip_le (g : Gen) (w : Nat) (st : GenState) (inv : GInv g w st) : g.nip st ≤ g.total := by
  unfold Gen.nip
  cases hr : g.heap.repeatPointers
  · simpa using (inv.ptr hr).1
  · simp

theorem nextPacket_spec (g : Gen) (w : Nat) (ok : g.Ok w) (st : GenState) (inv : GInv g w st)
    (hn : g.hasNext st = true) :
    ∃ p st', g.nextPacket st = some (p, st') ∧
      p.bytes = packetBytes w g.cnt g.payloadSize st.payloadOffset
        (((g.fullPtrs w).drop (g.nip st)).take (g.nptr st)) p.piece ∧
      p.pad = g.plen st - ((realPayload w g.heap.items).drop st.payloadOffset).length ∧
      p.slices.flatten = ((realPayload w g.heap.items).drop st.payloadOffset).take (g.plen st) ∧
      p.piece.length = g.plen st ∧ 0 < g.plen st ∧
      (p.assertsOk = true ↔ (p.pad = 0 ∨ (g.needNull = true ∧ p.pad ≤ 8 ∧ p.slices = []))) ∧
      st'.payloadOffset = st.payloadOffset + g.plen st ∧
      st'.nextItemPointer = g.nip st + g.nptr st ∧
      p.slices = (payloadLoop w (g.heap.items.drop st.nextItem) st.nextItem st.nextItemOffset (g.plen st)).slices ∧
      GInv g w st' := by
  have hnip := g.nip_le w st inv
  have hmps := ok.mps
  have hm := ok.mpos
  have hw7 := ok.w7
  have hsize := ok.size
  have hoffle := inv.off
  have hlt : st.payloadOffset < g.payloadSize := by simpa [Gen.hasNext] using hn
  have hk : g.nptr st ≤ g.maxItemPointers := by unfold Gen.nptr; omega
  have hkt : g.nip st + g.nptr st ≤ g.total := by unfold Gen.nptr; omega
  have hplen : 0 < g.plen st := by unfold Gen.plen prefixSize; omega
  have hplen2 : g.plen st ≤ g.payloadSize - st.payloadOffset := by unfold Gen.plen; omega
  have hps : (8 : Nat) + 4 * 8 = 40 := rfl
  -- pointer loop
  have haddr : (if g.heap.repeatPointers then { st with nextItemPointer := 0, nextAddress := 0 } else st).nextAddress
      = (realPayload w (g.heap.items.take (g.nip st))).length := by
    unfold Gen.nip
    cases hr : g.heap.repeatPointers
    · simpa using (inv.ptr hr).2.1
    · simp
  have hnipe : (if g.heap.repeatPointers then { st with nextItemPointer := 0, nextAddress := 0 } else st).nextItemPointer
      = g.nip st := by
    unfold Gen.nip
    cases hr : g.heap.repeatPointers <;> simp
  have hpl := pointerLoop_spec g w ok (g.nptr st) (g.nip st) hkt
  -- payload loop
  have hpay := payloadLoop_spec w (g.heap.items.drop st.nextItem) st.nextItem st.nextItemOffset (g.plen st) inv.offok
  rw [inv.rem] at hpay
  obtain ⟨hsl, hpad, j, hj, hni, hok, hrem⟩ := hpay
  have e8 : 8 * w / 8 = w := by omega
  have hcount := ok.count
  have hkc : g.nptr st + 4 < 65536 := by unfold Gen.nptr; omega
  generalize hr : payloadLoop w (g.heap.items.drop st.nextItem) st.nextItem st.nextItemOffset (g.plen st) = r at *
  have hpo : (if g.heap.repeatPointers then { st with nextItemPointer := 0, nextAddress := 0 } else st).payloadOffset
      = st.payloadOffset := by split <;> rfl
  have hnio : (if g.heap.repeatPointers then { st with nextItemPointer := 0, nextAddress := 0 } else st).nextItem
      = st.nextItem := by split <;> rfl
  have hnioo : (if g.heap.repeatPointers then { st with nextItemPointer := 0, nextAddress := 0 } else st).nextItemOffset
      = st.nextItemOffset := by split <;> rfl
  have a1 : encodeAsserts (8 * w) HEAP_CNT_ID g.cnt := (encodeAsserts_iff ok.w1 ok.w7).2
    ⟨Nat.lt_of_lt_of_le (show HEAP_CNT_ID < 2 ^ 7 by decide) (Nat.pow_le_pow_right (by omega) (by omega)), ok.cnt⟩
  have a2 : encodeAsserts (8 * w) HEAP_LENGTH_ID g.payloadSize := (encodeAsserts_iff ok.w1 ok.w7).2
    ⟨Nat.lt_of_lt_of_le (show HEAP_LENGTH_ID < 2 ^ 7 by decide) (Nat.pow_le_pow_right (by omega) (by omega)), hsize⟩
  have a3 : encodeAsserts (8 * w) PAYLOAD_OFFSET_ID st.payloadOffset := (encodeAsserts_iff ok.w1 ok.w7).2
    ⟨Nat.lt_of_lt_of_le (show PAYLOAD_OFFSET_ID < 2 ^ 7 by decide) (Nat.pow_le_pow_right (by omega) (by omega)), by omega⟩
  have a4 : encodeAsserts (8 * w) PAYLOAD_LENGTH_ID (g.plen st) := (encodeAsserts_iff ok.w1 ok.w7).2
    ⟨Nat.lt_of_lt_of_le (show PAYLOAD_LENGTH_ID < 2 ^ 7 by decide) (Nat.pow_le_pow_right (by omega) (by omega)), by omega⟩
  have b1 := (encodeAsserts_iff ok.w1 ok.w7).1 a1
  have b2 := (encodeAsserts_iff ok.w1 ok.w7).1 a2
  have b3 := (encodeAsserts_iff ok.w1 ok.w7).1 a3
  have b4 := (encodeAsserts_iff ok.w1 ok.w7).1 a4
  have hpiece : r.pad + r.slices.flatten.length = g.plen st := by
    rw [hsl, hpad, List.length_take]; omega
  refine ⟨⟨beBytes 8 (packetHeaderWord w (g.nptr st))
          ++ beBytes 8 (encodeImmediate (8 * w) HEAP_CNT_ID g.cnt)
          ++ beBytes 8 (encodeImmediate (8 * w) HEAP_LENGTH_ID g.payloadSize)
          ++ beBytes 8 (encodeImmediate (8 * w) PAYLOAD_OFFSET_ID st.payloadOffset)
          ++ beBytes 8 (encodeImmediate (8 * w) PAYLOAD_LENGTH_ID (g.plen st))
          ++ (((g.fullPtrs w).drop (g.nip st)).take (g.nptr st)).flatMap (beBytes 8), r.pad, r.slices,
        decide (0 < g.plen st) && encodeAsserts (8 * w) HEAP_CNT_ID g.cnt &&
          encodeAsserts (8 * w) HEAP_LENGTH_ID g.payloadSize &&
          encodeAsserts (8 * w) PAYLOAD_OFFSET_ID st.payloadOffset &&
          encodeAsserts (8 * w) PAYLOAD_LENGTH_ID (g.plen st) &&
          true && (decide (r.pad = 0) || (g.needNull && decide (r.pad ≤ 8) && r.slices.isEmpty))⟩,
      ⟨g.nip st + g.nptr st, (realPayload w (g.heap.items.take (g.nip st + g.nptr st))).length,
       r.nextItem, r.nextItemOffset, st.payloadOffset + g.plen st⟩, ?_, ?_⟩
  · unfold Gen.nextPacket
    simp only [hnipe, hpo, hnio, hnioo, haddr, ok.hab, e8]
    rw [show g.heap.items.length + (if g.needNull = true then 1 else 0) = g.total from rfl]
    rw [if_neg (by omega)]
    rw [show min g.maxItemPointers (g.total - g.nip st) = g.nptr st from rfl]
    rw [if_neg (by unfold prefixSize; omega)]
    rw [show min (g.payloadSize - st.payloadOffset) (g.maxPacketSize - g.nptr st * 8 - prefixSize) = g.plen st from rfl]
    rw [hpl]
    simp only [hr]
  · refine ⟨?_, hpad, hsl, ?_, hplen, ?_, rfl, rfl, rfl, ?_⟩
    · have hlen4 : (((g.fullPtrs w).drop (g.nip st)).take (g.nptr st)).length = g.nptr st := by
        rw [List.length_take, List.length_drop, g.fullPtrs_length]; omega
      have hpl2 : (List.replicate r.pad (0 : UInt8) ++ r.slices.flatten).length = g.plen st := by
        rw [List.length_append, List.length_replicate]; exact hpiece
      simp only [GenPacket.bytes, GenPacket.buffers, GenPacket.piece, packetBytes]
      rw [hpl2, hlen4, ← headerWord_bytes w (g.nptr st) hw7 hkc]
      rw [encodeImmediate_eq (by omega) b1.1 b1.2, encodeImmediate_eq (by omega) b2.1 b2.2,
        encodeImmediate_eq (by omega) b3.1 b3.2, encodeImmediate_eq (by omega) b4.1 b4.2]
      simp [HEAP_CNT_ID, HEAP_LENGTH_ID, PAYLOAD_OFFSET_ID, PAYLOAD_LENGTH_ID, Nat.add_assoc]
    · simp only [GenPacket.piece, List.length_append, List.length_replicate]; exact hpiece
    · simp [a1, a2, a3, a4, hplen, and_assoc]
    · constructor
      · simp only; omega
      · simp only [hni]
        rw [List.length_drop] at hj
        have := inv.ni
        omega
      · simp only [hni]
        rw [← List.drop_drop]; exact hok
      · simp only [hni]
        rw [← List.drop_drop, hrem, List.drop_drop]
      · intro hrep
        obtain ⟨p1, p2, p3⟩ := inv.ptr hrep
        have hnp : g.nip st = st.nextItemPointer := by simp [Gen.nip, hrep]
        refine ⟨hkt, rfl, ?_⟩
        simp only
        rw [hnp]
        by_cases hbig : g.maxItemPointers < g.total - st.nextItemPointer
        · have hk' : g.nptr st = g.maxItemPointers := by unfold Gen.nptr; rw [hnp]; omega
          obtain ⟨q, hq⟩ : ∃ q, (g.payloadSize - st.payloadOffset + 7) / 8 = q + 1 :=
            ⟨(g.payloadSize - st.payloadOffset + 7) / 8 - 1, by omega⟩
          have hq1 : 1 ≤ q := by
            rcases Nat.eq_zero_or_pos q with h0 | h0
            · subst h0; rw [hq] at p3; omega
            · exact h0
          have hpl8 : g.plen st = 8 := by unfold Gen.plen prefixSize; rw [hk']; omega
          rw [hpl8, hk']
          have : (g.payloadSize - (st.payloadOffset + 8) + 7) / 8 = q := by omega
          rw [this]
          rw [hq, Nat.mul_succ] at p3
          omega
        · have hk' : g.nptr st = g.total - st.nextItemPointer := by unfold Gen.nptr; rw [hnp]; omega
          rw [hk']
          have : g.total - (st.nextItemPointer + (g.total - st.nextItemPointer)) = 0 := by omega
          rw [this]; exact Nat.zero_le _
      · intro hnull
        rcases inv.tight hnull with h0 | ⟨j, hj1, hj2⟩
        · omega
        · rcases Nat.eq_zero_or_pos j with hj0 | hj0
          · left
            have : g.plen st = 1 := by unfold Gen.plen prefixSize; omega
            simp only; omega
          · cases hrep : g.heap.repeatPointers with
            | true =>
              exfalso
              have h1 := ok.rep hrep
              have h2 := (ok.null hnull).1
              have h3 : g.heap.items.length / g.maxItemPointers = 0 := by
                apply Nat.div_eq_of_lt
                simp only [Gen.total, hnull, if_true] at h1
                omega
              rw [h3] at h2
              omega
            | false =>
              right
              have hj3 := hj2 hrep
              have hnp : g.nip st = st.nextItemPointer := by simp [Gen.nip, hrep]
              obtain ⟨i, rfl⟩ : ∃ i, j = i + 1 := ⟨j - 1, by omega⟩
              rw [Nat.mul_succ] at hj3
              have hk' : g.nptr st = g.maxItemPointers := by unfold Gen.nptr; rw [hnp]; omega
              have hpl8 : g.plen st = 8 := by unfold Gen.plen prefixSize; rw [hk']; omega
              refine ⟨i, ?_, ?_⟩
              · simp only; omega
              · intro _
                simp only
                rw [hnp, hk']; omega

/-! ### Whole runs -/

/-- What the generator really puts on the wire as heap payload. In a padded heap the packet that holds the
end of the real payload has its padding *before* the real bytes. -/
def Gen.wire (g : Gen) (w : Nat) : Bytes :=
  let real := realPayload w g.heap.items
  if g.needNull then
    real.take (real.length / 8 * 8) ++ (List.replicate ((8 - real.length % 8) % 8) 0 ++
      (real.drop (real.length / 8 * 8) ++
        List.replicate (g.payloadSize - real.length - (8 - real.length % 8) % 8) 0))
  else real

theorem Gen.wire_length (g : Gen) (w : Nat) (ok : g.Ok w) : (g.wire w).length = g.payloadSize := by
  unfold Gen.wire
  cases hn : g.needNull
  · simpa using (ok.nonnull hn).symm
  · obtain ⟨h1, h2⟩ := ok.null hn
    simp only [if_true, List.length_append, List.length_take, List.length_drop, List.length_replicate]
    generalize g.heap.items.length / g.maxItemPointers = a at *
    omega

/-- The piece of the next packet is the next part of `wire`. -/
theorem piece_eq (g : Gen) (w : Nat) (ok : g.Ok w) (off plen pad : Nat) (sl : List Bytes)
    (hoff : off < g.payloadSize) (hp : plen ≤ g.payloadSize - off)
    (htight : g.needNull = true → ∃ j, g.payloadSize - off = 8 * j + 1 ∧ plen = if j = 0 then 1 else 8)
    (hpad : pad = plen - ((realPayload w g.heap.items).drop off).length)
    (hsl : sl.flatten = ((realPayload w g.heap.items).drop off).take plen) :
    List.replicate pad 0 ++ sl.flatten = ((g.wire w).drop off).take plen := by
  rw [hsl, hpad]
  cases hn : g.needNull
  · have := ok.nonnull hn
    simp only [Gen.wire, hn]
    rw [List.length_drop, show plen - ((realPayload w g.heap.items).length - off) = 0 by omega]
    simp
  · obtain ⟨j, hj, hpl⟩ := htight hn
    obtain ⟨h1, h2⟩ := ok.null hn
    simp only [Gen.wire, hn, if_true]
    generalize g.heap.items.length / g.maxItemPointers = a at *
    generalize g.payloadSize = P at *
    generalize realPayload w g.heap.items = real at *
    apply List.ext_getElem?
    intro i
    have hoff8 : off = 8 * (a - j) := by omega
    simp only [List.getElem?_append, List.getElem?_take, List.getElem?_drop, List.getElem?_replicate,
      List.length_replicate, List.length_drop, List.length_take]
    have hplc : (j = 0 ∧ plen = 1) ∨ (0 < j ∧ plen = 8) := by
      rcases Nat.eq_zero_or_pos j with h | h
      · left; simp [h] at hpl; omega
      · right; rw [if_neg (by omega)] at hpl; omega
    clear hpl
    have hq : 8 * (real.length / 8) + real.length % 8 = real.length := by omega
    have hr8 : real.length % 8 < 8 := by omega
    have hz : (real.length % 8 = 0 ∧ (8 - real.length % 8) % 8 = 0) ∨
        (0 < real.length % 8 ∧ (8 - real.length % 8) % 8 = 8 - real.length % 8) := by omega
    clear hpad hsl htight
    generalize (8 - real.length % 8) % 8 = z at *
    generalize hr : real.length % 8 = r at *
    generalize hqq : real.length / 8 = q at *
    obtain ⟨s, hs⟩ : ∃ s, a - j = s := ⟨_, rfl⟩
    rw [hs] at hoff8
    have ha : a = s + j := by omega
    subst hoff8 ha
    repeat' split
    all_goals first
      | rfl
      | omega
      | (congr 1; omega)
      | (exfalso; omega)
      | (apply List.getElem?_eq_none; omega)
      | (symm; apply List.getElem?_eq_none; omega)

theorem plen_tight (g : Gen) (w : Nat) (ok : g.Ok w) (st : GenState) (inv : GInv g w st)
    (hn : st.payloadOffset < g.payloadSize) (hnull : g.needNull = true) :
    ∃ j, g.payloadSize - st.payloadOffset = 8 * j + 1 ∧ g.plen st = if j = 0 then 1 else 8 := by
  rcases inv.tight hnull with h0 | ⟨j, hj, hj2⟩
  · omega
  · refine ⟨j, hj, ?_⟩
    have hm := ok.mps
    have hkl : g.nptr st ≤ g.maxItemPointers := by unfold Gen.nptr; omega
    by_cases h0 : j = 0
    · rw [if_pos h0]; unfold Gen.plen prefixSize; omega
    · rw [if_neg h0]
      cases hrep : g.heap.repeatPointers with
      | true =>
        exfalso
        have h1 := ok.rep hrep
        have h2 := (ok.null hnull).1
        have h3 : g.heap.items.length / g.maxItemPointers = 0 := by
          apply Nat.div_eq_of_lt
          simp only [Gen.total, hnull, if_true] at h1
          omega
        rw [h3] at h2
        omega
      | false =>
        have hj3 := hj2 hrep
        have hnp : g.nip st = st.nextItemPointer := by simp [Gen.nip, hrep]
        obtain ⟨i, rfl⟩ : ∃ i, j = i + 1 := ⟨j - 1, by omega⟩
        rw [Nat.mul_succ] at hj3
        have hk' : g.nptr st = g.maxItemPointers := by unfold Gen.nptr; rw [hnp]; omega
        unfold Gen.plen prefixSize; rw [hk']; omega

theorem payloadLoop_immediate (w : Nat) (items : List SendItem) (ni off len : Nat)
    (h : ∀ it ∈ items, useImmediate it w = true) : (payloadLoop w items ni off len).slices = [] := by
  induction items generalizing ni off with
  | nil => rfl
  | cons it rest ih =>
    unfold payloadLoop
    by_cases hl : len = 0
    · simp [hl]
    · simp only [hl, if_false, h it (by simp), if_true]
      exact ih _ _ (fun x hx => h x (by simp [hx]))

/-- One packet of a run. -/
structure RunOk (g : Gen) (w off nip : Nat) (pkts : List GenPacket) (parts : List (List Nat × Bytes)) : Prop where
  bytes : pkts.map GenPacket.bytes = packetSeq w g.cnt g.payloadSize off parts
  nonempty : ∀ x ∈ parts, x.2 ≠ []
  small : ∀ x ∈ parts, 40 + 8 * x.1.length + x.2.length ≤ g.maxPacketSize
  payload : (parts.map Prod.snd).flatten = (g.wire w).drop off
  once : g.heap.repeatPointers = false → (parts.map Prod.fst).flatten = (g.fullPtrs w).drop nip
  rep : g.heap.repeatPointers = true → ∀ x ∈ parts, x.1 = g.fullPtrs w
  asserts : (g.needNull = false ∨ ∀ it ∈ g.heap.items, useImmediate it w = true) → ∀ p ∈ pkts, p.assertsOk = true

theorem run_spec (g : Gen) (w : Nat) (ok : g.Ok w) (fuel : Nat) (st : GenState) (inv : GInv g w st)
    (hf : g.payloadSize - st.payloadOffset ≤ fuel) :
    ∃ pkts st' parts, g.run fuel st = some (pkts, st') ∧ g.hasNext st' = false ∧
      RunOk g w st.payloadOffset st.nextItemPointer pkts parts := by
  induction fuel generalizing st with
  | zero =>
    have hoff := inv.off
    have he : st.payloadOffset = g.payloadSize := by omega
    refine ⟨[], st, [], rfl, by simp [Gen.hasNext, he], ⟨rfl, by simp, by simp, ?_, ?_, by simp, by simp⟩⟩
    · rw [List.drop_eq_nil_of_le (by rw [g.wire_length w ok]; omega)]; rfl
    · intro hr
      have := (inv.ptr hr).2.2
      rw [he] at this
      rw [List.drop_eq_nil_of_le (by rw [g.fullPtrs_length]; simp at this; omega)]; rfl
  | succ fuel ih =>
    by_cases hn : g.hasNext st = true
    · have hlt : st.payloadOffset < g.payloadSize := by simpa [Gen.hasNext] using hn
      obtain ⟨p, st1, hnp, hb, hpad, hsl, hplen, hpos, hass, hpo, hip, hsls, inv1⟩ := nextPacket_spec g w ok st inv hn
      have hpl2 : g.plen st ≤ g.payloadSize - st.payloadOffset := by unfold Gen.plen; omega
      have htight := plen_tight g w ok st inv hlt
      have hpiece : p.piece = ((g.wire w).drop st.payloadOffset).take (g.plen st) :=
        piece_eq g w ok _ _ _ _ hlt hpl2 htight hpad hsl
      obtain ⟨pkts, st2, parts, hrun, hend, rok⟩ := ih st1 inv1 (by omega)
      have hm := ok.mps
      have hnip := g.nip_le w st inv
      have hkl : g.nptr st ≤ g.maxItemPointers := by unfold Gen.nptr; omega
      have hlen4 : (((g.fullPtrs w).drop (g.nip st)).take (g.nptr st)).length = g.nptr st := by
        rw [List.length_take, List.length_drop, g.fullPtrs_length]; unfold Gen.nptr; omega
      refine ⟨p :: pkts, st2, ((((g.fullPtrs w).drop (g.nip st)).take (g.nptr st)), p.piece) :: parts, ?_, hend,
        ⟨?_, ?_, ?_, ?_, ?_, ?_, ?_⟩⟩
      · rw [Gen.run, if_pos hn]; simp only [hnp, hrun]
      · simp only [List.map_cons, packetSeq, hplen]
        rw [hb, rok.bytes, hpo]
      · intro x hx
        rcases List.mem_cons.1 hx with rfl | hx
        · intro h0; simp only at h0; rw [h0] at hplen; simp at hplen; omega
        · exact rok.nonempty x hx
      · intro x hx
        rcases List.mem_cons.1 hx with rfl | hx
        · simp only [hlen4, hplen]
          have : g.plen st ≤ g.maxPacketSize - g.nptr st * 8 - prefixSize := by unfold Gen.plen; omega
          unfold prefixSize at this
          omega
        · exact rok.small x hx
      · simp only [List.map_cons, List.flatten_cons, rok.payload, hpo, hpiece]
        rw [← List.drop_drop, List.take_append_drop]
      · intro hr
        have hnp' : g.nip st = st.nextItemPointer := by simp [Gen.nip, hr]
        simp only [List.map_cons, List.flatten_cons, rok.once hr, hip, ← hnp']
        rw [← List.drop_drop, List.take_append_drop]
      · intro hr x hx
        rcases List.mem_cons.1 hx with rfl | hx
        · have h0 : g.nip st = 0 := by simp [Gen.nip, hr]
          have := ok.rep hr
          simp only [h0, List.drop_zero]
          rw [List.take_of_length_le]
          rw [g.fullPtrs_length]; unfold Gen.nptr; rw [h0]; omega
        · exact rok.rep hr x hx
      · intro hc q hq
        rcases List.mem_cons.1 hq with rfl | hq
        · rw [hass]
          rcases hc with hc | hc
          · left
            rw [hpad, List.length_drop, ← ok.nonnull hc]; omega
          · cases hnn : g.needNull with
            | false => left; rw [hpad, List.length_drop, ← ok.nonnull hnn]; omega
            | true =>
              right
              obtain ⟨j, _, h2⟩ := htight hnn
              refine ⟨rfl, ?_, by rw [hsls]; exact payloadLoop_immediate _ _ _ _ _ (fun it hit => hc it (List.mem_of_mem_drop hit))⟩
              rw [hpad, h2]
              split <;> omega
        · exact rok.asserts hc q hq
    · have he : st.payloadOffset = g.payloadSize := by
        have := inv.off
        simp [Gen.hasNext] at hn; omega
      refine ⟨[], st, [], by rw [Gen.run, if_neg hn], by simpa using hn, ⟨rfl, by simp, by simp, ?_, ?_, by simp, by simp⟩⟩
      · rw [List.drop_eq_nil_of_le (by rw [g.wire_length w ok]; omega)]; rfl
      · intro hr
        have := (inv.ptr hr).2.2
        rw [he] at this
        rw [List.drop_eq_nil_of_le (by rw [g.fullPtrs_length]; simp at this; omega)]; rfl

/-! ### From the constructor -/

theorem gen_ok (h : SendHeap) (cnt mps : Nat) (g : Gen) (hg : Gen.new h cnt mps = .ok g) (w : Nat)
    (hw : h.hab = 8 * w) (hf : Fits h cnt mps) :
    g.Ok w ∧ g.heap = h ∧ g.cnt = cnt ∧ g.maxPacketSize = mps / 8 * 8 ∧ g.payloadSize = heapLength mps h ∧
      g.needNull = decide (padded mps h) ∧ g.fullPtrs w = heapPtrs mps h := by
  rw [Gen.new_eq] at hg
  split at hg
  · simp at hg
  split at hg
  · simp at hg
  rename_i h1 h2
  simp only [Except.ok.injEq] at hg
  subst hg
  have e8 : h.hab / 8 = w := by omega
  obtain ⟨w', hw1, hw7, hww⟩ := hf.width
  have : w' = w := by omega
  subst this
  have hM : 0 < maxPointers mps := by unfold maxPointers; omega
  have hdiv := Nat.lt_mul_div_succ h.items.length hM
  have hlen : (heapPtrs mps h).length = h.items.length + (if padded mps h then 1 else 0) := by
    unfold heapPtrs; rw [List.length_append, itemPtrs_length]; split <;> simp
  refine ⟨⟨hw1, hw7, hw, ?_, ?_, ?_, ?_, ?_, ?_, ?_, hM, ?_, ?_, ?_, ?_⟩, rfl, rfl, rfl, rfl, rfl, ?_⟩
  · intro it hit; rw [← hw]; exact hf.ids it hit
  · intro it hit v hv; rw [← hw]; exact hf.inline it hit v hv
  · rw [← hw]; exact hf.cnt
  · rw [← hw]; exact hf.length
  · simp only [heapLength, e8]; omega
  · have := hf.count
    rw [hlen] at this
    simpa [Gen.total] using this
  · simp only [maxPointers]; omega
  · intro hr
    simp only at hr
    simp only [hr, true_and, Nat.not_le] at h2
    simp only [Gen.total]
    split <;> omega
  · simp only [Gen.total]
    have hP : minPayload mps h ≤ heapLength mps h := by unfold heapLength; omega
    have : h.items.length / maxPointers mps + 1 ≤ (heapLength mps h + 7) / 8 := by
      unfold minPayload at hP; omega
    calc _ ≤ maxPointers mps * (h.items.length / maxPointers mps + 1) := by split <;> omega
      _ ≤ _ := Nat.mul_le_mul_left _ this
  · intro hn
    simp only [decide_eq_false_iff_not] at hn
    unfold padded at hn
    simp only [heapLength, e8] at *
    omega
  · intro hn
    simp only [decide_eq_true_eq] at hn
    unfold padded minPayload at hn
    simp only [heapLength, minPayload, e8] at *
    omega
  · unfold Gen.fullPtrs heapPtrs
    simp only [e8, decide_eq_true_eq]

theorem run_det (g : Gen) (f1 f2 : Nat) (st s1 s2 : GenState) (p1 p2 : List GenPacket)
    (h1 : g.run f1 st = some (p1, s1)) (e1 : g.hasNext s1 = false)
    (h2 : g.run f2 st = some (p2, s2)) (e2 : g.hasNext s2 = false) : p1 = p2 := by
  induction f1 generalizing f2 st p1 p2 with
  | zero =>
    simp [Gen.run] at h1
    obtain ⟨rfl, rfl⟩ := h1
    cases f2 with
    | zero => simp [Gen.run] at h2; exact h2.1.symm
    | succ f2 => simp [Gen.run, e1] at h2; exact h2.1.symm
  | succ f1 ih =>
    by_cases hn : g.hasNext st = true
    · cases f2 with
      | zero => simp [Gen.run] at h2; rw [h2.2] at hn; rw [e2] at hn; simp at hn
      | succ f2 =>
        simp only [Gen.run, hn, if_true] at h1 h2
        cases hnp : g.nextPacket st with
        | none => simp [hnp] at h1
        | some x =>
          obtain ⟨p, st'⟩ := x
          simp only [hnp] at h1 h2
          cases ha : g.run f1 st' with
          | none => simp [ha] at h1
          | some y =>
            cases hb : g.run f2 st' with
            | none => simp [hb] at h2
            | some z =>
              obtain ⟨q1, t1⟩ := y
              obtain ⟨q2, t2⟩ := z
              simp only [ha, hb, Option.some.injEq, Prod.mk.injEq] at h1 h2
              obtain ⟨rfl, rfl⟩ := h1
              obtain ⟨rfl, rfl⟩ := h2
              rw [ih f2 st' q1 q2 ha hb]
    · simp only [Gen.run, hn] at h1
      simp at h1
      cases f2 with
      | zero => simp [Gen.run] at h2; rw [h1.1, h2.1]
      | succ f2 => simp [Gen.run, hn] at h2; rw [h1.1, h2.1]

theorem sends_unique {h : SendHeap} {cnt mps : Nat} {p q : List GenPacket} (hp : Sends h cnt mps p) (hq : Sends h cnt mps q) :
    p = q := by
  obtain ⟨g, f, st, h1, h2, h3⟩ := hp
  obtain ⟨g', f', st', h1', h2', h3'⟩ := hq
  rw [h1] at h1'
  simp only [Except.ok.injEq] at h1'
  subst h1'
  exact run_det g f f' {} st st' p q h2 h3 h2' h3'

theorem sends_spec {h : SendHeap} {cnt mps w : Nat} {pkts : List GenPacket} (hs : Sends h cnt mps pkts)
    (hw : h.hab = 8 * w) (hf : Fits h cnt mps) :
    ∃ g parts, Gen.new h cnt mps = .ok g ∧ g.Ok w ∧ RunOk g w 0 0 pkts parts := by
  obtain ⟨g, f, st, h1, h2, h3⟩ := hs
  obtain ⟨ok, _⟩ := gen_ok h cnt mps g h1 w hw hf
  obtain ⟨pkts', st', parts, hr, hend, rok⟩ := run_spec g w ok g.payloadSize {} (GInv.init g w ok) (by simp)
  have := run_det g _ _ {} st st' pkts pkts' h2 h3 hr hend
  subst this
  exact ⟨g, parts, h1, ok, rok⟩

/-! ### Sizes, for every heap (whether or not its values fit) -/

theorem itemPointerBytes_length (w : Nat) (hw : w ≤ 8) (it : SendItem) (a : Nat) :
    (itemPointerBytes (8 * w) it a).1.length = 8 := by
  have e8 : 8 * w / 8 = w := by omega
  unfold itemPointerBytes
  rw [e8]
  cases it.value with
  | inline v => simp
  | buffer b allow =>
    simp only
    split
    · rename_i hc
      simp at hc
      simp
      omega
    · simp

theorem pointerLoop_length (g : Gen) (w : Nat) (hw : w ≤ 8) (hab : g.heap.hab = 8 * w) (k nip addr : Nat)
    (h : nip + k ≤ g.total) :
    ∃ bs a ok, pointerLoop g k nip addr = some (bs, a, ok) ∧ bs.length = 8 * k := by
  induction k generalizing nip addr with
  | zero => exact ⟨[], addr, true, rfl, rfl⟩
  | succ k ih =>
    unfold pointerLoop
    by_cases hn : nip = g.heap.items.length
    · obtain ⟨bs, a, ok, hp, hl⟩ := ih (nip + 1) addr (by omega)
      rw [if_pos hn, hp]
      exact ⟨_, _, _, rfl, by simp [hl]; omega⟩
    · have hlt : nip < g.heap.items.length := by
        have : g.total ≤ g.heap.items.length + 1 := by unfold Gen.total; split <;> omega
        omega
      rw [if_neg hn, List.getElem?_eq_getElem hlt]
      simp only
      obtain ⟨bs, a, ok, hp, hl⟩ := ih (nip + 1) (itemPointerBytes g.heap.hab g.heap.items[nip] addr).2.1 (by omega)
      rw [hp]
      refine ⟨_, _, _, rfl, ?_⟩
      rw [List.length_append, hab, itemPointerBytes_length w hw, hl]; omega

/-- The part of the invariant that does not depend on the values. -/
structure SInv (g : Gen) (w : Nat) (st : GenState) : Prop where
  off : st.payloadOffset ≤ g.payloadSize
  offok : OffOk w (g.heap.items.drop st.nextItem) st.nextItemOffset
  ptr : g.heap.repeatPointers = false → st.nextItemPointer ≤ g.total

theorem nextPacket_size (g : Gen) (w : Nat) (hw : w ≤ 8) (hab : g.heap.hab = 8 * w)
    (mps : g.maxPacketSize = 8 * g.maxItemPointers + 48) (st : GenState) (inv : SInv g w st)
    (hn : g.hasNext st = true) :
    ∃ p st', g.nextPacket st = some (p, st') ∧ p.bytes.length ≤ g.maxPacketSize ∧ 0 < p.piece.length ∧
      st'.payloadOffset = st.payloadOffset + p.piece.length ∧ SInv g w st' := by
  have hlt : st.payloadOffset < g.payloadSize := by simpa [Gen.hasNext] using hn
  have hnip : g.nip st ≤ g.total := by
    unfold Gen.nip
    cases hr : g.heap.repeatPointers
    · simpa using inv.ptr hr
    · simp
  have hk : g.nptr st ≤ g.maxItemPointers := by unfold Gen.nptr; omega
  have hkt : g.nip st + g.nptr st ≤ g.total := by unfold Gen.nptr; omega
  have hplen : 0 < g.plen st := by unfold Gen.plen prefixSize; omega
  have hnipe : (if g.heap.repeatPointers then { st with nextItemPointer := 0, nextAddress := 0 } else st).nextItemPointer
      = g.nip st := by
    unfold Gen.nip
    cases hr : g.heap.repeatPointers <;> simp
  have hpay := payloadLoop_spec w (g.heap.items.drop st.nextItem) st.nextItem st.nextItemOffset (g.plen st) inv.offok
  obtain ⟨hsl, hpad, j, hj, hni, hok, hrem⟩ := hpay
  have e8 : 8 * w / 8 = w := by omega
  have hpo : (if g.heap.repeatPointers then { st with nextItemPointer := 0, nextAddress := 0 } else st).payloadOffset
      = st.payloadOffset := by split <;> rfl
  have hnio : (if g.heap.repeatPointers then { st with nextItemPointer := 0, nextAddress := 0 } else st).nextItem
      = st.nextItem := by split <;> rfl
  have hnioo : (if g.heap.repeatPointers then { st with nextItemPointer := 0, nextAddress := 0 } else st).nextItemOffset
      = st.nextItemOffset := by split <;> rfl
  have hlen : (payloadLoop w (g.heap.items.drop st.nextItem) st.nextItem st.nextItemOffset (g.plen st)).pad +
      (payloadLoop w (g.heap.items.drop st.nextItem) st.nextItem st.nextItemOffset (g.plen st)).slices.flatten.length = g.plen st := by
    rw [hsl, hpad, List.length_take]; omega
  obtain ⟨bs, a, okk, hpl, hbl⟩ := pointerLoop_length g w hw hab (g.nptr st) (g.nip st)
    (if g.heap.repeatPointers then { st with nextItemPointer := 0, nextAddress := 0 } else st).nextAddress hkt
  unfold Gen.nextPacket
  simp only [hnipe, hpo, hnio, hnioo]
  rw [show g.heap.items.length + (if g.needNull = true then 1 else 0) = g.total from rfl]
  rw [if_neg (by omega)]
  rw [show min g.maxItemPointers (g.total - g.nip st) = g.nptr st from rfl]
  rw [if_neg (by unfold prefixSize; omega)]
  rw [show min (g.payloadSize - st.payloadOffset) (g.maxPacketSize - g.nptr st * 8 - prefixSize) = g.plen st from rfl]
  rw [hpl]
  simp only [hab, e8]
  generalize hr : payloadLoop w (g.heap.items.drop st.nextItem) st.nextItem st.nextItemOffset (g.plen st) = r at *
  refine ⟨_, _, rfl, ?_, ?_, ?_, ⟨?_, ?_, ?_⟩⟩
  · simp only [GenPacket.bytes, GenPacket.buffers, List.flatten_cons, List.length_append, beBytes_length,
      List.length_replicate, hbl]
    have : g.plen st ≤ g.maxPacketSize - g.nptr st * 8 - prefixSize := by unfold Gen.plen; omega
    unfold prefixSize at this
    omega
  · simp only [GenPacket.piece, List.length_append, List.length_replicate, hlen]; exact hplen
  · simp only [GenPacket.piece, List.length_append, List.length_replicate, hlen]
  · simp only
    have : g.plen st ≤ g.payloadSize - st.payloadOffset := by unfold Gen.plen; omega
    omega
  · simp only [hni]
    rw [← List.drop_drop]; exact hok
  · intro _; exact hkt

theorem run_size (g : Gen) (w : Nat) (hw : w ≤ 8) (hab : g.heap.hab = 8 * w)
    (mps : g.maxPacketSize = 8 * g.maxItemPointers + 48) (fuel : Nat) (st : GenState) (inv : SInv g w st)
    (hf : g.payloadSize - st.payloadOffset ≤ fuel) :
    ∃ pkts st', g.run fuel st = some (pkts, st') ∧ g.hasNext st' = false ∧
      pkts.length ≤ g.payloadSize - st.payloadOffset ∧
      ∀ p ∈ pkts, p.bytes.length ≤ g.maxPacketSize ∧ 0 < p.piece.length := by
  induction fuel generalizing st with
  | zero =>
    refine ⟨[], st, rfl, ?_, by simp, by simp⟩
    have := inv.off
    simp [Gen.hasNext]; omega
  | succ fuel ih =>
    by_cases hn : g.hasNext st = true
    · have hlt : st.payloadOffset < g.payloadSize := by simpa [Gen.hasNext] using hn
      obtain ⟨p, st1, h1, h2, h3, h4, inv1⟩ := nextPacket_size g w hw hab mps st inv hn
      obtain ⟨pkts, st2, r1, r2, r3, r4⟩ := ih st1 inv1 (by omega)
      refine ⟨p :: pkts, st2, by rw [Gen.run, if_pos hn]; simp only [h1, r1], r2, ?_, ?_⟩
      · simp only [List.length_cons]; omega
      · intro q hq
        rcases List.mem_cons.1 hq with rfl | hq
        · exact ⟨h2, h3⟩
        · exact r4 q hq
    · exact ⟨[], st, by rw [Gen.run, if_neg hn], by simpa using hn, by simp, by simp⟩

/-! ### Reading packets back -/

theorem words_flatMap (t : List Nat) (rest : Bytes) (h : ∀ p ∈ t, p < 2 ^ 64) :
    words t.length (t.flatMap (beBytes 8) ++ rest) = t := by
  induction t with
  | nil => rfl
  | cons x t ih =>
    have hx : x < 256 ^ 8 := by have := h x (by simp); omega
    simp only [List.length_cons, words, List.flatMap_cons, List.append_assoc]
    rw [List.take_left' (beBytes_length _ _), List.drop_left' (beBytes_length _ _), ih (fun p hp => h p (by simp [hp])),
      beNat_beBytes_of_lt hx]

theorem wire_packetBytes {w cnt hlen off : Nat} {ptrs : List Nat} {payload : Bytes} (hw : w ≤ 7)
    (hcnt : cnt < 2 ^ (8 * w)) (hhl : hlen < 2 ^ (8 * w)) (hoff : off < 2 ^ (8 * w))
    (hpl : payload.length < 2 ^ (8 * w)) (hn : 4 + ptrs.length < 65536) (hp : ∀ p ∈ ptrs, p < 2 ^ 64) :
    wireCount (packetBytes w cnt hlen off ptrs payload) = 4 + ptrs.length ∧
    wirePointers (packetBytes w cnt hlen off ptrs payload) = ptrs ∧
    wirePayload (packetBytes w cnt hlen off ptrs payload) = payload := by
  have hc : wireCount (packetBytes w cnt hlen off ptrs payload) = 4 + ptrs.length := by
    unfold wireCount packetBytes headerBytes
    simp only [List.append_assoc, List.cons_append, List.nil_append, List.drop_succ_cons, List.drop_zero]
    rw [List.take_left' (beBytes_length _ _), beNat_beBytes_of_lt (by omega)]
  have hlt : ∀ p ∈ ([2 ^ 63 + 1 * 2 ^ (8 * w) + cnt, 2 ^ 63 + 2 * 2 ^ (8 * w) + hlen, 2 ^ 63 + 3 * 2 ^ (8 * w) + off,
    2 ^ 63 + 4 * 2 ^ (8 * w) + payload.length] ++ ptrs), p < 2 ^ 64 := by
    have : 2 ^ (8 * w) ≤ 2 ^ 56 := Nat.pow_le_pow_right (by omega) (by omega)
    intro p hpm
    simp only [List.mem_append, List.mem_cons, List.not_mem_nil, or_false] at hpm
    rcases hpm with (rfl | rfl | rfl | rfl) | hpm
    · omega
    · omega
    · omega
    · omega
    · exact hp p hpm
  have h8 : (headerBytes (UInt8.ofNat (8 - w)) (UInt8.ofNat w) 0 0 (4 + ptrs.length)).length = 8 := by
    simp [headerBytes]
  refine ⟨hc, ?_, ?_⟩
  · unfold wirePointers
    rw [hc]
    unfold packetBytes
    rw [List.append_assoc, List.drop_left' h8]
    have := words_flatMap _ payload hlt
    rw [show 4 + ptrs.length = ([2 ^ 63 + 1 * 2 ^ (8 * w) + cnt, 2 ^ 63 + 2 * 2 ^ (8 * w) + hlen, 2 ^ 63 + 3 * 2 ^ (8 * w) + off,
      2 ^ 63 + 4 * 2 ^ (8 * w) + payload.length] ++ ptrs).length by simp; omega, this]
    rfl
  · unfold wirePayload
    rw [hc]
    unfold packetBytes
    apply List.drop_left'
    rw [List.length_append, h8, flatMap_be_length]
    simp; omega

theorem itemPtr_lt {w : Nat} (hw1 : 1 ≤ w) (hw7 : w ≤ 7) {it : SendItem} (hid : it.id < 2 ^ (63 - 8 * w))
    (hin : ∀ v, it.value = .inline v → v < 2 ^ (8 * w)) {a : Nat} (ha : a < 2 ^ (8 * w)) : itemPtr w a it < 2 ^ 64 := by
  have hpow : 2 ^ 63 = 2 ^ (8 * w) * 2 ^ (63 - 8 * w) := by rw [← Nat.pow_add]; congr 1; omega
  have hle : 2 ^ (8 * w) * (it.id + 1) ≤ 2 ^ (8 * w) * 2 ^ (63 - 8 * w) := Nat.mul_le_mul_left _ hid
  rw [← hpow, Nat.mul_succ] at hle
  unfold itemPtr
  rw [Nat.mul_comm it.id]
  cases hv : it.value with
  | inline v => have := hin v hv; simp only; omega
  | buffer b allow =>
    simp only
    split
    · rename_i hc
      have hb : beNat b < 2 ^ (8 * w) := by
        rw [← pow256_eq]
        exact Nat.lt_of_lt_of_le (beNat_lt b) (Nat.pow_le_pow_right (by omega) hc.2)
      omega
    · omega

theorem fullPtrs_lt (g : Gen) (w : Nat) (ok : g.Ok w) : ∀ p ∈ g.fullPtrs w, p < 2 ^ 64 := by
  have hpow : 2 ^ (8 * w) ≤ 2 ^ 56 := Nat.pow_le_pow_right (by omega) (by have := ok.w7; omega)
  intro p hp
  have hr := ok.real
  have hs := ok.size
  unfold Gen.fullPtrs at hp
  rcases List.mem_append.1 hp with hp | hp
  · obtain ⟨i, hi⟩ := List.getElem?_of_mem hp
    rw [itemPtrs_getElem?] at hi
    cases hit : g.heap.items[i]? with
    | none => simp [hit] at hi
    | some it =>
      rw [hit] at hi
      simp only [Option.map_some, Option.some.injEq] at hi
      have hmem := List.mem_of_getElem? hit
      have := take_real_le w g.heap.items i
      rw [← hi]
      exact itemPtr_lt ok.w1 ok.w7 (ok.ids it hmem) (ok.inl it hmem) (by omega)
  · split at hp
    · simp at hp; omega
    · simp at hp

/-- The parts of a run are what a reader of the packets sees. -/
theorem packetSeq_wire {w cnt hlen : Nat} (hw : w ≤ 7) (hcnt : cnt < 2 ^ (8 * w)) (hhl : hlen < 2 ^ (8 * w))
    (parts : List (List Nat × Bytes)) (off : Nat)
    (hsum : off + (parts.map (fun x => x.2.length)).sum ≤ hlen)
    (hn : ∀ x ∈ parts, 4 + x.1.length < 65536) (hp : ∀ x ∈ parts, ∀ p ∈ x.1, p < 2 ^ 64) :
    (packetSeq w cnt hlen off parts).map (fun d => (wirePointers d, wirePayload d)) = parts := by
  induction parts generalizing off with
  | nil => rfl
  | cons x rest ih =>
    obtain ⟨ptrs, payload⟩ := x
    simp only [List.map_cons, List.sum_cons] at hsum
    have := wire_packetBytes (off := off) (payload := payload) (ptrs := ptrs) hw hcnt hhl (by omega) (by omega)
      (hn (ptrs, payload) (by simp)) (hp (ptrs, payload) (by simp))
    simp only [packetSeq, List.map_cons, this.2.1, this.2.2]
    rw [ih _ (by omega) (fun x hx => hn x (by simp [hx])) (fun x hx => hp x (by simp [hx]))]

theorem runOk_parts (g : Gen) (w : Nat) (ok : g.Ok w) {pkts : List GenPacket} {parts : List (List Nat × Bytes)}
    (rok : RunOk g w 0 0 pkts parts) :
    parts = pkts.map (fun p => (wirePointers p.bytes, wirePayload p.bytes)) ∧
    (parts.map (fun x => x.2.length)).sum = g.payloadSize := by
  have hsum : (parts.map (fun x => x.2.length)).sum = g.payloadSize := by
    have := congrArg List.length rok.payload
    simp only [List.drop_zero] at this
    rw [g.wire_length w ok, List.length_flatten, List.map_map] at this
    rw [← this]
    rfl
  refine ⟨?_, hsum⟩
  have hsub : ∀ x ∈ parts, ∀ p ∈ x.1, p ∈ g.fullPtrs w := by
    intro x hx p hp
    cases hr : g.heap.repeatPointers with
    | true => rw [rok.rep hr x hx] at hp; exact hp
    | false =>
      have := rok.once hr
      rw [List.drop_zero] at this
      rw [← this]
      exact List.mem_flatten.2 ⟨x.1, List.mem_map.2 ⟨x, hx, rfl⟩, hp⟩
  have hlen : ∀ x ∈ parts, x.1.length ≤ min g.maxItemPointers g.total := by
    intro x hx
    have h1 := rok.small x hx
    have h0 : 0 < x.2.length := List.length_pos_iff.2 (rok.nonempty x hx)
    have hm := ok.mps
    have : x.1.length ≤ g.total := by
      rw [← g.fullPtrs_length w]
      cases hr : g.heap.repeatPointers with
      | true => rw [rok.rep hr x hx]; exact Nat.le_refl _
      | false =>
        have := rok.once hr
        rw [List.drop_zero] at this
        rw [← this]
        exact (List.sublist_flatten_of_mem (List.mem_map.2 ⟨x, hx, rfl⟩)).length_le
    omega
  have := packetSeq_wire ok.w7 ok.cnt ok.size parts 0 (by omega)
    (fun x hx => by have := hlen x hx; have := ok.count; omega)
    (fun x hx p hp => fullPtrs_lt g w ok p (hsub x hx p hp))
  rw [← rok.bytes, List.map_map] at this
  exact this.symm

end Spead2
