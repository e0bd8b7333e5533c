import Verif.Lemmas.EndItems
import Verif.Spec.Descriptor

namespace Spead2
open Spec

/-! ### A heap made of one packet -/

theorem admit_first {p : Pkt} {ooo : Bool} (ho : p.payloadOffset = 0) : (LiveHeap.new p).admit p ooo ≠ none := by
  unfold LiveHeap.admit
  have h1 : lengthConflict (LiveHeap.new p).heapLength p.heapLength = false := rfl
  have h2 : lengthTooSmall (LiveHeap.new p).minLength p.heapLength = false := by
    show lengthTooSmall 0 p.heapLength = false
    cases p.heapLength <;> simp [lengthTooSmall]
  rw [h1, h2]
  simp only [Bool.false_eq_true, if_false, LiveHeap.new, ne_eq, not_true_eq_false]
  cases ooo with
  | true => simp [addRange]
  | false => simp [ho]

theorem run_single {p : Pkt} {ooo : Bool} (ho : p.payloadOffset = 0) (hv : PktValid p) :
    ∃ s, (LiveHeap.new p).run ooo [p] = some (s, [p]) ∧ s.cnt = p.heapCnt := by
  obtain ⟨s', b, h1, h2, h3, h4, h5, h6⟩ := addPacket_spec (LInv.new ooo p) hv
  have hb : b = true := by
    cases b with
    | true => rfl
    | false => exact absurd (h4.1 rfl) (admit_first ho)
  subst hb
  refine ⟨s', ?_, h2⟩
  simp only [LiveHeap.run]
  rw [h1]
  rfl

theorem itemPtrs_ids {w a : Nat} {items : List SendItem} {tail : List Nat} {ext : Nat} (h : Suffix w a items tail ext) :
    (itemPtrs w a items).map (idOf (8 * w)) = items.map SendItem.id := by
  induction items generalizing a with
  | nil => rfl
  | cons it rest ih =>
    simp only [itemPtrs, List.map_cons]
    rw [ih h.cons]
    have ha : a < 2 ^ (8 * w) := by have := h.lt; omega
    rcases item_cases w h.w1 h.w7 it a (h.ids it (by simp)).2 (h.inl it (by simp)) ha with ⟨_, v, _, _, _, _, hid, _⟩ | ⟨_, _, _, hid, _⟩ <;>
      rw [hid]

theorem itemPtrs_lt {w a : Nat} {items : List SendItem} {tail : List Nat} {ext : Nat} (h : Suffix w a items tail ext) :
    ∀ q ∈ itemPtrs w a items, q < 2 ^ 64 := by
  induction items generalizing a with
  | nil => intro q hq; simp [itemPtrs] at hq
  | cons it rest ih =>
    intro q hq
    simp only [itemPtrs] at hq
    rcases List.mem_cons.1 hq with rfl | hq
    · have ha : a < 2 ^ (8 * w) := by have := h.lt; omega
      have hpow : 2 ^ 63 = 2 ^ (8 * w) * 2 ^ (63 - 8 * w) := by rw [← Nat.pow_add]; congr 1; have := h.w7; omega
      have key : ∀ v, v < 2 ^ (8 * w) → it.id * 2 ^ (8 * w) + v < 2 ^ 63 := by
        intro v hv
        have h1 : it.id + 1 ≤ 2 ^ (63 - 8 * w) := (h.ids it (by simp)).2
        have h2 := Nat.mul_le_mul_right (2 ^ (8 * w)) h1
        rw [hpow, Nat.mul_comm (2 ^ (8 * w))]
        rw [Nat.add_mul, Nat.one_mul] at h2
        omega
      have e64 : (2 : Nat) ^ 64 = 2 ^ 63 + 2 ^ 63 := by decide
      cases hv : it.value with
      | inline v =>
        have := key v (h.inl it (by simp) v hv)
        simp only [itemPtr, hv]; omega
      | buffer b allow =>
        unfold itemPtr
        rw [hv]
        simp only
        split
        · rename_i hc
          have := key (beNat b) (beNat_lt_of_le hc.2)
          omega
        · have := key a ha
          omega
    · exact ih h.cons q hq

/-- What a receiver makes of a heap that arrives as one packet. -/
theorem single_items {w cnt : Nat} {items : List SendItem} (hsuf : Suffix w 0 items [] (realPayload w items).length)
    (hnd : (items.map SendItem.id).Nodup) (ooo : Bool) (p : Pkt)
    (hp : p = ⟨8 * w, cnt, some (realPayload w items).length, 0, realPayload w items, itemPtrs w 0 items⟩) :
    ∃ s adr imm, (LiveHeap.new p).run ooo [p] = some (s, [p]) ∧ s.cnt = cnt ∧ s.isComplete = true ∧ s.isContiguous = true ∧
      s.load true = some (adr ++ imm) ∧ (∀ it ∈ adr, it.isImm = false) ∧
      adr.map (fun it => (it.id, it.data)) = (addressedItems w items).map (fun x => (x.1, x.2.map some)) ∧
      (∀ it ∈ imm, it.isImm = true ∧ it.data = (beBytes w it.value).map some) ∧
      (imm.map (fun it => (it.id, it.value))).Perm (immediateItems w items).eraseDups := by
  have hv : PktValid p := by
    intro l hl
    rw [hp] at hl ⊢
    simp only [Option.some.injEq] at hl
    simp only; omega
  obtain ⟨s, hrun, hcnt⟩ := run_single (p := p) (ooo := ooo) (by rw [hp]) hv
  have h64 := itemPtrs_lt hsuf
  have hptr : p.pointers = itemPtrs w 0 items := by rw [hp]
  have hhab : p.hab = 8 * w := by rw [hp]
  have hpnd : (itemPtrs w 0 items).Nodup := by
    rw [← itemPtrs_ids hsuf, List.Nodup, List.pairwise_map] at hnd
    exact hnd.imp (fun h e => h (by rw [e]))
  have hext : extent [p] = (realPayload w items).length := by
    apply Nat.le_antisymm
    · apply extent_le
      intro q hq
      rw [List.mem_singleton] at hq
      subst hq
      unfold pktEnd
      have hle' : ∀ x ∈ q.pointers.filter (fun q => ¬ ptrImmediate q), x % 2 ^ q.hab ≤ (realPayload w items).length := by
        intro x hx
        obtain ⟨g1, g2⟩ := List.mem_filter.1 hx
        rw [hhab]
        rw [hptr] at g1
        exact suffix_le hsuf x (by simpa using g1) (of_decide_eq_true g2)
      have h1 : max (q.payloadOffset + q.payload.length) (q.heapLength.getD 0) ≤ (realPayload w items).length := by
        rw [hp]; simp
      generalize q.pointers.filter (fun q => ¬ ptrImmediate q) = l at hle'
      induction l with
      | nil => exact h1
      | cons x l ih =>
        simp only [List.foldr_cons]
        have := hle' x (by simp)
        have := ih (fun q hq => hle' q (by simp [hq]))
        omega
    · have h1 : p ∈ [p] := by simp
      have := le_extent h1
      have h2 := le_pktEnd (p := p) (hl := (realPayload w items).length) (by rw [hp])
      omega
  have hps : ∀ q ∈ [p], PktValid q := by simpa using hv
  have hcov : ∀ x, x < extent [p] → Covered [p] x := by
    intro x hx
    rw [hext] at hx
    refine ⟨p, by simp, ?_⟩
    rw [hp]
    exact ⟨Nat.zero_le _, by simpa using hx⟩
  have hcomp : s.isComplete = true := (C13_complete_iff p ooo _ hps s _ hrun).2
    ⟨⟨p, by simp, by rw [hext, hp]⟩, hcov⟩
  have hcont : s.isContiguous = true := (C13_contiguous_iff p ooo _ hps s _ hrun).2 hcov
  obtain ⟨adr, imm, hload, ha1, ha2, ha3, ha4, hi1, hi2, _⟩ := C17_items p w hsuf.w7 hhab ooo _ hps
    (by intro q hq; rw [List.mem_singleton] at hq; subst hq; intro x hx; rw [hptr] at hx; exact h64 x hx) s _ hrun hcont
  have hrel : (relevantPtrs (8 * w) [p]).eraseDups = itemPtrs w 0 items := by
    have : relevantPtrs (8 * w) [p] = itemPtrs w 0 items := by
      unfold relevantPtrs
      rw [List.flatMap_cons, List.flatMap_nil, List.append_nil, hptr, List.filter_eq_self]
      intro q hq
      exact decide_eq_true (suffix_plain hsuf q (by simpa using hq)).2
    rw [this, eraseDups_of_nodup hpnd]
  rw [hrel] at ha3 hi2
  rw [hext] at ha1 ha3
  refine ⟨s, adr, imm, hrun, by rw [hcnt, hp], hcomp, hcont, hload, fun it hit => (ha1 it hit).1, ?_, hi1, ?_⟩
  · have hseg : adr.map (fun it => (it.id, it.start, it.start + it.data.length)) = segs w 0 items := by
      apply sorted_ext (fun x : Nat × Nat × Nat => x.2.1)
      · rw [List.pairwise_map]
        refine ha2.imp_of_mem ?_
        intro a b ha hb hab
        have := (ha1 a ha).2.1
        simp only; omega
      · exact segs_sorted w 0 items
      · rintro ⟨id, a, e⟩
        rw [segs_mem hsuf id a e (Nat.zero_le _), List.append_nil, ← ha3, List.mem_map]
        simp only [Prod.mk.injEq]
    have hdata : ∀ it ∈ adr, it.data = (((realPayload w items).drop it.start).take it.data.length).map some := by
      intro it hit
      obtain ⟨_, _, hb⟩ := ha1 it hit
      apply List.ext_getElem?
      intro i
      by_cases hi : i < it.data.length
      · obtain ⟨q, hq, hcp, hd⟩ := ha4 it hit i hi
        rw [List.mem_singleton] at hq
        subst hq
        have e0 : q.payloadOffset = 0 := by rw [hp]
        have e1 : q.payload = realPayload w items := by rw [hp]
        rw [e0, e1, Nat.sub_zero] at hd
        rw [hd, List.getElem?_map, List.getElem?_take_of_lt hi, List.getElem?_drop,
          List.getElem?_eq_getElem (by omega)]
        rfl
      · rw [List.getElem?_eq_none (by omega), List.getElem?_eq_none]
        simp; omega
    have hfin := segs_data w items [] []
    simp only [List.length_nil, List.nil_append, List.append_nil] at hfin
    rw [← hfin, ← hseg, List.map_map, List.map_map]
    apply List.map_congr_left
    intro it hit
    simp only [Function.comp, Nat.add_sub_cancel_left, Prod.mk.injEq, true_and]
    exact hdata it hit
  · refine hi2.trans ?_
    rw [List.perm_ext_iff_of_nodup]
    · rintro ⟨id, v⟩
      rw [List.mem_eraseDups, ← suffix_imm hsuf id v, List.append_nil]
      simp only [List.mem_map, List.mem_filter, Prod.mk.injEq]
      constructor
      · rintro ⟨q, ⟨hq1, hq2⟩, hq3, hq4⟩
        have hq2 := of_decide_eq_true hq2
        exact ⟨q, hq1, hq2.1, hq2.2, hq3, hq4⟩
      · rintro ⟨q, hq1, hq2, hq3, hq4, hq5⟩
        exact ⟨q, ⟨hq1, decide_eq_true ⟨hq2, hq3⟩⟩, hq4, hq5⟩
    · have hx : ((itemPtrs w 0 items).map (idOf (8 * w))).Nodup := by rw [itemPtrs_ids hsuf]; exact hnd
      rw [List.Nodup, List.pairwise_map] at hx
      have hx' := hx.sublist (List.filter_sublist (p := fun q => decide (ptrImmediate q ∧ idOf (8 * w) q ≠ 0)))
      rw [List.Nodup, List.pairwise_map]
      refine hx'.imp ?_
      intro a b hab heq
      simp only [Prod.mk.injEq] at heq
      exact hab heq.1
    · exact nodup_eraseDups' _

/-! ### Splitting fields -/

theorem fieldChunks_flatMap {α β : Type} (fs : Nat) (hfs : 0 < fs) (f : β → List α) (hf : ∀ x, (f x).length = fs) :
    ∀ (l : List β) (k : Nat), l.length ≤ k → fieldChunks fs k (l.flatMap f) = l.map f
  | [], 0, _ => rfl
  | [], k + 1, _ => by simp [fieldChunks]; omega
  | x :: l, 0, h => by simp at h
  | x :: l, k + 1, h => by
    simp only [fieldChunks, List.flatMap_cons, List.map_cons]
    rw [if_pos (by rw [List.length_append, hf]; omega), ← hf x, List.take_left, List.drop_left, hf x,
      fieldChunks_flatMap fs hfs f hf l k (by simpa using h)]

theorem mapM_id_some (l : Bytes) : (l.map some).mapM id = some l := by
  induction l with
  | nil => rfl
  | cons x l ih => rw [List.map_cons, List.mapM_cons, ih]; rfl

theorem mapM_map_some {α β γ : Type} (f : β → Option γ) (g : α → β) (h : α → γ) (l : List α)
    (hfg : ∀ x ∈ l, f (g x) = some (h x)) : (l.map g).mapM f = some (l.map h) := by
  induction l with
  | nil => rfl
  | cons x l ih =>
    rw [List.map_cons, List.mapM_cons, hfg x (by simp), ih (fun y hy => hfg y (by simp [hy]))]; rfl

theorem loadBytesBe_beBytes {k v : Nat} (hk : k ≤ 8) (hv : v < 2 ^ (8 * k)) : loadBytesBe? ((beBytes k v).map some) = some v := by
  unfold loadBytesBe?
  rw [if_pos (by simp [hk]), mapM_id_some]
  rw [Option.map_some, beNat_beBytes_of_lt (by rw [show (256 : Nat) = 2 ^ 8 from rfl, ← Nat.pow_mul]; exact hv)]

theorem toU64_of_nonneg {x : Int} (h : 0 ≤ x) (h' : x < 2 ^ 64) : toU64 x = x.toNat := by
  unfold toU64
  rw [Int.emod_eq_of_lt h h']

theorem ofU64_toNat {x : Int} (h : 0 ≤ x) (h' : x < 2 ^ 63) : ofU64 x.toNat = x := by
  unfold ofU64
  rw [if_pos (by omega)]
  omega

theorem int_lt_pow_mono {x : Int} {a b : Nat} (h : x < 2 ^ a) (hab : a ≤ b) : x < 2 ^ b := by
  have h1 : (2 : Nat) ^ a ≤ 2 ^ b := Nat.pow_le_pow_right (by omega) hab
  have h2 : ((2 ^ a : Nat) : Int) ≤ ((2 ^ b : Nat) : Int) := Int.ofNat_le.2 h1
  simp only [Int.natCast_pow] at h2
  exact Int.lt_of_lt_of_le h h2

theorem bugWidths_iff (bc : Nat) : bugWidths bc = true ↔ bc % 2 = 1 := by
  unfold bugWidths
  rw [Nat.and_one_is_mod]
  simp

/-! ### The items of a descriptor packet -/

/-- Bytes of the format field. -/
def fmtBytes (hab bc : Nat) (d : Descriptor) : Bytes := (d.format.map (encodeFormat hab bc)).flatMap Prod.fst
/-- Bytes of the shape field. -/
def shpBytes (hab bc : Nat) (d : Descriptor) : Bytes := (d.shape.map (encodeDim hab bc)).flatMap Prod.fst

/-- A descriptor packet is the packet of a heap with these items. -/
def descItems (hab bc : Nat) (d : Descriptor) : List SendItem :=
  [⟨DESCRIPTOR_ID_ID, .inline d.id.toNat⟩, ⟨DESCRIPTOR_NAME_ID, .buffer d.name false⟩,
    ⟨DESCRIPTOR_DESCRIPTION_ID, .buffer d.description false⟩, ⟨DESCRIPTOR_FORMAT_ID, .buffer (fmtBytes hab bc d) false⟩,
    ⟨DESCRIPTOR_SHAPE_ID, .buffer (shpBytes hab bc d) false⟩] ++
  (if d.numpyHeader ≠ [] then [⟨DESCRIPTOR_DTYPE_ID, .buffer d.numpyHeader false⟩] else [])

theorem encodeFormat_length (hab bc : Nat) (h : 0 < txFieldSize hab bc) (f : UInt8 × Int) :
    (encodeFormat hab bc f).1.length = txFieldSize hab bc := by
  simp [encodeFormat, storeBytesBe]; omega

theorem encodeDim_length (hab bc : Nat) (h : 0 < txShapeSize hab bc) (x : Int) :
    (encodeDim hab bc x).1.length = txShapeSize hab bc := by
  simp [encodeDim, storeBytesBe]; omega

theorem length_flatMap_const {α β : Type} (f : α → List β) (n : Nat) (hf : ∀ x, (f x).length = n) (l : List α) :
    (l.flatMap f).length = l.length * n := by
  induction l with
  | nil => simp
  | cons x l ih => rw [List.flatMap_cons, List.length_append, hf, ih, List.length_cons, Nat.add_mul]; omega

theorem txFieldSize_eq {w bc : Nat} (hw7 : w ≤ 7) : txFieldSize (8 * w) bc = 1 + formatWidth w bc := by
  unfold txFieldSize formatWidth
  have := bugWidths_iff bc
  by_cases h : bc % 2 = 1
  · rw [if_pos h, if_pos (this.2 h)]
  · rw [if_neg h, if_neg (fun h' => h (this.1 h'))]; omega

theorem txShapeSize_eq {w bc : Nat} : txShapeSize (8 * w) bc = 1 + shapeWidth w bc := by
  unfold txShapeSize shapeWidth
  have := bugWidths_iff bc
  by_cases h : bc % 2 = 1
  · rw [if_pos h, if_pos (this.2 h)]
  · rw [if_neg h, if_neg (fun h' => h (this.1 h'))]; omega

theorem fmtBytes_length {w bc : Nat} (hw7 : w ≤ 7) (d : Descriptor) :
    (fmtBytes (8 * w) bc d).length = d.format.length * (1 + formatWidth w bc) := by
  unfold fmtBytes
  have hs := txFieldSize_eq (bc := bc) hw7
  rw [List.flatMap_map, length_flatMap_const _ (1 + formatWidth w bc)]
  intro f
  rw [encodeFormat_length _ _ (by omega), hs]

theorem shpBytes_length {w bc : Nat} (d : Descriptor) :
    (shpBytes (8 * w) bc d).length = d.shape.length * (1 + shapeWidth w bc) := by
  unfold shpBytes
  have hs := txShapeSize_eq (w := w) (bc := bc)
  rw [List.flatMap_map, length_flatMap_const _ (1 + shapeWidth w bc)]
  intro f
  rw [encodeDim_length _ _ (by omega), hs]

theorem descItems_payload (w bc : Nat) (d : Descriptor) : realPayload w (descItems (8 * w) bc d) =
    d.name ++ (d.description ++ (fmtBytes (8 * w) bc d ++ (shpBytes (8 * w) bc d ++ d.numpyHeader))) := by
  unfold descItems realPayload
  by_cases h : d.numpyHeader = []
  · simp [itemPayload, h]
  · simp [itemPayload, h]

theorem descItems_length {w bc : Nat} (hw7 : w ≤ 7) (d : Descriptor) :
    (realPayload w (descItems (8 * w) bc d)).length = descriptorLength w bc d := by
  rw [descItems_payload]
  simp only [List.length_append, fmtBytes_length hw7, shpBytes_length]
  unfold descriptorLength
  omega

theorem descItems_suffix {w bc : Nat} (hw1 : 1 ≤ w) (hw7 : w ≤ 7) {d : Descriptor} (hid : d.id < 2 ^ (8 * w))
    (h0 : 0 ≤ d.id)
    (hl : descriptorLength w bc d < 2 ^ (8 * w)) :
    Suffix w 0 (descItems (8 * w) bc d) [] (realPayload w (descItems (8 * w) bc d)).length := by
  have h128 : 128 ≤ 2 ^ (63 - 8 * w) := Nat.le_trans (by decide : 128 ≤ 2 ^ 7) (Nat.pow_le_pow_right (by omega) (by omega))
  have hids : ∀ it ∈ descItems (8 * w) bc d, 4 < it.id ∧ it.id < 128 := by
    intro it hit
    unfold descItems at hit
    simp only [List.cons_append, List.nil_append, List.mem_cons] at hit
    rcases hit with rfl | rfl | rfl | rfl | rfl | hit
    · simp only; decide
    · simp only; decide
    · simp only; decide
    · simp only; decide
    · simp only; decide
    · split at hit
      · rw [List.mem_singleton] at hit
        subst hit; simp only; decide
      · simp at hit
  refine ⟨hw1, hw7, fun it hit => ⟨(hids it hit).1, by have := (hids it hit).2; omega⟩, ?_, ?_, Or.inr ⟨rfl, (Nat.zero_add _).symm⟩, by omega⟩
  · intro it hit v hv
    unfold descItems at hit
    simp only [List.cons_append, List.nil_append, List.mem_cons] at hit
    rcases hit with rfl | rfl | rfl | rfl | rfl | hit
    · simp only [ItemValue.inline.injEq] at hv
      subst hv
      have : ((2 ^ (8 * w) : Nat) : Int) = (2 : Int) ^ (8 * w) := by simp
      omega
    · simp at hv
    · simp at hv
    · simp at hv
    · simp at hv
    · split at hit
      · rw [List.mem_singleton] at hit
        subst hit; simp at hv
      · simp at hit
  · rw [descItems_length hw7]; omega

theorem descItems_nodup (hab bc : Nat) (d : Descriptor) : ((descItems hab bc d).map SendItem.id).Nodup := by
  unfold descItems
  by_cases h : d.numpyHeader = []
  · rw [if_neg (by simpa using h)]
    simp only [List.map_cons, List.map_append, List.map_nil, List.append_nil]
    decide
  · rw [if_pos (by simpa using h)]
    simp only [List.map_cons, List.map_append, List.map_nil, List.cons_append, List.nil_append]
    decide

theorem all_map_snd {α : Type} (f : α → Bytes × Bool) (l : List α) (h : ∀ x ∈ l, (f x).2 = true) : (l.map f).all Prod.snd = true := by
  rw [List.all_eq_true]
  intro y hy
  obtain ⟨x, hx, rfl⟩ := List.mem_map.1 hy
  exact h x hx

theorem encodeFormat_ok {w bc : Nat} (hw1 : 1 ≤ w) (hw7 : w ≤ 7) {f : UInt8 × Int} (h0 : 0 ≤ f.2) (h : f.2 < 2 ^ (8 * formatWidth w bc)) :
    encodeFormat (8 * w) bc f = (f.1 :: beBytes (formatWidth w bc) f.2.toNat, true) := by
  have hfw : formatWidth w bc ≤ 7 := by unfold formatWidth; split <;> omega
  have h64 : f.2 < 2 ^ 64 := int_lt_pow_mono h (by omega)
  unfold encodeFormat storeBytesBe
  rw [txFieldSize_eq hw7, Nat.add_sub_cancel_left, toU64_of_nonneg h0 h64]
  simp only [Prod.mk.injEq, true_and]
  have : ((2 ^ (8 * formatWidth w bc) : Nat) : Int) = (2 : Int) ^ (8 * formatWidth w bc) := by simp
  rw [Bool.or_eq_true]
  right
  apply decide_eq_true
  omega

theorem encodeDim_ok {w bc : Nat} (hw1 : 1 ≤ w) (hw7 : w ≤ 7) {x : Int} (h : x < 2 ^ (8 * shapeWidth w bc)) :
    encodeDim (8 * w) bc x =
      ((if x < 0 then (if bugShapeBit bc then 2 else 1) else 0) :: beBytes (shapeWidth w bc) x.toNat, true) := by
  have hfw : shapeWidth w bc ≤ 7 := by unfold shapeWidth; split <;> omega
  have h64 : x < 2 ^ 64 := int_lt_pow_mono h (by omega)
  unfold encodeDim storeBytesBe
  rw [txShapeSize_eq, Nat.add_sub_cancel_left]
  have hp : ((2 ^ (8 * shapeWidth w bc) : Nat) : Int) = (2 : Int) ^ (8 * shapeWidth w bc) := by simp
  have hpos : 0 < (2 : Nat) ^ (8 * shapeWidth w bc) := Nat.two_pow_pos _
  have e : toU64 (if x < 0 then 0 else x) = x.toNat := by
    by_cases hx : x < 0
    · rw [if_pos hx]
      have : x.toNat = 0 := by omega
      rw [this]; decide
    · rw [if_neg hx, toU64_of_nonneg (by omega) h64]
  simp only [e, Prod.mk.injEq, true_and]
  rw [Bool.or_eq_true]
  right
  apply decide_eq_true
  omega

theorem descItems_ptrs {w bc : Nat} (d : Descriptor) : itemPtrs w 0 (descItems (8 * w) bc d) =
    [2 ^ 63 + DESCRIPTOR_ID_ID * 2 ^ (8 * w) + d.id.toNat, DESCRIPTOR_NAME_ID * 2 ^ (8 * w) + 0,
      DESCRIPTOR_DESCRIPTION_ID * 2 ^ (8 * w) + d.name.length,
      DESCRIPTOR_FORMAT_ID * 2 ^ (8 * w) + (d.name.length + d.description.length),
      DESCRIPTOR_SHAPE_ID * 2 ^ (8 * w) + (d.name.length + d.description.length + (fmtBytes (8 * w) bc d).length)] ++
    (if d.numpyHeader ≠ [] then [DESCRIPTOR_DTYPE_ID * 2 ^ (8 * w) +
      (d.name.length + d.description.length + (fmtBytes (8 * w) bc d).length + (shpBytes (8 * w) bc d).length)] else []) := by
  unfold descItems
  by_cases h : d.numpyHeader = []
  · rw [if_neg (by simpa using h), if_neg (by simpa using h)]
    simp [itemPtrs, itemPtr, itemPayload]
  · rw [if_pos (by simpa using h), if_pos (by simpa using h)]
    simp [itemPtrs, itemPtr, itemPayload]

/-- The packet produced for a descriptor. -/
theorem encodeDescriptor_bytes {w bc : Nat} (hw1 : 1 ≤ w) (hw7 : w ≤ 7) {d : Descriptor} (fit : DescriptorFits w bc d)
    (hid : d.id < 2 ^ (8 * w)) :
    encodeDescriptor (8 * w) bc d = .ok (packetBytes w 1 (descriptorLength w bc d) 0 (itemPtrs w 0 (descItems (8 * w) bc d))
      (realPayload w (descItems (8 * w) bc d)), true) := by
  have hfs := txFieldSize_eq (bc := bc) hw7
  have hss := txShapeSize_eq (w := w) (bc := bc)
  have hlen := fit.length
  have hpl : d.name.length + d.description.length + d.format.length * txFieldSize (8 * w) bc +
      d.shape.length * txShapeSize (8 * w) bc + d.numpyHeader.length = descriptorLength w bc d := by
    unfold descriptorLength; rw [hfs, hss]
  have hid0 := fit.id.1
  have hid1 := fit.id.2
  have hidn : d.id.toNat < 2 ^ (8 * w) := by
    have : ((2 ^ (8 * w) : Nat) : Int) = (2 : Int) ^ (8 * w) := by simp
    omega
  have h64 : d.id < 2 ^ 64 := int_lt_pow_mono hid1 (by omega)
  have h128 : 128 ≤ 2 ^ (63 - 8 * w) := Nat.le_trans (by decide : 128 ≤ 2 ^ 7) (Nat.pow_le_pow_right (by omega) (by omega))
  have hone : 1 < 2 ^ (8 * w) := Nat.lt_of_lt_of_le (by decide : 1 < 2 ^ 8) (Nat.pow_le_pow_right (by omega) (by omega))
  unfold encodeDescriptor
  rw [if_neg (by rw [show 8 * 8 - 1 - 8 * w = 63 - 8 * w by omega]; omega)]
  simp only [hpl, toU64_of_nonneg (Int.le_of_lt hid0) h64]
  have hfl := fmtBytes_length (bc := bc) hw7 d
  have hsl := shpBytes_length (w := w) (bc := bc) d
  rw [← hfs] at hfl
  rw [← hss] at hsl
  have himm : ∀ id v, id < 128 → v < 2 ^ (8 * w) → encodeImmediate (8 * w) id v = 2 ^ 63 + id * 2 ^ (8 * w) + v := by
    intro id v h1 h2
    rw [encodeImmediate_eq (by omega) (by omega) h2, Nat.add_assoc]
  have hadr : ∀ id v, id < 128 → v < 2 ^ (8 * w) → encodeAddress (8 * w) id v = id * 2 ^ (8 * w) + v := by
    intro id v h1 h2
    exact encodeAddress_eq (by omega) (by omega) h2
  have hass : ∀ id v, id < 128 → v < 2 ^ (8 * w) → decide (encodeAsserts (8 * w) id v) = true := by
    intro id v h1 h2
    exact decide_eq_true ((encodeAsserts_iff hw1 hw7).2 ⟨by omega, h2⟩)
  have hfa := all_map_snd (encodeFormat (8 * w) bc) d.format (fun f hf => by
    rw [encodeFormat_ok hw1 hw7 (fit.format f hf).1 (fit.format f hf).2])
  have hsa := all_map_snd (encodeDim (8 * w) bc) d.shape (fun x hx => by
    rw [encodeDim_ok hw1 hw7 (fit.shape x hx)])
  rw [hfa, hsa, Bool.and_true, Bool.and_true]
  have hsum : d.name.length + d.description.length + (fmtBytes (8 * w) bc d).length + (shpBytes (8 * w) bc d).length +
      d.numpyHeader.length = descriptorLength w bc d := by rw [hfl, hsl, hpl]
  rw [← hfl, ← hsl, descItems_ptrs, descItems_payload]
  unfold packetBytes
  have hpay : (d.name ++ (d.description ++ (fmtBytes (8 * w) bc d ++ (shpBytes (8 * w) bc d ++ d.numpyHeader)))).length =
      descriptorLength w bc d := by
    rw [← hsum]; simp only [List.length_append]; omega
  rw [hpay]
  congr 2
  · have hhead := headerWord_bytes w
    have e1 : (d.format.map (encodeFormat (8 * w) bc)).flatMap Prod.fst = fmtBytes (8 * w) bc d := rfl
    have e2 : (d.shape.map (encodeDim (8 * w) bc)).flatMap Prod.fst = shpBytes (8 * w) bc d := rfl
    rw [e1, e2, Nat.mul_div_cancel_left _ (by decide : 0 < 8)]
    unfold packetHeaderWord at hhead
    by_cases h : d.numpyHeader = []
    · simp only [h, ne_eq, not_true_eq_false, if_false, List.append_nil, Nat.add_zero, List.length_cons, List.length_nil]
      rw [show (9 : Nat) = 5 + 4 from rfl, hhead 5 hw7 (by decide)]
      simp only [List.map_cons, List.map_nil, List.flatMap_append, List.append_assoc]
      congr 1
      rw [himm _ _ (by decide) hone, himm _ _ (by decide) hlen, himm _ _ (by decide) (by omega), himm _ _ (by decide) hlen,
        himm _ _ (by decide) hidn, hadr _ _ (by decide) (by omega), hadr _ _ (by decide) (by omega), hadr _ _ (by decide) (by omega),
        hadr _ _ (by decide) (by omega)]
      simp only [List.flatMap_cons, List.flatMap_nil, List.append_nil, List.append_assoc]
      rfl
    · simp only [h, ne_eq, not_false_eq_true, if_true, List.append_nil, Nat.add_zero, List.length_cons, List.length_nil,
        List.length_append]
      rw [show (9 + 1 : Nat) = 6 + 4 from rfl, hhead 6 hw7 (by decide)]
      simp only [List.map_cons, List.map_nil, List.flatMap_append, List.append_assoc, List.map_append]
      congr 1
      rw [himm _ _ (by decide) hone, himm _ _ (by decide) hlen, himm _ _ (by decide) (by omega), himm _ _ (by decide) hlen,
        himm _ _ (by decide) hidn, hadr _ _ (by decide) (by omega), hadr _ _ (by decide) (by omega), hadr _ _ (by decide) (by omega),
        hadr _ _ (by decide) (by omega), hadr _ _ (by decide) (by omega)]
      simp only [List.flatMap_cons, List.flatMap_nil, List.append_nil, List.append_assoc]
      rfl
  · rw [List.all_eq_true]
    intro x hx
    by_cases h : d.numpyHeader = []
    · simp only [h, ne_eq, not_true_eq_false, if_false, List.append_nil, List.cons_append, List.nil_append, List.mem_cons,
        List.not_mem_nil, or_false] at hx
      rcases hx with rfl | rfl | rfl | rfl | rfl | rfl | rfl | rfl | rfl <;> exact hass _ _ (by simp only; decide) (by simp only; omega)
    · simp only [h, ne_eq, not_false_eq_true, if_true, List.cons_append, List.nil_append, List.mem_cons,
        List.not_mem_nil, or_false] at hx
      rcases hx with rfl | rfl | rfl | rfl | rfl | rfl | rfl | rfl | rfl | rfl <;>
        exact hass _ _ (by simp only; decide) (by simp only; omega)

end Spead2
