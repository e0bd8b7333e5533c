import Verif.Lemmas.Descriptor

/-!
# C18: item descriptors survive the trip

A descriptor is sent as an item whose value is a complete packet; the receiver decodes that packet, builds
a heap from it and interprets its items.
-/

namespace Spead2
open Spec

theorem descriptorStep_congr (hab bc : Nat) (out : Descriptor) (a b : RxItem) (h1 : a.id = b.id) (h2 : a.isImm = b.isImm)
    (h3 : a.data = b.data) : descriptorStep hab bc out a = descriptorStep hab bc out b := by
  unfold descriptorStep
  rw [h1, h2, h3]

/-- `descriptorStep` for an addressed item. -/
def adrStep (hab bc : Nat) (out : Descriptor) (x : Nat × Bytes) : Option Descriptor :=
  descriptorStep hab bc out ⟨x.1, false, 0, 0, x.2.map some⟩

theorem foldlM_adr (hab bc : Nat) : ∀ (adr : List RxItem) (l : List (Nat × Bytes)) (out : Descriptor), (∀ it ∈ adr, it.isImm = false) →
    adr.map (fun it => (it.id, it.data)) = l.map (fun x => (x.1, x.2.map some)) →
    adr.foldlM (descriptorStep hab bc) out = l.foldlM (adrStep hab bc) out
  | [], [], _, _, _ => rfl
  | [], _ :: _, _, _, h => by simp at h
  | _ :: _, [], _, _, h => by simp at h
  | a :: adr, x :: l, out, hi, h => by
    rw [List.map_cons, List.map_cons, List.cons.injEq, Prod.mk.injEq] at h
    rw [List.foldlM_cons, List.foldlM_cons]
    have e : descriptorStep hab bc out a = adrStep hab bc out x :=
      descriptorStep_congr hab bc out _ _ h.1.1 (hi a (by simp)) h.1.2
    rw [e]
    congr 1
    funext o
    exact foldlM_adr hab bc adr l o (fun it hit => hi it (by simp [hit])) h.2

theorem foldlM_block (hab bc id : Nat) (b : Bytes) (out out' : Descriptor) (hne : b ≠ [] → adrStep hab bc out (id, b) = some out')
    (he : b = [] → out = out') (rest : List (Nat × Bytes)) :
    ((if b = [] then [] else [(id, b)]) ++ rest).foldlM (adrStep hab bc) out = rest.foldlM (adrStep hab bc) out' := by
  by_cases h : b = []
  · rw [if_pos h, he h]; rfl
  · rw [if_neg h, List.cons_append, List.foldlM_cons, hne h]; rfl

theorem descItems_addressed (w bc : Nat) (d : Descriptor) : addressedItems w (descItems (8 * w) bc d) =
    (if d.name = [] then [] else [(DESCRIPTOR_NAME_ID, d.name)]) ++
    ((if d.description = [] then [] else [(DESCRIPTOR_DESCRIPTION_ID, d.description)]) ++
    ((if fmtBytes (8 * w) bc d = [] then [] else [(DESCRIPTOR_FORMAT_ID, fmtBytes (8 * w) bc d)]) ++
    ((if shpBytes (8 * w) bc d = [] then [] else [(DESCRIPTOR_SHAPE_ID, shpBytes (8 * w) bc d)]) ++
    ((if d.numpyHeader = [] then [] else [(DESCRIPTOR_DTYPE_ID, d.numpyHeader)]) ++ [])))) := by
  unfold descItems addressedItems
  have key : ∀ (id : Nat) (b : Bytes) (l : List SendItem),
      (({ id := id, value := .buffer b false } : SendItem) :: l).filterMap
        (fun it => if itemPayload w it = [] then none else some (it.id, itemPayload w it)) =
      (if b = [] then [] else [(id, b)]) ++
        l.filterMap (fun it => if itemPayload w it = [] then none else some (it.id, itemPayload w it)) := by
    intro id b l
    rw [List.filterMap_cons]
    have : itemPayload w ⟨id, .buffer b false⟩ = b := by simp [itemPayload]
    rw [this]
    by_cases h : b = []
    · simp [h]
    · simp [h]
  have key0 : ∀ (id v : Nat) (l : List SendItem),
      (({ id := id, value := .inline v } : SendItem) :: l).filterMap
        (fun it => if itemPayload w it = [] then none else some (it.id, itemPayload w it)) =
        l.filterMap (fun it => if itemPayload w it = [] then none else some (it.id, itemPayload w it)) := by
    intro id v l
    rw [List.filterMap_cons]
    simp [itemPayload]
  simp only [List.cons_append, List.nil_append]
  rw [key0, key, key, key, key]
  congr 4
  by_cases h : d.numpyHeader = []
  · rw [if_neg (by simpa using h), if_pos h]; rfl
  · rw [if_pos (by simpa using h), if_neg h, key, if_neg h]; rfl

theorem descItems_immediate (w bc : Nat) (d : Descriptor) : (immediateItems w (descItems (8 * w) bc d)).eraseDups =
    [(DESCRIPTOR_ID_ID, d.id.toNat)] := by
  have : immediateItems w (descItems (8 * w) bc d) = [(DESCRIPTOR_ID_ID, d.id.toNat)] := by
    unfold descItems immediateItems
    by_cases h : d.numpyHeader = []
    · simp [h]
    · simp [h]
  rw [this]; rfl

theorem decode_fmt {w bc : Nat} (hw1 : 1 ≤ w) (hw7 : w ≤ 7) {d : Descriptor} (hf : ∀ f ∈ d.format, 0 ≤ f.2 ∧ f.2 < 2 ^ (8 * formatWidth w bc))
    (out : Descriptor) (ho : out.format = []) :
    adrStep (8 * w) bc out (DESCRIPTOR_FORMAT_ID, fmtBytes (8 * w) bc d) = some { out with format := d.format } := by
  have hfw : formatWidth w bc ≤ 7 := by unfold formatWidth; split <;> omega
  unfold adrStep descriptorStep
  rw [if_neg (by simp only; decide), if_neg (by simp only; decide), if_neg (by simp only; decide), if_pos rfl]
  have efs : (if bugWidths bc = true then 4 else 1 + (8 - 8 * w / 8)) = 1 + formatWidth w bc := by
    unfold formatWidth
    have := bugWidths_iff bc
    by_cases h : bc % 2 = 1
    · rw [if_pos h, if_pos (this.2 h)]
    · rw [if_neg h, if_neg (fun h' => h (this.1 h'))]; omega
  simp only [efs]
  have hb : (fmtBytes (8 * w) bc d).map some = d.format.flatMap (fun f => ((encodeFormat (8 * w) bc f).1).map some) := by
    unfold fmtBytes
    rw [List.flatMap_map, List.map_flatMap]
  have hs := txFieldSize_eq (bc := bc) hw7
  rw [hb, fieldChunks_flatMap (1 + formatWidth w bc) (by omega) _
    (fun f => by rw [List.length_map, encodeFormat_length _ _ (by omega), hs])]
  · rw [mapM_map_some decodeFormat _ id]
    · simp [ho]
    · intro f hfm
      obtain ⟨h0, h1⟩ := hf f hfm
      rw [encodeFormat_ok hw1 hw7 h0 h1]
      simp only [List.map_cons, decodeFormat]
      have hp : ((2 ^ (8 * formatWidth w bc) : Nat) : Int) = (2 : Int) ^ (8 * formatWidth w bc) := by simp
      rw [loadBytesBe_beBytes (by omega) (by omega)]
      have : ofU64 f.2.toNat = f.2 := ofU64_toNat h0 (int_lt_pow_mono h1 (by omega))
      simp [this]
  · rw [length_flatMap_const _ (1 + formatWidth w bc)]
    · rw [Nat.mul_add]; omega
    · intro f; rw [List.length_map, encodeFormat_length _ _ (by omega), hs]

theorem decode_shp {w bc : Nat} (hw1 : 1 ≤ w) (hw7 : w ≤ 7) {d : Descriptor} (hf : ∀ x ∈ d.shape, x < 2 ^ (8 * shapeWidth w bc))
    (out : Descriptor) (ho : out.shape = []) :
    adrStep (8 * w) bc out (DESCRIPTOR_SHAPE_ID, shpBytes (8 * w) bc d) =
      some { out with shape := d.shape.map (fun x => if x < 0 then -1 else x) } := by
  have hfw : shapeWidth w bc ≤ 7 := by unfold shapeWidth; split <;> omega
  unfold adrStep descriptorStep
  rw [if_neg (by simp only; decide), if_neg (by simp only; decide), if_neg (by simp only; decide), if_neg (by simp only; decide), if_pos rfl]
  have efs : (if bugWidths bc = true then 8 else 1 + 8 * w / 8) = 1 + shapeWidth w bc := by
    unfold shapeWidth
    have := bugWidths_iff bc
    by_cases h : bc % 2 = 1
    · rw [if_pos h, if_pos (this.2 h)]
    · rw [if_neg h, if_neg (fun h' => h (this.1 h'))]; omega
  simp only [efs]
  have hb : (shpBytes (8 * w) bc d).map some = d.shape.flatMap (fun f => ((encodeDim (8 * w) bc f).1).map some) := by
    unfold shpBytes
    rw [List.flatMap_map, List.map_flatMap]
  have hs := txShapeSize_eq (w := w) (bc := bc)
  rw [hb, fieldChunks_flatMap (1 + shapeWidth w bc) (by omega) _
    (fun f => by rw [List.length_map, encodeDim_length _ _ (by omega), hs])]
  · rw [mapM_map_some (decodeDim bc) _ (fun x => if x < 0 then -1 else x)]
    · simp [ho]
    · intro x hxm
      have h1 := hf x hxm
      rw [encodeDim_ok hw1 hw7 h1]
      simp only [List.map_cons, decodeDim]
      by_cases hx : x < 0
      · rw [if_pos (by cases bugShapeBit bc <;> simp [hx]), if_pos hx]
      · rw [if_neg (by cases bugShapeBit bc <;> simp [hx]), if_neg hx]
        have hp : ((2 ^ (8 * shapeWidth w bc) : Nat) : Int) = (2 : Int) ^ (8 * shapeWidth w bc) := by simp
        rw [loadBytesBe_beBytes (by omega) (by omega)]
        have : ofU64 x.toNat = x := ofU64_toNat (by omega) (int_lt_pow_mono h1 (by omega))
        simp [this]
  · rw [length_flatMap_const _ (1 + shapeWidth w bc)]
    · rw [Nat.mul_add]; omega
    · intro f; rw [List.length_map, encodeDim_length _ _ (by omega), hs]

/-- `d` survives: encoding succeeds without a failed assertion, and a receiver that gets the packet (in
either packet mode) decodes it, has a complete heap, and reads back the descriptor. -/
def DescriptorSurvives (w bc : Nat) (d : Descriptor) : Prop :=
  ∃ bytes, encodeDescriptor (8 * w) bc d = .ok (bytes, true) ∧
    ∃ p, recvPkt? bytes = some (some p) ∧ p.hab = 8 * w ∧
      ∀ ooo, ∃ s items, (LiveHeap.new p).run ooo [p] = some (s, [p]) ∧ s.isComplete = true ∧ s.isContiguous = true ∧
        s.load true = some items ∧ toDescriptor (8 * w) bc items = some (receivedDescriptor d)

/-- Full property C18: every descriptor that the sender accepts and whose values fit survives. -/
def C18_statement : Prop :=
  ∀ (w bc : Nat) (d : Descriptor), 1 ≤ w → w ≤ 7 → DescriptorFits w bc d → DescriptorSurvives w bc d

/-- The packet that carries descriptor `d`, decoded. -/
def descPkt (w bc : Nat) (d : Descriptor) : Pkt :=
  ⟨8 * w, 1, some (descriptorLength w bc d), 0, realPayload w (descItems (8 * w) bc d), itemPtrs w 0 (descItems (8 * w) bc d)⟩

theorem descItems_count {w bc : Nat} (d : Descriptor) : 4 + (itemPtrs w 0 (descItems (8 * w) bc d)).length < 65536 := by
  rw [descItems_ptrs, List.length_append]
  have : ∀ x : Nat, (if d.numpyHeader ≠ [] then [x] else []).length ≤ 1 := by
    intro x; split <;> simp
  have := this (DESCRIPTOR_DTYPE_ID * 2 ^ (8 * w) +
    (d.name.length + d.description.length + (fmtBytes (8 * w) bc d).length + (shpBytes (8 * w) bc d).length))
  simp only [List.length_cons, List.length_nil]
  omega

theorem descPkt_survives (w bc : Nat) (d : Descriptor) (hw1 : 1 ≤ w) (hw7 : w ≤ 7) (fit : DescriptorFits w bc d)
    (hid : d.id < 2 ^ (8 * w)) : ∀ ooo, ∃ s items, (LiveHeap.new (descPkt w bc d)).run ooo [descPkt w bc d] = some (s, [descPkt w bc d]) ∧
      s.isComplete = true ∧ s.isContiguous = true ∧
        s.load true = some items ∧ toDescriptor (8 * w) bc items = some (receivedDescriptor d) := by
  have h0 := fit.id.1
  have hsuf := descItems_suffix (bc := bc) hw1 hw7 hid (Int.le_of_lt h0) fit.length
  have hlen := descItems_length (bc := bc) hw7 d
  unfold descPkt
  intro ooo
  obtain ⟨s, adr, imm, hrun, _, hcomp, hcont, hload, ha, hmap, hi, hperm⟩ := single_items (cnt := 1) hsuf (descItems_nodup (8 * w) bc d) ooo
    ⟨8 * w, 1, some (descriptorLength w bc d), 0, realPayload w (descItems (8 * w) bc d), itemPtrs w 0 (descItems (8 * w) bc d)⟩
    (by rw [hlen])
  refine ⟨s, adr ++ imm, hrun, hcomp, hcont, hload, ?_⟩
  -- the immediate item
  rw [descItems_immediate, List.perm_singleton] at hperm
  obtain ⟨it, himm⟩ : ∃ it, imm = [it] := by
    cases imm with
    | nil => simp at hperm
    | cons a l =>
      cases l with
      | nil => exact ⟨a, rfl⟩
      | cons b l => simp at hperm
  subst himm
  simp only [List.map_cons, List.map_nil, List.cons.injEq, Prod.mk.injEq, and_true] at hperm
  obtain ⟨hi1, hi2⟩ := hi it (by simp)
  have hidn : d.id.toNat < 2 ^ (8 * w) := by
    have : ((2 ^ (8 * w) : Nat) : Int) = (2 : Int) ^ (8 * w) := by simp
    omega
  have hlast : ∀ out, descriptorStep (8 * w) bc out it = some { out with id := d.id } := by
    intro out
    unfold descriptorStep
    rw [if_pos hperm.1, if_pos hi1, hi2, hperm.2, loadBytesBe_beBytes (by omega) hidn]
    simp [ofU64_toNat (Int.le_of_lt h0) (int_lt_pow_mono fit.id.2 (by omega))]
  unfold toDescriptor
  rw [List.foldlM_append, foldlM_adr _ _ _ _ _ ha hmap, descItems_addressed]
  have hfe : fmtBytes (8 * w) bc d = [] → d.format = [] := by
    intro h
    have := fmtBytes_length (bc := bc) hw7 d
    rw [h] at this
    simp only [List.length_nil, Nat.mul_add] at this
    exact List.length_eq_zero_iff.1 (by omega)
  have hse : shpBytes (8 * w) bc d = [] → d.shape = [] := by
    intro h
    have := shpBytes_length (w := w) (bc := bc) d
    rw [h] at this
    simp only [List.length_nil, Nat.mul_add] at this
    exact List.length_eq_zero_iff.1 (by omega)
  rw [foldlM_block (8 * w) bc DESCRIPTOR_NAME_ID d.name {} { name := d.name }
      (fun _ => by unfold adrStep descriptorStep; rw [if_neg (by simp only; decide), if_pos rfl, mapM_id_some]; rfl) (fun h => by rw [h]),
    foldlM_block (8 * w) bc DESCRIPTOR_DESCRIPTION_ID d.description _ { name := d.name, description := d.description }
      (fun _ => by unfold adrStep descriptorStep; rw [if_neg (by simp only; decide), if_neg (by simp only; decide), if_pos rfl, mapM_id_some]; rfl) (fun h => by rw [h]),
    foldlM_block (8 * w) bc DESCRIPTOR_FORMAT_ID (fmtBytes (8 * w) bc d) _
      { name := d.name, description := d.description, format := d.format }
      (fun _ => decode_fmt hw1 hw7 fit.format _ rfl) (fun h => by rw [hfe h]),
    foldlM_block (8 * w) bc DESCRIPTOR_SHAPE_ID (shpBytes (8 * w) bc d) _
      { name := d.name, description := d.description, format := d.format, shape := d.shape.map (fun x => if x < 0 then -1 else x) }
      (fun _ => decode_shp hw1 hw7 fit.shape _ rfl) (fun h => by rw [hse h]; rfl),
    foldlM_block (8 * w) bc DESCRIPTOR_DTYPE_ID d.numpyHeader _
      { name := d.name, description := d.description, format := d.format, shape := d.shape.map (fun x => if x < 0 then -1 else x), numpyHeader := d.numpyHeader }
      (fun _ => by
        unfold adrStep descriptorStep
        rw [if_neg (by simp only; decide), if_neg (by simp only; decide), if_neg (by simp only; decide), if_neg (by simp only; decide), if_neg (by simp only; decide), if_pos rfl, mapM_id_some]
        rfl) (fun h => by rw [h])]
  simp only [List.foldlM_nil, List.foldlM_cons, Option.pure_def, Option.bind_eq_bind, Option.bind_some, hlast, Option.map_some]
  unfold receivedDescriptor
  by_cases h : d.numpyHeader = []
  · simp [h]
  · simp [h]

/-- C18 for identifiers below `2 ^ heap_address_bits`. Missing: larger identifiers, possible when
`heap_address_bits ≤ 24`, which the sender accepts but garbles (`C18_violated`). -/
theorem C18_roundtrip_partial (w bc : Nat) (d : Descriptor) (hw1 : 1 ≤ w) (hw7 : w ≤ 7) (fit : DescriptorFits w bc d)
    (hid : d.id < 2 ^ (8 * w)) : DescriptorSurvives w bc d := by
  refine ⟨_, encodeDescriptor_bytes hw1 hw7 fit hid, ?_⟩
  have h0 := fit.id.1
  have hsuf := descItems_suffix (bc := bc) hw1 hw7 hid (Int.le_of_lt h0) fit.length
  have hlen := descItems_length (bc := bc) hw7 d
  have hone : 1 < 2 ^ (8 * w) := Nat.lt_of_lt_of_le (by decide : 1 < 2 ^ 8) (Nat.pow_le_pow_right (by omega) (by omega))
  have hrecv := recv_packetBytes (w := w) (cnt := 1) (hl := descriptorLength w bc d) (off := 0)
    (ptrs := itemPtrs w 0 (descItems (8 * w) bc d)) (payload := realPayload w (descItems (8 * w) bc d)) hw1 hw7 hone fit.length
    (by omega) (descItems_count d)
    (itemPtrs_lt hsuf) (fun q hq => (suffix_plain hsuf q (by simpa using hq)).1)
  exact ⟨_, hrecv, rfl, descPkt_survives w bc d hw1 hw7 fit hid⟩

/-- The default flavours (heap_address_bits 40 and 48) have no restriction on the identifier beyond the
sender's own check. -/
theorem C18_roundtrip_wide (w bc : Nat) (d : Descriptor) (hw : 4 ≤ w) (hw7 : w ≤ 7) (fit : DescriptorFits w bc d) :
    DescriptorSurvives w bc d :=
  C18_roundtrip_partial w bc d (by omega) hw7 fit (int_lt_pow_mono fit.id.2 (by omega))

/-- A descriptor exercising every field. -/
def sampleDescriptor : Descriptor where
  id := 0x1234
  name := [0x78, 0x79]
  description := [0x64]
  format := [(0x75, 32), (0x69, 7)]
  shape := [3, -5, 100000]

theorem sampleDescriptor_fits (bc : Nat) : DescriptorFits 5 bc sampleDescriptor where
  id := by decide
  format := by
    have : ∀ n, 1 ≤ n → (2 : Int) ^ (8 * 1) ≤ 2 ^ (8 * n) := fun n hn => by
      have h1 : (2 : Nat) ^ (8 * 1) ≤ 2 ^ (8 * n) := Nat.pow_le_pow_right (by omega) (by omega)
      have h2 := Int.ofNat_le.2 h1
      simpa using h2
    have := this (formatWidth 5 bc) (by unfold formatWidth; split <;> omega)
    intro f hf
    simp only [sampleDescriptor, List.mem_cons, List.not_mem_nil, or_false] at hf
    rcases hf with rfl | rfl <;> (simp only; omega)
  shape := by
    have : ∀ n, 5 ≤ n → (2 : Int) ^ (8 * 5) ≤ 2 ^ (8 * n) := fun n hn => by
      have h1 : (2 : Nat) ^ (8 * 5) ≤ 2 ^ (8 * n) := Nat.pow_le_pow_right (by omega) (by omega)
      have h2 := Int.ofNat_le.2 h1
      simpa using h2
    have := this (shapeWidth 5 bc) (by unfold shapeWidth; split <;> omega)
    intro f hf
    simp only [sampleDescriptor, List.mem_cons, List.not_mem_nil, or_false] at hf
    rcases hf with rfl | rfl | rfl <;> omega
  length := by
    have h1 : formatWidth 5 bc ≤ 7 := by unfold formatWidth; split <;> omega
    have h2 : shapeWidth 5 bc ≤ 7 := by unfold shapeWidth; split <;> omega
    simp only [descriptorLength, sampleDescriptor, List.length_cons, List.length_nil]
    omega

/-- Non-vacuity: with and without each of the bug compatibility bits. -/
example : ∀ bc, DescriptorSurvives 5 bc sampleDescriptor :=
  fun bc => C18_roundtrip_wide 5 bc sampleDescriptor (by decide) (by decide) (sampleDescriptor_fits bc)

/-- The identifier 256 with 8-bit heap addresses. -/
def wideIdDescriptor : Descriptor := { id := 256 }

/-- The sender accepts identifier 256 for 8 address bits, but an assertion fails, and without assertions
the packet is corrupt. -/
theorem C18_violated : ¬ C18_statement := by
  intro h
  obtain ⟨bytes, h1, _⟩ := h 1 0 wideIdDescriptor (by decide) (by decide)
    ⟨by decide, by intro f hf; simp [wideIdDescriptor] at hf, by intro f hf; simp [wideIdDescriptor] at hf, by decide⟩
  have : encodeDescriptor (8 * 1) 0 wideIdDescriptor = .ok
      ((match encodeDescriptor (8 * 1) 0 wideIdDescriptor with | .ok x => x.1 | .error _ => []), false) := by
    rfl
  rw [this] at h1
  simp at h1

/-- What a receiver makes of the packet of a descriptor when assertions are disabled. -/
def descriptorOnArrival (hab bc : Nat) (d : Descriptor) : Option (Option Descriptor) :=
  match encodeDescriptor hab bc d with
  | .error _ => none
  | .ok (bytes, _) =>
    match recvPkt? bytes with
    | some (some p) =>
      match (LiveHeap.new p).run true [p] with
      | none => none
      | some (s, _) => (s.load true).map (toDescriptor hab bc)
    | _ => none

/-- Even with assertions disabled, the receiver does not get the identifier (it gets no identifier, and
such descriptors are dropped). -/
theorem C18_garbled : (descriptorOnArrival 8 0 wideIdDescriptor).map (fun o => o.map Descriptor.id) = some (some 0) := by
  decide +kernel

theorem map_some_filterMap : ∀ (l : List (Option UInt8)), (∀ o ∈ l, o.isSome = true) → (l.filterMap id).map some = l
  | [], _ => rfl
  | none :: _, h => by have := h none (by simp); simp at this
  | some x :: l, h => by
    have := map_some_filterMap l (fun o ho => h o (by simp [ho]))
    simp [this]

theorem fieldChunks_mem {α : Type} (fs : Nat) : ∀ (k : Nat) (d : List α), ∀ c ∈ fieldChunks fs k d, c.length = fs ∧ ∀ x ∈ c, x ∈ d
  | 0, d, c, hc => by simp [fieldChunks] at hc
  | k + 1, d, c, hc => by
    simp only [fieldChunks] at hc
    split at hc
    · rcases List.mem_cons.1 hc with rfl | hc
      · exact ⟨by simp; omega, fun x hx => List.mem_of_mem_take hx⟩
      · have := fieldChunks_mem fs k (d.drop fs) c hc
        exact ⟨this.1, fun x hx => List.mem_of_mem_drop (this.2 x hx)⟩
    · simp at hc

theorem mapM_total {α β : Type} (f : α → Option β) : ∀ (l : List α), (∀ x ∈ l, ∃ y, f x = some y) → ∃ r, l.mapM f = some r
  | [], _ => ⟨[], rfl⟩
  | x :: l, h => by
    obtain ⟨y, hy⟩ := h x (by simp)
    obtain ⟨r, hr⟩ := mapM_total f l (fun z hz => h z (by simp [hz]))
    exact ⟨y :: r, by rw [List.mapM_cons, hy, hr]; rfl⟩

theorem loadBytesBe_total {b : List (Option UInt8)} (hl : b.length ≤ 8) (hb : ∀ o ∈ b, o.isSome = true) : ∃ v, loadBytesBe? b = some v := by
  unfold loadBytesBe?
  rw [if_pos hl, ← map_some_filterMap b hb, mapM_id_some]
  exact ⟨_, rfl⟩

theorem descriptorStep_total (w bc : Nat) (hw7 : w ≤ 7) (it : RxItem) (h1 : it.isImm = true → it.data.length ≤ 8)
    (h2 : ∃ b : Bytes, it.data = b.map some) (out : Descriptor) : ∃ d, descriptorStep (8 * w) bc out it = some d := by
  obtain ⟨b, hb⟩ := h2
  have hsome : ∀ o ∈ it.data, o.isSome = true := by
    rw [hb]; intro o ho; obtain ⟨x, _, rfl⟩ := List.mem_map.1 ho; rfl
  have hm : it.data.mapM id = some b := by rw [hb, mapM_id_some]
  unfold descriptorStep
  rw [hm]
  simp only [Option.map_some]
  by_cases c1 : it.id = DESCRIPTOR_ID_ID
  · rw [if_pos c1]
    by_cases ci : it.isImm = true
    · rw [if_pos ci]
      obtain ⟨v, hv⟩ := loadBytesBe_total (h1 ci) hsome
      rw [hv]; exact ⟨_, rfl⟩
    · rw [if_neg ci]; exact ⟨_, rfl⟩
  rw [if_neg c1]
  by_cases c2 : it.id = DESCRIPTOR_NAME_ID
  · rw [if_pos c2]; exact ⟨_, rfl⟩
  rw [if_neg c2]
  by_cases c3 : it.id = DESCRIPTOR_DESCRIPTION_ID
  · rw [if_pos c3]; exact ⟨_, rfl⟩
  rw [if_neg c3]
  by_cases c4 : it.id = DESCRIPTOR_FORMAT_ID
  · rw [if_pos c4]
    obtain ⟨r, hr⟩ := mapM_total decodeFormat
        (fieldChunks (if bugWidths bc = true then 4 else 1 + (8 - 8 * w / 8)) it.data.length it.data) (by
      intro c hc
      obtain ⟨hl, hs⟩ := fieldChunks_mem _ _ _ c hc
      have hpos : 1 ≤ c.length ∧ c.length ≤ 9 := by rw [hl]; split <;> omega
      cases c with
      | nil => simp at hpos
      | cons t rest =>
        have ht := hsome t (hs t (by simp))
        cases t with
        | none => simp at ht
        | some t =>
          obtain ⟨v, hv⟩ := loadBytesBe_total (b := rest) (by simp at hpos; omega) (fun o ho => hsome o (hs o (by simp [ho])))
          exact ⟨_, by simp only [decodeFormat, hv, Option.map_some]; rfl⟩)
    rw [hr]; exact ⟨_, rfl⟩
  rw [if_neg c4]
  by_cases c5 : it.id = DESCRIPTOR_SHAPE_ID
  · rw [if_pos c5]
    obtain ⟨r, hr⟩ := mapM_total (decodeDim bc)
        (fieldChunks (if bugWidths bc = true then 8 else 1 + 8 * w / 8) it.data.length it.data) (by
      intro c hc
      obtain ⟨hl, hs⟩ := fieldChunks_mem _ _ _ c hc
      have hpos : 1 ≤ c.length ∧ c.length ≤ 9 := by rw [hl]; split <;> omega
      cases c with
      | nil => simp at hpos
      | cons t rest =>
        have ht := hsome t (hs t (by simp))
        cases t with
        | none => simp at ht
        | some t =>
          obtain ⟨v, hv⟩ := loadBytesBe_total (b := rest) (by simp at hpos; omega) (fun o ho => hsome o (hs o (by simp [ho])))
          simp only [decodeDim, hv, Option.map_some]
          by_cases cc : t &&& (if bugShapeBit bc = true then 2 else 1) ≠ 0
          · rw [if_pos cc]; exact ⟨_, rfl⟩
          · rw [if_neg cc]; exact ⟨_, rfl⟩)
    rw [hr]; exact ⟨_, rfl⟩
  rw [if_neg c5]
  by_cases c6 : it.id = DESCRIPTOR_DTYPE_ID
  · rw [if_pos c6]; exact ⟨_, rfl⟩
  rw [if_neg c6]
  exact ⟨_, rfl⟩

theorem foldlM_total (w bc : Nat) (hw7 : w ≤ 7) : ∀ (l : List RxItem),
    (∀ it ∈ l, (it.isImm = true → it.data.length ≤ 8) ∧ ∃ b : Bytes, it.data = b.map some) → ∀ out,
    ∃ d, l.foldlM (descriptorStep (8 * w) bc) out = some d
  | [], _, out => ⟨out, rfl⟩
  | it :: l, h, out => by
    obtain ⟨o, ho⟩ := descriptorStep_total w bc hw7 it (h it (by simp)).1 (h it (by simp)).2 out
    obtain ⟨d, hd⟩ := foldlM_total w bc hw7 l (fun x hx => h x (by simp [hx])) o
    exact ⟨d, by rw [List.foldlM_cons, ho]; exact hd⟩

/-- C18, rejection: the sender refuses a descriptor exactly when its identifier is not positive or needs more bits than an item pointer has
besides the heap address bits and the mode bit. -/
theorem C18_rejected (w bc : Nat) (d : Descriptor) : encodeDescriptor (8 * w) bc d = .error () ↔ d.id ≤ 0 ∨ (2 : Int) ^ (64 - 1 - 8 * w) ≤ d.id := by
  unfold encodeDescriptor
  by_cases h : d.id ≤ 0 ∨ d.id ≥ 2 ^ (8 * 8 - 1 - 8 * w)
  · simp only [if_pos h, true_iff]
    exact h
  · simp only [if_neg h, reduceCtorEq, false_iff]
    exact h

/-- The smallest and the largest identifier that are accepted with 40 bits of heap address, and their neighbours. -/
example : [(-1 : Int), 0, 1, 2 ^ 23 - 1, 2 ^ 23].map (fun i => (encodeDescriptor 40 0 { id := i }).isOk) = [false, false, true, true, false] := by
  decide +kernel

/-- C18: interpreting any contiguous heap as a descriptor is memory safe, whatever packets it was built
from. -/
theorem C18_safe (p0 : Pkt) (w bc : Nat) (hw7 : w ≤ 7) (hw : p0.hab = 8 * w) (ooo : Bool) (ps : List Pkt)
    (hv : ∀ p ∈ ps, PktValid p) (h64 : ∀ p ∈ ps, Ptr64 p) (s : LiveHeap) (acc : List Pkt)
    (h : (LiveHeap.new p0).run ooo ps = some (s, acc)) (hc : s.isContiguous = true) :
    ∃ items d, s.load true = some items ∧ toDescriptor (8 * w) bc items = some d := by
  obtain ⟨adr, imm, hload, ha1, _, _, ha4, hi1, _, _⟩ := C17_items p0 w hw7 hw ooo ps hv h64 s acc h hc
  have hall : ∀ it ∈ adr ++ imm, (it.isImm = true → it.data.length ≤ 8) ∧ ∃ b : Bytes, it.data = b.map some := by
    intro it hit
    rcases List.mem_append.1 hit with hit | hit
    · refine ⟨fun h => (by rw [(ha1 it hit).1] at h; cases h), ?_⟩
      have hb : ∀ o ∈ it.data, o.isSome = true := by
        intro o ho
        obtain ⟨i, hi, rfl⟩ := List.mem_iff_getElem.1 ho
        obtain ⟨p, _, hcp, hd⟩ := ha4 it hit i hi
        rw [List.getElem?_eq_getElem hi, Option.some.injEq] at hd
        rw [hd, List.getElem?_eq_getElem (by have := hcp.1; have := hcp.2; omega)]
        rfl
      exact ⟨it.data.filterMap id, (map_some_filterMap it.data hb).symm⟩
    · have := hi1 it hit
      exact ⟨fun _ => by rw [this.2]; simp; omega, _, this.2⟩
  obtain ⟨d, hd⟩ := foldlM_total w bc hw7 (adr ++ imm) hall {}
  refine ⟨_, if d.numpyHeader ≠ [] then { d with shape := [], format := [] } else d, hload, ?_⟩
  unfold toDescriptor
  rw [hd]; rfl

end Spead2
