import Verif.Lemmas.PyDescr
import Verif.Lemmas.PyText
import Mathlib.Data.Nat.Bitwise

/-!
# C89: a Python descriptor is received as it was sent
-/

namespace Spead2.PyDescr

open Spec

/-- A descriptor made by the constructor reaches a receiver with the same flavour unchanged, if the
sender can encode it. -/
def Delivered (T : PyText) (w bc : Nat) (d : PyDescriptor) : Prop :=
  ∀ raw, toRaw T bc d = some raw → Spead2.Spec.DescriptorFits w bc raw → raw.id < 2 ^ (8 * w) →
    ∃ raw', Arrives w bc raw raw' ∧ fromRaw T bc raw' = some d

/-- Full property C89: every descriptor that the constructor accepts is delivered, with every flavour. -/
def C89_statement : Prop :=
  ∀ (T : PyText), Faithful T → ∀ (w bc : Nat), 1 ≤ w → w ≤ 7 → ∀ (a d : PyDescriptor), mkDescriptor a = some d → Delivered T w bc d

/-- The constructor accepts exactly what its documentation says, and keeps its arguments. -/
theorem C89_constructor (a d : PyDescriptor) : mkDescriptor a = some d ↔ d = a ∧ Valid a := mk_iff a d

theorem toRaw_dtype {T : PyText} {bc : Nat} {d : PyDescriptor} {raw : Descriptor} {t : Dtype} (hd : d.dtype = some t)
    (h : toRaw T bc d = some raw) : ∃ header, toInt64 d.id = some raw.id ∧ asciiEncode d.name = some raw.name ∧
      asciiEncode d.description = some raw.description ∧ shapeSetter d.shape = some raw.shape ∧
      makeNumpyHeader T d.shape (if bugSwapEndian bc then t.newbyteorder else t) d.order = some header ∧
      asciiEncode header = some raw.numpyHeader ∧ raw.format = [] := by
  simp only [toRaw, Option.bind_eq_bind, Option.bind_eq_some_iff] at h
  obtain ⟨id, h1, nm, h2, ds, h3, sh, h4, h5⟩ := h
  rw [hd] at h5
  simp only [Option.bind_eq_some_iff] at h5
  obtain ⟨header, h6, bytes, h7, h8⟩ := h5
  cases h8
  exact ⟨header, h1, h2, h3, h4, h6, h7, rfl⟩

theorem toRaw_format {T : PyText} {bc : Nat} {d : PyDescriptor} {raw : Descriptor} {f : List (Nat × Int)} (hd : d.dtype = none)
    (hf : d.format = some f) (h : toRaw T bc d = some raw) : toInt64 d.id = some raw.id ∧ asciiEncode d.name = some raw.name ∧
      asciiEncode d.description = some raw.description ∧ shapeSetter d.shape = some raw.shape ∧
      formatSetter f = some raw.format ∧ raw.numpyHeader = [] := by
  simp only [toRaw, Option.bind_eq_bind, Option.bind_eq_some_iff] at h
  obtain ⟨id, h1, nm, h2, ds, h3, sh, h4, h5⟩ := h
  rw [hd] at h5
  simp only [Option.bind_eq_some_iff, hf, Option.getD_some] at h5
  obtain ⟨fm, h6, h8⟩ := h5
  cases h8
  exact ⟨h1, h2, h3, h4, h6, rfl⟩

theorem fromRaw_dtype {T : PyText} {bc : Nat} {raw : Descriptor} {header nm ds : Str} {sh : List Int} {o : Order} {t : Dtype}
    (hn : raw.numpyHeader ≠ []) (h1 : asciiDecode raw.numpyHeader = some header) (h2 : parseNumpyHeader T header = some (sh, o, t))
    (h3 : asciiDecode raw.name = some nm) (h4 : asciiDecode raw.description = some ds) :
    fromRaw T bc raw = mkDescriptor { id := raw.id, name := nm, description := ds, shape := sh.map some, dtype := some (if bugSwapEndian bc then t.newbyteorder else t), order := o, format := none } := by
  simp [fromRaw, hn, h1, h2, h3, h4]

theorem fromRaw_format {T : PyText} {bc : Nat} {raw : Descriptor} {nm ds : Str} {f : List (Nat × Int)}
    (hn : raw.numpyHeader = []) (h1 : formatGetter raw.format = some f)
    (h3 : asciiDecode raw.name = some nm) (h4 : asciiDecode raw.description = some ds) :
    fromRaw T bc raw = mkDescriptor { id := raw.id, name := nm, description := ds, shape := shapeGetter raw.shape, dtype := none, order := .C, format := some f } := by
  simp [fromRaw, hn, h1, h3, h4]

/-- The header that `_make_numpy_header` writes is the one that `_parse_numpy_header` reads. -/
theorem header_parse {T : PyText} (hT : Faithful T) {shape : List Int} {t : Dtype} {o : Order} {header : Str}
    (h : makeNumpyHeader T (shape.map some) t o = some header) : header ≠ [] ∧ ∃ d, dtypeToDescr t = some d ∧
      parseNumpyHeader T header = if ∀ x ∈ shape, 0 ≤ x then (npDtype d).map fun t' => (shape, if o = .F then Order.F else Order.C, t') else none := by
  unfold makeNumpyHeader at h
  rw [mapM_id_some] at h
  cases hd : dtypeToDescr t with
  | none => rw [hd] at h; exact absurd h (by simp)
  | some d =>
    rw [hd] at h
    simp only [Option.some.injEq] at h
    refine ⟨by rw [← h]; exact hT.nonempty _, d, rfl, ?_⟩
    have e1 : ([(kDescr, Val.descr d), (kFortran, Val.bool (decide (o = .F))), (kShape, Val.ints shape)] : List (Str × Val)).lookup kDescr = some (.descr d) := by
      simp [List.lookup, kDescr]
    have e2 : ([(kDescr, Val.descr d), (kFortran, Val.bool (decide (o = .F))), (kShape, Val.ints shape)] : List (Str × Val)).lookup kFortran = some (.bool (decide (o = .F))) := by
      simp [List.lookup, kDescr, kFortran]
    have e3 : ([(kDescr, Val.descr d), (kFortran, Val.bool (decide (o = .F))), (kShape, Val.ints shape)] : List (Str × Val)).lookup kShape = some (.ints shape) := by
      simp [List.lookup, kDescr, kFortran, kShape]
    unfold parseNumpyHeader
    rw [← h, hT.eval_repr]
    simp only [List.length_cons, List.length_nil]
    rw [if_neg (by simp), e1, e2, e3]
    simp only [List.all_eq_true, decide_eq_true_eq]

theorem arrives {w bc : Nat} (hw1 : 1 ≤ w) (hw7 : w ≤ 7) {raw : Descriptor} (fit : Spead2.Spec.DescriptorFits w bc raw)
    (hid : raw.id < 2 ^ (8 * w)) : Arrives w bc raw (Spead2.Spec.receivedDescriptor raw) :=
  C18_roundtrip_partial w bc raw hw1 hw7 fit hid

/-- The type that is described in the header. -/
def wireType (bc : Nat) (t : Dtype) : Dtype := if bugSwapEndian bc then t.newbyteorder else t

theorem wireType_twice (bc : Nat) (t : Dtype) : wireType bc (wireType bc t) = t := by
  unfold wireType
  split
  · exact newbyteorder_twice t
  · rfl

theorem valid_format {d : PyDescriptor} (hv : Valid d) {t : Dtype} (hd : d.dtype = some t) : d.format = none := by
  have := hv.one
  rw [hd] at this
  cases hf : d.format with
  | none => rfl
  | some f => rw [hf] at this; simp at this

/-- What the receiver makes of a descriptor with a type. -/
theorem received_dtype {T : PyText} (hT : Faithful T) {bc : Nat} {d : PyDescriptor} (hv : Valid d) {t : Dtype} (hd : d.dtype = some t)
    {raw : Descriptor} (hr : toRaw T bc d = some raw) : ∃ de, dtypeToDescr (wireType bc t) = some de ∧
      ((∀ x, some x ∈ d.shape → 0 ≤ x) → fromRaw T bc (Spead2.Spec.receivedDescriptor raw) =
          match npDtype de with
          | some t' => mkDescriptor { d with dtype := some (wireType bc t') }
          | none => none) ∧
        ((¬ ∀ x, some x ∈ d.shape → 0 ≤ x) → fromRaw T bc (Spead2.Spec.receivedDescriptor raw) = none) := by
  obtain ⟨header, h1, h2, h3, h4, h5, h6, h7⟩ := toRaw_dtype hd hr
  obtain ⟨sh, hsh⟩ := shape_known d.shape (hv.dtype t hd).1
  rw [hsh] at h5
  obtain ⟨hne, de, h8, h9⟩ := header_parse hT h5
  refine ⟨de, h8, ?_⟩
  have hnn : raw.numpyHeader ≠ [] := by
    intro hh
    rw [hh] at h6
    have := ascii_roundtrip h6
    simp [asciiDecode] at this
    exact hne this
  have hcond : (∀ x ∈ sh, 0 ≤ x) ↔ (∀ x, some x ∈ d.shape → 0 ≤ x) := by
    rw [hsh]
    simp
  unfold Spead2.Spec.receivedDescriptor
  rw [if_neg hnn]
  constructor
  · intro hc
    rw [if_pos (hcond.2 hc)] at h9
    cases ht : npDtype de with
    | none =>
      rw [ht] at h9
      simp [fromRaw, hnn, ascii_roundtrip h6, h9]
    | some t' =>
      rw [ht] at h9
      rw [fromRaw_dtype (raw := { raw with shape := [], format := [] }) hnn (ascii_roundtrip h6) h9 (ascii_roundtrip h2) (ascii_roundtrip h3)]
      have hord : (if d.order = .F then Order.F else Order.C) = d.order := by
        rcases hv.order with h | h <;> simp [h]
      simp only
      rw [hord, (toInt64_some h1).1, ← hsh, ← valid_format hv hd]
      rfl
  · intro hc
    rw [if_neg (fun h => hc (hcond.1 h))] at h9
    simp [fromRaw, hnn, ascii_roundtrip h6, h9]

/-- What the receiver makes of a descriptor with a format. -/
theorem received_format {T : PyText} {bc : Nat} {d : PyDescriptor} (hv : Valid d) {f : List (Nat × Int)} (hd : d.dtype = none)
    (hf : d.format = some f) {raw : Descriptor} (hr : toRaw T bc d = some raw) :
    fromRaw T bc (Spead2.Spec.receivedDescriptor raw) = mkDescriptor { d with shape := d.shape.map fun x => x.filter (fun v => decide (0 ≤ v)) } := by
  obtain ⟨h1, h2, h3, h4, h5, h6⟩ := toRaw_format hd hf hr
  unfold Spead2.Spec.receivedDescriptor
  rw [if_pos h6]
  rw [fromRaw_format (raw := { raw with shape := raw.shape.map (fun x => if x < 0 then -1 else x) }) h6 (format_roundtrip _ _ h5) (ascii_roundtrip h2) (ascii_roundtrip h3)]
  simp only
  rw [shape_received _ _ h4, (toInt64_some h1).1, ← hd, ← hf, ← (hv.format f hf).1]

/-- C89 for descriptors without oddities.  Missing: negative sizes, types with padding, and subarrays as
types (`C89_violated`, `C89_padding`, `C89_clash`, `C89_subarray`); and identifiers that the C++ code accepts and
garbles (`C18_violated`). -/
theorem C89_partial (T : PyText) (hT : Faithful T) (w bc : Nat) (hw1 : 1 ≤ w) (hw7 : w ≤ 7) (a d : PyDescriptor)
    (hm : mkDescriptor a = some d) (hp : Plain d) : Delivered T w bc d := by
  intro raw hr fit hid
  obtain ⟨rfl, hv⟩ := (mk_iff a d).1 hm
  refine ⟨_, arrives hw1 hw7 fit hid, ?_⟩
  cases hd : d.dtype with
  | some t =>
    obtain ⟨de, h1, h2, _⟩ := received_dtype hT hv hd hr
    have hpk := hp.dtype t hd
    have hpk' : Packed (wireType bc t) ∧ ∀ s b, wireType bc t ≠ .array s b := by
      unfold wireType
      split
      · exact ⟨packed_swap t hpk.1, notArray_swap t hpk.2⟩
      · exact hpk
    obtain ⟨de', h10, h11⟩ := dtypeToDescr_packed _ hpk'.1 hpk'.2
    rw [h1] at h10
    simp only [Option.some.injEq] at h10
    subst h10
    rw [h2 hp.shape, h11]
    simp only
    rw [wireType_twice, ← hd]
    exact hm
  | none =>
    cases hf : d.format with
    | none =>
      have := hv.one
      rw [hd, hf] at this
      simp at this
    | some f =>
      rw [received_format hv hd hf hr]
      have : (d.shape.map fun x => x.filter (fun v => decide (0 ≤ v))) = d.shape := by
        have h : (d.shape.map fun x => x.filter (fun v => decide (0 ≤ v))) = d.shape.map id := by
          apply List.map_congr_left
          intro x hx
          cases x with
          | none => rfl
          | some v => simp [Option.filter, hp.shape v hx]
        rw [h, List.map_id]
      rw [this]
      exact hm

/-- `to_raw` gives a raw descriptor unless a number or a string does not fit: nothing else is refused. -/
theorem C89_sender (T : PyText) (bc : Nat) (a d : PyDescriptor) (hm : mkDescriptor a = some d) (hp : Plain d) :
    (∃ raw, toRaw T bc d = some raw) ↔
      Fits64 d.id ∧ Ascii d.name ∧ Ascii d.description ∧ (∀ x, some x ∈ d.shape → Fits64 x) ∧
        (∀ f, d.format = some f → ∀ x ∈ f, Fits64 x.2) ∧
        (∀ t, d.dtype = some t → ∀ header, makeNumpyHeader T d.shape (if bugSwapEndian bc then t.newbyteorder else t) d.order = some header → Ascii header) := by
  obtain ⟨rfl, hv⟩ := (mk_iff a d).1 hm
  have hshape : (∃ r, shapeSetter d.shape = some r) ↔ ∀ x, some x ∈ d.shape → Fits64 x := by
    generalize d.shape = l
    induction l with
    | nil => simp [shapeSetter]
    | cons a l ih =>
      have e : (∃ r, shapeSetter (a :: l) = some r) ↔ (∃ b, dimSetter a = some b) ∧ ∃ r, shapeSetter l = some r := by
        unfold shapeSetter
        constructor
        · rintro ⟨r, h⟩
          rw [mapM_some_cons] at h
          obtain ⟨b, r', h1, h2, _⟩ := h
          exact ⟨⟨b, h1⟩, r', h2⟩
        · rintro ⟨⟨b, h1⟩, r', h2⟩
          exact ⟨b :: r', (mapM_some_cons _ _ _ _).2 ⟨b, r', h1, h2, rfl⟩⟩
      rw [e, ih]
      cases a with
      | none => simp [dimSetter]
      | some v =>
        simp only [dimSetter, toInt64_iff, List.mem_cons, Option.some.injEq]
        constructor
        · rintro ⟨h1, h2⟩ x (rfl | hx)
          · exact h1
          · exact h2 x hx
        · intro h
          exact ⟨h v (Or.inl rfl), fun x hx => h x (Or.inr hx)⟩
  have hformat : ∀ f : List (Nat × Int), (∀ x ∈ f, FieldOk x) → ((∃ r, formatSetter f = some r) ↔ ∀ x ∈ f, Fits64 x.2) := by
    intro f
    induction f with
    | nil => intro _; simp [formatSetter]
    | cons a l ih =>
      intro hok
      have ha : a.1 < 128 := by
        have e1 : ['u', 'i', 'b'].map Char.toNat = [117, 105, 98] := by decide
        have e2 : 'f'.toNat = 102 := by decide
        have e3 : 'c'.toNat = 99 := by decide
        have := hok a List.mem_cons_self
        unfold FieldOk at this
        rw [e1, e2, e3] at this
        simp only [List.mem_cons, List.not_mem_nil, or_false] at this
        omega
      have e : (∃ r, formatSetter (a :: l) = some r) ↔ Fits64 a.2 ∧ ∃ r, formatSetter l = some r := by
        unfold formatSetter
        constructor
        · rintro ⟨r, h⟩
          rw [mapM_some_cons] at h
          obtain ⟨b, r', h1, h2, _⟩ := h
          rw [if_pos ha] at h1
          refine ⟨?_, r', h2⟩
          cases hv : toInt64 a.2 with
          | none => simp [hv] at h1
          | some v => exact (toInt64_some hv).2
        · rintro ⟨h1, r', h2⟩
          obtain ⟨v, hv⟩ := (toInt64_iff a.2).2 h1
          exact ⟨(UInt8.ofNat a.1, v) :: r', (mapM_some_cons _ _ _ _).2 ⟨_, r', by rw [if_pos ha, hv]; rfl, h2, rfl⟩⟩
      rw [e, ih fun x hx => hok x (List.mem_cons_of_mem _ hx)]
      simp
  cases hd : d.dtype with
  | some t =>
    have hfmt : d.format = none := by
      have := hv.one
      rw [hd] at this
      cases hf : d.format with
      | none => rfl
      | some f => rw [hf] at this; simp at this
    have hpk := hp.dtype t hd
    have hpk' : Packed (if bugSwapEndian bc then t.newbyteorder else t) ∧ ∀ s b, (if bugSwapEndian bc then t.newbyteorder else t) ≠ .array s b := by
      split
      · exact ⟨packed_swap t hpk.1, notArray_swap t hpk.2⟩
      · exact hpk
    obtain ⟨sh, hsh⟩ := shape_known d.shape (hv.dtype t hd).1
    obtain ⟨de, h10, _⟩ := dtypeToDescr_packed _ hpk'.1 hpk'.2
    constructor
    · rintro ⟨raw, hr⟩
      obtain ⟨header, h1, h2, h3, h4, h5, h6, h7⟩ := toRaw_dtype hd hr
      refine ⟨(toInt64_some h1).2, (asciiEncode_iff _).1 ⟨_, h2⟩, (asciiEncode_iff _).1 ⟨_, h3⟩, hshape.1 ⟨_, h4⟩, by simp [hfmt], ?_⟩
      intro t' ht' header' hh
      simp only [Option.some.injEq] at ht'
      subst ht'
      rw [h5] at hh
      simp only [Option.some.injEq] at hh
      subst hh
      exact (asciiEncode_iff _).1 ⟨_, h6⟩
    · rintro ⟨h1, h2, h3, h4, _, h5⟩
      obtain ⟨i, hi⟩ := (toInt64_iff _).2 h1
      obtain ⟨n, hn⟩ := (asciiEncode_iff _).2 h2
      obtain ⟨ds, hds⟩ := (asciiEncode_iff _).2 h3
      obtain ⟨s, hs⟩ := hshape.2 h4
      have hh : ∃ header, makeNumpyHeader T d.shape (if bugSwapEndian bc then t.newbyteorder else t) d.order = some header := by
        unfold makeNumpyHeader
        rw [h10, hsh, mapM_id_some]
        exact ⟨_, rfl⟩
      obtain ⟨header, hh⟩ := hh
      obtain ⟨b, hb⟩ := (asciiEncode_iff _).2 (h5 t rfl header hh)
      exact ⟨_, by simp only [toRaw, hi, hn, hds, hs, hd, hh, hb, Option.bind_eq_bind, Option.bind_some]; rfl⟩
  | none =>
    cases hf : d.format with
    | none =>
      have := hv.one
      rw [hd, hf] at this
      simp at this
    | some f =>
      constructor
      · rintro ⟨raw, hr⟩
        obtain ⟨h1, h2, h3, h4, h5, h6⟩ := toRaw_format hd hf hr
        refine ⟨(toInt64_some h1).2, (asciiEncode_iff _).1 ⟨_, h2⟩, (asciiEncode_iff _).1 ⟨_, h3⟩, hshape.1 ⟨_, h4⟩, ?_, by simp⟩
        intro f' hf'
        simp only [Option.some.injEq] at hf'
        subst hf'
        exact (hformat f (hv.format f hf).2.2).1 ⟨_, h5⟩
      · rintro ⟨h1, h2, h3, h4, h5, _⟩
        obtain ⟨i, hi⟩ := (toInt64_iff _).2 h1
        obtain ⟨n, hn⟩ := (asciiEncode_iff _).2 h2
        obtain ⟨ds, hds⟩ := (asciiEncode_iff _).2 h3
        obtain ⟨s, hs⟩ := hshape.2 h4
        obtain ⟨fm, hfm⟩ := (hformat f (hv.format f hf).2.2).2 (h5 f rfl)
        exact ⟨_, by simp only [toRaw, hi, hn, hds, hs, hd, hf, Option.getD_some, hfm, Option.bind_eq_bind, Option.bind_some]; rfl⟩

theorem bugSwapEndian_iff (bc : Nat) : bugSwapEndian bc = true ↔ bc / 4 % 2 = 1 := by
  unfold bugSwapEndian
  have h : bc &&& 4 = 4 * (bc / 4 % 2) := by
    have h1 := Nat.and_two_pow bc 2
    rw [Nat.testBit_eq_decide_div_mod_eq] at h1
    simp only [show (2 : Nat) ^ 2 = 4 from rfl] at h1
    rw [h1]
    rcases Nat.mod_two_eq_zero_or_one (bc / 4) with h2 | h2 <;> simp [h2]
  rw [h]
  rcases Nat.mod_two_eq_zero_or_one (bc / 4) with h2 | h2 <;> simp [h2]

/-- What is in the header that is sent: a dictionary with the shape, the order, and a description whose
scalars are those of the type, in the order in which they occur; with the compatibility bit 4
(`BUG_COMPAT_SWAP_ENDIAN`) and only then, with the opposite byte orders, as PySPEAD 0.5.2 has them. -/
theorem C89_header (T : PyText) (hT : Faithful T) (bc : Nat) (a d : PyDescriptor) (hm : mkDescriptor a = some d) (hp : Plain d) (t : Dtype)
    (hd : d.dtype = some t) (raw : Descriptor) (hr : toRaw T bc d = some raw) :
    ∃ header de sh, asciiDecode raw.numpyHeader = some header ∧ d.shape = sh.map some ∧
      T.eval header = some (.dict [(kDescr, .descr de), (kFortran, .bool (d.order = .F)), (kShape, .ints sh)]) ∧
      scalarsD de = if bc / 4 % 2 = 1 then (scalars t).map (fun x => (opposite x.1, x.2)) else scalars t := by
  obtain ⟨rfl, hv⟩ := (mk_iff a d).1 hm
  obtain ⟨header, h1, h2, h3, h4, h5, h6, h7⟩ := toRaw_dtype hd hr
  obtain ⟨sh, hsh⟩ := shape_known d.shape (hv.dtype t hd).1
  have hpk := hp.dtype t hd
  unfold makeNumpyHeader at h5
  rw [hsh, mapM_id_some] at h5
  cases hde : dtypeToDescr (if bugSwapEndian bc then t.newbyteorder else t) with
  | none => rw [hde] at h5; exact absurd h5 (by simp)
  | some de =>
    rw [hde] at h5
    simp only [Option.some.injEq] at h5
    refine ⟨header, de, sh, ascii_roundtrip h6, hsh, by rw [← h5, hT.eval_repr], ?_⟩
    by_cases hb : bugSwapEndian bc = true
    · rw [if_pos hb] at hde
      rw [if_pos ((bugSwapEndian_iff bc).1 hb), dtypeToDescr_scalars _ _ (packed_swap t hpk.1) (notArray_swap t hpk.2) hde, scalars_swap]
    · rw [if_neg hb] at hde
      rw [if_neg (fun h => hb ((bugSwapEndian_iff bc).2 h)), dtypeToDescr_scalars _ _ hpk.1 hpk.2 hde]

theorem arrives_unique {w bc : Nat} {raw r1 r2 : Descriptor} (h1 : Arrives w bc raw r1) (h2 : Arrives w bc raw r2) : r1 = r2 := by
  obtain ⟨b1, e1, p1, q1, _, f1⟩ := h1
  obtain ⟨b2, e2, p2, q2, _, f2⟩ := h2
  rw [e1] at e2
  simp only [Except.ok.injEq, Prod.mk.injEq, and_true] at e2
  subst e2
  rw [q1] at q2
  simp only [Option.some.injEq] at q2
  subst q2
  obtain ⟨s1, i1, g1, _, _, l1, t1⟩ := f1 true
  obtain ⟨s2, i2, g2, _, _, l2, t2⟩ := f2 true
  rw [g1] at g2
  simp only [Option.some.injEq, Prod.mk.injEq, and_true] at g2
  subst g2
  rw [l1] at l2
  simp only [Option.some.injEq] at l2
  subst l2
  rw [t1] at t2
  exact Option.some.inj t2

/-- Whatever a receiver accepts, from any sender, meets the documented restrictions, and has no negative
sizes and no padding. -/
theorem C89_receiver (T : PyText) (bc : Nat) (raw : Descriptor) (d : PyDescriptor) (h : fromRaw T bc raw = some d) :
    Valid d ∧ Plain d := by
  by_cases hn : raw.numpyHeader = []
  · simp only [fromRaw, hn, ne_eq, not_true_eq_false, if_false, Option.bind_eq_bind, Option.bind_eq_some_iff] at h
    obtain ⟨f, _, nm, _, ds, _, h⟩ := h
    obtain ⟨rfl, hv⟩ := (mk_iff _ _).1 h
    refine ⟨hv, ?_, by simp⟩
    intro x hx
    simp only [shapeGetter, List.mem_map] at hx
    obtain ⟨y, _, hy⟩ := hx
    split at hy
    · simp only [Option.some.injEq] at hy
      omega
    · exact absurd hy (by simp)
  · simp only [fromRaw, ne_eq, hn, not_false_eq_true, if_true, Option.bind_eq_bind, Option.bind_eq_some_iff] at h
    obtain ⟨header, _, ⟨sh, o, t⟩, hp, nm, _, ds, _, h⟩ := h
    obtain ⟨rfl, hv⟩ := (mk_iff _ _).1 h
    unfold parseNumpyHeader at hp
    split at hp
    · split at hp
      · exact absurd hp (by simp)
      split at hp
      · split at hp
        · split at hp
          · rename_i hall
            split at hp
            · split at hp
              · rename_i de
                simp only [Option.map_eq_some_iff, Prod.mk.injEq] at hp
                obtain ⟨t', ht, rfl, _, rfl⟩ := hp
                refine ⟨hv, ?_, ?_⟩
                · intro x hx
                  simp only [List.mem_map, Option.some.injEq, exists_eq_right] at hx
                  have := List.all_eq_true.1 hall x hx
                  simpa using this
                · intro t2 ht2
                  simp only [Option.some.injEq] at ht2
                  subst ht2
                  have := npDtype_packed _ _ ht
                  split
                  · exact ⟨packed_swap _ this.1, notArray_swap _ this.2⟩
                  · exact this
              · exact absurd hp (by simp)
            · exact absurd hp (by simp)
          · exact absurd hp (by simp)
        · exact absurd hp (by simp)
      · exact absurd hp (by simp)
    · exact absurd hp (by simp)

/-- What was received (from anyone, with any flavour) can be passed on, with any other flavour. -/
theorem C89_relay (T : PyText) (hT : Faithful T) (bc : Nat) (raw : Descriptor) (d : PyDescriptor) (h : fromRaw T bc raw = some d)
    (w' bc' : Nat) (hw1 : 1 ≤ w') (hw7 : w' ≤ 7) : Delivered T w' bc' d := by
  obtain ⟨hv, hp⟩ := C89_receiver T bc raw d h
  exact C89_partial T hT w' bc' hw1 hw7 d d ((mk_iff d d).2 ⟨rfl, hv⟩) hp

/-- Also with a padded type, everything but the type arrives unchanged, and the type that arrives has the
same size and all the fields (with more fields in the gaps): values are still taken apart correctly. -/
theorem C89_extends (T : PyText) (hT : Faithful T) (w bc : Nat) (hw1 : 1 ≤ w) (hw7 : w ≤ 7) (a d : PyDescriptor)
    (hm : mkDescriptor a = some d) (t : Dtype) (hd : d.dtype = some t) (hw : WellFormed t) (raw raw' : Descriptor) (hr : toRaw T bc d = some raw)
    (fit : Spead2.Spec.DescriptorFits w bc raw) (hid : raw.id < 2 ^ (8 * w)) (ha : Arrives w bc raw raw') (d' : PyDescriptor)
    (hf : fromRaw T bc raw' = some d') : ∃ t', d' = { d with dtype := some t' } ∧ Extends t t' := by
  obtain ⟨rfl, hv⟩ := (mk_iff a d).1 hm
  rw [arrives_unique ha (arrives hw1 hw7 fit hid)] at hf
  obtain ⟨de, h1, h2, h3⟩ := received_dtype hT hv hd hr
  by_cases hc : ∀ x, some x ∈ d.shape → 0 ≤ x
  · rw [h2 hc] at hf
    split at hf
    · rename_i t' ht
      refine ⟨wireType bc t', ((mk_iff _ _).1 hf).1, ?_⟩
      unfold wireType at h1 ⊢
      split
      · rename_i hb
        rw [if_pos hb] at h1
        have := extends_swap (dtypeToDescr_extends _ _ _ (wellFormed_swap t hw) h1 ht)
        rwa [newbyteorder_twice] at this
      · rename_i hb
        rw [if_neg hb] at h1
        exact dtypeToDescr_extends _ _ _ hw h1 ht
    · exact absurd hf (by simp)
  · rw [h3 hc] at hf
    exact absurd hf (by simp)

/-- A descriptor with a negative size and a type is refused by every receiver. -/
theorem C89_negative_refused (T : PyText) (hT : Faithful T) (w bc : Nat) (hw1 : 1 ≤ w) (hw7 : w ≤ 7) (a d : PyDescriptor)
    (hm : mkDescriptor a = some d) (t : Dtype) (hd : d.dtype = some t) (x : Int) (hx : some x ∈ d.shape) (hneg : x < 0) (raw raw' : Descriptor)
    (hr : toRaw T bc d = some raw) (fit : Spead2.Spec.DescriptorFits w bc raw) (hid : raw.id < 2 ^ (8 * w)) (ha : Arrives w bc raw raw') :
    fromRaw T bc raw' = none := by
  obtain ⟨rfl, hv⟩ := (mk_iff a d).1 hm
  rw [arrives_unique ha (arrives hw1 hw7 fit hid)]
  obtain ⟨de, h1, _, h2⟩ := received_dtype hT hv hd hr
  apply h2
  intro h
  have := h x hx
  omega

/-- With a format, a negative size is received as a variable one (and then two of them are refused). -/
theorem C89_negative_variable (T : PyText) (w bc : Nat) (hw1 : 1 ≤ w) (hw7 : w ≤ 7) (a d : PyDescriptor)
    (hm : mkDescriptor a = some d) (hd : d.dtype = none) (raw raw' : Descriptor)
    (hr : toRaw T bc d = some raw) (fit : Spead2.Spec.DescriptorFits w bc raw) (hid : raw.id < 2 ^ (8 * w)) (ha : Arrives w bc raw raw') :
    fromRaw T bc raw' = mkDescriptor { d with shape := d.shape.map fun x => x.filter (fun v => decide (0 ≤ v)) } := by
  obtain ⟨rfl, hv⟩ := (mk_iff a d).1 hm
  rw [arrives_unique ha (arrives hw1 hw7 fit hid)]
  cases hf : d.format with
  | none =>
    have := hv.one
    rw [hd, hf] at this
    simp at this
  | some f => rw [received_format hv hd hf hr, hf]

/-- A vector of -3 unsigned bytes. -/
def negD : PyDescriptor where
  id := 0x1000
  name := [120]
  description := []
  shape := [some (-3)]
  dtype := none
  order := .C
  format := some [(117, 8)]

theorem negD_fits : Spead2.Spec.DescriptorFits 5 0 { id := 0x1000, name := [120], shape := [-3], format := [(117, 8)] } where
  id := by decide
  format := by decide
  shape := by decide
  length := by decide

/-- The constructor accepts negative sizes, which are then received as variable ones. -/
theorem C89_violated : ¬ C89_statement := by
  intro h
  obtain ⟨raw', _, h2⟩ := h sampleText sampleText_faithful 5 0 (by decide) (by decide) negD negD (by decide) { id := 0x1000, name := [120], shape := [-3], format := [(117, 8)] }
    rfl negD_fits (by decide)
  have := (C89_receiver _ _ _ _ h2).2.shape (-3) (by simp [negD])
  omega

/-- "<u4" and "|u1". -/
def u4 : Dtype := .scalar .little [117] 4
def u1 : Dtype := .scalar .none [117] 1

/-- `np.dtype([("a", "u1"), ("b", "<u4")], align=True)`: three bytes between the fields. -/
def paddedType (name : Str) : Dtype := .struct (.cons name 0 u1 (.cons [98] 4 u4 .nil)) 8

/-- A descriptor with a given type. -/
def typed (t : Dtype) : PyDescriptor where
  id := 0x1000
  name := [120]
  description := []
  shape := [some 2]
  dtype := some t
  order := .C
  format := none

/-- A type with padding is received as another type, with a field `f1` in the gap. -/
theorem C89_padding (T : PyText) (hT : Faithful T) (w : Nat) (hw1 : 1 ≤ w) (hw7 : w ≤ 7) (raw raw' : Descriptor)
    (hr : toRaw T 0 (typed (paddedType [97])) = some raw) (fit : Spead2.Spec.DescriptorFits w 0 raw) (hid : raw.id < 2 ^ (8 * w))
    (ha : Arrives w 0 raw raw') :
    fromRaw T 0 raw' = some (typed (.struct (.cons [97] 0 u1 (.cons [102, 49] 1 (.scalar .none [86] 3) (.cons [98] 4 u4 .nil))) 8)) := by
  have hv : Valid (typed (paddedType [97])) := ((mk_iff _ _).1 (by decide : mkDescriptor (typed (paddedType [97])) = some (typed (paddedType [97])))).2
  rw [arrives_unique ha (arrives hw1 hw7 fit hid)]
  obtain ⟨de, h1, h2, _⟩ := received_dtype hT hv (rfl : (typed (paddedType [97])).dtype = some (paddedType [97])) hr
  rw [h2 (by simp [typed])]
  have h3 : dtypeToDescr (wireType 0 (paddedType [97])) = some (.list (.cons [97] (.str .none [117] 1) none (.cons [] (.str .none [86] 3) none (.cons [98] (.str .little [117] 4) none .nil)))) := by decide
  rw [h3] at h1
  simp only [Option.some.injEq] at h1
  subst h1
  decide

/-- If the first field of such a type is called `f1`, the receiver raises an exception. -/
theorem C89_clash (T : PyText) (hT : Faithful T) (w : Nat) (hw1 : 1 ≤ w) (hw7 : w ≤ 7) (raw raw' : Descriptor)
    (hr : toRaw T 0 (typed (paddedType [102, 49])) = some raw) (fit : Spead2.Spec.DescriptorFits w 0 raw) (hid : raw.id < 2 ^ (8 * w))
    (ha : Arrives w 0 raw raw') : fromRaw T 0 raw' = none := by
  have hv : Valid (typed (paddedType [102, 49])) := ((mk_iff _ _).1 (by decide : mkDescriptor (typed (paddedType [102, 49])) = some (typed (paddedType [102, 49])))).2
  rw [arrives_unique ha (arrives hw1 hw7 fit hid)]
  obtain ⟨de, h1, h2, _⟩ := received_dtype hT hv (rfl : (typed (paddedType [102, 49])).dtype = some (paddedType [102, 49])) hr
  rw [h2 (by simp [typed])]
  have h3 : dtypeToDescr (wireType 0 (paddedType [102, 49])) = some (.list (.cons [102, 49] (.str .none [117] 1) none (.cons [] (.str .none [86] 3) none (.cons [98] (.str .little [117] 4) none .nil)))) := by decide
  rw [h3] at h1
  simp only [Option.some.injEq] at h1
  subst h1
  decide

/-- A subarray as a type is received as raw bytes. -/
theorem C89_subarray (T : PyText) (hT : Faithful T) (w : Nat) (hw1 : 1 ≤ w) (hw7 : w ≤ 7) (raw raw' : Descriptor)
    (hr : toRaw T 0 (typed (.array [3] u4)) = some raw) (fit : Spead2.Spec.DescriptorFits w 0 raw) (hid : raw.id < 2 ^ (8 * w))
    (ha : Arrives w 0 raw raw') : fromRaw T 0 raw' = some (typed (.scalar .none [86] 12)) := by
  have hv : Valid (typed (.array [3] u4)) := ((mk_iff _ _).1 (by decide : mkDescriptor (typed (.array [3] u4)) = some (typed (.array [3] u4)))).2
  rw [arrives_unique ha (arrives hw1 hw7 fit hid)]
  obtain ⟨de, h1, h2, _⟩ := received_dtype hT hv (rfl : (typed (.array [3] u4)).dtype = some (.array [3] u4)) hr
  rw [h2 (by simp [typed])]
  have h3 : dtypeToDescr (wireType 0 (.array [3] u4)) = some (.str .none [86] 12) := by decide
  rw [h3] at h1
  simp only [Option.some.injEq] at h1
  subst h1
  decide

/-! Non-vacuity: a nested type with a subarray, in Fortran order and with every bug compatibility bit; and a
format with a variable size. -/

/-- `[("a", "<u4", (2, 3)), ("b", [("c", "u1"), ("d", "<u4")])]`: a nested type. -/
def nestedType : Dtype :=
  .struct (.cons [97] 0 (.array [2, 3] u4) (.cons [98] 24 (.struct (.cons [99] 0 u1 (.cons [100] 1 u4 .nil)) 5) .nil)) 29

def nestedD : PyDescriptor := { typed nestedType with shape := [some 2, some 0], order := .F }

theorem nestedD_plain : Plain nestedD where
  shape := by
    intro x hx
    simp [nestedD] at hx
    omega
  dtype := by
    intro t ht
    simp only [nestedD, typed, Option.some.injEq] at ht
    subst ht
    refine ⟨?_, by simp [nestedType]⟩
    simp [nestedType, Packed, PackedFields, Fields.names, Dtype.itemsize, u4, u1]

theorem asciiEncode_length {s : Str} {b : Bytes} (h : asciiEncode s = some b) : b.length = s.length := by
  unfold asciiEncode at h
  split at h
  · simp only [Option.some.injEq] at h
    rw [← h, List.length_map]
  · exact absurd h (by simp)

/-- Sufficient for `to_raw` to succeed in the samples below, with a result that fits. -/
theorem sample_raw {bc : Nat} {d : PyDescriptor} {t : Dtype} {de : Descr} {sh : List Int} (hd : d.dtype = some t) (hsh : d.shape = sh.map some)
    (hde : dtypeToDescr (wireType bc t) = some de) (h1 : d.id = 0x1000) (h2 : d.name = [120]) (h3 : d.description = [])
    (h4 : ∀ x ∈ sh, 0 ≤ x ∧ x < 256) (h4' : sh.length ≤ 10)
    (h5 : ∀ c ∈ serLit (.dict [(kDescr, .descr de), (kFortran, .bool (d.order = .F)), (kShape, .ints sh)]), c < 128)
    (h6 : (serLit (.dict [(kDescr, .descr de), (kFortran, .bool (d.order = .F)), (kShape, .ints sh)])).length < 60000) :
    ∃ raw, toRaw sampleText bc d = some raw ∧ Spead2.Spec.DescriptorFits 5 bc raw ∧ raw.id < 2 ^ (8 * 5) := by
  have hh : makeNumpyHeader sampleText d.shape (wireType bc t) d.order = some (serLit (.dict [(kDescr, .descr de), (kFortran, .bool (d.order = .F)), (kShape, .ints sh)])) := by
    unfold makeNumpyHeader
    rw [hde, hsh, mapM_id_some]
    rfl
  obtain ⟨b, hb⟩ := (asciiEncode_iff _).2 h5
  have hs : ∀ l : List Int, (∀ x ∈ l, 0 ≤ x ∧ x < 256) → shapeSetter (l.map some) = some l := by
    intro l
    induction l with
    | nil => intro _; rfl
    | cons a l ih =>
      intro hl
      have ha := hl a List.mem_cons_self
      unfold shapeSetter at ih ⊢
      rw [List.map_cons, mapM_some_cons]
      refine ⟨a, l, ?_, ih fun x hx => hl x (List.mem_cons_of_mem _ hx), rfl⟩
      simp only [dimSetter, toInt64]
      rw [if_pos (by omega)]
  have hlen := asciiEncode_length hb
  have hw := shapeWidth_le bc
  refine ⟨{ id := 0x1000, name := [120], description := [], shape := sh, numpyHeader := b }, ?_, ⟨by simp, by simp, ?_, ?_⟩, by simp⟩
  · have e1 : toInt64 0x1000 = some 0x1000 := by decide
    have e2 : asciiEncode [120] = some [120] := by decide
    have e3 : asciiEncode [] = some [] := by decide
    unfold wireType at hh
    simp only [toRaw, h1, h2, h3, e1, e2, e3, hd, hh, hb, Option.bind_eq_bind, Option.bind_some]
    rw [hsh, hs sh h4]
    rfl
  · intro x hx
    have := h4 x hx
    have h7 : (2 : Int) ^ (8 * 5) ≤ 2 ^ (8 * Spead2.Spec.shapeWidth 5 bc) := by
      have h8 : (2 : Nat) ^ (8 * 5) ≤ 2 ^ (8 * Spead2.Spec.shapeWidth 5 bc) := Nat.pow_le_pow_right (by omega) (by omega)
      have := Int.ofNat_le.2 h8
      simpa using this
    omega
  · simp only [Spead2.Spec.descriptorLength, List.length_nil, List.length_cons]
    have : sh.length * (1 + Spead2.Spec.shapeWidth 5 bc) ≤ 10 * 8 := Nat.mul_le_mul h4' (by omega)
    omega
where
  shapeWidth_le (bc : Nat) : 5 ≤ Spead2.Spec.shapeWidth 5 bc ∧ Spead2.Spec.shapeWidth 5 bc ≤ 7 := by
    unfold Spead2.Spec.shapeWidth
    split <;> omega

/-- `to_raw` of the sample succeeds, and what it gives fits: `C89_partial` applies. -/
theorem nestedD_raw : ∃ raw, toRaw sampleText 7 nestedD = some raw ∧ Spead2.Spec.DescriptorFits 5 7 raw ∧ raw.id < 2 ^ (8 * 5) ∧
    ∃ raw', Arrives 5 7 raw raw' ∧ fromRaw sampleText 7 raw' = some nestedD := by
  obtain ⟨raw, h1, fit, h2⟩ := sample_raw (bc := 7) (d := nestedD) (t := nestedType) (sh := [2, 0])
    (de := .list (.cons [97] (.str .big [117] 4) (some [2, 3]) (.cons [98] (.list (.cons [99] (.str .none [117] 1) none (.cons [100] (.str .big [117] 4) none .nil))) none .nil)))
    rfl rfl (by decide) rfl rfl rfl (by decide) (by decide) (by decide +kernel) (by decide +kernel)
  exact ⟨raw, h1, fit, h2, C89_partial sampleText sampleText_faithful 5 7 (by decide) (by decide) nestedD nestedD (by decide) nestedD_plain raw h1 fit h2⟩

/-- A format with a field of 12 bits and a variable size. -/
def formatD : PyDescriptor where
  id := 0x1234
  name := [120, 121]
  description := [100]
  shape := [none, some 100000]
  dtype := none
  order := .C
  format := some [(117, 12), (102, 32)]

example : mkDescriptor formatD = some formatD := by decide

example : ∃ raw raw', toRaw sampleText 0 formatD = some raw ∧ Arrives 5 0 raw raw' ∧ fromRaw sampleText 0 raw' = some formatD := by
  have hp : Plain formatD := ⟨by intro x hx; simp [formatD] at hx; omega, by simp [formatD]⟩
  obtain ⟨raw', h1, h2⟩ := C89_partial sampleText sampleText_faithful 5 0 (by decide) (by decide) formatD formatD (by decide) hp _ rfl
    ⟨by decide, by decide, by decide, by decide⟩ (by decide)
  exact ⟨_, raw', rfl, h1, h2⟩

/-- The padded type is well formed and can be sent, so `C89_padding` and `C89_extends` apply. -/
example : WellFormed (paddedType [97]) := by
  simp [paddedType, WellFormed, WellFormedFields, u1, u4, Dtype.itemsize]

example : ∃ raw raw', toRaw sampleText 0 (typed (paddedType [97])) = some raw ∧ Spead2.Spec.DescriptorFits 5 0 raw ∧ Arrives 5 0 raw raw' := by
  obtain ⟨raw, h1, fit, h2⟩ := sample_raw (bc := 0) (d := typed (paddedType [97])) (t := paddedType [97]) (sh := [2])
    (de := .list (.cons [97] (.str .none [117] 1) none (.cons [] (.str .none [86] 3) none (.cons [98] (.str .little [117] 4) none .nil))))
    rfl rfl (by decide) rfl rfl rfl (by decide) (by decide) (by decide +kernel) (by decide +kernel)
  exact ⟨raw, _, h1, fit, arrives (by decide) (by decide) fit h2⟩

/-- `C89_header` applies to the nested sample, whose scalars are all described big-endian. -/
example : ∃ raw header de sh, toRaw sampleText 7 nestedD = some raw ∧ asciiDecode raw.numpyHeader = some header ∧
    sampleText.eval header = some (.dict [(kDescr, .descr de), (kFortran, .bool true), (kShape, .ints sh)]) ∧
    scalarsD de = [(.big, [117], 4), (.none, [117], 1), (.big, [117], 4)] := by
  obtain ⟨raw, h1, _⟩ := nestedD_raw
  obtain ⟨header, de, sh, h2, _, h3, h4⟩ := C89_header sampleText sampleText_faithful 7 nestedD nestedD (by decide) nestedD_plain nestedType rfl raw h1
  exact ⟨raw, header, de, sh, h1, h2, h3, h4⟩

end Spead2.PyDescr
