import Verif.Spec.PyDescr
import Verif.Props.Descriptor

/-!
# Lemmas about Python descriptors
-/

namespace Spead2.PyDescr

open Spec

theorem swap_swap (o : ByteOrder) : o.swap.swap = o := by cases o <;> rfl

mutual
theorem newbyteorder_twice : ∀ t : Dtype, t.newbyteorder.newbyteorder = t
  | .scalar o k n => by simp [Dtype.newbyteorder, swap_swap]
  | .array s b => by simp [Dtype.newbyteorder, newbyteorder_twice b]
  | .struct fs n => by simp [Dtype.newbyteorder, fields_twice fs]
theorem fields_twice : ∀ fs : Fields, fs.newbyteorder.newbyteorder = fs
  | .nil => by simp [Fields.newbyteorder]
  | .cons name off t rest => by simp [Fields.newbyteorder, newbyteorder_twice t, fields_twice rest]
end

theorem itemsize_swap : ∀ t : Dtype, t.newbyteorder.itemsize = t.itemsize
  | .scalar o k n => by simp [Dtype.newbyteorder, Dtype.itemsize]
  | .array s b => by simp [Dtype.newbyteorder, Dtype.itemsize, itemsize_swap b]
  | .struct fs n => by simp [Dtype.newbyteorder, Dtype.itemsize]

theorem names_swap : ∀ fs : Fields, fs.newbyteorder.names = fs.names
  | .nil => by simp [Fields.newbyteorder, Fields.names]
  | .cons name off t rest => by simp [Fields.newbyteorder, Fields.names, names_swap rest]

theorem fieldList_swap : ∀ fs : Fields, fieldList fs.newbyteorder = fieldList fs
  | .nil => by simp [Fields.newbyteorder, fieldList]
  | .cons name off t rest => by simp [Fields.newbyteorder, fieldList, fieldList_swap rest, itemsize_swap]

theorem notArray_swap (b : Dtype) (h : ∀ s b', b ≠ .array s b') : ∀ s b', b.newbyteorder ≠ .array s b' := by
  cases b with
  | scalar o k n => intro s b' h'; simp [Dtype.newbyteorder] at h'
  | array s b => exact absurd rfl (h s b)
  | struct fs n => intro s b' h'; simp [Dtype.newbyteorder] at h'

mutual
theorem packed_swap : ∀ t : Dtype, Packed t → Packed t.newbyteorder
  | .scalar o k n, _ => by simp [Dtype.newbyteorder, Packed]
  | .array s b, h => by
    simp only [Packed] at h
    simp only [Dtype.newbyteorder, Packed]
    exact ⟨packed_swap b h.1, notArray_swap b h.2⟩
  | .struct fs n, h => by
    simp only [Packed] at h
    simp only [Dtype.newbyteorder, Packed, names_swap]
    exact ⟨packedFields_swap fs 0 n h.1, h.2⟩
theorem packedFields_swap : ∀ (fs : Fields) (pos size : Nat), PackedFields fs pos size → PackedFields fs.newbyteorder pos size
  | .nil, pos, size, h => by simpa [Fields.newbyteorder, PackedFields] using h
  | .cons name off t rest, pos, size, h => by
    simp only [PackedFields] at h
    simp only [Fields.newbyteorder, PackedFields, itemsize_swap]
    exact ⟨h.1, h.2.1, packed_swap t h.2.2.1, packedFields_swap rest _ size h.2.2.2⟩
end

mutual
/-- numpy gives back the type of a packed field. -/
theorem elemDescr_packed : ∀ t : Dtype, Packed t → ∃ d s b, t.elemDescr = some (d, s) ∧ npDtype d = some b ∧ elemType b s = t ∧
    (s = none ↔ ∀ sh b', t ≠ .array sh b')
  | .scalar o k n, _ => ⟨.str o k n, none, .scalar o k n, by simp [Dtype.elemDescr], by simp [npDtype], rfl, by simp⟩
  | .array s b, h => by
    simp only [Packed] at h
    obtain ⟨d, s', b', h1, h2, h3, h4⟩ := elemDescr_packed b h.1
    have hs := h4.2 h.2
    subst hs
    refine ⟨d, some s, b', by simp [Dtype.elemDescr, h1], h2, ?_, by simp⟩
    simp only [elemType] at h3 ⊢
    rw [h3]
  | .struct fs n, h => by
    simp only [Packed] at h
    obtain ⟨l, h1, h2⟩ := descr_packed fs 0 0 n h.1
    refine ⟨.list l, none, .struct fs n, by simp [Dtype.elemDescr, h1], ?_, rfl, by simp⟩
    simp only [npDtype, h2]
    rw [if_pos h.2]
theorem descr_packed : ∀ (fs : Fields) (i pos size : Nat), PackedFields fs pos size →
    ∃ l, fs.descr pos size = some l ∧ npFields l i pos = some (fs, size)
  | .nil, i, pos, size, h => by
    simp only [PackedFields] at h
    subst h
    exact ⟨.nil, by simp [Fields.descr], by simp [npFields]⟩
  | .cons name off t rest, i, pos, size, h => by
    simp only [PackedFields] at h
    obtain ⟨hn, ho, ht, hr⟩ := h
    subst ho
    obtain ⟨d, s, b, h1, h2, h3, _⟩ := elemDescr_packed t ht
    obtain ⟨l, h4, h5⟩ := descr_packed rest (i + 1) (off + t.itemsize) size hr
    refine ⟨.cons name d s l, by simp [Fields.descr, h1, h4], ?_⟩
    simp only [npFields, h2]
    rw [h3, h5]
    simp [hn]
end

theorem dtypeToDescr_packed (t : Dtype) (h : Packed t) (ha : ∀ s b, t ≠ .array s b) : ∃ d, dtypeToDescr t = some d ∧ npDtype d = some t := by
  obtain ⟨d, s, b, h1, h2, h3, h4⟩ := elemDescr_packed t h
  have hs := h4.2 ha
  subst hs
  simp only [elemType] at h3
  subst h3
  refine ⟨d, ?_, h2⟩
  cases b with
  | scalar o k n => simpa [dtypeToDescr, Dtype.elemDescr] using h1
  | array s b => exact absurd rfl (ha s b)
  | struct fs n => simpa [dtypeToDescr, Dtype.elemDescr] using h1

theorem ascii_roundtrip {s : Str} {b : Bytes} (h : asciiEncode s = some b) : asciiDecode b = some s := by
  unfold asciiEncode at h
  split at h
  · rename_i ha
    simp only [Option.some.injEq] at h
    subst h
    have key : ∀ c ∈ s, (UInt8.ofNat c).toNat = c := by
      intro c hc
      have := List.all_eq_true.1 ha c hc
      simp only [decide_eq_true_eq] at this
      simp only [UInt8.toNat_ofNat']
      omega
    unfold asciiDecode
    rw [if_pos]
    · rw [List.map_map]
      congr 1
      have h2 : s.map (UInt8.toNat ∘ UInt8.ofNat) = s.map id := List.map_congr_left fun c hc => key c hc
      rw [h2, List.map_id]
    · rw [List.all_eq_true]
      intro c hc
      obtain ⟨n, hn, rfl⟩ := List.mem_map.1 hc
      have := List.all_eq_true.1 ha n hn
      rw [key n hn]
      exact this
  · exact absurd h (by simp)

theorem asciiEncode_iff (s : Str) : (∃ b, asciiEncode s = some b) ↔ Ascii s := by
  unfold asciiEncode Ascii
  by_cases h : s.all (fun c => decide (c < 128)) = true
  · rw [if_pos h]
    simp only [List.all_eq_true, decide_eq_true_eq] at h
    simpa using h
  · rw [if_neg h]
    simp only [List.all_eq_true, decide_eq_true_eq] at h
    simpa using h

theorem toInt64_some {v x : Int} (h : toInt64 v = some x) : x = v ∧ Fits64 v := by
  unfold toInt64 at h
  split at h
  · simp only [Option.some.injEq] at h
    exact ⟨h.symm, by assumption⟩
  · exact absurd h (by simp)

theorem toInt64_iff (v : Int) : (∃ x, toInt64 v = some x) ↔ Fits64 v := by
  unfold toInt64 Fits64
  split <;> simp_all

theorem mapM_some_nil {α β : Type} (f : α → Option β) : [].mapM f = some [] := by simp

theorem mapM_some_cons {α β : Type} (f : α → Option β) (a : α) (l : List α) (r : List β) :
    (a :: l).mapM f = some r ↔ ∃ b r', f a = some b ∧ l.mapM f = some r' ∧ r = b :: r' := by
  rw [List.mapM_cons]
  cases h1 : f a with
  | none => simp
  | some b =>
    cases h2 : l.mapM f with
    | none => simp
    | some r' => simp [eq_comm]

theorem mapM_id_some : ∀ (l : List Int), (l.map some).mapM id = some l
  | [] => by simp
  | a :: l => by
    rw [List.map_cons, mapM_some_cons]
    exact ⟨a, l, rfl, mapM_id_some l, rfl⟩

theorem shape_known : ∀ (l : List (Option Int)), none ∉ l → ∃ s : List Int, l = s.map some
  | [], _ => ⟨[], rfl⟩
  | none :: l, h => absurd (List.mem_cons_self) h
  | some a :: l, h => by
    obtain ⟨s, hs⟩ := shape_known l fun hm => h (List.mem_cons_of_mem _ hm)
    exact ⟨a :: s, by rw [hs]; rfl⟩

theorem shape_received : ∀ (l : List (Option Int)) (r : List Int), shapeSetter l = some r →
    shapeGetter (r.map fun x => if x < 0 then -1 else x) = l.map fun x => x.filter (fun v => decide (0 ≤ v))
  | [], r, h => by
    simp [shapeSetter] at h
    subst h
    rfl
  | a :: l, r, h => by
    unfold shapeSetter at h
    rw [mapM_some_cons] at h
    obtain ⟨b, r', h1, h2, rfl⟩ := h
    have ih := shape_received l r' h2
    simp only [shapeGetter, List.map_cons] at ih ⊢
    rw [ih]
    congr 1
    cases a with
    | none =>
      simp only [dimSetter, Option.some.injEq] at h1
      subst h1
      decide
    | some v =>
      have h3 := (toInt64_some (x := b) h1).1
      subst h3
      by_cases h5 : b < 0
      · rw [if_pos h5, if_neg (by decide)]
        simp only [Option.filter]
        rw [if_neg (by simp; omega)]
      · rw [if_neg h5, if_pos (by omega)]
        simp only [Option.filter]
        rw [if_pos (by simp; omega)]

theorem format_roundtrip : ∀ (l : List (Nat × Int)) (r : List (UInt8 × Int)), formatSetter l = some r → formatGetter r = some l
  | [], r, h => by
    simp [formatSetter] at h
    subst h
    rfl
  | a :: l, r, h => by
    unfold formatSetter at h
    rw [mapM_some_cons] at h
    obtain ⟨b, r', h1, h2, rfl⟩ := h
    have ih := format_roundtrip l r' h2
    unfold formatGetter at ih ⊢
    rw [mapM_some_cons]
    split at h1
    · rename_i hlt
      cases hv : toInt64 a.2 with
      | none => simp [hv] at h1
      | some v =>
        simp only [hv, Option.map_some, Option.some.injEq] at h1
        subst h1
        have hc : (UInt8.ofNat a.1).toNat = a.1 := by
          simp only [UInt8.toNat_ofNat']
          omega
        refine ⟨a, l, ?_, ih, rfl⟩
        simp only [hc]
        rw [if_pos hlt, (toInt64_some hv).1]
    · exact absurd h1 (by simp)

theorem fieldLegal_iff (x : Nat × Int) : fieldLegal x = true ↔ FieldOk x := by
  obtain ⟨c, n⟩ := x
  have e1 : ['u', 'i', 'b'].map Char.toNat = [117, 105, 98] := by decide
  have e2 : 'f'.toNat = 102 := by decide
  have e3 : 'c'.toNat = 99 := by decide
  unfold fieldLegal FieldOk
  rw [e1, e2, e3]
  simp only [List.mem_cons, List.not_mem_nil, or_false]
  split
  · simp; omega
  · split
    · simp; omega
    · split
      · simp; omega
      · split
        · simp; omega
        · split
          · simp; omega
          · simp; omega

theorem filter_none (l : List (Option Int)) : l.filter (· = none) = l.filter Option.isNone := by
  congr 1
  funext x
  cases x <;> rfl

theorem filter_none_zero (l : List (Option Int)) : (l.filter Option.isNone).length = 0 ↔ none ∉ l := by
  rw [List.length_eq_zero_iff, List.filter_eq_nil_iff]
  constructor
  · intro h hm
    exact h _ hm rfl
  · intro h a ha hn
    cases a with
    | none => exact h ha
    | some _ => simp at hn

mutual
theorem hasobject_iff : ∀ t : Dtype, t.hasobject = false ↔ ∀ x ∈ scalars t, x.2.1 ≠ ['O'.toNat]
  | .scalar o k n => by
    have e : 'O'.toNat = 79 := by decide
    simp [Dtype.hasobject, scalars, objectKind, e]
  | .array s b => by
    simp only [Dtype.hasobject, scalars]
    exact hasobject_iff b
  | .struct fs n => by
    simp only [Dtype.hasobject, scalars]
    exact fields_hasobject_iff fs
theorem fields_hasobject_iff : ∀ fs : Fields, fs.hasobject = false ↔ ∀ x ∈ scalarsF fs, x.2.1 ≠ ['O'.toNat]
  | .nil => by simp [Fields.hasobject, scalarsF]
  | .cons name off t rest => by
    simp only [Fields.hasobject, scalarsF, Bool.or_eq_false_iff, List.mem_append, hasobject_iff t, fields_hasobject_iff rest]
    constructor
    · rintro ⟨h1, h2⟩ x (hx | hx)
      · exact h1 x hx
      · exact h2 x hx
    · intro h
      exact ⟨fun x hx => h x (Or.inl hx), fun x hx => h x (Or.inr hx)⟩
end

/-- The constructor accepts exactly the valid arguments, and keeps them. -/
theorem mk_iff (a d : PyDescriptor) : mkDescriptor a = some d ↔ d = a ∧ Valid a := by
  constructor
  · intro h
    unfold mkDescriptor at h
    simp only at h
    split at h
    · exact absurd h (by simp)
    rename_i hu
    split at h
    · rename_i t ht
      split at h
      · exact absurd h (by simp)
      split at h
      · exact absurd h (by simp)
      split at h
      · exact absurd h (by simp)
      split at h
      · exact absurd h (by simp)
      split at h
      · exact absurd h (by simp)
      rename_i h1 h2 h3 h4 h5
      simp only [Option.some.injEq] at h
      refine ⟨h.symm, by rw [filter_none]; omega, ?_, ?_, ?_, ?_⟩
      · have : a.format = none := by simpa using h2
        rw [ht, this]
        rfl
      · intro t' ht'
        rw [ht] at ht'
        simp only [Option.some.injEq] at ht'
        subst ht'
        exact ⟨(filter_none_zero _).1 (by omega), (hasobject_iff _).1 (by simpa using h1), by omega⟩
      · intro f hf
        exact absurd hf (by simpa using fun hh : a.format = some f => h2 (by rw [hh]; simp))
      · cases ho : a.order <;> simp_all
    · rename_i ht
      split at h
      · exact absurd h (by simp)
      rename_i f hf
      split at h
      · exact absurd h (by simp)
      rename_i ho
      split at h
      · rename_i hp
        simp only [Option.some.injEq] at h
        have ho' : a.order = .C := by simpa using ho
        refine ⟨h.symm, by rw [filter_none]; omega, by rw [ht, hf]; rfl, by simp [ht], ?_, Or.inl ho'⟩
        intro f' hf'
        rw [hf] at hf'
        simp only [Option.some.injEq] at hf'
        subst hf'
        unfold parseFormat at hp
        split at hp
        · exact absurd hp (by simp)
        · rename_i hne
          refine ⟨ho', by intro hh; subst hh; simp at hne, fun x hx => (fieldLegal_iff x).1 (List.all_eq_true.1 hp x hx)⟩
      · exact absurd h (by simp)
  · rintro ⟨rfl, hv⟩
    have hu := hv.unknowns
    rw [filter_none] at hu
    unfold mkDescriptor
    simp only
    rw [if_neg (by omega)]
    cases hd : d.dtype with
    | some t =>
      have h1 := hv.dtype t hd
      have h2 := hv.one
      rw [hd] at h2
      have h3 : d.format = none := by
        cases hf : d.format with
        | none => rfl
        | some f => rw [hf] at h2; simp at h2
      simp only
      rw [if_neg (by simp [(hasobject_iff t).2 h1.2.1]), if_neg (by simp [h3]), if_neg (by omega),
        if_neg (by have := (filter_none_zero d.shape).2 h1.1; omega), if_neg (by rcases hv.order with h | h <;> simp [h])]
    | none =>
      have h2 := hv.one
      rw [hd] at h2
      cases hf : d.format with
      | none => rw [hf] at h2; simp at h2
      | some f =>
        have h3 := hv.format f hf
        simp only
        rw [if_neg (by simp [h3.1]), if_pos]
        unfold parseFormat
        rw [if_neg (by simp [h3.2.1])]
        rw [List.all_eq_true]
        exact fun x hx => (fieldLegal_iff x).2 (h3.2.2 x hx)

mutual
/-- What numpy gives back for any field has the size of that field. -/
theorem elemDescr_size : ∀ (t : Dtype) (d : Descr) (s : Option (List Nat)) (b : Dtype), WellFormed t → t.elemDescr = some (d, s) →
    npDtype d = some b → (elemType b s).itemsize = t.itemsize
  | .scalar o k n, d, s, b, _, h1, h2 => by
    simp only [Dtype.elemDescr, Option.some.injEq, Prod.mk.injEq] at h1
    obtain ⟨rfl, rfl⟩ := h1
    simp only [npDtype, Option.some.injEq] at h2
    subst h2
    rfl
  | .array sh b0, d, s, b, hw, h1, h2 => by
    simp only [WellFormed] at hw
    simp only [Dtype.elemDescr] at h1
    split at h1
    · rename_i d' he
      simp only [Option.some.injEq, Prod.mk.injEq] at h1
      obtain ⟨rfl, rfl⟩ := h1
      have ih := elemDescr_size b0 _ _ b hw he h2
      simp only [elemType] at ih
      simp only [elemType, Dtype.itemsize, ih]
    · exact absurd h1 (by simp)
  | .struct fs n, d, s, b, hw, h1, h2 => by
    simp only [WellFormed] at hw
    simp only [Dtype.elemDescr, Option.map_eq_some_iff, Prod.mk.injEq] at h1
    obtain ⟨l, hl, rfl, rfl⟩ := h1
    simp only [npDtype] at h2
    split at h2
    · rename_i fs' n' hf
      split at h2
      · simp only [Option.some.injEq] at h2
        subst h2
        exact (descr_size fs l fs' 0 0 n n' hw (Nat.zero_le _) hl hf).1
      · exact absurd h2 (by simp)
    · exact absurd h2 (by simp)
/-- What numpy gives back for the fields of a structure ends where it ended, and has all its fields. -/
theorem descr_size : ∀ (fs : Fields) (l : DescrFields) (fs' : Fields) (i pos size n : Nat), WellFormedFields fs size → pos ≤ size →
    fs.descr pos size = some l → npFields l i pos = some (fs', n) → n = size ∧ ∀ x ∈ fieldList fs, x ∈ fieldList fs'
  | .nil, l, fs', i, pos, size, n, _, hp, h1, h2 => by
    simp only [Fields.descr, Option.some.injEq] at h1
    subst h1
    refine ⟨?_, by simp [fieldList]⟩
    split at h2
    · simp only [npFields, npDtype, elemType, Dtype.itemsize, Option.some.injEq, Prod.mk.injEq] at h2
      omega
    · simp only [npFields, Option.some.injEq, Prod.mk.injEq] at h2
      omega
  | .cons name off t rest, l, fs', i, pos, size, n, hw, hp, h1, h2 => by
    simp only [WellFormedFields] at hw
    obtain ⟨hn, hsz, ht, hr⟩ := hw
    simp only [Fields.descr] at h1
    split at h1
    · exact absurd h1 (by simp)
    rename_i hoff
    split at h1
    · rename_i d s r he hrest
      simp only [Option.some.injEq] at h1
      have key : ∀ j gs, npFields (.cons name d s r) j off = some (gs, n) → n = size ∧ ∀ x ∈ fieldList (.cons name off t rest), x ∈ fieldList gs := by
        intro j gs hg
        simp only [npFields] at hg
        split at hg
        · exact absurd hg (by simp)
        rename_i b hb
        have hsize := elemDescr_size t d s b ht he hb
        rw [hsize] at hg
        split at hg
        · rename_i fs2 n2 hf2
          simp only [Option.some.injEq, Prod.mk.injEq] at hg
          obtain ⟨rfl, rfl⟩ := hg
          obtain ⟨h3, h4⟩ := descr_size rest r fs2 _ _ size _ hr hsz hrest hf2
          refine ⟨h3, fun x hx => ?_⟩
          rw [if_neg hn]
          simp only [fieldList, List.mem_cons, hsize] at hx ⊢
          rcases hx with hx | hx
          · exact Or.inl hx
          · exact Or.inr (h4 x hx)
        · exact absurd hg (by simp)
      split at h1
      · rename_i hlt
        subst h1
        rw [npFields] at h2
        simp only [npDtype, elemType, Dtype.itemsize] at h2
        rw [show pos + (off - pos) = off by omega] at h2
        split at h2
        · rename_i gs n2 hg
          simp only [Option.some.injEq, Prod.mk.injEq] at h2
          obtain ⟨rfl, rfl⟩ := h2
          obtain ⟨h3, h4⟩ := key _ _ hg
          exact ⟨h3, fun x hx => by rw [fieldList]; exact List.mem_cons_of_mem _ (h4 x hx)⟩
        · exact absurd h2 (by simp)
      · subst h1
        have : off = pos := by omega
        rw [← this] at h2
        exact key _ _ h2
    · exact absurd h1 (by simp)
end

/-- What numpy gives back for any type can be used instead of it. -/
theorem dtypeToDescr_extends (t t' : Dtype) (d : Descr) (hw : WellFormed t) (h1 : dtypeToDescr t = some d) (h2 : npDtype d = some t') :
    Extends t t' := by
  cases t with
  | scalar o k n =>
    simp only [dtypeToDescr, Option.some.injEq] at h1
    subst h1
    simp only [npDtype, Option.some.injEq] at h2
    subst h2
    exact ⟨rfl, by simp⟩
  | array s b =>
    simp only [dtypeToDescr, Option.some.injEq] at h1
    subst h1
    simp only [npDtype, Option.some.injEq] at h2
    subst h2
    exact ⟨rfl, by simp⟩
  | struct fs n =>
    simp only [dtypeToDescr, Option.map_eq_some_iff] at h1
    obtain ⟨l, hl, rfl⟩ := h1
    simp only [npDtype] at h2
    split at h2
    · rename_i fs' n' hf
      split at h2
      · simp only [Option.some.injEq] at h2
        subst h2
        simp only [WellFormed] at hw
        obtain ⟨h3, h4⟩ := descr_size fs l fs' 0 0 n n' hw (Nat.zero_le _) hl hf
        refine ⟨h3, ?_⟩
        intro gs m he
        simp only [Dtype.struct.injEq] at he
        obtain ⟨rfl, rfl⟩ := he
        exact ⟨fs', n', rfl, h4⟩
      · exact absurd h2 (by simp)
    · exact absurd h2 (by simp)

theorem extends_swap {t t' : Dtype} (h : Extends t t') : Extends t.newbyteorder t'.newbyteorder := by
  obtain ⟨h1, h2⟩ := h
  refine ⟨by rw [itemsize_swap, itemsize_swap, h1], ?_⟩
  intro fs n he
  cases t with
  | scalar o k n => simp [Dtype.newbyteorder] at he
  | array s b => simp [Dtype.newbyteorder] at he
  | struct gs m =>
    simp only [Dtype.newbyteorder, Dtype.struct.injEq] at he
    obtain ⟨rfl, rfl⟩ := he
    obtain ⟨fs', n', rfl, h3⟩ := h2 gs m rfl
    exact ⟨fs'.newbyteorder, n', by simp [Dtype.newbyteorder], by rw [fieldList_swap, fieldList_swap]; exact h3⟩

mutual
theorem wellFormed_swap : ∀ t : Dtype, WellFormed t → WellFormed t.newbyteorder
  | .scalar o k n, _ => by simp [Dtype.newbyteorder, WellFormed]
  | .array s b, h => by
    simp only [WellFormed] at h
    simp only [Dtype.newbyteorder, WellFormed]
    exact wellFormed_swap b h
  | .struct fs n, h => by
    simp only [WellFormed] at h
    simp only [Dtype.newbyteorder, WellFormed]
    exact wellFormedFields_swap fs n h
theorem wellFormedFields_swap : ∀ (fs : Fields) (size : Nat), WellFormedFields fs size → WellFormedFields fs.newbyteorder size
  | .nil, size, h => by simp [Fields.newbyteorder, WellFormedFields]
  | .cons name off t rest, size, h => by
    simp only [WellFormedFields] at h
    simp only [Fields.newbyteorder, WellFormedFields, itemsize_swap]
    exact ⟨h.1, h.2.1, wellFormed_swap t h.2.2.1, wellFormedFields_swap rest size h.2.2.2⟩
end

theorem autoName_ne (i : Nat) : autoName i ≠ [] := by simp [autoName]

mutual
/-- numpy makes only packed types from lists of fields (whose subarrays have no subarrays). -/
theorem npDtype_packed : ∀ (d : Descr) (t : Dtype), npDtype d = some t → Packed t ∧ ∀ s b, t ≠ .array s b
  | .str o k n, t, h => by
    simp only [npDtype, Option.some.injEq] at h
    subst h
    exact ⟨by simp [Packed], by simp⟩
  | .list l, t, h => by
    simp only [npDtype] at h
    split at h
    · rename_i fs n hf
      split at h
      · rename_i hnd
        simp only [Option.some.injEq] at h
        subst h
        simp only [Packed]
        exact ⟨⟨npFields_packed l fs 0 0 n hf, hnd⟩, by simp⟩
      · exact absurd h (by simp)
    · exact absurd h (by simp)
theorem npFields_packed : ∀ (l : DescrFields) (fs : Fields) (i pos n : Nat), npFields l i pos = some (fs, n) → PackedFields fs pos n
  | .nil, fs, i, pos, n, h => by
    simp only [npFields, Option.some.injEq, Prod.mk.injEq] at h
    obtain ⟨rfl, rfl⟩ := h
    simp [PackedFields]
  | .cons name d s rest, fs, i, pos, n, h => by
    simp only [npFields] at h
    split at h
    · exact absurd h (by simp)
    rename_i b hb
    obtain ⟨hpb, hab⟩ := npDtype_packed d b hb
    split at h
    · rename_i gs m hg
      simp only [Option.some.injEq, Prod.mk.injEq] at h
      obtain ⟨rfl, rfl⟩ := h
      have ih := npFields_packed rest gs _ _ _ hg
      simp only [PackedFields]
      refine ⟨?_, trivial, ?_, ih⟩
      · split
        · exact autoName_ne i
        · assumption
      · cases s with
        | none => exact hpb
        | some sh =>
          simp only [elemType, Packed]
          exact ⟨hpb, hab⟩
    · exact absurd h (by simp)
end

mutual
theorem scalars_swap : ∀ t : Dtype, scalars t.newbyteorder = (scalars t).map fun x => (opposite x.1, x.2)
  | .scalar o k n => by cases o <;> rfl
  | .array s b => by
    simp only [Dtype.newbyteorder, scalars]
    exact scalars_swap b
  | .struct fs n => by
    simp only [Dtype.newbyteorder, scalars]
    exact scalarsF_swap fs
theorem scalarsF_swap : ∀ fs : Fields, scalarsF fs.newbyteorder = (scalarsF fs).map fun x => (opposite x.1, x.2)
  | .nil => rfl
  | .cons name off t rest => by
    simp only [Fields.newbyteorder, scalarsF, List.map_append, scalars_swap t, scalarsF_swap rest]
end

mutual
theorem elemDescr_scalars : ∀ (t : Dtype) (d : Descr) (s : Option (List Nat)), Packed t → t.elemDescr = some (d, s) → scalarsD d = scalars t
  | .scalar o k n, d, s, _, h => by
    simp only [Dtype.elemDescr, Option.some.injEq, Prod.mk.injEq] at h
    obtain ⟨rfl, rfl⟩ := h
    rfl
  | .array sh b, d, s, hp, h => by
    simp only [Packed] at hp
    simp only [Dtype.elemDescr] at h
    split at h
    · rename_i d' he
      simp only [Option.some.injEq, Prod.mk.injEq] at h
      obtain ⟨rfl, rfl⟩ := h
      simp only [scalars]
      exact elemDescr_scalars b _ _ hp.1 he
    · exact absurd h (by simp)
  | .struct fs n, d, s, hp, h => by
    simp only [Packed] at hp
    simp only [Dtype.elemDescr, Option.map_eq_some_iff, Prod.mk.injEq] at h
    obtain ⟨l, hl, rfl, rfl⟩ := h
    simp only [scalars, scalarsD]
    exact descr_scalars fs l 0 n hp.1 hl
theorem descr_scalars : ∀ (fs : Fields) (l : DescrFields) (pos size : Nat), PackedFields fs pos size → fs.descr pos size = some l →
    scalarsDF l = scalarsF fs
  | .nil, l, pos, size, hp, h => by
    simp only [PackedFields] at hp
    subst hp
    simp only [Fields.descr, Option.some.injEq, Nat.lt_irrefl, if_false] at h
    subst h
    rfl
  | .cons name off t rest, l, pos, size, hp, h => by
    simp only [PackedFields] at hp
    obtain ⟨_, rfl, ht, hr⟩ := hp
    simp only [Fields.descr, Nat.lt_irrefl, if_false] at h
    split at h
    · rename_i d s r he hrest
      simp only [Option.some.injEq] at h
      subst h
      simp only [scalarsDF, scalarsF, elemDescr_scalars t d s ht he, descr_scalars rest r _ size hr hrest]
    · exact absurd h (by simp)
end

theorem dtypeToDescr_scalars (t : Dtype) (d : Descr) (hp : Packed t) (ha : ∀ s b, t ≠ .array s b) (h : dtypeToDescr t = some d) :
    scalarsD d = scalars t := by
  cases t with
  | scalar o k n =>
    simp only [dtypeToDescr, Option.some.injEq] at h
    subst h
    rfl
  | array s b => exact absurd rfl (ha s b)
  | struct fs n =>
    apply elemDescr_scalars (.struct fs n) d none hp
    simp only [dtypeToDescr, Option.map_eq_some_iff] at h
    obtain ⟨l, hl, rfl⟩ := h
    simp [Dtype.elemDescr, hl]

end Spead2.PyDescr
