import Verif.Lemmas.PyArray
import Mathlib.Data.List.Induction

/-! The receiving paths, on what the sending paths produce and on arbitrary bytes. -/

namespace Spead2
open Spec

theorem slice_pad {n k : Nat} {bs : List Nat} (h : bs.length = n) (hn : 0 < n) :
    pySliceLast n (List.replicate k 0 ++ bs) = bs := by
  rw [pySliceLast, if_neg (by omega)]
  exact List.drop_left' (by simp; omega)

theorem listShape_ok : ∀ (s : List Nat), (∀ i : Nat, s[i]? = some 0 → i + 1 = s.length) → listShape s = s := by
  intro s
  induction s with
  | nil => intro _; rfl
  | cons n rest ih =>
    intro h
    rw [listShape]
    split
    · next h0 =>
      have := h 0 (by simp [h0])
      cases rest with
      | nil => rw [h0]
      | cons a b => simp at this
    · rw [ih]
      intro i hi
      have := h (i + 1) (by simpa using hi)
      simpa using this

theorem numpyFromRaw_ok {d : PyDesc} (hd : d.valid = true) (hp : d.fastpath = .numpy) {v : PyArray} (h : ValueFits d v)
    {bs : List Nat} (hm : arrayMemory d.elem v.data = some bs)
    (hk : d.isVariableSize = true → 0 < knownElements d.shape)
    (hz : d.isVariableSize = false → 0 < shapeElements v.shape) (w : Nat) :
    numpyFromRaw d (d.transport w bs) = some v := by
  obtain ⟨h0, h8⟩ := itemsize_numpy hd hp
  obtain ⟨bs', h1, h2, h3, h4⟩ := arrayMemory_ok hp h0 h8 v.data h.elems
  rw [hm] at h1
  cases h1
  have hlenE : v.data.length = shapeElements v.shape := by rw [h.data, shapeElements_prod]
  have hl : bs.length = shapeElements v.shape * (d.itemsizeBits / 8) := by
    have h5 := bytesBits_length bs
    rw [h2, dataBits_len d v.data h.elems, hlenE] at h5
    have h6 : d.itemsizeBits * shapeElements v.shape = 8 * (shapeElements v.shape * (d.itemsizeBits / 8)) := by
      rw [← h8]; simp only [Nat.mul_div_cancel_left _ (show 0 < 8 by omega)]; ring
    omega
  have hdiv : bs.length / (d.itemsizeBits / 8) = shapeElements v.shape := by
    rw [hl, Nat.mul_div_cancel _ h0]
  have hshape : ∀ m, (d.isVariableSize = true → m = shapeElements v.shape) → d.dynamicShape m = v.shape := by
    intro m hme
    apply dynamicShape_ok hd h.shape
    intro hvar
    refine ⟨hk hvar, ?_⟩
    obtain ⟨n, _, hn⟩ := fillShape_variable h.shape (variable_one hd hvar)
    rw [hme hvar, hn, Nat.mul_div_cancel _ (hk hvar)]
  rw [PyDesc.transport]
  split
  · next himm =>
    simp only [Bool.and_eq_true, decide_eq_true_eq, PyDesc.allowImmediate, Bool.not_eq_true'] at himm
    obtain ⟨⟨hfix, _⟩, hw⟩ := himm
    simp only [numpyFromRaw, if_true]
    rw [hshape _ (by rw [hfix]; simp)]
    have hlen2 : (List.replicate (w - bs.length) 0 ++ bs).length = w := by simp; omega
    rw [hlen2]
    have hge : shapeElements v.shape ≤ w / (d.itemsizeBits / 8) := by
      rw [← hdiv]; exact Nat.div_le_div_right hw
    rw [if_neg (by omega), slice_pad hl (Nat.mul_pos (hz hfix) h0), h4]
    simp only [hlenE, if_true]
  · simp only [numpyFromRaw, Bool.false_eq_true, if_false]
    rw [hdiv, hshape _ (fun _ => rfl), if_neg (by omega), List.take_of_length_le (by omega), h4]
    simp only [hlenE, if_true]

theorem slowFromRaw_ok {d : PyDesc} (hd : d.valid = true) {fs : List FieldFmt} (he : d.elem = .format fs) {v : PyArray}
    (h : ValueFits d v) {bs : List Nat} (hlen : bs.length = (d.itemsizeBits * v.data.length + 7) / 8)
    (hb : ∀ b ∈ bs, b < 256) {pad : List Bool} (hbits : bytesBits bs = dataBits d.elem v.data ++ pad)
    (hk : d.isVariableSize = true → 0 < knownElements d.shape ∧ 8 ≤ d.itemsizeBits * knownElements d.shape)
    (hshape : listShape v.shape = v.shape) (w : Nat) :
    slowFromRaw d fs (d.transport w bs) = some v := by
  have hlenE : v.data.length = shapeElements v.shape := by rw [h.data, shapeElements_prod]
  have hpos := valid_pos hd
  have hel := h.elems
  rw [he] at hel
  have hge : ∀ n : Nat, bs.length ≤ n → shapeElements v.shape ≤ n * 8 / d.itemsizeBits := by
    intro n hn
    rw [Nat.le_div_iff_mul_le hpos, Nat.mul_comm, ← hlenE]
    omega
  have hread : ∀ src : List Nat, (src = bs ∨ shapeElements v.shape = 0) → (∀ b ∈ src, b < 256) →
      ∃ s', loadRecursive fs v.shape ⟨0, 0, src⟩ = some (v.data, s') := by
    intro src hsrc hb'
    have hok : ∃ m, ReaderOk ⟨0, 0, src⟩ (dataBits (.format fs) v.data ++ m) := by
      rcases hsrc with rfl | h0
      · exact ⟨pad, by simp, hb', by simp only [numBits, List.nil_append]; rw [hbits, he]⟩
      · have hnil : v.data = [] := by
          rw [h0] at hlenE; exact List.length_eq_zero_iff.mp hlenE
        exact ⟨bytesBits src, by simp, hb', by simp [numBits, hnil, dataBits]⟩
    obtain ⟨m, hok⟩ := hok
    obtain ⟨s', h1, _⟩ := loadRecursive_ok (valid_legal hd he) v.shape v.data hlenE
      (fun e hee => fits_good (hel e hee)) hok
    exact ⟨s', h1⟩
  rw [PyDesc.transport]
  split
  · next himm =>
    simp only [Bool.and_eq_true, decide_eq_true_eq, PyDesc.allowImmediate, Bool.not_eq_true', he, Bool.false_or,
      beq_iff_eq] at himm
    obtain ⟨⟨hfix, hmod⟩, hw⟩ := himm
    have hlen2 : (List.replicate (w - bs.length) 0 ++ bs).length = w := by simp; omega
    simp only [slowFromRaw, if_true]
    rw [hlen2, dynamicShape_ok hd h.shape (by rw [hfix]; simp), if_neg (by have := hge w hw; omega)]
    have hsz : (shapeElements v.shape * d.itemsizeBits + 7) / 8 = bs.length := by
      rw [hlen, ← hlenE, Nat.mul_comm]
    rw [hsz]
    have hsrc : pySliceLast bs.length (List.replicate (w - bs.length) 0 ++ bs) = bs ∨ shapeElements v.shape = 0 := by
      by_cases h0 : 0 < bs.length
      · exact Or.inl (slice_pad rfl h0)
      · right
        rw [← hlenE]
        have : d.itemsizeBits * v.data.length = 0 := by omega
        rcases Nat.mul_eq_zero.mp this with h' | h'
        · omega
        · exact h'
    obtain ⟨s', h1⟩ := hread _ hsrc (by
      intro b hbm
      rw [pySliceLast] at hbm
      have hm : b ∈ List.replicate (w - bs.length) 0 ++ bs := by
        split at hbm
        · exact hbm
        · exact List.mem_of_mem_drop hbm
      rcases List.mem_append.mp hm with hm | hm
      · have := List.eq_of_mem_replicate hm; omega
      · exact hb b hm)
    rw [h1]
    simp only [hshape]
  · simp only [slowFromRaw, Bool.false_eq_true, if_false]
    rw [dynamicShape_ok hd h.shape (by
      intro hvar
      obtain ⟨hk0, hk8⟩ := hk hvar
      obtain ⟨n, _, hn⟩ := fillShape_variable h.shape (variable_one hd hvar)
      refine ⟨hk0, ?_⟩
      rw [hn]
      congr 1
      rw [Nat.div_div_eq_div_mul, Nat.div_eq_iff (Nat.mul_pos hpos hk0)]
      have hx : d.itemsizeBits * v.data.length = n * (d.itemsizeBits * knownElements d.shape) := by
        rw [hlenE, hn]; ring
      rw [hx] at hlen
      generalize hy : d.itemsizeBits * knownElements d.shape = y at *
      generalize hz : n * y = z at *
      omega), if_neg (by have := hge bs.length (Nat.le_refl _); omega)]
    obtain ⟨s', h1⟩ := hread bs (Or.inl rfl) hb
    rw [h1]
    simp only [hshape]

theorem immediateFromRaw_ok {x : FieldFmt} (hx : x.legal = true) (hc : x.code = .u ∨ x.code = .i) {n : Int}
    (hr : InRange x (.int n)) {bs : List Nat} (hb : ∀ b ∈ bs, b < 256)
    (hbits : bytesBits bs = numBits x.len (fieldVal x (.int n))) (imm : Bool) :
    immediateFromRaw x ⟨imm, bs⟩ = some ⟨[], [.fields [.int n]]⟩ := by
  have hval : msbVal bs = fieldVal x (.int n) := by
    rw [(msbVal_eq bs hb).1, hbits, ofBits_numBits, Nat.mod_eq_of_lt (fieldVal_lt hx hr)]
  have hl := loadField_fieldVal hx hr
  rw [← hval] at hl
  simp only [immediateFromRaw]
  have hp := two_pow_pred (legal_pos hx)
  rcases hc with hc | hc
  · simp only [loadField, hc] at hl
    simp only [hc, reduceCtorEq, false_and, if_false]
    cases hl; rfl
  · simp only [loadField, hc] at hl
    simp only [hc, true_and]
    have hl2 : (if 2 ^ (x.len - 1) ≤ msbVal bs then (msbVal bs : Int) - 2 ^ x.len else (msbVal bs : Int)) = n := by
      injection hl with hl; injection hl
    have heq : (2 * ((2 ^ (x.len - 1) : Nat) : Int)) = 2 ^ x.len := by rw [hp]; push_cast; rfl
    rw [heq, hl2]

theorem fromRaw_ok {d : PyDesc} (hd : d.valid = true) {v : PyArray} (h : ValueFits d v) {wraps : Bool}
    (hn : d.fastpath ≠ .numpy → ∀ e ∈ v.data, ElemNotNul e)
    (hw : d.fastpath = .immediate → d.itemsizeBits % 8 = 0 → wraps = true ∨
      ∀ n : Int, v.data = [.fields [.int n]] → 0 ≤ n)
    (hk : d.isVariableSize = true → 0 < knownElements d.shape ∧ 8 ≤ d.itemsizeBits * knownElements d.shape)
    (hz : d.fastpath = .numpy → d.isVariableSize = false → 0 < shapeElements v.shape)
    (hs : d.fastpath ≠ .numpy → listShape v.shape = v.shape) (w : Nat) :
    ∃ bs, d.toBuffer wraps v = some bs ∧ d.fromRaw (d.transport w bs) = some v := by
  obtain ⟨bs, h1, h2, h3, h4⟩ := toBuffer_ok hd h hn hw
  refine ⟨bs, h1, ?_⟩
  rw [PyDesc.fromRaw]
  cases hp : d.fastpath with
  | numpy =>
    simp only
    have hm : arrayMemory d.elem v.data = some bs := by
      rw [PyDesc.toBuffer, fits_compatible h.shape] at h1
      simpa only [Bool.not_true, Bool.false_eq_true, if_false, hp] using h1
    exact numpyFromRaw_ok hd hp h hm (fun hv => (hk hv).1) (hz hp) w
  | slow =>
    obtain ⟨fs, he⟩ := other_format (d := d) (by rw [hp]; simp)
    have hna : immediateApplies d (d.transport w bs) = none := by simp [immediateApplies, hp]
    simp only [he, hna]
    exact slowFromRaw_ok hd he h h2 h3 h4 hk (hs (by rw [hp]; simp)) w
  | immediate =>
    obtain ⟨x, hsh, he, hc, hl⟩ := immediate_shape hp
    simp only [he]
    split
    · next y hy =>
      simp only [immediateApplies, hp, he] at hy
      split at hy
      · next hcond =>
        cases hy
        simp only [Bool.and_eq_true, beq_iff_eq] at hcond
        obtain ⟨n, rfl, hr⟩ := scalar_int hsh he hc h
        have hsz : d.itemsizeBits = x.len := by simp [PyDesc.itemsizeBits, he]
        have htr : d.transport w bs = ⟨true, bs⟩ := by
          rw [PyDesc.transport] at hcond ⊢
          split at hcond
          · next himm =>
            rw [if_pos himm]
            simp only [Bool.and_eq_true, decide_eq_true_eq] at himm
            have := hcond.2
            simp only [List.length_append, List.length_replicate] at this
            simp only [hsz, List.length_singleton] at h2
            rw [show w - bs.length = 0 from by omega]; rfl
          · exact absurd hcond.1 (by simp)
        rw [htr] at hcond ⊢
        have hlen : bs.length * 8 = x.len := hcond.2
        simp only [hsz, List.length_singleton, Nat.mul_one] at h4
        rw [show 8 * ((x.len + 7) / 8) - x.len = 0 from by omega] at h4
        simp only [he, dataBits, elemBits, fieldsBits, List.flatMap_cons, List.flatMap_nil, List.append_nil,
          List.replicate_zero, fieldBits_eq] at h4
        exact immediateFromRaw_ok (valid_legal hd he x (by simp)) hc hr h3 h4 true
      · cases hy
    · exact slowFromRaw_ok hd he h h2 h3 h4 hk (hs (by rw [hp]; simp)) w

/-! ## Rejection -/

theorem bitSend_range {s s' : BitWriter} {r : Int} {n : Nat} (h : s.send r n = some s') : 0 ≤ r ∧ r < 2 ^ n := by
  rw [BitWriter.send] at h
  split at h
  · cases h
  · omega

theorem storeFields_some : ∀ (fs : List FieldFmt) (vs : List PyField), vs.length = fs.length →
    (∀ x ∈ fs, x.legal = true) → ∀ {s s' : BitWriter}, storeFields fs vs s = some s' → List.Forall₂ InRange fs vs := by
  intro fs
  induction fs with
  | nil => intro vs hl _ s s' _; rw [List.length_eq_zero_iff.mp hl]; exact .nil
  | cons x fs ih =>
    intro vs hl hx s s' h
    cases vs with
    | nil => simp at hl
    | cons v vs =>
      rw [storeFields] at h
      split at h
      · cases h
      · next raw hraw =>
        split at h
        · cases h
        · next s1 hs1 =>
          exact .cons (storeField_some hraw (bitSend_range hs1) (hx x List.mem_cons_self))
            (ih vs (by simpa using hl) (fun y hy => hx y (List.mem_cons_of_mem _ hy)) h)

/-- The element has the right number of fields. -/
def HasArity (fs : List FieldFmt) (e : PyElem) : Prop := ∀ xs, e = .fields xs → xs.length = fs.length

theorem storeRecursive_some {fs : List FieldFmt} (hfs : ∀ x ∈ fs, x.legal = true) : ∀ (shape : List Nat)
    (data : List PyElem), data.length = shapeElements shape → (∀ e ∈ data, HasArity fs e) →
    ∀ {s s' : BitWriter}, storeRecursive fs shape data s = some s' → ∀ e ∈ data, ElemFits (.format fs) e := by
  intro shape
  induction shape with
  | nil =>
    intro data hlen ha s s' h e he
    obtain ⟨e', rfl⟩ := List.length_eq_one_iff.mp (show data.length = 1 from hlen)
    cases List.mem_singleton.mp he
    rw [storeRecursive] at h
    cases e with
    | raw bs => cases h
    | fields xs => exact storeFields_some fs xs (ha _ List.mem_cons_self xs rfl) hfs h
  | cons n rest ih =>
    intro data hlen ha
    simp only [storeRecursive]
    simp only [shapeElements] at hlen
    induction n generalizing data with
    | zero =>
      intro s s' _ e he
      have : data = [] := by simpa using hlen
      rw [this] at he; cases he
    | succ n ihn =>
      intro s s' h e he
      have htake : (data.take (shapeElements rest)).length = shapeElements rest := by
        rw [List.length_take, hlen, Nat.succ_mul]; omega
      have hdrop : (data.drop (shapeElements rest)).length = n * shapeElements rest := by
        rw [List.length_drop, hlen, Nat.succ_mul]; omega
      rw [storeBlocks] at h
      split at h
      · cases h
      · next s1 hs1 =>
        rw [← List.take_append_drop (shapeElements rest) data] at he
        rcases List.mem_append.mp he with he | he
        · exact ih _ htake (fun e hm => ha e (List.mem_of_mem_take hm)) hs1 e he
        · exact ihn _ hdrop (fun e hm => ha e (List.mem_of_mem_drop hm)) h e he

/-! ## Reading arbitrary bytes -/

theorem read_any {s : BitReader} {l : List Bool} (h : ReaderOk s l) {n : Nat} (hn : n ≤ l.length) :
    ∃ r s', s.send n = some (r, s') ∧ r < 2 ^ n ∧ ReaderOk s' (l.drop n) := by
  have hl : (l.take n).length = n := by rw [List.length_take]; omega
  obtain ⟨s', h1, h2⟩ := read_ok (l := l.take n) (m := l.drop n) (by rw [List.take_append_drop]; exact h)
  rw [hl] at h1
  refine ⟨_, s', h1, ?_, h2⟩
  have key : ∀ (m : List Bool), ofBits m < 2 ^ m.length := by
    intro m
    induction m using List.reverseRecOn with
    | nil => simp [ofBits]
    | append_singleton m b ih =>
      rw [ofBits_snoc, List.length_append, List.length_singleton, Nat.pow_succ]
      split <;> omega
  have := key (l.take n)
  rwa [hl] at this

theorem loadField_any {x : FieldFmt} (hx : x.legal = true) {r : Nat} (hr : r < 2 ^ x.len) :
    ∃ v, loadField x r = some v ∧ InRange x v := by
  have hp := two_pow_pred (legal_pos hx)
  have hpos := two_pow_int_pos (x.len - 1)
  have hr' : (r : Int) < 2 ^ x.len := by exact_mod_cast hr
  cases hc : x.code with
  | u => exact ⟨.int r, by simp [loadField, hc], Or.inl ⟨hc, by omega, by omega⟩⟩
  | i =>
    refine ⟨.int (if 2 ^ (x.len - 1) ≤ r then (r : Int) - 2 ^ x.len else r), by simp only [loadField, hc],
      Or.inr ⟨hc, ?_⟩⟩
    split
    · next h =>
      have : ((2 ^ (x.len - 1) : Nat) : Int) ≤ r := by exact_mod_cast h
      push_cast at this
      omega
    · next h =>
      have : (r : Int) < ((2 ^ (x.len - 1) : Nat) : Int) := by exact_mod_cast Nat.lt_of_not_le h
      push_cast at this
      omega
  | b => exact ⟨.bool (decide (r ≠ 0)), by simp [loadField, hc], hc⟩
  | c =>
    rw [legal_char hx hc] at hr
    have : r < 256 := hr
    exact ⟨.char r, by simp only [loadField, hc, if_pos this], hc, this⟩
  | f => exact ⟨.float r, by simp only [loadField, hc, if_pos (legal_float hx hc)], hc, hr⟩

theorem loadFields_any : ∀ (fs : List FieldFmt), (∀ x ∈ fs, x.legal = true) → ∀ {s : BitReader} {l : List Bool},
    ReaderOk s l → (fs.map FieldFmt.len).sum ≤ l.length →
    ∃ vs s', loadFields fs s = some (vs, s') ∧ List.Forall₂ InRange fs vs ∧
      ReaderOk s' (l.drop (fs.map FieldFmt.len).sum) := by
  intro fs
  induction fs with
  | nil => intro _ s l h _; exact ⟨[], s, rfl, .nil, by simpa using h⟩
  | cons x fs ih =>
    intro hx s l h hn
    simp only [List.map_cons, List.sum_cons] at hn
    obtain ⟨r, s1, h1, h2, h3⟩ := read_any h (n := x.len) (by omega)
    obtain ⟨v, h4, h5⟩ := loadField_any (hx x List.mem_cons_self) h2
    obtain ⟨vs, s2, h6, h7, h8⟩ := ih (fun y hy => hx y (List.mem_cons_of_mem _ hy)) h3
      (by rw [List.length_drop]; omega)
    refine ⟨v :: vs, s2, ?_, .cons h5 h7, ?_⟩
    · rw [loadFields, h1]; simp only [h4, h6]
    · rw [List.drop_drop] at h8; simpa using h8

theorem loadRecursive_any {fs : List FieldFmt} (hfs : ∀ x ∈ fs, x.legal = true) : ∀ (shape : List Nat)
    {s : BitReader} {l : List Bool}, ReaderOk s l → shapeElements shape * (fs.map FieldFmt.len).sum ≤ l.length →
    ∃ data s', loadRecursive fs shape s = some (data, s') ∧ data.length = shapeElements shape ∧
      (∀ e ∈ data, ElemFits (.format fs) e) ∧ ReaderOk s' (l.drop (shapeElements shape * (fs.map FieldFmt.len).sum)) := by
  intro shape
  induction shape with
  | nil =>
    intro s l h hn
    obtain ⟨vs, s', h1, h2, h3⟩ := loadFields_any fs hfs h (by simpa [shapeElements] using hn)
    refine ⟨[.fields vs], s', by rw [loadRecursive, h1], rfl, ?_, by simpa [shapeElements] using h3⟩
    intro e he
    cases List.mem_singleton.mp he
    exact h2
  | cons n rest ih =>
    simp only [loadRecursive, shapeElements]
    induction n with
    | zero => intro s l h _; exact ⟨[], s, rfl, by simp, (by intro e he; cases he), by simpa using h⟩
    | succ n ihn =>
      intro s l h hn
      have hsum : (n + 1) * shapeElements rest * (fs.map FieldFmt.len).sum =
          shapeElements rest * (fs.map FieldFmt.len).sum + n * shapeElements rest * (fs.map FieldFmt.len).sum := by
        ring
      rw [hsum] at hn ⊢
      obtain ⟨d1, s1, h1, h2, h3, h4⟩ := ih h (by omega)
      obtain ⟨d2, s2, h5, h6, h7, h8⟩ := ihn h4 (by rw [List.length_drop]; omega)
      refine ⟨d1 ++ d2, s2, ?_, ?_, ?_, ?_⟩
      · rw [loadBlocks, h1]; simp only [h5]
      · rw [List.length_append, h2, h6]; ring
      · intro e he
        rcases List.mem_append.mp he with he | he
        · exact h3 e he
        · exact h7 e he
      · rw [List.drop_drop] at h8; exact h8

theorem slowFromRaw_any {d : PyDesc} (hd : d.valid = true) {fs : List FieldFmt} (he : d.elem = .format fs)
    {r : RawItem} (hb : ∀ b ∈ r.bytes, b < 256) {m : Nat} (hm : r.bytes.length * 8 / d.itemsizeBits = m)
    (hge : shapeElements (d.dynamicShape m) ≤ m) :
    ∃ data, slowFromRaw d fs r = some ⟨listShape (d.dynamicShape m), data⟩ ∧
      data.length = shapeElements (d.dynamicShape m) ∧ ∀ e ∈ data, ElemFits d.elem e := by
  have hpos := valid_pos hd
  have hsum : (fs.map FieldFmt.len).sum = d.itemsizeBits := by simp [PyDesc.itemsizeBits, he]
  have hbits : shapeElements (d.dynamicShape m) * d.itemsizeBits ≤ r.bytes.length * 8 := by
    rw [← hm] at hge
    exact (Nat.le_div_iff_mul_le hpos).mp (by rw [← hm]; exact hge)
  simp only [slowFromRaw, hm]
  rw [if_neg (by omega)]
  have hread : ∀ src : List Nat, (∀ b ∈ src, b < 256) → shapeElements (d.dynamicShape m) * d.itemsizeBits ≤ 8 * src.length →
      ∃ data s', loadRecursive fs (d.dynamicShape m) ⟨0, 0, src⟩ = some (data, s') ∧
        data.length = shapeElements (d.dynamicShape m) ∧ ∀ e ∈ data, ElemFits d.elem e := by
    intro src hsrc hle
    obtain ⟨data, s', h1, h2, h3, _⟩ := loadRecursive_any (valid_legal hd he) (d.dynamicShape m)
      (s := ⟨0, 0, src⟩) (l := bytesBits src) ⟨by simp, hsrc, by simp [numBits]⟩
      (by rw [hsum, bytesBits_length]; exact hle)
    exact ⟨data, s', h1, h2, by rw [he]; exact h3⟩
  by_cases hi : r.isImmediate = true
  · rw [if_pos hi]
    obtain ⟨data, s', h1, h2, h3⟩ := hread (pySliceLast ((shapeElements (d.dynamicShape m) * d.itemsizeBits + 7) / 8) r.bytes)
      (by
        intro b hbm
        rw [pySliceLast] at hbm
        split at hbm
        · exact hb b hbm
        · exact hb b (List.mem_of_mem_drop hbm))
      (by
        rw [pySliceLast]
        split
        · omega
        · rw [List.length_drop]; omega)
    exact ⟨data, by rw [h1], h2, h3⟩
  · rw [if_neg hi]
    obtain ⟨data, s', h1, h2, h3⟩ := hread r.bytes hb (by omega)
    exact ⟨data, by rw [h1], h2, h3⟩

end Spead2
