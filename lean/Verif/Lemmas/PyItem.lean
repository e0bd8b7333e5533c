import Verif.Lemmas.PyBits

/-! Fields, elements and arrays: what is written can be read again. -/

namespace Spead2
open Spec

/-- The number whose bits represent a field. -/
def fieldVal (x : FieldFmt) : PyField → Nat
  | .int n => (n % 2 ^ x.len).toNat
  | .bool v => if v then 1 else 0
  | .char n => n
  | .float n => n

theorem fieldBits_eq (x : FieldFmt) (v : PyField) : fieldBits x v = numBits x.len (fieldVal x v) := by
  cases v <;> rfl

theorem legal_pos {x : FieldFmt} (h : x.legal = true) : 0 < x.len := by
  simp [FieldFmt.legal] at h; exact h.1

theorem legal_char {x : FieldFmt} (h : x.legal = true) (hc : x.code = .c) : x.len = 8 := by
  simp [FieldFmt.legal, FieldFmt.native, hc] at h; exact h.2

theorem legal_float {x : FieldFmt} (h : x.legal = true) (hc : x.code = .f) : x.len = 32 ∨ x.len = 64 := by
  simp [FieldFmt.legal, FieldFmt.native, hc] at h; exact h.2

theorem two_pow_pred {n : Nat} (h : 0 < n) : (2 : Int) ^ n = 2 * 2 ^ (n - 1) := by
  obtain ⟨k, rfl⟩ : ∃ k, n = k + 1 := ⟨n - 1, by omega⟩
  rw [Int.pow_succ, Nat.add_sub_cancel]; omega

theorem two_pow_int_pos (n : Nat) : (0 : Int) < 2 ^ n := Int.pow_pos (by omega)

theorem fieldVal_lt {x : FieldFmt} {v : PyField} (hx : x.legal = true) (hv : InRange x v) :
    fieldVal x v < 2 ^ x.len := by
  cases v with
  | int n =>
    have h1 := Int.emod_lt_of_pos n (two_pow_int_pos x.len)
    have h2 := Int.emod_nonneg n (Int.ne_of_gt (two_pow_int_pos x.len))
    have : ((n % 2 ^ x.len).toNat : Int) < 2 ^ x.len := by rw [Int.toNat_of_nonneg h2]; exact h1
    exact_mod_cast this
  | bool v =>
    have : 2 ≤ 2 ^ x.len := Nat.le_self_pow (Nat.ne_of_gt (legal_pos hx)) 2
    cases v
    · show 0 < 2 ^ x.len; omega
    · show 1 < 2 ^ x.len; omega
  | char n =>
    obtain ⟨hc, hn⟩ := hv
    rw [legal_char hx hc]; exact hn
  | float n => exact hv.2

theorem fieldVal_emod_neg {x : FieldFmt} (hx : x.legal = true) {n : Int} (h1 : -(2 : Int) ^ (x.len - 1) ≤ n)
    (h2 : n < 0) : n % 2 ^ x.len = n + 2 ^ x.len := by
  have hp := two_pow_pred (legal_pos hx)
  have h3 := two_pow_int_pos (x.len - 1)
  rw [← Int.add_emod_right, Int.emod_eq_of_lt] <;> omega

theorem loadField_fieldVal {x : FieldFmt} {v : PyField} (hx : x.legal = true) (hv : InRange x v) :
    loadField x (fieldVal x v) = some v := by
  cases v with
  | int n =>
    rcases hv with ⟨hc, h0, h1⟩ | ⟨hc, h0, h1⟩
    · simp [loadField, hc, fieldVal, Int.emod_eq_of_lt h0 h1, Int.toNat_of_nonneg h0]
    · have hp := two_pow_pred (legal_pos hx)
      have h3 := two_pow_int_pos (x.len - 1)
      suffices hs : ∀ k : Nat, k = fieldVal x (.int n) →
          (if 2 ^ (x.len - 1) ≤ k then (k : Int) - 2 ^ x.len else k) = n by
        simp only [loadField, hc]
        rw [hs _ rfl]
      intro k hk
      rw [hk]
      show (if 2 ^ (x.len - 1) ≤ (n % 2 ^ x.len).toNat then ((n % 2 ^ x.len).toNat : Int) - 2 ^ x.len
        else (n % 2 ^ x.len).toNat) = n
      clear hk
      by_cases hn : n < 0
      · rw [fieldVal_emod_neg hx h0 hn]
        have h4 : ((n + 2 ^ x.len).toNat : Int) = n + 2 ^ x.len := Int.toNat_of_nonneg (by omega)
        rw [if_pos (by
          have : ((2 ^ (x.len - 1) : Nat) : Int) ≤ ((n + 2 ^ x.len).toNat : Int) := by
            rw [h4]; push_cast; omega
          exact_mod_cast this), h4]
        omega
      · rw [Int.emod_eq_of_lt (by omega) (by omega)]
        have h4 : (n.toNat : Int) = n := Int.toNat_of_nonneg (by omega)
        rw [if_neg (by
          intro h
          have : ((2 ^ (x.len - 1) : Nat) : Int) ≤ (n.toNat : Int) := by exact_mod_cast h
          rw [h4] at this; push_cast at this; omega), h4]
  | bool v => have hc : x.code = .b := hv; cases v <;> simp [loadField, hc, fieldVal]
  | char n => obtain ⟨hc, hn⟩ := hv; simp [loadField, hc, fieldVal, hn]
  | float n => obtain ⟨hc, hn⟩ := hv; simp [loadField, hc, fieldVal, legal_float hx hc]

/-- The character 0 is the one value that the slow path cannot send. -/
def NotNul (v : PyField) : Prop := v ≠ .char 0

theorem storeField_ok {x : FieldFmt} {v : PyField} (hx : x.legal = true) (hv : InRange x v) (hn : NotNul v) :
    storeField x v = some (fieldVal x v : Int) := by
  cases v with
  | int n =>
    rcases hv with ⟨hc, h0, h1⟩ | ⟨hc, h0, h1⟩
    · simp only [storeField, hc, fieldVal]
      rw [if_neg (by omega), Int.emod_eq_of_lt h0 h1, Int.toNat_of_nonneg h0]
    · have hp := two_pow_pred (legal_pos hx)
      have h3 := two_pow_int_pos (x.len - 1)
      simp only [storeField, hc, fieldVal]
      rw [if_neg (by omega)]
      by_cases hneg : n < 0
      · rw [if_pos hneg, fieldVal_emod_neg hx h0 hneg, Int.toNat_of_nonneg (by omega)]
        congr 1; omega
      · rw [if_neg hneg, Int.emod_eq_of_lt (by omega) (by omega), Int.toNat_of_nonneg (by omega)]
  | bool v => have hc : x.code = .b := hv; cases v <;> simp [storeField, hc, fieldVal]
  | char n =>
    obtain ⟨hc, h⟩ := hv
    have h0 : n ≠ 0 := fun e => hn (by rw [e])
    simp [storeField, hc, fieldVal, h0]
  | float n => obtain ⟨hc, h⟩ := hv; simp [storeField, hc, fieldVal, legal_float hx hc]

/-- The values that the slow path accepts are in range. -/
theorem storeField_some {x : FieldFmt} {v : PyField} {r : Int} (h : storeField x v = some r)
    (hr : 0 ≤ r ∧ r < 2 ^ x.len) (hx : x.legal = true) : InRange x v := by
  unfold storeField at h
  split at h
  · next n hc =>
    split at h
    · cases h
    · exact Or.inl ⟨hc, by omega, by omega⟩
  · next n hc =>
    dsimp only at h
    split at h
    · cases h
    · exact Or.inr ⟨hc, by omega, by omega⟩
  · next b hc => exact hc
  · next n hc =>
    split at h
    · cases h
    · cases h
      refine ⟨hc, ?_⟩
      have := hr.2; rw [legal_char hx hc] at this; omega
  · next n hc =>
    split at h
    · cases h; exact ⟨hc, by exact_mod_cast hr.2⟩
    · cases h
  · cases h

/-! ## Elements, slow path -/

theorem fieldsBits_length : ∀ (fs : List FieldFmt) (vs : List PyField), List.Forall₂ InRange fs vs →
    (fieldsBits fs vs).length = (fs.map FieldFmt.len).sum := by
  intro fs vs h
  induction h with
  | nil => rfl
  | cons hv _ ih => simp [fieldsBits, fieldBits_eq, numBits_length, ih]

theorem storeFields_ok : ∀ {fs : List FieldFmt} {vs : List PyField}, List.Forall₂ InRange fs vs →
    (∀ x ∈ fs, x.legal = true) → (∀ v ∈ vs, NotNul v) → ∀ {s : BitWriter} {l : List Bool}, WriterOk s l →
    l.length + (fieldsBits fs vs).length ≤ 8 * s.array.length →
    ∃ s', storeFields fs vs s = some s' ∧ s'.array.length = s.array.length ∧ WriterOk s' (l ++ fieldsBits fs vs) := by
  intro fs vs h
  induction h with
  | nil => intro _ _ s l hs _; exact ⟨s, rfl, rfl, by simpa [fieldsBits] using hs⟩
  | @cons x v fs vs hv hrest ih =>
    intro hx hn s l hs hcap
    have hxl := hx x List.mem_cons_self
    have hlt := fieldVal_lt hxl hv
    simp only [fieldsBits, fieldBits_eq, List.length_append, numBits_length] at hcap
    obtain ⟨s1, h1, h2, h3⟩ := send_ok hs (v := (fieldVal x v : Int)) (n := x.len) (by omega)
      (by exact_mod_cast hlt) (by omega)
    rw [Int.toNat_natCast] at h3
    obtain ⟨s2, h4, h5, h6⟩ := ih (fun y hy => hx y (List.mem_cons_of_mem _ hy))
      (fun y hy => hn y (List.mem_cons_of_mem _ hy)) h3
      (by rw [List.length_append, numBits_length, h2]; omega)
    refine ⟨s2, ?_, by rw [h5, h2], ?_⟩
    · rw [storeFields, storeField_ok hxl hv (hn v List.mem_cons_self)]
      simp only [h1, h4]
    · simpa [fieldsBits, fieldBits_eq] using h6

theorem loadFields_ok : ∀ {fs : List FieldFmt} {vs : List PyField}, List.Forall₂ InRange fs vs →
    (∀ x ∈ fs, x.legal = true) → ∀ {s : BitReader} {m : List Bool}, ReaderOk s (fieldsBits fs vs ++ m) →
    ∃ s', loadFields fs s = some (vs, s') ∧ ReaderOk s' m := by
  intro fs vs h
  induction h with
  | nil => intro _ s m hs; exact ⟨s, rfl, by simpa [fieldsBits] using hs⟩
  | @cons x v fs vs hv hrest ih =>
    intro hx s m hs
    have hxl := hx x List.mem_cons_self
    simp only [fieldsBits, List.append_assoc] at hs
    obtain ⟨s1, h1, h2⟩ := read_ok hs
    rw [fieldBits_eq, numBits_length, ofBits_numBits, Nat.mod_eq_of_lt (fieldVal_lt hxl hv)] at h1
    obtain ⟨s2, h3, h4⟩ := ih (fun y hy => hx y (List.mem_cons_of_mem _ hy)) h2
    refine ⟨s2, ?_, h4⟩
    rw [loadFields, h1]
    simp only [loadField_fieldVal hxl hv, h3]

/-! ## Arrays, slow path -/

/-- An element of a format, in range. -/
def GoodElem (fs : List FieldFmt) (e : PyElem) : Prop := ∃ xs, e = .fields xs ∧ List.Forall₂ InRange fs xs

/-- An element without the character 0. -/
def ElemNotNul (e : PyElem) : Prop := ∀ xs, e = .fields xs → ∀ v ∈ xs, NotNul v

theorem dataBits_append (t : ElemType) (a b : List PyElem) : dataBits t (a ++ b) = dataBits t a ++ dataBits t b := by
  simp [dataBits]

theorem dataBits_length (fs : List FieldFmt) : ∀ (data : List PyElem), (∀ e ∈ data, GoodElem fs e) →
    (dataBits (.format fs) data).length = (fs.map FieldFmt.len).sum * data.length := by
  intro data
  induction data with
  | nil => intro _; rfl
  | cons e rest ih =>
    intro h
    obtain ⟨xs, rfl, hxs⟩ := h e List.mem_cons_self
    rw [show dataBits (.format fs) (.fields xs :: rest) = fieldsBits fs xs ++ dataBits (.format fs) rest from by
      simp [dataBits, elemBits], List.length_append, fieldsBits_length fs xs hxs,
      ih (fun e he => h e (List.mem_cons_of_mem _ he)), List.length_cons]
    ring

theorem storeRecursive_ok {fs : List FieldFmt} (hfs : ∀ x ∈ fs, x.legal = true) : ∀ (shape : List Nat)
    (data : List PyElem), data.length = shapeElements shape → (∀ e ∈ data, GoodElem fs e) →
    (∀ e ∈ data, ElemNotNul e) → ∀ {s : BitWriter} {l : List Bool}, WriterOk s l →
    l.length + (dataBits (.format fs) data).length ≤ 8 * s.array.length →
    ∃ s', storeRecursive fs shape data s = some s' ∧ s'.array.length = s.array.length ∧
      WriterOk s' (l ++ dataBits (.format fs) data) := by
  intro shape
  induction shape with
  | nil =>
    intro data hlen hg hn s l hs hcap
    obtain ⟨e, rfl⟩ := List.length_eq_one_iff.mp (show data.length = 1 from hlen)
    obtain ⟨xs, rfl, hxs⟩ := hg e List.mem_cons_self
    have hb : dataBits (.format fs) [.fields xs] = fieldsBits fs xs := by simp [dataBits, elemBits]
    rw [hb] at hcap ⊢
    obtain ⟨s', h1, h2⟩ := storeFields_ok hxs hfs (hn _ List.mem_cons_self xs rfl) hs hcap
    exact ⟨s', h1, h2⟩
  | cons n rest ih =>
    intro data hlen hg hn
    simp only [storeRecursive]
    simp only [shapeElements] at hlen
    induction n generalizing data with
    | zero =>
      intro s l hs _
      have : data = [] := by simpa using hlen
      subst this
      exact ⟨s, rfl, rfl, by simpa [dataBits] using hs⟩
    | succ n ihn =>
      intro s l hs hcap
      have hsplit := List.take_append_drop (shapeElements rest) data
      have htake : (data.take (shapeElements rest)).length = shapeElements rest := by
        rw [List.length_take, hlen, Nat.succ_mul]; omega
      have hdrop : (data.drop (shapeElements rest)).length = n * shapeElements rest := by
        rw [List.length_drop, hlen, Nat.succ_mul]; omega
      have hbits : dataBits (.format fs) data = dataBits (.format fs) (data.take (shapeElements rest)) ++
          dataBits (.format fs) (data.drop (shapeElements rest)) := by
        rw [← dataBits_append, hsplit]
      rw [hbits, List.length_append] at hcap
      obtain ⟨s1, h1, h2, h3⟩ := ih (data.take (shapeElements rest)) htake
        (fun e he => hg e (List.mem_of_mem_take he)) (fun e he => hn e (List.mem_of_mem_take he)) hs (by omega)
      obtain ⟨s2, h4, h5, h6⟩ := ihn (data.drop (shapeElements rest)) hdrop
        (fun e he => hg e (List.mem_of_mem_drop he)) (fun e he => hn e (List.mem_of_mem_drop he)) h3
        (by rw [List.length_append, h2]; omega)
      refine ⟨s2, ?_, by rw [h5, h2], by rw [hbits, ← List.append_assoc]; exact h6⟩
      rw [storeBlocks, h1]
      exact h4

theorem loadRecursive_ok {fs : List FieldFmt} (hfs : ∀ x ∈ fs, x.legal = true) : ∀ (shape : List Nat)
    (data : List PyElem), data.length = shapeElements shape → (∀ e ∈ data, GoodElem fs e) →
    ∀ {s : BitReader} {m : List Bool}, ReaderOk s (dataBits (.format fs) data ++ m) →
    ∃ s', loadRecursive fs shape s = some (data, s') ∧ ReaderOk s' m := by
  intro shape
  induction shape with
  | nil =>
    intro data hlen hg s m hs
    obtain ⟨e, rfl⟩ := List.length_eq_one_iff.mp (show data.length = 1 from hlen)
    obtain ⟨xs, rfl, hxs⟩ := hg e List.mem_cons_self
    rw [show dataBits (.format fs) [.fields xs] = fieldsBits fs xs from by simp [dataBits, elemBits]] at hs
    obtain ⟨s', h1, h2⟩ := loadFields_ok hxs hfs hs
    exact ⟨s', by rw [loadRecursive, h1], h2⟩
  | cons n rest ih =>
    intro data hlen hg
    simp only [loadRecursive]
    simp only [shapeElements] at hlen
    induction n generalizing data with
    | zero =>
      intro s m hs
      have : data = [] := by simpa using hlen
      subst this
      exact ⟨s, rfl, by simpa [dataBits] using hs⟩
    | succ n ihn =>
      intro s m hs
      have hsplit := List.take_append_drop (shapeElements rest) data
      have htake : (data.take (shapeElements rest)).length = shapeElements rest := by
        rw [List.length_take, hlen, Nat.succ_mul]; omega
      have hdrop : (data.drop (shapeElements rest)).length = n * shapeElements rest := by
        rw [List.length_drop, hlen, Nat.succ_mul]; omega
      rw [← hsplit, dataBits_append, List.append_assoc] at hs
      obtain ⟨s1, h1, h2⟩ := ih (data.take (shapeElements rest)) htake
        (fun e he => hg e (List.mem_of_mem_take he)) hs
      obtain ⟨s2, h3, h4⟩ := ihn (data.drop (shapeElements rest)) hdrop
        (fun e he => hg e (List.mem_of_mem_drop he)) h2
      refine ⟨s2, ?_, h4⟩
      rw [loadBlocks, h1]
      simp only [h3, hsplit]

/-! ## Native fields -/

theorem msbBytes_length (n v : Nat) : (msbBytes n v).length = n := by
  induction n with
  | zero => rfl
  | succ n ih => simp [msbBytes, ih]

theorem msbBytes_lt (n v : Nat) : ∀ b ∈ msbBytes n v, b < 256 := by
  induction n with
  | zero => intro b hb; cases hb
  | succ n ih =>
    intro b hb
    simp only [msbBytes, List.mem_cons] at hb
    rcases hb with rfl | hb
    · exact Nat.mod_lt _ (by omega)
    · exact ih b hb

theorem bytesBits_msbBytes (n v : Nat) : bytesBits (msbBytes n v) = numBits (8 * n) v := by
  induction n with
  | zero => rfl
  | succ n ih =>
    rw [msbBytes, bytesBits_cons, ih, show 8 * (n + 1) = 8 + 8 * n from by omega, numBits_append]
    congr 1
    rw [show (256 : Nat) = 2 ^ 8 from rfl, ← Nat.pow_mul, numBits_mod 8 _ 8 (Nat.le_refl 8)]

theorem msbVal_eq (bs : List Nat) : (∀ b ∈ bs, b < 256) → msbVal bs = ofBits (bytesBits bs) ∧ msbVal bs < 256 ^ bs.length := by
  intro h
  suffices hs : bytesBits bs = numBits (8 * bs.length) (msbVal bs) ∧ msbVal bs < 256 ^ bs.length by
    refine ⟨?_, hs.2⟩
    rw [hs.1, ofBits_numBits, Nat.mod_eq_of_lt]
    rw [Nat.pow_mul]; exact hs.2
  induction bs with
  | nil => exact ⟨rfl, by simp [msbVal]⟩
  | cons b rest ih =>
    obtain ⟨h1, h2⟩ := ih (fun x hx => h x (List.mem_cons_of_mem _ hx))
    have hb := h b List.mem_cons_self
    constructor
    · rw [bytesBits_cons, h1, List.length_cons, show 8 * (rest.length + 1) = 8 + 8 * rest.length from by omega,
        numBits_append, msbVal, Nat.pow_mul]
      congr 1
      · rw [show (2 ^ 8 : Nat) = 256 from rfl, Nat.mul_comm b, Nat.mul_add_div (Nat.pow_pos (by omega)), Nat.div_eq_of_lt h2, Nat.add_zero]
      · rw [← numBits_mod (8 * rest.length) (b * 256 ^ rest.length + msbVal rest) _ (Nat.le_refl _), Nat.pow_mul,
          show (2 ^ 8 : Nat) = 256 from rfl, Nat.mul_comm b, Nat.mul_add_mod, Nat.mod_eq_of_lt h2]
    · rw [msbVal, List.length_cons, Nat.pow_succ]
      have : b * 256 ^ rest.length ≤ 255 * 256 ^ rest.length := Nat.mul_le_mul_right _ (by omega)
      omega

theorem native_legal {x : FieldFmt} (h : x.native = true) : x.legal = true := by
  have : 0 < x.len := by
    cases x with
    | mk c n => cases c <;> simp [FieldFmt.native] at h <;> simp <;> omega
  simp [FieldFmt.legal, h, this]

theorem native_mul {x : FieldFmt} (h : x.native = true) : 8 * (x.len / 8) = x.len := by
  cases x with
  | mk c n => cases c <;> simp [FieldFmt.native] at h <;> simp <;> omega

theorem nativeBytes_ok {x : FieldFmt} {v : PyField} (hx : x.native = true) (hv : InRange x v) :
    nativeBytes x v = some (msbBytes (x.len / 8) (fieldVal x v)) := by
  cases v with
  | int n =>
    rcases hv with ⟨hc, h0, h1⟩ | ⟨hc, h0, h1⟩
    · simp only [nativeBytes, hc, fieldVal]
      rw [if_pos ⟨h0, h1⟩, Int.emod_eq_of_lt h0 h1]
    · simp only [nativeBytes, hc, fieldVal]
      rw [if_pos ⟨h0, h1⟩]
  | bool v =>
    have hc : x.code = .b := hv
    have hl : x.len = 8 := by simpa [FieldFmt.native, hc] using hx
    cases v <;> simp [nativeBytes, hc, fieldVal, hl, msbBytes]
  | char n =>
    obtain ⟨hc, hn⟩ := hv
    have hl : x.len = 8 := by simpa [FieldFmt.native, hc] using hx
    simp [nativeBytes, hc, fieldVal, hl, msbBytes, hn, Nat.mod_eq_of_lt hn]
  | float n => obtain ⟨hc, hn⟩ := hv; simp [nativeBytes, hc, fieldVal, hn]

theorem nativeFields_ok : ∀ {fs : List FieldFmt} {vs : List PyField}, List.Forall₂ InRange fs vs →
    (∀ x ∈ fs, x.native = true) → ∃ bs, nativeFields fs vs = some bs ∧ bytesBits bs = fieldsBits fs vs ∧
      (∀ b ∈ bs, b < 256) ∧ viewFields fs bs = some vs := by
  intro fs vs h
  induction h with
  | nil => intro _; exact ⟨[], rfl, rfl, (by intro b hb; cases hb), rfl⟩
  | @cons x v fs vs hv hrest ih =>
    intro hx
    have hxn := hx x List.mem_cons_self
    obtain ⟨bs, h1, h2, h3, h4⟩ := ih (fun y hy => hx y (List.mem_cons_of_mem _ hy))
    have hmul := native_mul hxn
    have hbits : bytesBits (msbBytes (x.len / 8) (fieldVal x v)) = numBits x.len (fieldVal x v) := by
      rw [bytesBits_msbBytes, hmul]
    refine ⟨msbBytes (x.len / 8) (fieldVal x v) ++ bs, ?_, ?_, ?_, ?_⟩
    · rw [nativeFields, nativeBytes_ok hxn hv, h1]
    · rw [bytesBits_append, hbits, h2, fieldsBits, fieldBits_eq]
    · intro b hb
      rcases List.mem_append.mp hb with hb | hb
      · exact msbBytes_lt _ _ b hb
      · exact h3 b hb
    · rw [viewFields, List.take_left' (msbBytes_length _ _), List.drop_left' (msbBytes_length _ _), h4,
        (msbVal_eq _ (msbBytes_lt _ _)).1, hbits, ofBits_numBits,
        Nat.mod_eq_of_lt (fieldVal_lt (native_legal hxn) hv), loadField_fieldVal (native_legal hxn) hv]

end Spead2
