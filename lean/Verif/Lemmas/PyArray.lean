import Verif.Lemmas.PyItem
import Mathlib.Data.Nat.ModEq

/-! Whole values: the three sending paths and the three receiving paths. -/

namespace Spead2
open Spec

theorem shapeElements_prod (s : List Nat) : shapeElements s = s.prod := by
  induction s with
  | nil => rfl
  | cons n s ih => simp [shapeElements, ih]

theorem fits_compatible : ∀ {ds : List (Option Nat)} {s : List Nat}, ShapeFits ds s → compatibleShape ds s = true := by
  intro ds s h
  induction h with
  | nil => rfl
  | cons h _ ih => rcases h with rfl | rfl <;> simp [compatibleShape, ih]

theorem fillShape_fixed : ∀ {ds : List (Option Nat)} {s : List Nat}, ShapeFits ds s →
    (∀ o ∈ ds, o ≠ none) → ∀ k, fillShape k ds = s := by
  intro ds s h
  induction h with
  | nil => intro _ _; rfl
  | @cons o n ds s h _ ih =>
    intro hn k
    rcases h with rfl | rfl
    · exact absurd rfl (hn none List.mem_cons_self)
    · simp [fillShape, ih (fun o ho => hn o (List.mem_cons_of_mem _ ho)) k]

theorem known_fixed : ∀ {ds : List (Option Nat)} {s : List Nat}, ShapeFits ds s → (∀ o ∈ ds, o ≠ none) →
    knownElements ds = shapeElements s := by
  intro ds s h
  induction h with
  | nil => intro _; rfl
  | @cons o n ds s h _ ih =>
    intro hn
    rcases h with rfl | rfl
    · exact absurd rfl (hn none List.mem_cons_self)
    · simp [knownElements, shapeElements, ih (fun o ho => hn o (List.mem_cons_of_mem _ ho))]

theorem fillShape_variable : ∀ {ds : List (Option Nat)} {s : List Nat}, ShapeFits ds s →
    (ds.filter Option.isNone).length = 1 →
    ∃ n, fillShape n ds = s ∧ shapeElements s = n * knownElements ds := by
  intro ds s h
  induction h with
  | nil => intro h; simp at h
  | @cons o n ds s h hrest ih =>
    intro hc
    cases o with
    | none =>
      simp only [List.filter_cons, Option.isNone_none, if_true, List.length_cons] at hc
      have hno : ∀ o ∈ ds, o ≠ none := by
        intro o ho e
        subst e
        have : none ∈ ds.filter Option.isNone := List.mem_filter.mpr ⟨ho, rfl⟩
        have := List.length_pos_of_mem this
        omega
      refine ⟨n, by simp [fillShape, fillShape_fixed hrest hno n], ?_⟩
      simp [shapeElements, knownElements, known_fixed hrest hno]
    | some m =>
      simp only [List.filter_cons, Option.isNone_some] at hc
      obtain ⟨k, h1, h2⟩ := ih (by simpa using hc)
      rcases h with h | h
      · cases h
      · cases h
        refine ⟨k, by simp [fillShape, h1], ?_⟩
        simp only [shapeElements, knownElements, h2]; ring

theorem not_variable {d : PyDesc} (h : d.isVariableSize = false) : ∀ o ∈ d.shape, o ≠ none := by
  intro o ho e
  subst e
  have : d.shape.any Option.isNone = true := List.any_eq_true.mpr ⟨none, ho, rfl⟩
  rw [PyDesc.isVariableSize, this] at h; cases h

theorem variable_one {d : PyDesc} (hv : d.valid = true) (h : d.isVariableSize = true) :
    (d.shape.filter Option.isNone).length = 1 := by
  obtain ⟨o, ho, hn⟩ := List.any_eq_true.mp h
  have h1 := List.length_pos_of_mem (List.mem_filter.mpr ⟨ho, hn⟩)
  have h2 : (d.shape.filter Option.isNone).length ≤ 1 := by
    have := hv
    rw [PyDesc.valid, Bool.and_eq_true] at this
    exact of_decide_eq_true this.1
  omega

/-- The dynamic shape is the shape of the value, when a fixed shape or exactly the right number of
elements says so. -/
theorem dynamicShape_ok {d : PyDesc} (hd : d.valid = true) {v : PyArray} (h : ShapeFits d.shape v.shape) {m : Nat}
    (hm : d.isVariableSize = true → 0 < knownElements d.shape ∧
      m / knownElements d.shape * knownElements d.shape = shapeElements v.shape) :
    d.dynamicShape m = v.shape := by
  rw [PyDesc.dynamicShape]
  cases hvar : d.isVariableSize with
  | false => exact fillShape_fixed h (not_variable hvar) _
  | true =>
    obtain ⟨hk, hm⟩ := hm hvar
    obtain ⟨n, h1, h2⟩ := fillShape_variable h (variable_one hd hvar)
    rw [h2] at hm
    have : m / knownElements d.shape = n := Nat.eq_of_mul_eq_mul_right hk hm
    rw [if_neg (by omega), this, h1]

/-! ## numpy -/

theorem elemBits_length {t : ElemType} {e : PyElem} (h : ElemFits t e) (d : PyDesc) (hd : d.elem = t) :
    (elemBits t e).length = d.itemsizeBits := by
  cases t with
  | dtype n =>
    cases e with
    | raw bs => simp [elemBits, bytesBits_length, PyDesc.itemsizeBits, hd, h.1, Nat.mul_comm]
    | fields xs => exact absurd h id
  | format fs =>
    cases e with
    | raw bs => exact absurd h id
    | fields xs => simp only [elemBits, PyDesc.itemsizeBits, hd]; exact fieldsBits_length fs xs h

theorem dataBits_len (d : PyDesc) : ∀ (data : List PyElem), (∀ e ∈ data, ElemFits d.elem e) →
    (dataBits d.elem data).length = d.itemsizeBits * data.length := by
  intro data
  induction data with
  | nil => intro _; rfl
  | cons e rest ih =>
    intro h
    rw [show dataBits d.elem (e :: rest) = elemBits d.elem e ++ dataBits d.elem rest from by simp [dataBits],
      List.length_append, elemBits_length (h e List.mem_cons_self) d rfl,
      ih (fun e he => h e (List.mem_cons_of_mem _ he)), List.length_cons]
    ring

/-- The descriptors of the numpy path. -/
theorem numpy_native {d : PyDesc} (h : d.fastpath = .numpy) {fs : List FieldFmt} (hd : d.elem = .format fs) :
    ∀ x ∈ fs, x.native = true := by
  simp only [PyDesc.fastpath, hd] at h
  split at h
  · next h' => exact List.all_eq_true.mp h'
  · split at h
    · split at h <;> cases h
    · cases h

theorem elemMemory_ok {d : PyDesc} (hn : d.fastpath = .numpy) {e : PyElem} (h : ElemFits d.elem e) :
    ∃ bs, elemMemory d.elem e = some bs ∧ bytesBits bs = elemBits d.elem e ∧ (∀ b ∈ bs, b < 256) ∧
      viewElem d.elem bs = some e := by
  cases hd : d.elem with
  | dtype n =>
    rw [hd] at h
    cases e with
    | fields xs => exact absurd h id
    | raw bs => exact ⟨bs, if_pos h, rfl, h.2, rfl⟩
  | format fs =>
    rw [hd] at h
    cases e with
    | raw bs => exact absurd h id
    | fields xs =>
      obtain ⟨bs, h1, h2, h3, h4⟩ := nativeFields_ok h (numpy_native hn hd)
      exact ⟨bs, h1, h2, h3, by simp [viewElem, h4]⟩

theorem arrayMemory_ok {d : PyDesc} (hn : d.fastpath = .numpy) (hpos : 0 < d.itemsizeBits / 8)
    (h8 : 8 * (d.itemsizeBits / 8) = d.itemsizeBits) : ∀ (data : List PyElem), (∀ e ∈ data, ElemFits d.elem e) →
    ∃ bs, arrayMemory d.elem data = some bs ∧ bytesBits bs = dataBits d.elem data ∧ (∀ b ∈ bs, b < 256) ∧
      viewArray d.elem (d.itemsizeBits / 8) bs = some data := by
  intro data
  induction data with
  | nil => intro _; exact ⟨[], rfl, rfl, (by intro b hb; cases hb), by rw [viewArray]; simp⟩
  | cons e rest ih =>
    intro h
    obtain ⟨b1, h1, h2, h3, h4⟩ := elemMemory_ok hn (h e List.mem_cons_self)
    obtain ⟨b2, h5, h6, h7, h9⟩ := ih (fun e he => h e (List.mem_cons_of_mem _ he))
    have hlen : b1.length = d.itemsizeBits / 8 := by
      have := congrArg List.length h2
      rw [bytesBits_length, elemBits_length (h e List.mem_cons_self) d rfl] at this
      omega
    refine ⟨b1 ++ b2, ?_, ?_, ?_, ?_⟩
    · rw [arrayMemory, h1, h5]
    · rw [bytesBits_append, h2, h6]; simp [dataBits]
    · intro b hb
      rcases List.mem_append.mp hb with hb | hb
      · exact h3 b hb
      · exact h7 b hb
    · rw [viewArray, dif_neg (by
          intro e0
          have := congrArg List.length e0
          simp at this; simp [this.1] at hlen; omega), dif_neg (by rw [List.length_append]; omega),
        List.take_left' hlen, List.drop_left' hlen, h4, h9]

theorem itemsize_numpy {d : PyDesc} (hv : d.valid = true) (hn : d.fastpath = .numpy) :
    0 < d.itemsizeBits / 8 ∧ 8 * (d.itemsizeBits / 8) = d.itemsizeBits := by
  cases hd : d.elem with
  | dtype n =>
    have : 0 < n := by
      simp only [PyDesc.valid, hd, Bool.and_eq_true] at hv
      exact of_decide_eq_true hv.2.1
    simp only [PyDesc.itemsizeBits, hd]; omega
  | format fs =>
    have hnat := numpy_native hn hd
    have hne : fs ≠ [] := by
      intro e
      simp [PyDesc.valid, hd, e] at hv
    simp only [PyDesc.itemsizeBits, hd]
    have key : ∀ l : List FieldFmt, (∀ x ∈ l, x.native = true) →
        8 * ((l.map FieldFmt.len).sum / 8) = (l.map FieldFmt.len).sum := by
      intro l
      induction l with
      | nil => intro _; rfl
      | cons x l ih =>
        intro h
        have h1 := native_mul (h x List.mem_cons_self)
        have h2 := ih (fun y hy => h y (List.mem_cons_of_mem _ hy))
        simp only [List.map_cons, List.sum_cons]; omega
    have hk := key fs hnat
    refine ⟨?_, hk⟩
    cases fs with
    | nil => exact absurd rfl hne
    | cons x l =>
      have h1 := native_mul (hnat x List.mem_cons_self)
      have h2 := legal_pos (native_legal (hnat x List.mem_cons_self))
      simp only [List.map_cons, List.sum_cons] at hk ⊢; omega

/-! ## The other paths -/

theorem other_format {d : PyDesc} (h : d.fastpath ≠ .numpy) : ∃ fs, d.elem = .format fs := by
  cases hd : d.elem with
  | dtype n => simp [PyDesc.fastpath, hd] at h
  | format fs => exact ⟨fs, rfl⟩

theorem valid_legal {d : PyDesc} (hv : d.valid = true) {fs : List FieldFmt} (hd : d.elem = .format fs) :
    ∀ x ∈ fs, x.legal = true := by
  simp only [PyDesc.valid, hd, Bool.and_eq_true] at hv
  exact List.all_eq_true.mp hv.2.2

theorem valid_pos {d : PyDesc} (hv : d.valid = true) : 0 < d.itemsizeBits := by
  cases hd : d.elem with
  | dtype n =>
    have : 0 < n := by
      simp only [PyDesc.valid, hd, Bool.and_eq_true] at hv
      exact of_decide_eq_true hv.2.1
    simp only [PyDesc.itemsizeBits, hd]; omega
  | format fs =>
    have hl := valid_legal hv hd
    cases fs with
    | nil => simp [PyDesc.valid, hd] at hv
    | cons x l =>
      have := legal_pos (hl x List.mem_cons_self)
      simp only [PyDesc.itemsizeBits, hd, List.map_cons, List.sum_cons]; omega

theorem fits_good {fs : List FieldFmt} {e : PyElem} (h : ElemFits (.format fs) e) : GoodElem fs e := by
  cases e with
  | raw bs => exact absurd h id
  | fields xs => exact ⟨xs, rfl, h⟩

theorem slowBuffer_ok {d : PyDesc} {fs : List FieldFmt} (hd : d.elem = .format fs) (hv : d.valid = true)
    {v : PyArray} (h : ValueFits d v) (hn : ∀ e ∈ v.data, ElemNotNul e) :
    ∃ bs, slowBuffer d fs v = some bs ∧ bs.length = (d.itemsizeBits * v.data.length + 7) / 8 ∧
      (∀ b ∈ bs, b < 256) ∧ bytesBits bs = dataBits d.elem v.data ++
        List.replicate (8 * ((d.itemsizeBits * v.data.length + 7) / 8) - d.itemsizeBits * v.data.length) false := by
  have hlen : v.data.length = shapeElements v.shape := by rw [h.data, shapeElements_prod]
  have hbl := dataBits_len d v.data h.elems
  rw [hd] at hbl
  have hel := h.elems
  rw [hd] at hel
  obtain ⟨s, h1, h2, h3⟩ := storeRecursive_ok (valid_legal hv hd) v.shape v.data hlen
    (fun e he => fits_good (hel e he)) hn
    (s := ⟨0, 0, 0, List.replicate ((d.itemsizeBits * v.data.length + 7) / 8) 0⟩) (l := [])
    ⟨by simp, by simp, by simp, (by intro b hb; have := List.eq_of_mem_replicate hb; omega), by simp [bytesBits, numBits]⟩
    (by rw [hbl]; simp; omega)
  rw [List.nil_append] at h3
  simp only [List.length_replicate] at h2
  obtain ⟨bs, h4, h5, h6, h7⟩ := close_ok h3 (by rw [h2, hbl])
  rw [hbl] at h5 h7
  refine ⟨bs, ?_, h5, h6, by rw [hd]; exact h7⟩
  rw [slowBuffer]
  simp only [← hlen, h1, h4]

theorem msbBytes_drop (n v : Nat) : ∀ a, (msbBytes (a + n) v).drop a = msbBytes n v := by
  intro a
  induction a with
  | zero => simp
  | succ a ih => rw [show a + 1 + n = (a + n) + 1 from by omega, msbBytes, List.drop_succ_cons]; exact ih

theorem lowBytes_eq {n : Nat} (h : n ≤ 8) (v : Nat) : lowBytes n v = msbBytes n v := by
  have := msbBytes_drop n v (8 - n)
  rwa [show 8 - n + n = 8 from by omega] at this

/-- The scalars of the immediate path. -/
theorem immediate_shape {d : PyDesc} (h : d.fastpath = .immediate) :
    ∃ x : FieldFmt, d.shape = [] ∧ d.elem = .format [x] ∧ (x.code = .u ∨ x.code = .i) ∧ x.len < 64 := by
  cases hd : d.elem with
  | dtype n => simp [PyDesc.fastpath, hd] at h
  | format fs =>
    simp only [PyDesc.fastpath, hd] at h
    split at h
    · cases h
    · split at h
      · next x hs _ =>
        split at h
        · next hc =>
          simp only [Bool.and_eq_true, Bool.or_eq_true, beq_iff_eq, decide_eq_true_eq] at hc
          exact ⟨x, hs, rfl, hc.1, hc.2⟩
        · cases h
      · cases h

/-- A value that fits a scalar integer. -/
theorem scalar_int {d : PyDesc} {x : FieldFmt} (hs : d.shape = []) (hd : d.elem = .format [x])
    (hc : x.code = .u ∨ x.code = .i) {v : PyArray} (h : ValueFits d v) :
    ∃ n, v = ⟨[], [.fields [.int n]]⟩ ∧ InRange x (.int n) := by
  obtain ⟨sh, data⟩ := v
  have h1 := h.shape
  rw [hs] at h1
  cases h1
  obtain ⟨e, rfl⟩ := List.length_eq_one_iff.mp (show data.length = 1 from h.data)
  have h2 := h.elems e List.mem_cons_self
  rw [hd] at h2
  obtain ⟨xs, rfl, h3⟩ := fits_good h2
  cases h3 with
  | @cons _ f _ _ hf hr =>
    cases hr
    cases f with
    | int n => exact ⟨n, rfl, hf⟩
    | bool b => have : x.code = .b := hf; rw [this] at hc; rcases hc with hc | hc <;> cases hc
    | char b => have : x.code = .c := hf.1; rw [this] at hc; rcases hc with hc | hc <;> cases hc
    | float b => have : x.code = .f := hf.1; rw [this] at hc; rcases hc with hc | hc <;> cases hc

theorem asU64_ok {x : FieldFmt} (hx : x.legal = true) (hl : x.len < 64) {n : Int} (h : InRange x (.int n)) {wraps : Bool}
    (hw : wraps = true ∨ 0 ≤ n) : ∃ u, asU64 wraps n = some u ∧ u % 2 ^ x.len = fieldVal x (.int n) := by
  have hp63 : (2 : Int) ^ (x.len - 1) ≤ 2 ^ 63 := by
    have : (2 : Nat) ^ (x.len - 1) ≤ 2 ^ 63 := Nat.pow_le_pow_right (by omega) (by omega)
    exact_mod_cast this
  have hp64 : (2 : Int) ^ x.len ≤ 2 ^ 64 := by
    have : (2 : Nat) ^ x.len ≤ 2 ^ 64 := Nat.pow_le_pow_right (by omega) (by omega)
    exact_mod_cast this
  have hmod : ∀ u : Nat, ((u : Int) % 2 ^ x.len = n % 2 ^ x.len) → u % 2 ^ x.len = fieldVal x (.int n) := by
    intro u hu
    have : ((u % 2 ^ x.len : Nat) : Int) = n % 2 ^ x.len := by push_cast; exact hu
    rw [fieldVal, ← this, Int.toNat_natCast]
  have hlow : -(2 : Int) ^ 63 ≤ n := by
    rcases h with ⟨_, h0, _⟩ | ⟨_, h0, _⟩
    · omega
    · omega
  have hhigh : n < 2 ^ 64 := by
    rcases h with ⟨_, _, h1⟩ | ⟨_, _, h1⟩
    · omega
    · omega
  by_cases h0 : 0 ≤ n
  · refine ⟨n.toNat, by rw [asU64, if_pos ⟨h0, hhigh⟩], hmod _ (by rw [Int.toNat_of_nonneg h0])⟩
  · have hwt : wraps = true := by rcases hw with hw | hw; exacts [hw, absurd hw h0]
    refine ⟨(n + 2 ^ 64).toNat, by rw [asU64, if_neg (by omega), if_pos ⟨hwt, hlow, by omega⟩], hmod _ ?_⟩
    rw [Int.toNat_of_nonneg (by omega)]
    have hsplit : (2 : Int) ^ 64 = 2 ^ x.len * 2 ^ (64 - x.len) := by
      rw [← Int.pow_add, show x.len + (64 - x.len) = 64 from by omega]
    rw [hsplit, Int.add_mul_emod_self_left]

/-- Every path writes the bits of the fields, one after the other, and pads to whole bytes. -/
theorem toBuffer_ok {d : PyDesc} (hv : d.valid = true) {v : PyArray} (h : ValueFits d v) {wraps : Bool}
    (hn : d.fastpath ≠ .numpy → ∀ e ∈ v.data, ElemNotNul e)
    (hw : d.fastpath = .immediate → d.itemsizeBits % 8 = 0 → wraps = true ∨
      ∀ n : Int, v.data = [.fields [.int n]] → 0 ≤ n) :
    ∃ bs, d.toBuffer wraps v = some bs ∧ bs.length = (d.itemsizeBits * v.data.length + 7) / 8 ∧
      (∀ b ∈ bs, b < 256) ∧ bytesBits bs = dataBits d.elem v.data ++
        List.replicate (8 * ((d.itemsizeBits * v.data.length + 7) / 8) - d.itemsizeBits * v.data.length) false := by
  rw [PyDesc.toBuffer, fits_compatible h.shape]
  simp only [Bool.not_true, Bool.false_eq_true, if_false]
  cases hp : d.fastpath with
  | numpy =>
    obtain ⟨h0, h8⟩ := itemsize_numpy hv hp
    obtain ⟨bs, h1, h2, h3, _⟩ := arrayMemory_ok hp h0 h8 v.data h.elems
    have hl : 8 * bs.length = d.itemsizeBits * v.data.length := by
      rw [← bytesBits_length, h2, dataBits_len d v.data h.elems]
    have hz : 8 * ((d.itemsizeBits * v.data.length + 7) / 8) - d.itemsizeBits * v.data.length = 0 := by omega
    refine ⟨bs, h1, by omega, h3, by rw [hz, h2]; simp⟩
  | slow =>
    obtain ⟨fs, hd⟩ := other_format (by rw [hp]; simp)
    obtain ⟨bs, h1, h2⟩ := slowBuffer_ok hd hv h (hn (by rw [hp]; simp))
    refine ⟨bs, ?_, h2⟩
    simp only [hd]; exact h1
  | immediate =>
    obtain ⟨x, hs, hd, hc, hl⟩ := immediate_shape hp
    simp only [hd]
    by_cases h8 : d.itemsizeBits % 8 = 0
    · rw [if_pos h8]
      have hsz : d.itemsizeBits = x.len := by simp [PyDesc.itemsizeBits, hd]
      obtain ⟨n, rfl, hr⟩ := scalar_int hs hd hc h
      have hx : x.legal = true := valid_legal hv hd x (by simp)
      obtain ⟨u, h1, h2⟩ := asU64_ok hx hl hr (wraps := wraps)
        (by rcases hw hp h8 with hw | hw; exacts [Or.inl hw, Or.inr (hw n rfl)])
      refine ⟨msbBytes (x.len / 8) u, ?_, ?_, msbBytes_lt _ _, ?_⟩
      · simp only [immediateBuffer, h1, Option.map_some]
        rw [hsz, lowBytes_eq (by omega)]
      · rw [msbBytes_length, hsz]; simp; omega
      · rw [bytesBits_msbBytes, hsz]
        simp only [List.length_singleton, Nat.mul_one]
        rw [show 8 * ((x.len + 7) / 8) - x.len = 0 from by omega, show 8 * (x.len / 8) = x.len from by omega]
        simp only [dataBits, elemBits, fieldsBits, List.flatMap_cons, List.flatMap_nil, List.append_nil,
          List.replicate_zero]
        rw [fieldBits_eq, ← numBits_mod x.len u x.len (Nat.le_refl _), h2]
    · rw [if_neg h8]
      exact hd ▸ slowBuffer_ok hd hv h (hn (by rw [hp]; simp))

end Spead2
