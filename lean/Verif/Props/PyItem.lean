import Verif.Lemmas.PyRead

/-!
# C72: the value that is sent is the value that is received

`to_buffer` and `set_from_raw` over every descriptor, value and width of immediates.
-/

namespace Spead2
open Spec

/-- The full claim: whatever fits the descriptor is received as it was sent. -/
def C72_statement : Prop :=
  ∀ (d : PyDesc) (v : PyArray) (wraps : Bool) (w : Nat), d.valid = true → ValueFits d v →
    ∃ bs x, d.toBuffer wraps v = some bs ∧ d.setFromRaw (d.transport w bs) = some x ∧ Expected d v x

theorem charElem {e : PyElem} (h : ElemFits (.format [⟨.c, 8⟩]) e) : ∃ n, e = .fields [.char n] := by
  obtain ⟨xs, rfl, hxs⟩ := fits_good h
  cases hxs with
  | @cons _ f _ _ hf hr =>
    cases hr
    cases f with
    | char n => exact ⟨n, rfl⟩
    | int n => rcases hf with h | h <;> cases h.1
    | bool b => cases hf
    | float n => cases hf.1

theorem charData : ∀ (data : List PyElem), (∀ e ∈ data, ElemFits (.format [⟨.c, 8⟩]) e) →
    (∀ n, PyElem.fields [.char n] ∈ data → 0 < n ∧ n < 128) →
    (joinChars data).map (fun n => PyElem.fields [.char n]) = data ∧ (joinChars data).all (· < 128) = true := by
  intro data
  induction data with
  | nil => intro _ _; exact ⟨rfl, rfl⟩
  | cons e rest ih =>
    intro h ha
    obtain ⟨n, rfl⟩ := charElem (h e List.mem_cons_self)
    obtain ⟨h0, h128⟩ := ha n List.mem_cons_self
    obtain ⟨h1, h2⟩ := ih (fun e he => h e (List.mem_cons_of_mem _ he)) (fun n hn => ha n (List.mem_cons_of_mem _ hn))
    rw [joinChars, if_neg (by omega)]
    exact ⟨by rw [List.map_cons, h1], by rw [List.all_cons, h2]; simpa using h128⟩

/-- **C72.**  Every regular value is received exactly as it was sent, whatever the descriptor and the
width of immediates, through whichever of the paths the code chooses.  Missing from the full claim:
the irregular values, for each of which a theorem below shows what happens. -/
theorem C72_roundtrip_partial {d : PyDesc} (hd : d.valid = true) {v : PyArray} (h : ValueFits d v) {wraps : Bool}
    (hr : Regular d v wraps) (w : Nat) :
    ∃ bs x, d.toBuffer wraps v = some bs ∧ d.setFromRaw (d.transport w bs) = some x ∧ Expected d v x := by
  have hvar : d.isVariableSize = true → none ∈ d.shape := by
    intro hv
    obtain ⟨o, ho, hn⟩ := List.any_eq_true.mp hv
    rwa [Option.isNone_iff_eq_none.mp hn] at ho
  have hfix : d.isVariableSize = false → none ∉ d.shape := fun hf hm => not_variable hf none hm rfl
  obtain ⟨bs, h1, h2⟩ := fromRaw_ok hd h (wraps := wraps)
    (fun hp e he xs hx v hv e0 => hr.nul hp xs (hx ▸ he) (e0 ▸ hv)) hr.sign
    (fun hv => by
      have := hr.row (hvar hv)
      refine ⟨?_, this⟩
      rcases Nat.eq_zero_or_pos (knownElements d.shape) with h0 | h0
      · rw [h0] at this; omega
      · exact h0)
    (fun hp hf => by rw [shapeElements_prod]; exact hr.nonempty hp (hfix hf))
    (fun hp => listShape_ok _ (hr.inner hp)) w
  simp only [Expected]
  by_cases hs : d.shape.length = 1 ∧ d.elem = .format [⟨.c, 8⟩]
  · have hst : d.isString = true := by simp [PyDesc.isString, hs.1, hs.2]
    have hel := h.elems
    rw [hs.2] at hel
    obtain ⟨h3, h4⟩ := charData v.data hel (hr.ascii hs.1 hs.2)
    have hshape : v.shape = [(joinChars v.data).length] := by
      have hsl : v.shape.length = 1 := by rw [← hs.1]; exact (List.Forall₂.length_eq h.shape).symm
      obtain ⟨n, hn⟩ := List.length_eq_one_iff.mp hsl
      have := h.data
      rw [hn, ← h3] at this
      rw [hn]; simpa using this.symm
    refine ⟨bs, .str (joinChars v.data), h1, ?_, ?_⟩
    · simp only [PyDesc.setFromRaw, h2, hst, if_true, h4]
    · rw [if_pos hs]
      exact ⟨_, by rw [strArray, h3, ← hshape], rfl⟩
  · have hst : d.isString = false := by
      rw [PyDesc.isString]
      cases hb : (decide (d.shape.length = 1) && d.elem == .format [⟨.c, 8⟩]) with
      | false => rfl
      | true =>
        simp only [Bool.and_eq_true, decide_eq_true_eq, beq_iff_eq] at hb
        exact absurd hb hs
    exact ⟨bs, .array v, h1, by simp [PyDesc.setFromRaw, h2, hst], by rw [if_neg hs]⟩

/-- **C72, encoding.**  Every path writes the fields of the elements one after the other, each as its
bits, most significant first and in two's complement, and pads with zeros to whole bytes. -/
theorem C72_encoding {d : PyDesc} (hd : d.valid = true) {v : PyArray} (h : ValueFits d v) {wraps : Bool}
    (hr : Regular d v wraps) :
    ∃ bs k, d.toBuffer wraps v = some bs ∧ (∀ b ∈ bs, b < 256) ∧ k < 8 ∧
      bytesBits bs = dataBits d.elem v.data ++ List.replicate k false := by
  obtain ⟨bs, h1, _, h3, h4⟩ := toBuffer_ok hd h (wraps := wraps)
    (fun hp e he xs hx v hv e0 => hr.nul hp xs (hx ▸ he) (e0 ▸ hv)) hr.sign
  exact ⟨bs, _, h1, h3, by omega, h4⟩

/-- **C72, rejection.**  On the slow path a value is sent only if every element is in range.  Missing:
the scalars of the fast path, where an integer that does not fit is cut off (`C72_overflow`). -/
theorem C72_rejects_partial {d : PyDesc} (hd : d.valid = true) {fs : List FieldFmt} (he : d.elem = .format fs)
    (hp : d.fastpath ≠ .numpy) (hi : d.fastpath = .immediate → d.itemsizeBits % 8 ≠ 0) {v : PyArray} {wraps : Bool}
    (hl : v.data.length = v.shape.prod) (ha : ∀ xs, PyElem.fields xs ∈ v.data → xs.length = fs.length) {bs : List Nat}
    (h : d.toBuffer wraps v = some bs) : ∀ e ∈ v.data, ElemFits d.elem e := by
  have hslow : slowBuffer d fs v = some bs := by
    rw [PyDesc.toBuffer] at h
    split at h
    · cases h
    · cases hf : d.fastpath with
      | numpy => exact absurd hf hp
      | slow => simpa only [hf, he] using h
      | immediate =>
        simp only [hf, he] at h
        rwa [if_neg (hi hf)] at h
  rw [slowBuffer] at hslow
  split at hslow
  · cases hslow
  · next s hs =>
    rw [he]
    exact storeRecursive_some (valid_legal hd he) v.shape v.data (by rw [shapeElements_prod]; exact hl)
      (fun e hm xs hx => ha xs (hx ▸ hm)) hs

/-- **C72, any bytes.**  Outside the numpy path, whatever bytes arrive are decoded, if there are
enough of them: as many elements as the shape has, all in range. -/
theorem C72_reads {d : PyDesc} (hd : d.valid = true) {fs : List FieldFmt} (he : d.elem = .format fs)
    {r : RawItem} (hb : ∀ b ∈ r.bytes, b < 256)
    (hge : (d.dynamicShape (r.bytes.length * 8 / d.itemsizeBits)).prod ≤ r.bytes.length * 8 / d.itemsizeBits) :
    ∃ a, slowFromRaw d fs r = some a ∧
      a.data.length = (d.dynamicShape (r.bytes.length * 8 / d.itemsizeBits)).prod ∧ ∀ e ∈ a.data, ElemFits d.elem e := by
  obtain ⟨data, h1, h2, h3⟩ := slowFromRaw_any hd he hb rfl (by rw [shapeElements_prod]; exact hge)
  exact ⟨_, h1, by rw [← shapeElements_prod]; exact h2, h3⟩

/-- … and a fixed-size value that is too short is refused. -/
theorem C72_short {d : PyDesc} {fs : List FieldFmt} {r : RawItem}
    (h : r.bytes.length * 8 / d.itemsizeBits < (d.dynamicShape (r.bytes.length * 8 / d.itemsizeBits)).prod) :
    slowFromRaw d fs r = none := by
  simp only [slowFromRaw]
  rw [shapeElements_prod, if_pos h]

/-- **C72, immediates.**  Only a value of fixed size whose elements take whole bytes goes as an
immediate, so that a receiver never has to guess its size or on which side it is padded. -/
theorem C72_immediate {d : PyDesc} {w : Nat} {bs : List Nat} (h : (d.transport w bs).isImmediate = true) :
    none ∉ d.shape ∧ 8 ∣ d.itemsizeBits ∧ bs.length ≤ w := by
  rw [PyDesc.transport] at h
  split at h
  · next hi =>
    simp only [Bool.and_eq_true, decide_eq_true_eq, PyDesc.allowImmediate, Bool.not_eq_true', Bool.or_eq_true,
      beq_iff_eq] at hi
    obtain ⟨⟨hf, hb⟩, hw⟩ := hi
    refine ⟨fun hm => not_variable hf none hm rfl, ?_, hw⟩
    rcases hb with hb | hb
    · rw [PyDesc.itemsizeBits]
      cases he : d.elem with
      | dtype n => exact ⟨n, by simp only []; omega⟩
      | format fs => rw [he] at hb; cases hb
    · exact Nat.dvd_of_mod_eq_zero hb
  · cases h

example : ((⟨[some 2], .format [⟨.u, 12⟩, ⟨.i, 4⟩]⟩ : PyDesc).transport 6 [1, 2, 3, 4]).isImmediate = true ∧
    ((⟨[some 2], .format [⟨.u, 12⟩]⟩ : PyDesc).transport 6 [1, 2, 3]).isImmediate = false := by
  decide

/-! ## The irregular values -/

/-- Three single bits sent as a variable-size item are received as eight. -/
theorem C72_padding :
    let d : PyDesc := ⟨[none], .format [⟨.u, 1⟩]⟩
    let v : PyArray := ⟨[3], [.fields [.int 1], .fields [.int 0], .fields [.int 1]]⟩
    d.valid = true ∧ d.toBuffer true v = some [160] ∧
      (d.setFromRaw (d.transport 6 [160])).map (fun x => match x with | .array a => a.shape | .str _ => []) = some [8] := by
  refine ⟨by decide, by decide +kernel, by decide +kernel⟩

/-- An empty array of floats cannot be received at all: it goes as an immediate, and `x[-0:]` is all
of it. -/
theorem C72_empty :
    let d : PyDesc := ⟨[some 0], .dtype 4⟩
    d.valid = true ∧ d.toBuffer true ⟨[0], []⟩ = some [] ∧ d.setFromRaw (d.transport 6 []) = none := by
  refine ⟨by decide, by decide +kernel, by decide +kernel⟩

/-- An empty list of triples of 12-bit numbers loses its second dimension. -/
theorem C72_empty_rows :
    let d : PyDesc := ⟨[none, some 3], .format [⟨.u, 12⟩]⟩
    d.valid = true ∧ d.toBuffer true ⟨[0, 3], []⟩ = some [] ∧
      d.setFromRaw (d.transport 6 []) = some (.array ⟨[0], []⟩) := by
  refine ⟨by decide, by decide +kernel, by decide +kernel⟩

/-- A string loses its NUL characters. -/
theorem C72_nul :
    let d : PyDesc := ⟨[none], .format [⟨.c, 8⟩]⟩
    d.valid = true ∧ d.toBuffer true (strArray [97, 0, 98]) = some [97, 0, 98] ∧
      d.setFromRaw (d.transport 6 [97, 0, 98]) = some (.str [97, 98]) := by
  refine ⟨by decide, by decide +kernel, by decide +kernel⟩

/-- A NUL character beside a field that is not of a numpy type cannot be sent. -/
theorem C72_nul_field :
    let d : PyDesc := ⟨[], .format [⟨.c, 8⟩, ⟨.u, 4⟩]⟩
    d.valid = true ∧ d.toBuffer true ⟨[], [.fields [.char 0, .int 1]]⟩ = none := by
  refine ⟨by decide, by decide +kernel⟩

/-- A negative 24-bit scalar cannot be sent when numpy checks the conversion. -/
theorem C72_negative :
    let d : PyDesc := ⟨[], .format [⟨.i, 24⟩]⟩
    d.valid = true ∧ d.toBuffer false ⟨[], [.fields [.int (-1)]]⟩ = none ∧
      d.toBuffer true ⟨[], [.fields [.int (-1)]]⟩ = some [255, 255, 255] := by
  refine ⟨by decide, by decide +kernel, by decide +kernel⟩

/-- A 24-bit scalar that does not fit is cut off, where an array of such scalars is refused. -/
theorem C72_overflow :
    let d : PyDesc := ⟨[], .format [⟨.u, 24⟩]⟩
    let a : PyDesc := ⟨[some 1], .format [⟨.u, 24⟩]⟩
    d.toBuffer true ⟨[], [.fields [.int (2 ^ 24 + 5)]]⟩ = some [0, 0, 5] ∧
      a.toBuffer true ⟨[1], [.fields [.int (2 ^ 24 + 5)]]⟩ = none := by
  refine ⟨by decide +kernel, by decide +kernel⟩

/-- The full claim does not hold. -/
theorem C72_violated : ¬ C72_statement := by
  intro h
  obtain ⟨bs, x, h1, h2, _⟩ := h ⟨[some 0], .dtype 4⟩ ⟨[0], []⟩ true 6 (by decide)
    ⟨.cons (Or.inr rfl) .nil, rfl, (by intro e he; cases he)⟩
  rw [C72_empty.2.1] at h1
  cases h1
  rw [C72_empty.2.2] at h2
  cases h2

/-! ## The hypotheses are met -/

/-- Two rows of three elements, each a boolean bit, a 7-bit signed number, a character and a float. -/
def exampleItemDesc : PyDesc := ⟨[none, some 3], .format [⟨.b, 1⟩, ⟨.i, 7⟩, ⟨.c, 8⟩, ⟨.f, 32⟩]⟩

def exampleItemValue : PyArray :=
  ⟨[2, 3], [.fields [.bool true, .int (-64), .char 65, .float 1065353216],
    .fields [.bool false, .int 63, .char 66, .float 0], .fields [.bool true, .int (-1), .char 255, .float 4294967295],
    .fields [.bool false, .int 0, .char 1, .float 1], .fields [.bool true, .int 1, .char 2, .float 2],
    .fields [.bool false, .int (-2), .char 3, .float 3]]⟩

example : exampleItemDesc.valid = true ∧ ValueFits exampleItemDesc exampleItemValue ∧
    Regular exampleItemDesc exampleItemValue false := by
  refine ⟨by decide, ⟨.cons (Or.inl rfl) (.cons (Or.inr rfl) .nil), rfl, ?_⟩, ?_⟩
  · intro e he
    simp only [exampleItemValue, List.mem_cons, List.not_mem_nil, or_false] at he
    rcases he with rfl | rfl | rfl | rfl | rfl | rfl <;>
      exact .cons rfl (.cons (Or.inr ⟨rfl, by decide, by decide⟩) (.cons ⟨rfl, by decide⟩ (.cons ⟨rfl, by decide⟩ .nil)))
  · refine ⟨fun _ => by decide, fun h => absurd h (by decide), fun _ i hi => ?_, fun _ xs hx => ?_,
      fun h => absurd h (by decide), fun h => absurd h (by decide)⟩
    · match i with
      | 0 => simp [exampleItemValue] at hi
      | 1 => simp [exampleItemValue] at hi
      | i + 2 => simp [exampleItemValue] at hi
    · simp only [exampleItemValue, List.mem_cons, PyElem.fields.injEq, List.not_mem_nil, or_false] at hx
      rcases hx with rfl | rfl | rfl | rfl | rfl | rfl <;> decide

/-- A negative scalar on the fast path, sent as an immediate of exactly its width. -/
example : (⟨[], .format [⟨.i, 48⟩]⟩ : PyDesc).toBuffer true ⟨[], [.fields [.int (-2)]]⟩ =
      some [255, 255, 255, 255, 255, 254] ∧
    (⟨[], .format [⟨.i, 48⟩]⟩ : PyDesc).setFromRaw ⟨true, [255, 255, 255, 255, 255, 254]⟩ =
      some (.array ⟨[], [.fields [.int (-2)]]⟩) := by
  refine ⟨by decide +kernel, by decide +kernel⟩

/-- A value out of range on the slow path is refused. -/
example : (⟨[some 2], .format [⟨.i, 5⟩]⟩ : PyDesc).toBuffer true ⟨[2], [.fields [.int 3], .fields [.int 16]]⟩ = none := by
  decide +kernel

end Spead2
