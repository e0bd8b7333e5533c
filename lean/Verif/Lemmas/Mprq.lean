import Verif.Spec.Mprq
import Mathlib.Data.List.Basic
import Mathlib.Data.List.Infix
import Mathlib.Data.Nat.Bitwise
import Mathlib.Tactic.Ring

/-!
# Lemmas about the multi-packet receive queue

Strides are counted from the beginning of time: stride `g` is stride `g mod n` of the `g / n`-th posted entry, and it is at
`(g mod (wqe * n)) * stride` in the buffer.
-/

namespace Spead2.Mprq

/-- A completion that was not read yet. -/
inductive Comp where
  | frame (data : List UInt8)
  | filler (k : Nat)

/-- The strides it uses. -/
def Comp.strides (c : Shape) : Comp → Nat
  | .frame data => c.strides data.length
  | .filler k => k

/-- How the card reports it. -/
def Comp.word (c : Shape) : Comp → Nat
  | .frame data => data.length + c.shift + c.strides data.length * 65536
  | .filler k => k * 65536 + 0x80000000

/-- The frames among completions. -/
def frames : List Comp → List (List UInt8)
  | [] => []
  | .frame data :: l => data :: frames l
  | .filler _ :: l => frames l

/-- Where the frame that begins in stride `g` is. -/
def Shape.at (c : Shape) (g : Nat) : Nat := g % (c.wqe * c.n) * c.stride + c.shift

/-- A frame is there. -/
def Stored (c : Shape) (mem : Nat → UInt8) (g : Nat) : Comp → Prop
  | .frame data => data.length + c.shift < 65536 ∧ bytes mem (c.at g) data.length = data
  | .filler _ => True

/-- The completions fill the strides from `g` to `g'`. -/
def Walk (c : Shape) (mem : Nat → UInt8) : Nat → List Comp → Nat → Prop
  | g, [], g' => g = g'
  | g, x :: xs, g' => g % c.n + x.strides c ≤ c.n ∧ 1 ≤ x.strides c ∧ Stored c mem g x ∧ Walk c mem (g + x.strides c) xs g'

theorem Walk.append {c : Shape} {mem : Nat → UInt8} {x : Comp} : ∀ {l : List Comp} {g g' : Nat}, Walk c mem g l g' →
    g' % c.n + x.strides c ≤ c.n → 1 ≤ x.strides c → Stored c mem g' x → Walk c mem g (l ++ [x]) (g' + x.strides c)
  | [], g, g', h, h1, h2, h3 => by
    have e : g = g' := h
    subst e
    exact ⟨h1, h2, h3, rfl⟩
  | y :: l, g, g', h, h1, h2, h3 => by
    obtain ⟨a, b, d, e⟩ := h
    exact ⟨a, b, d, Walk.append e h1 h2 h3⟩

theorem Walk.length {c : Shape} {mem : Nat → UInt8} : ∀ {l : List Comp} {g g' : Nat}, Walk c mem g l g' → g + l.length ≤ g'
  | [], g, g', h => by
    have e : g = g' := h
    subst e
    exact Nat.le_refl _
  | y :: l, g, g', h => by
    obtain ⟨_, b, _, e⟩ := h
    have := Walk.length e
    simp only [List.length_cons]
    omega

theorem frames_append (l : List Comp) (x : Comp) : frames (l ++ [x]) = frames l ++ frames [x] := by
  induction l with
  | nil => rfl
  | cons y l ih => cases y <;> simp [frames, ih]

/-! ### Memory -/

theorem bytes_length (mem : Nat → UInt8) (p l : Nat) : (bytes mem p l).length = l := by simp [bytes]

theorem bytes_write_self (mem : Nat → UInt8) (p : Nat) (data : List UInt8) : bytes (write mem p data) p data.length = data := by
  apply List.ext_getElem
  · exact bytes_length _ _ _
  · intro i h1 h2
    simp only [bytes, List.getElem_map, List.getElem_range]
    unfold write
    rw [if_pos (by omega), show p + i - p = i by omega, List.getElem?_eq_getElem h2]
    rfl

theorem bytes_write_other (mem : Nat → UInt8) {p p' l : Nat} {data : List UInt8} (h : p' + l ≤ p ∨ p + data.length ≤ p') :
    bytes (write mem p data) p' l = bytes mem p' l := by
  unfold bytes
  refine List.map_congr_left fun i hi => ?_
  have hi := List.mem_range.mp hi
  unfold write
  split
  · rw [List.getElem?_eq_none (by omega)]; rfl
  · rfl

/-- The strides of a frame hold it. -/
theorem strides_hold {c : Shape} (h : c.shift < c.stride) (len : Nat) : len + c.shift ≤ c.strides len * c.stride ∧ 1 ≤ c.strides len := by
  unfold Shape.strides
  have h0 : 0 < c.stride := by omega
  generalize hx : (len + c.shift + c.stride - 1) / c.stride = x
  have h1 : len + c.shift ≤ x * c.stride := by
    have := Nat.div_add_mod (len + c.shift + c.stride - 1) c.stride
    have h2 := Nat.mod_lt (len + c.shift + c.stride - 1) h0
    rw [hx, Nat.mul_comm] at this
    omega
  refine ⟨Nat.le_trans h1 (Nat.mul_le_mul_right _ (Nat.le_max_right _ _)), Nat.le_max_left _ _⟩

/-- A stretch of strides in one entry does not cross the end of the buffer. -/
theorem mod_in {n w g k : Nat} (hn : 0 < n) (hw : 0 < w) (h : g % n + k ≤ n) : g % (w * n) + k ≤ w * n := by
  have h1 : g % (w * n) % n = g % n := Nat.mod_mul_left_mod g w n
  have h2 : g % (w * n) < w * n := Nat.mod_lt _ (Nat.mul_pos hw hn)
  have h3 := Nat.div_add_mod (g % (w * n)) n
  rw [h1] at h3
  have h4 : g % (w * n) / n < w := (Nat.div_lt_iff_lt_mul hn).mpr h2
  have h5 : n * (g % (w * n) / n + 1) ≤ n * w := Nat.mul_le_mul_left _ h4
  rw [Nat.mul_add, Nat.mul_one, Nat.mul_comm n w] at h5
  omega

/-- Two stretches of strides within one turn around the buffer are apart. -/
theorem mod_apart {M g g' k k' : Nat} (h1 : g + k ≤ g') (h2 : g' + k' ≤ g + M) (hk : 1 ≤ k') :
    g % M + k ≤ g' % M ∨ g' % M + k' ≤ g % M := by
  obtain ⟨d, rfl⟩ : ∃ d, g' = g + d := ⟨g' - g, by omega⟩
  have hd : d < M := by omega
  have hM : 0 < M := by omega
  have hg : g % M < M := Nat.mod_lt _ hM
  rw [← Nat.mod_add_mod g M d]
  by_cases h : g % M + d < M
  · rw [Nat.mod_eq_of_lt h]; omega
  · generalize g % M = r at *
    rw [Nat.mod_eq_sub_mod (by omega), Nat.mod_eq_of_lt (by omega)]; omega

/-- Frames in stretches that are apart do not overlap. -/
theorem at_apart {c : Shape} {g g' k k' l l' : Nat} (h1 : g + k ≤ g') (h2 : g' + k' ≤ g + c.wqe * c.n) (hk : 1 ≤ k')
    (hl : l + c.shift ≤ k * c.stride) (hl' : l' + c.shift ≤ k' * c.stride) :
    c.at g + l ≤ c.at g' ∨ c.at g' + l' ≤ c.at g := by
  unfold Shape.at
  rcases mod_apart h1 h2 hk with h | h
  · left
    have := Nat.mul_le_mul_right c.stride h
    rw [Nat.add_mul] at this
    omega
  · right
    have := Nat.mul_le_mul_right c.stride h
    rw [Nat.add_mul] at this
    omega

/-- Writing a new frame after those that are waiting leaves them. -/
theorem Walk.write {c : Shape} (ok : c.Ok) {mem : Nat → UInt8} {data : List UInt8} {g0 : Nat} :
    ∀ {l : List Comp} {g g' : Nat}, Walk c mem g l g' → g0 ≤ g → g' + c.strides data.length ≤ g0 + c.wqe * c.n →
      Walk c (write mem (c.at g') data) g l g'
  | [], g, g', h, _, _ => h
  | x :: l, g, g', h, h1, h2 => by
    obtain ⟨a, b, d, e⟩ := h
    have hle := e.length
    refine ⟨a, b, ?_, Walk.write ok e (by omega) h2⟩
    cases x with
    | filler k => trivial
    | frame data' =>
      refine ⟨d.1, ?_⟩
      have hs := strides_hold ok.stride data.length
      have hs' := strides_hold ok.stride data'.length
      rw [bytes_write_other]
      · exact d.2
      · have hx : Comp.strides c (.frame data') = c.strides data'.length := rfl
        rw [hx] at hle
        have := at_apart (c := c) (g := g) (g' := g') (k := c.strides data'.length) (k' := c.strides data.length)
          (l := data'.length) (l' := data.length) (by omega) (by omega) hs.2 hs'.1 hs.1
        omega

/-! ### Words -/

theorem bit15 {x : Nat} (h : x < 2 ^ 16) : (x &&& 0x8000 ≠ 0) ↔ 2 ^ 15 ≤ x := by
  have e : (0x8000 : Nat) = 2 ^ 15 := by decide
  rw [e, Nat.and_two_pow]
  constructor
  · intro hne
    by_contra hlt
    rw [Nat.testBit_lt_two_pow (by omega)] at hne
    simp at hne
  · intro hge
    have : x.testBit 15 = true := by
      obtain ⟨y, rfl⟩ : ∃ y, x = 2 ^ 15 + y := ⟨x - 2 ^ 15, by omega⟩
      rw [Nat.testBit_two_pow_add_eq, Nat.testBit_lt_two_pow (by omega)]
      rfl
    rw [this]
    decide

theorem and_mask (x k : Nat) : x &&& (2 ^ k - 1) = x % 2 ^ k := Nat.and_two_pow_sub_one_eq_mod x k

/-- Reading a completion. -/
theorem readWc_eq {c : Shape} (ok : c.Ok) (q : Wq) (x : Comp) (hts : q.tailStrides < c.n)
    (h1 : q.tailStrides + x.strides c ≤ c.n) (hd : ∀ data, x = .frame data → data.length + c.shift < 65536) :
    ∃ len, q.readWc c (x.word c) = some
      (if q.tailStrides + x.strides c = c.n then { q with tail := (q.tail + 1) % 2 ^ 32, tailStrides := 0 }
       else { q with tailStrides := q.tailStrides + x.strides c },
       ⟨len, q.tailStrides * c.stride + c.shift, (match x with | .frame _ => false | .filler _ => true),
        decide (q.tailStrides + x.strides c = c.n)⟩) ∧ ∀ data, x = .frame data → len = data.length := by
  have hn := ok.n
  have hoff : q.tailStrides * c.stride + c.shift < 2 ^ 32 := by
    have h2 := ok.offset
    have h3 := ok.stride
    have h4 : (q.tailStrides + 1) * c.stride ≤ c.n * c.stride := Nat.mul_le_mul_right _ hts
    rw [Nat.add_mul, Nat.one_mul] at h4
    omega
  have hfin : ∀ (k len : Nat) (f : Bool), q.tailStrides + k ≤ c.n →
      (if (q.tailStrides + k) % 2 ^ 32 ≥ c.n then
        if (q.tailStrides + k) % 2 ^ 32 ≤ c.n then
          some (({ q with tail := (q.tail + 1) % 2 ^ 32, tailStrides := 0 } : Wq), (⟨len, q.tailStrides * c.stride + c.shift, f, true⟩ : Wc))
        else none
      else some ({ q with tailStrides := (q.tailStrides + k) % 2 ^ 32 }, ⟨len, q.tailStrides * c.stride + c.shift, f, false⟩)) =
      some (if q.tailStrides + k = c.n then { q with tail := (q.tail + 1) % 2 ^ 32, tailStrides := 0 }
        else { q with tailStrides := q.tailStrides + k }, ⟨len, q.tailStrides * c.stride + c.shift, f, decide (q.tailStrides + k = c.n)⟩) := by
    intro k len f hk
    rw [Nat.mod_eq_of_lt (show q.tailStrides + k < 2 ^ 32 by omega)]
    by_cases h : q.tailStrides + k = c.n
    · rw [if_pos (by omega), if_pos (by omega), if_pos h, decide_eq_true h]
    · rw [if_neg (by omega), if_neg h, decide_eq_false h]
  cases x with
  | frame data =>
    have hd' := hd data rfl
    have h1' : q.tailStrides + c.strides data.length ≤ c.n := h1
    refine ⟨data.length, ?_, fun d e => by cases e; rfl⟩
    have hw : Comp.word c (.frame data) >>> 16 = c.strides data.length := by
      show (data.length + c.shift + c.strides data.length * 65536) >>> 16 = _
      rw [Nat.shiftRight_eq_div_pow]; omega
    have hl : Comp.word c (.frame data) &&& 0xffff = data.length + c.shift := by
      show (data.length + c.shift + c.strides data.length * 65536) &&& (2 ^ 16 - 1) = _
      rw [and_mask]; omega
    unfold Wq.readWc
    simp only
    rw [hw, hl, Nat.mod_eq_of_lt hoff]
    have hf : ¬ (c.strides data.length &&& 0x8000 ≠ 0) := by
      rw [bit15 (by omega)]; omega
    simp only [hf, if_false, decide_false]
    rw [show (data.length + c.shift + 2 ^ 32 - c.shift) % 2 ^ 32 = data.length by omega]
    exact hfin (c.strides data.length) data.length false h1'
  | filler k =>
    have h1' : q.tailStrides + k ≤ c.n := h1
    refine ⟨((0 : Nat) + 2 ^ 32 - c.shift) % 2 ^ 32, ?_, fun d e => by cases e⟩
    have hw : Comp.word c (.filler k) >>> 16 = k + 0x8000 := by
      show (k * 65536 + 0x80000000) >>> 16 = _
      rw [Nat.shiftRight_eq_div_pow]; omega
    have hl : Comp.word c (.filler k) &&& 0xffff = 0 := by
      show (k * 65536 + 0x80000000) &&& (2 ^ 16 - 1) = _
      rw [and_mask]; omega
    unfold Wq.readWc
    simp only
    rw [hw, hl, Nat.mod_eq_of_lt hoff]
    have hf : k + 0x8000 &&& 0x8000 ≠ 0 := by
      rw [bit15 (by omega)]; omega
    simp only [hf, not_false_eq_true, ne_eq, if_true, decide_true, Nat.add_sub_cancel]
    exact hfin k _ true h1'

end Spead2.Mprq
