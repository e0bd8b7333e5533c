import Verif.Spec.PyItem
import Mathlib.Tactic.Ring

/-! Bits, and the generators that write and read them. -/

namespace Spead2
open Spec

theorem numBits_length (n v : Nat) : (numBits n v).length = n := by
  induction n with
  | zero => rfl
  | succ n ih => simp [numBits, ih]

theorem numBits_append (a b v : Nat) : numBits (a + b) v = numBits a (v / 2 ^ b) ++ numBits b v := by
  induction a with
  | zero => simp [numBits]
  | succ a ih =>
    rw [show a + 1 + b = (a + b) + 1 from by omega]
    simp only [numBits, ih, List.cons_append]
    rw [Nat.div_div_eq_div_mul, ← Nat.pow_add, Nat.add_comm b a]

theorem numBits_mod (n v : Nat) : ∀ k, k ≤ n → numBits k (v % 2 ^ n) = numBits k v := by
  intro k
  induction k with
  | zero => intro _; rfl
  | succ k ih =>
    intro hk
    simp only [numBits]
    rw [ih (by omega)]
    congr 1
    have h := Nat.testBit_mod_two_pow v n k
    rw [Nat.testBit_eq_decide_div_mod_eq, Nat.testBit_eq_decide_div_mod_eq] at h
    rw [h]; simp; omega

/-- The number that a sequence of bits denotes, most significant first. -/
def ofBits (l : List Bool) : Nat := l.foldl (fun a b => a * 2 + (if b then 1 else 0)) 0

theorem ofBits_snoc (l : List Bool) (b : Bool) : ofBits (l ++ [b]) = ofBits l * 2 + (if b then 1 else 0) := by
  simp [ofBits]

theorem numBits_snoc (n v : Nat) : numBits (n + 1) v = numBits n (v / 2) ++ [decide (v % 2 = 1)] := by
  rw [numBits_append n 1 v]; simp [numBits]

theorem ofBits_numBits (n v : Nat) : ofBits (numBits n v) = v % 2 ^ n := by
  induction n generalizing v with
  | zero => simp [numBits, ofBits, Nat.mod_one]
  | succ n ih =>
    rw [numBits_snoc, ofBits_snoc, ih, Nat.pow_succ]
    have h : v % (2 ^ n * 2) = v / 2 % 2 ^ n * 2 + v % 2 := by
      rw [Nat.mul_comm (2 ^ n) 2, Nat.mod_mul]; omega
    rw [h]
    rcases Nat.mod_two_eq_zero_or_one v with h | h <;> simp [h]

theorem bytesBits_append (a b : List Nat) : bytesBits (a ++ b) = bytesBits a ++ bytesBits b := by
  simp [bytesBits]

theorem bytesBits_cons (a : Nat) (b : List Nat) : bytesBits (a :: b) = numBits 8 a ++ bytesBits b := by
  simp [bytesBits]

theorem bytesBits_length (a : List Nat) : (bytesBits a).length = 8 * a.length := by
  induction a with
  | nil => rfl
  | cons a b ih => rw [bytesBits_cons, List.length_append, numBits_length, ih, List.length_cons]; omega

/-! ## Writing -/

/-- The bits written so far. -/
structure WriterOk (s : BitWriter) (l : List Bool) : Prop where
  low : s.currentBits < 8
  cur : s.current < 2 ^ s.currentBits
  pos : s.pos ≤ s.array.length
  bytes : ∀ b ∈ s.array, b < 256
  bits : bytesBits (s.array.take s.pos) ++ numBits s.currentBits s.current = l

theorem drain_ok : ∀ (n : Nat) (s : BitWriter), s.currentBits = n → s.current < 2 ^ n →
    s.pos ≤ s.array.length → n ≤ 8 * (s.array.length - s.pos) → (∀ b ∈ s.array, b < 256) →
    ∃ s', s.drain = some s' ∧ s'.array.length = s.array.length ∧
      WriterOk s' (bytesBits (s.array.take s.pos) ++ numBits s.currentBits s.current) := by
  intro n
  induction n using Nat.strongRecOn with
  | _ n ih =>
    intro s hn hc hp hcap hb
    rw [BitWriter.drain]
    by_cases h8 : 8 ≤ s.currentBits
    · rw [dif_pos h8]
      have hv : s.current / 2 ^ (s.currentBits - 8) < 256 := by
        apply Nat.div_lt_of_lt_mul
        rw [show (256 : Nat) = 2 ^ 8 from rfl, ← Nat.pow_add,
          show s.currentBits - 8 + 8 = n from by omega]
        exact hc
      have hlt : s.pos < s.array.length := by omega
      rw [show storeByte s.array s.pos (s.current / 2 ^ (s.currentBits - 8)) =
        some (s.array.set s.pos (s.current / 2 ^ (s.currentBits - 8))) from if_pos ⟨hlt, hv⟩]
      obtain ⟨s', h1, h2, h3⟩ := ih (n - 8) (by omega)
        ⟨s.pos + 1, s.current % 2 ^ (s.currentBits - 8), s.currentBits - 8,
          s.array.set s.pos (s.current / 2 ^ (s.currentBits - 8))⟩ (by show s.currentBits - 8 = n - 8; omega)
        (by show s.current % 2 ^ (s.currentBits - 8) < _; rw [hn]; exact Nat.mod_lt _ (Nat.two_pow_pos _))
        (by simp; omega) (by simp; omega)
        (by
          intro b hbm
          rcases List.mem_or_eq_of_mem_set hbm with h | h
          · exact hb b h
          · rw [h]; exact hv)
      refine ⟨s', h1, by rw [h2]; simp, ?_⟩
      convert h3 using 1
      show _ = bytesBits ((s.array.set s.pos _).take (s.pos + 1)) ++ _
      rw [List.take_add_one, List.take_set_of_le (Nat.le_refl _), List.getElem?_set_self hlt,
        Option.toList_some, bytesBits_append, List.append_assoc]
      congr 1
      show _ = bytesBits [_] ++ numBits (s.currentBits - 8) (s.current % 2 ^ (s.currentBits - 8))
      rw [numBits_mod _ _ _ (Nat.le_refl _)]
      have := numBits_append 8 (s.currentBits - 8) s.current
      rw [show 8 + (s.currentBits - 8) = s.currentBits from by omega] at this
      rw [this]; simp [bytesBits]
    · rw [dif_neg h8]
      exact ⟨s, rfl, rfl, ⟨by omega, by rw [hn]; exact hc, hp, hb, rfl⟩⟩

theorem writer_length {s : BitWriter} {l : List Bool} (h : WriterOk s l) : l.length = 8 * s.pos + s.currentBits := by
  rw [← h.bits, List.length_append, bytesBits_length, numBits_length, List.length_take,
    Nat.min_eq_left h.pos]

theorem send_ok {s : BitWriter} {l : List Bool} (h : WriterOk s l) {v : Int} {n : Nat} (h0 : 0 ≤ v)
    (hv : v < 2 ^ n) (hcap : l.length + n ≤ 8 * s.array.length) :
    ∃ s', s.send v n = some s' ∧ s'.array.length = s.array.length ∧ WriterOk s' (l ++ numBits n v.toNat) := by
  have hl := writer_length h
  have hp := h.pos
  obtain ⟨k, rfl⟩ := Int.eq_ofNat_of_zero_le h0
  have hk : k < 2 ^ n := by exact_mod_cast hv
  rw [BitWriter.send, if_neg (by omega)]
  have hcur : s.current * 2 ^ n + k < 2 ^ (s.currentBits + n) := by
    rw [Nat.pow_add]
    calc s.current * 2 ^ n + k < s.current * 2 ^ n + 2 ^ n := by omega
      _ = (s.current + 1) * 2 ^ n := by ring
      _ ≤ _ := Nat.mul_le_mul_right _ h.cur
  obtain ⟨s', h1, h2, h3⟩ := drain_ok (s.currentBits + n)
    { s with current := s.current * 2 ^ n + k, currentBits := s.currentBits + n } rfl hcur h.pos
    (by show s.currentBits + n ≤ 8 * (s.array.length - s.pos); omega) h.bytes
  refine ⟨s', h1, h2, ?_⟩
  convert h3 using 1
  show _ = bytesBits (s.array.take s.pos) ++ numBits (s.currentBits + n) (s.current * 2 ^ n + k)
  rw [numBits_append, ← h.bits, List.append_assoc]
  congr 2
  · rw [Nat.mul_comm, Nat.mul_add_div (Nat.two_pow_pos n), Nat.div_eq_of_lt hk, Nat.add_zero]
  · rw [← numBits_mod n (s.current * 2 ^ n + k) n (Nat.le_refl n), Nat.mul_comm, Nat.mul_add_mod]
    show numBits n k = _
    rw [numBits_mod n k n (Nat.le_refl n)]

theorem close_ok {s : BitWriter} {l : List Bool} (h : WriterOk s l) (hlen : s.array.length = (l.length + 7) / 8) :
    ∃ bs, s.close = some bs ∧ bs.length = (l.length + 7) / 8 ∧ (∀ b ∈ bs, b < 256) ∧
      bytesBits bs = l ++ List.replicate (8 * ((l.length + 7) / 8) - l.length) false := by
  have hl := writer_length h
  have hlow := h.low
  have hp := h.pos
  rw [BitWriter.close]
  by_cases h0 : 0 < s.currentBits
  · rw [if_pos h0]
    have hlt : s.pos < s.array.length := by omega
    have hv : s.current * 2 ^ (8 - s.currentBits) < 256 := by
      have := Nat.mul_lt_mul_of_pos_right h.cur (Nat.two_pow_pos (8 - s.currentBits))
      rw [← Nat.pow_add, show s.currentBits + (8 - s.currentBits) = 8 from by omega] at this
      exact this
    rw [show storeByte s.array s.pos (s.current * 2 ^ (8 - s.currentBits)) = some _ from if_pos ⟨hlt, hv⟩]
    refine ⟨_, rfl, by simp; omega, ?_, ?_⟩
    · intro b hbm
      rcases List.mem_or_eq_of_mem_set hbm with h' | h'
      · exact h.bytes b h'
      · rw [h']; exact hv
    · have hend : s.pos + 1 = s.array.length := by omega
      have hset : s.array.set s.pos (s.current * 2 ^ (8 - s.currentBits)) =
          s.array.take s.pos ++ [s.current * 2 ^ (8 - s.currentBits)] := by
        rw [List.set_eq_take_append_cons_drop, if_pos hlt, List.drop_of_length_le (by omega)]
      rw [hset, bytesBits_append, ← h.bits, List.append_assoc]
      congr 1
      have h8 := numBits_append s.currentBits (8 - s.currentBits) (s.current * 2 ^ (8 - s.currentBits))
      rw [show s.currentBits + (8 - s.currentBits) = 8 from by omega,
        Nat.mul_div_cancel _ (Nat.two_pow_pos _)] at h8
      have hz : ∀ n m : Nat, numBits n (m * 2 ^ n) = List.replicate n false := by
        intro n m
        rw [← numBits_mod n _ n (Nat.le_refl n), Nat.mul_mod_left]
        clear h8
        induction n with
        | zero => rfl
        | succ n ih => simp [numBits, ih, List.replicate_succ]
      rw [hz] at h8
      rw [show bytesBits [s.current * 2 ^ (8 - s.currentBits)] = numBits 8 (s.current * 2 ^ (8 - s.currentBits)) from by
        simp [bytesBits], h8, h.bits, show 8 * ((l.length + 7) / 8) - l.length = 8 - s.currentBits from by omega]
  · rw [if_neg h0]
    have hz : s.currentBits = 0 := by omega
    refine ⟨_, rfl, hlen, h.bytes, ?_⟩
    rw [← h.bits, hz, show s.pos = s.array.length from by omega, List.take_length]
    simp only [numBits, List.append_nil, bytesBits_length]
    rw [show 8 * ((8 * s.array.length + 7) / 8) - 8 * s.array.length = 0 from by omega]
    simp

/-! ## Reading -/

/-- The bits that are still to be read. -/
structure ReaderOk (s : BitReader) (l : List Bool) : Prop where
  cur : s.bits < 2 ^ s.haveBits
  bytes : ∀ b ∈ s.source, b < 256
  bits : numBits s.haveBits s.bits ++ bytesBits s.source = l

theorem fetch_ok (need : Nat) : ∀ (src : List Nat) (have_ bits : Nat), bits < 2 ^ have_ → (∀ b ∈ src, b < 256) →
    need ≤ have_ + 8 * src.length →
    ∃ s, BitReader.fetch need have_ bits src = some s ∧ need ≤ s.haveBits ∧
      ReaderOk s (numBits have_ bits ++ bytesBits src) := by
  intro src
  induction src with
  | nil =>
    intro have_ bits hb hs hn
    rw [BitReader.fetch, if_neg (by simp at hn; omega)]
    exact ⟨_, rfl, by simpa using hn, hb, hs, rfl⟩
  | cons b rest ih =>
    intro have_ bits hb hs hn
    rw [BitReader.fetch]
    have hb256 : b < 256 := hs b List.mem_cons_self
    split
    · obtain ⟨s, h1, h2, h3⟩ := ih (have_ + 8) (bits * 256 + b)
        (by rw [Nat.pow_add]; omega) (fun x hx => hs x (List.mem_cons_of_mem _ hx))
        (by simp only [List.length_cons] at hn; omega)
      refine ⟨s, h1, h2, ?_⟩
      convert h3 using 1
      rw [bytesBits_cons, numBits_append, List.append_assoc]
      congr 2
      · rw [show (bits * 256 + b) / 2 ^ 8 = bits from by omega]
      · rw [← numBits_mod 8 (bits * 256 + b) 8 (Nat.le_refl 8),
          show (bits * 256 + b) % 2 ^ 8 = b from by omega]
    · exact ⟨_, rfl, by simpa using by omega, hb, hs, rfl⟩

theorem read_ok {s : BitReader} {l m : List Bool} (h : ReaderOk s (l ++ m)) :
    ∃ s', s.send l.length = some (ofBits l, s') ∧ ReaderOk s' m := by
  have hlen : s.haveBits + 8 * s.source.length = l.length + m.length := by
    have := congrArg List.length h.bits
    simpa [numBits_length, bytesBits_length] using this
  obtain ⟨t, h1, h2, h3⟩ := fetch_ok l.length s.source s.haveBits s.bits h.cur h.bytes (by omega)
  rw [h.bits] at h3
  rw [BitReader.send, h1]
  have ht := h3.bits
  have hsplit := numBits_append l.length (t.haveBits - l.length) t.bits
  rw [show l.length + (t.haveBits - l.length) = t.haveBits from by omega] at hsplit
  rw [hsplit, List.append_assoc] at ht
  have hl : numBits l.length (t.bits / 2 ^ (t.haveBits - l.length)) = l :=
    List.append_inj_left ht (numBits_length _ _)
  have hm := List.append_inj_right ht (numBits_length _ _)
  have hdiv : t.bits / 2 ^ (t.haveBits - l.length) < 2 ^ l.length := by
    apply Nat.div_lt_of_lt_mul
    rw [← Nat.pow_add, show t.haveBits - l.length + l.length = t.haveBits from by omega]
    exact h3.cur
  refine ⟨⟨t.haveBits - l.length, t.bits % 2 ^ (t.haveBits - l.length), t.source⟩, ?_,
    ⟨Nat.mod_lt _ (Nat.two_pow_pos _), h3.bytes, ?_⟩⟩
  · simp only [Option.some.injEq, Prod.mk.injEq, and_true]
    conv_rhs => rw [← hl]
    rw [ofBits_numBits, Nat.mod_eq_of_lt hdiv]
  · show numBits (t.haveBits - l.length) (t.bits % _) ++ _ = m
    rw [numBits_mod _ _ _ (Nat.le_refl _)]; exact hm

end Spead2
