import Verif.Model.Bytes

namespace Spead2

@[simp] theorem beBytes_length (k n : Nat) : (beBytes k n).length = k := by
  induction k with
  | zero => rfl
  | succ k ih => simp [beBytes, ih]

theorem beNat_lt (l : Bytes) : beNat l < 256 ^ l.length := by
  induction l with
  | nil => simp [beNat]
  | cons b bs ih =>
    simp only [beNat, List.length_cons, Nat.pow_succ]
    have : b.toNat < 256 := b.toNat_lt
    calc b.toNat * 256 ^ bs.length + beNat bs < b.toNat * 256 ^ bs.length + 256 ^ bs.length := by omega
      _ = (b.toNat + 1) * 256 ^ bs.length := by rw [Nat.add_mul, Nat.one_mul]
      _ ≤ 256 * 256 ^ bs.length := Nat.mul_le_mul_right _ (by omega)
      _ = 256 ^ bs.length * 256 := Nat.mul_comm _ _

theorem beNat_beBytes (k n : Nat) : beNat (beBytes k n) = n % 256 ^ k := by
  induction k with
  | zero => simp [beBytes, beNat, Nat.mod_one]
  | succ k ih =>
    simp only [beBytes, beNat, beBytes_length, ih, UInt8.toNat_ofNat']
    rw [Nat.pow_succ 256 k, Nat.mod_mul, Nat.mul_comm, Nat.add_comm]

theorem beNat_beBytes_of_lt {k n : Nat} (h : n < 256 ^ k) : beNat (beBytes k n) = n := by
  rw [beNat_beBytes, Nat.mod_eq_of_lt h]

theorem beBytes_mod (k n : Nat) {m : Nat} (h : k ≤ m) : beBytes k (n % 256 ^ m) = beBytes k n := by
  induction k with
  | zero => rfl
  | succ k ih =>
    simp only [beBytes]
    rw [ih (by omega)]
    congr 1
    apply UInt8.toNat.inj
    simp only [UInt8.toNat_ofNat']
    obtain ⟨j, rfl⟩ : ∃ j, m = k + 1 + j := ⟨m - (k + 1), by omega⟩
    rw [show 256 ^ (k + 1 + j) = 256 ^ k * 256 ^ (j + 1) by rw [← Nat.pow_add]; congr 1; omega]
    rw [Nat.mod_mul_right_div_self]
    rw [Nat.mod_mod_of_dvd]
    exact ⟨256 ^ j, by rw [Nat.pow_succ]; simp [Nat.mul_comm]⟩

theorem beBytes_beNat (l : Bytes) : beBytes l.length (beNat l) = l := by
  induction l with
  | nil => rfl
  | cons b bs ih =>
    simp only [List.length_cons, beBytes, beNat]
    have hlt := beNat_lt bs
    have hpos : 0 < 256 ^ bs.length := Nat.pow_pos (by omega)
    congr 1
    · rw [Nat.mul_comm, Nat.mul_add_div hpos, Nat.div_eq_of_lt hlt]
      simp
    · rw [← beBytes_mod _ _ (Nat.le_refl bs.length), Nat.mul_comm, Nat.mul_add_mod,
        Nat.mod_eq_of_lt hlt, ih]

theorem beNat_append (a b : Bytes) : beNat (a ++ b) = beNat a * 256 ^ b.length + beNat b := by
  induction a with
  | nil => simp [beNat]
  | cons x xs ih =>
    simp only [List.cons_append, beNat, ih, List.length_append, Nat.pow_add, Nat.add_mul]
    simp [Nat.mul_assoc, Nat.add_assoc]

theorem beBytes_add (a b n : Nat) : beBytes (a + b) n = beBytes a (n / 256 ^ b) ++ beBytes b n := by
  induction a with
  | zero => simp [beBytes]
  | succ a ih =>
    rw [show a + 1 + b = (a + b) + 1 by omega]
    simp only [beBytes, ih, List.cons_append, Nat.div_div_eq_div_mul, ← Nat.pow_add]
    congr 3
    rw [Nat.add_comm]

theorem beBytes_inj {k a b : Nat} (ha : a < 256 ^ k) (hb : b < 256 ^ k)
    (h : beBytes k a = beBytes k b) : a = b := by
  have := congrArg beNat h
  rwa [beNat_beBytes_of_lt ha, beNat_beBytes_of_lt hb] at this

theorem beNat_replicate_zero (k : Nat) : beNat (List.replicate k 0) = 0 := by
  induction k with
  | zero => rfl
  | succ k ih => simp [List.replicate_succ, beNat, ih]

theorem slice?_eq_some {d : Bytes} {off len : Nat} (h : off + len ≤ d.length) :
    slice? d off len = some ((d.drop off).take len) := by
  simp [slice?, h]

theorem load64?_eq_some {d : Bytes} {off : Nat} (h : off + 8 ≤ d.length) :
    load64? d off = some (beNat ((d.drop off).take 8)) := by
  simp [load64?, slice?, h]

theorem load64?_isSome {d : Bytes} {off : Nat} {p : Nat} (h : load64? d off = some p) :
    off + 8 ≤ d.length ∧ p = beNat ((d.drop off).take 8) := by
  unfold load64? slice? at h
  split at h <;> simp_all

theorem load64?_lt {d : Bytes} {off p : Nat} (h : load64? d off = some p) : p < 2 ^ 64 := by
  obtain ⟨h1, rfl⟩ := load64?_isSome h
  have := beNat_lt ((d.drop off).take 8)
  rw [List.length_take, List.length_drop] at this
  rw [show min 8 (d.length - off) = 8 by omega] at this
  simpa using this

/-- Reading through a prefix does not change the value. -/
theorem load64?_append {d : Bytes} {off p : Nat} (e : Bytes) (h : load64? d off = some p) :
    load64? (d ++ e) off = some p := by
  obtain ⟨h1, rfl⟩ := load64?_isSome h
  rw [load64?_eq_some (by simp; omega), List.drop_append_of_le_length (by omega),
    List.take_append_of_le_length (by simp; omega)]

end Spead2

namespace Spead2

/-- Extracting a field of a big-endian number extracts the bytes. -/
theorem beNat_mid (a m c : Bytes) :
    beNat (a ++ (m ++ c)) / 256 ^ c.length % 256 ^ m.length = beNat m := by
  rw [← List.append_assoc, beNat_append (a ++ m) c]
  have hpos : 0 < 256 ^ c.length := Nat.pow_pos (by omega)
  rw [Nat.mul_comm, Nat.mul_add_div hpos, Nat.div_eq_of_lt (beNat_lt c), Nat.add_zero, beNat_append,
    Nat.mul_comm, Nat.mul_add_mod, Nat.mod_eq_of_lt (beNat_lt m)]

end Spead2
