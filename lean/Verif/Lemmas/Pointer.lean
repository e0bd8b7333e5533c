import Verif.Model.Wire
import Verif.Lemmas.Bytes

namespace Spead2

theorem getAddress_eq (hab p : Nat) : getAddress hab p = p % 2 ^ hab := by
  simp [getAddress, addressMask, Nat.shiftLeft_eq, Nat.and_two_pow_sub_one_eq_mod]

theorem getImmediate_eq (hab p : Nat) : getImmediate hab p = p % 2 ^ hab := getAddress_eq hab p

theorem getId_eq (hab p : Nat) : getId hab p = p / 2 ^ hab % 2 ^ (63 - hab) := by
  simp [getId, idMask, Nat.shiftLeft_eq, Nat.and_two_pow_sub_one_eq_mod, Nat.shiftRight_eq_div_pow]

theorem extractBits_eq (v f c : Nat) : extractBits v f c = v / 2 ^ f % 2 ^ c := by
  simp [extractBits, Nat.shiftLeft_eq, Nat.and_two_pow_sub_one_eq_mod, Nat.shiftRight_eq_div_pow]

theorem isImmediate_iff (p : Nat) : isImmediate p = true ↔ 2 ^ 63 ≤ p := by
  simp only [isImmediate, Nat.shiftRight_eq_div_pow, ne_eq, decide_eq_true_eq, Nat.div_eq_zero_iff]
  omega

theorem immediateMask_eq : immediateMask = 2 ^ 63 := by rfl

theorem shifted_lt {hab id : Nat} (hh : hab < 64) (hid : id < 2 ^ (63 - hab)) : id * 2 ^ hab < 2 ^ 63 := by
  calc id * 2 ^ hab < 2 ^ (63 - hab) * 2 ^ hab := by
        exact (Nat.mul_lt_mul_right (Nat.two_pow_pos hab)).mpr hid
    _ = 2 ^ 63 := by rw [← Nat.pow_add]; congr 1; omega

theorem encodeAddress_eq {hab id a : Nat} (hh : hab < 64) (hid : id < 2 ^ (63 - hab)) (ha : a < 2 ^ hab) :
    encodeAddress hab id a = id * 2 ^ hab + a := by
  have h1 := shifted_lt hh hid
  unfold encodeAddress
  rw [Nat.shiftLeft_eq, Nat.mod_eq_of_lt (by omega), Nat.mul_comm id, Nat.two_pow_add_eq_or_of_lt ha]

theorem encodeAddress_lt {hab id a : Nat} (hh : hab < 64) (hid : id < 2 ^ (63 - hab)) (ha : a < 2 ^ hab) :
    encodeAddress hab id a < 2 ^ 63 := by
  rw [encodeAddress_eq hh hid ha]
  calc id * 2 ^ hab + a < (id + 1) * 2 ^ hab := by rw [Nat.add_mul]; omega
    _ ≤ 2 ^ (63 - hab) * 2 ^ hab := Nat.mul_le_mul_right _ (by omega)
    _ = 2 ^ 63 := by rw [← Nat.pow_add]; congr 1; omega

theorem encodeImmediate_eq {hab id v : Nat} (hh : hab < 64) (hid : id < 2 ^ (63 - hab)) (hv : v < 2 ^ hab) :
    encodeImmediate hab id v = 2 ^ 63 + (id * 2 ^ hab + v) := by
  have h1 := encodeAddress_eq hh hid hv
  have h2 := encodeAddress_lt hh hid hv
  have h3 : encodeImmediate hab id v = immediateMask ||| encodeAddress hab id v := by
    simp [encodeImmediate, encodeAddress, Nat.or_assoc]
  rw [h3, immediateMask_eq, ← h1]
  have := Nat.two_pow_add_eq_or_of_lt h2 1
  simp only [Nat.mul_one] at this
  exact this.symm

theorem encodeImmediate_lt {hab id v : Nat} (hh : hab < 64) (hid : id < 2 ^ (63 - hab)) (hv : v < 2 ^ hab) :
    encodeImmediate hab id v < 2 ^ 64 := by
  rw [encodeImmediate_eq hh hid hv, ← encodeAddress_eq hh hid hv]
  have := encodeAddress_lt hh hid hv
  omega

theorem fields_of_eq {hab id v : Nat} (m : Nat) (hh : hab < 64) (hid : id < 2 ^ (63 - hab)) (hv : v < 2 ^ hab) :
    (m * 2 ^ 63 + (id * 2 ^ hab + v)) / 2 ^ hab % 2 ^ (63 - hab) = id ∧
    (m * 2 ^ 63 + (id * 2 ^ hab + v)) % 2 ^ hab = v := by
  have e : 2 ^ 63 = 2 ^ (63 - hab) * 2 ^ hab := by rw [← Nat.pow_add]; congr 1; omega
  rw [e, ← Nat.mul_assoc, ← Nat.add_assoc, ← Nat.add_mul]
  constructor
  · rw [Nat.mul_comm, Nat.mul_add_div (Nat.two_pow_pos hab), Nat.div_eq_of_lt hv, Nat.add_zero,
      Nat.mul_comm, Nat.mul_add_mod, Nat.mod_eq_of_lt hid]
  · rw [Nat.mul_comm, Nat.mul_add_mod, Nat.mod_eq_of_lt hv]

theorem isImmediate_encodeImmediate {hab id v : Nat} (hh : hab < 64) (hid : id < 2 ^ (63 - hab))
    (hv : v < 2 ^ hab) : isImmediate (encodeImmediate hab id v) = true := by
  rw [isImmediate_iff, encodeImmediate_eq hh hid hv]; omega

theorem getId_encodeImmediate {hab id v : Nat} (hh : hab < 64) (hid : id < 2 ^ (63 - hab))
    (hv : v < 2 ^ hab) : getId hab (encodeImmediate hab id v) = id := by
  rw [getId_eq, encodeImmediate_eq hh hid hv]
  simpa using (fields_of_eq 1 hh hid hv).1

theorem getImmediate_encodeImmediate {hab id v : Nat} (hh : hab < 64) (hid : id < 2 ^ (63 - hab))
    (hv : v < 2 ^ hab) : getImmediate hab (encodeImmediate hab id v) = v := by
  rw [getImmediate_eq, encodeImmediate_eq hh hid hv]
  simpa using (fields_of_eq 1 hh hid hv).2

theorem isImmediate_encodeAddress {hab id v : Nat} (hh : hab < 64) (hid : id < 2 ^ (63 - hab))
    (hv : v < 2 ^ hab) : isImmediate (encodeAddress hab id v) = false := by
  have := encodeAddress_lt hh hid hv
  cases h : isImmediate (encodeAddress hab id v)
  · rfl
  · rw [isImmediate_iff] at h; omega

theorem getId_encodeAddress {hab id v : Nat} (hh : hab < 64) (hid : id < 2 ^ (63 - hab))
    (hv : v < 2 ^ hab) : getId hab (encodeAddress hab id v) = id := by
  rw [getId_eq, encodeAddress_eq hh hid hv]
  simpa using (fields_of_eq 0 hh hid hv).1

theorem getAddress_encodeAddress {hab id v : Nat} (hh : hab < 64) (hid : id < 2 ^ (63 - hab))
    (hv : v < 2 ^ hab) : getAddress hab (encodeAddress hab id v) = v := by
  rw [getAddress_eq, encodeAddress_eq hh hid hv]
  simpa using (fields_of_eq 0 hh hid hv).2

end Spead2
