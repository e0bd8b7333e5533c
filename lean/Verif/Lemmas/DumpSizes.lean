import Verif.Spec.DumpSizes
import Mathlib.Data.Nat.Log

/-!
# Lemmas about the buffer sizes of mcdump
-/

namespace Spead2.Sizes

theorem u64_small {n : Nat} (h : n < 2 ^ 64) : u64 n = n := Nat.mod_eq_of_lt h

theorem u32_small {n : Nat} (h : n < 2 ^ 32) : u32 n = n := Nat.mod_eq_of_lt h

/-- The number of records per chunk before the limits of the card are looked at. -/
def records0 (snaplen : Nat) : Nat := if 2 * 1024 * 1024 / snaplen = 0 then 1 else 2 * 1024 * 1024 / snaplen

theorem records0_pos (snaplen : Nat) : 0 < records0 snaplen := by
  unfold records0
  split
  · omega
  · rename_i h
    exact Nat.pos_of_ne_zero h

theorem records0_le (snaplen : Nat) (_h : 0 < snaplen) : records0 snaplen * snaplen ≤ max snaplen (2 * 1024 * 1024) := by
  unfold records0
  have := Nat.div_mul_le_self (2 * 1024 * 1024) snaplen
  split <;> omega

def chunks0 (netBuffer chunk : Nat) : Nat := if netBuffer / chunk = 0 then 1 else netBuffer / chunk

theorem chunks0_pos (a b : Nat) : 0 < chunks0 a b := by
  unfold chunks0
  split
  · omega
  · rename_i h
    exact Nat.pos_of_ne_zero h

theorem chunks0_le (a b : Nat) : chunks0 a b * b ≤ max a b := by
  unfold chunks0
  have := Nat.div_mul_le_self a b
  split <;> omega

theorem chunks0_most (a b : Nat) (hb : 0 < b) : a < (chunks0 a b + 1) * b := by
  unfold chunks0
  have h1 := Nat.div_add_mod a b
  have h2 := Nat.mod_lt a hb
  split
  · rename_i h
    rw [h] at h1
    omega
  · rw [Nat.add_mul, Nat.mul_comm]
    omega

theorem plainSizes_eq {snaplen netBuffer : Nat} (dev : Device) (h0 : 0 < snaplen) (h1 : snaplen < 2 ^ 31)
    (h2 : netBuffer < 2 ^ 64) : plainSizes snaplen netBuffer dev =
      if min dev.maxCqe dev.maxQpWr < chunks0 netBuffer (records0 snaplen * snaplen) *
          (if min dev.maxCqe dev.maxQpWr < records0 snaplen then min dev.maxCqe dev.maxQpWr else records0 snaplen) then
        if (if min dev.maxCqe dev.maxQpWr < records0 snaplen then min dev.maxCqe dev.maxQpWr else records0 snaplen) = 0
        then none
        else some ⟨if min dev.maxCqe dev.maxQpWr < records0 snaplen then min dev.maxCqe dev.maxQpWr else records0 snaplen,
          min dev.maxCqe dev.maxQpWr /
            (if min dev.maxCqe dev.maxQpWr < records0 snaplen then min dev.maxCqe dev.maxQpWr else records0 snaplen),
          snaplen * (if min dev.maxCqe dev.maxQpWr < records0 snaplen then min dev.maxCqe dev.maxQpWr else records0 snaplen)⟩
      else some ⟨if min dev.maxCqe dev.maxQpWr < records0 snaplen then min dev.maxCqe dev.maxQpWr else records0 snaplen,
          chunks0 netBuffer (records0 snaplen * snaplen),
          snaplen * (if min dev.maxCqe dev.maxQpWr < records0 snaplen then min dev.maxCqe dev.maxQpWr else records0 snaplen)⟩ := by
  have hr := records0_le snaplen h0
  have hp := records0_pos snaplen
  have hc : 0 < records0 snaplen * snaplen := Nat.mul_pos hp h0
  have hlt : records0 snaplen * snaplen < 2 ^ 64 := by omega
  have e1 : u64 (records0 snaplen * snaplen) = records0 snaplen * snaplen := u64_small hlt
  have e2 : (if 2 * 1024 * 1024 / snaplen = 0 then 1 else 2 * 1024 * 1024 / snaplen) = records0 snaplen := rfl
  have e3 : (if netBuffer / (records0 snaplen * snaplen) = 0 then 1 else netBuffer / (records0 snaplen * snaplen)) =
    chunks0 netBuffer (records0 snaplen * snaplen) := rfl
  unfold plainSizes
  rw [if_neg (by omega)]
  dsimp only
  rw [e2, e1, if_neg (by omega), e3]
  generalize hR : (if min dev.maxCqe dev.maxQpWr < records0 snaplen then min dev.maxCqe dev.maxQpWr
    else records0 snaplen) = R
  have hRle : R ≤ records0 snaplen := by
    rw [← hR]
    split <;> omega
  have h3 : snaplen * R ≤ records0 snaplen * snaplen := by
    rw [Nat.mul_comm]
    exact Nat.mul_le_mul_right _ hRle
  have h4 : chunks0 netBuffer (records0 snaplen * snaplen) * R ≤
      chunks0 netBuffer (records0 snaplen * snaplen) * (records0 snaplen * snaplen) := by
    refine Nat.mul_le_mul_left _ (Nat.le_trans hRle ?_)
    exact Nat.le_mul_of_pos_right _ h0
  have h5 := chunks0_le netBuffer (records0 snaplen * snaplen)
  rw [u64_small (by omega), u64_small (by omega)]

theorem clamp_mem {v lo hi : Nat} (h : lo ≤ hi) : lo ≤ clamp v lo hi ∧ clamp v lo hi ≤ hi := by
  unfold clamp
  split
  · omega
  · split <;> omega

theorem clamp_near {v lo hi : Nat} (h : lo ≤ hi) : Nearest v lo hi (clamp v lo hi) := by
  refine ⟨(clamp_mem h).1, (clamp_mem h).2, fun j h1 h2 => ?_⟩
  unfold clamp
  split
  · omega
  · split <;> omega

theorem log2i_pow (n : Nat) : log2i (2 ^ n) = some n := by
  induction n with
  | zero => unfold log2i; simp
  | succ n ih =>
    have h1 : 1 ≤ 2 ^ n := Nat.one_le_two_pow
    have e : 2 ^ (n + 1) = 2 * 2 ^ n := by rw [Nat.pow_succ, Nat.mul_comm]
    unfold log2i
    rw [dif_neg (by omega), if_neg (by omega), show 2 ^ (n + 1) / 2 = 2 ^ n from by omega, ih]
    rfl

theorem entriesFrom_get {snaplen M : Nat} : ∀ (left i ptr k : Nat), k < left →
    (entriesFrom snaplen M left i ptr)[k]? =
      some { wrId := i + k, next := if i + k + 1 < M then some (i + k + 1) else none
             addr := ptr + k * snaplen, length := snaplen, iovBase := ptr + k * snaplen }
  | 0, _, _, _, h => absurd h (Nat.not_lt_zero _)
  | left + 1, i, ptr, 0, _ => by simp [entriesFrom]
  | left + 1, i, ptr, k + 1, h => by
    rw [entriesFrom, List.getElem?_cons_succ, entriesFrom_get left (i + 1) (ptr + snaplen) k (by omega)]
    rw [show i + 1 + k = i + (k + 1) from by omega,
      show ptr + snaplen + k * snaplen = ptr + (k + 1) * snaplen from by rw [Nat.add_mul]; omega]

theorem entriesFrom_length {snaplen M : Nat} : ∀ (left i ptr : Nat), (entriesFrom snaplen M left i ptr).length = left
  | 0, _, _ => rfl
  | left + 1, i, ptr => by simp [entriesFrom, entriesFrom_length left]

theorem makeChunk_get {snaplen M storage k : Nat} (h : k < M) : (makeChunk snaplen M storage)[k]? =
    some { wrId := k, next := if k + 1 < M then some (k + 1) else none
           addr := storage + k * snaplen, length := snaplen, iovBase := storage + k * snaplen } := by
  unfold makeChunk
  rw [entriesFrom_get M 0 storage k h]
  simp

theorem makeChunk_length (snaplen M storage : Nat) : (makeChunk snaplen M storage).length = M :=
  entriesFrom_length _ _ _

theorem follow_all {snaplen M storage : Nat} : ∀ (fuel i : Nat), i < M → M - i ≤ fuel →
    follow (makeChunk snaplen M storage) fuel i = (makeChunk snaplen M storage).drop i
  | 0, _, h, h' => by omega
  | fuel + 1, i, h, h' => by
    have hd : (makeChunk snaplen M storage).drop i =
        (makeChunk snaplen M storage)[i]'(by rw [makeChunk_length]; exact h) :: (makeChunk snaplen M storage).drop (i + 1) :=
      List.drop_eq_getElem_cons (by rw [makeChunk_length]; exact h)
    have hg := makeChunk_get (snaplen := snaplen) (storage := storage) h
    have he : (makeChunk snaplen M storage)[i]'(by rw [makeChunk_length]; exact h) =
        { wrId := i, next := if i + 1 < M then some (i + 1) else none
          addr := storage + i * snaplen, length := snaplen, iovBase := storage + i * snaplen } := by
      rw [List.getElem?_eq_getElem (by rw [makeChunk_length]; exact h)] at hg
      exact Option.some.inj hg
    rw [hd, he, follow, hg]
    by_cases hi : i + 1 < M
    · simp only [if_pos hi]
      rw [follow_all fuel (i + 1) hi (by omega)]
    · simp only [if_neg hi]
      rw [List.drop_eq_nil_of_le (by rw [makeChunk_length]; omega)]

end Spead2.Sizes
