import Verif.Spec.StreamBuild
import Verif.Lemmas.Stream

/-!
# Lemmas about making a stream
-/

namespace Spead2.Build

theorem countLoop_eq (total : Nat) (ht : total ≤ 2 ^ 60) : ∀ (fuel k fuel' : Nat), k ≤ 60 → 61 ≤ fuel + k →
    total ≤ 2 ^ k + fuel' → countLoop total fuel (2 ^ k) = some (bucketLoop total fuel' (2 ^ k))
  | 0, k, _, hk, hf, _ => by omega
  | fuel + 1, k, fuel', hk, hf, h => by
    unfold countLoop
    by_cases hlt : 2 ^ k < total
    · have hk' : k < 60 := by
        rcases Nat.lt_or_ge k 60 with h' | h'
        · exact h'
        · have := Nat.pow_le_pow_right (n := 2) (by omega) h'
          omega
      match fuel', h with
      | 0, h => omega
      | f + 1, h =>
        have hw : wrap (2 ^ k * 2) = 2 ^ (k + 1) := by
          unfold wrap
          rw [← Nat.pow_succ]
          exact Nat.mod_eq_of_lt (Nat.pow_lt_pow_right (by omega) (by omega))
        rw [if_pos hlt, hw]
        unfold bucketLoop
        rw [if_pos hlt, ← Nat.pow_succ]
        refine countLoop_eq total ht fuel (k + 1) f (by omega) (by omega) ?_
        have : 0 < 2 ^ k := Nat.two_pow_pos k
        rw [Nat.pow_succ]
        omega
    · rw [if_neg hlt]
      match fuel' with
      | 0 => rfl
      | f + 1 => unfold bucketLoop; rw [if_neg hlt]

theorem bucketLoop_le (total : Nat) (ht : total ≤ 2 ^ 60) : ∀ (fuel k : Nat), k ≤ 60 → bucketLoop total fuel (2 ^ k) ≤ 2 ^ 60
  | 0, k, hk => Nat.pow_le_pow_right (by omega) hk
  | fuel + 1, k, hk => by
    unfold bucketLoop
    by_cases hlt : 2 ^ k < total
    · have hk' : k < 60 := by
        rcases Nat.lt_or_ge k 60 with h' | h'
        · exact h'
        · have := Nat.pow_le_pow_right (n := 2) (by omega) h'
          omega
      rw [if_pos hlt, ← Nat.pow_succ]
      exact bucketLoop_le total ht fuel (k + 1) (by omega)
    · rw [if_neg hlt]
      exact Nat.pow_le_pow_right (by omega) hk

theorem bucketCount_eq (total : Nat) (ht : total ≤ 2 ^ 60) : bucketCount total = some (computeBucketCount total) := by
  unfold bucketCount computeBucketCount
  have h1 := countLoop_eq total ht 64 2 total (by omega) (by omega) (by omega)
  have h2 := bucketLoop_le total ht total 2 (by omega)
  rw [show (2 : Nat) ^ 2 = 4 from rfl] at h1 h2
  rw [h1, Option.map_some]
  unfold wrap
  rw [Nat.mod_eq_of_lt (by omega)]

theorem entries_lt {m : Memory} (hm : m.Sane) {total : Nat} (h : ¬ m.limit < total * m.entry) : total < 2 ^ 60 := by
  obtain ⟨h1, h2⟩ := hm
  have h3 : total * 8 ≤ total * m.entry := Nat.mul_le_mul_left _ h1
  omega

theorem headRun_eq {a mh : Nat} (ha : a < 2 ^ 64) (h0 : 0 < mh) (h1 : mh < 2 ^ 64) :
    ∀ k, headRun a (wrap (a + mh)) k = wrap (a + k % mh)
  | 0 => by
    show a = wrap (a + 0 % mh)
    rw [Nat.zero_mod]
    exact (Nat.mod_eq_of_lt ha).symm
  | k + 1 => by
    unfold headRun headStep
    rw [headRun_eq ha h0 h1 k]
    have hr : k % mh < mh := Nat.mod_lt _ h0
    have hs : (k + 1) % mh = if k % mh + 1 = mh then 0 else k % mh + 1 := by
      rw [← Nat.mod_add_mod]
      split
      · next e => rw [e, Nat.mod_self]
      · exact Nat.mod_eq_of_lt (by omega)
    rw [hs]
    generalize k % mh = r at hr
    unfold wrap
    by_cases e : r + 1 = mh
    · rw [if_pos e, if_pos (by omega)]
      omega
    · rw [if_neg e, if_neg (by omega)]
      omega

theorem fillStarts_get {mh size n : Nat} {l : List Nat} (h : fillStarts mh size n = some l) :
    l.length = n + 1 ∧ ∀ i, i ≤ n → l[i]? = some (wrap (i * mh)) := by
  unfold fillStarts at h
  split at h
  · obtain rfl := Option.some.inj h
    refine ⟨by simp, ?_⟩
    intro i hi
    simp [List.getElem?_map, List.getElem?_range (show i < n + 1 by omega)]
  · cases h

/-- Where the heaps of a substream go, in the arithmetic of the machine. -/
theorem headAfter_eq {mh size n : Nat} {l : List Nat} (h : fillStarts mh size n = some l) (h0 : 0 < mh) (h1 : mh < 2 ^ 64)
    {i : Nat} (hi : i < n) (k : Nat) : headAfter l i k = some (wrap (wrap (i * mh) + k % mh)) := by
  obtain ⟨_, hg⟩ := fillStarts_get h
  unfold headAfter
  rw [hg i (by omega), hg (i + 1) (by omega)]
  have hb : wrap ((i + 1) * mh) = wrap (wrap (i * mh) + mh) := by
    unfold wrap
    rw [Nat.succ_mul]
    omega
  rw [hb]
  show some _ = _
  rw [headRun_eq (show wrap (i * mh) < 2 ^ 64 from Nat.mod_lt _ (by omega)) h0 h1 k]

/-- What making a stream gives if it gives anything. -/
theorem construct_tables {m : Memory} (hm : m.Sane) {mh ss e b s : Nat} {l : List Nat}
    (h : construct m mh ss = .tables e b s l) :
    e = wrap (mh * ss) ∧ e < 2 ^ 60 ∧ b = computeBucketCount e ∧ s = computeBucketShift b ∧
      fillStarts mh (wrap (ss + 1)) ss = some l := by
  unfold construct at h
  simp only at h
  split at h
  · cases h
  · next h1 =>
    have hlt := entries_lt hm h1
    rw [bucketCount_eq _ (by omega)] at h
    simp only at h
    split at h
    · cases h
    · split at h
      · cases h
      · split at h
        · cases h
        · next l' hl =>
          simp only [Outcome.tables.injEq] at h
          obtain ⟨rfl, rfl, rfl, rfl⟩ := h
          exact ⟨rfl, hlt, rfl, rfl, hl⟩

end Spead2.Build
