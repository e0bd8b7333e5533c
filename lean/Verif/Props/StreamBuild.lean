import Verif.Lemmas.StreamBuild

/-!
# C84: a stream that was made has room for the heaps it was configured for
-/

namespace Spead2.Build

/-- **C84 (full statement).** Making a stream with any configuration that the setters accept fails with an exception, or its
tables fit. -/
def C84_statement : Prop :=
  ∀ (m : Memory), m.Sane → ∀ maxHeaps substreams : Nat, 0 < maxHeaps → maxHeaps < 2 ^ 64 → 0 < substreams →
    substreams < 2 ^ 64 → Good m maxHeaps substreams

/-- A machine with entries of 100 bytes and a terabyte of memory. -/
def exMem : Memory := ⟨100, 2 ^ 40⟩

theorem exMem_sane : exMem.Sane := by unfold Memory.Sane exMem; decide

/-- **C84 is false**: with 2^63 heaps in each of two substreams the number of entries wraps to 0. -/
theorem C84_violated : ¬ C84_statement := by
  intro h
  have h1 := h exMem exMem_sane (2 ^ 63) 2 (by decide) (by decide) (by decide) (by decide)
  have h2 : construct exMem (2 ^ 63) 2 = .tables 0 16 60 [0, 2 ^ 63, 0] := by decide +kernel
  unfold Good at h1
  rw [h2] at h1
  have h3 : 2 * 2 ^ 63 ≤ 0 := h1.inside
  omega

/-- Another case: the array of substreams has no elements at all, and the constructor itself writes outside. -/
theorem C84_undefined : construct exMem (2 ^ 64 - 1) (2 ^ 64 - 1) = .undefined := by decide +kernel

/-- **C84 (endless loops).** Making a stream always ends. -/
theorem C84_ends (m : Memory) (hm : m.Sane) (maxHeaps substreams : Nat) : construct m maxHeaps substreams ≠ .hangs := by
  unfold construct
  simp only
  split
  · simp
  · next h1 =>
    rw [bucketCount_eq _ (Nat.le_of_lt (entries_lt hm h1))]
    simp only
    split
    · simp
    · split
      · simp
      · split <;> simp

/-- **C84 (partial).** If the heaps can be counted with 64 bits, then making a stream fails exactly if one of the three tables
does not fit into memory; otherwise the tables fit, and they are those of the model of the stream (C11 and others).  Missing:
configurations with 2^64 heaps or more, for which the statement is false (`C84_violated`, `C84_overrun`). -/
theorem C84_partial (m : Memory) (hm : m.Sane) (maxHeaps substreams : Nat) (h0 : 0 < maxHeaps) (h1 : 0 < substreams)
    (h : maxHeaps * substreams < 2 ^ 64) :
    Good m maxHeaps substreams ∧
    (construct m maxHeaps substreams = .throws ↔
      m.limit < maxHeaps * substreams * m.entry ∨ m.limit < computeBucketCount (maxHeaps * substreams) * 8 ∨
        m.limit < (substreams + 1) * 16) ∧
    ∀ e b s l, construct m maxHeaps substreams = .tables e b s l →
      ∀ cfg : StreamConfig, cfg.maxHeaps = maxHeaps → cfg.substreams = substreams →
        (Stream.new cfg).slots.length = e ∧ (Stream.new cfg).buckets.length = b ∧ (Stream.new cfg).heads = l ∧
          ∀ cnt, cfg.bucketOf cnt = (cnt * 11400714819323198485 % 2 ^ 64) >>> s := by
  have hmh : maxHeaps < 2 ^ 64 := Nat.lt_of_le_of_lt (Nat.le_mul_of_pos_right _ h1) h
  have hss : substreams < 2 ^ 64 := Nat.lt_of_le_of_lt (Nat.le_mul_of_pos_left _ h0) h
  have hw : wrap (maxHeaps * substreams) = maxHeaps * substreams := Nat.mod_eq_of_lt h
  have hsm : ∀ i, i < substreams → i * maxHeaps + maxHeaps ≤ maxHeaps * substreams := fun i hi => by
    rw [← Nat.succ_mul, Nat.mul_comm maxHeaps]; exact Nat.mul_le_mul_right _ hi
  -- the tables, if there are any
  have htab : ∀ e b s l, construct m maxHeaps substreams = .tables e b s l →
      e = maxHeaps * substreams ∧ b = computeBucketCount (maxHeaps * substreams) ∧ s = computeBucketShift b ∧
        l = (List.range (substreams + 1)).map (· * maxHeaps) ∧ Fits maxHeaps substreams e b s l := by
    intro e b s l he
    obtain ⟨rfl, hlt, rfl, rfl, hl⟩ := construct_tables hm he
    rw [hw] at hlt ⊢
    refine ⟨rfl, rfl, rfl, ?_, (fillStarts_get hl).1, ?_, Nat.le_of_eq (Nat.mul_comm _ _), ?_⟩
    · unfold fillStarts at hl
      split at hl
      · obtain rfl := Option.some.inj hl
        refine List.map_congr_left fun i hi => ?_
        have hi' : i ≤ substreams := by have := List.mem_range.mp hi; omega
        refine Nat.mod_eq_of_lt (Nat.lt_of_le_of_lt ?_ h)
        rw [Nat.mul_comm maxHeaps]
        exact Nat.mul_le_mul_right _ hi'
      · cases hl
    · intro i k hi
      rw [headAfter_eq hl h0 hmh hi k]
      have h2 := hsm i hi
      have h3 : k % maxHeaps < maxHeaps := Nat.mod_lt _ h0
      unfold wrap
      rw [Nat.mod_eq_of_lt (show i * maxHeaps < 2 ^ 64 by omega), Nat.mod_eq_of_lt (by omega)]
    · intro cnt
      exact bucketOf_lt { maxHeaps := maxHeaps, substreams := substreams } cnt
  have hnu : construct m maxHeaps substreams ≠ .undefined ∧ (construct m maxHeaps substreams = .throws ↔
      m.limit < maxHeaps * substreams * m.entry ∨ m.limit < computeBucketCount (maxHeaps * substreams) * 8 ∨
        m.limit < (substreams + 1) * 16) := by
    unfold construct
    simp only
    rw [hw]
    by_cases hc1 : m.limit < maxHeaps * substreams * m.entry
    · rw [if_pos hc1]; simp [hc1]
    · have hlt := entries_lt hm hc1
      have hss' : substreams < 2 ^ 60 := Nat.lt_of_le_of_lt (Nat.le_mul_of_pos_left _ h0) hlt
      have hws : wrap (substreams + 1) = substreams + 1 := Nat.mod_eq_of_lt (by omega)
      rw [if_neg hc1, bucketCount_eq _ (Nat.le_of_lt hlt)]
      simp only [hws]
      by_cases hc2 : m.limit < computeBucketCount (maxHeaps * substreams) * 8
      · rw [if_pos hc2]; simp [hc2]
      · by_cases hc3 : m.limit < (substreams + 1) * 16
        · rw [if_neg hc2, if_pos hc3]; simp [hc3]
        · rw [if_neg hc2, if_neg hc3]
          unfold fillStarts
          rw [if_pos (by omega)]
          simp [hc1, hc2, hc3]
  refine ⟨?_, hnu.2, ?_⟩
  · unfold Good
    cases he : construct m maxHeaps substreams with
    | throws => trivial
    | hangs => exact C84_ends m hm _ _ he
    | undefined => exact hnu.1 he
    | tables e b s l => exact (htab e b s l he).2.2.2.2
  · rintro e b s l he ⟨mh, ss, _, _, _⟩ rfl rfl
    obtain ⟨rfl, rfl, rfl, rfl, _⟩ := htab e b s l he
    refine ⟨?_, ?_, rfl, fun cnt => rfl⟩
    · exact List.length_replicate ..
    · exact List.length_replicate ..

/-- The defaults on a machine with a terabyte, and a configuration that does not fit. -/
example : construct exMem 4 1 = .tables 4 16 60 [0, 4] ∧ construct exMem 3 5 = .tables 15 64 58 [0, 3, 6, 9, 12, 15] ∧
    construct exMem (2 ^ 40) 1 = .throws := by decide +kernel

/-- **C84 (beyond).** With 2^64 heaps or more, if a stream is made at all, then there is a substream and a number of heaps, at
most as many as it was configured for, of which the last is put outside the storage.  So the tables never fit. -/
theorem C84_overrun (m : Memory) (hm : m.Sane) (maxHeaps substreams : Nat) (h0 : 0 < maxHeaps) (h1 : maxHeaps < 2 ^ 64)
    (h : 2 ^ 64 ≤ maxHeaps * substreams) (e b s : Nat) (l : List Nat)
    (hc : construct m maxHeaps substreams = .tables e b s l) :
    ∃ i k x, i < substreams ∧ 0 < k ∧ k ≤ maxHeaps ∧ headAfter l i k = some x ∧ e ≤ x := by
  obtain ⟨_, hlt, _, _, hl⟩ := construct_tables hm hc
  have hss : 0 < substreams := by
    rcases Nat.eq_zero_or_pos substreams with rfl | h'
    · omega
    · exact h'
  by_cases hbig : 2 ^ 60 ≤ maxHeaps
  · refine ⟨0, 2 ^ 60 - 1, 2 ^ 60 - 1, hss, by omega, by omega, ?_, by omega⟩
    rw [headAfter_eq hl h0 h1 hss, Nat.mod_eq_of_lt (show 2 ^ 60 - 1 < maxHeaps by omega), Nat.zero_mul]
    rfl
  · have hd := Nat.div_add_mod (2 ^ 60) maxHeaps
    have hr : 2 ^ 60 % maxHeaps < maxHeaps := Nat.mod_lt _ h0
    have hi : (2 ^ 60 / maxHeaps + 1) * maxHeaps = maxHeaps * (2 ^ 60 / maxHeaps) + maxHeaps := by
      rw [Nat.add_mul, Nat.one_mul, Nat.mul_comm]
    have hsub : 2 ^ 60 / maxHeaps + 1 < substreams := by
      refine Nat.lt_of_mul_lt_mul_left (a := maxHeaps) ?_
      rw [Nat.mul_comm maxHeaps (_ + 1), hi]
      omega
    refine ⟨2 ^ 60 / maxHeaps + 1, maxHeaps, maxHeaps * (2 ^ 60 / maxHeaps) + maxHeaps, hsub, h0, Nat.le_refl _, ?_, by omega⟩
    rw [headAfter_eq hl h0 h1 hsub, Nat.mod_self, hi]
    unfold wrap
    congr 1
    omega

/-- **C84 (exactly).** So the tables of a stream fit exactly if the heaps can be counted with 64 bits. -/
theorem C84_exact (m : Memory) (hm : m.Sane) (maxHeaps substreams : Nat) (h0 : 0 < maxHeaps)
    (h2 : 0 < substreams) :
    Good m maxHeaps substreams ↔ construct m maxHeaps substreams = .throws ∨ maxHeaps * substreams < 2 ^ 64 := by
  constructor
  · intro hg
    by_cases hlt : maxHeaps * substreams < 2 ^ 64
    · exact Or.inr hlt
    · refine Or.inl ?_
      unfold Good at hg
      cases hc : construct m maxHeaps substreams with
      | throws => rfl
      | hangs => rw [hc] at hg; exact hg.elim
      | undefined => rw [hc] at hg; exact hg.elim
      | tables e b s l =>
        rw [hc] at hg
        have hf : Fits maxHeaps substreams e b s l := hg
        obtain ⟨_, hlt', _⟩ := construct_tables hm hc
        have := hf.inside
        rw [Nat.mul_comm] at this
        omega
  · rintro (ht | hlt)
    · unfold Good; rw [ht]; trivial
    · exact (C84_partial m hm maxHeaps substreams h0 h2 hlt).1

/-- For example the first heap of each of the two substreams, in the case above: the storage has no entries. -/
example : construct exMem (2 ^ 63) 2 = .tables 0 16 60 [0, 2 ^ 63, 0] ∧ headAfter [0, 2 ^ 63, 0] 0 1 = some 1 ∧
    headAfter [0, 2 ^ 63, 0] 1 1 = some (2 ^ 63 + 1) := by decide +kernel

end Spead2.Build
