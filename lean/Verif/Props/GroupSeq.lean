import Verif.Spec.GroupSeq

/-!
# C112: a chunk stream group is a Python sequence
-/

namespace Spead2.GroupSeq

/-- **C112.** `group[index]` is the stream at that index, counted from the end if it is negative; everything else raises. -/
theorem C112_index {α : Type} (xs : List α) (hl : xs.length < 9223372036854775808) (index : Int) :
    (∃ a, getItem xs index = .value a ∧ ((0 ≤ index ∧ xs[index.toNat]? = some a) ∨ (index < 0 ∧ 0 ≤ index + xs.length ∧ xs[(index + xs.length).toNat]? = some a))) ∨
    (getItem xs index = .raises ∧ ((xs.length : Int) ≤ index ∨ index < -(xs.length : Int))) := by
  have hget : ∀ k : Nat, k < xs.length → ∃ a, xs[k]? = some a := fun k hk => ⟨xs[k], List.getElem?_eq_getElem hk⟩
  unfold getItem
  by_cases hr : index < -9223372036854775808 ∨ 9223372036854775808 ≤ index
  · rw [if_pos hr]
    exact Or.inr ⟨rfl, by omega⟩
  · rw [if_neg hr]
    by_cases hneg : index < 0
    · have hs : toS ((toU index + xs.length) % 18446744073709551616) = index + xs.length := by
        unfold toU toS
        split <;> omega
      simp only [if_pos hneg, hs]
      by_cases h0 : 0 ≤ index + xs.length
      · have hu : toU (index + xs.length) = (index + xs.length).toNat := by unfold toU; omega
        have hlt : (index + xs.length).toNat < xs.length := by omega
        obtain ⟨a, ha⟩ := hget _ hlt
        rw [hu, if_pos ⟨h0, hlt⟩, ha]
        exact Or.inl ⟨a, rfl, Or.inr ⟨hneg, h0, rfl⟩⟩
      · rw [if_neg (fun h => h0 h.1)]
        exact Or.inr ⟨rfl, Or.inr (by omega)⟩
    · simp only [if_neg hneg]
      have hu : toU index = index.toNat := by unfold toU; omega
      rw [hu]
      by_cases hlt : index.toNat < xs.length
      · obtain ⟨a, ha⟩ := hget _ hlt
        rw [if_pos ⟨by omega, hlt⟩, ha]
        exact Or.inl ⟨a, rfl, Or.inl ⟨by omega, rfl⟩⟩
      · rw [if_neg (fun h => hlt h.2)]
        exact Or.inr ⟨rfl, Or.inl (by omega)⟩

/-- The loop visits the indices in steps, whatever the sign of the step. -/
theorem loop_steps {α : Type} (xs : List α) (hl : xs.length < 9223372036854775808) (k : Int) (n : Nat) : ∀ (i : Int), (∀ m : Nat, m < n → 0 ≤ i + m * k ∧ i + m * k < xs.length) →
    ∃ out, loop xs (toU i) (toU k) n = some out ∧ out.length = n ∧ ∀ m : Nat, m < n → out[m]? = xs[(i + m * k).toNat]? := by
  induction n with
  | zero => intro i _; exact ⟨[], rfl, rfl, fun m hm => absurd hm (Nat.not_lt_zero _)⟩
  | succ n ih =>
    intro i h
    have h0 := h 0 (Nat.succ_pos _)
    simp only [Int.natCast_zero, Int.zero_mul, Int.add_zero] at h0
    have hu : toU i = i.toNat := by unfold toU; omega
    have hlt : i.toNat < xs.length := by omega
    have hnext : (toU i + toU k) % 18446744073709551616 = toU (i + k) := by unfold toU; omega
    have hstep : ∀ m : Nat, i + k + m * k = i + (m + 1 : Nat) * k := by
      intro m
      rw [Int.natCast_add, Int.add_mul]
      simp only [Int.natCast_one, Int.one_mul]
      omega
    obtain ⟨out, h1, h2, h3⟩ := ih (i + k) (fun m hm => by rw [hstep m]; exact h (m + 1) (Nat.succ_lt_succ hm))
    refine ⟨xs[i.toNat] :: out, ?_, by simp [h2], ?_⟩
    · rw [loop, hnext, h1, hu, List.getElem?_eq_getElem hlt]
      rfl
    · intro m hm
      cases m with
      | zero => simp [List.getElem?_eq_getElem hlt]
      | succ m =>
        rw [List.getElem?_cons_succ, h3 m (Nat.lt_of_succ_lt_succ hm), hstep m]

/-- The number of steps is right. -/
theorem count_steps (len i j k : Int) (hk : k ≠ 0) (hi : if 0 < k then 0 ≤ i ∧ i ≤ len else -1 ≤ i ∧ i ≤ len - 1) (hj : if 0 < k then 0 ≤ j ∧ j ≤ len else -1 ≤ j ∧ j ≤ len - 1) :
    (∀ m : Nat, m < (count i j k).toNat → Before k (i + m * k) j ∧ 0 ≤ i + m * k ∧ i + m * k < len) ∧ ¬ Before k (i + (count i j k).toNat * k) j := by
  unfold count Before
  by_cases hp : 0 < k
  · rw [if_pos hp] at hi hj
    simp only [if_pos hp, if_neg (show ¬ k < 0 by omega)]
    by_cases hij : i < j
    · rw [if_pos hij]
      have hq := Int.mul_ediv_add_emod (j - i - 1) k
      have hr0 := Int.emod_nonneg (j - i - 1) hk
      have hr1 := Int.emod_lt_of_pos (j - i - 1) hp
      have hq0 : 0 ≤ (j - i - 1) / k := Int.ediv_nonneg (by omega) (by omega)
      generalize (j - i - 1) / k = q at *
      generalize (j - i - 1) % k = r at *
      constructor
      · intro m hm
        have hm' : (m : Int) ≤ q := by omega
        have h1 : (m : Int) * k ≤ q * k := Int.mul_le_mul_of_nonneg_right hm' (by omega)
        have h2 : 0 ≤ (m : Int) * k := Int.mul_nonneg (by omega) (by omega)
        rw [Int.mul_comm k q] at hq
        omega
      · have : ((q + 1).toNat : Int) = q + 1 := by omega
        rw [this, Int.add_mul, Int.mul_comm q k]
        omega
    · rw [if_neg hij]
      constructor
      · intro m hm; simp at hm
      · simp; omega
  · rw [if_neg hp] at hi hj
    have hn : k < 0 := by omega
    simp only [if_neg hp, if_pos hn]
    by_cases hij : j < i
    · rw [if_pos hij]
      have hq := Int.mul_ediv_add_emod (i - j - 1) (-k)
      have hr0 := Int.emod_nonneg (i - j - 1) (show -k ≠ 0 by omega)
      have hr1 := Int.emod_lt_of_pos (i - j - 1) (show 0 < -k by omega)
      have hq0 : 0 ≤ (i - j - 1) / (-k) := Int.ediv_nonneg (by omega) (by omega)
      generalize (i - j - 1) / (-k) = q at *
      generalize (i - j - 1) % (-k) = r at *
      rw [Int.neg_mul] at hq
      constructor
      · intro m hm
        have hm' : (m : Int) ≤ q := by omega
        have h1 : (m : Int) * (-k) ≤ q * (-k) := Int.mul_le_mul_of_nonneg_right hm' (by omega)
        have h2 : 0 ≤ (m : Int) * (-k) := Int.mul_nonneg (by omega) (by omega)
        rw [Int.mul_comm k q] at hq
        rw [Int.mul_neg] at h1 h2
        rw [Int.mul_neg] at h1
        omega
      · have : ((q + 1).toNat : Int) = q + 1 := by omega
        rw [this, Int.add_mul, Int.mul_comm q k]
        omega
    · rw [if_neg hij]
      constructor
      · intro m hm; simp at hm
      · simp; omega

/-- Limiting a step changes nothing, as the sequence is shorter. -/
theorem steps_limit {α : Type} (xs : List α) (i j k k' : Int) (out : List α) (hk : (0 < k ∧ (xs.length : Int) ≤ k ∧ k ≤ k') ∨ (k < 0 ∧ k ≤ -(xs.length : Int) ∧ k' ≤ k))
    (hi : if 0 < k then 0 ≤ i ∧ i ≤ xs.length else -1 ≤ i ∧ i ≤ (xs.length : Int) - 1) (hj : if 0 < k then 0 ≤ j ∧ j ≤ xs.length else -1 ≤ j ∧ j ≤ (xs.length : Int) - 1)
    (h : Steps xs i j k out) : Steps xs i j k' out := by
  obtain ⟨h1, h2⟩ := h
  have hlen : out.length ≤ 1 := by
    rcases Nat.lt_or_ge 1 out.length with hx | hx
    · have a0 := h1 0 (by omega)
      have a1 := h1 1 hx
      simp only [Int.natCast_zero, Int.zero_mul, Int.add_zero, Int.natCast_one, Int.one_mul] at a0 a1
      omega
    · exact hx
  have hb : ∀ x, Before k x j ↔ Before k' x j := by
    intro x
    unfold Before
    rcases hk with hk | hk
    · rw [if_pos hk.1, if_pos (by omega)]
    · rw [if_neg (by omega), if_neg (by omega)]
  refine ⟨?_, ?_⟩
  · intro m hm
    have hm0 : m = 0 := by omega
    subst hm0
    have := h1 0 hm
    simp only [Int.natCast_zero, Int.zero_mul, Int.add_zero] at this ⊢
    rw [← hb]; exact this
  · rw [← hb]
    rcases Nat.eq_zero_or_pos out.length with h0 | h0
    · rw [h0] at h2 ⊢
      simpa using h2
    · have ho : out.length = 1 := by omega
      rw [ho] at h2 ⊢
      have a0 := h1 0 h0
      simp only [Int.natCast_zero, Int.zero_mul, Int.add_zero, Int.natCast_one, Int.one_mul] at a0 h2 ⊢
      unfold Before at *
      rcases hk with hk | hk
      · rw [if_pos hk.1] at *; omega
      · rw [if_neg (show ¬ 0 < k by omega)] at *; omega

/-- The step after it was limited to `Py_ssize_t`. -/
def limit (k : Int) : Int := if clamp k < -9223372036854775807 then -9223372036854775807 else clamp k

theorem limit_cases (k : Int) (len : Nat) (hl : len < 9223372036854775808) : limit k = k ∨ (0 < limit k ∧ (len : Int) ≤ limit k ∧ limit k ≤ k) ∨ (limit k < 0 ∧ limit k ≤ -(len : Int) ∧ k ≤ limit k) := by
  unfold limit clamp
  repeat' split
  all_goals omega

theorem limit_sign (k : Int) : (limit k = 0 ↔ k = 0) ∧ (limit k < 0 ↔ k < 0) ∧ (0 < limit k ↔ 0 < k) := by
  unfold limit clamp
  refine ⟨?_, ?_, ?_⟩ <;> (repeat' split) <;> omega

theorem adjust_bound (len : Nat) (hl : len < 9223372036854775808) (k k' : Int) (hs : 0 < k' ↔ 0 < k) (hk : k' ≠ 0) (om x : Int) : adjust len k' (clamp x) = bound len k om (some x) := by
  unfold adjust bound clamp
  by_cases hp : 0 < k
  · have := hs.mpr hp
    simp only [if_pos hp, if_neg (show ¬ k' < 0 by omega)]
    repeat' split
    all_goals omega
  · have : k' < 0 := by have := mt hs.mp hp; omega
    simp only [if_neg hp, if_pos this]
    repeat' split
    all_goals omega

theorem bound_range (len : Nat) (k om : Int) (hom : if 0 < k then 0 ≤ om ∧ om ≤ len else -1 ≤ om ∧ om ≤ (len : Int) - 1) (x : Option Int) :
    if 0 < k then 0 ≤ bound len k om x ∧ bound len k om x ≤ len else -1 ≤ bound len k om x ∧ bound len k om x ≤ (len : Int) - 1 := by
  cases x with
  | none => exact hom
  | some x =>
    unfold bound
    by_cases hp : 0 < k
    · simp only [if_pos hp]; omega
    · simp only [if_neg hp]; omega

/-- **C112.** `group[start:stop:step]` is what Python gives for a list of the streams, for all integers and None; a step of 0 raises, and no stream is used that does not exist. -/
theorem C112_slice {α : Type} (xs : List α) (hl : xs.length < 9223372036854775808) (s : Slice) :
    (s.step = some 0 ∧ getSlice xs s = .raises) ∨ (s.step ≠ some 0 ∧ ∃ out, getSlice xs s = .value out ∧ IsSlice xs s out) := by
  have hunp : unpack s = if limit (s.step.getD 1) = 0 then none else some
      ((match s.start with | none => if limit (s.step.getD 1) < 0 then 9223372036854775807 else 0 | some x => clamp x),
       (match s.stop with | none => if limit (s.step.getD 1) < 0 then -9223372036854775808 else 9223372036854775807 | some x => clamp x), limit (s.step.getD 1)) := by
    unfold unpack
    cases s.step with
    | none => rfl
    | some k => rfl
  obtain ⟨z1, z2, z3⟩ := limit_sign (s.step.getD 1)
  by_cases hz : s.step = some 0
  · refine Or.inl ⟨hz, ?_⟩
    unfold getSlice
    rw [hunp, hz]
    rfl
  · refine Or.inr ⟨hz, ?_⟩
    have hk0 : s.step.getD 1 ≠ 0 := by
      cases hs : s.step with
      | none => simp
      | some k => intro h; simp only [Option.getD_some] at h; rw [hs, h] at hz; exact hz rfl
    generalize hk : s.step.getD 1 = k at *
    have hk1 : limit k ≠ 0 := fun h => hk0 (z1.mp h)
    rw [if_neg hk1] at hunp
    have hi : ∀ (om : Int), om = (if 0 < k then 0 else (xs.length : Int) - 1) →
        adjust xs.length (limit k) (match s.start with | none => if limit k < 0 then 9223372036854775807 else 0 | some x => clamp x) = bound xs.length k om s.start := by
      intro om hom
      cases s.start with
      | some x => exact adjust_bound xs.length hl k (limit k) z3 hk1 om x
      | none =>
        simp only [bound, hom, adjust]
        by_cases hp : 0 < k
        · simp only [if_pos hp, if_neg (show ¬ limit k < 0 by omega)]
          repeat' split
          all_goals omega
        · simp only [if_neg hp, if_pos (show limit k < 0 by omega)]
          repeat' split
          all_goals omega
    have hj : ∀ (om : Int), om = (if 0 < k then (xs.length : Int) else -1) →
        adjust xs.length (limit k) (match s.stop with | none => if limit k < 0 then -9223372036854775808 else 9223372036854775807 | some x => clamp x) = bound xs.length k om s.stop := by
      intro om hom
      cases s.stop with
      | some x => exact adjust_bound xs.length hl k (limit k) z3 hk1 om x
      | none =>
        simp only [bound, hom, adjust]
        by_cases hp : 0 < k
        · simp only [if_pos hp, if_neg (show ¬ limit k < 0 by omega)]
          repeat' split
          all_goals omega
        · simp only [if_neg hp, if_pos (show limit k < 0 by omega)]
          repeat' split
          all_goals omega
    have hi := hi _ rfl
    have hj := hj _ rfl
    have ri := bound_range xs.length k (if 0 < k then 0 else (xs.length : Int) - 1) (by split <;> omega) s.start
    have rj := bound_range xs.length k (if 0 < k then (xs.length : Int) else -1) (by split <;> omega) s.stop
    unfold getSlice IsSlice
    rw [hunp]
    simp only [hk, hi, hj]
    generalize bound xs.length k (if 0 < k then 0 else (xs.length : Int) - 1) s.start = i at *
    generalize bound xs.length k (if 0 < k then (xs.length : Int) else -1) s.stop = j at *
    have ri' : if 0 < limit k then 0 ≤ i ∧ i ≤ xs.length else -1 ≤ i ∧ i ≤ (xs.length : Int) - 1 := by simp only [z3]; exact ri
    have rj' : if 0 < limit k then 0 ≤ j ∧ j ≤ xs.length else -1 ≤ j ∧ j ≤ (xs.length : Int) - 1 := by simp only [z3]; exact rj
    obtain ⟨c1, c2⟩ := count_steps xs.length i j (limit k) hk1 ri' rj'
    obtain ⟨out, l1, l2, l3⟩ := loop_steps xs hl (limit k) (count i j (limit k)).toNat i (fun m hm => (c1 m hm).2)
    rw [l1]
    have hst : Steps xs i j (limit k) out := by
      refine ⟨?_, by rw [l2]; exact c2⟩
      intro m hm
      rw [l2] at hm
      obtain ⟨d1, d2, d3⟩ := c1 m hm
      exact ⟨d1, d2, d3, l3 m hm⟩
    refine ⟨out, rfl, ?_⟩
    rcases limit_cases k xs.length hl with he | he
    · rw [he] at hst; exact hst
    · exact steps_limit xs i j (limit k) k out he ri' rj' hst

/-- **C112.** A slice is determined by the rule. -/
theorem C112_unique {α : Type} (xs : List α) (s : Slice) (a b : List α) (ha : IsSlice xs s a) (hb : IsSlice xs s b) : a = b := by
  obtain ⟨a1, a2⟩ := ha
  obtain ⟨b1, b2⟩ := hb
  have hlen : a.length = b.length := by
    rcases Nat.lt_trichotomy a.length b.length with h | h | h
    · exact absurd (b1 _ h).1 a2
    · exact h
    · exact absurd (a1 _ h).1 b2
  apply List.ext_getElem? 
  intro m
  rcases Nat.lt_or_ge m a.length with h | h
  · rw [(a1 m h).2.2.2, (b1 m (hlen ▸ h)).2.2.2]
  · rw [List.getElem?_eq_none_iff.mpr h, List.getElem?_eq_none_iff.mpr (hlen ▸ h)]

/-- **C112.** Iterating over the group gives all its streams in order, and ends. -/
theorem C112_iter {α : Type} (xs : List α) (hl : xs.length < 9223372036854775808) (n : Nat) (hn : xs.length ≤ n) : iter xs 0 n = xs := by
  suffices h : ∀ (n i : Nat), xs.length ≤ i + n → iter xs i n = xs.drop i by
    have := h n 0 (by omega)
    simpa using this
  intro n
  induction n with
  | zero => intro i hi; rw [iter, List.drop_eq_nil_of_le (by omega)]
  | succ n ih =>
    intro i hi
    rw [iter]
    rcases C112_index xs hl i with ⟨a, h1, h2⟩ | ⟨h1, h2⟩
    · rw [h1]
      have ha : xs[i]? = some a := by
        rcases h2 with ⟨_, h2⟩ | ⟨h2, _⟩
        · simpa using h2
        · omega
      obtain ⟨hlt, he⟩ := List.getElem?_eq_some_iff.mp ha
      simp only [ih (i + 1) (by omega)]
      rw [List.drop_eq_getElem_cons hlt, he]
    · rw [h1]
      simp only
      rw [List.drop_eq_nil_of_le (by omega)]

/-! ## Concrete cases -/

example : getItem [10, 11, 12] (-1) = .value 12 ∧ getItem [10, 11, 12] 2 = .value 12 ∧ getItem [10, 11, 12] 3 = .raises ∧ getItem [10, 11, 12] (-4) = .raises := by decide +kernel

example : getSlice [10, 11, 12, 13, 14] ⟨none, none, some (-2)⟩ = .value [14, 12, 10] := by decide +kernel
example : getSlice [10, 11, 12, 13, 14] ⟨some (-100), some (10 ^ 30), some 3⟩ = .value [10, 13] := by decide +kernel
example : getSlice [10, 11, 12, 13, 14] ⟨some 3, some 0, some (-(10 ^ 30))⟩ = .value [13] := by decide +kernel

end Spead2.GroupSeq
