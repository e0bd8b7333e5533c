import Verif.Spec.LiveHeap

namespace Spead2
open Spec

theorem rangesLength_append (a b : List (Nat × Nat)) : rangesLength (a ++ b) = rangesLength a + rangesLength b := by
  simp [rangesLength]

@[simp] theorem rangesLength_cons (r : Nat × Nat) (b : List (Nat × Nat)) :
    rangesLength (r :: b) = (r.2 - r.1) + rangesLength b := by
  simp [rangesLength]

@[simp] theorem rangesLength_nil : rangesLength [] = 0 := rfl

theorem inRanges_append (a b : List (Nat × Nat)) (x : Nat) : InRanges (a ++ b) x ↔ InRanges a x ∨ InRanges b x := by
  simp [InRanges, or_and_right, exists_or]

@[simp] theorem inRanges_nil (x : Nat) : InRanges [] x ↔ False := by simp [InRanges]

@[simp] theorem inRanges_cons (r : Nat × Nat) (b : List (Nat × Nat)) (x : Nat) :
    InRanges (r :: b) x ↔ (r.1 ≤ x ∧ x < r.2) ∨ InRanges b x := by simp [InRanges]

/-- Splitting a separated list at `first` the way `upper_bound` does. -/
theorem split_ranges (m : List (Nat × Nat)) (hs : Separated m) (first : Nat) :
    (∀ r ∈ m.takeWhile (fun r => r.1 ≤ first), r.1 ≤ first) ∧
    (∀ r ∈ m.dropWhile (fun r => r.1 ≤ first), first < r.1) ∧
    m = m.takeWhile (fun r => r.1 ≤ first) ++ m.dropWhile (fun r => r.1 ≤ first) := by
  refine ⟨?_, ?_, (List.takeWhile_append_dropWhile).symm⟩
  · intro r hr
    have := List.all_takeWhile (p := fun r : Nat × Nat => decide (r.1 ≤ first)) (l := m)
    rw [List.all_eq_true] at this
    simpa using this r hr
  · intro r hr
    have hsuf : (m.dropWhile (fun r => decide (r.1 ≤ first))).Pairwise (fun a b => a.2 < b.1) :=
      hs.1.sublist (List.dropWhile_sublist _)
    have hle : ∀ r ∈ m.dropWhile (fun r => decide (r.1 ≤ first)), r.1 ≤ r.2 :=
      fun r hr => hs.2 r ((List.dropWhile_sublist _).subset hr)
    generalize hd : m.dropWhile (fun r => decide (r.1 ≤ first)) = l at *
    cases l with
    | nil => simp at hr
    | cons x rest =>
      have hx : ¬ x.1 ≤ first := by
        have := List.head_dropWhile_not (p := fun r : Nat × Nat => decide (r.1 ≤ first)) (l := m) (by rw [hd]; simp)
        simpa [hd] using this
      rcases List.mem_cons.1 hr with rfl | hr
      · omega
      · have h1 := (List.pairwise_cons.1 hsuf).1 r hr
        have h2 := hle x (by simp)
        omega

theorem separated_append {a b : List (Nat × Nat)} :
    Separated (a ++ b) ↔ Separated a ∧ Separated b ∧ ∀ x ∈ a, ∀ y ∈ b, x.2 < y.1 := by
  unfold Separated
  rw [List.pairwise_append]
  constructor
  · rintro ⟨⟨h1, h2, h3⟩, h4⟩
    exact ⟨⟨h1, fun r hr => h4 r (by simp [hr])⟩, ⟨h2, fun r hr => h4 r (by simp [hr])⟩, h3⟩
  · rintro ⟨⟨h1, h4⟩, ⟨h2, h5⟩, h3⟩
    refine ⟨⟨h1, h2, h3⟩, ?_⟩
    intro r hr
    rcases List.mem_append.1 hr with hr | hr
    · exact h4 r hr
    · exact h5 r hr

theorem separated_cons {x : Nat × Nat} {b : List (Nat × Nat)} :
    Separated (x :: b) ↔ x.1 ≤ x.2 ∧ Separated b ∧ ∀ y ∈ b, x.2 < y.1 := by
  unfold Separated
  rw [List.pairwise_cons]
  simp only [List.mem_cons, forall_eq_or_imp]
  constructor
  · rintro ⟨⟨h1, h2⟩, h3, h4⟩; exact ⟨h3, ⟨h2, h4⟩, h1⟩
  · rintro ⟨h3, ⟨h2, h4⟩, h1⟩; exact ⟨⟨h1, h2⟩, h3, h4⟩

theorem separated_nil : Separated [] := ⟨List.Pairwise.nil, by simp⟩

/-- Inserting a successor of `pre` before `hi`, merging with the first element of `hi` if they touch. -/
theorem addRange_tail (pre hi : List (Nat × Nat)) (start first last : Nat) (hpre : Separated pre) (hhi : Separated hi)
    (hp : ∀ r ∈ pre, r.2 < start) (hsf : start ≤ first) (hfl : first ≤ last) (hh : ∀ r ∈ hi, first < r.1)
    (hph : ∀ x ∈ pre, ∀ y ∈ hi, x.2 < y.1)
    (hn : ∀ nx, hi.head? = some nx → last ≤ nx.1) :
    let m' := joinRange pre start last hi
    Separated m' ∧ (∀ x, InRanges m' x ↔ (InRanges pre x ∨ InRanges hi x) ∨ (start ≤ x ∧ x < last)) ∧
    rangesLength m' = rangesLength pre + rangesLength hi + (last - start) ∧ m' ≠ [] ∧
    (∀ r' ∈ m', r'.2 = last ∨ r' ∈ pre ∨ ∃ r ∈ hi, r.2 = r'.2) := by
  cases hi with
  | nil =>
    simp only [joinRange]
    refine ⟨?_, ?_, ?_, by simp, ?_⟩
    · rw [separated_append]
      refine ⟨hpre, separated_cons.2 ⟨by simp; omega, separated_nil, by simp⟩, ?_⟩
      intro x hx y hy
      simp at hy; subst hy
      exact hp x hx
    · intro x
      rw [inRanges_append, inRanges_cons]; simp
    · rw [rangesLength_append]; simp
    · intro r' hr'
      rcases List.mem_append.1 hr' with h | h
      · exact Or.inr (Or.inl h)
      · simp at h; subst h; exact Or.inl rfl
  | cons nx rest =>
    obtain ⟨hnx, hrest, hnr⟩ := separated_cons.1 hhi
    have hl : last ≤ nx.1 := hn nx rfl
    have hf : first < nx.1 := hh nx (by simp)
    simp only [joinRange]
    by_cases he : nx.1 = last
    · rw [if_pos he]
      refine ⟨?_, ?_, ?_, by simp, ?_⟩
      · rw [separated_append]
        refine ⟨hpre, separated_cons.2 ⟨by simp; omega, hrest, by simpa using hnr⟩, ?_⟩
        intro x hx y hy
        rcases List.mem_cons.1 hy with rfl | hy
        · exact hp x hx
        · exact hph x hx y (by simp [hy])
      · intro x
        rw [inRanges_append, inRanges_cons, inRanges_cons]
        constructor
        · rintro (h | ⟨h1, h2⟩ | h)
          · exact Or.inl (Or.inl h)
          · by_cases hx : x < last
            · exact Or.inr ⟨h1, hx⟩
            · exact Or.inl (Or.inr (Or.inl ⟨by omega, h2⟩))
          · exact Or.inl (Or.inr (Or.inr h))
        · rintro ((h | ⟨h1, h2⟩ | h) | ⟨h1, h2⟩)
          · exact Or.inl h
          · exact Or.inr (Or.inl ⟨by simp only; omega, h2⟩)
          · exact Or.inr (Or.inr h)
          · exact Or.inr (Or.inl ⟨h1, by simp only; omega⟩)
      · rw [rangesLength_append, rangesLength_cons, rangesLength_cons]
        simp only; omega
      · intro r' hr'
        rcases List.mem_append.1 hr' with h | h
        · exact Or.inr (Or.inl h)
        · rcases List.mem_cons.1 h with rfl | h
          · exact Or.inr (Or.inr ⟨nx, by simp, rfl⟩)
          · exact Or.inr (Or.inr ⟨r', by simp [h], rfl⟩)
    · rw [if_neg he]
      refine ⟨?_, ?_, ?_, by simp, ?_⟩
      · rw [separated_append]
        refine ⟨hpre, separated_cons.2 ⟨by simp only; omega, hhi, ?_⟩, ?_⟩
        · intro y hy
          rcases List.mem_cons.1 hy with rfl | hy
          · simp only; omega
          · have := hnr y hy; simp only; omega
        · intro x hx y hy
          rcases List.mem_cons.1 hy with rfl | hy
          · exact hp x hx
          · exact hph x hx y hy
      · intro x
        rw [inRanges_append, inRanges_cons]
        constructor
        · rintro (h | h | h)
          · exact Or.inl (Or.inl h)
          · exact Or.inr h
          · exact Or.inl (Or.inr h)
        · rintro ((h | h) | h)
          · exact Or.inl h
          · exact Or.inr (Or.inr h)
          · exact Or.inr (Or.inl h)
      · rw [rangesLength_append, rangesLength_cons]
        simp only; omega
      · intro r' hr'
        rcases List.mem_append.1 hr' with h | h
        · exact Or.inr (Or.inl h)
        · rcases List.mem_cons.1 h with rfl | h
          · exact Or.inl rfl
          · exact Or.inr (Or.inr ⟨r', h, rfl⟩)

theorem addRange_some (m m' : List (Nat × Nat)) (first last : Nat) (hs : Separated m) (hfl : first ≤ last)
    (h : addRange m first last = some m') :
    Separated m' ∧ (∀ x, InRanges m' x ↔ InRanges m x ∨ (first ≤ x ∧ x < last)) ∧
    (∀ x, first ≤ x → x < last → ¬ InRanges m x) ∧
    rangesLength m' = rangesLength m + (last - first) ∧ m' ≠ [] ∧
    (∀ r' ∈ m', r'.2 = last ∨ ∃ r ∈ m, r.2 = r'.2) := by
  obtain ⟨hlo, hhi, hm⟩ := split_ranges m hs first
  unfold addRange at h
  generalize m.takeWhile (fun r => decide (r.1 ≤ first)) = lo at *
  generalize m.dropWhile (fun r => decide (r.1 ≤ first)) = hi at *
  subst hm
  obtain ⟨slo, shi, sx⟩ := separated_append.1 hs
  simp only at h
  by_cases hn : (hi.head?.any fun nx => decide (nx.1 < last)) = true
  · rw [if_pos hn] at h; simp at h
  · rw [if_neg hn] at h
    have hn' : ∀ nx, hi.head? = some nx → last ≤ nx.1 := by
      intro nx hnx
      rw [hnx] at hn
      simp at hn
      omega
    have hhl : ∀ y ∈ hi, last ≤ y.1 := by
      intro y hy
      cases hi with
      | nil => simp at hy
      | cons nx rest =>
        have := hn' nx rfl
        obtain ⟨a, _, c⟩ := separated_cons.1 shi
        rcases List.mem_cons.1 hy with rfl | hy
        · exact this
        · have := c y hy; omega
    have disj_hi : ∀ x, first ≤ x → x < last → ¬ InRanges hi x := by
      rintro x h1 h2 ⟨r, hr, h3, h4⟩
      have := hhl r hr
      omega
    -- finishing once pre/start are known
    have fin : ∀ (pre : List (Nat × Nat)) (start : Nat), Separated pre → (∀ r ∈ pre, r.2 < start) → start ≤ first →
        (∀ x ∈ pre, ∀ y ∈ hi, x.2 < y.1) →
        (∀ x, InRanges lo x ↔ InRanges pre x ∨ (start ≤ x ∧ x < first)) →
        rangesLength lo = rangesLength pre + (first - start) → (∀ r ∈ pre, r ∈ lo) →
        some (joinRange pre start last hi) = some m' →
        Separated m' ∧ (∀ x, InRanges m' x ↔ InRanges (lo ++ hi) x ∨ (first ≤ x ∧ x < last)) ∧
        (∀ x, first ≤ x → x < last → ¬ InRanges (lo ++ hi) x) ∧
        rangesLength m' = rangesLength (lo ++ hi) + (last - first) ∧ m' ≠ [] ∧
        (∀ r' ∈ m', r'.2 = last ∨ ∃ r ∈ (lo ++ hi), r.2 = r'.2) := by
      intro pre start hpre hp hsf hph hcov hlen hsub hmm
      have key := addRange_tail pre hi start first last hpre shi hp hsf hfl hhi hph hn'
      have hm2 : m' = joinRange pre start last hi := (Option.some.inj hmm).symm
      rw [hm2]
      obtain ⟨k1, k2, k3, k4, k5⟩ := key
      refine ⟨k1, ?_, ?_, ?_, k4, ?_⟩
      · intro x
        rw [k2, inRanges_append, hcov]
        constructor
        · rintro ((h | h) | ⟨h1, h2⟩)
          · exact Or.inl (Or.inl (Or.inl h))
          · exact Or.inl (Or.inr h)
          · by_cases hx : x < first
            · exact Or.inl (Or.inl (Or.inr ⟨h1, hx⟩))
            · exact Or.inr ⟨by omega, h2⟩
        · rintro (((h | ⟨h1, h2⟩) | h) | ⟨h1, h2⟩)
          · exact Or.inl (Or.inl h)
          · exact Or.inr ⟨h1, by omega⟩
          · exact Or.inl (Or.inr h)
          · exact Or.inr ⟨by omega, h2⟩
      · intro x h1 h2 hc
        rw [inRanges_append, hcov] at hc
        rcases hc with (⟨r, hr, h3, h4⟩ | h) | h
        · have := hp r hr; omega
        · omega
        · exact disj_hi x h1 h2 h
      · rw [k3, rangesLength_append, hlen]; omega
      · intro r' hr'
        rcases k5 r' hr' with h | h | ⟨r, hr, h⟩
        · exact Or.inl h
        · exact Or.inr ⟨r', by simp [hsub r' h], rfl⟩
        · exact Or.inr ⟨r, by simp [hr], h⟩
    rcases List.eq_nil_or_concat lo with rfl | ⟨pre, prev, rfl⟩
    · simp only [List.getLast?_nil] at h
      exact fin [] first separated_nil (by simp) (Nat.le_refl _) (by simp) (by intro x; simp) (by simp) (by simp) h
    · rw [List.concat_eq_append] at *
      simp only [List.getLast?_append, List.getLast?_singleton, Option.some_or] at h
      obtain ⟨sp, sprev, spx⟩ := separated_append.1 slo
      have hprev : prev.1 ≤ prev.2 := (separated_cons.1 sprev).1
      by_cases c1 : prev.2 < first
      · rw [if_pos c1] at h
        refine fin (pre ++ [prev]) first slo ?_ (Nat.le_refl _) sx (by intro x; simp; omega) (by omega) (by simp) h
        intro r hr
        rcases List.mem_append.1 hr with hr | hr
        · have := spx r hr prev (by simp); omega
        · simp at hr; subst hr; exact c1
      · rw [if_neg c1] at h
        by_cases c2 : prev.2 = first
        · rw [if_pos c2, List.dropLast_concat] at h
          refine fin pre prev.1 sp ?_ (hlo prev (by simp)) ?_ ?_ ?_ (by intro r hr; simp [hr]) h
          · intro r hr; exact spx r hr prev (by simp)
          · intro x hx y hy; exact sx x (by simp [hx]) y hy
          · intro x; rw [inRanges_append]; simp [c2]
          · rw [rangesLength_append]; simp [c2]
        · rw [if_neg c2] at h; simp at h

theorem addRange_none (m : List (Nat × Nat)) (first last : Nat) (hs : Separated m) (hfl : first < last)
    (h : addRange m first last = none) : ∃ r ∈ m, r.1 < last ∧ first < r.2 := by
  obtain ⟨hlo, hhi, hm⟩ := split_ranges m hs first
  unfold addRange at h
  generalize m.takeWhile (fun r => decide (r.1 ≤ first)) = lo at *
  generalize m.dropWhile (fun r => decide (r.1 ≤ first)) = hi at *
  subst hm
  simp only at h
  by_cases hn : (hi.head?.any fun nx => decide (nx.1 < last)) = true
  · cases hi with
    | nil => simp at hn
    | cons nx rest =>
      simp at hn
      have h1 := hhi nx (by simp)
      have h2 := hs.2 nx (by simp)
      exact ⟨nx, by simp, hn, by omega⟩
  · rw [if_neg hn] at h
    rcases List.eq_nil_or_concat lo with rfl | ⟨pre, prev, rfl⟩
    · simp only [List.getLast?_nil] at h
      simp at h
    · rw [List.concat_eq_append] at *
      simp only [List.getLast?_append, List.getLast?_singleton, Option.some_or] at h
      by_cases c1 : prev.2 < first
      · rw [if_pos c1] at h
        simp at h
      · rw [if_neg c1] at h
        by_cases c2 : prev.2 = first
        · rw [if_pos c2] at h
          simp at h
        · have := hlo prev (by simp)
          exact ⟨prev, by simp, by omega, by omega⟩

/-- Ranges inside `[a, l)` that fill it are the single range. -/
theorem rangesLength_le (m : List (Nat × Nat)) (a l : Nat) (hs : Separated m)
    (h : ∀ r ∈ m, a ≤ r.1 ∧ r.2 ≤ l) :
    rangesLength m ≤ l - a ∧ (a < l → rangesLength m = l - a → m = [(a, l)]) := by
  induction m generalizing a with
  | nil => exact ⟨by simp, fun h1 h2 => by simp at h2; omega⟩
  | cons r rest ih =>
    obtain ⟨h1, h2, h3⟩ := separated_cons.1 hs
    obtain ⟨ha, hb⟩ := h r (by simp)
    rw [rangesLength_cons]
    have := ih (r.2 + 1) h2 (fun y hy => ⟨h3 y hy, (h y (by simp [hy])).2⟩)
    cases rest with
    | nil =>
      simp only [rangesLength_nil]
      refine ⟨by omega, fun c1 c2 => ?_⟩
      obtain ⟨r1, r2⟩ := r
      simp at *
      omega
    | cons y rest' =>
      have hy := h3 y (by simp)
      have hy2 := h y (by simp)
      have hy3 := (separated_cons.1 h2).1
      refine ⟨by omega, fun c1 c2 => ?_⟩
      omega

theorem rangesLength_full (m : List (Nat × Nat)) (l : Nat) (hs : Separated m) (h : ∀ r ∈ m, r.2 ≤ l) :
    rangesLength m = l ↔ ∀ x, x < l → InRanges m x := by
  constructor
  · intro he x hx
    have := (rangesLength_le m 0 l hs (fun r hr => ⟨by omega, h r hr⟩)).2 (by omega) (by omega)
    rw [this]
    simp [hx]
  · intro hc
    have hle := (rangesLength_le m 0 l hs (fun r hr => ⟨by omega, h r hr⟩)).1
    rcases Nat.eq_zero_or_pos l with rfl | hl
    · omega
    · cases m with
      | nil => have := hc 0 hl; simp at this
      | cons r rest =>
        obtain ⟨h1, h2, h3⟩ := separated_cons.1 hs
        have hz := hc 0 hl
        have hr0 : r.1 = 0 ∧ 0 < r.2 := by
          rw [inRanges_cons] at hz
          rcases hz with hz | ⟨y, hy, hy1, hy2⟩
          · omega
          · have := h3 y hy; omega
        have hrl := h r (by simp)
        have : r.2 = l := by
          by_cases hlt : r.2 < l
          · exfalso
            have hz := hc r.2 hlt
            rw [inRanges_cons] at hz
            rcases hz with hz | ⟨y, hy, hy1, hy2⟩
            · omega
            · have := h3 y hy; omega
          · omega
        rw [rangesLength_cons] at hle ⊢
        omega

end Spead2
