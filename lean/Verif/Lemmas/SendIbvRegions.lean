import Verif.Lemmas.SendIbv

/-! Which buffers of the user are found in registered regions. -/

namespace Spead2

open Spec

theorem mem_insertRegion {r x : IRegion} : ∀ {l : List IRegion}, x ∈ insertRegion r l ↔ x = r ∨ x ∈ l
  | [] => by simp [insertRegion]
  | y :: ys => by
    unfold insertRegion
    split
    · simp
    · simp only [List.mem_cons, mem_insertRegion (l := ys)]
      constructor
      · rintro (h | h | h)
        · exact .inr (.inl h)
        · exact .inl h
        · exact .inr (.inr h)
      · rintro (h | h | h)
        · exact .inr (.inl h)
        · exact .inl h
        · exact .inr (.inr h)

theorem mem_sortRegions {x : IRegion} : ∀ {l : List IRegion}, x ∈ sortRegions l ↔ x ∈ l
  | [] => by simp [sortRegions]
  | y :: ys => by
    unfold sortRegions
    rw [mem_insertRegion, mem_sortRegions (l := ys), List.mem_cons]

theorem noOverlap_pairwise : ∀ {l : List IRegion}, noOverlap l = true → l.Pairwise (fun a b => a.ptr + a.size ≤ b.ptr)
  | [], _ => .nil
  | [a], _ => List.pairwise_singleton _ _
  | a :: b :: rest, h => by
    unfold noOverlap at h
    simp only [Bool.and_eq_true, Bool.not_eq_true', decide_eq_false_iff_not] at h
    have ih := noOverlap_pairwise h.2
    refine List.pairwise_cons.mpr ⟨fun x hx => ?_, ih⟩
    rcases List.mem_cons.mp hx with rfl | hx
    · omega
    · have := List.rel_of_pairwise_cons ih hx
      omega

theorem regions_apart {c : IbvCfg} (h : c.accepted = true) {a b : IRegion} (ha : a ∈ c.regions) (hb : b ∈ c.regions) :
    a = b ∨ a.ptr + a.size ≤ b.ptr ∨ b.ptr + b.size ≤ a.ptr := by
  have hp := noOverlap_pairwise (l := sortRegions c.regions) (by simp only [IbvCfg.accepted, Bool.and_eq_true] at h; exact h.2)
  have key : ∀ {l : List IRegion}, l.Pairwise (fun a b => a.ptr + a.size ≤ b.ptr) → a ∈ l → b ∈ l → a = b ∨ a.ptr + a.size ≤ b.ptr ∨ b.ptr + b.size ≤ a.ptr := by
    intro l hl
    induction hl with
    | nil => intro h; cases h
    | cons hr _ ih =>
      intro h1 h2
      rcases List.mem_cons.mp h1 with e1 | h1 <;> rcases List.mem_cons.mp h2 with e2 | h2
      · exact .inl (e1.trans e2.symm)
      · exact .inr (.inl (e1 ▸ hr _ h2))
      · exact .inr (.inr (e2 ▸ hr _ h1))
      · exact ih h1 h2
  exact key hp (mem_sortRegions.mpr ha) (mem_sortRegions.mpr hb)

theorem emplaceRegion_spec {r : IRegion} : ∀ {l : List IRegion}, l.Pairwise (fun a b => a.ptr > b.ptr) →
    (emplaceRegion l r).Pairwise (fun a b => a.ptr > b.ptr) ∧ (∀ x ∈ emplaceRegion l r, x = r ∨ x ∈ l) ∧ (∀ x ∈ l, x ∈ emplaceRegion l r) ∧
      ∃ y ∈ emplaceRegion l r, y.ptr = r.ptr
  | [], _ => by simp [emplaceRegion]
  | x :: xs, h => by
    obtain ⟨h1, h2⟩ := List.pairwise_cons.mp h
    unfold emplaceRegion
    split
    · rename_i hg
      refine ⟨List.pairwise_cons.mpr ⟨fun y hy => ?_, h⟩, fun y hy => ?_, fun y hy => ?_, r, by simp, rfl⟩
      · rcases List.mem_cons.mp hy with rfl | hy
        · exact hg
        · have := h1 y hy; omega
      · exact List.mem_cons.mp hy
      · exact List.mem_cons_of_mem _ hy
    · split
      · rename_i hg
        obtain ⟨i1, i2, i3, z, i4, i5⟩ := emplaceRegion_spec (r := r) h2
        refine ⟨List.pairwise_cons.mpr ⟨fun y hy => ?_, i1⟩, fun y hy => ?_, fun y hy => ?_, z, List.mem_cons_of_mem _ i4, i5⟩
        · rcases i2 y hy with rfl | hy
          · exact hg
          · exact h1 y hy
        · rcases List.mem_cons.mp hy with rfl | hy
          · exact .inr (by simp)
          · rcases i2 y hy with e | hy
            · exact .inl e
            · exact .inr (List.mem_cons_of_mem _ hy)
        · rcases List.mem_cons.mp hy with rfl | hy
          · simp
          · exact List.mem_cons_of_mem _ (i3 y hy)
      · exact ⟨h, fun y hy => .inr hy, fun y hy => hy, x, by simp, by omega⟩

theorem regionSet_spec (c : IbvCfg) : c.regionSet.Pairwise (fun a b => a.ptr > b.ptr) ∧ (∀ x ∈ c.regionSet, x ∈ c.regions) ∧
    ∀ r ∈ c.regions, ∃ y ∈ c.regionSet, y.ptr = r.ptr := by
  have key : ∀ (rs l : List IRegion), l.Pairwise (fun a b => a.ptr > b.ptr) → (rs.foldl emplaceRegion l).Pairwise (fun a b => a.ptr > b.ptr) ∧
      (∀ x ∈ rs.foldl emplaceRegion l, x ∈ rs ∨ x ∈ l) ∧ (∀ x ∈ l, x ∈ rs.foldl emplaceRegion l) ∧ ∀ r ∈ rs, ∃ y ∈ rs.foldl emplaceRegion l, y.ptr = r.ptr := by
    intro rs
    induction rs with
    | nil => intro l h; exact ⟨h, fun x hx => .inr hx, fun x hx => hx, by simp⟩
    | cons r rs ih =>
      intro l h
      obtain ⟨e1, e2, e3, z, e4, e5⟩ := emplaceRegion_spec (r := r) h
      obtain ⟨i1, i2, i3, i4⟩ := ih _ e1
      refine ⟨i1, fun x hx => ?_, fun x hx => i3 x (e3 x hx), fun s hs => ?_⟩
      · rcases i2 x hx with h | h
        · exact .inl (List.mem_cons_of_mem _ h)
        · rcases e2 x h with rfl | h
          · exact .inl (by simp)
          · exact .inr h
      · rcases List.mem_cons.mp hs with rfl | hs
        · exact ⟨z, i3 z e4, e5⟩
        · exact i4 s hs
  obtain ⟨k1, k2, _, k4⟩ := key c.regions [] .nil
  exact ⟨k1, fun x hx => (k2 x hx).resolve_right (by simp), k4⟩

/-- A buffer is found in a region exactly if it is inside one. -/
theorem findRegion_iff {c : IbvCfg} (h : c.accepted = true) (b : Nat × Nat) : (∃ r, findRegion c.regionSet b.1 b.2 = some r) ↔ inRegion c b := by
  obtain ⟨s1, s2, s3⟩ := regionSet_spec c
  constructor
  · rintro ⟨r, hr⟩
    obtain ⟨h1, h2, h3⟩ := findRegion_some hr
    exact ⟨r, s2 r h3, h1, h2⟩
  · rintro ⟨r, hr, h1, h2⟩
    have hsz : ∀ r ∈ c.regions, r.size ≠ 0 := by
      simp only [IbvCfg.accepted, Bool.and_eq_true, List.all_eq_true, bne_iff_ne] at h
      exact h.1.2
    obtain ⟨y, hy, hy2⟩ := s3 r hr
    have hyr : y = r := by
      have := hsz r hr
      have := hsz y (s2 y hy)
      rcases regions_apart h (s2 y hy) hr with e | e | e
      · exact e
      · omega
      · omega
    subst hyr
    unfold findRegion
    cases hf : c.regionSet.find? (fun r => !(decide (r.ptr > b.1))) with
    | none =>
      have := List.find?_eq_none.mp hf y hy
      simp at this
      omega
    | some q =>
      dsimp only
      have hq := List.mem_of_find?_eq_some hf
      have hq2 : q.ptr ≤ b.1 := by
        have := List.find?_some hf
        simpa using this
      have hge : y.ptr ≤ q.ptr := by
        obtain ⟨_, as, bs, e, hn⟩ := List.find?_eq_some_iff_append.mp hf
        rw [e] at hy s1
        rcases List.mem_append.mp hy with hy | hy
        · have := hn y hy
          simp at this
          omega
        · rcases List.mem_cons.mp hy with rfl | hy
          · exact Nat.le_refl _
          · have := (List.pairwise_cons.mp (List.pairwise_append.mp s1).2.1).1 y hy
            omega
      refine ⟨q, ?_⟩
      rw [if_pos]
      refine ⟨hq2, ?_⟩
      rcases regions_apart h hr (s2 q hq) with e | e | e
      · rw [← e]; exact h2
      · omega
      · have := hsz q (s2 q hq); omega

/-- The bytes that entries take from the internal buffer. -/
def ownLen (ss : List Sge) : Nat := ((ss.filter (fun s => s.key = .own)).map (·.len)).sum

theorem ownLen_append (a b : List Sge) : ownLen (a ++ b) = ownLen a + ownLen b := by simp [ownLen]

theorem ownLen_one (s : Sge) : ownLen [s] = if s.key = .own then s.len else 0 := by
  unfold ownLen
  by_cases h : s.key = .own <;> simp [h]

theorem addSge_ownLen {ss ss' : List Sge} {cur : Sge} (h : addSge ss cur = some ss') : ownLen ss' = ownLen ss + if cur.key = .own then cur.len else 0 := by
  unfold addSge at h
  cases hl : ss.getLast? with
  | none => rw [hl] at h; cases h
  | some prev =>
    rw [hl] at h
    dsimp only at h
    obtain ⟨ys, hys⟩ := List.getLast?_eq_some_iff.mp hl
    split at h
    · rename_i hm
      rw [← Option.some.inj h, hys, ownLen_append, ownLen_append, ownLen_one, ownLen_one, List.dropLast_concat, ← hm.1]
      dsimp only
      split <;> omega
    · split at h
      · rw [← Option.some.inj h, ownLen_append, ownLen_one]
      · cases h

theorem bufLoop_ownLen {c : IbvCfg} {um : Nat → UInt8} {skip : Bool} : ∀ {bs : List (Nat × Nat)} {st st' : SgeSt}, c.bufLoop um skip st bs = some st' →
    ownLen st'.sges = ownLen st.sges + ((bs.filter (fun b => (if skip then findRegion c.regionSet b.1 b.2 else none).isNone)).map (·.2)).sum
  | [], st, st', h => by cases Option.some.inj h; simp
  | b :: bs, st, st', h => by
    rw [IbvCfg.bufLoop, Option.bind_eq_some_iff] at h
    obtain ⟨st1, h1, h2⟩ := h
    have ih := bufLoop_ownLen h2
    rw [ih, List.filter_cons]
    unfold IbvCfg.bufStep at h1
    cases hf : (if skip then findRegion c.regionSet b.1 b.2 else none) with
    | some r =>
      rw [hf] at h1
      simp only [Option.bind_eq_bind, Option.bind_eq_some_iff] at h1
      obtain ⟨ss, a1, a2⟩ := h1
      have := addSge_ownLen a1
      rw [← Option.some.inj a2]
      simpa using this
    | none =>
      rw [hf] at h1
      simp only [Option.bind_eq_bind, Option.bind_eq_some_iff] at h1
      obtain ⟨_, _, ss, a1, a2⟩ := h1
      have := addSge_ownLen a1
      rw [← Option.some.inj a2]
      simp only [if_true] at this
      simp only [Option.isNone_none, if_true, List.map_cons, List.sum_cons, this]
      omega

end Spead2
