import Verif.Lemmas.EndToEnd
import Verif.Spec.EndToEnd

namespace Spead2
open Spec

/-! ### Which items the pointers of a sent heap describe -/

/-- (id, start, end) of the non-empty payload items. -/
def segs (w : Nat) : Nat → List SendItem → List (Nat × Nat × Nat)
  | _, [] => []
  | a, it :: rest =>
    let n := (itemPayload w it).length
    if n = 0 then segs w a rest else (it.id, a, a + n) :: segs w (a + n) rest

theorem segs_ge {w a : Nat} {items : List SendItem} {x : Nat × Nat × Nat} (h : x ∈ segs w a items) :
    a ≤ x.2.1 ∧ x.2.1 < x.2.2 := by
  induction items generalizing a with
  | nil => simp [segs] at h
  | cons it rest ih =>
    simp only [segs] at h
    split at h
    · exact ih h
    · rcases List.mem_cons.1 h with rfl | h
      · simp only; omega
      · have := ih h; omega

theorem segs_sorted (w a : Nat) (items : List SendItem) : (segs w a items).Pairwise (fun x y => x.2.1 < y.2.1) := by
  induction items generalizing a with
  | nil => exact List.Pairwise.nil
  | cons it rest ih =>
    simp only [segs]
    split
    · exact ih _
    · rw [List.pairwise_cons]
      exact ⟨fun y hy => by have := segs_ge hy; simp only; omega, ih _⟩

theorem segs_data (w : Nat) (items : List SendItem) (pre post : Bytes) :
    (segs w pre.length items).map (fun x => (x.1, ((pre ++ (realPayload w items ++ post)).drop x.2.1).take (x.2.2 - x.2.1))) =
      addressedItems w items := by
  induction items generalizing pre with
  | nil => rfl
  | cons it rest ih =>
    have hr : realPayload w (it :: rest) = itemPayload w it ++ realPayload w rest := rfl
    simp only [segs, hr]
    by_cases h0 : (itemPayload w it).length = 0
    · have h0' := List.length_eq_zero_iff.1 h0
      rw [if_pos h0, h0', List.nil_append, ih]
      simp [addressedItems, h0']
    · have h0' : itemPayload w it ≠ [] := fun h => h0 (by simp [h])
      rw [if_neg h0, List.map_cons]
      have := ih (pre ++ itemPayload w it)
      rw [List.length_append] at this
      simp only [List.append_assoc] at this ⊢
      rw [this]
      simp only [List.drop_left, Nat.add_sub_cancel_left, List.take_left]
      simp [addressedItems, h0']

/-- Kinds of item. -/
theorem item_cases (w : Nat) (hw1 : 1 ≤ w) (hw7 : w ≤ 7) (it : SendItem) (a : Nat) (hid : it.id < 2 ^ (63 - 8 * w))
    (hin : ∀ v, it.value = .inline v → v < 2 ^ (8 * w)) (ha : a < 2 ^ (8 * w)) :
    (itemPayload w it = [] ∧ ∃ v, v < 2 ^ (8 * w) ∧ itemPtr w a it = 2 ^ 63 + it.id * 2 ^ (8 * w) + v ∧
      immediateItems w [it] = [(it.id, v)] ∧ ptrImmediate (itemPtr w a it) ∧ idOf (8 * w) (itemPtr w a it) = it.id ∧
      itemPtr w a it % 2 ^ (8 * w) = v) ∨
    ((∃ b allow, it.value = .buffer b allow ∧ ¬ (allow = true ∧ b.length ≤ w) ∧ itemPayload w it = b) ∧
      immediateItems w [it] = [] ∧ ¬ ptrImmediate (itemPtr w a it) ∧ idOf (8 * w) (itemPtr w a it) = it.id ∧
      itemPtr w a it % 2 ^ (8 * w) = a) := by
  cases hv : it.value with
  | inline v =>
    left
    have hvv := hin v hv
    have e : itemPtr w a it = 2 ^ 63 + it.id * 2 ^ (8 * w) + v := by simp [itemPtr, hv]
    have := imm_fields hw7 hid hvv
    rw [← e] at this
    exact ⟨by simp [itemPayload, hv], v, hvv, e, by simp [immediateItems, hv], this.1, this.2.1, this.2.2⟩
  | buffer b allow =>
    by_cases hc : allow = true ∧ b.length ≤ w
    · left
      have hb : beNat b < 2 ^ (8 * w) := beNat_lt_of_le hc.2
      have e : itemPtr w a it = 2 ^ 63 + it.id * 2 ^ (8 * w) + beNat b := by simp [itemPtr, hv, hc]
      have := imm_fields hw7 hid hb
      rw [← e] at this
      exact ⟨by simp [itemPayload, hv, hc], beNat b, hb, e, by simp [immediateItems, hv, hc], this.1, this.2.1, this.2.2⟩
    · right
      have e : itemPtr w a it = it.id * 2 ^ (8 * w) + a := by
        unfold itemPtr; rw [hv]; simp only; rw [if_neg hc]
      have := adr_fields hw7 hid ha
      rw [← e] at this
      refine ⟨⟨b, allow, rfl, hc, ?_⟩, ?_, this.1, this.2.1, this.2.2⟩
      · unfold itemPayload; rw [hv]; simp only; rw [if_neg hc]
      · unfold immediateItems
        simp only [List.filterMap_cons, hv]
        rw [if_neg hc]; rfl

/-- Hypotheses on a suffix of the items, whose payload starts at `a`, followed by the null pointer when
`tail` is not empty. -/
structure Suffix (w a : Nat) (items : List SendItem) (tail : List Nat) (ext : Nat) : Prop where
  w1 : 1 ≤ w
  w7 : w ≤ 7
  ids : ∀ it ∈ items, 4 < it.id ∧ it.id < 2 ^ (63 - 8 * w)
  inl : ∀ it ∈ items, ∀ v, it.value = .inline v → v < 2 ^ (8 * w)
  lt : a + (realPayload w items).length < 2 ^ (8 * w)
  tail : tail = [a + (realPayload w items).length] ∨ (tail = [] ∧ ext = a + (realPayload w items).length)
  ext : a + (realPayload w items).length ≤ ext

theorem Suffix.cons {w a : Nat} {it : SendItem} {items : List SendItem} {tail : List Nat} {ext : Nat}
    (h : Suffix w a (it :: items) tail ext) : Suffix w (a + (itemPayload w it).length) items tail ext := by
  have hr : (realPayload w (it :: items)).length = (itemPayload w it).length + (realPayload w items).length := by
    simp [realPayload]
  refine ⟨h.w1, h.w7, fun x hx => h.ids x (by simp [hx]), fun x hx => h.inl x (by simp [hx]), ?_, ?_, ?_⟩
  · have := h.lt; omega
  · have := h.tail; rw [hr, ← Nat.add_assoc] at this; exact this
  · have := h.ext; omega

theorem null_fields {w v : Nat} (hw7 : w ≤ 7) (hv : v < 2 ^ (8 * w)) : ¬ ptrImmediate v ∧ idOf (8 * w) v = 0 ∧ v % 2 ^ (8 * w) = v := by
  have := adr_fields (w := w) (id := 0) hw7 (Nat.two_pow_pos _) hv
  simpa [ptrId, idOf, ptrValue] using this

/-- Addressed pointers of a suffix point at or after its start. -/
theorem suffix_ge {w a : Nat} {items : List SendItem} {tail : List Nat} {ext : Nat} (h : Suffix w a items tail ext) :
    ∀ q ∈ itemPtrs w a items ++ tail, ¬ ptrImmediate q → a ≤ q % 2 ^ (8 * w) := by
  induction items generalizing a with
  | nil =>
    intro q hq _
    have h1 := h.lt
    have h2 := h.tail
    simp only [realPayload, List.flatMap_nil, List.length_nil, Nat.add_zero] at h1 h2
    simp only [itemPtrs, List.nil_append] at hq
    rcases h2 with h2 | ⟨h2, _⟩
    · rw [h2] at hq; simp at hq; subst hq; rw [Nat.mod_eq_of_lt h1]; omega
    · rw [h2] at hq; simp at hq
  | cons it rest ih =>
    intro q hq hi
    simp only [itemPtrs, List.cons_append, List.mem_cons] at hq
    rcases hq with rfl | hq
    · have hlt := h.lt
      rcases item_cases w h.w1 h.w7 it a (h.ids it (by simp)).2 (h.inl it (by simp)) (by omega) with ⟨_, v, _, _, _, c, _⟩ | ⟨_, _, _, _, c⟩
      · exact absurd c hi
      · omega
    · have := ih h.cons q hq hi; omega

/-- The first addressed pointer of a suffix points at its start; if there is none, the heap ends there. -/
theorem suffix_first {w a : Nat} {items : List SendItem} {tail : List Nat} {ext : Nat} (h : Suffix w a items tail ext) :
    (∃ q ∈ itemPtrs w a items ++ tail, AtAddr (8 * w) a q) ∨
    ((∀ q ∈ itemPtrs w a items ++ tail, ptrImmediate q) ∧ ext = a) := by
  induction items generalizing a with
  | nil =>
    have h1 := h.lt
    have h2 := h.tail
    simp only [realPayload, List.flatMap_nil, List.length_nil, Nat.add_zero] at h1 h2
    rcases h2 with h2 | ⟨h2, h3⟩
    · left
      have := null_fields h.w7 h1
      exact ⟨a, by simp [h2], this.1, this.2.2⟩
    · right
      exact ⟨by simp [itemPtrs, h2], h3⟩
  | cons it rest ih =>
    have hlt := h.lt
    rcases item_cases w h.w1 h.w7 it a (h.ids it (by simp)).2 (h.inl it (by simp)) (by omega) with ⟨c0, v, _, _, _, c, _⟩ | ⟨_, _, c1, _, c⟩
    · have hc := h.cons
      rw [c0, List.length_nil, Nat.add_zero] at hc
      have := ih hc
      simp only [itemPtrs, c0, List.length_nil, Nat.add_zero, List.cons_append, List.mem_cons]
      rcases this with ⟨q, hq, hq2⟩ | ⟨h1, h2⟩
      · left; exact ⟨q, Or.inr hq, hq2⟩
      · right; exact ⟨fun q hq => by rcases hq with rfl | hq; exact c; exact h1 q hq, h2⟩
    · left
      exact ⟨_, by simp [itemPtrs], c1, c⟩

theorem endsAt_cons_old {hab q : Nat} {L : List Nat} {ext a e : Nat} (hq : ptrImmediate q ∨ q % 2 ^ hab ≤ a) :
    EndsAt hab (q :: L) ext a e ↔ EndsAt hab L ext a e := by
  unfold EndsAt
  simp only [List.mem_cons, forall_eq_or_imp, exists_eq_or_imp]
  have h1 : (¬ ptrImmediate q → a < q % 2 ^ hab → e ≤ q % 2 ^ hab) := by
    intro h h'; rcases hq with hq | hq
    · exact absurd hq h
    · omega
  have h2 : (¬ ptrImmediate q → q % 2 ^ hab ≤ a) := by
    intro h; rcases hq with hq | hq
    · exact absurd hq h
    · exact hq
  constructor
  · rintro (⟨g1, g2, g3⟩ | ⟨g1, g2⟩)
    · left
      refine ⟨g1, ?_, g3.2⟩
      rcases g2 with g2 | g2
      · exfalso
        rcases hq with hq | hq
        · exact g2.1 hq
        · have := g2.2; omega
      · exact g2
    · right; exact ⟨g1, g2.2⟩
  · rintro (⟨g1, g2, g3⟩ | ⟨g1, g2⟩)
    · left; exact ⟨g1, Or.inr g2, h1, g3⟩
    · right; exact ⟨g1, h2, g2⟩

theorem lastAt_cons {hab q : Nat} {L : List Nat} {a : Nat} :
    lastAt hab (q :: L) a = (lastAt hab L a).or (if AtAddr hab a q then some q else none) := by
  unfold lastAt
  by_cases h : AtAddr hab a q
  · simp only [List.filter_cons, h, decide_true, if_true]
    cases hf : List.filter (fun q => decide (AtAddr hab a q)) L with
    | nil => simp
    | cons x l => simp [List.getLast?_cons]
  · simp only [List.filter_cons, h, decide_false, if_false, Bool.false_eq_true]
    cases (List.filter (fun q => decide (AtAddr hab a q)) L).getLast? <;> rfl

theorem lastAt_none {hab : Nat} {L : List Nat} {a : Nat} (h : ∀ q ∈ L, ¬ AtAddr hab a q) : lastAt hab L a = none := by
  unfold lastAt
  rw [List.filter_eq_nil_iff.2]
  · rfl
  · intro q hq; simpa using h q hq

theorem lastAt_mem {hab : Nat} {L : List Nat} {a q : Nat} (h : lastAt hab L a = some q) : q ∈ L ∧ AtAddr hab a q := by
  have := List.mem_filter.1 (List.mem_of_getLast? h)
  exact ⟨this.1, of_decide_eq_true this.2⟩

theorem lastAt_exists {hab : Nat} {L : List Nat} {a q : Nat} (h : q ∈ L) (h' : AtAddr hab a q) : ∃ p, lastAt hab L a = some p := by
  unfold lastAt
  cases hf : (L.filter (fun q => decide (AtAddr hab a q))).getLast? with
  | some p => exact ⟨p, rfl⟩
  | none =>
    rw [List.getLast?_eq_none_iff, List.filter_eq_nil_iff] at hf
    exact absurd (decide_eq_true h') (hf q h)

/-- The items described by the pointers are the segments. -/
theorem segs_mem {w : Nat} {items : List SendItem} {a0 : Nat} {tail : List Nat} {ext : Nat} (h : Suffix w a0 items tail ext)
    (id a e : Nat) (ha : a0 ≤ a) :
    (id, a, e) ∈ segs w a0 items ↔
      (id ≠ 0 ∧ a ≠ e ∧ EndsAt (8 * w) (itemPtrs w a0 items ++ tail) ext a e ∧
        ∃ p, lastAt (8 * w) (itemPtrs w a0 items ++ tail) a = some p ∧ idOf (8 * w) p = id) := by
  induction items generalizing a0 with
  | nil =>
    simp only [segs, List.not_mem_nil, false_iff]
    rintro ⟨h0, _, _, p, hp, rfl⟩
    have h1 := h.lt
    have h2 := h.tail
    simp only [realPayload, List.flatMap_nil, List.length_nil, Nat.add_zero] at h1 h2
    have := (lastAt_mem hp).1
    rcases h2 with h2 | ⟨h2, _⟩
    · rw [h2] at this
      simp [itemPtrs] at this
      subst this
      exact h0 (null_fields h.w7 h1).2.1
    · rw [h2] at this; simp [itemPtrs] at this
  | cons it rest ih =>
    have hlt := h.lt
    have hc := h.cons
    have hge := suffix_ge hc
    have hfirst := suffix_first hc
    have hid := h.ids it (by simp)
    simp only [itemPtrs, List.cons_append]
    rcases item_cases w h.w1 h.w7 it a0 (h.ids it (by simp)).2 (h.inl it (by simp)) (by omega) with
      ⟨c0, v, _, _, _, c, _⟩ | ⟨_, _, c1, c2, c3⟩
    · -- immediate
      rw [c0, List.length_nil, Nat.add_zero] at hc ⊢
      rw [endsAt_cons_old (Or.inl c), lastAt_cons, if_neg (fun hh => hh.1 c), Option.or_none]
      simp only [segs, c0, List.length_nil, if_true]
      exact ih hc ha
    · generalize itemPtr w a0 it = q at *
      by_cases hn : (itemPayload w it).length = 0
      · rw [hn, Nat.add_zero] at hc hge hfirst ⊢
        rw [endsAt_cons_old (Or.inr (by omega)), lastAt_cons]
        simp only [segs, hn, if_true]
        rw [ih hc ha]
        constructor
        · rintro ⟨g1, g2, g3, p, hp, g4⟩
          exact ⟨g1, g2, g3, p, by rw [hp]; rfl, g4⟩
        · rintro ⟨g1, g2, g3, p, hp, g4⟩
          refine ⟨g1, g2, g3, ?_⟩
          cases hl : lastAt (8 * w) (itemPtrs w a0 rest ++ tail) a with
          | some p' => rw [hl] at hp; simp at hp; exact ⟨p, by rw [hp], g4⟩
          | none =>
            exfalso
            rw [hl, Option.none_or] at hp
            split at hp
            · rename_i hat
              have haa : a = a0 := by have := hat.2; omega
              subst haa
              rcases hfirst with ⟨r, hr, hr2⟩ | ⟨f1, f2⟩
              · obtain ⟨x, hx⟩ := lastAt_exists hr hr2
                rw [hx] at hl; simp at hl
              · rcases g3 with ⟨_, ⟨r, hr, hr2⟩, _⟩ | ⟨g3, _⟩
                · exact hr2.1 (f1 r hr)
                · omega
            · simp at hp
      · have hse : segs w a0 (it :: rest) = (it.id, a0, a0 + (itemPayload w it).length) ::
            segs w (a0 + (itemPayload w it).length) rest := by
          simp only [segs]; rw [if_neg hn]
        rw [hse]
        by_cases hbig : a0 + (itemPayload w it).length ≤ a
        · rw [endsAt_cons_old (Or.inr (by omega)), lastAt_cons, if_neg (fun hh => by have := hh.2; omega), Option.or_none,
            ← ih hc hbig, List.mem_cons]
          constructor
          · rintro (hh | hh)
            · simp only [Prod.mk.injEq] at hh; omega
            · exact hh
          · exact Or.inr
        · have hnone : lastAt (8 * w) (itemPtrs w (a0 + (itemPayload w it).length) rest ++ tail) a = none := by
            apply lastAt_none
            intro r hr hr2
            have := hge r hr hr2.1
            have := hr2.2
            omega
          rw [lastAt_cons, hnone, Option.none_or]
          by_cases haa : a = a0
          · subst haa
            rw [if_pos ⟨c1, c3⟩, endsAt_cons_old (Or.inr (by omega))]
            have hends : EndsAt (8 * w) (itemPtrs w (a + (itemPayload w it).length) rest ++ tail) ext a e ↔
                e = a + (itemPayload w it).length := by
              rcases hfirst with ⟨r, hr, hr2⟩ | ⟨f1, f2⟩
              · constructor
                · rintro (⟨g1, ⟨t, ht, ht2⟩, g3⟩ | ⟨g1, g2⟩)
                  · have h1 := g3 r hr hr2.1 (by rw [hr2.2]; omega)
                    have h2 := hge t ht ht2.1
                    rw [hr2.2] at h1
                    rw [ht2.2] at h2
                    omega
                  · have := g2 r hr hr2.1
                    rw [hr2.2] at this
                    omega
                · rintro rfl
                  left
                  exact ⟨by omega, ⟨r, hr, hr2⟩, fun t ht hti _ => hge t ht hti⟩
              · constructor
                · rintro (⟨g1, ⟨t, ht, ht2⟩, g3⟩ | ⟨g1, g2⟩)
                  · exact absurd (f1 t ht) ht2.1
                  · omega
                · rintro rfl
                  right
                  exact ⟨f2.symm, fun t ht hti => absurd (f1 t ht) hti⟩
            rw [hends]
            constructor
            · intro hh
              rcases List.mem_cons.1 hh with hh | hh
              · simp only [Prod.mk.injEq] at hh
                refine ⟨by omega, by omega, hh.2.2, q, rfl, ?_⟩
                rw [c2]; exact hh.1.symm
              · have := segs_ge hh; simp only at this; omega
            · rintro ⟨g1, g2, rfl, p, hp, rfl⟩
              simp only [Option.some.injEq] at hp
              rw [← hp, c2]
              exact List.mem_cons_self
          · rw [if_neg (fun hh => by have := hh.2; omega)]
            constructor
            · intro hh
              rcases List.mem_cons.1 hh with hh | hh
              · simp only [Prod.mk.injEq] at hh; omega
              · have := segs_ge hh; simp only at this; omega
            · rintro ⟨_, _, _, p, hp, _⟩; simp at hp

/-- Without empty items, addressed pointers are determined by their address. -/
theorem suffix_inj {w a : Nat} {items : List SendItem} {tail : List Nat} {ext : Nat} (h : Suffix w a items tail ext)
    (hne : NoEmpty w items) : ∀ x p q, p ∈ itemPtrs w a items ++ tail → q ∈ itemPtrs w a items ++ tail →
      AtAddr (8 * w) x p → AtAddr (8 * w) x q → p = q := by
  induction items generalizing a with
  | nil =>
    intro x p q hp hq _ _
    have h2 := h.tail
    simp only [itemPtrs, List.nil_append] at hp hq
    rcases h2 with h2 | ⟨h2, _⟩
    · rw [h2] at hp hq; simp at hp hq; rw [hp, hq]
    · rw [h2] at hp; simp at hp
  | cons it rest ih =>
    intro x p q hp hq hpx hqx
    have hlt := h.lt
    have hge := suffix_ge h.cons
    simp only [itemPtrs, List.cons_append, List.mem_cons] at hp hq
    have ihh := ih h.cons (fun i hi => hne i (by simp [hi])) x
    rcases item_cases w h.w1 h.w7 it a (h.ids it (by simp)).2 (h.inl it (by simp)) (by omega) with
      ⟨c0, v, _, _, _, c, _⟩ | ⟨⟨b, allow, hv, hal, hb⟩, _, c1, c2, c3⟩
    · rcases hp with rfl | hp
      · exact absurd c hpx.1
      · rcases hq with rfl | hq
        · exact absurd c hqx.1
        · exact ihh p q hp hq hpx hqx
    · have hpos : 0 < (itemPayload w it).length := by
        rw [hb]; exact List.length_pos_iff.2 (hne it (by simp) b allow hv hal)
      rcases hp with rfl | hp <;> rcases hq with rfl | hq
      · rfl
      · have h1 := hge q hq hqx.1
        have := hpx.2; have := hqx.2
        omega
      · have h1 := hge p hp hpx.1
        have := hpx.2; have := hqx.2
        omega
      · exact ihh p q hp hq hpx hqx

/-- `lastAt` only depends on the members when the pointer is determined by its address. -/
theorem lastAt_congr {hab : Nat} {L M : List Nat} (hm : ∀ q, q ∈ L ↔ q ∈ M)
    (hinj : ∀ x p q, p ∈ M → q ∈ M → AtAddr hab x p → AtAddr hab x q → p = q) (a : Nat) : lastAt hab L a = lastAt hab M a := by
  cases hl : lastAt hab L a with
  | none =>
    cases hm' : lastAt hab M a with
    | none => rfl
    | some p =>
      obtain ⟨h1, h2⟩ := lastAt_mem hm'
      obtain ⟨x, hx⟩ := lastAt_exists ((hm p).2 h1) h2
      rw [hl] at hx; simp at hx
  | some p =>
    obtain ⟨h1, h2⟩ := lastAt_mem hl
    obtain ⟨x, hx⟩ := lastAt_exists ((hm p).1 h1) h2
    obtain ⟨h3, h4⟩ := lastAt_mem hx
    rw [hx, hinj a p x ((hm p).1 h1) h3 h2 h4]

/-- Two strictly increasing lists with the same members are equal. -/
theorem sorted_ext {α : Type} (k : α → Nat) : ∀ {l m : List α}, l.Pairwise (fun x y => k x < k y) → m.Pairwise (fun x y => k x < k y) →
    (∀ x, x ∈ l ↔ x ∈ m) → l = m
  | [], [], _, _, _ => rfl
  | [], y :: m, _, _, h => absurd ((h y).2 (by simp)) (by simp)
  | x :: l, [], _, _, h => absurd ((h x).1 (by simp)) (by simp)
  | x :: l, y :: m, hl, hm, h => by
    rw [List.pairwise_cons] at hl hm
    have hxy : x = y := by
      rcases List.mem_cons.1 ((h x).1 (by simp)) with h1 | h1
      · exact h1
      · rcases List.mem_cons.1 ((h y).2 (by simp)) with h2 | h2
        · exact h2.symm
        · have := hm.1 x h1; have := hl.1 y h2; omega
    subst hxy
    congr 1
    apply sorted_ext k hl.2 hm.2
    intro z
    constructor
    · intro hz
      rcases List.mem_cons.1 ((h z).1 (by simp [hz])) with rfl | h1
      · have := hl.1 z hz; omega
      · exact h1
    · intro hz
      rcases List.mem_cons.1 ((h z).2 (by simp [hz])) with rfl | h1
      · have := hm.1 z hz; omega
      · exact h1

/-- Immediate pointers of a sent heap. -/
theorem suffix_imm {w a : Nat} {items : List SendItem} {tail : List Nat} {ext : Nat} (h : Suffix w a items tail ext) (id v : Nat) :
    (∃ q ∈ itemPtrs w a items ++ tail, ptrImmediate q ∧ idOf (8 * w) q ≠ 0 ∧ idOf (8 * w) q = id ∧ q % 2 ^ (8 * w) = v) ↔
      (id, v) ∈ immediateItems w items := by
  induction items generalizing a with
  | nil =>
    simp only [immediateItems, List.filterMap_nil, List.not_mem_nil, iff_false]
    rintro ⟨q, hq, hi, _⟩
    have h1 := h.lt
    have h2 := h.tail
    simp only [realPayload, List.flatMap_nil, List.length_nil, Nat.add_zero] at h1 h2
    simp only [itemPtrs, List.nil_append] at hq
    rcases h2 with h2 | ⟨h2, _⟩
    · rw [h2] at hq; simp at hq; subst hq; exact (null_fields h.w7 h1).1 hi
    · rw [h2] at hq; simp at hq
  | cons it rest ih =>
    have hlt := h.lt
    have e : immediateItems w (it :: rest) = immediateItems w [it] ++ immediateItems w rest := by
      unfold immediateItems
      rw [← List.filterMap_append]; rfl
    have hid := h.ids it (by simp)
    rw [e, List.mem_append, ← ih h.cons]
    simp only [itemPtrs, List.cons_append, List.mem_cons, exists_eq_or_imp]
    rcases item_cases w h.w1 h.w7 it a (h.ids it (by simp)).2 (h.inl it (by simp)) (by omega) with
      ⟨c0, v', _, _, c3, c4, c5, c6⟩ | ⟨_, c1, c2, _, c3⟩
    · rw [c3]
      simp only [c4, c5, c6, true_and, List.mem_singleton, Prod.mk.injEq]
      have : it.id ≠ 0 := by omega
      simp only [ne_eq, this, not_false_eq_true, true_and]
      constructor
      · rintro (⟨rfl, rfl⟩ | h)
        · exact Or.inl ⟨rfl, rfl⟩
        · exact Or.inr h
      · rintro (⟨rfl, rfl⟩ | h)
        · exact Or.inl ⟨rfl, rfl⟩
        · exact Or.inr h
    · rw [c1]
      simp only [c2, false_and, false_or, List.not_mem_nil]

/-- None of the pointers is a packet-level item and all are kept by the receiver. -/
theorem suffix_plain {w a : Nat} {items : List SendItem} {tail : List Nat} {ext : Nat} (h : Suffix w a items tail ext) :
    ∀ q ∈ itemPtrs w a items ++ tail, ¬ isPacketItem w q ∧ relevant (8 * w) q := by
  induction items generalizing a with
  | nil =>
    intro q hq
    have h1 := h.lt
    have h2 := h.tail
    simp only [realPayload, List.flatMap_nil, List.length_nil, Nat.add_zero] at h1 h2
    simp only [itemPtrs, List.nil_append] at hq
    rcases h2 with h2 | ⟨h2, _⟩
    · rw [h2] at hq; simp at hq; subst hq
      have := null_fields h.w7 h1
      exact ⟨fun hc => this.1 hc.1, Or.inl this.2.1⟩
    · rw [h2] at hq; simp at hq
  | cons it rest ih =>
    intro q hq
    have hlt := h.lt
    have hid := h.ids it (by simp)
    simp only [itemPtrs, List.cons_append, List.mem_cons] at hq
    rcases hq with rfl | hq
    · have hidq : idOf (8 * w) (itemPtr w a it) = it.id := by
        rcases item_cases w h.w1 h.w7 it a (h.ids it (by simp)).2 (h.inl it (by simp)) (by omega) with
          ⟨c0, v', _, _, c3, c4, c5, c6⟩ | ⟨_, c1, c2, c5, c3⟩ <;> exact c5
      constructor
      · rintro ⟨_, hc⟩
        unfold ptrId at hc
        unfold idOf at hidq
        rw [hidq] at hc; omega
      · right
        unfold idOf at hidq
        rw [hidq]; exact hid.1
    · exact ih h.cons q hq

theorem suffix_le {w a : Nat} {items : List SendItem} {tail : List Nat} {ext : Nat} (h : Suffix w a items tail ext) :
    ∀ q ∈ itemPtrs w a items ++ tail, ¬ ptrImmediate q → q % 2 ^ (8 * w) ≤ ext := by
  induction items generalizing a with
  | nil =>
    intro q hq _
    have h1 := h.lt
    have h2 := h.tail
    have h3 := h.ext
    simp only [realPayload, List.flatMap_nil, List.length_nil, Nat.add_zero] at h1 h2 h3
    simp only [itemPtrs, List.nil_append] at hq
    rcases h2 with h2 | ⟨h2, _⟩
    · rw [h2] at hq; simp at hq; subst hq; rw [Nat.mod_eq_of_lt h1]; exact h3
    · rw [h2] at hq; simp at hq
  | cons it rest ih =>
    intro q hq hi
    simp only [itemPtrs, List.cons_append, List.mem_cons] at hq
    rcases hq with rfl | hq
    · have hlt := h.lt
      have hext := h.ext
      rcases item_cases w h.w1 h.w7 it a (h.ids it (by simp)).2 (h.inl it (by simp)) (by omega) with ⟨_, v, _, _, _, c, _⟩ | ⟨_, _, _, _, c⟩
      · exact absurd c hi
      · omega
    · exact ih h.cons q hq hi

/-! ### `eraseDups` -/

theorem eraseDups_of_nodup {α : Type} [BEq α] [LawfulBEq α] : ∀ {l : List α}, l.Nodup → l.eraseDups = l
  | [], _ => by simp
  | a :: l, h => by
    rw [List.nodup_cons] at h
    rw [List.eraseDups_cons]
    have : l.filter (fun b => !b == a) = l := by
      rw [List.filter_eq_self]; intro b hb
      have : b ≠ a := fun e => h.1 (e ▸ hb)
      simp [this]
    rw [this, eraseDups_of_nodup h.2]

theorem nodup_eraseDups' {α : Type} [BEq α] [LawfulBEq α] (l : List α) : l.eraseDups.Nodup := by
  generalize hn : l.length = n
  induction n using Nat.strongRecOn generalizing l with
  | ind n ih =>
    cases l with
    | nil => simp
    | cons a l =>
      rw [List.eraseDups_cons, List.nodup_cons]
      refine ⟨?_, ih _ ?_ _ rfl⟩
      · rw [List.mem_eraseDups]; simp
      · have := List.length_filter_le (fun b => !b == a) l
        simp at hn; omega

theorem eraseDups_map_on {α β : Type} [BEq α] [LawfulBEq α] [BEq β] [LawfulBEq β] (f : α → β) (l : List α)
    (h : ∀ a ∈ l, ∀ b ∈ l, f a = f b → a = b) : (l.map f).eraseDups = l.eraseDups.map f := by
  generalize hn : l.length = n
  induction n using Nat.strongRecOn generalizing l with
  | ind n ih =>
    cases l with
    | nil => simp
    | cons a l =>
      rw [List.map_cons, List.eraseDups_cons, List.eraseDups_cons, List.map_cons, List.filter_map]
      have e : l.filter ((fun b => !b == f a) ∘ f) = l.filter (fun b => !b == a) := by
        apply List.filter_congr
        intro b hb
        simp only [Function.comp]
        by_cases hba : b = a
        · subst hba; simp
        · have : f b ≠ f a := fun he => hba (h b (by simp [hb]) a (by simp) he)
          rw [beq_eq_false_iff_ne.2 hba, beq_eq_false_iff_ne.2 this]
      rw [e, ih _ ?_ _ ?_ rfl]
      · have := List.length_filter_le (fun b => !b == a) l
        simp at hn; omega
      · intro x hx y hy
        exact h x (by simp [(List.mem_filter.1 hx).1]) y (by simp [(List.mem_filter.1 hy).1])

theorem eraseDups_append_sub {α : Type} [BEq α] [LawfulBEq α] {l m : List α} (h : ∀ x ∈ m, x ∈ l) :
    (l ++ m).eraseDups = l.eraseDups := by
  rw [List.eraseDups_append]
  have : m.removeAll l = [] := by
    unfold List.removeAll
    rw [List.filter_eq_nil_iff]
    intro x hx
    simp [h x hx]
  rw [this]; simp

end Spead2
