import Verif.Lemmas.LiveHeap
import Verif.Spec.Heap

namespace Spead2
open Spec

theorem sortKey_eq (hab p : Nat) (hp : p < 2 ^ 64) (hh : hab ≤ 63) :
    sortKey hab p = (if 2 ^ 63 ≤ p then 2 ^ 63 else 0) + p % 2 ^ hab := by
  unfold sortKey
  rw [immediateMask_eq, Nat.and_or_distrib_left]
  have e1 : p &&& addressMask hab = p % 2 ^ hab := getAddress_eq hab p
  rw [e1]
  have e2 : p &&& 2 ^ 63 = if 2 ^ 63 ≤ p then 2 ^ 63 else 0 := by
    apply Nat.eq_of_testBit_eq
    intro i
    rw [Nat.testBit_and, Nat.testBit_two_pow]
    by_cases hi : 63 = i
    · subst hi
      rw [Nat.testBit_eq_decide_div_mod_eq]
      by_cases h : 2 ^ 63 ≤ p
      · have : p / 2 ^ 63 % 2 = 1 := by omega
        rw [if_pos h, Nat.testBit_two_pow]; simp [this]
      · have : p / 2 ^ 63 % 2 = 0 := by omega
        rw [if_neg h]; simp [this]
    · split
      · rw [Nat.testBit_two_pow]; simp [hi]
      · simp [hi]
  rw [e2]
  have hlt : p % 2 ^ hab < 2 ^ 63 :=
    Nat.lt_of_lt_of_le (Nat.mod_lt _ (Nat.two_pow_pos _)) (Nat.pow_le_pow_right (by omega) hh)
  split
  · have := Nat.two_pow_add_eq_or_of_lt hlt 1
    rw [Nat.mul_one] at this
    exact this.symm
  · simp

section Sorting
variable (hab : Nat)

theorem insertByKey_perm (x : Nat) (l : List Nat) : (insertByKey hab x l).Perm (x :: l) := by
  induction l with
  | nil => exact List.Perm.refl _
  | cons y ys ih =>
    unfold insertByKey
    split
    · exact List.Perm.refl _
    · exact (ih.cons y).trans (List.Perm.swap x y ys)

theorem stableSort_perm (l : List Nat) : (stableSort hab l).Perm l := by
  induction l with
  | nil => exact List.Perm.refl _
  | cons x xs ih => exact (insertByKey_perm hab x _).trans (ih.cons x)

def KeySorted (l : List Nat) : Prop := l.Pairwise (fun a b => sortKey hab a ≤ sortKey hab b)

theorem insertByKey_sorted (x : Nat) (l : List Nat) (h : KeySorted hab l) : KeySorted hab (insertByKey hab x l) := by
  induction l with
  | nil => simp [insertByKey, KeySorted]
  | cons y ys ih =>
    unfold KeySorted at *
    rw [List.pairwise_cons] at h
    unfold insertByKey
    split
    · rename_i hle
      rw [List.pairwise_cons, List.pairwise_cons]
      refine ⟨?_, h⟩
      intro z hz
      rcases List.mem_cons.1 hz with rfl | hz
      · exact hle
      · exact Nat.le_trans hle (h.1 z hz)
    · rename_i hgt
      rw [List.pairwise_cons]
      refine ⟨?_, ih h.2⟩
      intro z hz
      rcases List.mem_cons.1 ((insertByKey_perm hab x ys).mem_iff.1 hz) with rfl | hz
      · omega
      · exact h.1 z hz

theorem stableSort_sorted (l : List Nat) : KeySorted hab (stableSort hab l) := by
  induction l with
  | nil => exact List.Pairwise.nil
  | cons x xs ih => exact insertByKey_sorted hab x _ ih

theorem insertByKey_filter (P : Nat → Bool) (hP : ∀ x y, P x = true → P y = true → sortKey hab x = sortKey hab y)
    (x : Nat) (l : List Nat) : (insertByKey hab x l).filter P = (x :: l).filter P := by
  induction l with
  | nil => rfl
  | cons y ys ih =>
    unfold insertByKey
    split
    · rfl
    · rename_i hgt
      rw [List.filter_cons, ih]
      cases hx : P x <;> cases hy : P y <;> simp [List.filter_cons, hx, hy]
      exact absurd (Nat.le_of_eq (hP x y hx hy)) hgt

theorem stableSort_filter (P : Nat → Bool) (hP : ∀ x y, P x = true → P y = true → sortKey hab x = sortKey hab y)
    (l : List Nat) : (stableSort hab l).filter P = l.filter P := by
  induction l with
  | nil => rfl
  | cons x xs ih =>
    have : stableSort hab (x :: xs) = insertByKey hab x (stableSort hab xs) := rfl
    rw [this, insertByKey_filter hab P hP, List.filter_cons, ih, List.filter_cons]

/-- A sorted list is its addressed pointers followed by its immediate ones. -/
theorem sorted_split (l : List Nat) (hh : hab ≤ 63) (h64 : ∀ p ∈ l, p < 2 ^ 64) (h : KeySorted hab l) :
    l = l.filter (fun p => ¬ ptrImmediate p) ++ l.filter (fun p => ptrImmediate p) := by
  induction l with
  | nil => rfl
  | cons x xs ih =>
    unfold KeySorted at h
    rw [List.pairwise_cons] at h
    have ih := ih (fun p hp => h64 p (by simp [hp])) h.2
    by_cases hx : ptrImmediate x
    · have hall : ∀ y ∈ xs, ptrImmediate y := by
        intro y hy
        have := h.1 y hy
        rw [sortKey_eq hab x (h64 x (by simp)) hh, sortKey_eq hab y (h64 y (by simp [hy])) hh] at this
        unfold ptrImmediate at *
        rw [if_pos hx] at this
        have hlt : y % 2 ^ hab < 2 ^ 63 :=
          Nat.lt_of_lt_of_le (Nat.mod_lt _ (Nat.two_pow_pos _)) (Nat.pow_le_pow_right (by omega) hh)
        by_cases hy : 2 ^ 63 ≤ y
        · exact hy
        · rw [if_neg hy] at this; omega
      have e1 : (x :: xs).filter (fun p => ¬ ptrImmediate p) = [] := by
        rw [List.filter_eq_nil_iff]
        intro y hy
        rcases List.mem_cons.1 hy with rfl | hy
        · simpa using hx
        · simpa using hall y hy
      have e2 : (x :: xs).filter (fun p => ptrImmediate p) = x :: xs := by
        rw [List.filter_eq_self]
        intro y hy
        rcases List.mem_cons.1 hy with rfl | hy
        · simpa using hx
        · simpa using hall y hy
      rw [e1, e2]; rfl
    · have e1 : (x :: xs).filter (fun p => ¬ ptrImmediate p) = x :: xs.filter (fun p => ¬ ptrImmediate p) := by
        rw [List.filter_cons_of_pos]; simpa using hx
      have e2 : (x :: xs).filter (fun p => ptrImmediate p) = xs.filter (fun p => ptrImmediate p) := by
        rw [List.filter_cons_of_neg]; simpa using hx
      rw [e1, e2, List.cons_append, ← ih]

end Sorting

/-! ### The loop -/

/-- Item made from an immediate pointer. -/
def immItem (hab p : Nat) : RxItem :=
  ⟨getId hab p, true, 0, getImmediate hab p, (((beBytes 8 p).drop (8 - hab / 8)).take (hab / 8)).map some⟩

/-- Item made from an addressed pointer. -/
def adrItem (hab : Nat) (payload : List (Option UInt8)) (p stop : Nat) : RxItem :=
  ⟨getId hab p, false, getAddress hab p, 0, (payload.drop (getAddress hab p)).take (stop - getAddress hab p)⟩

theorem loop_imm (hab ml : Nat) (pay : List (Option UInt8)) (keep : Bool) (B : List Nat) (slots : Nat)
    (hB : ∀ p ∈ B, ptrImmediate p) (hs : B.length ≤ slots) :
    loadLoop hab ml pay keep slots B = some ((B.filter (fun p => getId hab p ≠ 0)).map (immItem hab)) := by
  induction B generalizing slots with
  | nil => rfl
  | cons p B ih =>
    have hB' := fun q hq => hB q (List.mem_cons_of_mem _ hq)
    simp only [List.length_cons] at hs
    unfold loadLoop
    by_cases h0 : getId hab p = 0
    · simp only [h0, if_true]
      rw [ih slots hB' (by omega)]
      simp [h0]
    · have hi : isImmediate p = true := (isImmediate_iff p).2 (hB p (by simp))
      simp only [h0, if_false, hi, if_true]
      obtain ⟨k, rfl⟩ : ∃ k, slots = k + 1 := ⟨slots - 1, by omega⟩
      simp only
      rw [ih k hB' (by omega)]
      simp [h0, immItem]

/-- End of an addressed item followed by the addressed pointers `A`. -/
def adrEnd (hab ml : Nat) : List Nat → Nat
  | [] => ml
  | q :: _ => getAddress hab q

/-- Items made from sorted addressed pointers. -/
def adrItems (hab ml : Nat) (pay : List (Option UInt8)) : List Nat → List RxItem
  | [] => []
  | p :: A =>
    let stop := adrEnd hab ml A
    (if getId hab p = 0 ∨ getAddress hab p = stop then [] else [adrItem hab pay p stop]) ++ adrItems hab ml pay A

theorem loop_adr (hab ml : Nat) (pay : List (Option UInt8)) (A B : List Nat) (slots : Nat) (X : List RxItem)
    (hA : ∀ p ∈ A, ¬ ptrImmediate p) (hB : ∀ p ∈ B, ptrImmediate p)
    (hX : loadLoop hab ml pay true slots B = some X)
    (hsort : A.Pairwise (fun a b => getAddress hab a ≤ getAddress hab b))
    (hml : ∀ p ∈ A, getAddress hab p ≤ ml) (hpay : ml ≤ pay.length) :
    loadLoop hab ml pay true slots (A ++ B) = some (adrItems hab ml pay A ++ X) := by
  induction A with
  | nil => simpa [adrItems] using hX
  | cons p A ih =>
    rw [List.pairwise_cons] at hsort
    have ih := ih (fun q hq => hA q (by simp [hq])) hsort.2 (fun q hq => hml q (by simp [hq]))
    have hi : isImmediate p = false := by
      cases h : isImmediate p with
      | false => rfl
      | true => exact absurd ((isImmediate_iff p).1 h) (hA p (by simp))
    have hstop : itemEnd hab ml (A ++ B) = adrEnd hab ml A := by
      cases A with
      | nil =>
        cases B with
        | nil => rfl
        | cons b B =>
          have : isImmediate b = true := (isImmediate_iff b).2 (hB b (by simp))
          simp [itemEnd, adrEnd, this]
      | cons q A =>
        have : isImmediate q = false := by
          cases h : isImmediate q with
          | false => rfl
          | true => exact absurd ((isImmediate_iff q).1 h) (hA q (by simp))
        simp [itemEnd, adrEnd, this]
    rw [List.cons_append]
    unfold loadLoop adrItems
    rw [hstop]
    generalize hst : adrEnd hab ml A = stop
    have hle : getAddress hab p ≤ stop ∧ stop ≤ ml := by
      rw [← hst]
      cases A with
      | nil => exact ⟨hml p (by simp), Nat.le_refl _⟩
      | cons q A => exact ⟨hsort.1 q (by simp), hml q (by simp)⟩
    by_cases h0 : getId hab p = 0
    · simp only [h0, if_true, true_or, List.nil_append]
      exact ih
    · simp only [h0, if_false, hi, Bool.false_eq_true, Bool.not_true, false_or]
      by_cases h1 : getAddress hab p = stop
      · simp only [h1, if_true, List.nil_append]
        exact ih
      · simp only [h1, if_false]
        rw [if_neg (by omega), ih]
        rfl

/-- No addressed item is kept for incomplete heaps. -/
theorem loop_adr_drop (hab ml : Nat) (pay : List (Option UInt8)) (A B : List Nat) (slots : Nat)
    (hA : ∀ p ∈ A, ¬ ptrImmediate p) :
    loadLoop hab ml pay false slots (A ++ B) = loadLoop hab ml pay false slots B := by
  induction A with
  | nil => rfl
  | cons p A ih =>
    have hi : isImmediate p = false := by
      cases h : isImmediate p with
      | false => rfl
      | true => exact absurd ((isImmediate_iff p).1 h) (hA p (by simp))
    rw [List.cons_append]
    conv => lhs; unfold loadLoop
    simp only [hi, Bool.false_eq_true, if_false, Bool.not_false, if_true]
    rw [ih (fun q hq => hA q (by simp [hq]))]
    simp

/-- Characterisation of the addressed items. -/
theorem adrItems_mem (hab ml : Nat) (pay : List (Option UInt8)) (A : List Nat) (hA : ∀ p ∈ A, ¬ ptrImmediate p)
    (hsort : A.Pairwise (fun a b => getAddress hab a ≤ getAddress hab b)) (it : RxItem) :
    it ∈ adrItems hab ml pay A ↔
      ∃ p e, lastAt hab A (p % 2 ^ hab) = some p ∧ idOf hab p ≠ 0 ∧ p % 2 ^ hab ≠ e ∧ EndsAt hab A ml (p % 2 ^ hab) e ∧
        it = adrItem hab pay p e := by
  induction A with
  | nil => simp [adrItems, lastAt]
  | cons x A ih =>
    rw [List.pairwise_cons] at hsort
    have hA' : ∀ q ∈ A, ¬ ptrImmediate q := fun q hq => hA q (List.mem_cons_of_mem _ hq)
    have hx := hA x (by simp)
    have ih := ih hA' hsort.2
    simp only [getAddress_eq] at hsort
    unfold adrItems
    rw [List.mem_append, ih]
    have hlast_lt : ∀ a, a < x % 2 ^ hab → lastAt hab A a = none := by
      intro a ha
      unfold lastAt
      rw [List.getLast?_eq_none_iff, List.filter_eq_nil_iff]
      intro q hq
      have := hsort.1 q hq
      intro hc
      have hc : AtAddr hab a q := of_decide_eq_true hc
      have := hc.2
      omega
    -- characterise lastAt on the cons
    have hlast : ∀ a, lastAt hab (x :: A) a = (lastAt hab A a).or (if x % 2 ^ hab = a then some x else none) := by
      intro a
      unfold lastAt
      by_cases h : x % 2 ^ hab = a
      · rw [List.filter_cons_of_pos (by simp [AtAddr, hx, h]), if_pos h]
        cases hl : (A.filter fun q => decide (AtAddr hab a q)) with
        | nil => simp
        | cons b l => simp [List.getLast?_cons]
      · rw [List.filter_cons_of_neg (by simp [AtAddr, h]), if_neg h]
        cases (A.filter fun q => decide (AtAddr hab a q)).getLast? <;> rfl
    -- EndsAt for positions at or after x
    have hends : ∀ a e, x % 2 ^ hab ≤ a → (EndsAt hab (x :: A) ml a e ↔ EndsAt hab A ml a e) := by
      intro a e ha
      unfold EndsAt
      constructor
      · rintro (⟨h1, ⟨q, hq, hq2⟩, h3⟩ | ⟨h1, h2⟩)
        · refine Or.inl ⟨h1, ⟨q, ?_, hq2⟩, fun r hr => h3 r (List.mem_cons_of_mem _ hr)⟩
          rcases List.mem_cons.1 hq with rfl | hq
          · have := hq2.2; omega
          · exact hq
        · exact Or.inr ⟨h1, fun r hr => h2 r (List.mem_cons_of_mem _ hr)⟩
      · rintro (⟨h1, ⟨q, hq, hq2⟩, h3⟩ | ⟨h1, h2⟩)
        · refine Or.inl ⟨h1, ⟨q, List.mem_cons_of_mem _ hq, hq2⟩, ?_⟩
          intro r hr hri hra
          rcases List.mem_cons.1 hr with rfl | hr
          · omega
          · exact h3 r hr hri hra
        · refine Or.inr ⟨h1, ?_⟩
          intro r hr hri
          rcases List.mem_cons.1 hr with rfl | hr
          · exact ha
          · exact h2 r hr hri
    have hkeep : ∀ p e, (lastAt hab A (p % 2 ^ hab) = some p ∧ idOf hab p ≠ 0 ∧ p % 2 ^ hab ≠ e ∧ EndsAt hab A ml (p % 2 ^ hab) e) →
        (lastAt hab (x :: A) (p % 2 ^ hab) = some p ∧ idOf hab p ≠ 0 ∧ p % 2 ^ hab ≠ e ∧ EndsAt hab (x :: A) ml (p % 2 ^ hab) e) := by
      rintro p e ⟨h1, h2, h3, h4⟩
      have hge : x % 2 ^ hab ≤ p % 2 ^ hab := by
        rcases Nat.lt_or_ge (p % 2 ^ hab) (x % 2 ^ hab) with h | h
        · rw [hlast_lt _ h] at h1; simp at h1
        · exact h
      exact ⟨by rw [hlast, h1]; rfl, h2, h3, (hends _ _ hge).2 h4⟩
    constructor
    · rintro (h | ⟨p, e, h1, h2, h3, h4, h5⟩)
      · generalize hst : adrEnd hab ml A = stop at h
        split at h
        · simp at h
        rename_i hne
        have hne1 : ¬ getId hab x = 0 := fun h => hne (Or.inl h)
        have hne2 : ¬ x % 2 ^ hab = stop := fun h => hne (Or.inr (by rw [getAddress_eq]; exact h))
        refine ⟨x, stop, ?_, ?_, hne2, ?_, by simpa using h⟩
        · rw [hlast, if_pos rfl]
          have : lastAt hab A (x % 2 ^ hab) = none := by
            unfold lastAt
            rw [List.getLast?_eq_none_iff, List.filter_eq_nil_iff]
            intro q hq hat
            have hat : AtAddr hab (x % 2 ^ hab) q := by simpa using hat
            cases A with
            | nil => simp at hq
            | cons b A =>
              simp only [adrEnd, getAddress_eq] at hst
              have hb := hsort.1 b (by simp)
              have : b % 2 ^ hab ≤ q % 2 ^ hab := by
                rcases List.mem_cons.1 hq with rfl | hq
                · exact Nat.le_refl _
                · exact (List.pairwise_cons.1 hsort.2).1 q hq
              have := hat.2
              omega
          rw [this]; rfl
        · rw [getId_eq] at hne1; exact hne1
        · cases A with
          | nil =>
            refine Or.inr ⟨hst.symm, ?_⟩
            intro r hr _
            simp at hr; subst hr; exact Nat.le_refl _
          | cons b A =>
            simp only [adrEnd, getAddress_eq] at hst
            have hb := hsort.1 b (by simp)
            refine Or.inl ⟨by omega, ⟨b, by simp, hA' b (by simp), hst⟩, ?_⟩
            intro r hr hri hlt
            rcases List.mem_cons.1 hr with rfl | hr
            · omega
            rcases List.mem_cons.1 hr with rfl | hr
            · omega
            · have := (List.pairwise_cons.1 hsort.2).1 r hr; omega
      · obtain ⟨g1, g2, g3, g4⟩ := hkeep p e ⟨h1, h2, h3, h4⟩
        exact ⟨p, e, g1, g2, g3, g4, h5⟩
    · rintro ⟨p, e, h1, h2, h3, h4, h5⟩
      by_cases hA1 : lastAt hab A (p % 2 ^ hab) = some p
      · right
        have hge : x % 2 ^ hab ≤ p % 2 ^ hab := by
          rcases Nat.lt_or_ge (p % 2 ^ hab) (x % 2 ^ hab) with h | h
          · rw [hlast_lt _ h] at hA1; simp at hA1
          · exact h
        exact ⟨p, e, hA1, h2, h3, (hends _ _ hge).1 h4, h5⟩
      · left
        rw [hlast] at h1
        have hnone : lastAt hab A (p % 2 ^ hab) = none := by
          cases hl : lastAt hab A (p % 2 ^ hab) with
          | none => rfl
          | some q => rw [hl] at h1; simp at h1; subst h1; exact absurd hl hA1
        rw [hnone] at h1
        split at h1
        · simp at h1; subst h1
          rename_i _
          have hstop : adrEnd hab ml A = e := by
            have h4' := (hends _ _ (Nat.le_refl _)).1 h4
            cases A with
            | nil =>
              rcases h4' with ⟨_, ⟨q, hq, _⟩, _⟩ | ⟨h, _⟩
              · simp at hq
              · exact h.symm
            | cons b A =>
              have hb := hsort.1 b (by simp)
              have hbne : b % 2 ^ hab ≠ x % 2 ^ hab := by
                intro hc
                unfold lastAt at hnone
                rw [List.getLast?_eq_none_iff, List.filter_eq_nil_iff] at hnone
                exact hnone b (by simp) (by simp [AtAddr, hc]; exact hA' b (by simp))
              simp only [adrEnd, getAddress_eq]
              rcases h4' with ⟨hlt, ⟨q, hq, hq2⟩, hmin⟩ | ⟨_, hmax⟩
              · have h1 := hmin b (by simp) (hA' b (by simp)) (by omega)
                have h2 : b % 2 ^ hab ≤ q % 2 ^ hab := by
                  rcases List.mem_cons.1 hq with rfl | hq
                  · exact Nat.le_refl _
                  · exact (List.pairwise_cons.1 hsort.2).1 q hq
                have := hq2.2
                omega
              · have := hmax b (by simp) (hA' b (by simp)); omega
          simp only [hstop]
          rw [if_neg]
          · simpa using h5
          · rw [getAddress_eq, getId_eq]; rintro (h | h)
            · exact h2 h
            · exact h3 h
        · simp at h1

theorem adrItems_pairwise (hab ml : Nat) (pay : List (Option UInt8)) (A : List Nat)
    (hsort : A.Pairwise (fun a b => getAddress hab a ≤ getAddress hab b)) (hml : ∀ p ∈ A, getAddress hab p ≤ ml)
    (hpay : ml ≤ pay.length) :
    (adrItems hab ml pay A).Pairwise (fun a b => a.start + a.data.length ≤ b.start) ∧
    ∀ it ∈ adrItems hab ml pay A, 0 < it.data.length ∧ it.start + it.data.length ≤ ml ∧ it.isImm = false ∧
      (∀ q, A.head? = some q → getAddress hab q ≤ it.start) ∧ it.data = (pay.drop it.start).take it.data.length := by
  induction A with
  | nil => simp [adrItems]
  | cons x A ih =>
    rw [List.pairwise_cons] at hsort
    obtain ⟨ih1, ih2⟩ := ih hsort.2 (fun q hq => hml q (by simp [hq]))
    unfold adrItems
    generalize hst : adrEnd hab ml A = stop
    have hle : getAddress hab x ≤ stop ∧ stop ≤ ml := by
      rw [← hst]
      cases A with
      | nil => exact ⟨hml x (by simp), Nat.le_refl _⟩
      | cons q A => exact ⟨hsort.1 q (by simp), hml q (by simp)⟩
    have hlen : (adrItem hab pay x stop).data.length = stop - getAddress hab x := by
      simp only [adrItem, List.length_take, List.length_drop]; omega
    have hafter : ∀ it ∈ adrItems hab ml pay A, stop ≤ it.start := by
      intro it hit
      have := (ih2 it hit).2.2.2.1
      cases A with
      | nil => simp [adrItems] at hit
      | cons q A => simp only [adrEnd] at hst; rw [← hst]; exact this q rfl
    have hmem : ∀ it ∈ adrItems hab ml pay A, 0 < it.data.length ∧ it.start + it.data.length ≤ ml ∧ it.isImm = false ∧
      (∀ q, (x :: A).head? = some q → getAddress hab q ≤ it.start) ∧ it.data = (pay.drop it.start).take it.data.length := by
      intro it hit
      obtain ⟨g1, g2, g3, g4, g5⟩ := ih2 it hit
      refine ⟨g1, g2, g3, ?_, g5⟩
      intro q hq; simp at hq; subst hq
      have := hafter it hit; omega
    by_cases hc : getId hab x = 0 ∨ getAddress hab x = stop
    · simp only [if_pos hc, List.nil_append]
      exact ⟨ih1, hmem⟩
    · simp only [if_neg hc, List.cons_append, List.nil_append]
      have hne : getAddress hab x ≠ stop := fun h => hc (Or.inr h)
      refine ⟨?_, ?_⟩
      · rw [List.pairwise_cons]
        refine ⟨?_, ih1⟩
        intro b hb
        rw [hlen]
        have := hafter b hb
        have : (adrItem hab pay x stop).start = getAddress hab x := rfl
        omega
      · intro it hit
        rcases List.mem_cons.1 hit with rfl | hit
        · rw [hlen]
          refine ⟨by omega, ?_, rfl, ?_, ?_⟩
          · show getAddress hab x + _ ≤ ml; omega
          · intro q hq; simp at hq; subst hq; exact Nat.le_refl _
          · rfl
        · exact hmem it hit

end Spead2
