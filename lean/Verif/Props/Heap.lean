import Verif.Lemmas.Heap
import Verif.Props.LiveHeap

/-!
# C17, C49 (and the last part of C11): frozen heaps

`ptrs` below is always the list of relevant item pointers of the accepted packets, each once, in order of
first arrival (what C16 shows the heap stores).
-/

namespace Spead2
open Spec

/-- Reachable heaps store 64-bit pointers. -/
theorem reach_ptr64 {ooo : Bool} {s : LiveHeap} {acc : List Pkt} (inv : LInv ooo s acc) (h64 : ∀ p ∈ acc, Ptr64 p) :
    ∀ q ∈ (relevantPtrs s.hab acc).eraseDups, q < 2 ^ 64 := by
  intro q hq
  rw [List.mem_eraseDups, relevantPtrs] at hq
  simp only [List.mem_flatMap, List.mem_filter] at hq
  obtain ⟨p, hp, hq, _⟩ := hq
  exact h64 p hp q hq

theorem addressed_le_extent {ooo : Bool} {s : LiveHeap} {acc : List Pkt} (inv : LInv ooo s acc) :
    ∀ q ∈ (relevantPtrs s.hab acc).eraseDups, ¬ ptrImmediate q → q % 2 ^ s.hab ≤ extent acc := by
  intro q hq hi
  rw [List.mem_eraseDups, relevantPtrs] at hq
  simp only [List.mem_flatMap, List.mem_filter] at hq
  obtain ⟨p, hp, hq, _⟩ := hq
  have h1 : q % 2 ^ s.hab ≤ pktEnd p := by
    rw [← inv.hab p hp]
    unfold pktEnd
    have hq' : q ∈ p.pointers.filter (fun q => ¬ ptrImmediate q) := by simp [hq, hi]
    generalize p.pointers.filter (fun q => ¬ ptrImmediate q) = l at hq'
    generalize max (p.payloadOffset + p.payload.length) (p.heapLength.getD 0) = z
    induction l with
    | nil => simp at hq'
    | cons x l ih =>
      simp only [List.foldr_cons]
      rcases List.mem_cons.1 hq' with rfl | h
      · omega
      · have := ih h; omega
  have h2 : pktEnd p ≤ extent acc := by
    unfold extent
    clear h1 hq inv
    induction acc with
    | nil => simp at hp
    | cons x l ih =>
      simp only [List.foldr_cons]
      rcases List.mem_cons.1 hp with rfl | h
      · omega
      · have := ih h; omega
  omega

/-- The sorted pointers. -/
theorem sort_facts (hab : Nat) (hh : hab ≤ 63) (ptrs : List Nat) (h64 : ∀ q ∈ ptrs, q < 2 ^ 64) :
    ∃ A B, stableSort hab ptrs = A ++ B ∧ (∀ q, q ∈ A ↔ q ∈ ptrs ∧ ¬ ptrImmediate q) ∧ (∀ q ∈ B, ptrImmediate q) ∧
      B.Perm (ptrs.filter (fun q => ptrImmediate q)) ∧
      A.Pairwise (fun a b => getAddress hab a ≤ getAddress hab b) ∧
      B.Pairwise (fun a b => getImmediate hab a ≤ getImmediate hab b) ∧
      (∀ a, lastAt hab A a = lastAt hab ptrs a) := by
  have hperm := stableSort_perm hab ptrs
  have hsort := stableSort_sorted hab ptrs
  have h64' : ∀ q ∈ stableSort hab ptrs, q < 2 ^ 64 := fun q hq => h64 q (hperm.mem_iff.1 hq)
  have hsplit := sorted_split hab _ hh h64' hsort
  have hk : ∀ q ∈ ptrs, sortKey hab q = (if 2 ^ 63 ≤ q then 2 ^ 63 else 0) + q % 2 ^ hab :=
    fun q hq => sortKey_eq hab q (h64 q hq) hh
  refine ⟨_, _, hsplit, ?_, ?_, hperm.filter _, ?_, ?_, ?_⟩
  · intro q; simp [hperm.mem_iff]
  · intro q hq; simpa using (List.mem_filter.1 hq).2
  · have := hsort.sublist (List.filter_sublist (p := fun p => decide ¬ ptrImmediate p))
    refine this.imp_of_mem ?_
    intro a b ha hb hab'
    simp only [List.mem_filter, hperm.mem_iff, decide_eq_true_eq] at ha hb
    have ha2 := ha.2; have hb2 := hb.2
    unfold ptrImmediate at ha2 hb2
    rw [hk a ha.1, hk b hb.1, if_neg ha2, if_neg hb2] at hab'
    rw [getAddress_eq, getAddress_eq]; omega
  · have := hsort.sublist (List.filter_sublist (p := fun p => decide (ptrImmediate p)))
    refine this.imp_of_mem ?_
    intro a b ha hb hab'
    simp only [List.mem_filter, hperm.mem_iff, decide_eq_true_eq] at ha hb
    have ha2 := ha.2; have hb2 := hb.2
    unfold ptrImmediate at ha2 hb2
    rw [hk a ha.1, hk b hb.1, if_pos ha2, if_pos hb2] at hab'
    rw [getImmediate_eq, getImmediate_eq]; omega
  · intro a
    unfold lastAt
    rw [List.filter_filter]
    have : (stableSort hab ptrs).filter (fun q => decide (AtAddr hab a q) && decide (¬ ptrImmediate q)) =
        (stableSort hab ptrs).filter (fun q => decide (AtAddr hab a q)) := by
      apply List.filter_congr
      intro q _
      by_cases h : AtAddr hab a q
      · simp [h, h.1]
      · simp [h]
    rw [this, stableSort_filter]
    intro x y hx hy
    have hx : AtAddr hab a x := of_decide_eq_true hx
    have hy : AtAddr hab a y := of_decide_eq_true hy
    obtain ⟨hx1, hx2⟩ := hx
    obtain ⟨hy1, hy2⟩ := hy
    unfold ptrImmediate at hx1 hy1
    rw [sortKey_eq hab x (by omega) hh, sortKey_eq hab y (by omega) hh, if_neg hx1, if_neg hy1, hx2, hy2]

theorem immItem_data (w p : Nat) (hw : w ≤ 7) :
    ((beBytes 8 p).drop (8 - 8 * w / 8)).take (8 * w / 8) = beBytes w (p % 2 ^ (8 * w)) := by
  have e : 8 * w / 8 = w := by omega
  rw [e]
  have h8 : beBytes 8 p = beBytes (8 - w) (p / 256 ^ w) ++ beBytes w p := by
    rw [← beBytes_add]; congr 1; omega
  rw [h8, List.drop_left' (by simp), List.take_of_length_le (by simp), show 2 ^ (8 * w) = 256 ^ w by rw [Nat.pow_mul],
    beBytes_mod w p (Nat.le_refl _)]

/-- C17: freezing a contiguous heap. The items are the addressed items `adr` in order of address followed
by the immediates `imm`. Addressed items lie inside the payload, are non-empty and disjoint. There is an
item (id, start, end) exactly when the last pointer to announce address `start` has that (non-null) id,
`end` is the next announced address or the payload end, and the item is not empty. Every byte is the byte
some accepted packet carried for that position. Each non-null immediate pointer gives one immediate item
with its id, value and bytes. -/
theorem C17_items (p0 : Pkt) (w : Nat) (hw7 : w ≤ 7) (hw : p0.hab = 8 * w) (ooo : Bool) (ps : List Pkt)
    (hv : ∀ p ∈ ps, PktValid p) (h64 : ∀ p ∈ ps, Ptr64 p) (s : LiveHeap) (acc : List Pkt)
    (h : (LiveHeap.new p0).run ooo ps = some (s, acc)) (hc : s.isContiguous = true) :
    let ptrs := (relevantPtrs (8 * w) acc).eraseDups
    ∃ adr imm, s.load true = some (adr ++ imm) ∧
      (∀ it ∈ adr, it.isImm = false ∧ 0 < it.data.length ∧ it.start + it.data.length ≤ extent acc) ∧
      adr.Pairwise (fun a b => a.start + a.data.length ≤ b.start) ∧
      (∀ id a e, (∃ it ∈ adr, it.id = id ∧ it.start = a ∧ it.start + it.data.length = e) ↔
        (id ≠ 0 ∧ a ≠ e ∧ EndsAt (8 * w) ptrs (extent acc) a e ∧ ∃ p, lastAt (8 * w) ptrs a = some p ∧ idOf (8 * w) p = id)) ∧
      (∀ it ∈ adr, ∀ i, i < it.data.length → ∃ p ∈ acc, Carries p (it.start + i) ∧
        it.data[i]? = some p.payload[it.start + i - p.payloadOffset]?) ∧
      (∀ it ∈ imm, it.isImm = true ∧ it.data = (beBytes w it.value).map some) ∧
      (imm.map (fun it => (it.id, it.value))).Perm
        ((ptrs.filter (fun q => ptrImmediate q ∧ idOf (8 * w) q ≠ 0)).map (fun q => (idOf (8 * w) q, q % 2 ^ (8 * w)))) ∧
      imm.Pairwise (fun a b => a.value ≤ b.value) := by
  have inv := reach_inv hv h
  have hrun : acc.Sublist ps ∧ s.hab = 8 * w := by
    obtain ⟨s', l, h1, _, hsub, _, hhab⟩ := run_inv (LInv.new ooo p0) ps hv
    rw [h] at h1
    simp only [Option.some.injEq, Prod.mk.injEq] at h1
    rw [h1.1, h1.2, hhab, ← hw]
    exact ⟨hsub, rfl⟩
  obtain ⟨hsub, hab⟩ := hrun
  intro ptrs
  have hptrs : s.ptrs.list = ptrs := by rw [inv.ptrs.list, hab]
  have hp64 : ∀ q ∈ ptrs, q < 2 ^ 64 := by
    have := reach_ptr64 inv (fun p hp => h64 p (hsub.subset hp))
    rwa [hab] at this
  have haddr : ∀ q ∈ ptrs, ¬ ptrImmediate q → q % 2 ^ (8 * w) ≤ extent acc := by
    have := addressed_le_extent inv
    rwa [hab] at this
  have hcov := (C13_contiguous_iff p0 ooo ps hv s acc h).1 hc
  have hbuf : extent acc ≤ s.payload.length := by
    rcases Nat.eq_zero_or_pos (extent acc) with h0 | h0
    · omega
    · have := (C11_buffer_size p0 ooo ps hv s acc h).2 (extent acc - 1) (hcov _ (by omega))
      omega
  obtain ⟨A, B, hAB, hA, hB, hBp, hAs, hBs, hlast⟩ := sort_facts (8 * w) (by omega) ptrs hp64
  have hAi : ∀ q ∈ A, ¬ ptrImmediate q := fun q hq => ((hA q).1 hq).2
  have hAm : ∀ q ∈ A, getAddress (8 * w) q ≤ extent acc := fun q hq => by
    rw [getAddress_eq]; exact haddr q ((hA q).1 hq).1 ((hA q).1 hq).2
  have hends : ∀ a e, EndsAt (8 * w) A (extent acc) a e ↔ EndsAt (8 * w) ptrs (extent acc) a e := by
    intro a e
    unfold EndsAt
    have e1 : (∃ q ∈ A, AtAddr (8 * w) e q) ↔ (∃ q ∈ ptrs, AtAddr (8 * w) e q) := by
      constructor
      · rintro ⟨q, hq, hq2⟩; exact ⟨q, ((hA q).1 hq).1, hq2⟩
      · rintro ⟨q, hq, hq2⟩; exact ⟨q, (hA q).2 ⟨hq, hq2.1⟩, hq2⟩
    have e2 : ∀ P : Nat → Prop, (∀ r ∈ A, ¬ ptrImmediate r → P r) ↔ (∀ r ∈ ptrs, ¬ ptrImmediate r → P r) := by
      intro P
      constructor
      · intro hh r hr hi; exact hh r ((hA r).2 ⟨hr, hi⟩) hi
      · intro hh r hr hi; exact hh r ((hA r).1 hr).1 hi
    rw [e1, e2 (fun r => a < r % 2 ^ (8 * w) → e ≤ r % 2 ^ (8 * w)), e2 (fun r => r % 2 ^ (8 * w) ≤ a)]
  have himmB := loop_imm (8 * w) (extent acc) s.payload true B ((stableSort (8 * w) ptrs).filter isImmediate).length hB (by
    rw [hAB, List.filter_append, List.length_append]
    have : B.filter isImmediate = B := by
      rw [List.filter_eq_self]; intro q hq; exact (isImmediate_iff q).2 (hB q hq)
    rw [this]; omega)
  have hload : s.load true = some (adrItems (8 * w) (extent acc) s.payload A ++
      (B.filter (fun p => getId (8 * w) p ≠ 0)).map (immItem (8 * w))) := by
    unfold LiveHeap.load
    simp only [hptrs, hab]
    rw [inv.min, hAB, loop_adr (8 * w) (extent acc) s.payload A B _ _ hAi hB (by rw [← hAB]; exact himmB) hAs hAm hbuf]
  obtain ⟨hpw, hall⟩ := adrItems_pairwise (8 * w) (extent acc) s.payload A hAs hAm hbuf
  refine ⟨_, _, hload, ?_, hpw, ?_, ?_, ?_, ?_, ?_⟩
  · intro it hit
    obtain ⟨g1, g2, g3, _⟩ := hall it hit
    exact ⟨g3, g1, g2⟩
  · intro id a e
    constructor
    · rintro ⟨it, hit, rfl, rfl, rfl⟩
      obtain ⟨g1, g2, _⟩ := hall it hit
      obtain ⟨p, e, h1, h2, h3, h4, rfl⟩ := (adrItems_mem (8 * w) (extent acc) s.payload A hAi hAs it).1 hit
      have hle : p % 2 ^ (8 * w) ≤ e ∧ e ≤ extent acc := by
        rcases h4 with ⟨ha, ⟨q, hq, hq2⟩, _⟩ | ⟨ha, hb⟩
        · have := hAm q hq
          rw [getAddress_eq, hq2.2] at this
          exact ⟨by omega, this⟩
        · subst ha
          have : p ∈ A := by
            have := List.mem_of_getLast? h1
            exact (List.mem_filter.1 this).1
          have := hAm p this
          rw [getAddress_eq] at this
          exact ⟨this, Nat.le_refl _⟩
      have hst : (adrItem (8 * w) s.payload p e).start = p % 2 ^ (8 * w) := by simp [adrItem, getAddress_eq]
      have hen : (adrItem (8 * w) s.payload p e).start + (adrItem (8 * w) s.payload p e).data.length = e := by
        simp only [adrItem, getAddress_eq, List.length_take, List.length_drop]
        omega
      have hid : (adrItem (8 * w) s.payload p e).id = idOf (8 * w) p := getId_eq _ _
      rw [hen, hst, hid]
      exact ⟨h2, h3, (hends _ _).1 h4, p, by rw [← hlast]; exact h1, rfl⟩
    · rintro ⟨h1, h2, h3, p, hp, rfl⟩
      have hpa : p % 2 ^ (8 * w) = a := by
        have := (List.mem_filter.1 (List.mem_of_getLast? hp)).2
        exact (of_decide_eq_true this).2
      have hmemp : p ∈ ptrs ∧ ¬ ptrImmediate p := by
        obtain ⟨m1, m2⟩ := (List.mem_filter.1 (List.mem_of_getLast? hp))
        exact ⟨m1, (of_decide_eq_true m2).1⟩
      subst hpa
      have hle : p % 2 ^ (8 * w) ≤ e ∧ e ≤ extent acc := by
        rcases h3 with ⟨ha, ⟨q, hq, hq2⟩, _⟩ | ⟨ha, hb⟩
        · have := haddr q hq hq2.1
          rw [hq2.2] at this
          exact ⟨by omega, this⟩
        · subst ha
          exact ⟨haddr p hmemp.1 hmemp.2, Nat.le_refl _⟩
      refine ⟨adrItem (8 * w) s.payload p e, (adrItems_mem (8 * w) (extent acc) s.payload A hAi hAs _).2
        ⟨p, e, by rw [hlast]; exact hp, h1, h2, (hends _ _).2 h3, rfl⟩, getId_eq _ _, by simp [adrItem, getAddress_eq], ?_⟩
      simp only [adrItem, getAddress_eq, List.length_take, List.length_drop]
      omega
  · intro it hit i hi
    obtain ⟨g1, g2, g3, g4, g5⟩ := hall it hit
    obtain ⟨p, hp, hcp⟩ := hcov (it.start + i) (by omega)
    refine ⟨p, hp, hcp, ?_⟩
    have hlt : it.start + i - p.payloadOffset < p.payload.length := by have := hcp.1; have := hcp.2; omega
    have hb := inv.bytes p hp (it.start + i - p.payloadOffset) _ (List.getElem?_eq_getElem hlt)
    rw [show p.payloadOffset + (it.start + i - p.payloadOffset) = it.start + i by have := hcp.1; omega] at hb
    rw [List.getElem?_eq_getElem hlt, g5, List.getElem?_take_of_lt hi, List.getElem?_drop, hb]
  · intro it hit
    obtain ⟨q, hq, rfl⟩ := List.mem_map.1 hit
    refine ⟨rfl, ?_⟩
    simp only [immItem, getImmediate_eq]
    rw [immItem_data w q hw7]
  · rw [List.map_map]
    have e1 : ((fun it : RxItem => (it.id, it.value)) ∘ immItem (8 * w)) = fun q => (idOf (8 * w) q, q % 2 ^ (8 * w)) := by
      funext q
      simp [immItem, getId_eq, getImmediate_eq, idOf]
    rw [e1]
    apply List.Perm.map
    have := hBp.filter (fun q => decide (getId (8 * w) q ≠ 0))
    rw [List.filter_filter] at this
    refine this.trans (List.Perm.of_eq ?_)
    apply List.filter_congr
    intro q _
    have e : getId (8 * w) q = idOf (8 * w) q := getId_eq _ _
    rw [e, ← Bool.decide_and, decide_eq_decide]; exact And.comm
  · rw [List.pairwise_map]
    refine (hBs.sublist List.filter_sublist).imp ?_
    intro a b hab'
    exact hab'

/-- C11, last part: whether or not the heap is contiguous, an incomplete heap only has its immediate items,
none of them written outside their storage. -/
theorem C11_incomplete_items (p0 : Pkt) (w : Nat) (hw7 : w ≤ 7) (hw : p0.hab = 8 * w) (ooo : Bool) (ps : List Pkt)
    (hv : ∀ p ∈ ps, PktValid p) (h64 : ∀ p ∈ ps, Ptr64 p) (s : LiveHeap) (acc : List Pkt)
    (h : (LiveHeap.new p0).run ooo ps = some (s, acc)) :
    ∃ imm, s.load false = some imm ∧ (∀ it ∈ imm, it.isImm = true ∧ it.data = (beBytes w it.value).map some) ∧
      (imm.map (fun it => (it.id, it.value))).Perm
        (((relevantPtrs (8 * w) acc).eraseDups.filter (fun q => ptrImmediate q ∧ idOf (8 * w) q ≠ 0)).map
          (fun q => (idOf (8 * w) q, q % 2 ^ (8 * w)))) := by
  have inv := reach_inv hv h
  have hrun : acc.Sublist ps ∧ s.hab = 8 * w := by
    obtain ⟨s', l, h1, _, hsub, _, hhab⟩ := run_inv (LInv.new ooo p0) ps hv
    rw [h] at h1
    simp only [Option.some.injEq, Prod.mk.injEq] at h1
    rw [h1.1, h1.2, hhab, ← hw]
    exact ⟨hsub, rfl⟩
  obtain ⟨hsub, hab⟩ := hrun
  have hptrs : s.ptrs.list = (relevantPtrs (8 * w) acc).eraseDups := by rw [inv.ptrs.list, hab]
  have hp64 : ∀ q ∈ (relevantPtrs (8 * w) acc).eraseDups, q < 2 ^ 64 := by
    have := reach_ptr64 inv (fun p hp => h64 p (hsub.subset hp))
    rwa [hab] at this
  obtain ⟨A, B, hAB, hA, hB, hBp, hAs, hBs, hlast⟩ := sort_facts (8 * w) (by omega) _ hp64
  have hAi : ∀ q ∈ A, ¬ ptrImmediate q := fun q hq => ((hA q).1 hq).2
  refine ⟨(B.filter (fun p => getId (8 * w) p ≠ 0)).map (immItem (8 * w)), ?_, ?_, ?_⟩
  · unfold LiveHeap.load
    simp only [hptrs, hab]
    rw [hAB, loop_adr_drop _ _ _ A B _ hAi, loop_imm _ _ _ _ B _ hB]
    rw [List.filter_append, List.length_append]
    have : B.filter isImmediate = B := by
      rw [List.filter_eq_self]; intro q hq; exact (isImmediate_iff q).2 (hB q hq)
    rw [this]; omega
  · intro it hit
    obtain ⟨q, hq, rfl⟩ := List.mem_map.1 hit
    refine ⟨rfl, ?_⟩
    simp only [immItem, getImmediate_eq]
    rw [immItem_data w q hw7]
  · rw [List.map_map]
    have e1 : ((fun it : RxItem => (it.id, it.value)) ∘ immItem (8 * w)) = fun q => (idOf (8 * w) q, q % 2 ^ (8 * w)) := by
      funext q
      simp [immItem, getId_eq, getImmediate_eq, idOf]
    rw [e1]
    apply List.Perm.map
    have := hBp.filter (fun q => decide (getId (8 * w) q ≠ 0))
    rw [List.filter_filter] at this
    refine this.trans (List.Perm.of_eq ?_)
    apply List.filter_congr
    intro q _
    have e : getId (8 * w) q = idOf (8 * w) q := getId_eq _ _
    rw [e, ← Bool.decide_and, decide_eq_decide]; exact And.comm

/-- The sample heap of Verif/Props/LiveHeap.lean with an immediate item and padding: two addressed items,
one immediate. -/
example : ∃ s acc, (LiveHeap.new samplePkts[0]).run true
      (⟨40, 1, none, 12, [], [0x8010020000000007, 12]⟩ :: samplePkts) = some (s, acc) ∧ s.isContiguous = true ∧
    s.load true = some [⟨0x1000, false, 0, 0, ([1, 2, 3, 4, 5, 6, 7, 8] : Bytes).map some⟩,
      ⟨0x1001, false, 8, 0, ([9, 10, 11, 12] : Bytes).map some⟩,
      ⟨0x1002, true, 0, 7, ([0, 0, 0, 0, 7] : Bytes).map some⟩] := by
  refine ⟨(((LiveHeap.new samplePkts[0]).run true
      (⟨40, 1, none, 12, [], [0x8010020000000007, 12]⟩ :: samplePkts)).get (by decide +kernel)).1,
      [⟨40, 1, none, 12, [], [0x8010020000000007, 12]⟩, samplePkts[0], samplePkts[1], samplePkts[3]], ?_, ?_, ?_⟩ <;> decide +kernel

/-! ### C49: stream control items -/

/-- Full property C49: for every heap a receiver can freeze, `is_start_of_stream` and `is_end_of_stream`
are safe to call and say whether the heap has a stream control item with that value. -/
def C49_statement : Prop :=
  ∀ (p0 : Pkt) (w : Nat), 1 ≤ w → w ≤ 7 → p0.hab = 8 * w → ∀ (ooo : Bool) (ps : List Pkt), (∀ p ∈ ps, PktValid p) →
    (∀ p ∈ ps, Ptr64 p) → ∀ s acc, (LiveHeap.new p0).run ooo ps = some (s, acc) → s.isContiguous = true →
    ∀ items, s.load true = some items → ∀ v, (isCtrlItem v items).isSome

/-- C49 for any list of items whose stream control items are at most 8 bytes of received data. -/
theorem ctrl_items (items : List RxItem) (v : Nat)
    (h : ∀ it ∈ items, it.id = 6 → it.data.length ≤ 8 ∧ ∃ b : Bytes, it.data = b.map some) :
    ∃ r, isCtrlItem v items = some r ∧
      (r = true ↔ ∃ it ∈ items, it.id = 6 ∧ ∃ b : Bytes, it.data = b.map some ∧ beNat b = v) := by
  induction items with
  | nil => exact ⟨false, rfl, by simp⟩
  | cons it rest ih =>
    obtain ⟨r, hr, hiff⟩ := ih (fun x hx => h x (by simp [hx]))
    unfold isCtrlItem
    by_cases h6 : it.id = 6
    · obtain ⟨hl, b, hb⟩ := h it (by simp) h6
      have hlb : loadBytesBe? it.data = some (beNat b) := by
        unfold loadBytesBe?
        rw [if_pos hl, hb]
        have hm : (b.map some).mapM id = some b := by
          clear hb hl
          induction b with
          | nil => rfl
          | cons x b ih => simp [List.mapM_cons, ih]
        rw [hm]; rfl
      rw [if_pos (show it.id = STREAM_CTRL_ID from h6), hlb]
      simp only
      have hinj : ∀ b' : Bytes, it.data = b'.map some → b' = b := by
        intro b' hb'
        rw [hb] at hb'
        exact (List.map_inj_right (fun x y h => by simpa using h)).1 hb'.symm
      by_cases hv : beNat b = v
      · rw [if_pos hv]
        exact ⟨true, rfl, by simp only [true_iff]; exact ⟨it, by simp, h6, b, hb, hv⟩⟩
      · rw [if_neg hv]
        refine ⟨r, hr, hiff.trans ?_⟩
        constructor
        · rintro ⟨x, hx, h⟩; exact ⟨x, by simp [hx], h⟩
        · rintro ⟨x, hx, hx6, b', hb', hv'⟩
          rcases List.mem_cons.1 hx with rfl | hx
          · rw [hinj b' hb'] at hv'; exact absurd hv' hv
          · exact ⟨x, hx, hx6, b', hb', hv'⟩
    · rw [if_neg (show ¬ it.id = STREAM_CTRL_ID from h6)]
      refine ⟨r, hr, hiff.trans ?_⟩
      constructor
      · rintro ⟨x, hx, h⟩; exact ⟨x, by simp [hx], h⟩
      · rintro ⟨x, hx, hx6, h⟩
        rcases List.mem_cons.1 hx with rfl | hx
        · exact absurd hx6 h6
        · exact ⟨x, hx, hx6, h⟩

theorem all_some {l : List (Option UInt8)} (h : ∀ i, i < l.length → ∃ b, l[i]? = some (some b)) :
    ∃ b : Bytes, l = b.map some := by
  induction l with
  | nil => exact ⟨[], rfl⟩
  | cons x l ih =>
    obtain ⟨b, hb⟩ := ih (fun i hi => by simpa using h (i + 1) (by simpa using hi))
    obtain ⟨y, hy⟩ := h 0 (by simp)
    simp at hy
    exact ⟨y :: b, by simp [hy, hb]⟩

/-- C49 for every frozen heap whose stream control items are at most 8 bytes long: safe and exact.
Missing: longer stream control items, for which the code misbehaves (`C49_violated`). -/
theorem C49_ctrl_partial (p0 : Pkt) (w : Nat) (hw7 : w ≤ 7) (hw : p0.hab = 8 * w) (ooo : Bool) (ps : List Pkt)
    (hv : ∀ p ∈ ps, PktValid p) (h64 : ∀ p ∈ ps, Ptr64 p) (s : LiveHeap) (acc : List Pkt)
    (h : (LiveHeap.new p0).run ooo ps = some (s, acc)) (hc : s.isContiguous = true) :
    ∃ items, s.load true = some items ∧ ((∀ it ∈ items, it.id = 6 → it.data.length ≤ 8) →
      ∀ v, ∃ r, isCtrlItem v items = some r ∧
        (r = true ↔ ∃ it ∈ items, it.id = 6 ∧ ∃ b : Bytes, it.data = b.map some ∧ beNat b = v)) := by
  obtain ⟨adr, imm, h1, _, _, _, h5, h6, _⟩ := C17_items p0 w hw7 hw ooo ps hv h64 s acc h hc
  refine ⟨adr ++ imm, h1, fun hlen v => ctrl_items _ v ?_⟩
  intro it hit hid
  refine ⟨hlen it hit hid, ?_⟩
  rcases List.mem_append.1 hit with hit | hit
  · apply all_some
    intro i hi
    obtain ⟨p, _, hcar, hd⟩ := h5 it hit i hi
    have hlt : it.start + i - p.payloadOffset < p.payload.length := by have := hcar.1; have := hcar.2; omega
    exact ⟨_, by rw [hd, List.getElem?_eq_getElem hlt]⟩
  · exact ⟨_, (h6 it hit).2⟩

/-- One packet whose only item is a 9-byte stream control item. -/
def longCtrl : Pkt := ⟨40, 1, some 9, 0, [0, 0, 0, 0, 0, 0, 0, 0, 2], [6 * 2 ^ 40]⟩

/-- C49 does not hold: a 9-byte addressed stream control item makes `is_end_of_stream` violate the
precondition of `load_bytes_be` (failed assertion; in release builds a write before a local variable). -/
theorem C49_violated : ¬ C49_statement := by
  intro h
  have := h longCtrl 5 (by decide) (by decide) rfl true [longCtrl]
    (by intro p hp l hl; simp at hp; subst hp; simp [longCtrl] at hl; subst hl; decide)
    (by intro p hp q hq; simp at hp; subst hp; simp [longCtrl] at hq; subst hq; decide)
    (((LiveHeap.new longCtrl).run true [longCtrl]).get (by decide +kernel)).1 [longCtrl] (by decide +kernel)
    (by decide +kernel) [⟨6, false, 0, 0, ([0, 0, 0, 0, 0, 0, 0, 0, 2] : Bytes).map some⟩] (by decide +kernel) 2
  revert this
  decide +kernel

/-- A heap with an immediate and a short addressed stop item. -/
example : isEndOfStream [⟨0x1000, false, 0, 0, [some 1]⟩, ⟨6, false, 1, 0, [some 0, some 2]⟩] = some true ∧
    isStartOfStream [⟨0x1000, false, 0, 0, [some 1]⟩, ⟨6, false, 1, 0, [some 0, some 2]⟩] = some false := by
  decide

end Spead2
