import Verif.Props.EndToEnd
import Verif.Lemmas.Traffic

namespace Spead2
open Spec

/-! ### The packets of a sent heap -/

/-- Everything a receiver sees of the packets of one heap. -/
structure SentPkts (h : SendHeap) (cnt mps w : Nat) (pkts : List GenPacket) (S : List Pkt) : Prop where
  recv : (pkts.map GenPacket.bytes).map recvPkt? = S.map (fun p => some (some p))
  fam : Family S (8 * w) (heapLength mps h)
  nodup : S.Nodup
  same : ∀ p ∈ S, p.heapCnt = cnt
  cover : ∀ x, x < heapLength mps h → ∃ p ∈ S, Carries p x
  ptrs : ∀ p ∈ S, ∀ q ∈ p.pointers, q ∈ heapPtrs mps h
  seq : ∃ parts, S = pktSeq w cnt (heapLength mps h) 0 parts
  data : ∀ p ∈ S, (pkts.flatMap (fun p => wirePayload p.bytes)).drop p.payloadOffset = p.payload ++ (pkts.flatMap (fun p => wirePayload p.bytes)).drop (p.payloadOffset + p.payload.length)

theorem sentPkts {h : SendHeap} {cnt mps w : Nat} {pkts : List GenPacket} (hw : h.hab = 8 * w) (hf : Fits h cnt mps)
    (hid : ∀ it ∈ h.items, 4 < it.id) (hs : Sends h cnt mps pkts) : ∃ S, SentPkts h cnt mps w pkts S := by
  have e8 : h.hab / 8 = w := by omega
  have hsuf := suffix_of_heap hw hf hid
  obtain ⟨g, parts, hg, ok, rok⟩ := sends_spec hs hw hf
  obtain ⟨_, hh, hcc, hm, hp, hn, hfp⟩ := gen_ok h cnt mps g hg w hw hf
  obtain ⟨he, hsum⟩ := runOk_parts g w ok rok
  have hw1 := ok.w1
  have hw7 := ok.w7
  have hbytes : pkts.map GenPacket.bytes = packetSeq w cnt (heapLength mps h) 0 parts := by
    rw [rok.bytes, hcc, hp]
  rw [hp] at hsum
  have hH : heapPtrs mps h = itemPtrs w 0 h.items ++ (if padded mps h then [(realPayload (h.hab / 8) h.items).length] else []) := by
    unfold heapPtrs; rw [e8]
  have hpart : ∀ x ∈ parts, ∀ q ∈ x.1, q ∈ heapPtrs mps h := by
    intro x hx q hq
    rw [← hfp]
    cases hr : g.heap.repeatPointers with
    | true => rw [rok.rep hr x hx] at hq; exact hq
    | false =>
      have := rok.once hr
      rw [List.drop_zero] at this
      rw [← this]
      exact List.mem_flatten.2 ⟨x.1, List.mem_map.2 ⟨x, hx, rfl⟩, hq⟩
  have hparts4 : ∀ x ∈ parts, 4 + x.1.length < 65536 := by
    intro x hx
    have h1 := rok.small x hx
    have h0 : 0 < x.2.length := List.length_pos_iff.2 (rok.nonempty x hx)
    have hm := ok.mps
    have : x.1.length ≤ g.total := by
      rw [← g.fullPtrs_length w]
      cases hr : g.heap.repeatPointers with
      | true => rw [rok.rep hr x hx]; exact Nat.le_refl _
      | false =>
        have := rok.once hr
        rw [List.drop_zero] at this
        rw [← this]
        exact (List.sublist_flatten_of_mem (List.mem_map.2 ⟨x, hx, rfl⟩)).length_le
    have := ok.count
    omega
  have hH64 : ∀ q ∈ heapPtrs mps h, q < 2 ^ 64 := by rw [← hfp]; exact fullPtrs_lt g w ok
  have hplain := suffix_plain hsuf
  rw [← hH] at hplain
  have hcnt' : cnt < 2 ^ (8 * w) := by rw [← hcc]; exact ok.cnt
  have hlen' : heapLength mps h < 2 ^ (8 * w) := by rw [← hp]; exact ok.size
  have hrecv := recv_packetSeq hw1 hw7 hcnt' hlen' parts 0 (by omega) hparts4
    (fun x hx q hq => ⟨hH64 q (hpart x hx q hq), (hplain q (hpart x hx q hq)).1⟩)
  rw [← hbytes] at hrecv
  refine ⟨pktSeq w cnt (heapLength mps h) 0 parts, hrecv, ?_, pktSeq_nodup rok.nonempty, fun p hp => (pktSeq_mem hp).2.1,
    fun x hx => pktSeq_cover x (Nat.zero_le _) (by omega), fun p hp q hq => hpart _ (pktSeq_mem hp).2.2.2.2.2.1 q hq, ⟨parts, rfl⟩, ?_⟩
  rotate_right
  · intro p hp
    have hflat : (parts.map Prod.snd).flatten = pkts.flatMap (fun p => wirePayload p.bytes) := by
      rw [he, List.map_map, List.flatMap_def]; rfl
    have := (pktSeq_mem hp).2.2.2.2.2.2
    rw [hflat] at this
    simpa using this
  have hSmem : ∀ p ∈ pktSeq w cnt (heapLength mps h) 0 parts, _ := fun p hp => pktSeq_mem hp
  refine ⟨fun p hp => (hSmem p hp).1, fun p hp => (hSmem p hp).2.2.1, fun p hp => rok.nonempty _ (hSmem p hp).2.2.2.2.2.1,
    fun p hp l hl => ?_, fun p hp => ?_, disj_of_pairwise pktSeq_disj⟩
  · rw [(hSmem p hp).2.2.1] at hl
    simp at hl
    have := (hSmem p hp).2.2.2.2.1
    omega
  · have h1 := (hSmem p hp).2.2.2.2.1
    have hle : ∀ q ∈ p.pointers, ¬ ptrImmediate q → q % 2 ^ p.hab ≤ heapLength mps h := by
      intro q hq hi
      rw [(hSmem p hp).1]
      exact suffix_le hsuf q (hH ▸ hpart _ (hSmem p hp).2.2.2.2.2.1 q hq) hi
    unfold pktEnd
    rw [(hSmem p hp).2.2.1]
    have hle' : ∀ q ∈ p.pointers.filter (fun q => ¬ ptrImmediate q), q % 2 ^ p.hab ≤ heapLength mps h := by
      intro q hq
      obtain ⟨g1, g2⟩ := List.mem_filter.1 hq
      exact hle q g1 (of_decide_eq_true g2)
    generalize p.pointers.filter (fun q => ¬ ptrImmediate q) = l at hle'
    induction l with
    | nil => simp; omega
    | cons x l ih =>
      simp only [List.foldr_cons]
      have := hle' x (by simp)
      have := ih (fun q hq => hle' q (by simp [hq]))
      omega

/-- A heap that is complete has accepted every packet of its family. -/
theorem Family.complete_all {S : List Pkt} {hab hl : Nat} (fam : Family S hab hl) (hcov : ∀ x, x < hl → ∃ p ∈ S, Carries p x)
    {ooo : Bool} {p0 : Pkt} {ps : List Pkt} (hps : ∀ p ∈ ps, p ∈ S) {s : LiveHeap} {acc : List Pkt}
    (h : (LiveHeap.new p0).run ooo ps = some (s, acc)) (hc : s.isComplete = true) : ∀ p ∈ S, p ∈ ps := by
  intro p hp
  have hv : ∀ p ∈ ps, PktValid p := fun q hq => fam.valid q (hps q hq)
  obtain ⟨⟨q, hq, hql⟩, hall⟩ := (C13_complete_iff p0 ooo ps hv s acc h).1 hc
  have hacc : ∀ x ∈ acc, x ∈ S := fun x hx => hps x (run_acc_mem h x hx)
  rw [fam.len q (hacc q hq)] at hql
  simp only [Option.some.injEq] at hql
  have hpl : 0 < p.payload.length := List.length_pos_iff.2 (fam.ne p hp)
  have hend : p.payloadOffset + p.payload.length ≤ hl := by
    have := fam.valid p hp hl (fam.len p hp)
    exact this
  obtain ⟨r, hr, hrc⟩ := hall p.payloadOffset (by omega)
  have : r = p := by
    apply Classical.byContradiction
    intro hne
    exact fam.disj r (hacc r hr) p hp hne p.payloadOffset ⟨hrc, by omega, by omega⟩
  subst this
  exact run_acc_mem h r hr

/-! ### In-order mode does the same on packets in order -/

/-- A heap without its payload ranges, which in-order mode does not keep. -/
def noRanges (s : LiveHeap) : LiveHeap := { s with ranges := [] }

theorem grow_ranges (s : LiveHeap) (p : Pkt) (R : List (Nat × Nat)) :
    ({ s with ranges := R } : LiveHeap).grow p = { s.grow p with ranges := R } := by
  obtain ⟨cnt, hab, hl, rc, ml, eos, pl, pt, rg⟩ := s
  obtain ⟨a1, a2, a3, a4, a5, a6⟩ := p
  unfold LiveHeap.grow
  cases a3 with
  | none => rfl
  | some b => cases hl <;> rfl

theorem addPointer_ranges (s : LiveHeap) (q : Nat) (R : List (Nat × Nat)) :
    ({ s with ranges := R } : LiveHeap).addPointer q = { s.addPointer q with ranges := R } := by
  unfold LiveHeap.addPointer
  by_cases c1 : isImmediate q = true <;> by_cases c2 : getId s.hab q = 0 ∨ getId s.hab q > PAYLOAD_LENGTH_ID <;>
    simp only [c1, c2, if_true, if_false, Bool.false_eq_true] <;> (repeat' split) <;> rfl

theorem addPointers_ranges (l : List Nat) (s : LiveHeap) (R : List (Nat × Nat)) :
    ({ s with ranges := R } : LiveHeap).addPointers l = { s.addPointers l with ranges := R } := by
  unfold LiveHeap.addPointers
  induction l generalizing s with
  | nil => rfl
  | cons q l ih => rw [List.foldl_cons, addPointer_ranges, ih, List.foldl_cons]

theorem grow_received (s : LiveHeap) (p : Pkt) : (s.grow p).received = s.received := by
  unfold LiveHeap.grow
  split
  · split <;> rfl
  · rfl

theorem addPointers_received (l : List Nat) (s : LiveHeap) : (s.addPointers l).received = s.received := by
  unfold LiveHeap.addPointers
  induction l generalizing s with
  | nil => rfl
  | cons q l ih =>
    rw [List.foldl_cons, ih]
    unfold LiveHeap.addPointer
    by_cases c1 : isImmediate q = true <;> by_cases c2 : getId s.hab q = 0 ∨ getId s.hab q > PAYLOAD_LENGTH_ID <;>
      simp only [c1, c2, if_true, if_false, Bool.false_eq_true] <;> (repeat' split) <;> rfl

/-- The ranges of a heap whose packets came in order. -/
def prefixRanges (n : Nat) : List (Nat × Nat) := if n = 0 then [] else [(0, n)]

theorem addRange_prefix (n l : Nat) (hl : 0 < l) : addRange (prefixRanges n) n (n + l) = some (prefixRanges (n + l)) := by
  unfold prefixRanges
  by_cases hn : n = 0
  · subst hn
    rw [if_pos rfl, if_neg (by omega)]
    simp [addRange, joinRange]
  · rw [if_neg hn, if_neg (by omega)]
    simp [addRange, joinRange]

theorem addPacket_inorder {s s' : LiveHeap} {p : Pkt} {b : Bool} (hr : s.ranges = prefixRanges s.received)
    (ho : p.payloadOffset = s.received) (hne : p.payload ≠ []) (h : s.addPacket p true = some (s', b)) :
    (noRanges s).addPacket p false = some (noRanges s', b) ∧
    (b = true → s'.ranges = prefixRanges s'.received ∧ s'.received = s.received + p.payload.length) ∧ (b = false → s' = s) := by
  have hpl : 0 < p.payload.length := List.length_pos_iff.2 hne
  have hadm : s.admit p true = (if lengthConflict s.heapLength p.heapLength then none
      else if lengthTooSmall s.minLength p.heapLength then none
      else if p.hab ≠ s.hab then none else some (prefixRanges (s.received + p.payload.length))) := by
    unfold LiveHeap.admit
    rw [if_pos rfl, hr, ho, addRange_prefix _ _ hpl]
  have hadm' : (noRanges s).admit p false = (if lengthConflict s.heapLength p.heapLength then none
      else if lengthTooSmall s.minLength p.heapLength then none
      else if p.hab ≠ s.hab then none else some []) := by
    unfold LiveHeap.admit noRanges
    rw [if_pos ho]; rfl
  unfold LiveHeap.addPacket at h ⊢
  rw [hadm] at h
  rw [hadm']
  split at h
  · rename_i heq
    simp only [Option.some.injEq, Prod.mk.injEq] at h
    obtain ⟨rfl, rfl⟩ := h
    have : (if lengthConflict s.heapLength p.heapLength then none
      else if lengthTooSmall s.minLength p.heapLength then none
      else if p.hab ≠ s.hab then none else some ([] : List (Nat × Nat))) = none := by
      revert heq
      split
      · simp
      · split
        · simp
        · split <;> simp
    rw [this]
    exact ⟨rfl, by simp, fun _ => rfl⟩
  · rename_i R heq
    have : (if lengthConflict s.heapLength p.heapLength then none
      else if lengthTooSmall s.minLength p.heapLength then none
      else if p.hab ≠ s.hab then none else some ([] : List (Nat × Nat))) = some [] ∧ R = prefixRanges (s.received + p.payload.length) := by
      revert heq
      split
      · simp
      · split
        · simp
        · split
          · simp
          · simp [eq_comm]
    rw [this.1]
    simp only
    simp only at h
    rw [grow_ranges, addPointers_ranges] at h
    rw [if_pos hpl] at h
    have e : ({ noRanges s with ranges := [] } : LiveHeap) = { s with ranges := [] } := rfl
    rw [e, grow_ranges, addPointers_ranges, if_pos hpl]
    simp only at h ⊢
    cases hwp : writePayload ((s.grow p).addPointers p.pointers).payload p.payloadOffset p.payload with
    | none => rw [hwp] at h; simp at h
    | some buf =>
      rw [hwp] at h
      simp only [Option.some.injEq, Prod.mk.injEq] at h
      obtain ⟨rfl, rfl⟩ := h
      refine ⟨rfl, fun _ => ⟨?_, ?_⟩, by simp⟩
      · simp only [addPointers_received, grow_received]; exact this.2
      · simp only [addPointers_received, grow_received]

theorem run_inorder {w cnt hl : Nat} : ∀ (parts : List (List Nat × Bytes)) (off : Nat) {s s' : LiveHeap} {acc : List Pkt},
    (∀ x ∈ parts, x.2 ≠ []) → s.ranges = prefixRanges s.received → s.received = off →
    s.run true (pktSeq w cnt hl off parts) = some (s', acc) → acc = pktSeq w cnt hl off parts →
    (noRanges s).run false (pktSeq w cnt hl off parts) = some (noRanges s', acc)
  | [], off, s, s', acc, _, _, _, h, _ => by
    simp only [pktSeq, LiveHeap.run, Option.some.injEq, Prod.mk.injEq] at h ⊢
    exact ⟨by rw [h.1], h.2⟩
  | (ptrs, payload) :: rest, off, s, s', acc, hne, hr, ho, h, hacc => by
    rw [pktSeq] at h hacc ⊢
    obtain ⟨p, hp⟩ : ∃ p : Pkt, p = ⟨8 * w, cnt, some hl, off, payload, ptrs⟩ := ⟨_, rfl⟩
    rw [← hp] at h hacc ⊢
    rw [LiveHeap.run] at h ⊢
    cases h1 : s.addPacket p true with
    | none => rw [h1] at h; simp at h
    | some x =>
      obtain ⟨s1, b⟩ := x
      rw [h1] at h
      simp only at h
      obtain ⟨k1, k2, k3⟩ := addPacket_inorder hr (by rw [hp, ho]) (by rw [hp]; exact hne (ptrs, payload) (by simp)) h1
      rw [k1]
      simp only
      cases h2 : s1.run true (pktSeq w cnt hl (off + payload.length) rest) with
      | none => rw [h2] at h; simp at h
      | some y =>
        obtain ⟨s2, l⟩ := y
        rw [h2] at h
        simp only [Option.some.injEq, Prod.mk.injEq] at h
        obtain ⟨rfl, hl'⟩ := h
        cases b with
        | false =>
          exfalso
          simp only [Bool.false_eq_true, if_false] at hl'
          -- fewer packets accepted than presented
          have hlen := congrArg List.length hacc
          rw [← hl', List.length_cons] at hlen
          have : ∀ (l0 : List Pkt) (t t' : LiveHeap) (a : List Pkt), t.run true l0 = some (t', a) → a.length ≤ l0.length := by
            intro l0
            induction l0 with
            | nil => intro t t' a h; simp only [LiveHeap.run, Option.some.injEq, Prod.mk.injEq] at h; rw [← h.2]; simp
            | cons q l0 ih =>
              intro t t' a h
              rw [LiveHeap.run] at h
              cases g1 : t.addPacket q true with
              | none => rw [g1] at h; simp at h
              | some x =>
                obtain ⟨t1, b⟩ := x
                rw [g1] at h
                simp only at h
                cases g2 : t1.run true l0 with
                | none => rw [g2] at h; simp at h
                | some y =>
                  obtain ⟨t2, m⟩ := y
                  rw [g2] at h
                  simp only [Option.some.injEq, Prod.mk.injEq] at h
                  have := ih _ _ _ g2
                  rw [← h.2]
                  cases b <;> simp <;> omega
          have := this _ _ _ _ h2
          omega
        | true =>
          simp only [if_true] at hl'
          rw [hacc] at hl'
          simp only [List.cons.injEq, true_and] at hl'
          obtain ⟨g1, g2⟩ := k2 rfl
          have hrec : s1.received = off + payload.length := by rw [g2, ho, hp]
          have ih := run_inorder rest (off + payload.length) (fun x hx => hne x (List.mem_cons_of_mem _ hx)) g1 hrec h2 hl'
          rw [ih, hacc, hl']
          simp

theorem noRanges_complete (s : LiveHeap) : (noRanges s).isComplete = s.isComplete := rfl
theorem noRanges_load (s : LiveHeap) (k : Bool) : (noRanges s).load k = s.load k := rfl
theorem noRanges_new (p : Pkt) : noRanges (LiveHeap.new p) = LiveHeap.new p := rfl

end Spead2
