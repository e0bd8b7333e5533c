import Verif.Lemmas.LiveHeap
import Verif.Props.Wire

/-!
# C11–C16: assembling a heap

`(LiveHeap.new p₀).run ooo ps = some (s, acc)`: a live heap created for `p₀` was offered the packets `ps`
in this order, is now in state `s`, and accepted exactly `acc`. `none` would be an out-of-bounds copy.
-/

namespace Spead2
open Spec

/-- Every packet that `decode_packet` accepts can be read (item pointers and payload lie in the datagram)
and satisfies the condition the live heap relies on. Its contents are those of the datagram. -/
theorem C11_decoded_packets_valid (d : Bytes) (h : PacketHeader) (size : Nat)
    (hd : decodePacket d = some (some (h, size))) :
    ∃ p, h.toPkt? d = some p ∧ PktValid p ∧
      ∃ aw table cnt off hlen, WellFormed d aw table p.payload cnt off hlen ∧ p.hab = 8 * aw.toNat ∧
        p.heapCnt = cnt ∧ p.heapLength = hlen ∧ p.payloadOffset = off ∧
        p.pointers = table.dropWhile (fun q => isPacketItem aw.toNat q) := by
  obtain ⟨aw, table, payload, cnt, off, hlen, wf, e1, e2, e3, e4, e5, e6, e7, e8, e9⟩ := (C04_accept_iff d h size).1 hd
  obtain ⟨rest, ht⟩ := wf.layout
  obtain ⟨_, hlen', ⟨pre, hpre, hde⟩, hlt, hw0, hw8⟩ := hasTable_facts ht
  have htab : table = table.takeWhile (fun q => isPacketItem aw.toNat q) ++ table.dropWhile (fun q => isPacketItem aw.toNat q) :=
    (List.takeWhile_append_dropWhile).symm
  have hptr : loadPointers? d h.nItems h.pointers = some (table.dropWhile (fun q => isPacketItem aw.toNat q)) := by
    rw [hde, e7, e6]
    have := loadPointers?_table (pre ++ (table.takeWhile (fun q => isPacketItem aw.toNat q)).flatMap (beBytes 8))
      (table.dropWhile (fun q => isPacketItem aw.toNat q)) (payload ++ rest)
      (fun p hp => hlt p ((List.dropWhile_sublist _).subset hp))
    rw [List.length_append, hpre, flatMap_be_length] at this
    rw [← this]
    congr 1
    conv => lhs; rw [htab, List.flatMap_append]
    simp only [List.append_assoc]
  have hpay : slice? d h.payload h.payloadLength.toNat = some payload := by
    rw [e5, e8]
    unfold slice?
    rw [if_pos]
    · congr 1
      rw [hde, ← List.append_assoc, List.drop_left' (by rw [List.length_append, hpre, flatMap_be_length])]
      simp
    · rw [hde]; simp only [List.length_append, hpre, flatMap_be_length, Int.toNat_natCast]; omega
  refine ⟨_, by unfold PacketHeader.toPkt?; rw [hptr, hpay], ?_, aw, table, cnt, off, hlen, wf, e1, ?_, ?_, ?_, rfl⟩
  · intro hl hh
    simp only at hh ⊢
    rw [e4]
    apply wf.fits
    rw [e3] at hh
    cases hlen with
    | none => simp [optField] at hh
    | some v =>
      have k : optField (some v) = (v : Int) := rfl
      rw [k] at hh
      rw [if_neg (by omega)] at hh
      simpa using hh
  · simp only; rw [e2]; rfl
  · simp only
    rw [e3]
    cases hlen with
    | none => rfl
    | some v =>
      have k : optField (some v) = (v : Int) := rfl
      rw [k, if_neg (by omega)]; rfl
  · simp only; rw [e4]; rfl

/-- Three packets of a 12-byte heap, the last one overlapping. -/
def samplePkts : List Pkt := [
  ⟨40, 1, some 12, 8, [9, 10, 11, 12], [0x10010000000008]⟩,
  ⟨40, 1, none, 0, [1, 2, 3, 4], [0x10000000000000]⟩,
  ⟨40, 1, some 12, 2, [3, 4, 5, 6, 7, 8], []⟩,
  ⟨40, 1, some 12, 4, [5, 6, 7, 8], []⟩]

theorem samplePkts_valid : ∀ p ∈ samplePkts, PktValid p := by
  intro p hp h hh
  simp only [samplePkts, List.mem_cons, List.not_mem_nil, or_false] at hp
  rcases hp with rfl | rfl | rfl | rfl <;> simp at hh <;> subst hh <;> decide

/-- C11: whatever valid packets are offered, no copy leaves the payload buffer. -/
theorem C11_no_overrun (p0 : Pkt) (ooo : Bool) (ps : List Pkt) (hv : ∀ p ∈ ps, PktValid p) :
    ∃ s acc, (LiveHeap.new p0).run ooo ps = some (s, acc) ∧ acc.Sublist ps := by
  obtain ⟨s, l, h1, _, h3, _⟩ := run_inv (LInv.new ooo p0) ps hv
  exact ⟨s, l, h1, h3⟩

/-- C11: the buffer always covers the announced heap length and everything received. -/
theorem C11_buffer_size (p0 : Pkt) (ooo : Bool) (ps : List Pkt) (hv : ∀ p ∈ ps, PktValid p) (s : LiveHeap)
    (acc : List Pkt) (h : (LiveHeap.new p0).run ooo ps = some (s, acc)) :
    (∀ p ∈ acc, ∀ l, p.heapLength = some l → l ≤ s.payload.length) ∧
    (∀ x, Covered acc x → x < s.payload.length) := by
  obtain ⟨s', l, h1, inv, _⟩ := run_inv (LInv.new ooo p0) ps hv
  rw [h] at h1
  simp only [Option.some.injEq, Prod.mk.injEq] at h1
  obtain ⟨rfl, rfl⟩ := h1
  rw [List.nil_append] at inv
  refine ⟨fun p hp l hl => inv.res l (inv.hlall p hp l hl), ?_⟩
  rintro x ⟨p, hp, hx1, hx2⟩
  have hlt : x - p.payloadOffset < p.payload.length := by omega
  have := inv.bytes p hp (x - p.payloadOffset) _ (List.getElem?_eq_getElem hlt)
  rw [show p.payloadOffset + (x - p.payloadOffset) = x by omega] at this
  exact (List.getElem?_eq_some_iff.1 this).1

/-- Reachability and its invariant. -/
theorem reach_inv {p0 : Pkt} {ooo : Bool} {ps : List Pkt} (hv : ∀ p ∈ ps, PktValid p) {s : LiveHeap}
    {acc : List Pkt} (h : (LiveHeap.new p0).run ooo ps = some (s, acc)) : LInv ooo s acc := by
  obtain ⟨s', l, h1, inv, _⟩ := run_inv (LInv.new ooo p0) ps hv
  rw [h] at h1
  simp only [Option.some.injEq, Prod.mk.injEq] at h1
  obtain ⟨rfl, rfl⟩ := h1
  simpa using inv

/-- C12: every byte of every accepted packet is in the buffer at its place, and no position is carried by
two accepted packets. -/
theorem C12_bytes_written_once (p0 : Pkt) (ooo : Bool) (ps : List Pkt) (hv : ∀ p ∈ ps, PktValid p) (s : LiveHeap)
    (acc : List Pkt) (h : (LiveHeap.new p0).run ooo ps = some (s, acc)) :
    (∀ p ∈ acc, ∀ (i : Nat) b, p.payload[i]? = some b → s.payload[p.payloadOffset + i]? = some (some b)) ∧
    acc.Pairwise (fun p q => ∀ x, ¬ (Carries p x ∧ Carries q x)) :=
  ⟨(reach_inv hv h).bytes, (reach_inv hv h).disj⟩

/-- C12: a packet that overlaps received data is rejected and changes nothing. -/
theorem C12_overlap_rejected (p0 : Pkt) (ooo : Bool) (ps : List Pkt) (hv : ∀ p ∈ ps, PktValid p) (s : LiveHeap)
    (acc : List Pkt) (h : (LiveHeap.new p0).run ooo ps = some (s, acc)) (p : Pkt) (hp : PktValid p)
    (x : Nat) (hx : Carries p x) (hc : Covered acc x) :
    s.addPacket p ooo = some (s, false) := by
  obtain ⟨s', b, h1, _, _, _, h5, h6⟩ := addPacket_spec (reach_inv hv h) hp
  cases b with
  | false => rw [h1, h5 rfl]
  | true => exact absurd hc ((h6 rfl).2 x hx)

/-- C12: offering an accepted non-empty packet again is rejected and changes nothing. -/
theorem C12_duplicate_rejected (p0 : Pkt) (ooo : Bool) (ps : List Pkt) (hv : ∀ p ∈ ps, PktValid p) (s : LiveHeap)
    (acc : List Pkt) (h : (LiveHeap.new p0).run ooo ps = some (s, acc)) (p : Pkt) (hp : p ∈ acc)
    (hne : p.payload ≠ []) : s.addPacket p ooo = some (s, false) := by
  have hval : PktValid p := by
    obtain ⟨s', l, h1, _, hsub, _⟩ := run_inv (LInv.new ooo p0) ps hv
    rw [h] at h1
    simp only [Option.some.injEq, Prod.mk.injEq] at h1
    rw [← h1.2] at hsub
    exact hv p (hsub.subset hp)
  have hpos := List.length_pos_iff.2 hne
  exact C12_overlap_rejected p0 ooo ps hv s acc h p hval p.payloadOffset ⟨Nat.le_refl _, by omega⟩
    ⟨p, hp, Nat.le_refl _, by omega⟩

/-- C13: contiguous exactly when everything below the largest offset mentioned has been received. -/
theorem C13_contiguous_iff (p0 : Pkt) (ooo : Bool) (ps : List Pkt) (hv : ∀ p ∈ ps, PktValid p) (s : LiveHeap)
    (acc : List Pkt) (h : (LiveHeap.new p0).run ooo ps = some (s, acc)) :
    s.isContiguous = true ↔ ∀ x, x < extent acc → Covered acc x := by
  have inv := reach_inv hv h
  unfold LiveHeap.isContiguous
  simp only [decide_eq_true_eq]
  cases ooo with
  | true =>
    have hc := inv.cov
    simp only [if_true] at hc
    rw [← inv.tot rfl, rangesLength_full s.ranges s.minLength inv.sep inv.ends, inv.min]
    exact ⟨fun h x hx => (hc x).2 (h x hx), fun h x hx => (hc x).1 (h x hx)⟩
  | false =>
    have hc := inv.cov
    simp only [Bool.false_eq_true, if_false] at hc
    rw [← inv.min]
    constructor
    · intro he x hx; rw [hc]; omega
    · intro ha
      have := inv.recle
      rcases Nat.lt_or_ge s.received s.minLength with hlt | hge
      · have := (hc _).1 (ha s.received hlt); omega
      · omega

/-- C13: complete exactly when a heap length was announced, nothing mentions a larger offset, and all of
it has been received. -/
theorem C13_complete_iff (p0 : Pkt) (ooo : Bool) (ps : List Pkt) (hv : ∀ p ∈ ps, PktValid p) (s : LiveHeap)
    (acc : List Pkt) (h : (LiveHeap.new p0).run ooo ps = some (s, acc)) :
    s.isComplete = true ↔
      (∃ p ∈ acc, p.heapLength = some (extent acc)) ∧ ∀ x, x < extent acc → Covered acc x := by
  have inv := reach_inv hv h
  have hcont := C13_contiguous_iff p0 ooo ps hv s acc h
  have hd : s.isContiguous = true ↔ s.received = s.minLength := by simp [LiveHeap.isContiguous]
  rw [hd] at hcont
  unfold LiveHeap.isComplete
  simp only [decide_eq_true_eq]
  constructor
  · rintro ⟨h1, h2⟩
    refine ⟨?_, hcont.1 h2⟩
    obtain ⟨p, hp, hpl⟩ := inv.hlsome _ h1
    exact ⟨p, hp, by rw [hpl, h2, inv.min]⟩
  · rintro ⟨⟨p, hp, hpl⟩, h2⟩
    have h3 := hcont.2 h2
    refine ⟨?_, h3⟩
    rw [inv.hlall p hp _ hpl, h3, inv.min]

theorem extent_perm {a b : List Pkt} (h : a.Perm b) : extent a = extent b := by
  unfold extent
  induction h with
  | nil => rfl
  | cons x _ ih => simp [ih]
  | swap x y l => simp only [List.foldr_cons]; omega
  | trans _ _ ih1 ih2 => rw [ih1, ih2]

theorem covered_perm {a b : List Pkt} (h : a.Perm b) (x : Nat) : Covered a x ↔ Covered b x := by
  unfold Covered; simp [h.mem_iff]

/-- C13: neither verdict depends on the order in which the packets were accepted. -/
theorem C13_order_independent (p0 q0 : Pkt) (ooo ooo' : Bool) (ps qs : List Pkt) (hv : ∀ p ∈ ps, PktValid p)
    (hw : ∀ p ∈ qs, PktValid p) (s t : LiveHeap) (acc bcc : List Pkt)
    (h : (LiveHeap.new p0).run ooo ps = some (s, acc)) (k : (LiveHeap.new q0).run ooo' qs = some (t, bcc))
    (hperm : acc.Perm bcc) : s.isContiguous = t.isContiguous ∧ s.isComplete = t.isComplete := by
  have e1 := C13_contiguous_iff p0 ooo ps hv s acc h
  have e2 := C13_contiguous_iff q0 ooo' qs hw t bcc k
  have e3 := C13_complete_iff p0 ooo ps hv s acc h
  have e4 := C13_complete_iff q0 ooo' qs hw t bcc k
  simp only [covered_perm hperm, extent_perm hperm, hperm.mem_iff] at e1 e3
  refine ⟨Bool.eq_iff_iff.2 (e1.trans e2.symm), Bool.eq_iff_iff.2 (e3.trans e4.symm)⟩

/-- C14: the reported ranges are sorted, disjoint and non-touching, contain exactly the received bytes, and
their lengths add up to the received length. -/
theorem C14_ranges (p0 : Pkt) (ooo : Bool) (ps : List Pkt) (hv : ∀ p ∈ ps, PktValid p) (s : LiveHeap)
    (acc : List Pkt) (h : (LiveHeap.new p0).run ooo ps = some (s, acc)) :
    Separated s.reportedRanges ∧ (∀ x, InRanges s.reportedRanges x ↔ Covered acc x) ∧
    rangesLength s.reportedRanges = s.received := by
  have inv := reach_inv hv h
  unfold LiveHeap.reportedRanges
  cases ooo with
  | true =>
    have hc := inv.cov
    simp only [if_true] at hc
    rw [if_neg]
    · exact ⟨inv.sep, fun x => (hc x).symm, inv.tot rfl⟩
    · rintro ⟨h1, h2⟩
      have := inv.tot rfl
      rw [h1] at this
      simp at this
      omega
  | false =>
    have hn := inv.noranges rfl
    have hc := inv.cov
    simp only [Bool.false_eq_true, if_false] at hc
    by_cases hr : s.received > 0
    · rw [if_pos ⟨hn, hr⟩]
      refine ⟨separated_cons.2 ⟨by simp, separated_nil, by simp⟩, ?_, by simp⟩
      intro x
      rw [hc x]; simp
    · rw [if_neg (by rintro ⟨_, h⟩; exact hr h), hn]
      refine ⟨separated_nil, ?_, by simp; omega⟩
      intro x
      rw [hc x]; simp; omega

/-- C15: with out-of-order support off, the received data is the prefix of length `received`, which is the
total payload of the accepted packets; a packet that does not continue it is rejected without effect. -/
theorem C15_prefix (p0 : Pkt) (ps : List Pkt) (hv : ∀ p ∈ ps, PktValid p) (s : LiveHeap)
    (acc : List Pkt) (h : (LiveHeap.new p0).run false ps = some (s, acc)) :
    (∀ x, Covered acc x ↔ x < s.received) ∧
    (∀ p, p.payloadOffset ≠ s.received → s.addPacket p false = some (s, false)) := by
  have inv := reach_inv hv h
  refine ⟨by simpa using inv.cov, ?_⟩
  intro p hne
  have : s.admit p false = none := by
    cases ha : s.admit p false with
    | none => rfl
    | some m =>
      have := (admit_some ha).2.2.2
      simp at this
      exact absurd this.1 hne
  unfold LiveHeap.addPacket
  rw [this]

/-- C15: a packet of the right flavour that continues the prefix and whose heap length (if any) agrees with
what was announced and mentioned before is accepted. -/
theorem C15_next_accepted (p0 : Pkt) (ps : List Pkt) (hv : ∀ p ∈ ps, PktValid p) (s : LiveHeap)
    (acc : List Pkt) (h : (LiveHeap.new p0).run false ps = some (s, acc)) (p : Pkt) (hp : PktValid p)
    (hh : p.hab = s.hab) (ho : p.payloadOffset = s.received)
    (hl : ∀ l, p.heapLength = some l → extent acc ≤ l ∧ ∀ q ∈ acc, ∀ m, q.heapLength = some m → m = l) :
    ∃ s', s.addPacket p false = some (s', true) := by
  have inv := reach_inv hv h
  obtain ⟨s', b, h1, _⟩ := addPacket_spec inv hp
  have hadm : s.admit p false = some s.ranges := by
    unfold LiveHeap.admit
    have h1 : lengthConflict s.heapLength p.heapLength = false := by
      cases hp : p.heapLength with
      | none => cases s.heapLength <;> rfl
      | some l =>
        cases hs : s.heapLength with
        | none => rfl
        | some m =>
          obtain ⟨q, hq, hqm⟩ := inv.hlsome _ hs
          simp [lengthConflict, (hl l hp).2 q hq m hqm]
    have h2 : lengthTooSmall s.minLength p.heapLength = false := by
      cases hp : p.heapLength with
      | none => rfl
      | some l => have := (hl l hp).1; simp [lengthTooSmall, inv.min]; omega
    simp [h1, h2, hh, ho]
  cases b with
  | true => exact ⟨s', h1⟩
  | false =>
    exfalso
    unfold LiveHeap.addPacket at h1
    rw [hadm] at h1
    simp only at h1
    split at h1
    · split at h1 <;> simp at h1
    · simp at h1

/-- C16: the stored pointers are the relevant pointers of the accepted packets, each once, in order of
first arrival, however many there are. -/
theorem C16_pointers (p0 : Pkt) (ooo : Bool) (ps : List Pkt) (hv : ∀ p ∈ ps, PktValid p) (s : LiveHeap)
    (acc : List Pkt) (h : (LiveHeap.new p0).run ooo ps = some (s, acc)) :
    s.ptrs.list = (relevantPtrs s.hab acc).eraseDups ∧
    (∀ q, q ∈ s.ptrs.list ↔ ∃ p ∈ acc, q ∈ p.pointers ∧ relevant s.hab q) ∧
    (s.endOfStream = true ↔ ∃ p ∈ acc, ∃ q ∈ p.pointers, isStop s.hab q) := by
  have inv := reach_inv hv h
  refine ⟨inv.ptrs.list, ?_, ?_⟩
  · intro q
    rw [inv.ptrs.list, List.mem_eraseDups, relevantPtrs]
    simp
  · rw [inv.ptrs.eos, relevantPtrs]
    simp only [List.mem_flatMap, List.mem_filter, decide_eq_true_eq]
    constructor
    · rintro ⟨q, ⟨p, hp, hq, _⟩, hst⟩; exact ⟨p, hp, q, hq, hst⟩
    · rintro ⟨p, hp, q, hq, hst⟩
      exact ⟨q, ⟨p, hp, hq, Or.inr (by rw [hst.1]; omega)⟩, hst⟩

/-- The sample run: accepted, accepted, rejected (overlap), accepted; the heap is then complete. -/
example : ∃ s, (LiveHeap.new samplePkts[0]).run true samplePkts =
    some (s, [samplePkts[0], samplePkts[1], samplePkts[3]]) ∧ s.isComplete = true ∧
    s.payload = ([1, 2, 3, 4, 5, 6, 7, 8, 9, 10, 11, 12] : Bytes).map some ∧ s.ptrs.list.length = 2 := by
  refine ⟨⟨1, 40, some 12, 12, 12, false, _, .inline [0x10010000000008, 0x10000000000000], [(0, 12)]⟩, ?_, ?_, rfl, rfl⟩
  · decide +kernel
  · decide +kernel

/-- In-order mode on packets that arrive in order, one of them twice. -/
example : ∃ s, (LiveHeap.new samplePkts[1]).run false [samplePkts[1], samplePkts[3], samplePkts[3], samplePkts[0]] =
    some (s, [samplePkts[1], samplePkts[3], samplePkts[0]]) ∧ s.isComplete = true ∧
    s.reportedRanges = [(0, 12)] := by
  refine ⟨⟨1, 40, some 12, 12, 12, false, ([1, 2, 3, 4, 5, 6, 7, 8, 9, 10, 11, 12] : Bytes).map some,
    .inline [0x10000000000000, 0x10010000000008], []⟩, ?_, ?_, ?_⟩ <;> decide +kernel

end Spead2
