import Verif.Lemmas.Ranges
import Verif.Lemmas.Pointer
import Verif.Lemmas.Decode

namespace Spead2
open Spec

/-! ### Buffer -/

theorem payloadReserve_spec (buf : List (Option UInt8)) (size : Nat) (exact : Bool) :
    size ≤ (payloadReserve buf size exact).length ∧ buf.length ≤ (payloadReserve buf size exact).length ∧
    ∀ x, x < buf.length → (payloadReserve buf size exact)[x]? = buf[x]? := by
  unfold payloadReserve
  split
  · rename_i h
    refine ⟨?_, by simp, fun x hx => by rw [List.getElem?_append_left hx]⟩
    simp only [List.length_append, List.length_replicate]
    split
    · rename_i h2; simp at h2; omega
    · omega
  · exact ⟨by omega, Nat.le_refl _, fun _ _ => rfl⟩

theorem writePayload_some {buf : List (Option UInt8)} {off : Nat} {data : Bytes} (h : off + data.length ≤ buf.length) :
    ∃ buf', writePayload buf off data = some buf' ∧ buf'.length = buf.length ∧
      (∀ x, x < off ∨ off + data.length ≤ x → buf'[x]? = buf[x]?) ∧
      ∀ i b, data[i]? = some b → buf'[off + i]? = some (some b) := by
  refine ⟨_, by rw [writePayload, if_pos h], ?_, ?_, ?_⟩
  · simp; omega
  · intro x hx
    rw [List.append_assoc]
    rcases hx with hx | hx
    · rw [List.getElem?_append_left (by simp; omega), List.getElem?_take, if_pos hx]
    · rw [List.getElem?_append_right (by simp; omega), List.getElem?_append_right (by simp; omega), List.getElem?_drop]
      congr 1
      simp; omega
  · intro i b hb
    have hi : i < data.length := (List.getElem?_eq_some_iff.1 hb).1
    rw [List.append_assoc, List.getElem?_append_right (by simp; omega), List.getElem?_append_left (by simp; omega)]
    rw [List.getElem?_map]
    rw [show off + i - (List.take off buf).length = i by simp; omega, hb]
    rfl

/-! ### Pointers -/

/-- The store keeps its list and its set in step, and has no duplicates. -/
def PtrStore.Ok : PtrStore → Prop
  | .inline l => l.length ≤ maxInlinePointers
  | .external v s => ∀ x, x ∈ s ↔ x ∈ v

theorem PtrStore.seen_iff (st : PtrStore) (h : st.Ok) (p : Nat) : st.seen p = true ↔ p ∈ st.list := by
  cases st with
  | inline l => simp [PtrStore.seen, PtrStore.list]
  | external v s => simp [PtrStore.seen, PtrStore.list, h p]

theorem PtrStore.insert_spec (st : PtrStore) (h : st.Ok) (p : Nat) :
    (st.insert p).Ok ∧ (st.insert p).list = st.list ++ [p] := by
  cases st with
  | inline l =>
    unfold PtrStore.insert
    simp only
    split
    · exact ⟨fun x => by simp [or_comm], rfl⟩
    · have h' : l.length ≤ maxInlinePointers := h
      exact ⟨by simp [PtrStore.Ok]; omega, rfl⟩
  | external v s => exact ⟨fun x => by simp [h x, or_comm], rfl⟩

theorem relevant_iff (hab p : Nat) : (getId hab p = 0 ∨ getId hab p > PAYLOAD_LENGTH_ID) ↔ relevant hab p := by
  rw [getId_eq, relevant, PAYLOAD_LENGTH_ID]

theorem eraseDups_concat (l : List Nat) (p : Nat) :
    (l ++ [p]).eraseDups = if p ∈ l then l.eraseDups else l.eraseDups ++ [p] := by
  rw [List.eraseDups_append]
  by_cases h : p ∈ l
  · rw [if_pos h]
    simp [List.removeAll, h]
  · rw [if_neg h]
    simp [List.removeAll, h]
    rfl

/-- State of the pointer-related members after the pointers `all` (of all accepted packets). -/
structure PInv (s : LiveHeap) (rel : List Nat) : Prop where
  ok : s.ptrs.Ok
  list : s.ptrs.list = rel.eraseDups
  eos : s.endOfStream = true ↔ ∃ p ∈ rel, isStop s.hab p

theorem addPointer_spec (s : LiveHeap) (p : Nat) (rel : List Nat) (h : PInv s rel) :
    PInv (s.addPointer p) (rel ++ [p].filter (fun q => relevant s.hab q)) ∧
    (s.addPointer p).minLength = (if ptrImmediate p then s.minLength else max s.minLength (p % 2 ^ s.hab)) ∧
    (s.addPointer p).hab = s.hab ∧ (s.addPointer p).cnt = s.cnt ∧ (s.addPointer p).heapLength = s.heapLength ∧
    (s.addPointer p).received = s.received ∧ (s.addPointer p).payload = s.payload ∧
    (s.addPointer p).ranges = s.ranges := by
  obtain ⟨s1, hs1, e1⟩ : ∃ s1, s1 = (if isImmediate p then s else { s with minLength := max s.minLength (getAddress s.hab p) }) ∧
      (PInv s1 rel ∧ s1.minLength = (if ptrImmediate p then s.minLength else max s.minLength (p % 2 ^ s.hab)) ∧
      s1.hab = s.hab ∧ s1.cnt = s.cnt ∧ s1.heapLength = s.heapLength ∧
      s1.received = s.received ∧ s1.payload = s.payload ∧ s1.ranges = s.ranges) := by
    refine ⟨_, rfl, ?_⟩
    by_cases hi : isImmediate p = true
    · rw [if_pos hi]
      rw [if_pos (show ptrImmediate p from (isImmediate_iff p).1 hi)]
      exact ⟨h, rfl, rfl, rfl, rfl, rfl, rfl, rfl⟩
    · rw [if_neg hi, if_neg (show ¬ ptrImmediate p from fun hc => hi ((isImmediate_iff p).2 hc))]
      refine ⟨⟨h.ok, h.list, h.eos⟩, ?_, rfl, rfl, rfl, rfl, rfl, rfl⟩
      simp only [getAddress_eq]
  obtain ⟨hP, hm, hh, hc, hl, hr, hp, hra⟩ := e1
  unfold LiveHeap.addPointer
  rw [← hs1]
  simp only [relevant_iff]
  rw [hh]
  by_cases hrel : relevant s.hab p
  · simp only [hrel, if_true, List.filter_cons, decide_true, List.filter_nil]
    have hstop : (getId s.hab p = STREAM_CTRL_ID ∧ isImmediate p = true ∧ getImmediate s.hab p = CTRL_STREAM_STOP) ↔
        isStop s.hab p := by
      rw [getId_eq, getImmediate_eq, isImmediate_iff]; rfl
    by_cases hseen : s1.ptrs.seen p = true
    · rw [if_pos hseen]
      have hmem : p ∈ rel := by
        have := (s1.ptrs.seen_iff hP.ok p).1 hseen
        rw [hP.list] at this
        exact List.mem_eraseDups.1 this
      refine ⟨⟨hP.ok, ?_, ?_⟩, hm, hh, hc, hl, hr, hp, hra⟩
      · rw [eraseDups_concat, if_pos hmem]; exact hP.list
      · rw [hP.eos, hh]
        constructor
        · rintro ⟨q, hq, hq2⟩; exact ⟨q, by simp [hq], hq2⟩
        · rintro ⟨q, hq, hq2⟩
          rcases List.mem_append.1 hq with hq | hq
          · exact ⟨q, hq, hq2⟩
          · simp at hq; subst hq; exact ⟨q, hmem, hq2⟩
    · rw [if_neg hseen]
      have hmem : p ∉ rel := by
        intro hc
        apply hseen
        rw [s1.ptrs.seen_iff hP.ok, hP.list]
        exact List.mem_eraseDups.2 hc
      obtain ⟨i1, i2⟩ := s1.ptrs.insert_spec hP.ok p
      by_cases hst : isStop s.hab p
      · rw [if_pos (hstop.2 hst)]
        refine ⟨⟨i1, ?_, ?_⟩, hm, rfl, hc, hl, hr, hp, hra⟩
        · simp only
          rw [i2, eraseDups_concat, if_neg hmem, hP.list]
        · simp only [true_iff]
          exact ⟨p, by simp, hst⟩
      · rw [if_neg (fun hc => hst (hstop.1 hc))]
        refine ⟨⟨i1, ?_, ?_⟩, hm, rfl, hc, hl, hr, hp, hra⟩
        · simp only
          rw [i2, eraseDups_concat, if_neg hmem, hP.list]
        · simp only
          rw [hP.eos, hh]
          constructor
          · rintro ⟨q, hq, hq2⟩; exact ⟨q, by simp [hq], hq2⟩
          · rintro ⟨q, hq, hq2⟩
            rcases List.mem_append.1 hq with hq | hq
            · exact ⟨q, hq, hq2⟩
            · simp at hq; subst hq; exact absurd hq2 hst
  · simp only [hrel, if_false, List.filter_cons, decide_false, List.filter_nil, Bool.false_eq_true, List.append_nil]
    exact ⟨hP, hm, hh, hc, hl, hr, hp, hra⟩

/-- Largest address of a list of pointers. -/
def ptrsEnd (hab : Nat) (ps : List Nat) (init : Nat) : Nat :=
  (ps.filter (fun q => ¬ ptrImmediate q)).foldr (fun q m => max (q % 2 ^ hab) m) init

theorem ptrsEnd_max (hab : Nat) (ps : List Nat) (a b : Nat) : ptrsEnd hab ps (max a b) = max a (ptrsEnd hab ps b) := by
  unfold ptrsEnd
  induction ps.filter (fun q => ¬ ptrImmediate q) with
  | nil => rfl
  | cons x l ih => simp only [List.foldr_cons, ih]; omega

theorem addPointers_spec (s : LiveHeap) (ps : List Nat) (rel : List Nat) (h : PInv s rel) :
    PInv (s.addPointers ps) (rel ++ ps.filter (fun q => relevant s.hab q)) ∧
    (s.addPointers ps).minLength = ptrsEnd s.hab ps s.minLength ∧
    (s.addPointers ps).hab = s.hab ∧ (s.addPointers ps).cnt = s.cnt ∧ (s.addPointers ps).heapLength = s.heapLength ∧
    (s.addPointers ps).received = s.received ∧ (s.addPointers ps).payload = s.payload ∧
    (s.addPointers ps).ranges = s.ranges := by
  induction ps generalizing s rel with
  | nil => simp [LiveHeap.addPointers, ptrsEnd, h]
  | cons p ps ih =>
    obtain ⟨h1, h2, h3, h4, h5, h6, h7, h8⟩ := addPointer_spec s p rel h
    obtain ⟨k1, k2, k3, k4, k5, k6, k7, k8⟩ := ih (s.addPointer p) _ h1
    have e : s.addPointers (p :: ps) = (s.addPointer p).addPointers ps := rfl
    rw [e]
    refine ⟨?_, ?_, by rw [k3, h3], by rw [k4, h4], by rw [k5, h5], by rw [k6, h6], by rw [k7, h7], by rw [k8, h8]⟩
    · rw [h3, List.append_assoc] at k1
      rw [show (p :: ps).filter (fun q => decide (relevant s.hab q)) =
        [p].filter (fun q => decide (relevant s.hab q)) ++ ps.filter (fun q => decide (relevant s.hab q)) by
          rw [← List.filter_append]; rfl]
      exact k1
    · rw [k2, h2, h3]
      by_cases hi : ptrImmediate p
      · simp [hi, ptrsEnd]
      · rw [if_neg hi, Nat.max_comm, ptrsEnd_max]
        simp [ptrsEnd, hi]

/-! ### Invariant -/

theorem extent_append (a b : List Pkt) : extent (a ++ b) = max (extent a) (extent b) := by
  unfold extent
  induction a with
  | nil => simp
  | cons x a ih => simp only [List.cons_append, List.foldr_cons, ih]; omega

theorem pktEnd_eq (p : Pkt) : pktEnd p = ptrsEnd p.hab p.pointers (max (p.payloadOffset + p.payload.length) (p.heapLength.getD 0)) := rfl

theorem covered_concat (acc : List Pkt) (p : Pkt) (x : Nat) : Covered (acc ++ [p]) x ↔ Covered acc x ∨ Carries p x := by
  simp [Covered, or_and_right, exists_or]

/-- Everything known about a live heap that has accepted `acc`. -/
structure LInv (ooo : Bool) (s : LiveHeap) (acc : List Pkt) : Prop where
  hab : ∀ p ∈ acc, p.hab = s.hab
  sep : Separated s.ranges
  noranges : ooo = false → s.ranges = []
  cov : ∀ x, Covered acc x ↔ (if ooo then InRanges s.ranges x else x < s.received)
  tot : ooo = true → rangesLength s.ranges = s.received
  ends : ∀ r ∈ s.ranges, r.2 ≤ s.minLength
  recle : s.received ≤ s.minLength
  min : s.minLength = extent acc
  bytes : ∀ p ∈ acc, ∀ i b, p.payload[i]? = some b → s.payload[p.payloadOffset + i]? = some (some b)
  hlall : ∀ p ∈ acc, ∀ h, p.heapLength = some h → s.heapLength = some h
  hlsome : ∀ h, s.heapLength = some h → ∃ p ∈ acc, p.heapLength = some h
  res : ∀ h, s.heapLength = some h → h ≤ s.payload.length
  disj : acc.Pairwise (fun p q => ∀ x, ¬ (Carries p x ∧ Carries q x))
  ptrs : PInv s (relevantPtrs s.hab acc)

theorem LInv.new (ooo : Bool) (p : Pkt) : LInv ooo (LiveHeap.new p) [] where
  hab := by simp
  sep := separated_nil
  noranges := by intro _; rfl
  cov := by intro x; simp [Covered, LiveHeap.new]
  tot := by intro _; rfl
  ends := by simp [LiveHeap.new]
  recle := by simp [LiveHeap.new]
  min := by simp [LiveHeap.new, extent]
  bytes := by simp
  hlall := by simp
  hlsome := by simp [LiveHeap.new]
  res := by simp [LiveHeap.new]
  disj := List.Pairwise.nil
  ptrs := ⟨by simp [LiveHeap.new, PtrStore.Ok], rfl, by simp [LiveHeap.new, relevantPtrs]⟩

theorem admit_some {s : LiveHeap} {p : Pkt} {ooo : Bool} {m : List (Nat × Nat)} (h : s.admit p ooo = some m) :
    (∀ a b, s.heapLength = some a → p.heapLength = some b → b = a) ∧ (∀ b, p.heapLength = some b → s.minLength ≤ b) ∧
    p.hab = s.hab ∧
    (if ooo then addRange s.ranges p.payloadOffset (p.payloadOffset + p.payload.length) = some m
     else p.payloadOffset = s.received ∧ m = s.ranges) := by
  unfold LiveHeap.admit at h
  split at h
  · simp at h
  rename_i h1
  split at h
  · simp at h
  rename_i h2
  split at h
  · simp at h
  rename_i h3
  refine ⟨?_, ?_, by omega, ?_⟩
  · intro a b ha hb
    rw [ha, hb] at h1
    simpa [lengthConflict] using h1
  · intro b hb
    rw [hb] at h2
    simpa [lengthTooSmall] using h2
  · cases ooo with
    | true => simpa using h
    | false =>
      simp only [Bool.false_eq_true, if_false] at h ⊢
      split at h
      · rename_i h4; exact ⟨h4, (Option.some.inj h).symm⟩
      · simp at h

theorem grow_spec (s : LiveHeap) (p : Pkt) (hv : PktValid p)
    (h1 : ∀ a b, s.heapLength = some a → p.heapLength = some b → b = a)
    (h2 : ∀ b, p.heapLength = some b → s.minLength ≤ b)
    (hres : ∀ h, s.heapLength = some h → h ≤ s.payload.length)
    (hmin : ∀ h, s.heapLength = some h → h ≤ s.minLength) :
    let t := s.grow p
    t.cnt = s.cnt ∧ t.hab = s.hab ∧ t.received = s.received ∧ t.endOfStream = s.endOfStream ∧ t.ptrs = s.ptrs ∧
    t.ranges = s.ranges ∧
    t.heapLength = (if s.heapLength = none then p.heapLength else s.heapLength) ∧
    (∀ x, x < s.payload.length → t.payload[x]? = s.payload[x]?) ∧ s.payload.length ≤ t.payload.length ∧
    p.payloadOffset + p.payload.length ≤ t.payload.length ∧
    (∀ h, t.heapLength = some h → h ≤ t.payload.length) ∧
    t.minLength = max s.minLength (max (p.payloadOffset + p.payload.length) (p.heapLength.getD 0)) := by
  unfold LiveHeap.grow
  cases hp : p.heapLength with
  | some b =>
    have hvb := hv b hp
    have h2b := h2 b hp
    cases hs : s.heapLength with
    | none =>
      obtain ⟨q1, q2, q3⟩ := payloadReserve_spec s.payload (max s.minLength b) true
      simp only [Option.getD_some, if_true]
      refine ⟨trivial, trivial, trivial, trivial, trivial, trivial, trivial, q3, q2, by omega, ?_, by omega⟩
      intro h hh
      simp at hh; omega
    | some a =>
      have := h1 a b hs hp
      subst this
      have hr := hres b hs
      simp only [Option.getD_some]
      have hml : s.minLength ≤ b := h2b
      refine ⟨trivial, trivial, trivial, trivial, trivial, trivial, by rw [if_neg (by simp)]; exact hs, fun _ _ => trivial,
        Nat.le_refl _, by omega, ?_, ?_⟩
      · intro h hh; exact hres h hh
      · have := hmin b hs; omega
  | none =>
    obtain ⟨q1, q2, q3⟩ := payloadReserve_spec s.payload (max s.minLength (p.payloadOffset + p.payload.length)) false
    simp only [Option.getD_none]
    refine ⟨trivial, trivial, trivial, trivial, trivial, trivial, ?_, q3, q2, by omega, ?_, by omega⟩
    · cases s.heapLength <;> simp
    · intro h hh
      have := hres h hh
      omega

theorem le_foldr_max (l : List Pkt) (p : Pkt) (h : p ∈ l) : pktEnd p ≤ extent l := by
  unfold extent
  induction l with
  | nil => simp at h
  | cons x l ih =>
    simp only [List.foldr_cons]
    rcases List.mem_cons.1 h with rfl | h
    · omega
    · have := ih h; omega

theorem ptrsEnd_ge (hab : Nat) (ps : List Nat) (a : Nat) : a ≤ ptrsEnd hab ps a := by
  have := ptrsEnd_max hab ps a 0
  rw [Nat.max_eq_left (by omega)] at this
  omega

theorem LInv.hlmin {ooo : Bool} {s : LiveHeap} {acc : List Pkt} (inv : LInv ooo s acc) :
    ∀ h, s.heapLength = some h → h ≤ s.minLength := by
  intro h hh
  obtain ⟨p, hp, hpl⟩ := inv.hlsome h hh
  have h1 := le_foldr_max acc p hp
  have h2 := ptrsEnd_ge p.hab p.pointers (max (p.payloadOffset + p.payload.length) (p.heapLength.getD 0))
  rw [← pktEnd_eq, hpl, Option.getD_some] at h2
  rw [inv.min]
  omega

theorem carries_lt {acc : List Pkt} {x : Nat} (h : Covered acc x) : x < extent acc := by
  obtain ⟨p, hp, h1, h2⟩ := h
  have h3 := le_foldr_max acc p hp
  have h4 := ptrsEnd_ge p.hab p.pointers (max (p.payloadOffset + p.payload.length) (p.heapLength.getD 0))
  rw [← pktEnd_eq] at h4
  omega

theorem addPacket_spec {ooo : Bool} {s : LiveHeap} {acc : List Pkt} (inv : LInv ooo s acc) {p : Pkt} (hv : PktValid p) :
    ∃ s' b, s.addPacket p ooo = some (s', b) ∧ s'.cnt = s.cnt ∧ s'.hab = s.hab ∧
      (b = false ↔ s.admit p ooo = none) ∧ (b = false → s' = s) ∧
      (b = true → LInv ooo s' (acc ++ [p]) ∧ (∀ x, Carries p x → ¬ Covered acc x)) := by
  unfold LiveHeap.addPacket
  cases ha : s.admit p ooo with
  | none => exact ⟨s, false, rfl, rfl, rfl, by simp, fun _ => rfl, by simp⟩
  | some m =>
    obtain ⟨a1, a2, a3, a4⟩ := admit_some ha
    simp only
    -- ranges
    have hrng : Separated m ∧ (ooo = false → m = []) ∧
        (∀ x, Covered (acc ++ [p]) x ↔ (if ooo then InRanges m x else x < s.received + p.payload.length)) ∧
        (ooo = true → rangesLength m = s.received + p.payload.length) ∧
        (∀ r ∈ m, r.2 = p.payloadOffset + p.payload.length ∨ ∃ r' ∈ s.ranges, r'.2 = r.2) ∧
        (∀ x, Carries p x → ¬ Covered acc x) := by
      cases ooo with
      | true =>
        simp only [if_true] at a4
        obtain ⟨b1, b2, b3, b4, b5, b6⟩ := addRange_some _ _ _ _ inv.sep (by omega) a4
        refine ⟨b1, by simp, ?_, ?_, ?_, ?_⟩
        · intro x
          have := inv.cov x
          simp only [if_true] at this ⊢
          rw [covered_concat, this, b2]; rfl
        · intro _; rw [b4, inv.tot rfl]; omega
        · intro r hr
          rcases b6 r hr with h | h
          · exact Or.inl h
          · exact Or.inr h
        · intro x hx hc
          have := inv.cov x
          simp only [if_true] at this
          exact b3 x hx.1 hx.2 (this.1 hc)
      | false =>
        simp only [Bool.false_eq_true, if_false] at a4
        obtain ⟨c1, rfl⟩ := a4
        have hn := inv.noranges rfl
        have hcov := inv.cov
        simp only [Bool.false_eq_true, if_false] at hcov
        refine ⟨inv.sep, fun _ => hn, ?_, by simp, fun r hr => by rw [hn] at hr; simp at hr, ?_⟩
        · intro x
          simp only [Bool.false_eq_true, if_false]
          rw [covered_concat, hcov x]
          unfold Carries
          omega
        · intro x hx hc
          have := (hcov x).1 hc
          have := hx.1
          omega
    obtain ⟨r1, r2, r3, r4, r5, r6⟩ := hrng
    obtain ⟨g1, g2, g3, g4, g5, g6, g7, g8, g9, g10, g11, g12⟩ := grow_spec { s with ranges := m } p hv a1 a2 inv.res inv.hlmin
    simp only at g1 g2 g3 g4 g5 g6 g7 g8 g9 g10 g11 g12
    generalize LiveHeap.grow { s with ranges := m } p = t at *
    have hpinv : PInv t (relevantPtrs s.hab acc) := by
      refine ⟨by rw [g5]; exact inv.ptrs.ok, by rw [g5]; exact inv.ptrs.list, by rw [g4, g2]; exact inv.ptrs.eos⟩
    obtain ⟨p1, p2, p3, p4, p5, p6, p7, p8⟩ := addPointers_spec t p.pointers _ hpinv
    generalize LiveHeap.addPointers t p.pointers = u at *
    have hmin : u.minLength = extent (acc ++ [p]) := by
      rw [p2, g12, g2, ptrsEnd_max, inv.min, extent_append]
      congr 1
      simp only [extent, List.foldr_cons, List.foldr_nil, pktEnd_eq, a3]
      omega
    have hml : s.minLength ≤ u.minLength := by rw [hmin, extent_append, inv.min]; omega
    have hpe : p.payloadOffset + p.payload.length ≤ u.minLength := by
      rw [hmin, extent_append]
      have h2 := ptrsEnd_ge p.hab p.pointers (max (p.payloadOffset + p.payload.length) (p.heapLength.getD 0))
      rw [← pktEnd_eq] at h2
      have h3 := le_foldr_max [p] p (by simp)
      omega
    have hrel : relevantPtrs s.hab (acc ++ [p]) = relevantPtrs s.hab acc ++ p.pointers.filter (fun q => relevant s.hab q) := by
      simp [relevantPtrs]
    have huh : u.hab = s.hab := by rw [p3, g2]
    have hends : ∀ r ∈ m, r.2 ≤ u.minLength := by
      intro r hr
      rcases r5 r hr with h | ⟨r', hr', h⟩
      · omega
      · have := inv.ends r' hr'; omega
    have hrec : s.received + p.payload.length ≤ u.minLength := by
      cases ooo with
      | true =>
        have := (rangesLength_le m 0 u.minLength r1 (fun r hr => ⟨by omega, hends r hr⟩)).1
        rw [r4 rfl] at this
        omega
      | false =>
        simp only [Bool.false_eq_true, if_false] at a4
        omega
    have hulen : u.payload.length = t.payload.length := by rw [p7]
    have hold : ∀ q ∈ acc, ∀ (i : Nat) b, q.payload[i]? = some b → t.payload[q.payloadOffset + i]? = some (some b) := by
      intro q hq i b hb
      have := inv.bytes q hq i b hb
      rw [g8 _ (List.getElem?_eq_some_iff.1 this).1]
      exact this
    have hhl : ∀ q ∈ acc ++ [p], ∀ h, q.heapLength = some h → u.heapLength = some h := by
      intro q hq h hh
      rw [p5, g7]
      rcases List.mem_append.1 hq with hq | hq
      · have := inv.hlall q hq h hh
        rw [if_neg (by rw [this]; simp)]; exact this
      · simp at hq; subst hq
        cases hs : s.heapLength with
        | none => simpa using hh
        | some a => have := a1 a h hs hh; simp [this]
    have hhls : ∀ h, u.heapLength = some h → ∃ q ∈ acc ++ [p], q.heapLength = some h := by
      intro h hh
      rw [p5, g7] at hh
      cases hs : s.heapLength with
      | none =>
        rw [hs] at hh
        simp only [if_true] at hh
        exact ⟨p, by simp, hh⟩
      | some a =>
        rw [hs] at hh
        simp only [reduceCtorEq, if_false] at hh
        obtain ⟨q, hq, hql⟩ := inv.hlsome h (by rw [hs]; exact hh)
        exact ⟨q, by simp [hq], hql⟩
    have hdisj : (acc ++ [p]).Pairwise (fun p q => ∀ x, ¬ (Carries p x ∧ Carries q x)) := by
      rw [List.pairwise_append]
      refine ⟨inv.disj, by simp, ?_⟩
      intro q hq p' hp' x hx
      simp at hp'; subst hp'
      exact r6 x hx.2 ⟨q, hq, hx.1⟩
    have hhab : ∀ q ∈ acc ++ [p], q.hab = s.hab := by
      intro q hq
      rcases List.mem_append.1 hq with hq | hq
      · exact inv.hab q hq
      · simp at hq; subst hq; exact a3
    by_cases hlen : p.payload.length > 0
    · rw [if_pos hlen]
      obtain ⟨buf, w1, w2, w3, w4⟩ := writePayload_some (buf := u.payload) (off := p.payloadOffset) (data := p.payload)
        (by rw [hulen]; exact g10)
      rw [w1]
      refine ⟨_, true, rfl, by simp only; rw [p4, g1], huh, by simp, by simp, fun _ => ⟨?_, r6⟩⟩
      exact {
        hab := by simp only [huh]; exact hhab
        sep := by simp only [p8, g6]; exact r1
        noranges := by simp only [p8, g6]; exact r2
        cov := by simp only [p8, g6, p6, g3]; exact r3
        tot := by simp only [p8, g6, p6, g3]; exact r4
        ends := by simp only [p8, g6]; exact hends
        recle := by simp only [p6, g3]; exact hrec
        min := hmin
        bytes := by
          intro q hq i b hb
          simp only
          rcases List.mem_append.1 hq with hq | hq
          · have hib : i < q.payload.length := (List.getElem?_eq_some_iff.1 hb).1
            rw [w3, p7]
            · exact hold q hq i b hb
            · by_cases hc : q.payloadOffset + i < p.payloadOffset ∨ p.payloadOffset + p.payload.length ≤ q.payloadOffset + i
              · exact hc
              · exfalso
                exact r6 (q.payloadOffset + i) ⟨by omega, by omega⟩ ⟨q, hq, by omega, by omega⟩
          · simp at hq; subst hq
            exact w4 i b hb
        hlall := hhl
        hlsome := hhls
        res := by
          intro h hh
          simp only at hh ⊢
          rw [w2, hulen]
          rw [p5] at hh
          exact g11 h hh
        disj := hdisj
        ptrs := by
          simp only [huh, hrel]
          rw [g2] at p1
          exact ⟨p1.ok, p1.list, by have := p1.eos; rw [huh] at this; exact this⟩ }
    · rw [if_neg hlen]
      have h0 : p.payload.length = 0 := by omega
      refine ⟨u, true, rfl, by rw [p4, g1], huh, by simp, by simp, fun _ => ⟨?_, r6⟩⟩
      rw [h0, Nat.add_zero] at r3 r4 hrec
      exact {
        hab := by rw [huh]; exact hhab
        sep := by rw [p8, g6]; exact r1
        noranges := by rw [p8, g6]; exact r2
        cov := by rw [p8, g6, p6, g3]; exact r3
        tot := by rw [p8, g6, p6, g3]; exact r4
        ends := by rw [p8, g6]; exact hends
        recle := by rw [p6, g3]; exact hrec
        min := hmin
        bytes := by
          intro q hq i b hb
          rcases List.mem_append.1 hq with hq | hq
          · rw [p7]; exact hold q hq i b hb
          · simp at hq; subst hq
            have := (List.getElem?_eq_some_iff.1 hb).1
            omega
        hlall := hhl
        hlsome := hhls
        res := by
          intro h hh
          rw [hulen]
          rw [p5] at hh
          exact g11 h hh
        disj := hdisj
        ptrs := by
          rw [huh, hrel]
          rw [g2] at p1
          exact p1 }

theorem run_inv {ooo : Bool} {s : LiveHeap} {acc : List Pkt} (inv : LInv ooo s acc) (ps : List Pkt)
    (hv : ∀ p ∈ ps, PktValid p) :
    ∃ s' l, s.run ooo ps = some (s', l) ∧ LInv ooo s' (acc ++ l) ∧ l.Sublist ps ∧ s'.cnt = s.cnt ∧ s'.hab = s.hab := by
  induction ps generalizing s acc with
  | nil => exact ⟨s, [], rfl, by simpa using inv, List.Sublist.refl _, rfl, rfl⟩
  | cons p ps ih =>
    obtain ⟨s1, b, h1, h2, h3, h4, h5, h6⟩ := addPacket_spec inv (hv p (by simp))
    cases b with
    | false =>
      have := h5 rfl
      subst this
      obtain ⟨s', l, k1, k2, k3, k4, k5⟩ := ih inv (fun p hp => hv p (by simp [hp]))
      refine ⟨s', l, ?_, k2, k3.cons p, k4, k5⟩
      simp only [LiveHeap.run, h1, k1]
      rfl
    | true =>
      obtain ⟨s', l, k1, k2, k3, k4, k5⟩ := ih (h6 rfl).1 (fun p hp => hv p (by simp [hp]))
      refine ⟨s', p :: l, ?_, by simpa using k2, k3.cons_cons p, by rw [k4, h2], by rw [k5, h3]⟩
      simp only [LiveHeap.run, h1, k1]
      rfl

/-! ### From decoded headers -/

theorem loadPointers?_table (pre : Bytes) (t : List Nat) (rest : Bytes) (h : ∀ p ∈ t, p < 2 ^ 64) :
    loadPointers? (pre ++ (t.flatMap (beBytes 8) ++ rest)) t.length pre.length = some t := by
  induction t generalizing pre with
  | nil => rfl
  | cons x t ih =>
    have hx : x < 256 ^ 8 := by have := h x (by simp); omega
    simp only [List.length_cons, loadPointers?, List.flatMap_cons, List.append_assoc]
    have hl : load64? (pre ++ (beBytes 8 x ++ (t.flatMap (beBytes 8) ++ rest))) pre.length = some x := by
      unfold load64? slice?
      rw [if_pos (by simp), List.drop_left, List.take_left' (beBytes_length _ _)]
      simp [beNat_beBytes_of_lt hx]
    rw [hl]
    have := ih (pre ++ beBytes 8 x) (fun p hp => h p (by simp [hp]))
    rw [List.append_assoc, List.length_append, beBytes_length] at this
    rw [this]

end Spead2
