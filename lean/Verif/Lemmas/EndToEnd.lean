import Verif.Props.Heap
import Verif.Props.Send

namespace Spead2
open Spec

/-! ### Ranges stay non-empty when the packets are -/

theorem joinRange_ne (pre hi : List (Nat × Nat)) (start last : Nat) (h1 : ∀ r ∈ pre, r.1 < r.2) (h2 : ∀ r ∈ hi, r.1 < r.2)
    (h : start < last) : ∀ r ∈ joinRange pre start last hi, r.1 < r.2 := by
  unfold joinRange
  cases hi with
  | nil =>
    intro r hr
    rcases List.mem_append.1 hr with hr | hr
    · exact h1 r hr
    · simp at hr; subst hr; exact h
  | cons nx rest =>
    simp only
    split
    · rename_i he
      intro r hr
      rcases List.mem_append.1 hr with hr | hr
      · exact h1 r hr
      · rcases List.mem_cons.1 hr with rfl | hr
        · have := h2 nx (by simp); simp only; omega
        · exact h2 r (by simp [hr])
    · intro r hr
      rcases List.mem_append.1 hr with hr | hr
      · exact h1 r hr
      · rcases List.mem_cons.1 hr with rfl | hr
        · exact h
        · exact h2 r hr

theorem addRange_ne (m m' : List (Nat × Nat)) (first last : Nat) (hs : Separated m) (hm : ∀ r ∈ m, r.1 < r.2) (h : first < last)
    (ha : addRange m first last = some m') : ∀ r ∈ m', r.1 < r.2 := by
  unfold addRange at ha
  have hlo : ∀ r ∈ m.takeWhile (fun r => decide (r.1 ≤ first)), r.1 < r.2 :=
    fun r hr => hm r ((List.takeWhile_sublist _).subset hr)
  have hhi : ∀ r ∈ m.dropWhile (fun r => decide (r.1 ≤ first)), r.1 < r.2 :=
    fun r hr => hm r ((List.dropWhile_sublist _).subset hr)
  have hlo2 := (split_ranges m hs first).1
  generalize m.takeWhile (fun r => decide (r.1 ≤ first)) = lo at *
  generalize m.dropWhile (fun r => decide (r.1 ≤ first)) = hi at *
  simp only at ha
  split at ha
  · simp at ha
  cases hl : lo.getLast? with
  | none =>
    rw [hl] at ha
    simp only [Option.map_some, Option.some.injEq] at ha
    rw [← ha]
    exact joinRange_ne lo hi first last hlo hhi h
  | some prev =>
    rw [hl] at ha
    have hpm : prev ∈ lo := List.mem_of_getLast? hl
    simp only at ha
    split at ha
    · simp only [Option.map_some, Option.some.injEq] at ha
      rw [← ha]
      exact joinRange_ne lo hi first last hlo hhi h
    · split at ha
      · simp only [Option.map_some, Option.some.injEq] at ha
        rw [← ha]
        refine joinRange_ne lo.dropLast hi prev.1 last (fun r hr => hlo r (List.dropLast_subset _ hr)) hhi ?_
        have := hlo2 prev hpm
        omega
      · simp at ha

/-! ### Acceptance of packets of one heap -/

/-- A family of packets of one heap: same width and announced length, non-empty, disjoint. -/
structure Family (S : List Pkt) (hab hl : Nat) : Prop where
  hab : ∀ p ∈ S, p.hab = hab
  len : ∀ p ∈ S, p.heapLength = some hl
  ne : ∀ p ∈ S, p.payload ≠ []
  valid : ∀ p ∈ S, PktValid p
  pend : ∀ p ∈ S, pktEnd p ≤ hl
  disj : ∀ p ∈ S, ∀ q ∈ S, p ≠ q → ∀ x, ¬ (Carries p x ∧ Carries q x)

theorem extent_le {acc : List Pkt} {n : Nat} (h : ∀ p ∈ acc, pktEnd p ≤ n) : extent acc ≤ n := by
  unfold extent
  induction acc with
  | nil => simp
  | cons x l ih =>
    simp only [List.foldr_cons]
    have := ih (fun p hp => h p (by simp [hp]))
    have := h x (by simp)
    omega

theorem le_extent {acc : List Pkt} {p : Pkt} (h : p ∈ acc) : pktEnd p ≤ extent acc := by
  unfold extent
  induction acc with
  | nil => simp at h
  | cons x l ih =>
    simp only [List.foldr_cons]
    rcases List.mem_cons.1 h with rfl | h
    · omega
    · have := ih h; omega

theorem le_pktEnd {p : Pkt} {hl : Nat} (h : p.heapLength = some hl) : hl ≤ pktEnd p := by
  unfold pktEnd
  generalize p.pointers.filter _ = l
  rw [h]
  induction l with
  | nil => simp; omega
  | cons x l ih => simp only [List.foldr_cons]; omega

theorem addPacket_family {S : List Pkt} {hab hl : Nat} (fam : Family S hab hl) {s : LiveHeap} {acc : List Pkt}
    (inv : LInv true s acc) (hsub : ∀ p ∈ acc, p ∈ S) (hh : s.hab = hab) (hne : ∀ r ∈ s.ranges, r.1 < r.2) {p : Pkt} (hp : p ∈ S) :
    ∃ s' b, s.addPacket p true = some (s', b) ∧ s'.hab = hab ∧ (∀ r ∈ s'.ranges, r.1 < r.2) ∧ s'.cnt = s.cnt ∧
      (b = false → s' = s ∧ p ∈ acc) ∧ (b = true → LInv true s' (acc ++ [p])) := by
  obtain ⟨s', b, h1, h2, h3, h4, h5, h6⟩ := addPacket_spec inv (fam.valid p hp)
  refine ⟨s', b, h1, by rw [h3, hh], ?_, h2, ?_, fun hb => (h6 hb).1⟩
  · cases b with
    | false => rw [h5 rfl]; exact hne
    | true =>
      cases ha : s.admit p true with
      | none => have := h4.2 ha; simp at this
      | some m =>
        obtain ⟨_, _, _, a4⟩ := admit_some ha
        simp only [if_true] at a4
        have hpl : 0 < p.payload.length := List.length_pos_iff.2 (fam.ne p hp)
        have hm := addRange_ne s.ranges m _ _ inv.sep hne (by omega) a4
        have hr : s'.ranges = m := by
          unfold LiveHeap.addPacket at h1
          rw [ha] at h1
          simp only at h1
          have e1 : ∀ t : LiveHeap, (t.grow p).ranges = t.ranges := by
            intro t; unfold LiveHeap.grow; split
            · split <;> rfl
            · rfl
          have e2 : ∀ (l : List Nat) (t : LiveHeap), (t.addPointers l).ranges = t.ranges := by
            intro l
            unfold LiveHeap.addPointers
            induction l with
            | nil => intro t; rfl
            | cons q l ih =>
              intro t
              rw [List.foldl_cons, ih]
              unfold LiveHeap.addPointer
              by_cases c1 : isImmediate q = true <;> by_cases c2 : getId t.hab q = 0 ∨ getId t.hab q > PAYLOAD_LENGTH_ID <;>
                simp only [c1, c2, if_true, if_false, Bool.false_eq_true] <;> (repeat' split) <;> rfl
          rw [if_pos hpl] at h1
          split at h1
          · simp at h1
          · simp only [Option.some.injEq, Prod.mk.injEq, and_true] at h1
            rw [← h1]
            simp only [e2, e1]
        rw [hr]; exact hm
  · intro hb
    refine ⟨h5 hb, ?_⟩
    have hadm := h4.1 hb
    apply Classical.byContradiction
    intro hnot
    have hml : s.minLength ≤ hl := by
      rw [inv.min]; exact extent_le (fun q hq => fam.pend q (hsub q hq))
    have c1 : lengthConflict s.heapLength p.heapLength = false := by
      rw [fam.len p hp]
      cases hs : s.heapLength with
      | none => rfl
      | some m =>
        obtain ⟨q, hq, hqm⟩ := inv.hlsome _ hs
        rw [fam.len q (hsub q hq)] at hqm
        simp at hqm
        simp [lengthConflict, hqm]
    have c2 : lengthTooSmall s.minLength p.heapLength = false := by
      rw [fam.len p hp]; simp [lengthTooSmall]; exact hml
    unfold LiveHeap.admit at hadm
    rw [if_neg (by simp [c1]), if_neg (by simp [c2]), if_neg (by rw [fam.hab p hp, hh]; simp), if_pos rfl] at hadm
    have hpl : 0 < p.payload.length := List.length_pos_iff.2 (fam.ne p hp)
    obtain ⟨r, hr, hr1, hr2⟩ := addRange_none s.ranges _ _ inv.sep (by omega) hadm
    have hrne := hne r hr
    have hcov : Covered acc (max r.1 p.payloadOffset) := by
      have := inv.cov (max r.1 p.payloadOffset)
      simp only [if_true] at this
      rw [this]
      exact ⟨r, hr, by omega, by omega⟩
    obtain ⟨q, hq, hqc⟩ := hcov
    have hqp : q ≠ p := fun h => hnot (h ▸ hq)
    exact fam.disj q (hsub q hq) p hp hqp _ ⟨hqc, by constructor <;> omega⟩

theorem run_family {S : List Pkt} {hab hl : Nat} (fam : Family S hab hl) (ps : List Pkt) (hps : ∀ p ∈ ps, p ∈ S)
    {s : LiveHeap} {acc : List Pkt} (inv : LInv true s acc) (hsub : ∀ p ∈ acc, p ∈ S) (hh : s.hab = hab)
    (hne : ∀ r ∈ s.ranges, r.1 < r.2) (hnd : acc.eraseDups = acc) :
    ∃ s' l, s.run true ps = some (s', l) ∧ LInv true s' (acc ++ l) ∧ (∀ p ∈ acc ++ l, p ∈ S) ∧ s'.hab = hab ∧ s'.cnt = s.cnt ∧
      acc ++ l = (acc ++ ps).eraseDups := by
  induction ps generalizing s acc with
  | nil => exact ⟨s, [], rfl, by simpa using inv, by simpa using hsub, hh, rfl, by simp [hnd]⟩
  | cons p ps ih =>
    obtain ⟨s1, b, h1, h2, h3, h4, h5, h6⟩ := addPacket_family fam inv hsub hh hne (hps p (by simp))
    have hps' := fun q hq => hps q (List.mem_cons_of_mem p hq)
    unfold LiveHeap.run
    rw [h1]
    simp only
    cases b with
    | false =>
      obtain ⟨rfl, hpa⟩ := h5 rfl
      obtain ⟨s2, l, g1, g2, g3, g4, g5, g6⟩ := ih hps' inv hsub hh hne hnd
      refine ⟨s2, l, by rw [g1]; simp, g2, g3, g4, g5, ?_⟩
      rw [g6, List.eraseDups_append, List.eraseDups_append]
      congr 2
      simp [List.removeAll, hpa]
    | true =>
      have inv' := h6 rfl
      have hpn : p ∉ acc := by
        intro hpa
        have := inv'.disj
        rw [List.pairwise_append] at this
        have hpl : 0 < p.payload.length := List.length_pos_iff.2 (fam.ne p (hps p (by simp)))
        exact this.2.2 p hpa p (by simp) p.payloadOffset ⟨⟨by omega, by omega⟩, by omega, by omega⟩
      obtain ⟨s2, l, g1, g2, g3, g4, g5, g6⟩ := ih hps' inv'
        (by intro q hq; rcases List.mem_append.1 hq with hq | hq
            · exact hsub q hq
            · simp at hq; subst hq; exact hps q (by simp)) h2 h3
        (by rw [List.eraseDups_append, hnd]; simp [List.removeAll, hpn, List.eraseDups_cons])
      rw [List.append_assoc, List.singleton_append] at g2 g3 g6
      rw [List.append_assoc, List.singleton_append] at g6
      exact ⟨s2, p :: l, by rw [g1]; simp, g2, g3, g4, by rw [g5, h4], g6⟩

/-! ### The packets of a sent heap, as the receiver sees them -/

/-- The receiver's view of `packetSeq`. -/
def pktSeq (w cnt hl : Nat) : Nat → List (List Nat × Bytes) → List Pkt
  | _, [] => []
  | off, (ptrs, payload) :: rest => ⟨8 * w, cnt, some hl, off, payload, ptrs⟩ :: pktSeq w cnt hl (off + payload.length) rest

theorem pktSeq_mem {w cnt hl : Nat} {off : Nat} {parts : List (List Nat × Bytes)} {p : Pkt} (h : p ∈ pktSeq w cnt hl off parts) :
    p.hab = 8 * w ∧ p.heapCnt = cnt ∧ p.heapLength = some hl ∧ off ≤ p.payloadOffset ∧
    p.payloadOffset + p.payload.length ≤ off + (parts.map (fun x => x.2.length)).sum ∧ (p.pointers, p.payload) ∈ parts ∧
    (parts.map Prod.snd).flatten.drop (p.payloadOffset - off) =
      p.payload ++ (parts.map Prod.snd).flatten.drop (p.payloadOffset - off + p.payload.length) := by
  induction parts generalizing off with
  | nil => simp [pktSeq] at h
  | cons x rest ih =>
    obtain ⟨ptrs, payload⟩ := x
    simp only [pktSeq, List.mem_cons] at h
    rcases h with rfl | h
    · simp
    · obtain ⟨h1, h2, h3, h4, h5, h6, h7⟩ := ih h
      refine ⟨h1, h2, h3, by omega, by simp; omega, by simp [h6], ?_⟩
      simp only [List.map_cons, List.flatten_cons]
      have e : p.payloadOffset - off = payload.length + (p.payloadOffset - (off + payload.length)) := by omega
      rw [e, List.drop_append, List.drop_append, List.drop_of_length_le (by omega), List.nil_append,
        show payload.length + (p.payloadOffset - (off + payload.length)) - payload.length = p.payloadOffset - (off + payload.length) by omega,
        show payload.length + (p.payloadOffset - (off + payload.length)) + p.payload.length - payload.length =
          p.payloadOffset - (off + payload.length) + p.payload.length by omega,
        List.drop_of_length_le (i := payload.length + (p.payloadOffset - (off + payload.length)) + p.payload.length) (by omega),
        List.nil_append]
      exact h7

theorem pktSeq_disj {w cnt hl : Nat} {off : Nat} {parts : List (List Nat × Bytes)} :
    (pktSeq w cnt hl off parts).Pairwise (fun p q => p.payloadOffset + p.payload.length ≤ q.payloadOffset) := by
  induction parts generalizing off with
  | nil => exact List.Pairwise.nil
  | cons x rest ih =>
    obtain ⟨ptrs, payload⟩ := x
    simp only [pktSeq, List.pairwise_cons]
    exact ⟨fun q hq => (pktSeq_mem hq).2.2.2.1, ih⟩

theorem pktSeq_cover {w cnt hl : Nat} {off : Nat} {parts : List (List Nat × Bytes)} (x : Nat) (h1 : off ≤ x)
    (h2 : x < off + (parts.map (fun x => x.2.length)).sum) : ∃ p ∈ pktSeq w cnt hl off parts, Carries p x := by
  induction parts generalizing off with
  | nil => simp at h2; omega
  | cons y rest ih =>
    obtain ⟨ptrs, payload⟩ := y
    simp only [List.map_cons, List.sum_cons] at h2
    by_cases hx : x < off + payload.length
    · exact ⟨⟨8 * w, cnt, some hl, off, payload, ptrs⟩, by simp [pktSeq], h1, hx⟩
    · obtain ⟨p, hp, hc⟩ := ih (off := off + payload.length) (by omega) (by omega)
      exact ⟨p, by simp [pktSeq, hp], hc⟩

theorem disj_of_pairwise {S : List Pkt} (h : S.Pairwise (fun p q => p.payloadOffset + p.payload.length ≤ q.payloadOffset)) :
    ∀ p ∈ S, ∀ q ∈ S, p ≠ q → ∀ x, ¬ (Carries p x ∧ Carries q x) := by
  induction S with
  | nil => simp
  | cons a S ih =>
    rw [List.pairwise_cons] at h
    intro p hp q hq hne x ⟨⟨h1, h2⟩, h3, h4⟩
    rcases List.mem_cons.1 hp with rfl | hp <;> rcases List.mem_cons.1 hq with rfl | hq
    · exact hne rfl
    · have := h.1 q (by assumption); omega
    · have := h.1 p (by assumption); omega
    · exact ih h.2 p hp q hq hne x ⟨⟨h1, h2⟩, h3, h4⟩

/-! ### Decoding the packets of a sent heap -/

theorem imm_fields {w : Nat} (hw7 : w ≤ 7) {id v : Nat} (hid : id < 2 ^ (63 - 8 * w)) (hv : v < 2 ^ (8 * w)) :
    ptrImmediate (2 ^ 63 + id * 2 ^ (8 * w) + v) ∧ ptrId w (2 ^ 63 + id * 2 ^ (8 * w) + v) = id ∧
      ptrValue w (2 ^ 63 + id * 2 ^ (8 * w) + v) = v := by
  have hpow : 2 ^ 63 = 2 ^ (8 * w) * 2 ^ (63 - 8 * w) := by rw [← Nat.pow_add]; congr 1; omega
  have e : 2 ^ 63 + id * 2 ^ (8 * w) + v = v + 2 ^ (8 * w) * (2 ^ (63 - 8 * w) + id) := by
    rw [hpow, Nat.mul_add, Nat.mul_comm id]; omega
  refine ⟨by unfold ptrImmediate; omega, ?_, ?_⟩
  · unfold ptrId
    rw [e, Nat.add_mul_div_left _ _ (Nat.two_pow_pos _), Nat.div_eq_of_lt hv, Nat.zero_add,
      Nat.add_mod_left, Nat.mod_eq_of_lt hid]
  · unfold ptrValue
    rw [e, Nat.add_mul_mod_self_left, Nat.mod_eq_of_lt hv]

theorem adr_fields {w : Nat} (hw7 : w ≤ 7) {id v : Nat} (hid : id < 2 ^ (63 - 8 * w)) (hv : v < 2 ^ (8 * w)) :
    ¬ ptrImmediate (id * 2 ^ (8 * w) + v) ∧ ptrId w (id * 2 ^ (8 * w) + v) = id ∧ ptrValue w (id * 2 ^ (8 * w) + v) = v := by
  have hpow : 2 ^ 63 = 2 ^ (8 * w) * 2 ^ (63 - 8 * w) := by rw [← Nat.pow_add]; congr 1; omega
  have e : id * 2 ^ (8 * w) + v = v + 2 ^ (8 * w) * id := by rw [Nat.mul_comm]; omega
  refine ⟨?_, ?_, ?_⟩
  · unfold ptrImmediate
    have : 2 ^ (8 * w) * (id + 1) ≤ 2 ^ (8 * w) * 2 ^ (63 - 8 * w) := Nat.mul_le_mul_left _ hid
    rw [← hpow, Nat.mul_succ] at this
    omega
  · unfold ptrId
    rw [e, Nat.add_mul_div_left _ _ (Nat.two_pow_pos _), Nat.div_eq_of_lt hv, Nat.zero_add, Nat.mod_eq_of_lt hid]
  · unfold ptrValue
    rw [e, Nat.add_mul_mod_self_left, Nat.mod_eq_of_lt hv]

/-- Decoding a well-formed packet gives its contents. -/
theorem recv_wellFormed {d : Bytes} {aw : UInt8} {table : List Nat} {payload : Bytes} {cnt off : Nat} {hlen : Option Nat}
    (wf : WellFormed d aw table payload cnt off hlen) :
    recvPkt? d = some (some ⟨8 * aw.toNat, cnt, hlen, off, payload, table.dropWhile (fun q => isPacketItem aw.toNat q)⟩) := by
  obtain ⟨h, size, hd⟩ : ∃ h size, decodePacket d = some (some (h, size)) :=
    ⟨_, _, (C04_accept_iff _ ⟨_, _, _, _, _, _, _, _⟩ _).2
      ⟨_, _, _, _, _, _, wf, rfl, rfl, rfl, rfl, rfl, rfl, rfl, rfl, rfl⟩⟩
  obtain ⟨p, hpk, _, aw', t, c, o, hlen', wf', p1, p2, p3, p4, p5⟩ := C11_decoded_packets_valid _ _ _ hd
  unfold recvPkt?
  rw [hd]
  simp only [hpk, Option.map_some, Option.some.injEq]
  obtain ⟨r, ht⟩ := wf.layout
  obtain ⟨r', ht'⟩ := wf'.layout
  obtain ⟨e1, e2, e3⟩ := hasTable_unique ht ht'
  subst e1 e2
  have f1 := wf'.heapCnt.symm.trans wf.heapCnt
  have f2 := wf'.heapLength.symm.trans wf.heapLength
  have f3 := wf'.payloadOffset.symm.trans wf.payloadOffset
  have f4 := wf'.payloadLength.symm.trans wf.payloadLength
  simp only [Option.some.injEq] at f1 f3 f4
  have e4 := (List.append_inj e3 f4.symm).1
  cases p
  simp only at p1 p2 p3 p4 p5 e4
  rw [p1, p2, p3, p4, p5, ← e4, f1, f2, f3]

theorem wf_packetBytes {w cnt hl off : Nat} {ptrs : List Nat} {payload : Bytes} (hw1 : 1 ≤ w) (hw : w ≤ 7)
    (hcnt : cnt < 2 ^ (8 * w)) (hhl : hl < 2 ^ (8 * w)) (hoff : off + payload.length ≤ hl)
    (hn : 4 + ptrs.length < 65536) (hp : ∀ p ∈ ptrs, p < 2 ^ 64) (hpi : ∀ p ∈ ptrs, ¬ isPacketItem w p) :
    ∃ table, WellFormed (packetBytes w cnt hl off ptrs payload) (UInt8.ofNat w) table payload cnt off (some hl) ∧
      table.length = 4 + ptrs.length ∧ table.dropWhile (fun q => decide (isPacketItem w q)) = ptrs := by
  have hw256 : (UInt8.ofNat w).toNat = w := by simp; omega
  have hpow4 : 4 < 2 ^ (63 - 8 * w) := Nat.lt_of_lt_of_le (by decide : 4 < 2 ^ 7) (Nat.pow_le_pow_right (by omega) (by omega))
  have i1 := imm_fields (w := w) (id := 1) (v := cnt) hw (by omega) hcnt
  have i2 := imm_fields (w := w) (id := 2) (v := hl) hw (by omega) hhl
  have i3 := imm_fields (w := w) (id := 3) (v := off) hw (by omega) (by omega)
  have i4 := imm_fields (w := w) (id := 4) (v := payload.length) hw (by omega) (by omega)
  have hlt1 : ∀ p ∈ [2 ^ 63 + 1 * 2 ^ (8 * w) + cnt, 2 ^ 63 + 2 * 2 ^ (8 * w) + hl, 2 ^ 63 + 3 * 2 ^ (8 * w) + off,
      2 ^ 63 + 4 * 2 ^ (8 * w) + payload.length], p < 2 ^ 64 := by
    have : 2 ^ (8 * w) ≤ 2 ^ 56 := Nat.pow_le_pow_right (by omega) (by omega)
    intro p hpm
    simp only [List.mem_cons, List.not_mem_nil, or_false] at hpm
    rcases hpm with rfl | rfl | rfl | rfl <;> omega
  generalize ht1 : 2 ^ 63 + 1 * 2 ^ (8 * w) + cnt = q1 at *
  generalize ht2 : 2 ^ 63 + 2 * 2 ^ (8 * w) + hl = q2 at *
  generalize ht3 : 2 ^ 63 + 3 * 2 ^ (8 * w) + off = q3 at *
  generalize ht4 : 2 ^ 63 + 4 * 2 ^ (8 * w) + payload.length = q4 at *
  have htab : HasTable (packetBytes w cnt hl off ptrs payload) (UInt8.ofNat w) ([q1, q2, q3, q4] ++ ptrs) payload := by
    refine ⟨UInt8.ofNat (8 - w), 0, 0, ?_, ?_, ?_, ?_, by simp; omega, ?_⟩
    · unfold packetBytes
      rw [ht1, ht2, ht3, ht4]
      congr 3
      simp; omega
    · intro hc; have := congrArg UInt8.toNat hc; simp at this; omega
    · intro hc; have := congrArg UInt8.toNat hc; simp at this; omega
    · simp; omega
    · intro p hpm
      rcases List.mem_append.1 hpm with h | h
      · exact hlt1 p h
      · exact hp p h
  have hnil : ∀ id, (id = 1 ∨ id = 2 ∨ id = 3 ∨ id = 4) → lastImm w id ptrs = none := by
    intro id hid
    unfold lastImm
    rw [List.filter_eq_nil_iff.2]
    · rfl
    · intro p hpm hc
      have hc := of_decide_eq_true hc
      exact hpi p hpm ⟨hc.1, by omega⟩
  have hlast : lastImm w 1 ([q1, q2, q3, q4] ++ ptrs) = some cnt ∧ lastImm w 2 ([q1, q2, q3, q4] ++ ptrs) = some hl ∧
      lastImm w 3 ([q1, q2, q3, q4] ++ ptrs) = some off ∧ lastImm w 4 ([q1, q2, q3, q4] ++ ptrs) = some payload.length := by
    simp only [List.cons_append, List.nil_append, lastImm_cons, hnil 1 (by omega), hnil 2 (by omega), hnil 3 (by omega),
      hnil 4 (by omega), i1, i2, i3, i4]
    simp
  have wf : WellFormed (packetBytes w cnt hl off ptrs payload) (UInt8.ofNat w) ([q1, q2, q3, q4] ++ ptrs) payload cnt off (some hl) := by
    refine ⟨⟨[], by simpa using htab⟩, ?_, ?_, ?_, ?_, ?_⟩
    · rw [hw256]; exact hlast.1
    · rw [hw256]; exact hlast.2.1
    · rw [hw256]; exact hlast.2.2.1
    · rw [hw256]; exact hlast.2.2.2
    · intro h hh; simp at hh; omega
  have hdrop : ([q1, q2, q3, q4] ++ ptrs).dropWhile (fun q => decide (isPacketItem w q)) = ptrs := by
    have g1 : isPacketItem w q1 := ⟨i1.1, Or.inl i1.2.1⟩
    have g2 : isPacketItem w q2 := ⟨i2.1, Or.inr (Or.inl i2.2.1)⟩
    have g3 : isPacketItem w q3 := ⟨i3.1, Or.inr (Or.inr (Or.inl i3.2.1))⟩
    have g4 : isPacketItem w q4 := ⟨i4.1, Or.inr (Or.inr (Or.inr i4.2.1))⟩
    simp only [List.cons_append, List.nil_append, List.dropWhile_cons, g1, g2, g3, g4, decide_true, if_true]
    cases ptrs with
    | nil => rfl
    | cons x l => simp [List.dropWhile_cons, hpi x (by simp)]
  exact ⟨_, wf, by simp; omega, hdrop⟩

theorem recv_packetBytes {w cnt hl off : Nat} {ptrs : List Nat} {payload : Bytes} (hw1 : 1 ≤ w) (hw : w ≤ 7)
    (hcnt : cnt < 2 ^ (8 * w)) (hhl : hl < 2 ^ (8 * w)) (hoff : off + payload.length ≤ hl)
    (hn : 4 + ptrs.length < 65536) (hp : ∀ p ∈ ptrs, p < 2 ^ 64) (hpi : ∀ p ∈ ptrs, ¬ isPacketItem w p) :
    recvPkt? (packetBytes w cnt hl off ptrs payload) = some (some ⟨8 * w, cnt, some hl, off, payload, ptrs⟩) := by
  obtain ⟨table, wf, _, hdrop⟩ := wf_packetBytes hw1 hw hcnt hhl hoff hn hp hpi
  have hw256 : (UInt8.ofNat w).toNat = w := by simp; omega
  have := recv_wellFormed wf
  rw [hw256] at this
  rw [hdrop] at this
  exact this

theorem recv_packetSeq {w cnt hl : Nat} (hw1 : 1 ≤ w) (hw : w ≤ 7) (hcnt : cnt < 2 ^ (8 * w)) (hhl : hl < 2 ^ (8 * w))
    (parts : List (List Nat × Bytes)) (off : Nat) (hsum : off + (parts.map (fun x => x.2.length)).sum ≤ hl)
    (hn : ∀ x ∈ parts, 4 + x.1.length < 65536) (hp : ∀ x ∈ parts, ∀ p ∈ x.1, p < 2 ^ 64 ∧ ¬ isPacketItem w p) :
    (packetSeq w cnt hl off parts).map recvPkt? = (pktSeq w cnt hl off parts).map (fun p => some (some p)) := by
  induction parts generalizing off with
  | nil => rfl
  | cons x rest ih =>
    obtain ⟨ptrs, payload⟩ := x
    simp only [List.map_cons, List.sum_cons] at hsum
    simp only [packetSeq, pktSeq, List.map_cons]
    rw [recv_packetBytes hw1 hw hcnt hhl (by omega) (hn (ptrs, payload) (by simp)) (fun p h => (hp (ptrs, payload) (by simp) p h).1)
      (fun p h => (hp (ptrs, payload) (by simp) p h).2),
      ih _ (by omega) (fun x hx => hn x (by simp [hx])) (fun x hx => hp x (by simp [hx]))]

end Spead2
