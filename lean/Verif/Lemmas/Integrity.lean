import Mathlib.Data.List.Sort
import Verif.Spec.Integrity
import Verif.Props.Traffic
import Verif.Lemmas.Framing
import Verif.Lemmas.RecvUdp

/-!
# A heap that is handed over is made of packets that were presented
-/

namespace Spead2
open Spec

/-- Packets that are rejected make no difference. -/
theorem run_accepted {ooo : Bool} : ∀ {ps : List Pkt} {s s' : LiveHeap} {acc0 acc : List Pkt}, LInv ooo s acc0 → (∀ p ∈ ps, PktValid p) → s.run ooo ps = some (s', acc) → s.run ooo acc = some (s', acc)
  | [], s, s', acc0, acc, _, _, h => by
    simp only [LiveHeap.run, Option.some.injEq, Prod.mk.injEq] at h
    obtain ⟨rfl, rfl⟩ := h
    rfl
  | p :: ps, s, s', acc0, acc, inv, hv, h => by
    obtain ⟨s1, b, h1, -, -, -, h5, h6⟩ := addPacket_spec inv (hv p List.mem_cons_self)
    have hv' := fun q hq => hv q (List.mem_cons_of_mem p hq)
    rw [LiveHeap.run, h1] at h
    simp only at h
    cases h2 : s1.run ooo ps with
    | none => rw [h2] at h; cases h
    | some x =>
      obtain ⟨s2, l⟩ := x
      rw [h2] at h
      simp only [Option.some.injEq, Prod.mk.injEq] at h
      obtain ⟨rfl, rfl⟩ := h
      cases b with
      | false =>
        rw [h5 rfl] at h2
        simpa using run_accepted inv hv' h2
      | true =>
        rw [if_pos rfl, LiveHeap.run, h1]
        simp only
        rw [run_accepted (h6 rfl).1 hv' h2]
        rfl

/-- With reordering off, packets are accepted in order of their offsets. -/
theorem run_sorted : ∀ {ps : List Pkt} {s s' : LiveHeap} {acc0 acc : List Pkt}, LInv false s acc0 → (∀ p ∈ ps, PktValid p ∧ p.payload ≠ []) → s.run false ps = some (s', acc) →
    (∀ p ∈ acc, s.received ≤ p.payloadOffset) ∧ acc.Pairwise (fun p q => p.payloadOffset < q.payloadOffset)
  | [], s, s', acc0, acc, _, _, h => by
    simp only [LiveHeap.run, Option.some.injEq, Prod.mk.injEq] at h
    obtain ⟨rfl, rfl⟩ := h
    simp
  | p :: ps, s, s', acc0, acc, inv, hv, h => by
    obtain ⟨hpv, hpn⟩ := hv p List.mem_cons_self
    obtain ⟨s1, b, h1, -, -, h4, h5, h6⟩ := addPacket_spec inv hpv
    have hv' := fun q hq => hv q (List.mem_cons_of_mem p hq)
    rw [LiveHeap.run, h1] at h
    simp only at h
    cases h2 : s1.run false ps with
    | none => rw [h2] at h; cases h
    | some x =>
      obtain ⟨s2, l⟩ := x
      rw [h2] at h
      simp only [Option.some.injEq, Prod.mk.injEq] at h
      obtain ⟨rfl, rfl⟩ := h
      cases b with
      | false =>
        rw [h5 rfl] at h2
        simpa using run_sorted inv hv' h2
      | true =>
        have ha : s.admit p false ≠ none := fun e => by cases (h4.2 e)
        obtain ⟨m, hm⟩ := Option.ne_none_iff_exists'.1 ha
        have ho : p.payloadOffset = s.received := by
          have := (admit_some hm).2.2.2
          simp at this
          exact this.1
        have hlt : p.payloadOffset < s1.received := by
          have hpos : 0 < p.payload.length := List.length_pos_iff.2 hpn
          have := ((h6 rfl).1.cov p.payloadOffset).1 ⟨p, by simp, Nat.le_refl _, by omega⟩
          simpa using this
        obtain ⟨k1, k2⟩ := run_sorted (h6 rfl).1 hv' h2
        rw [if_pos rfl]
        constructor
        · intro q hq
          rcases List.mem_cons.1 hq with rfl | hq
          · omega
          · have := k1 q hq; omega
        · rw [List.pairwise_cons]
          exact ⟨fun q hq => by have := k1 q hq; omega, k2⟩

theorem pktSeq_sorted {w cnt hl : Nat} : ∀ (parts : List (List Nat × Bytes)) (off : Nat), (∀ p ∈ pktSeq w cnt hl off parts, p.payload ≠ []) →
    (pktSeq w cnt hl off parts).Pairwise (fun p q => p.payloadOffset < q.payloadOffset)
  | [], _, _ => by simp [pktSeq]
  | (ptrs, payload) :: rest, off, hne => by
    rw [pktSeq] at hne ⊢
    rw [List.pairwise_cons]
    refine ⟨fun q hq => ?_, pktSeq_sorted rest _ (fun p hp => hne p (List.mem_cons_of_mem _ hp))⟩
    have h1 := (pktSeq_mem hq).2.2.2.1
    have h2 : 0 < payload.length := List.length_pos_iff.2 (hne _ List.mem_cons_self)
    show off < q.payloadOffset
    omega

theorem eq_of_sorted {a b : List Pkt} (ha : a.Pairwise (fun p q => p.payloadOffset < q.payloadOffset)) (hb : b.Pairwise (fun p q => p.payloadOffset < q.payloadOffset))
    (h : ∀ p, p ∈ a ↔ p ∈ b) : a = b := by
  have na : a.Nodup := ha.imp (fun h e => by rw [e] at h; omega)
  have nb : b.Nodup := hb.imp (fun h e => by rw [e] at h; omega)
  have hp : a.Perm b := (List.perm_ext_iff_of_nodup na nb).2 h
  refine hp.eq_of_pairwise ?_ ha hb
  intro x y _ _ h1 h2
  omega

/-- Every packet of a list is that of a datagram. -/
theorem choose_data {x : Sent} (ok : x.Ok) : ∀ {ps : List Pkt}, (∀ p ∈ ps, ∃ d ∈ x.wire, IsPacket d p) → ∃ ds : List Bytes, ds.map recvOr = ps ∧ ∀ d ∈ ds, d ∈ x.wire
  | [], _ => ⟨[], rfl, by simp⟩
  | p :: ps, h => by
    obtain ⟨ds, h1, h2⟩ := choose_data ok (fun q hq => h q (List.mem_cons_of_mem p hq))
    obtain ⟨d, hd, hp⟩ := h p List.mem_cons_self
    refine ⟨d :: ds, ?_, ?_⟩
    · rw [List.map_cons, h1, isPacket_inj hp (ok.framed hd).2.1]
    · intro e he
      rcases List.mem_cons.1 he with rfl | he
      · exact hd
      · exact h2 e he

/-- What a heap that is complete is. -/
theorem complete_same {cfg : StreamConfig} {x : Sent} (ok : x.Ok) {e : Entry} (ha : Assembled cfg.allowOoo e) (hg : ∀ p ∈ e.pkts, ∃ d ∈ x.wire, IsPacket d p)
    (hc : e.heap.isComplete = true) : (x.Robust cfg → SameItems x e.heap) ∧ ∀ d ∈ x.wire, recvOr d ∈ e.pkts := by
  obtain ⟨S, r⟩ := ok.rx
  obtain ⟨ds, hds, hdw⟩ := choose_data ok hg
  obtain ⟨p0, rest, acc, hp0, -, hrun⟩ := ha
  have hsubS : ∀ p ∈ e.pkts, p ∈ S := by
    intro p hp
    rw [← hds] at hp
    obtain ⟨d, hd, rfl⟩ := List.mem_map.1 hp
    exact r.mem (hdw d hd)
  have hall := r.sp.fam.complete_all r.sp.cover hsubS hrun hc
  have hwire : ∀ b ∈ x.wire, b ∈ ds := by
    intro b hb
    have := hall _ (r.mem hb)
    rw [← hds] at this
    obtain ⟨d, hd, hde⟩ := List.mem_map.1 this
    rw [← r.inj (hdw d hd) hb hde]
    exact hd
  refine ⟨?_, fun d hd => by rw [← hds]; exact List.mem_map_of_mem (hwire d hd)⟩
  intro hr
  have horig : ∀ {l : List Bytes}, (∀ d ∈ l, d ∈ x.wire) → ∀ d ∈ l, ∃ y ∈ [x], d ∈ y.wire := fun h d hd => ⟨x, List.mem_singleton_self x, h d hd⟩
  have hok : ∀ y ∈ [x], y.Ok := by
    intro y hy
    rw [List.mem_singleton.1 hy]; exact ok
  have hcnt : ∀ {l : List Bytes}, (∀ d ∈ l, d ∈ x.wire) → ofCnt x.cnt (l.map recvOr) = l.map recvOr := by
    intro l hl
    unfold ofCnt
    rw [List.filter_eq_self]
    intro p hp
    obtain ⟨d, hd, rfl⟩ := List.mem_map.1 hp
    exact decide_eq_true (r.cnt (hl d hd))
  have hself : ∀ {l : List Bytes}, (∀ d ∈ l, d ∈ x.wire) → x.among l = l := by
    intro l hl
    unfold Sent.among
    rw [List.filter_eq_self]
    exact fun d hd => decide_eq_true (hl d hd)
  cases hoo : cfg.allowOoo with
  | true =>
    rw [hoo] at hrun
    have harr : x.Arrives cfg ds := by
      refine ⟨?_, by rw [hoo]; exact hwire⟩
      rcases hr with h | ⟨h1, h2 | h2⟩
      · exact Or.inl h
      · exact Or.inr ⟨h1, Or.inl h2⟩
      · rw [hoo] at h2; cases h2
    obtain ⟨h, h1, h2⟩ := arrives_assemble hok (by simp) (horig hdw) (List.mem_singleton_self x) harr
    rw [hcnt hdw, hds, hoo] at h1
    unfold assemble at h1
    rw [hp0] at h1 hrun
    simp only at h1
    rw [hrun] at h1
    simp only [Option.map_some, Option.some.injEq] at h1
    rw [h1]
    exact h2
  | false =>
    rw [hoo] at hrun
    have hvalid : ∀ p ∈ e.pkts, PktValid p := fun p hp => r.sp.fam.valid p (hsubS p hp)
    have hrun' := run_accepted (LInv.new false p0) hvalid hrun
    have haccS : ∀ p ∈ acc, p ∈ S := fun p hp => hsubS p (run_acc_mem hrun p hp)
    have hSacc := r.sp.fam.complete_all r.sp.cover haccS hrun' hc
    obtain ⟨-, hsort⟩ := run_sorted (LInv.new false p0) (fun p hp => ⟨hvalid p hp, r.sp.fam.ne p (hsubS p hp)⟩) hrun
    have hSs : S.Pairwise (fun p q => p.payloadOffset < q.payloadOffset) := by
      obtain ⟨parts, hparts⟩ := r.sp.seq
      have hne := r.sp.fam.ne
      rw [hparts] at hne ⊢
      exact pktSeq_sorted parts 0 hne
    have heq : acc = S := eq_of_sorted hsort hSs (fun p => ⟨haccS p, hSacc p⟩)
    subst heq
    have hww : ∀ d ∈ x.wire, d ∈ x.wire := fun d hd => hd
    have harr : x.Arrives cfg x.wire := by
      refine ⟨?_, by rw [hoo]; simpa using hself hww⟩
      rcases hr with h | ⟨h1, h2⟩
      · exact Or.inl h
      · refine Or.inr ⟨h1, Or.inr ?_⟩
        rw [hself hww]
        refine eraseDups_of_nodup ?_
        have := r.sp.nodup
        rw [← r.wire] at this
        exact List.Nodup.of_map _ this
    obtain ⟨h, h1, h2⟩ := arrives_assemble hok (by simp) (horig hww) (List.mem_singleton_self x) harr
    rw [hcnt hww, r.wire, hoo] at h1
    unfold assemble at h1
    cases hS : acc with
    | nil => rw [hS] at h1; cases h1
    | cons q l =>
      rw [hS] at h1 hrun'
      simp only at h1
      have hn : LiveHeap.new q = LiveHeap.new p0 := by
        unfold LiveHeap.new
        have hp0S : p0 ∈ acc := hsubS p0 (by rw [hp0]; exact List.mem_cons_self)
        have hqS : q ∈ acc := by rw [hS]; exact List.mem_cons_self
        rw [r.sp.same q hqS, r.sp.same p0 hp0S, r.sp.fam.hab q hqS, r.sp.fam.hab p0 hp0S]
      rw [hn, hrun'] at h1
      simp only [Option.map_some, Option.some.injEq] at h1
      rw [h1]
      exact h2

/-- The bytes that were received. -/
theorem received_bytes {ooo : Bool} {x : Sent} (ok : x.Ok) {e : Entry} (ha : Assembled ooo e) (hg : ∀ p ∈ e.pkts, ∃ d ∈ x.wire, IsPacket d p) : BytesOf x e.heap := by
  obtain ⟨S, r⟩ := ok.rx
  obtain ⟨ds, hds, hdw⟩ := choose_data ok hg
  obtain ⟨p0, rest, acc, hp0, -, hrun⟩ := ha
  have hsubS : ∀ p ∈ e.pkts, p ∈ S := by
    intro p hp
    rw [← hds] at hp
    obtain ⟨d, hd, rfl⟩ := List.mem_map.1 hp
    exact r.mem (hdw d hd)
  have hvalid : ∀ p ∈ e.pkts, PktValid p := fun p hp => r.sp.fam.valid p (hsubS p hp)
  intro i hi
  obtain ⟨-, hcov, -⟩ := C14_ranges p0 ooo e.pkts hvalid e.heap acc hrun
  obtain ⟨p, hp, hlo, hhi⟩ := (hcov i).1 hi
  have hpS := hsubS p (run_acc_mem hrun p hp)
  have hj : i - p.payloadOffset < p.payload.length := by omega
  refine ⟨p.payload[i - p.payloadOffset], ?_, ?_⟩
  · have := (C12_bytes_written_once p0 ooo e.pkts hvalid e.heap acc hrun).1 p hp (i - p.payloadOffset) _ (List.getElem?_eq_getElem hj)
    rwa [show p.payloadOffset + (i - p.payloadOffset) = i from by omega] at this
  · have hpay := C09_payload_partial x.heap x.cnt x.mps x.width ok.hab ok.fits x.pkts ok.sends ok.payload
    have hd := r.sp.data p hpS
    rw [hpay] at hd
    have h2 : (List.drop p.payloadOffset x.payload)[i - p.payloadOffset]? = some p.payload[i - p.payloadOffset] := by
      show (List.drop p.payloadOffset (realPayload x.width x.heap.items ++ _))[i - p.payloadOffset]? = _
      rw [hd, List.getElem?_append_left hj, List.getElem?_eq_getElem hj]
    rw [List.getElem?_drop, show p.payloadOffset + (i - p.payloadOffset) = i from by omega] at h2
    exact h2

end Spead2
