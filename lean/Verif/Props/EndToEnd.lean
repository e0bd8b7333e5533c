import Verif.Lemmas.EndItems

/-!
# C10: a heap survives the network, whatever the order and number of copies of its packets

`ds` is the list of datagrams a receiver gets: packets of one heap, in any order, any number of copies.
-/

namespace Spead2
open Spec

/-- `ds` consists of packets from `pkts`, each at least once. -/
def Carried (pkts : List GenPacket) (ds : List Bytes) : Prop :=
  (∀ d ∈ ds, d ∈ pkts.map GenPacket.bytes) ∧ ∀ p ∈ pkts, p.bytes ∈ ds

/-- Every datagram decodes; fed to a heap (created for any of them) they make it complete; and the frozen
heap has the cnt, the payload items in order with their bytes, and the immediate items with their values
(identical immediate items once). -/
def Delivered (w cnt : Nat) (items : List SendItem) (ds : List Bytes) : Prop :=
  ∃ ps, ds.map recvPkt? = ps.map (fun p => some (some p)) ∧
    ∀ p0 ∈ ps, ∃ s acc adr imm, (LiveHeap.new p0).run true ps = some (s, acc) ∧ s.cnt = cnt ∧ s.isComplete = true ∧
      s.load true = some (adr ++ imm) ∧
      (∀ it ∈ adr, it.isImm = false) ∧
      adr.map (fun it => (it.id, it.data)) = (addressedItems w items).map (fun x => (x.1, x.2.map some)) ∧
      (∀ it ∈ imm, it.isImm = true ∧ it.data = (beBytes w it.value).map some) ∧
      (imm.map (fun it => (it.id, it.value))).Perm (immediateItems w items).eraseDups

/-- Full property C10. Ids 0..4 are reserved by the protocol. -/
def C10_statement : Prop :=
  ∀ (h : SendHeap) (cnt mps w : Nat) (pkts : List GenPacket) (ds : List Bytes), h.hab = 8 * w → Fits h cnt mps →
    (∀ it ∈ h.items, 4 < it.id) → Sends h cnt mps pkts → Carried pkts ds → Delivered w cnt h.items ds

theorem suffix_of_heap {h : SendHeap} {cnt mps w : Nat} (hw : h.hab = 8 * w) (hf : Fits h cnt mps)
    (hid : ∀ it ∈ h.items, 4 < it.id) :
    Suffix w 0 h.items (if padded mps h then [(realPayload (h.hab / 8) h.items).length] else []) (heapLength mps h) := by
  obtain ⟨w', hw1, hw7, hww⟩ := hf.width
  have : w' = w := by omega
  subst this
  have e8 : h.hab / 8 = w' := by omega
  have hlen := hf.length
  rw [hw] at hlen
  unfold heapLength at hlen ⊢
  rw [e8] at hlen ⊢
  refine ⟨hw1, hw7, fun it hit => ⟨hid it hit, by have := hf.ids it hit; rwa [hw] at this⟩,
    fun it hit v hv => by have := hf.inline it hit v hv; rwa [hw] at this, by omega, ?_, by omega⟩
  by_cases hp : padded mps h
  · left; rw [if_pos hp]; simp
  · right
    rw [if_neg hp]
    refine ⟨rfl, ?_⟩
    unfold padded at hp
    rw [e8] at hp
    omega

/-- The default packet, for `recvOr`. -/
def recvOr (d : Bytes) : Pkt := ((recvPkt? d).getD none).getD ⟨0, 0, none, 0, [], []⟩

theorem pktSeq_nodup {w cnt hl off : Nat} {parts : List (List Nat × Bytes)} (hne : ∀ x ∈ parts, x.2 ≠ []) :
    (pktSeq w cnt hl off parts).Nodup := by
  have h := pktSeq_disj (w := w) (cnt := cnt) (hl := hl) (off := off) (parts := parts)
  refine h.imp_of_mem ?_
  intro a b ha hb hab heq
  subst heq
  have := hne _ (pktSeq_mem ha).2.2.2.2.2.1
  have : 0 < a.payload.length := List.length_pos_iff.2 this
  omega

theorem pktSeq_of_part {w cnt hl : Nat} {parts : List (List Nat × Bytes)} (off : Nat) {x : List Nat × Bytes} (hx : x ∈ parts) :
    ∃ p ∈ pktSeq w cnt hl off parts, p.pointers = x.1 := by
  induction parts generalizing off with
  | nil => simp at hx
  | cons y rest ih =>
    obtain ⟨a, b⟩ := y
    simp only [pktSeq]
    rcases List.mem_cons.1 hx with rfl | hx
    · exact ⟨_, List.mem_cons_self, rfl⟩
    · obtain ⟨p, hp, hpe⟩ := ih (off + b.length) hx
      exact ⟨p, List.mem_cons_of_mem _ hp, hpe⟩

theorem inj_of_nodup_map {α β : Type} (f : α → β) : ∀ {l : List α}, (l.map f).Nodup → ∀ a ∈ l, ∀ b ∈ l, f a = f b → a = b
  | [], _, a, ha, _, _, _ => by simp at ha
  | x :: l, h, a, ha, b, hb, he => by
    rw [List.map_cons, List.nodup_cons] at h
    rcases List.mem_cons.1 ha with ha' | ha' <;> rcases List.mem_cons.1 hb with hb' | hb'
    · rw [ha', hb']
    · rw [ha'] at he
      exact absurd (he ▸ List.mem_map_of_mem hb') h.1
    · rw [hb'] at he
      exact absurd (he ▸ List.mem_map_of_mem ha') h.1
    · exact inj_of_nodup_map f h.2 a ha' b hb' he

/-- C10, for every heap whose payload is sent faithfully (C09), in either of two cases: no zero-length item
travels in the payload, whatever the order of arrival; or no two identical item pointers, and either the
pointers are repeated in every packet or the packets first arrive in order (with any duplicates).
Missing: zero-length payload items with reordered packets, where the code is wrong (`C10_violated`), and
the padded heaps for which C09 fails. -/
theorem C10_end_to_end_partial (h : SendHeap) (cnt mps w : Nat) (pkts : List GenPacket) (ds : List Bytes)
    (hw : h.hab = 8 * w) (hf : Fits h cnt mps) (hid : ∀ it ∈ h.items, 4 < it.id) (hs : Sends h cnt mps pkts)
    (hgood : minPayload mps h ≤ (realPayload w h.items).length ∨ (realPayload w h.items).length % 8 = 0)
    (horder : NoEmpty w h.items ∨
      ((heapPtrs mps h).Nodup ∧ (h.repeatPointers = true ∨ ds.eraseDups = pkts.map GenPacket.bytes)))
    (hc : Carried pkts ds) : Delivered w cnt h.items ds := by
  have e8 : h.hab / 8 = w := by omega
  have hsuf := suffix_of_heap hw hf hid
  have hpay := C09_payload_partial h cnt mps w hw hf pkts hs hgood
  obtain ⟨g, parts, hg, ok, rok⟩ := sends_spec hs hw hf
  obtain ⟨_, hh, hcc, hm, hp, hn, hfp⟩ := gen_ok h cnt mps g hg w hw hf
  obtain ⟨he, hsum⟩ := runOk_parts g w ok rok
  have hw1 := ok.w1
  have hw7 := ok.w7
  have hbytes : pkts.map GenPacket.bytes = packetSeq w cnt (heapLength mps h) 0 parts := by
    rw [rok.bytes, hcc, hp]
  have hflat : (parts.map Prod.snd).flatten = realPayload w h.items ++
      List.replicate (heapLength mps h - (realPayload w h.items).length) 0 := by
    rw [← hpay, he, List.map_map, List.flatMap_def]; rfl
  rw [hp] at hsum
  -- pointers of the parts
  have hH : heapPtrs mps h = itemPtrs w 0 h.items ++ (if padded mps h then [(realPayload (h.hab / 8) h.items).length] else []) := by
    unfold heapPtrs; rw [e8]
  have hpart : ∀ x ∈ parts, ∀ q ∈ x.1, q ∈ heapPtrs mps h := by
    intro x hx q hq
    rw [← hfp]
    cases hr : g.heap.repeatPointers with
    | true => rw [rok.rep hr x hx] at hq; exact hq
    | false =>
      have := rok.once hr
      rw [List.drop_zero] at this
      rw [← this]
      exact List.mem_flatten.2 ⟨x.1, List.mem_map.2 ⟨x, hx, rfl⟩, hq⟩
  have hparts4 : ∀ x ∈ parts, 4 + x.1.length < 65536 := by
    intro x hx
    have h1 := rok.small x hx
    have h0 : 0 < x.2.length := List.length_pos_iff.2 (rok.nonempty x hx)
    have hm := ok.mps
    have : x.1.length ≤ g.total := by
      rw [← g.fullPtrs_length w]
      cases hr : g.heap.repeatPointers with
      | true => rw [rok.rep hr x hx]; exact Nat.le_refl _
      | false =>
        have := rok.once hr
        rw [List.drop_zero] at this
        rw [← this]
        exact (List.sublist_flatten_of_mem (List.mem_map.2 ⟨x, hx, rfl⟩)).length_le
    have := ok.count
    omega
  have hH64 : ∀ q ∈ heapPtrs mps h, q < 2 ^ 64 := by rw [← hfp]; exact fullPtrs_lt g w ok
  have hplain := suffix_plain hsuf
  rw [← hH] at hplain
  have hcnt' : cnt < 2 ^ (8 * w) := by rw [← hcc]; exact ok.cnt
  have hlen' : heapLength mps h < 2 ^ (8 * w) := by rw [← hp]; exact ok.size
  have hrecv := recv_packetSeq hw1 hw7 hcnt' hlen' parts 0 (by omega) hparts4
    (fun x hx q hq => ⟨hH64 q (hpart x hx q hq), (hplain q (hpart x hx q hq)).1⟩)
  rw [← hbytes] at hrecv
  -- the family of packets
  generalize hSdef : pktSeq w cnt (heapLength mps h) 0 parts = S at *
  have hSmem : ∀ p ∈ S, _ := fun p hp => pktSeq_mem (by rw [hSdef]; exact hp)
  have hSnd : S.Nodup := hSdef ▸ pktSeq_nodup rok.nonempty
  have fam : Family S (8 * w) (heapLength mps h) := by
    refine ⟨fun p hp => (hSmem p hp).1, fun p hp => (hSmem p hp).2.2.1, fun p hp => rok.nonempty _ (hSmem p hp).2.2.2.2.2.1,
      fun p hp l hl => ?_, fun p hp => ?_, hSdef ▸ disj_of_pairwise pktSeq_disj⟩
    · rw [(hSmem p hp).2.2.1] at hl
      simp at hl
      have := (hSmem p hp).2.2.2.2.1
      omega
    · have h1 := (hSmem p hp).2.2.2.2.1
      have hle : ∀ q ∈ p.pointers, ¬ ptrImmediate q → q % 2 ^ p.hab ≤ heapLength mps h := by
        intro q hq hi
        rw [(hSmem p hp).1]
        exact suffix_le hsuf q (hH ▸ hpart _ (hSmem p hp).2.2.2.2.2.1 q hq) hi
      unfold pktEnd
      rw [(hSmem p hp).2.2.1]
      have hle' : ∀ q ∈ p.pointers.filter (fun q => ¬ ptrImmediate q), q % 2 ^ p.hab ≤ heapLength mps h := by
        intro q hq
        obtain ⟨g1, g2⟩ := List.mem_filter.1 hq
        exact hle q g1 (of_decide_eq_true g2)
      generalize p.pointers.filter (fun q => ¬ ptrImmediate q) = l at hle'
      induction l with
      | nil => simp; omega
      | cons x l ih =>
        simp only [List.foldr_cons]
        have := hle' x (by simp)
        have := ih (fun q hq => hle' q (by simp [hq]))
        omega
  -- the received packets
  have hf1 : (pkts.map GenPacket.bytes).map recvOr = S := by
    have e : recvOr = (fun o : Option (Option Pkt) => (o.getD none).getD ⟨0, 0, none, 0, [], []⟩) ∘ recvPkt? := rfl
    rw [e, ← List.map_map, hrecv, List.map_map]
    simp [Function.comp_def]
  have hdec : ∀ d ∈ pkts.map GenPacket.bytes, recvPkt? d = some (some (recvOr d)) := by
    intro d hd
    have : recvPkt? d ∈ (pkts.map GenPacket.bytes).map recvPkt? := List.mem_map_of_mem hd
    rw [hrecv] at this
    obtain ⟨p, _, hp⟩ := List.mem_map.1 this
    unfold recvOr
    rw [← hp]; rfl
  have hpsS : ∀ p ∈ ds.map recvOr, p ∈ S := by
    intro p hp
    obtain ⟨d, hd, rfl⟩ := List.mem_map.1 hp
    rw [← hf1]
    exact List.mem_map_of_mem (hc.1 d hd)
  have hSps : ∀ p ∈ S, p ∈ ds.map recvOr := by
    intro p hp
    rw [← hf1] at hp
    obtain ⟨d, hd, rfl⟩ := List.mem_map.1 hp
    obtain ⟨k, hk, rfl⟩ := List.mem_map.1 hd
    exact List.mem_map_of_mem (hc.2 k hk)
  refine ⟨ds.map recvOr, ?_, ?_⟩
  · rw [List.map_map]
    apply List.map_congr_left
    intro d hd
    exact hdec d (hc.1 d hd)
  intro p0 hp0
  have hp0S := hpsS p0 hp0
  obtain ⟨s, l, hrun, inv, hsubS, hhab, hcnt, hl⟩ := run_family fam (ds.map recvOr) hpsS (LInv.new true p0) (by simp)
    (by simp only [LiveHeap.new]; exact fam.hab p0 hp0S) (by simp [LiveHeap.new]) (by simp)
  rw [List.nil_append] at inv hsubS hl
  rw [List.nil_append] at hl
  have hlmem : ∀ p, p ∈ l ↔ p ∈ S := by
    intro p
    rw [hl, List.mem_eraseDups]
    exact ⟨hpsS p, hSps p⟩
  have hvps : ∀ p ∈ ds.map recvOr, PktValid p := fun p hp => fam.valid p (hpsS p hp)
  have hext : extent l = heapLength mps h := by
    apply Nat.le_antisymm
    · exact extent_le (fun p hp => fam.pend p ((hlmem p).1 hp))
    · have h1 := le_extent ((hlmem p0).2 hp0S)
      have h2 := le_pktEnd (fam.len p0 hp0S)
      omega
  have hcov : ∀ x, x < extent l → Covered l x := by
    intro x hx
    rw [hext] at hx
    obtain ⟨p, hp, hcp⟩ := pktSeq_cover (w := w) (cnt := cnt) (hl := heapLength mps h) (off := 0) (parts := parts) x (by omega) (by omega)
    rw [hSdef] at hp
    exact ⟨p, (hlmem p).2 hp, hcp⟩
  have hcomp : s.isComplete = true := (C13_complete_iff p0 true _ hvps s l hrun).2
    ⟨⟨p0, (hlmem p0).2 hp0S, by rw [hext]; exact fam.len p0 hp0S⟩, hcov⟩
  have hcont : s.isContiguous = true := (C13_contiguous_iff p0 true _ hvps s l hrun).2 hcov
  obtain ⟨adr, imm, hload, ha1, ha2, ha3, ha4, hi1, hi2, hi3⟩ := C17_items p0 w hw7 (fam.hab p0 hp0S) true _ hvps
    (fun p hp q hq => hH64 q (hpart _ (hSmem p (hpsS p hp)).2.2.2.2.2.1 q hq)) s l hrun hcont
  refine ⟨s, l, adr, imm, hrun, by rw [hcnt]; exact (hSmem p0 hp0S).2.1, hcomp, hload, fun it hit => (ha1 it hit).1, ?_, hi1, ?_⟩
  -- the stored pointers
  all_goals
    have hrel : relevantPtrs (8 * w) l = l.flatMap Pkt.pointers := by
      unfold relevantPtrs
      rw [List.flatMap_def, List.flatMap_def]
      congr 1
      apply List.map_congr_left
      intro p hp
      rw [List.filter_eq_self]
      intro q hq
      exact decide_eq_true (hplain q (hpart _ (hSmem p ((hlmem p).1 hp)).2.2.2.2.2.1 q hq)).2
    have hpm : ∀ q, q ∈ (relevantPtrs (8 * w) l).eraseDups ↔ q ∈ heapPtrs mps h := by
      intro q
      rw [List.mem_eraseDups, hrel, List.mem_flatMap]
      constructor
      · rintro ⟨p, hp, hq⟩
        exact hpart _ (hSmem p ((hlmem p).1 hp)).2.2.2.2.2.1 q hq
      · intro hq
        cases hr : g.heap.repeatPointers with
        | true =>
          have := rok.rep hr _ (hSmem p0 hp0S).2.2.2.2.2.1
          exact ⟨p0, (hlmem p0).2 hp0S, by rw [show p0.pointers = _ from this, hfp]; exact hq⟩
        | false =>
          have := rok.once hr
          rw [List.drop_zero, hfp] at this
          rw [← this] at hq
          obtain ⟨pp, hpp, hq⟩ := List.mem_flatten.1 hq
          obtain ⟨x, hx, rfl⟩ := List.mem_map.1 hpp
          have hxS : ∃ p ∈ S, p.pointers = x.1 := by rw [← hSdef]; exact pktSeq_of_part 0 hx
          obtain ⟨p, hp, hpe⟩ := hxS
          exact ⟨p, (hlmem p).2 hp, by rw [hpe]; exact hq⟩
  · have hlastEq : ∀ a, lastAt (8 * w) (relevantPtrs (8 * w) l).eraseDups a = lastAt (8 * w) (heapPtrs mps h) a := by
      rcases horder with hno | ⟨hnd, hor⟩
      · have := suffix_inj hsuf hno
        rw [← hH] at this
        exact lastAt_congr hpm this
      · have heq : (relevantPtrs (8 * w) l).eraseDups = heapPtrs mps h := by
          rw [hrel]
          cases hr : g.heap.repeatPointers with
          | true =>
            have hall : ∀ p ∈ l, p.pointers = heapPtrs mps h := by
              intro p hp
              rw [← hfp]
              exact rok.rep hr _ (hSmem p ((hlmem p).1 hp)).2.2.2.2.2.1
            have hlne := (hlmem p0).2 hp0S
            clear hl inv hrun hrel hlmem hext hcov hsubS ha1 ha2 ha3 ha4 hi1 hi2 hi3 hpm hload
            cases l with
            | nil => simp at hlne
            | cons x l =>
              rw [List.flatMap_cons, hall x (by simp), eraseDups_append_sub, eraseDups_of_nodup hnd]
              intro q hq
              obtain ⟨p, hp, hq⟩ := List.mem_flatMap.1 hq
              rw [hall p (by simp [hp])] at hq
              exact hq
          | false =>
            rcases hor with hor | hor
            · rw [hh, hor] at hr; simp at hr
            · have hlS : l = S := by
                rw [hl, eraseDups_map_on recvOr ds, hor, hf1]
                intro a ha b hb hab
                refine inj_of_nodup_map recvOr (l := pkts.map GenPacket.bytes) (by rw [hf1]; exact hSnd) a (hc.1 a ha) b (hc.1 b hb) hab
              have hflatS : ∀ (parts : List (List Nat × Bytes)) (off : Nat),
                  (pktSeq w cnt (heapLength mps h) off parts).flatMap Pkt.pointers = (parts.map Prod.fst).flatten := by
                intro parts
                induction parts with
                | nil => intro off; rfl
                | cons y rest ih =>
                  intro off
                  obtain ⟨a, b⟩ := y
                  simp [pktSeq, List.flatMap_cons, ih]
              rw [hlS, ← hSdef, hflatS, rok.once hr, List.drop_zero, hfp, eraseDups_of_nodup hnd]
        intro a; rw [heq]
    have hendEq : ∀ a e, EndsAt (8 * w) (relevantPtrs (8 * w) l).eraseDups (extent l) a e ↔
        EndsAt (8 * w) (heapPtrs mps h) (heapLength mps h) a e := by
      intro a e
      unfold EndsAt
      simp only [hpm, hext]
    have hseg : adr.map (fun it => (it.id, it.start, it.start + it.data.length)) = segs w 0 h.items := by
      apply sorted_ext (fun x : Nat × Nat × Nat => x.2.1)
      · rw [List.pairwise_map]
        refine ha2.imp_of_mem ?_
        intro a b ha hb hab
        have := (ha1 a ha).2.1
        simp only; omega
      · exact segs_sorted w 0 h.items
      · rintro ⟨id, a, e⟩
        rw [segs_mem hsuf id a e (Nat.zero_le _), ← hH, ← hendEq, ← hlastEq, ← ha3, List.mem_map]
        simp only [Prod.mk.injEq]
    generalize hW : realPayload w h.items ++
        List.replicate (heapLength mps h - (realPayload w h.items).length) (0 : UInt8) = W at *
    have hdata : ∀ it ∈ adr, it.data = ((W.drop it.start).take it.data.length).map some := by
      intro it hit
      obtain ⟨_, _, hb⟩ := ha1 it hit
      rw [hext] at hb
      have hlenw : W.length = heapLength mps h := by
        rw [← hflat, List.length_flatten, List.map_map]
        exact hsum
      apply List.ext_getElem?
      intro i
      by_cases hi : i < it.data.length
      · obtain ⟨p, hp, hcp, hd⟩ := ha4 it hit i hi
        have h7 := (hSmem p ((hlmem p).1 hp)).2.2.2.2.2.2
        rw [Nat.sub_zero, hflat] at h7
        rw [hd, List.getElem?_map, List.getElem?_take_of_lt hi, List.getElem?_drop]
        have hk : it.start + i = p.payloadOffset + (it.start + i - p.payloadOffset) := by have := hcp.1; omega
        have h9 := congrArg (fun l => l[it.start + i - p.payloadOffset]?) h7
        simp only [List.getElem?_drop] at h9
        rw [← hk, List.getElem?_append_left (by have := hcp.1; have := hcp.2; omega)] at h9
        rw [h9, List.getElem?_eq_getElem (by have := hcp.1; have := hcp.2; omega)]
        rfl
      · rw [List.getElem?_eq_none (by omega), List.getElem?_eq_none]
        simp; omega
    have hfin := segs_data w h.items [] (List.replicate (heapLength mps h - (realPayload w h.items).length) 0)
    simp only [List.length_nil, List.nil_append, hW] at hfin
    rw [← hfin, ← hseg, List.map_map, List.map_map]
    apply List.map_congr_left
    intro it hit
    simp only [Function.comp, Nat.add_sub_cancel_left, Prod.mk.injEq, true_and]
    exact hdata it hit
  · refine hi2.trans ?_
    rw [List.perm_ext_iff_of_nodup]
    · rintro ⟨id, v⟩
      rw [List.mem_eraseDups, ← suffix_imm hsuf id v, ← hH]
      simp only [List.mem_map, List.mem_filter, Prod.mk.injEq, hpm]
      constructor
      · rintro ⟨q, ⟨hq1, hq2⟩, hq3, hq4⟩
        have hq2 := of_decide_eq_true hq2
        exact ⟨q, hq1, hq2.1, hq2.2, hq3, hq4⟩
      · rintro ⟨q, hq1, hq2, hq3, hq4, hq5⟩
        exact ⟨q, ⟨hq1, decide_eq_true ⟨hq2, hq3⟩⟩, hq4, hq5⟩
    · have hnd : ((relevantPtrs (8 * w) l).eraseDups.filter (fun q => ptrImmediate q ∧ idOf (8 * w) q ≠ 0)).Nodup :=
        (nodup_eraseDups' _).sublist List.filter_sublist
      rw [List.Nodup, List.pairwise_map]
      refine hnd.imp_of_mem ?_
      intro a b ha hb hne heq
      obtain ⟨ha1, ha2⟩ := List.mem_filter.1 ha
      obtain ⟨hb1, hb2⟩ := List.mem_filter.1 hb
      have ha2 := of_decide_eq_true ha2
      have hb2 := of_decide_eq_true hb2
      have ha64 := hH64 a ((hpm a).1 ha1)
      have hb64 := hH64 b ((hpm b).1 hb1)
      simp only [Prod.mk.injEq] at heq
      apply hne
      have fa := (C01_decode_encode (8 * w) a (by omega) ha64).2.2
      have fb := (C01_decode_encode (8 * w) b (by omega) hb64).2.2
      rw [if_pos ((isImmediate_iff a).2 ha2.1)] at fa
      rw [if_pos ((isImmediate_iff b).2 hb2.1)] at fb
      have e1 : getId (8 * w) a = getId (8 * w) b := by rw [getId_eq, getId_eq]; exact heq.1
      have e2 : getImmediate (8 * w) a = getImmediate (8 * w) b := by rw [getImmediate_eq, getImmediate_eq]; exact heq.2
      rw [fa, fb, e1, e2]
    · exact nodup_eraseDups' _

/-- The in-order case applies to `sampleHeap` (which has an empty item): all its packets in order, then all
of them again. -/
example : ∃ pkts, Sends sampleHeap 5 64 pkts ∧ Delivered 5 5 sampleHeap.items (pkts.map GenPacket.bytes ++ pkts.map GenPacket.bytes) := by
  obtain ⟨p, hp, _⟩ := (C06_terminates_within_limit sampleHeap 5 64 5 rfl (by decide)).2.2 (by decide) (by decide)
  refine ⟨p, hp, C10_end_to_end_partial sampleHeap 5 64 5 p _ rfl sampleHeap_fits (by decide) hp (by decide) (Or.inr ?_) ?_⟩
  · refine ⟨by decide +kernel, Or.inr ?_⟩
    rw [eraseDups_append_sub (fun x hx => hx)]
    apply eraseDups_of_nodup
    have : p = (((Gen.new sampleHeap 5 64).toOption.bind (fun g => g.run 100 {})).getD ([], {})).1 :=
      sends_unique hp ⟨_, 100, _, rfl, rfl, by decide +kernel⟩
    rw [this]
    decide +kernel
  · exact ⟨fun d hd => (List.mem_append.1 hd).elim id id, fun k hk => List.mem_append.2 (Or.inl (List.mem_map_of_mem hk))⟩

/-- A heap without empty items: packets reversed and the last one duplicated. -/
def plainHeap : SendHeap where
  hab := 48
  items := [⟨0x1000, .inline 77⟩, ⟨0x1001, .buffer [1, 2, 3] true⟩, ⟨0x1001, .buffer [1, 2, 3] true⟩,
    ⟨0x1003, .buffer [4, 5, 6, 7, 8, 9, 10] false⟩, ⟨0x1004, .buffer (List.replicate 30 0xAA) true⟩]

theorem plainHeap_fits : Fits plainHeap 5 64 where
  width := ⟨6, by decide⟩
  ids := by decide
  inline := by
    intro it hit v hv
    simp only [plainHeap, List.mem_cons, List.not_mem_nil, or_false] at hit
    rcases hit with rfl | rfl | rfl | rfl | rfl <;> simp at hv
    subst hv; decide
  cnt := by decide
  length := by decide
  count := by decide

example : ∃ pkts, Sends plainHeap 5 64 pkts ∧ Delivered 6 5 plainHeap.items (pkts.map GenPacket.bytes ++ (pkts.map GenPacket.bytes).reverse) := by
  obtain ⟨p, hp, _⟩ := (C06_terminates_within_limit plainHeap 5 64 6 rfl (by decide)).2.2 (by decide) (by decide)
  refine ⟨p, hp, C10_end_to_end_partial plainHeap 5 64 6 p _ rfl plainHeap_fits (by decide) hp (by decide) (Or.inl ?_) ?_⟩
  · intro it hit b allow hv hn
    simp only [plainHeap, List.mem_cons, List.not_mem_nil, or_false] at hit
    rcases hit with rfl | rfl | rfl | rfl | rfl <;> simp at hv
    · obtain ⟨rfl, rfl⟩ := hv; decide
    · obtain ⟨rfl, rfl⟩ := hv; decide
    · obtain ⟨rfl, rfl⟩ := hv; decide
    · obtain ⟨rfl, rfl⟩ := hv; decide
  · exact ⟨fun d hd => (List.mem_append.1 hd).elim id (fun h => List.mem_reverse.1 h),
      fun k hk => List.mem_append.2 (Or.inl (List.mem_map_of_mem hk))⟩

/-- An empty item followed by a 24-byte item, one item pointer per packet. -/
def swapHeap : SendHeap where
  hab := 40
  items := [⟨0x1000, .buffer [] false⟩, ⟨0x1001, .buffer (List.replicate 24 7) false⟩]

theorem swapHeap_fits : Fits swapHeap 1 56 where
  width := ⟨5, by decide⟩
  ids := by decide
  inline := by
    intro it hit v hv
    simp only [swapHeap, List.mem_cons, List.not_mem_nil, or_false] at hit
    rcases hit with rfl | rfl <;> simp at hv
  cnt := by decide
  length := by decide
  count := by decide

/-- The packets of `swapHeap`. -/
def swapPkts : List GenPacket := (((Gen.new swapHeap 1 56).toOption.bind (fun g => g.run 100 {})).getD ([], {})).1

theorem swapPkts_sent : Sends swapHeap 1 56 swapPkts := ⟨_, 100, _, rfl, rfl, by decide +kernel⟩

/-- C10 does not hold of the code: if the first two packets of `swapHeap` are swapped, the receiver gives
the 24 bytes to the empty item (id 0x1000) and loses item 0x1001. -/
theorem C10_violated : ¬ C10_statement := by
  intro hall
  have hd := hall swapHeap 1 56 5 swapPkts (swapPkts.map GenPacket.bytes).reverse rfl swapHeap_fits (by decide) swapPkts_sent
    ⟨fun d hd => List.mem_reverse.1 hd, fun p hp => List.mem_reverse.2 (List.mem_map_of_mem hp)⟩
  obtain ⟨ps, hps, hall⟩ := hd
  have he : (swapPkts.map GenPacket.bytes).reverse.map recvPkt? =
      [⟨40, 1, some 24, 16, List.replicate 8 7, []⟩, ⟨40, 1, some 24, 8, List.replicate 8 7, [0x0010010000000000]⟩,
        ⟨40, 1, some 24, 0, List.replicate 8 7, [0x0010000000000000]⟩].map (fun p => some (some p)) := by decide +kernel
  rw [he] at hps
  have hps' : ps = [⟨40, 1, some 24, 16, List.replicate 8 7, []⟩, ⟨40, 1, some 24, 8, List.replicate 8 7, [0x0010010000000000]⟩,
        ⟨40, 1, some 24, 0, List.replicate 8 7, [0x0010000000000000]⟩] := by
    refine (List.map_inj_right ?_).1 hps.symm
    intro a b hab
    simpa using hab
  subst hps'
  obtain ⟨s, acc, adr, imm, hrun, _, _, hload, _, hadr, _, himm⟩ := hall ⟨40, 1, some 24, 16, List.replicate 8 7, []⟩ (by simp)
  have hx : ((LiveHeap.new ⟨40, 1, some 24, 16, List.replicate 8 7, []⟩).run true
      [⟨40, 1, some 24, 16, List.replicate 8 7, []⟩, ⟨40, 1, some 24, 8, List.replicate 8 7, [0x0010010000000000]⟩,
        ⟨40, 1, some 24, 0, List.replicate 8 7, [0x0010000000000000]⟩]).bind (fun x => x.1.load true) =
      some [⟨0x1000, false, 0, 0, List.replicate 24 (some 7)⟩] := by decide +kernel
  rw [hrun] at hx
  simp only [Option.bind_some] at hx
  rw [hload] at hx
  have hlen := congrArg List.length hadr
  have himm' := himm.length_eq
  have e1 : (addressedItems 5 swapHeap.items).length = 1 := by decide +kernel
  rw [List.length_map, List.length_map, e1] at hlen
  match adr, hlen with
  | [it], _ =>
    simp only [Option.some.injEq, List.cons_append, List.nil_append, List.cons.injEq] at hx
    have e2 : (addressedItems 5 swapHeap.items).map (fun x => (x.1, x.2.map some)) = [(0x1001, List.replicate 24 (some 7))] := by decide +kernel
    rw [e2, hx.1] at hadr
    simp at hadr

end Spead2
