import Verif.Spec.ChunkNet
import Verif.Props.PlaceData
import Verif.Props.ChunkRecv
import Verif.Props.Integrity

/-!
# Lemmas on reception into chunks over a network
-/

namespace Spead2.ChunkNet

open Spead2.Spec PlaceCb

theorem requested_knowledge {ids : List Nat} (hi : ∀ i ∈ ids, i ≠ 3 ∧ i ≠ 4) (cnt hlen : Nat) (wire : List Bytes) (i : Nat) (d : Bytes) (l : List (Nat × Nat)) :
    requested ids (packetItems cnt hlen wire i d ++ l) = requested ids ((1, cnt) :: (2, hlen) :: l) := by
  unfold PlaceCb.requested
  apply List.map_congr_left
  intro j hj
  obtain ⟨h3, h4⟩ := hi j hj
  congr 1
  unfold lastValue packetItems
  simp [List.filter_cons, Ne.symm h3, Ne.symm h4]

theorem offer_wire {place : List Int → Place} {ids : List Nat} {x : Sent} (ok : x.Ok) (hev : x.heap.repeatPointers = true ∨ x.wire.length = 1)
    (hi : ∀ i ∈ ids, i ≠ 3 ∧ i ≠ 4) {d : Bytes} (hd : d ∈ x.wire) (old : PlaceData) (ho : old.items.length = ids.length) :
    offer place ids old d = some (some (recvOr d, spot place ids x)) := by
  obtain ⟨i, hl, hg⟩ := List.getElem_of_mem hd
  have hi' : x.wire[i]? = some d := by rw [List.getElem?_eq_getElem hl, hg]
  have key : ∃ h : PacketHeader, decodePacket d = some (some (h, d.length)) ∧
      fillPlace d h ids old = some ⟨d.length, requested ids
        (packetItems x.cnt (heapLength x.mps x.heap) x.wire i d ++ immediateItems x.width x.heap.items), -1, 0, 0, 0, 0⟩ := by
    cases hr : x.heap.repeatPointers with
    | true => exact C81_repeat x.heap x.cnt x.mps x.width ok.hab ok.fits ok.ids hr x.pkts ok.sends i d hi' ids old ho
    | false =>
      have h1 : x.wire.length = 1 := by
        rcases hev with h | h
        · rw [hr] at h; cases h
        · exact h
      obtain ⟨seen, hs1, hs2, hs3⟩ := C81_once x.heap x.cnt x.mps x.width ok.hab ok.fits ok.ids hr x.pkts ok.sends
      have hp1 : x.pkts.length = 1 := by rw [← h1]; unfold Sent.wire; rw [List.length_map]
      have h0 : i = 0 := by omega
      subst h0
      rw [hp1] at hs1
      obtain ⟨here, rfl⟩ := List.length_eq_one_iff.1 hs1
      have := hs3 0 d here hi' rfl ids old ho
      simp only [List.flatten_cons, List.flatten_nil, List.append_nil] at hs2
      rw [hs2] at this
      exact this
  obtain ⟨h, h1, h2⟩ := key
  obtain ⟨S, r⟩ := ok.rx
  have hdec := r.dec d hd
  unfold recvPkt? at hdec
  rw [h1] at hdec
  simp only [Option.map_eq_some_iff, Option.some.injEq] at hdec
  obtain ⟨p, hp1, hp2⟩ := hdec
  unfold offer
  rw [h1]
  simp only [if_true, hp1, h2, hp2, Option.bind_eq_bind, Option.bind_some]
  rw [requested_knowledge hi]
  rfl

/-- The packets and answers. -/
theorem offered {place : List Int → Place} {ids : List Nat} {ccfg : ChunkConfig} {xs : List Sent} {ops : List ChunkRecvOp}
    (arr : Arranged place ids ccfg xs) (hf : FromWire place ids xs ops) {o : Pkt × Place} (h : o ∈ offers ops) :
    ∃ x ∈ xs, ∃ d ∈ x.wire, o = (recvOr d, spot place ids x) := by
  obtain ⟨x, hx, d, hd, old, ho, h1⟩ := hf o h
  rw [offer_wire (arr.ok x hx) (arr.every x hx) arr.constant hd old ho] at h1
  exact ⟨x, hx, d, hd, (Option.some.inj (Option.some.inj h1)).symm⟩

/-- A packet of a heap carries a piece of its payload. -/
theorem piece {x : Sent} (ok : x.Ok) {d : Bytes} (hd : d ∈ x.wire) :
    (recvOr d).heapCnt = x.cnt ∧ (recvOr d).heapLength = some (length x) ∧ PktValid (recvOr d) ∧
      ∀ (i : Nat) (b : UInt8), (recvOr d).payload[i]? = some b → x.payload[(recvOr d).payloadOffset + i]? = some b := by
  obtain ⟨S, r⟩ := ok.rx
  have hS : recvOr d ∈ S := r.mem hd
  refine ⟨r.sp.same _ hS, r.sp.fam.len _ hS, r.sp.fam.valid _ hS, ?_⟩
  intro i b hb
  have hpay := C09_payload_partial x.heap x.cnt x.mps x.width ok.hab ok.fits x.pkts ok.sends ok.payload
  have hd' := r.sp.data _ hS
  rw [hpay] at hd'
  have h2 : (List.drop (recvOr d).payloadOffset x.payload)[i]? = some b := by
    show (List.drop (recvOr d).payloadOffset (realPayload x.width x.heap.items ++ _))[i]? = _
    rw [hd', List.getElem?_append_left (lt_of_getElem? hb), hb]
  rwa [List.getElem?_drop] at h2

theorem payload_length {x : Sent} (ok : x.Ok) : x.payload.length = length x := by
  have h8 : x.heap.hab / 8 = x.width := by have := ok.hab; omega
  have : (realPayload x.width x.heap.items).length ≤ length x := by
    unfold length heapLength
    rw [h8]
    exact Nat.le_max_left _ _
  unfold Sent.payload
  rw [List.length_append, List.length_replicate]
  unfold length at *
  omega

theorem good {place : List Int → Place} {ids : List Nat} {ccfg : ChunkConfig} {xs : List Sent} {ops : List ChunkRecvOp}
    (arr : Arranged place ids ccfg xs) (hf : FromWire place ids xs ops) : GoodHistory ccfg ops := by
  intro o ho
  obtain ⟨x, hx, d, hd, rfl⟩ := offered arr hf ho
  obtain ⟨-, h2, h3, -⟩ := piece (arr.ok x hx) hd
  refine ⟨h3, arr.id x hx, arr.extra x hx, ?_, arr.flag x hx, ?_⟩
  · intro hs len hl
    rw [h2] at hl
    cases hl
    exact arr.data x hx hs
  · intro hs hz len hl
    rw [h2] at hl
    cases hl
    exact arr.flags x hx hs hz

/-- The heap that covers position `k` of chunk `c`. -/
def covers (place : List Int → Place) (ids : List Nat) (c k : Nat) (x : Sent) : Bool :=
  decide (0 ≤ (spot place ids x).chunkId) && decide ((spot place ids x).chunkId.toNat = c) && decide ((spot place ids x).heapOffset ≤ k) &&
    decide (k < (spot place ids x).heapOffset + length x)

/-- What chunk `c` should have at position `k`. -/
def want (place : List Int → Place) (ids : List Nat) (xs : List Sent) (c k : Nat) : UInt8 :=
  match xs.find? (covers place ids c k) with
  | some x => x.payload.getD (k - (spot place ids x).heapOffset) 0
  | none => 0

theorem covers_iff {place : List Int → Place} {ids : List Nat} {c k : Nat} {x : Sent} : covers place ids c k x = true ↔
    0 ≤ (spot place ids x).chunkId ∧ (spot place ids x).chunkId.toNat = c ∧ (spot place ids x).heapOffset ≤ k ∧
    k < (spot place ids x).heapOffset + length x := by
  unfold covers
  simp only [Bool.and_eq_true, decide_eq_true_eq]
  exact ⟨fun h => ⟨h.1.1.1, h.1.1.2, h.1.2, h.2⟩, fun h => ⟨⟨⟨h.1, h.2.1⟩, h.2.2.1⟩, h.2.2.2⟩⟩

theorem want_eq {place : List Int → Place} {ids : List Nat} {ccfg : ChunkConfig} {xs : List Sent} (arr : Arranged place ids ccfg xs) {x : Sent} (hx : x ∈ xs)
    (h0 : 0 ≤ (spot place ids x).chunkId) {k : Nat} {b : UInt8} (hb : x.payload[k]? = some b) :
    want place ids xs (spot place ids x).chunkId.toNat ((spot place ids x).heapOffset + k) = b := by
  have hk : k < length x := by rw [← payload_length (arr.ok x hx)]; exact lt_of_getElem? hb
  have hc : covers place ids (spot place ids x).chunkId.toNat ((spot place ids x).heapOffset + k) x = true :=
    covers_iff.2 ⟨h0, rfl, by omega, by omega⟩
  unfold want
  cases hf : xs.find? (covers place ids (spot place ids x).chunkId.toNat ((spot place ids x).heapOffset + k)) with
  | none =>
    rw [List.find?_eq_none] at hf
    exact absurd hc (hf x hx)
  | some y =>
    have hy := List.mem_of_find?_eq_some hf
    obtain ⟨c1, c2, c3, c4⟩ := covers_iff.1 (List.find?_some hf)
    have : y = x := by
      apply Classical.byContradiction
      intro hne
      rcases arr.apart x hx y hy (fun h => hne h.symm) h0 (by omega) with h | h <;> omega
    subst this
    show y.payload.getD ((spot place ids y).heapOffset + k - (spot place ids y).heapOffset) 0 = b
    rw [show (spot place ids y).heapOffset + k - (spot place ids y).heapOffset = k by omega, List.getD_eq_getElem?_getD, hb]
    rfl

theorem consistent {place : List Int → Place} {ids : List Nat} {ccfg : ChunkConfig} {xs : List Sent} {ops : List ChunkRecvOp}
    (arr : Arranged place ids ccfg xs) (hf : FromWire place ids xs ops) : Consistent (want place ids xs) ops := by
  intro o ho h0 o' ho' hcnt i b hb
  obtain ⟨x, hx, d, hd, rfl⟩ := offered arr hf ho
  obtain ⟨y, hy, d', hd', rfl⟩ := offered arr hf ho'
  obtain ⟨h1, -⟩ := piece (arr.ok x hx) hd
  obtain ⟨h1', -, -, h4⟩ := piece (arr.ok y hy) hd'
  simp only [h1, h1'] at hcnt
  have := arr.cnts x hx y hy hcnt
  subst this
  have := want_eq arr hx h0 (h4 i b hb)
  rw [← Nat.add_assoc] at this
  exact this

/-- A heap of the stream is one that was sent. -/
theorem heap_of {cfg : StreamConfig} {place : List Int → Place} {ids : List Nat} {ccfg : ChunkConfig} {xs : List Sent} {ops : List ChunkRecvOp}
    (hm : 0 < cfg.maxHeaps) (hsub : 0 < cfg.substreams) (hmax : 0 < ccfg.maxChunks)
    (arr : Arranged place ids ccfg xs) (hf : FromWire place ids xs ops) {r : ChunkRecv} (h : ChunkRecv.run cfg ccfg ops = some r)
    {e : Entry} (he : e ∈ r.heaps) {pl : Place} (hp : PlacedAt ops e pl) :
    ∃ x ∈ xs, pl = spot place ids x ∧ e.heap.cnt = x.cnt ∧ e.heap.heapLength = some (length x) ∧ 0 < length x := by
  obtain ⟨d, a, o⟩ := outcome_of hm hsub hmax (good arr hf) h
  obtain ⟨p, rest, hp1, hp2⟩ := hp
  obtain ⟨x, hx, dg, hdg, hpe⟩ := offered arr hf hp2
  simp only [Prod.mk.injEq] at hpe
  obtain ⟨rfl, rfl⟩ := hpe
  have hmem : e ∈ r.heaps ++ d ++ entries a := by rw [List.append_assoc]; exact List.mem_append_left _ he
  have hok := o.called.ok e hmem
  obtain ⟨-, -, -, -, z3, -⟩ := hok.1
  have hcnt := (z3 (recvOr dg) (by rw [hp1]; simp)).1
  obtain ⟨q1, q2, q3, q4⟩ := piece (arr.ok x hx) hdg
  obtain ⟨S, rx⟩ := (arr.ok x hx).rx
  refine ⟨x, hx, rfl, by rw [← hcnt, q1], ?_, ?_⟩
  · obtain ⟨n, hn⟩ := Option.ne_none_iff_exists'.1 hok.2.2
    obtain ⟨q, hq, hql⟩ := hok.1.inv.hlsome n hn
    obtain ⟨pl', g1, -⟩ := o.called.ended e he
    obtain ⟨n1, ⟨pl'', n2⟩, -⟩ := o.called.acc hmem g1 hq
    obtain ⟨y, hy, dg', hdg', hpe⟩ := offered arr hf n2
    simp only [Prod.mk.injEq] at hpe
    obtain ⟨rfl, rfl⟩ := hpe
    obtain ⟨w1, w2, -, -⟩ := piece (arr.ok y hy) hdg'
    have : y = x := by
      refine arr.cnts y hy x hx ?_
      rw [← w1, ← q1, hcnt, (z3 _ n1).1]
    subst this
    rw [hn, ← hql, w2]
  · have hS : recvOr dg ∈ S := rx.mem hdg
    have h1 : 0 < (recvOr dg).payload.length := List.length_pos_iff.2 (rx.sp.fam.ne _ hS)
    have h2 := q3 _ q2
    omega

theorem Arranged.anyAlloc {place : List Int → Place} {ids : List Nat} {ccfg : ChunkConfig} {xs : List Sent} (f : Nat → Bool)
    (arr : Arranged place ids { ccfg with alloc := fun _ => true } xs) : Arranged place ids { ccfg with alloc := f } xs where
  ok := arr.ok
  cnts := arr.cnts
  every := arr.every
  constant := arr.constant
  id := arr.id
  extra := fun x hx hs => arr.extra x hx ⟨hs.1, rfl⟩
  data := fun x hx hs => arr.data x hx ⟨hs.1, rfl⟩
  flag := fun x hx hs => arr.flag x hx ⟨hs.1, rfl⟩
  flags := fun x hx hs => arr.flags x hx ⟨hs.1, rfl⟩
  apart := arr.apart

theorem presented_plain (ops : List ChunkRecvOp) : presented (plainOps ops) = (offers ops).map Prod.fst := by
  have hb : ∀ l : List ChunkBatchOp, batchPackets (l.map ChunkBatchOp.plain) = (batchOffers l).map Prod.fst := by
    intro l
    induction l with
    | nil => rfl
    | cons b l ih =>
      unfold batchPackets batchOffers at *
      cases b with
      | packet p pl => simpa [ChunkBatchOp.plain] using ih
      | stop => simpa [ChunkBatchOp.plain] using ih
  induction ops with
  | nil => rfl
  | cons o ops ih =>
    have h1 : presented (plainOps (o :: ops)) = presented (plainOp o) ++ presented (plainOps ops) := by
      unfold presented plainOps
      rw [List.flatMap_cons, List.flatMap_append]
    have h2 : offers (o :: ops) = offers [o] ++ offers ops := by
      unfold offers
      rw [List.flatMap_cons, List.flatMap_cons, List.flatMap_nil, List.append_nil]
    rw [h1, h2, List.map_append, ih]
    congr 1
    cases o with
    | batch l => simpa [presented, plainOp, offers] using hb l
    | _ => rfl

end Spead2.ChunkNet
