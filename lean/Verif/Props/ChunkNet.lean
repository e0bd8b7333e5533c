import Verif.Lemmas.ChunkNet
import Verif.Props.ChunkRings
import Verif.Props.Traffic

/-!
# C82: from a sender's heaps to the receiver's chunks
-/

namespace Spead2.ChunkNet

open Spead2.Spec PlaceCb

/-- C82 (place). Whichever datagram of a heap arrives, it is a packet of the heap, and the place callback, if it is asked about
it, puts the heap at the same place. -/
theorem C82_place {place : List Int → Place} {ids : List Nat} {ccfg : ChunkConfig} {xs : List Sent} (arr : Arranged place ids ccfg xs)
    {x : Sent} (hx : x ∈ xs) {d : Bytes} (hd : d ∈ x.wire) {old : PlaceData} (ho : old.items.length = ids.length) :
    ∃ p, IsPacket d p ∧ p.heapCnt = x.cnt ∧ p.heapLength = some (length x) ∧
      (∀ (i : Nat) (b : UInt8), p.payload[i]? = some b → x.payload[p.payloadOffset + i]? = some b) ∧
      offer place ids old d = some (some (p, spot place ids x)) := by
  obtain ⟨h1, h2, -, h4⟩ := piece (arr.ok x hx) hd
  exact ⟨recvOr d, ((arr.ok x hx).framed hd).2.1, h1, h2, h4, offer_wire (arr.ok x hx) (arr.every x hx) arr.constant hd old ho⟩

/-- C82 (safety). Whatever arrives of the heaps, in whatever order and however often, and whatever else happens to the
stream, nothing undefined happens. -/
theorem C82_total {cfg : StreamConfig} {place : List Int → Place} {ids : List Nat} {ccfg : ChunkConfig} {xs : List Sent} {ops : List ChunkRecvOp}
    (hm : 0 < cfg.maxHeaps) (hsub : 0 < cfg.substreams) (hmax : 0 < ccfg.maxChunks) (arr : Arranged place ids ccfg xs) (hf : FromWire place ids xs ops) :
    ∃ r, ChunkRecv.run cfg ccfg ops = some r := C70_total hm hsub hmax (good arr hf)

/-- C82 (flags per heap). When a flag is set, it is that of a heap that was sent, in the chunk and at the index where the
callback put it, and from then on the chunk has at the heap's place the payload that was sent. -/
theorem C82_flag {cfg : StreamConfig} {place : List Int → Place} {ids : List Nat} {ccfg : ChunkConfig} {xs : List Sent} {ops : List ChunkRecvOp}
    (hm : 0 < cfg.maxHeaps) (hsub : 0 < cfg.substreams) (hmax : 0 < ccfg.maxChunks) (arr : Arranged place ids ccfg xs) (hf : FromWire place ids xs ops)
    {r : ChunkRecv} (h : ChunkRecv.run cfg ccfg ops = some r) (hz : ccfg.presenceSize = 0)
    {t t' : List ChunkEv} (ht : r.trace = t ++ t') {c : Chunk} {i : Nat} (hi : .present c i ∈ t) :
    ∃ x ∈ xs, (c.chunkId : Int) = (spot place ids x).chunkId ∧ i = (spot place ids x).heapIndex ∧ x.payload ≠ [] ∧
      ∀ (k : Nat) (b : UInt8), x.payload[k]? = some b → lastWritten c.chunkId ((spot place ids x).heapOffset + k) t = some b := by
  obtain ⟨e, he, pl, n, -, q2, q3, q4, q5, q6, q7, q8⟩ := C70_contents hm hsub hmax (good arr hf) h hz (consistent arr hf) ht hi
  obtain ⟨x, hx, rfl, -, w2, w3⟩ := heap_of hm hsub hmax arr hf h he q2
  rw [w2] at q3
  cases q3
  have hl := payload_length (arr.ok x hx)
  refine ⟨x, hx, by omega, q7, by intro h0; rw [h0] at hl; simp at hl; omega, fun k b hb => ?_⟩
  rw [q8 k (by rw [← hl]; exact lt_of_getElem? hb), q6, want_eq arr hx q5 hb]

/-- C82 (flags per packet). When a flag is set, it is that of a packet of a heap that was sent, and from then on the chunk has the
packet's piece of the payload at its place. -/
theorem C82_packet_flag {cfg : StreamConfig} {place : List Int → Place} {ids : List Nat} {ccfg : ChunkConfig} {xs : List Sent} {ops : List ChunkRecvOp}
    (hm : 0 < cfg.maxHeaps) (hsub : 0 < cfg.substreams) (hmax : 0 < ccfg.maxChunks) (arr : Arranged place ids ccfg xs) (hf : FromWire place ids xs ops)
    {r : ChunkRecv} (h : ChunkRecv.run cfg ccfg ops = some r) (hz : ccfg.presenceSize ≠ 0)
    {t t' : List ChunkEv} (ht : r.trace = t ++ t') {c : Chunk} {i : Nat} (hi : .present c i ∈ t) :
    ∃ x ∈ xs, ∃ d ∈ x.wire, ∃ p, IsPacket d p ∧ p.payload ≠ [] ∧ (c.chunkId : Int) = (spot place ids x).chunkId ∧
      i = (spot place ids x).heapIndex + p.payloadOffset / ccfg.presenceSize ∧
      ∀ k, p.payloadOffset ≤ k → k < p.payloadOffset + p.payload.length →
        ∃ b, x.payload[k]? = some b ∧ lastWritten c.chunkId ((spot place ids x).heapOffset + k) t = some b := by
  obtain ⟨p0, pl, p, pl', q1, q2, q3, q4, q5, q6, q7, q8⟩ := C70_packet_contents hm hsub hmax (good arr hf) h hz (consistent arr hf) ht hi
  obtain ⟨x, hx, d, hd, hpe⟩ := offered arr hf q1
  obtain ⟨y, hy, d', hd', hpe'⟩ := offered arr hf q2
  simp only [Prod.mk.injEq] at hpe hpe'
  obtain ⟨rfl, rfl⟩ := hpe
  obtain ⟨rfl, rfl⟩ := hpe'
  obtain ⟨h1, -⟩ := piece (arr.ok x hx) hd
  obtain ⟨h1', -, -, h4⟩ := piece (arr.ok y hy) hd'
  have := arr.cnts x hx y hy (by rw [← h1, q3, h1'])
  subst this
  refine ⟨x, hx, d', hd', recvOr d', ((arr.ok x hx).framed hd').2.1, q4, by omega, q7, ?_⟩
  intro k hk1 hk2
  have hj : k - (recvOr d').payloadOffset < (recvOr d').payload.length := by omega
  have hb := h4 _ _ (List.getElem?_eq_getElem hj)
  have hw := want_eq arr hx q5 hb
  rw [show (recvOr d').payloadOffset + (k - (recvOr d').payloadOffset) = k by omega] at hb hw
  refine ⟨_, hb, ?_⟩
  have := q8 _ hj
  rw [show (spot place ids x).heapOffset + (recvOr d').payloadOffset + (k - (recvOr d').payloadOffset) = (spot place ids x).heapOffset + k by omega, q6, hw] at this
  rw [q6, this]

/-- C82 (delivery). Suppose that the datagrams `ds` arrive, that the network is as in C55, that the user supplies every chunk
that is asked for, and that no heap is counted as too old or rejected. Then for every heap of which everything arrived the
flag is set, in the chunk and at the index where the callback puts it, and the payload is there. -/
theorem C82_delivered {cfg : StreamConfig} {place : List Int → Place} {ids : List Nat} {ccfg : ChunkConfig} {xs : List Sent} {ops : List ChunkRecvOp}
    (hm : 0 < cfg.maxHeaps) (hsub : 0 < cfg.substreams) (hmax : 0 < ccfg.maxChunks) (arr : Arranged place ids ccfg xs) (hd : (xs.map Sent.cnt).Nodup)
    (hops : ∀ op ∈ ops, (∃ l, op = .batch l ∧ .stop ∉ l) ∨ op = .flushChunks) {ds : List Bytes}
    (hds : List.Forall₂ (fun d o => ∃ old : PlaceData, old.items.length = ids.length ∧ offer place ids old d = some (some o)) ds (offers ops))
    (ar : Arrival cfg.forChunks xs ds) (hstop : cfg.stopOnStopItem = true → ∀ x ∈ xs, (6, 2) ∉ immediateItems x.width x.heap.items)
    {r : ChunkRecv} (h : ChunkRecv.run cfg ccfg ops = some r) (hz : ccfg.presenceSize = 0)
    (hall : ∀ n, ccfg.alloc n = true) (hno : lossCount r.trace = 0) {x : Sent} (hx : x ∈ xs) (ha : x.Arrives cfg.forChunks ds) :
    ∃ c : Chunk, (c.chunkId : Int) = (spot place ids x).chunkId ∧ .present c (spot place ids x).heapIndex ∈ r.trace ∧
      ∀ (k : Nat) (b : UInt8), x.payload[k]? = some b → lastWritten c.chunkId ((spot place ids x).heapOffset + k) r.trace = some b := by
  have hf : FromWire place ids xs ops := by
    have : ∀ {l : List Bytes} {o : List (Pkt × Place)}, List.Forall₂ (fun d o => ∃ old : PlaceData, old.items.length = ids.length ∧
        offer place ids old d = some (some o)) l o → (∀ d ∈ l, ∃ x ∈ xs, d ∈ x.wire) →
        ∀ q ∈ o, ∃ x ∈ xs, ∃ d ∈ x.wire, ∃ old : PlaceData, old.items.length = ids.length ∧ offer place ids old d = some (some q) := by
      intro l o hl
      induction hl with
      | nil => intro _ q hq; cases hq
      | cons h1 _ ih =>
        intro hw q hq
        rcases List.mem_cons.1 hq with rfl | hq
        · obtain ⟨x, hx, hxd⟩ := hw _ List.mem_cons_self
          exact ⟨x, hx, _, hxd, h1⟩
        · exact ih (fun d hd => hw d (List.mem_cons_of_mem _ hd)) q hq
    exact this hds ar.origin
  obtain ⟨ps, hps, hrun⟩ := C55_end_to_end cfg.forChunks hm hsub xs ds arr.ok hd ar hstop
  have hps' : presented (plainOps ops) = ps := by
    rw [presented_plain]
    have : ∀ {l : List Bytes} {o : List (Pkt × Place)}, List.Forall₂ (fun d o => ∃ old : PlaceData, old.items.length = ids.length ∧
        offer place ids old d = some (some o)) l o → (∀ d ∈ l, ∃ x ∈ xs, d ∈ x.wire) → l.map recvPkt? = (o.map Prod.fst).map (fun p => some (some p)) := by
      intro l o hl
      induction hl with
      | nil => intro _; rfl
      | cons h1 _ ih =>
        intro hw
        obtain ⟨x, hx, hxd⟩ := hw _ List.mem_cons_self
        obtain ⟨old, h1, h2⟩ := h1
        rw [offer_wire (arr.ok x hx) (arr.every x hx) arr.constant hxd old h1] at h2
        have h2 := (Option.some.inj (Option.some.inj h2)).symm
        obtain ⟨S, rx⟩ := (arr.ok x hx).rx
        rw [List.map_cons, List.map_cons, List.map_cons, ih (fun d hd => hw d (List.mem_cons_of_mem _ hd)), h2, rx.dec _ hxd]
    have hq := this hds ar.origin
    rw [hps] at hq
    exact (List.map_injective_iff.2 (fun _ _ h => Option.some.inj (Option.some.inj h)) hq).symm
  have hpk : ∀ op ∈ plainOps ops, isPackets op := by
    intro op hop
    obtain ⟨o, ho, hoo⟩ := List.mem_flatMap.1 hop
    rcases hops o ho with ⟨l, rfl, hl⟩ | rfl
    · simp only [plainOp, List.mem_singleton] at hoo
      subst hoo
      intro b hb hbs
      obtain ⟨c, hc, rfl⟩ := List.mem_map.1 hb
      cases c with
      | packet p pl => cases hbs
      | stop => exact hl hc
    · cases hoo
  obtain ⟨s, out, k1, -, k3, -⟩ := hrun (plainOps ops) ⟨hpk, hps'⟩
  have hst := C70_heaps hm hsub hmax (good arr hf) h
  rw [k1] at hst
  simp only [Option.some.injEq, Prod.mk.injEq] at hst
  obtain ⟨e, he, hsame⟩ := k3 x hx ha
  have hemem : e ∈ r.heaps := by
    rw [← hst.2]
    have : e ∈ out.filter (fun e => e.heap.cnt = x.cnt) := by rw [he]; simp
    exact (List.mem_filter.1 this).1
  obtain ⟨pl1, hpl1, -⟩ := (C70_calls hm hsub hmax (good arr hf) h).1 e hemem
  obtain ⟨y, hy, hyp, w1, w2, w3⟩ := heap_of hm hsub hmax arr hf h hemem hpl1
  have hfull : fullHeap e = true := by
    unfold fullHeap
    rw [hsame.2.1, w2, Bool.true_and, decide_eq_true_eq]
    exact w3
  obtain ⟨pl, c, n, g1, g2, g3, g4, g5, g6⟩ := C70_every_flag hm hsub hmax (good arr hf) h hz hall hno hemem hfull
  obtain ⟨z, hzm, rfl, v1, v2, v3⟩ := heap_of hm hsub hmax arr hf h hemem g1
  have : z = x := arr.cnts z hzm x hx (by rw [← v1, hsame.1])
  subst this
  rw [v2] at g5
  cases g5
  refine ⟨c, by omega, g4, ?_⟩
  intro k b hb
  obtain ⟨off, data, u1, u2, u3⟩ := g6 k (by rw [← payload_length (arr.ok z hx)]; exact lt_of_getElem? hb)
  rw [lastWritten_want hm hsub hmax (good arr hf) h (consistent arr hf) (t' := []) (by simp) u1 u2 u3, g3, want_eq arr hx g2 hb]

/-- C82 (consumer). Several streams deliver chunks through a data ring (C71). When the consumer gets a chunk from stream `i`, then every
flag that is set in it is that of a heap that was sent to this stream, and the memory of the chunk has at the heap's place
the payload that was sent. -/
theorem C82_consumer {fds : List Feed} (gd : ∀ fd ∈ fds, GoodFeed fd) {n a b : Nat} {ops : List RingsOp} {s s' : ChunkRings} {outs : List RingsOut}
    (h : RingsReach fds n a b ops s outs) {i : Nat} {c : Chunk} {p : Nat} (hp : s.step fds .pop = some (s', .got i c p))
    {fd : Feed} (hfd : fds[i]? = some fd) {cfg : StreamConfig} (hm : 0 < cfg.maxHeaps) (hsub : 0 < cfg.substreams) (hz : fd.cfg.presenceSize = 0)
    {place : List Int → Place} {ids : List Nat} {xs : List Sent} (arr : Arranged place ids { fd.cfg with alloc := fun _ => true } xs)
    {rops : List ChunkRecvOp} (hf : FromWire place ids xs rops) {r : ChunkRecv} (hr : ChunkRecv.run cfg fd.cfg rops = some r) (hops : fd.ops = r.ops)
    {j : Nat} (hj : s'.present p j = true) :
    ∃ x ∈ xs, (c.chunkId : Int) = (spot place ids x).chunkId ∧ j = (spot place ids x).heapIndex ∧ x.payload ≠ [] ∧
      ∀ (k : Nat) (b : UInt8), x.payload[k]? = some b → s'.bytes p ((spot place ids x).heapOffset + k) = b := by
  have g := gd fd (List.mem_of_getElem? hfd)
  obtain ⟨e, he, pl, len, q1, q2, q3, q4, q5, q6, q7, q8⟩ := C71_received gd h hp hfd hm hsub hz (good arr hf) hr hops (consistent arr hf) hj
  obtain ⟨x, hx, rfl, -, w2, w3⟩ := heap_of (ccfg := fd.cfg) hm hsub g.max (arr.anyAlloc fd.cfg.alloc) hf hr he q2
  rw [w2] at q3
  cases q3
  have hl := payload_length (arr.ok x hx)
  refine ⟨x, hx, by omega, q7, by intro h0; rw [h0] at hl; simp at hl; omega, fun k b hb => ?_⟩
  rw [q8 k (by rw [← hl]; exact lt_of_getElem? hb), q6, want_eq arr hx q5 hb]

/-! ### A concrete case

Heaps of 24 bytes with a timestamp, two packets each. Two of them make a chunk. -/

/-- The payload of heap `t`. -/
def tsBytes (t : Nat) : Bytes := (List.range 24).map (fun i => UInt8.ofNat (24 * t + i))

/-- A heap with a timestamp and data. -/
def tsHeap (t : Nat) : SendHeap := { hab := 48, repeatPointers := true, items := [⟨0x1600, .inline t⟩, ⟨0x3300, .buffer (tsBytes t) false⟩] }

/-- `tsHeap` sent in packets of 72 bytes. -/
def tsSent (t : Nat) : Sent :=
  ⟨tsHeap t, t + 1, 72, 6, (((Gen.new (tsHeap t) (t + 1) 72).toOption.bind (fun g => g.run 100 {})).getD ([], {})).1⟩

theorem tsSent_ok (t : Nat) (ht : t < 2 ^ 40) (hl : heapLength 72 (tsHeap t) < 2 ^ 48) (hc : min (maxPointers 72) (heapPtrs 72 (tsHeap t)).length + 4 < 65536)
    (hpay : (realPayload 6 (tsHeap t).items).length % 8 = 0)
    (hs : ((Gen.new (tsHeap t) (t + 1) 72).toOption.bind (fun g => (g.run 100 {}).map (fun x => !g.hasNext x.2))) = some true) :
    (tsSent t).Ok where
  hab := rfl
  fits := by
    refine ⟨⟨6, by decide, by decide, rfl⟩, ?_, ?_, ?_, hl, hc⟩
    · intro it hit
      simp only [tsSent, tsHeap, List.mem_cons, List.not_mem_nil, or_false] at hit
      rcases hit with rfl | rfl <;> simp [tsSent, tsHeap]
    · intro it hit v hv
      simp only [tsSent, tsHeap, List.mem_cons, List.not_mem_nil, or_false] at hit
      rcases hit with rfl | rfl <;> simp at hv
      subst hv
      show t < 2 ^ 48
      omega
    · show t + 1 < 2 ^ 48
      omega
  ids := by
    intro it hit
    simp only [tsSent, tsHeap, List.mem_cons, List.not_mem_nil, or_false] at hit
    rcases hit with rfl | rfl <;> simp
  sends := by
    cases hg : Gen.new (tsHeap t) (t + 1) 72 with
    | error e => rw [hg] at hs; simp [Except.toOption] at hs
    | ok g =>
      rw [hg] at hs
      simp only [Except.toOption, Option.bind_some] at hs
      cases hr : g.run 100 {} with
      | none => rw [hr] at hs; simp at hs
      | some x =>
        rw [hr] at hs
        simp only [Option.map_some, Option.some.injEq, Bool.not_eq_true'] at hs
        refine ⟨g, 100, x.2, hg, ?_, hs⟩
        simp only [tsSent, hg, Except.toOption, Option.bind_some, hr, Option.getD_some]
  payload := Or.inr hpay

/-- Three heaps. -/
def tsHeaps : List Sent := [tsSent 0, tsSent 1, tsSent 2]

/-- The place callback: two heaps to a chunk. -/
def tsPlace : List Int → Place
  | [t] => if t < 0 then {} else { chunkId := t / 2, heapIndex := (t % 2).toNat, heapOffset := 24 * (t % 2).toNat }
  | _ => {}

/-- Chunks of 48 bytes. -/
def tsChunks : ChunkConfig :=
  { maxChunks := 2, alloc := fun _ => true, dataSize := fun _ => 48, presentSize := fun _ => 2, extraSize := fun _ => 0 }

theorem tsArranged : Arranged tsPlace [0x1600] tsChunks tsHeaps where
  ok := by
    intro x hx
    simp only [tsHeaps, List.mem_cons, List.not_mem_nil, or_false] at hx
    rcases hx with rfl | rfl | rfl <;> exact tsSent_ok _ (by decide) (by decide) (by decide) (by decide) (by decide +kernel)
  cnts := by
    intro x hx y hy h
    simp only [tsHeaps, List.mem_cons, List.not_mem_nil, or_false] at hx hy
    rcases hx with rfl | rfl | rfl <;> rcases hy with rfl | rfl | rfl <;> first | rfl | (exact absurd h (by decide))
  every := by
    intro x hx
    simp only [tsHeaps, List.mem_cons, List.not_mem_nil, or_false] at hx
    rcases hx with rfl | rfl | rfl <;> exact Or.inl rfl
  constant := by decide
  id := by decide +kernel
  extra := fun x hx _ => (show ∀ x ∈ tsHeaps, (spot tsPlace [0x1600] x).extraOffset + (spot tsPlace [0x1600] x).extra.length ≤ 0 by decide +kernel) x hx
  data := fun x hx _ => (show ∀ x ∈ tsHeaps, (spot tsPlace [0x1600] x).heapOffset + length x ≤ 48 by decide +kernel) x hx
  flag := fun x hx _ _ => (show ∀ x ∈ tsHeaps, (spot tsPlace [0x1600] x).heapIndex < 2 by decide +kernel) x hx
  flags := by intro _ _ _ h; exact absurd rfl h
  apart := by
    intro x hx y hy h
    simp only [tsHeaps, List.mem_cons, List.not_mem_nil, or_false] at hx hy
    rcases hx with rfl | rfl | rfl <;> rcases hy with rfl | rfl | rfl <;> first | (exact absurd rfl h) | decide +kernel

/-- The datagrams arrive out of order and one of them twice. -/
def tsArrival : List Bytes :=
  (tsSent 1).wire.reverse ++ (tsSent 0).wire.take 1 ++ (tsSent 0).wire.take 1 ++ (tsSent 2).wire ++ (tsSent 0).wire.drop 1

/-- What becomes of them in the receiver. -/
def tsOffers : List (Pkt × Place) := tsArrival.filterMap (fun d => (offer tsPlace [0x1600] ⟨9, [9], 9, 9, 9, 9, 9⟩ d).getD none)

/-- The history: one batch. -/
def tsOps : List ChunkRecvOp := [.batch (tsOffers.map (fun o => .packet o.1 o.2))]

theorem tsForall : List.Forall₂ (fun d o => ∃ old : PlaceData, old.items.length = [0x1600].length ∧ offer tsPlace [0x1600] old d = some (some o)) tsArrival (offers tsOps) := by
  have ho : offers tsOps = tsOffers := by
    simp [tsOps, offers, batchOffers, List.filterMap_map, Function.comp_def]
  have hmap : tsArrival.map (offer tsPlace [0x1600] ⟨9, [9], 9, 9, 9, 9, 9⟩) = tsOffers.map (fun o => some (some o)) := by decide +kernel
  rw [ho]
  have key : ∀ {l : List Bytes} {o : List (Pkt × Place)}, l.map (offer tsPlace [0x1600] ⟨9, [9], 9, 9, 9, 9, 9⟩) = o.map (fun o => some (some o)) →
      List.Forall₂ (fun d o => ∃ old : PlaceData, old.items.length = [0x1600].length ∧ offer tsPlace [0x1600] old d = some (some o)) l o := by
    intro l
    induction l with
    | nil =>
      intro o h
      cases o with
      | nil => exact List.Forall₂.nil
      | cons a o => cases h
    | cons d l ih =>
      intro o h
      cases o with
      | nil => cases h
      | cons a o =>
        rw [List.map_cons, List.map_cons, List.cons.injEq] at h
        exact List.Forall₂.cons ⟨⟨9, [9], 9, 9, 9, 9, 9⟩, rfl, h.1⟩ (ih h.2)
  exact key hmap

theorem tsArrival_ok : Arrival trafficCfg.forChunks tsHeaps tsArrival where
  origin := by decide +kernel
  late := split_all (P := fun l1 d _ => ∀ x ∈ tsHeaps, d ∈ x.wire → ∃ b ∈ x.wire, b ∉ l1) (by decide +kernel)
  overlap := split_all2 (P := fun l1 d1 l2 d2 _ => ∀ x ∈ tsHeaps, d1 ∈ x.wire → d2 ∈ x.wire →
    (tsHeaps.filter (fun y => y.cnt % trafficCfg.forChunks.substreams = x.cnt % trafficCfg.forChunks.substreams ∧
      (∃ d ∈ l2, d ∈ y.wire) ∧ ∀ d ∈ l1 ++ [d1], d ∉ y.wire)).length < trafficCfg.forChunks.maxHeaps) (by decide +kernel)
  order := by intro h; simp [trafficCfg, StreamConfig.forChunks] at h

/-- All three heaps are delivered, two in chunk 0 and one in chunk 1. -/
example : ∃ r, ChunkRecv.run trafficCfg tsChunks tsOps = some r ∧ ∀ x ∈ tsHeaps,
    ∃ c : Chunk, (c.chunkId : Int) = (spot tsPlace [0x1600] x).chunkId ∧ .present c (spot tsPlace [0x1600] x).heapIndex ∈ r.trace ∧
      ∀ (k : Nat) (b : UInt8), x.payload[k]? = some b → lastWritten c.chunkId ((spot tsPlace [0x1600] x).heapOffset + k) r.trace = some b := by
  have hl : (ChunkRecv.run trafficCfg tsChunks tsOps).map (fun r => lossCount r.trace) = some 0 := by decide +kernel
  cases hr : ChunkRecv.run trafficCfg tsChunks tsOps with
  | none => rw [hr] at hl; cases hl
  | some r =>
    rw [hr] at hl
    refine ⟨r, rfl, fun x hx => ?_⟩
    refine C82_delivered (cfg := trafficCfg) (by decide) (by decide) (by decide) tsArranged (by decide +kernel) ?_ tsForall tsArrival_ok
      (by intro _; decide +kernel) hr rfl (fun _ => rfl) (Option.some.inj hl) hx ⟨Or.inl ?_, ?_⟩
    · intro op hop
      simp only [tsOps, List.mem_singleton] at hop
      refine Or.inl ⟨_, hop, ?_⟩
      intro hs
      obtain ⟨o, -, ho⟩ := List.mem_map.1 hs
      cases ho
    · simp only [tsHeaps, List.mem_cons, List.not_mem_nil, or_false] at hx
      rcases hx with rfl | rfl | rfl <;>
      · intro it hit b allow hv hn
        simp only [tsSent, tsHeap, List.mem_cons, List.not_mem_nil, or_false] at hit
        rcases hit with rfl | rfl <;> simp at hv
        obtain ⟨rfl, rfl⟩ := hv
        decide
    · rw [if_pos (show trafficCfg.forChunks.allowOoo = true from rfl)]
      revert x
      decide +kernel

example : tsHeaps.map (fun x => (spot tsPlace [0x1600] x).chunkId) = [0, 0, 1] ∧ tsHeaps.map (fun x => x.wire.length) = [2, 2, 2] ∧
    tsHeaps.map (fun x => x.payload) = [tsBytes 0, tsBytes 1, tsBytes 2] := by decide +kernel

end Spead2.ChunkNet
