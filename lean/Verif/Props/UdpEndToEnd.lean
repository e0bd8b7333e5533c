import Verif.Spec.UdpEndToEnd
import Verif.Props.Integrity
import Verif.Props.SendMmsg

/-!
# C69: heaps that are sent over UDP arrive if the network delivers the datagrams in order
# C67 for the UDP writer that batches packets
-/

namespace Spead2
open Spec

theorem inOrder_packets {fits : Nat → Prop} : ∀ {sent got : List Bytes}, InOrder sent got → (∀ d ∈ sent, fits d.length ∧ IsPacket d (recvOr d)) → PacketsOf fits got (sent.map recvOr)
  | _, _, .nil, _ => .nil
  | _, _, .sent h, hs => .take (hs _ List.mem_cons_self).1 (hs _ List.mem_cons_self).2 (inOrder_packets h (fun d hd => hs d (List.mem_cons_of_mem _ hd)))
  | _, _, .other hn h, hs => .skip (fun h => hn h.2) (inOrder_packets h hs)

/-- What a receiver of the datagrams of accepted groups hands over, if nothing is lost. -/
theorem arrives_udp {size mask substreams mps : Nat} {ops : List (WOp SendHeap)} {acc : List (Accepted GenPacket)} (hacc : ∀ a ∈ acc, FromCall (packetEnv size mask substreams mps).sq ops a) (hf : FaithfulCalls mps ops)
    (cfg : StreamConfig) (hm : 0 < cfg.maxHeaps) (hsub : 0 < cfg.substreams) (n : Nat) (hr : Receivable cfg ops (acc.map (Accepted.on n)))
    (maxSize : Nat) (hsize : mps ≤ maxSize) (gro : Bool) (arrivals : List (List Bytes × List RxMsg))
    (hdel : ∀ a ∈ arrivals, DeliversAll gro (rxBufferSize gro maxSize) a.1 a.2) (hlen : ∀ a ∈ arrivals, ∀ d ∈ a.1, d.length ≤ 65535)
    (hord : InOrder (((acc.flatMap Accepted.packets).filter (fun x => x.2 = n)).map (fun x => x.1.bytes)) (arrivals.map Prod.fst).flatten) :
    ∃ s groups outs, List.Forall₂ (SubmittedOn ops mps n) acc groups ∧ udpRun cfg maxSize gro (arrivals.map Prod.snd) (Stream.new cfg) = some (s, outs.flatten) ∧
      List.Forall₂ Arrives groups outs ∧ liveHeaps s = [] ∧ s.stopped = false := by
  obtain ⟨gs0, h1, h2⟩ := submitted_groups (env := (packetEnv size mask substreams mps).sq) rfl hf _ hacc
  obtain ⟨gs, k1, k2⟩ := on_groups n h1 h2
  have hok : ∀ x ∈ gs.flatMap SentGroup.heaps, x.Ok := fun x hx => (k2 x hx).1
  have hit : ∀ x ∈ gs.flatMap SentGroup.heaps, NoEmpty x.width x.heap.items ∨ (heapPtrs x.mps x.heap).Nodup := by
    intro x hx
    obtain ⟨-, f, e1, e2⟩ := k2 x hx
    rw [e1, e2]
    exact f.items
  rw [on_wires k1] at hord
  obtain ⟨ls, s, out, r1, r2, r3⟩ := C52_run cfg hm hsub maxSize gro arrivals hdel hlen
  have hpk := dgAccepted_unique r1 (inOrder_packets hord (fun d hd => by
    obtain ⟨x, hx, hd⟩ := wires_mem hd
    have hfr := (hok x hx).framed hd
    exact ⟨Nat.le_trans (Nat.le_trans hfr.2.2 (Nat.le_of_eq (k2 x hx).2.2.1)) hsize, hfr.2.1⟩))
  obtain ⟨s1, outs, g1, g2, g3, g4⟩ := delivery_stream hm hsub hok (on_deliverable k1 hr) hit (ops := ls.map (fun l => .batch (l.map .packet))) (by
    refine ⟨fun op hop => ?_, by rw [presented_batches, hpk]; rfl⟩
    obtain ⟨l, -, rfl⟩ := List.mem_map.1 hop
    intro b hb e
    obtain ⟨q, -, rfl⟩ := List.mem_map.1 hb
    cases e)
  rw [r3] at g1
  cases g1
  exact ⟨s, gs, outs, k1, r2, g4, g3, g2⟩

/-- What has left on a substream, if all packets have left. -/
theorem left_all {size mask substreams mps : Nat} {tr : List (WEv GenPacket)} (n : Nat) (h : leftWire tr = (allPackets (queueEvs tr)).map (fun x => (x.2, (packetEnv size mask substreams mps).data x.1))) :
    leftOn n tr = (((accepted (queueEvs tr)).flatMap Accepted.packets).filter (fun x => x.2 = n)).map (fun x => x.1.bytes) := by
  unfold leftOn
  rw [h]
  unfold allPackets
  rw [List.filter_map, List.map_map]
  rfl

/-- C69, for the writers of C64 that send one datagram at a time. Send any groups of heaps that can be sent faithfully. Once the writer waits for the next call, if
nothing failed and the network delivers the datagrams of a substream in order (and in between any datagrams that are not packets), cut and coalesced by the kernel in
any way, then the receiver has handed over the heaps of that substream, group after group, each once, complete and with the items that were sent. No step is
undefined, and no heap is left over. -/
theorem C69_end_to_end {size mask substreams mps : Nat} (hq : queueMask size = some mask) {kind : WKind} (hk : kind.datagrams = true) {connecting : Bool} {ops : List (WOp SendHeap)}
    {w : WSt SendHeap GenPacket} {tr : List (WEv GenPacket)}
    (h : WReach kind (packetEnv size mask substreams mps) connecting ops w tr) (hc : CleanRejects (queueEvs tr)) (hi : w.idle) (ha : AllSent (queueEvs tr)) (hf : FaithfulCalls mps ops)
    (cfg : StreamConfig) (hm : 0 < cfg.maxHeaps) (hsub : 0 < cfg.substreams) (n : Nat) (hr : Receivable cfg ops ((accepted (queueEvs tr)).map (Accepted.on n)))
    (maxSize : Nat) (hsize : mps ≤ maxSize) (gro : Bool) (arrivals : List (List Bytes × List RxMsg))
    (hdel : ∀ a ∈ arrivals, DeliversAll gro (rxBufferSize gro maxSize) a.1 a.2) (hlen : ∀ a ∈ arrivals, ∀ d ∈ a.1, d.length ≤ 65535) (hord : InOrder (leftOn n tr) (arrivals.map Prod.fst).flatten) :
    ∃ s groups outs, List.Forall₂ (SubmittedOn ops mps n) (accepted (queueEvs tr)) groups ∧ udpRun cfg maxSize gro (arrivals.map Prod.snd) (Stream.new cfg) = some (s, outs.flatten) ∧
      List.Forall₂ Arrives groups outs ∧ liveHeaps s = [] ∧ s.stopped = false := by
  have hv := packetEnv_valid (substreams := substreams) (mps := mps) hq
  rw [left_all n ((C64_all hv h hc hi ha).1 hk)] at hord
  exact arrives_udp (accepted_from hv.sq h hc) hf cfg hm hsub n hr maxSize hsize gro arrivals hdel hlen hord

/-- C69, for the writer of C68, which batches packets. -/
theorem C69_end_to_end_mmsg {size mask substreams mps : Nat} (hq : queueMask size = some mask) {genv : UEnv} {ops : List (WOp SendHeap)}
    {m : MSt SendHeap GenPacket} {tr : List (WEv GenPacket)}
    (h : MReach genv (packetEnv size mask substreams mps) ops m tr) (hc : CleanRejects (queueEvs tr)) (hi : m.idle) (ha : AllSent (queueEvs tr)) (hf : FaithfulCalls mps ops)
    (cfg : StreamConfig) (hm : 0 < cfg.maxHeaps) (hsub : 0 < cfg.substreams) (n : Nat) (hr : Receivable cfg ops ((accepted (queueEvs tr)).map (Accepted.on n)))
    (maxSize : Nat) (hsize : mps ≤ maxSize) (gro : Bool) (arrivals : List (List Bytes × List RxMsg))
    (hdel : ∀ a ∈ arrivals, DeliversAll gro (rxBufferSize gro maxSize) a.1 a.2) (hlen : ∀ a ∈ arrivals, ∀ d ∈ a.1, d.length ≤ 65535) (hord : InOrder (leftOn n tr) (arrivals.map Prod.fst).flatten) :
    ∃ s groups outs, List.Forall₂ (SubmittedOn ops mps n) (accepted (queueEvs tr)) groups ∧ udpRun cfg maxSize gro (arrivals.map Prod.snd) (Stream.new cfg) = some (s, outs.flatten) ∧
      List.Forall₂ Arrives groups outs ∧ liveHeaps s = [] ∧ s.stopped = false := by
  have hv := packetEnv_mvalid (substreams := substreams) (mps := mps) hq
  rw [left_all n (C68_all hv h hc hi ha)] at hord
  exact arrives_udp (C68_from hv h hc) hf cfg hm hsub n hr maxSize hsize gro arrivals hdel hlen hord

/-- C67, for the writer of C68: at any time, whatever the kernel answered. -/
theorem C67_sent_mmsg {size mask substreams mps : Nat} (hq : queueMask size = some mask) {genv : UEnv} {ops : List (WOp SendHeap)}
    {m : MSt SendHeap GenPacket} {tr : List (WEv GenPacket)}
    (h : MReach genv (packetEnv size mask substreams mps) ops m tr) (hc : CleanRejects (queueEvs tr)) (hf : FaithfulCalls mps ops) (n : Nat)
    (hd : (((accepted (queueEvs tr)).map (Accepted.on n)).flatMap (fun a => a.hs.map Admitted.cnt)).Nodup)
    (cfg : StreamConfig) (hm : 0 < cfg.maxHeaps) (hsub : 0 < cfg.substreams) (maxSize : Nat) (gro : Bool) (arrivals : List (List Bytes × List RxMsg))
    (hdel : ∀ a ∈ arrivals, DeliversAll gro (rxBufferSize gro maxSize) a.1 a.2) (hlen : ∀ a ∈ arrivals, ∀ d ∈ a.1, d.length ≤ 65535)
    (hsent : ∀ a ∈ arrivals, ∀ d ∈ a.1, (∃ p, IsPacket d p) → d ∈ leftOn n tr) :
    ∃ s out groups, List.Forall₂ (SubmittedOn ops mps n) (accepted (queueEvs tr)) groups ∧ udpRun cfg maxSize gro (arrivals.map Prod.snd) (Stream.new cfg) = some (s, out) ∧
      (∀ e ∈ out, ∃ x ∈ groups.flatMap SentGroup.heaps, e.heap.cnt = x.cnt ∧ BytesOf x e.heap ∧ (e.heap.isComplete = true → x.Robust cfg → SameItems x e.heap)) ∧
      ∀ x ∈ groups.flatMap SentGroup.heaps, ∀ d ∈ x.wire, (x.copies out).length ≤ (arrivals.map Prod.fst).flatten.count d := by
  have hv := packetEnv_mvalid (substreams := substreams) (mps := mps) hq
  refine sent_udp (C68_from hv h hc) hf n hd ?_ cfg hm hsub maxSize gro arrivals hdel hlen hsent
  intro d hd
  obtain ⟨y, hy, rfl⟩ := List.mem_map.1 hd
  obtain ⟨hy, hyn⟩ := List.mem_filter.1 hy
  rw [(C68_datagrams hv h hc).1] at hy
  obtain ⟨z, hz, rfl⟩ := wanted_mem _ _ _ y hy
  obtain ⟨⟨⟨old, gl, k, sinv⟩, -⟩, -, -⟩ := mreach_state hv h hc
  have hp := ((fetched_prefix sinv).map Prod.fst).subset (List.mem_map_of_mem hz)
  rw [flatMap_markLast] at hp
  exact ⟨z.1, hp, by simpa using hyn, rfl⟩

/-! ### The hypotheses are met -/

/-- What leaves the writer that batches packets on substream 1, in the example of C66. The kernel merges and cuts packets. -/
def mmsgLeft : List Bytes := ((MSt.run ⟨true⟩ (packetEnv 4 3 2 64) inDemoOps MSt.new).map (fun r => leftOn 1 r.2)).getD []

/-- The datagrams arrive in three lots, with something that is not a packet in between. -/
def mmsgArrivals : List (List Bytes × List RxMsg) :=
  [mmsgLeft.take 5 ++ [[1, 2, 3]], (mmsgLeft.drop 5).take 1, mmsgLeft.drop 6].map (fun l => (l, l.map (fun d => ⟨d.take 66, -1⟩)))

theorem inOrder_refl : ∀ l : List Bytes, InOrder l l
  | [] => .nil
  | _ :: l => .sent (inOrder_refl l)

theorem inOrder_append : ∀ {a a' b b' : List Bytes}, InOrder a a' → InOrder b b' → InOrder (a ++ b) (a' ++ b')
  | _, _, _, _, .nil, h => h
  | _, _, _, _, .sent h, h' => .sent (inOrder_append h h')
  | _, _, _, _, .other hn h, h' => .other hn (inOrder_append h h')

/-- The hypotheses of `C69_end_to_end_mmsg` are met (those on the calls by `inDemo_faithful`, the others here), and the heaps arrive. -/
theorem mmsg_meets : ∃ m tr, MReach ⟨true⟩ (packetEnv 4 3 2 64) inDemoOps m tr ∧ CleanRejects (queueEvs tr) ∧ m.idle ∧ AllSent (queueEvs tr) ∧
    Receivable trafficCfg inDemoOps ((accepted (queueEvs tr)).map (Accepted.on 1)) ∧
    (∀ a ∈ mmsgArrivals, DeliversAll false (rxBufferSize false 65) a.1 a.2) ∧ (∀ a ∈ mmsgArrivals, ∀ d ∈ a.1, d.length ≤ 65535) ∧
    InOrder (leftOn 1 tr) (mmsgArrivals.map Prod.fst).flatten ∧
    (udpRun trafficCfg 65 false (mmsgArrivals.map Prod.snd) (Stream.new trafficCfg)).map (fun x => x.2.map (fun e => (e.heap.cnt, e.heap.isComplete))) = some [(2, true), (3, true), (77, true)] := by
  have key : (MSt.run ⟨true⟩ (packetEnv 4 3 2 64) inDemoOps MSt.new).map (fun r : MSt SendHeap GenPacket × List (WEv GenPacket) =>
      decide (rejected (queueEvs r.2) = []) && (decide (r.1.pc = .rest) && (decide (r.1.sq.wk = .need) && (decide (∀ x ∈ outcomes (queueEvs r.2), x = none) &&
        (decide (((accepted (queueEvs r.2)).map (Accepted.on 1)).map (fun a => (a.mode, a.hs.map Admitted.cnt)) = [(.roundRobin, [2, 3]), (.serial, [77])]) && decide (mmsgLeft = leftOn 1 r.2)))))) = some true := by
    decide +kernel
  obtain ⟨⟨m, tr⟩, h1, h2⟩ := Option.map_eq_some_iff.mp key
  simp only [Bool.and_eq_true, decide_eq_true_eq] at h2
  obtain ⟨a, b, c, d, e, f⟩ := h2
  refine ⟨m, tr, h1, clean_of_rejected a, ⟨b, c⟩, d, inDemo_receivable e, ?_, by decide +kernel, ?_, by decide +kernel⟩
  · intro a ha
    obtain ⟨l, -, rfl⟩ := List.mem_map.1 ha
    exact delivers_single _ l
  · rw [← f]
    have h : ∀ l : List Bytes, InOrder l (l.take 5 ++ [[1, 2, 3]] ++ ((l.drop 5).take 1 ++ l.drop 6)) := by
      intro l
      have h3 : l = l.take 5 ++ ([] ++ ((l.drop 5).take 1 ++ (l.drop 5).drop 1)) := by rw [List.take_append_drop, List.nil_append, List.take_append_drop]
      rw [List.drop_drop] at h3
      conv => lhs; rw [h3]
      rw [List.append_assoc]
      refine inOrder_append (inOrder_refl _) (inOrder_append (.other (not_isPacket_of_decode (fun hd => ?_)) .nil) (inOrder_refl _))
      rw [show decodePacket [1, 2, 3] = some none by decide +kernel]
      simp
    have h2 : (mmsgArrivals.map Prod.fst).flatten = mmsgLeft.take 5 ++ [[1, 2, 3]] ++ ((mmsgLeft.drop 5).take 1 ++ mmsgLeft.drop 6) := by
      unfold mmsgArrivals
      simp only [List.map_cons, List.map_nil, List.flatten_cons, List.flatten_nil, List.append_nil]
    rw [h2]
    exact h _

end Spead2
