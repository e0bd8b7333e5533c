import Verif.Lemmas.Integrity
import Verif.Props.Stream
import Verif.Props.RecvUdp
import Verif.Props.Tcp
import Verif.Props.InprocEndToEnd

/-!
# C67: what an unreliable network cannot do
-/

namespace Spead2
open Spec

theorem length_le_count {p : Pkt} : ∀ {l : List Entry}, (∀ e ∈ l, p ∈ e.pkts) → l.length ≤ (l.flatMap Entry.pkts).count p
  | [], _ => by simp
  | e :: l, h => by
    rw [List.flatMap_cons, List.count_append, List.length_cons]
    have h1 := length_le_count (fun x hx => h x (List.mem_cons_of_mem e hx))
    have h2 := List.count_pos_iff.2 (h e List.mem_cons_self)
    omega

theorem flatMap_sublist {a b : List Entry} (h : a.Sublist b) : (a.flatMap Entry.pkts).Sublist (b.flatMap Entry.pkts) := by
  induction h with
  | slnil => exact List.Sublist.refl _
  | cons x _ ih => rw [List.flatMap_cons]; exact ih.trans (List.sublist_append_right _ _)
  | cons_cons x _ ih => rw [List.flatMap_cons, List.flatMap_cons]; exact (List.Sublist.refl _).append ih

/-- C67. Any history of a stream (batches of any packets, flushes and stops). If no packet of another origin has the cnt of heap `x`, then of every heap with this
cnt that is handed over or live the bytes received are those that were sent, in their places; it is complete only with the items that were sent; and it is not
handed over complete more often than each of its packets arrived. -/
theorem C67_stream (cfg : StreamConfig) (hm : 0 < cfg.maxHeaps) (hsub : 0 < cfg.substreams) {ops : List StreamOp} (hv : ∀ op ∈ ops, op.Valid) {s : Stream} {out : List Entry}
    (h : Stream.run cfg ops (Stream.new cfg) = some (s, out)) {x : Sent} (ok : x.Ok) (hg : Genuine x (presented ops)) :
    (∀ e ∈ out ++ liveHeaps s, e.heap.cnt = x.cnt → BytesOf x e.heap) ∧
    (x.Robust cfg → ∀ e ∈ x.copies out, SameItems x e.heap) ∧
    (∀ d ∈ x.wire, ∀ p, IsPacket d p → (x.copies out).length ≤ (presented ops).count p) := by
  obtain ⟨s', t, a, dropped, h1, -, -, -, -, h6, -, h8⟩ := C20_exactly_once cfg hm hsub ops hv
  rw [h] at h1
  simp only [Option.some.injEq, Prod.mk.injEq] at h1
  obtain ⟨rfl, rfl⟩ := h1
  have hmem : ∀ e ∈ handedOver t ++ liveHeaps s, e ∈ handedOver t ++ dropped ++ liveHeaps s := by
    intro e he
    rcases List.mem_append.1 he with he | he
    · simp [he]
    · simp [he]
  have hpk : ∀ e ∈ handedOver t ++ liveHeaps s, e.heap.cnt = x.cnt → ∀ p ∈ e.pkts, ∃ d ∈ x.wire, IsPacket d p := by
    intro e he hec p hp
    have hpr : p ∈ presented ops := by
      apply List.count_pos_iff.1
      refine Nat.lt_of_lt_of_le (List.count_pos_iff.2 ?_) (h8 p)
      exact List.mem_flatMap.2 ⟨e, hmem e he, hp⟩
    refine hg p hpr ?_
    obtain ⟨p0, rest, acc, -, h2, -⟩ := h6 e (hmem e he)
    rw [h2 p hp, hec]
  have hcopy : ∀ e ∈ x.copies (handedOver t), e ∈ handedOver t ++ liveHeaps s ∧ e.heap.cnt = x.cnt ∧ e.heap.isComplete = true := by
    intro e he
    obtain ⟨h1, h2⟩ := List.mem_filter.1 he
    rw [Bool.and_eq_true, decide_eq_true_eq] at h2
    exact ⟨List.mem_append_left _ h1, h2⟩
  refine ⟨fun e he hec => received_bytes ok (h6 e (hmem e he)) (hpk e he hec), ?_, ?_⟩
  · intro hr e he
    obtain ⟨k1, k2, k3⟩ := hcopy e he
    exact (complete_same ok (h6 e (hmem e k1)) (hpk e k1 k2) k3).1 hr
  · intro d hd p hp
    rw [isPacket_inj hp (ok.framed hd).2.1]
    refine Nat.le_trans (length_le_count (p := recvOr d) (fun e he => ?_)) (Nat.le_trans ?_ (h8 (recvOr d)))
    · obtain ⟨k1, k2, k3⟩ := hcopy e he
      exact (complete_same ok (h6 e (hmem e k1)) (hpk e k1 k2) k3).2 d hd
    · refine List.Sublist.count_le _ ?_
      have hs : (x.copies (handedOver t)).Sublist (handedOver t ++ dropped ++ liveHeaps s) := by
        refine List.filter_sublist.trans ?_
        rw [List.append_assoc]
        exact List.sublist_append_left _ _
      exact flatMap_sublist hs

/-- C67: no heap is handed over, or live, of which no packet was presented. -/
theorem C67_no_phantom (cfg : StreamConfig) (hm : 0 < cfg.maxHeaps) (hsub : 0 < cfg.substreams) {ops : List StreamOp} (hv : ∀ op ∈ ops, op.Valid) {s : Stream} {out : List Entry}
    (h : Stream.run cfg ops (Stream.new cfg) = some (s, out)) : ∀ e ∈ out ++ liveHeaps s, ∃ p ∈ presented ops, p.heapCnt = e.heap.cnt := by
  obtain ⟨s', t, a, dropped, h1, -, -, -, -, h6, -, h8⟩ := C20_exactly_once cfg hm hsub ops hv
  rw [h] at h1
  simp only [Option.some.injEq, Prod.mk.injEq] at h1
  obtain ⟨rfl, rfl⟩ := h1
  intro e he
  have hmem : e ∈ handedOver t ++ dropped ++ liveHeaps s := by
    rcases List.mem_append.1 he with he | he
    · simp [he]
    · simp [he]
  obtain ⟨p0, rest, acc, h2, h3, -⟩ := h6 e hmem
  have hp : p0 ∈ e.pkts := by rw [h2]; exact List.mem_cons_self
  refine ⟨p0, ?_, h3 p0 hp⟩
  apply List.count_pos_iff.1
  exact Nat.lt_of_lt_of_le (List.count_pos_iff.2 (List.mem_flatMap.2 ⟨e, hmem, hp⟩)) (h8 p0)

/-- Packets of datagrams. -/
theorem packetsOf_count {fits : Nat → Prop} {ds : List Bytes} {l : List Pkt} (h : PacketsOf fits ds l) {q : Pkt} {d : Bytes} (hd : ∀ b ∈ ds, IsPacket b q → b = d) :
    l.count q ≤ ds.count d := by
  induction h with
  | nil => simp
  | @take b p ds l _ hp _ ih =>
    have := ih (fun c hc => hd c (List.mem_cons_of_mem _ hc))
    rw [List.count_cons, List.count_cons]
    by_cases hpq : p = q
    · subst hpq
      rw [hd b List.mem_cons_self hp]
      simpa using this
    · have : (p == q) = false := by simpa using hpq
      rw [this]
      simp only [Bool.false_eq_true, if_false]
      omega
  | @skip b ds l _ _ ih =>
    have := ih (fun c hc => hd c (List.mem_cons_of_mem _ hc))
    rw [List.count_cons]
    omega

theorem packetsOf_mem {fits : Nat → Prop} {ds : List Bytes} {l : List Pkt} (h : PacketsOf fits ds l) : ∀ p ∈ l, ∃ d ∈ ds, IsPacket d p := by
  induction h with
  | nil => simp
  | @take b p ds l _ hp _ ih =>
    intro q hq
    rcases List.mem_cons.1 hq with rfl | hq
    · exact ⟨b, List.mem_cons_self, hp⟩
    · obtain ⟨d, hd, h⟩ := ih q hq
      exact ⟨d, List.mem_cons_of_mem _ hd, h⟩
  | @skip b ds l _ _ ih =>
    intro q hq
    obtain ⟨d, hd, h⟩ := ih q hq
    exact ⟨d, List.mem_cons_of_mem _ hd, h⟩

theorem presented_batches (ls : List (List Pkt)) : presented (ls.map (fun l => .batch (l.map .packet))) = ls.flatten := by
  unfold presented
  rw [List.flatMap_map]
  have : ∀ l : List Pkt, batchPackets (l.map .packet) = l := by
    intro l
    induction l with
    | nil => rfl
    | cons p l ih => show p :: batchPackets (l.map .packet) = _; rw [ih]
  simp only [this]
  rw [List.flatMap_def, List.map_id']

/-- C67, with a UDP reader: whatever datagrams arrive, however the kernel coalesces and cuts them. Nothing is undefined, and every heap handed
over has the cnt of a packet that arrived. -/
theorem C67_udp (cfg : StreamConfig) (hm : 0 < cfg.maxHeaps) (hsub : 0 < cfg.substreams) (maxSize : Nat) (gro : Bool) (arrivals : List (List Bytes × List RxMsg))
    (hdel : ∀ a ∈ arrivals, DeliversAll gro (rxBufferSize gro maxSize) a.1 a.2) (hlen : ∀ a ∈ arrivals, ∀ d ∈ a.1, d.length ≤ 65535) :
    ∃ s out, udpRun cfg maxSize gro (arrivals.map Prod.snd) (Stream.new cfg) = some (s, out) ∧
      (∀ e ∈ out ++ liveHeaps s, ∃ d ∈ (arrivals.map Prod.fst).flatten, ∃ p, IsPacket d p ∧ p.heapCnt = e.heap.cnt) ∧
      ∀ x : Sent, x.Ok → GenuineData x (arrivals.map Prod.fst).flatten →
      (∀ e ∈ out ++ liveHeaps s, e.heap.cnt = x.cnt → BytesOf x e.heap) ∧
      (x.Robust cfg → ∀ e ∈ x.copies out, SameItems x e.heap) ∧
      ∀ d ∈ x.wire, (x.copies out).length ≤ (arrivals.map Prod.fst).flatten.count d := by
  obtain ⟨ls, s, out, h1, h2, h3⟩ := C52_run cfg hm hsub maxSize gro arrivals hdel hlen
  have hmem := packetsOf_mem h1
  have hv : ∀ op ∈ ls.map (fun l => StreamOp.batch (l.map .packet)), op.Valid := by
    intro op hop
    obtain ⟨l, hl, rfl⟩ := List.mem_map.1 hop
    intro p hp
    obtain ⟨q, hq, e⟩ := List.mem_map.1 hp
    cases e
    obtain ⟨d, -, hd⟩ := hmem p (List.mem_flatten.2 ⟨l, hl, hq⟩)
    exact framePkt_valid (by rw [framePkt_packet hd]; simp)
  refine ⟨s, out, h2, fun e he => ?_, fun x ok hg => ?_⟩
  · obtain ⟨p, hp, hc⟩ := C67_no_phantom cfg hm hsub hv h3 e he
    rw [presented_batches] at hp
    obtain ⟨d, hd, hi⟩ := hmem p hp
    exact ⟨d, hd, p, hi, hc⟩
  have hgen : Genuine x (presented (ls.map (fun l => .batch (l.map .packet)))) := by
    intro p hp hc
    rw [presented_batches] at hp
    obtain ⟨d, hd, hi⟩ := hmem p hp
    exact ⟨d, hg d hd p hi hc, hi⟩
  obtain ⟨k1, k2, k3⟩ := C67_stream cfg hm hsub hv h3 ok hgen
  refine ⟨k1, k2, fun d hd => ?_⟩
  have hi := (ok.framed hd).2.1
  refine Nat.le_trans (k3 d hd _ hi) ?_
  rw [presented_batches]
  refine packetsOf_count h1 (fun b hb hbq => ?_)
  obtain ⟨S, r⟩ := ok.rx
  have hbw := hg b hb _ hbq (r.cnt hd)
  exact r.inj hbw hd (isPacket_inj (ok.framed hbw).2.1 hbq)

theorem wanted_mem {π : Type} (data : π → Bytes) : ∀ (l : List ((π × Nat) × Bool)) (rs : List (Option Nat)), ∀ x ∈ wantedPackets data l rs, ∃ y ∈ l, x = (y.1.2, data y.1.1)
  | [], _, x, h => by simp [wantedPackets] at h
  | _ :: _, [], x, h => by simp [wantedPackets] at h
  | y :: l, none :: rs, x, h => by
    rw [wantedPackets] at h
    rcases List.mem_cons.1 h with rfl | h
    · exact ⟨y, List.mem_cons_self, rfl⟩
    · obtain ⟨z, hz, e⟩ := wanted_mem data l rs x h
      exact ⟨z, List.mem_cons_of_mem _ hz, e⟩
  | y :: l, some _ :: rs, x, h => by
    rw [wantedPackets] at h
    obtain ⟨z, hz, e⟩ := wanted_mem data l rs x h
    exact ⟨z, List.mem_cons_of_mem _ hz, e⟩

/-- What a receiver of datagrams of accepted groups hands over. -/
theorem sent_udp {size mask substreams mps : Nat} {ops : List (WOp SendHeap)} {acc : List (Accepted GenPacket)} (hacc : ∀ a ∈ acc, FromCall (packetEnv size mask substreams mps).sq ops a) (hf : FaithfulCalls mps ops) (n : Nat)
    (hd : ((acc.map (Accepted.on n)).flatMap (fun a => a.hs.map Admitted.cnt)).Nodup) {left : List Bytes} (hleft : ∀ d ∈ left, ∃ x ∈ acc.flatMap Accepted.packets, x.2 = n ∧ d = x.1.bytes)
    (cfg : StreamConfig) (hm : 0 < cfg.maxHeaps) (hsub : 0 < cfg.substreams) (maxSize : Nat) (gro : Bool) (arrivals : List (List Bytes × List RxMsg))
    (hdel : ∀ a ∈ arrivals, DeliversAll gro (rxBufferSize gro maxSize) a.1 a.2) (hlen : ∀ a ∈ arrivals, ∀ d ∈ a.1, d.length ≤ 65535)
    (hsent : ∀ a ∈ arrivals, ∀ d ∈ a.1, (∃ p, IsPacket d p) → d ∈ left) :
    ∃ s out groups, List.Forall₂ (SubmittedOn ops mps n) acc groups ∧ udpRun cfg maxSize gro (arrivals.map Prod.snd) (Stream.new cfg) = some (s, out) ∧
      (∀ e ∈ out, ∃ x ∈ groups.flatMap SentGroup.heaps, e.heap.cnt = x.cnt ∧ BytesOf x e.heap ∧ (e.heap.isComplete = true → x.Robust cfg → SameItems x e.heap)) ∧
      ∀ x ∈ groups.flatMap SentGroup.heaps, ∀ d ∈ x.wire, (x.copies out).length ≤ (arrivals.map Prod.fst).flatten.count d := by
  obtain ⟨gs0, h1, h2⟩ := submitted_groups (env := (packetEnv size mask substreams mps).sq) rfl hf _ hacc
  obtain ⟨gs, k1, k2⟩ := on_groups n h1 h2
  have hok : ∀ x ∈ gs.flatMap SentGroup.heaps, x.Ok := fun x hx => (k2 x hx).1
  have hwire : ∀ d ∈ left, d ∈ gs.flatMap SentGroup.wire := by
    intro d hd
    obtain ⟨x, hx, hxn, rfl⟩ := hleft d hd
    rw [← on_wires k1]
    exact List.mem_map.2 ⟨x, List.mem_filter.2 ⟨hx, by simpa using hxn⟩, rfl⟩
  have hdist : (gs.flatMap SentGroup.cnts).Nodup := by rw [on_cnts k1]; exact hd
  have hfrom : ∀ d ∈ (arrivals.map Prod.fst).flatten, ∀ p, IsPacket d p → ∃ x ∈ gs.flatMap SentGroup.heaps, d ∈ x.wire ∧ p.heapCnt = x.cnt := by
    intro d hd p hp
    obtain ⟨l, hl, hdl⟩ := List.mem_flatten.1 hd
    obtain ⟨a, ha, rfl⟩ := List.mem_map.1 hl
    obtain ⟨x, hx, hxd⟩ := wires_mem (hwire d (hsent a ha d hdl ⟨p, hp⟩))
    obtain ⟨S, r⟩ := (hok x hx).rx
    refine ⟨x, hx, hxd, ?_⟩
    rw [isPacket_inj hp ((hok x hx).framed hxd).2.1]
    exact r.cnt hxd
  obtain ⟨s, out, r1, r2, r3⟩ := C67_udp cfg hm hsub maxSize gro arrivals hdel hlen
  have hgen : ∀ x ∈ gs.flatMap SentGroup.heaps, GenuineData x (arrivals.map Prod.fst).flatten := by
    intro x hx d hd p hp hcnt
    obtain ⟨y, hy, hyd, hyc⟩ := hfrom d hd p hp
    rw [← inj_of_nodup_map Sent.cnt (by rw [← flatMap_cnts]; exact hdist) y hy x hx (hyc.symm.trans hcnt)]
    exact hyd
  refine ⟨s, out, gs, k1, r1, fun e he => ?_, fun x hx => (r3 x (hok x hx) (hgen x hx)).2.2⟩
  obtain ⟨d, hd, p, hp, hpc⟩ := r2 e (List.mem_append_left _ he)
  obtain ⟨x, hx, hxd, hxc⟩ := hfrom d hd p hp
  obtain ⟨q1, q2, -⟩ := r3 x (hok x hx) (hgen x hx)
  have hec : e.heap.cnt = x.cnt := hpc.symm.trans hxc
  refine ⟨x, hx, hec, q1 e (List.mem_append_left _ he) hec, fun hcomp hr => q2 hr e ?_⟩
  exact List.mem_filter.2 ⟨he, by rw [hcomp]; simp [hec]⟩

/-- C67, from calls of `async_send_heaps` to the heaps handed over: any history of a writer of datagrams, at any time and with any failures, and a receiver of any of the datagrams that it sent on a
substream, lost, repeated and reordered in any way and mixed with anything that is not a packet. Whatever the receiver hands over is of a heap that was submitted for
this substream: the bytes received are its bytes, and a complete heap has its items. -/
theorem C67_sent {kind : WKind} (hk : kind.datagrams = true) {size mask substreams mps : Nat} (hq : queueMask size = some mask) {connecting : Bool} {ops : List (WOp SendHeap)} {w : WSt SendHeap GenPacket} {tr : List (WEv GenPacket)}
    (h : WReach kind (packetEnv size mask substreams mps) connecting ops w tr) (hc : CleanRejects (queueEvs tr)) (hf : FaithfulCalls mps ops) (n : Nat)
    (hd : (((accepted (queueEvs tr)).map (Accepted.on n)).flatMap (fun a => a.hs.map Admitted.cnt)).Nodup)
    (cfg : StreamConfig) (hm : 0 < cfg.maxHeaps) (hsub : 0 < cfg.substreams) (maxSize : Nat) (gro : Bool) (arrivals : List (List Bytes × List RxMsg))
    (hdel : ∀ a ∈ arrivals, DeliversAll gro (rxBufferSize gro maxSize) a.1 a.2) (hlen : ∀ a ∈ arrivals, ∀ d ∈ a.1, d.length ≤ 65535)
    (hsent : ∀ a ∈ arrivals, ∀ d ∈ a.1, (∃ p, IsPacket d p) → d ∈ leftOn n tr) :
    ∃ s out groups, List.Forall₂ (SubmittedOn ops mps n) (accepted (queueEvs tr)) groups ∧ udpRun cfg maxSize gro (arrivals.map Prod.snd) (Stream.new cfg) = some (s, out) ∧
      (∀ e ∈ out, ∃ x ∈ groups.flatMap SentGroup.heaps, e.heap.cnt = x.cnt ∧ BytesOf x e.heap ∧ (e.heap.isComplete = true → x.Robust cfg → SameItems x e.heap)) ∧
      ∀ x ∈ groups.flatMap SentGroup.heaps, ∀ d ∈ x.wire, (x.copies out).length ≤ (arrivals.map Prod.fst).flatten.count d := by
  have hv := packetEnv_valid (substreams := substreams) (mps := mps) hq
  refine sent_udp (accepted_from hv.sq h hc) hf n hd ?_ cfg hm hsub maxSize gro arrivals hdel hlen hsent
  intro d hd
  obtain ⟨y, hy, rfl⟩ := List.mem_map.1 hd
  obtain ⟨hy, hyn⟩ := List.mem_filter.1 hy
  rw [(C64_datagrams hk hv h hc).1] at hy
  obtain ⟨z, hz, rfl⟩ := wanted_mem _ _ _ y hy
  obtain ⟨⟨⟨old, gl, m, sinv⟩, -⟩, -, -⟩ := wreach_state hv.sq h hc
  have hp := ((fetched_prefix sinv).map Prod.fst).subset (List.mem_map_of_mem hz)
  rw [flatMap_markLast] at hp
  exact ⟨z.1, hp, by simpa using hyn, rfl⟩

/-! ### The hypotheses are met -/

/-- What leaves a UDP writer on substream 1 in the example of C66. -/
def lossLeft : List Bytes := ((WSt.run .udp (packetEnv 4 3 2 64) inDemoOps (WSt.new false)).map (fun r => leftOn 1 r.2)).getD []

/-- The datagrams arrive in the opposite order, two of them twice, one does not arrive, and something that is not a packet arrives too. -/
def lossArrivals : List (List Bytes × List RxMsg) :=
  [lossLeft.reverse.take 7 ++ [[1, 2, 3]], (lossLeft.reverse.drop 6).take 2, lossLeft.reverse.drop 9, lossLeft.drop 11].map (fun l => (l, l.map (fun d => ⟨d.take 66, -1⟩)))

theorem delivers_single (buf : Nat) : ∀ l : List Bytes, DeliversAll false buf l (l.map (fun d => ⟨d.take buf, -1⟩))
  | [] => .nil
  | d :: l => DeliversAll.cons (ds := [d]) .one (delivers_single buf l)

/-- The hypotheses of the theorems are met, and complete heaps are received. -/
theorem loss_meets : ∃ w tr, WReach .udp (packetEnv 4 3 2 64) false inDemoOps w tr ∧ CleanRejects (queueEvs tr) ∧
    (((accepted (queueEvs tr)).map (Accepted.on 1)).flatMap (fun a => a.hs.map Admitted.cnt)).Nodup ∧
    (∀ a ∈ lossArrivals, DeliversAll false (rxBufferSize false 65) a.1 a.2) ∧ (∀ a ∈ lossArrivals, ∀ d ∈ a.1, d.length ≤ 65535) ∧
    (∀ a ∈ lossArrivals, ∀ d ∈ a.1, (∃ p, IsPacket d p) → d ∈ leftOn 1 tr) ∧
    (udpRun trafficCfg 65 false (lossArrivals.map Prod.snd) (Stream.new trafficCfg)).map (fun x => x.2.map (fun e => (e.heap.cnt, e.heap.isComplete))) = some [(77, true), (2, true), (3, false)] := by
  have key : (WSt.run .udp (packetEnv 4 3 2 64) inDemoOps (WSt.new false)).map (fun r : WSt SendHeap GenPacket × List (WEv GenPacket) =>
      decide (rejected (queueEvs r.2) = []) && (decide (((accepted (queueEvs r.2)).map (Accepted.on 1)).flatMap (fun a => a.hs.map Admitted.cnt)).Nodup && decide (lossLeft = leftOn 1 r.2))) = some true := by
    decide +kernel
  obtain ⟨⟨w, tr⟩, h1, h2⟩ := Option.map_eq_some_iff.mp key
  simp only [Bool.and_eq_true, decide_eq_true_eq] at h2
  obtain ⟨a, b, c⟩ := h2
  refine ⟨w, tr, h1, clean_of_rejected a, b, ?_, by decide +kernel, ?_, by decide +kernel⟩
  · intro a ha
    obtain ⟨l, -, rfl⟩ := List.mem_map.1 ha
    exact delivers_single _ l
  · rw [← c]
    have h : ∀ a ∈ lossArrivals, ∀ d ∈ a.1, d = [1, 2, 3] ∨ d ∈ lossLeft := by decide +kernel
    intro a ha d hd hp
    rcases h a ha d hd with rfl | h
    · refine absurd hp (not_isPacket_of_decode (fun hd => ?_))
      rw [show decodePacket [1, 2, 3] = some none by decide +kernel]
      simp
    · exact h

end Spead2
