import Verif.Lemmas.Transport
import Verif.Props.Tcp
import Verif.Props.Traffic

/-!
# C65: heaps that are sent over a TCP connection arrive
-/

namespace Spead2
open Spec

/-- C65. Any number of calls of `async_send_heaps`, with groups of heaps and in any interleaving with the writer, which runs until nothing is left to
send and no packet fails. What has left the writer arrives at a new receiver over a connection that cuts it into reads in any way, and may be
closed at the end. Then the receiver hands over what was accepted: group after group, each heap once, complete and with the items that
were sent, heaps of a serial group in order. Nothing else is handed over, nothing remains, and the receiver has
stopped exactly if the connection was closed. -/
theorem C65_end_to_end {size mask substreams mps : Nat} (hq : queueMask size = some mask) {connecting : Bool} {ops : List (WOp SendHeap)} {w : WSt SendHeap GenPacket} {tr : List (WEv GenPacket)}
    (h : WReach .tcp (packetEnv size mask substreams mps) connecting ops w tr) (hc : CleanRejects (queueEvs tr)) (hi : w.idle) (ha : AllSent (queueEvs tr)) (hf : FaithfulCalls mps ops)
    (cfg : StreamConfig) (hm : 0 < cfg.maxHeaps) (hsub : 0 < cfg.substreams) (hr : Receivable cfg ops (accepted (queueEvs tr))) {max : Nat} (hmax : 0 < max) (hle : mps ≤ max)
    {fill : UInt8} {r : TcpReader} (hacc : TcpReader.accepted max fill = some r) {reads : List Bytes} (hb : reads.flatten = leftBytes tr) (closed : Bool) {r' : TcpReader} {s' : Stream} {out : List Entry}
    (hrun : TcpReader.run cfg max (reads.map .data ++ eofEvent closed) r (Stream.new cfg) = some (r', s', out)) :
    ∃ groups outs, List.Forall₂ (Submitted ops mps) (accepted (queueEvs tr)) groups ∧ out = outs.flatten ∧ List.Forall₂ Arrives groups outs ∧ liveHeaps s' = [] ∧ s'.stopped = closed := by
  have hv := packetEnv_valid (substreams := substreams) (mps := mps) hq
  obtain ⟨gs, h1, h2⟩ := submitted_groups (env := (packetEnv size mask substreams mps).sq) rfl hf _ (accepted_from hv.sq h hc)
  have hd := submitted_deliverable h1 hr
  have hok : ∀ x ∈ gs.flatMap SentGroup.heaps, x.Ok := fun x hx => (h2 x hx).1
  have hparam : ∀ x ∈ gs.flatMap SentGroup.heaps, x.mps = mps ∧ x.width = x.heap.hab / 8 := by
    intro x hx
    obtain ⟨g, hg, hx⟩ := List.mem_flatMap.1 hx
    obtain ⟨a, -, refs, -, -, -, -, -, -, -, h4⟩ := forall₂_right h1 g hg
    exact h4 x hx
  have hit : ∀ x ∈ gs.flatMap SentGroup.heaps, NoEmpty x.width x.heap.items ∨ (heapPtrs x.mps x.heap).Nodup := by
    intro x hx
    obtain ⟨e1, e2⟩ := hparam x hx
    rw [e1, e2]
    exact (h2 x hx).2.items
  have hbytes : reads.flatten = (gs.flatMap SentGroup.wire).flatten := by
    rw [hb, (C64_all hv h hc hi ha).2 rfl, ← submitted_all h1, List.flatMap_def]
    rfl
  have hparse : tcpParse max reads.flatten = (groupPkts gs, [], 0) := by
    rw [hbytes]
    refine tcpParse_packets recvOr _ (fun d hd => ?_)
    obtain ⟨x, hx, hd⟩ := wires_mem hd
    obtain ⟨f1, f2, f3⟩ := (hok x hx).framed hd
    exact ⟨f1, f2, Nat.le_trans f3 ((hparam x hx).1 ▸ hle)⟩
  obtain ⟨ps, s'', k1, -, k2, k3, k4, -⟩ := C27_segmentation cfg hm hsub max hmax (ops := []) (by simp) rfl hacc reads closed hrun
  have hps : ps = groupPkts gs := by
    have := tcpParse_spec hmax _ reads.flatten (Nat.le_refl _)
    rw [hparse] at this
    exact tcpPackets_unique k1 this
  subst hps
  obtain ⟨s1, outs, g1, g2, g3, g4⟩ := delivery_stream hm hsub hok hd hit (ops := [.batch ((groupPkts gs).map .packet)])
    ⟨by intro op hop; rw [List.mem_singleton] at hop; subst hop; intro b hb; obtain ⟨p, -, rfl⟩ := List.mem_map.1 hb; simp,
      by simp [presented, batchPackets, List.filterMap_map, Function.comp_def]⟩
  have g1' : (Stream.new cfg).batch cfg ((groupPkts gs).map .packet) = some (s1, outs.flatten) := by
    rw [Stream.run, Stream.step] at g1
    cases hbt : (Stream.new cfg).batch cfg ((groupPkts gs).map .packet) with
    | none => rw [hbt] at g1; cases g1
    | some y =>
      rw [hbt] at g1
      simp only [Stream.run, Option.bind_eq_bind, Option.bind_some, List.append_nil, Option.some.injEq, Prod.mk.injEq] at g1
      rw [← g1.1, ← g1.2]
  refine ⟨gs, outs, h1, ?_⟩
  cases closed with
  | false =>
    simp only [Bool.false_eq_true, if_false, List.append_nil] at k2
    rw [g1'] at k2
    obtain ⟨rfl, rfl⟩ := Prod.mk.inj (Option.some.inj k2)
    exact ⟨rfl, g4, List.Perm.eq_nil (g3 ▸ k3), by rw [k4, g2]⟩
  | true =>
    simp only [if_true] at k2
    obtain ⟨e1, e2, e3⟩ := quiet_batch g1' g2 g3 k2
    exact ⟨e1, g4, List.Perm.eq_nil (e3 ▸ k3), by rw [k4, e2]⟩

/-! ### The hypotheses are met -/

theorem plainHeap_faithful : Faithful 64 plainHeap where
  fits := fun _ h => ⟨plainHeap_fits.width, plainHeap_fits.ids, plainHeap_fits.inline, h, plainHeap_fits.length, plainHeap_fits.count⟩
  ids := by decide
  payload := by decide
  items := Or.inl plainHeap_noEmpty

/-- A group of two heaps that is sent round robin, and one of one heap whose cnt the caller chooses. -/
def tcpDemoOps : List (WOp SendHeap) :=
  [.caller (.enter [⟨plainHeap, 48, none, 0⟩, ⟨plainHeap, 48, none, 0⟩] .roundRobin), .caller .commit, .tick false {}, .tick false {}, .tick false {},
    .caller (.enter [⟨plainHeap, 48, some 77, 0⟩] .serial), .caller .commit] ++ List.replicate 60 (.tick false {})

theorem tcpDemo_refs {refs : List (SendRef SendHeap)} {mode : GroupMode} (hm : WOp.caller (.enter refs mode) ∈ tcpDemoOps) {r : SendRef SendHeap} (hr : r ∈ refs) : r.bits = 48 ∧ r.heap = plainHeap := by
  have : refs ∈ [[⟨plainHeap, 48, none, 0⟩, ⟨plainHeap, 48, none, 0⟩], [(⟨plainHeap, 48, some 77, 0⟩ : SendRef SendHeap)]] := by
    simp only [tcpDemoOps, List.cons_append, List.mem_cons, List.nil_append, List.mem_replicate, WOp.caller.injEq, SqOp.enter.injEq, reduceCtorEq, and_false, false_or, or_false] at hm
    rcases hm with ⟨rfl, -⟩ | ⟨rfl, -⟩ <;> simp
  simp only [List.mem_cons, List.not_mem_nil, or_false] at this
  rcases this with rfl | rfl
  · simp only [List.mem_cons, List.not_mem_nil, or_false, or_self] at hr; subst hr; exact ⟨rfl, rfl⟩
  · simp only [List.mem_cons, List.not_mem_nil, or_false] at hr; subst hr; exact ⟨rfl, rfl⟩

theorem tcpDemo_faithful : FaithfulCalls 64 tcpDemoOps := by
  intro refs mode hm r hr
  obtain ⟨e1, e2⟩ := tcpDemo_refs hm hr
  rw [e1, e2]
  exact ⟨rfl, plainHeap_faithful⟩

theorem tcpDemo_receivable {as : List (Accepted GenPacket)} (h : as.map (fun a => (a.mode, a.hs.map Admitted.cnt)) = [(.roundRobin, [1, 2]), (.serial, [77])]) : Receivable trafficCfg tcpDemoOps as := by
  have hl : as.length = 2 := by simpa using congrArg List.length h
  match as, hl, h with
  | [a, b], _, h =>
    simp only [List.map_cons, List.map_nil, List.cons.injEq, Prod.mk.injEq, and_true] at h
    obtain ⟨⟨a1, a2⟩, b1, b2⟩ := h
    refine ⟨by simp [a2, b2], fun x hx hm => ?_, fun _ refs mode hm r hr => by rw [(tcpDemo_refs hm hr).2]; decide⟩
    have hl : x.hs.length = (x.hs.map Admitted.cnt).length := by rw [List.length_map]
    simp only [List.mem_cons, List.not_mem_nil, or_false] at hx
    rcases hx with rfl | rfl
    · rw [hl, a2]; decide
    · rw [b1] at hm; cases hm

/-- The bytes as they leave the writer. -/
def tcpDemoBytes : Bytes := ((WSt.run .tcp (packetEnv 4 3 1 64) tcpDemoOps (WSt.new true)).map (fun r => leftBytes r.2)).getD []

/-- The bytes arrive in pieces of 13. -/
def tcpDemoReads : List Bytes := (List.range 55).map (fun i => (tcpDemoBytes.drop (13 * i)).take 13)

/-- All three heaps arrive. -/
theorem tcpDemo_meets : ∃ w tr r r' s' out, WReach .tcp (packetEnv 4 3 1 64) true tcpDemoOps w tr ∧ CleanRejects (queueEvs tr) ∧ w.idle ∧ AllSent (queueEvs tr) ∧ Receivable trafficCfg tcpDemoOps (accepted (queueEvs tr)) ∧
    TcpReader.accepted 100 0 = some r ∧ tcpDemoReads.flatten = leftBytes tr ∧ TcpReader.run trafficCfg 100 (tcpDemoReads.map .data ++ eofEvent true) r (Stream.new trafficCfg) = some (r', s', out) ∧
    out.map (fun e => e.heap.cnt) = [1, 2, 77] := by
  have key : (WSt.run .tcp (packetEnv 4 3 1 64) tcpDemoOps (WSt.new true)).map (fun r : WSt SendHeap GenPacket × List (WEv GenPacket) =>
      decide (rejected (queueEvs r.2) = []) && (decide (r.1.pc = .rest) && (decide (r.1.sq.wk = .need) && (decide (∀ x ∈ outcomes (queueEvs r.2), x = none) &&
        (decide ((accepted (queueEvs r.2)).map (fun a => (a.mode, a.hs.map Admitted.cnt)) = [(.roundRobin, [1, 2]), (.serial, [77])]) && decide (tcpDemoReads.flatten = leftBytes r.2)))))) = some true := by
    decide +kernel
  obtain ⟨⟨w, tr⟩, h1, h2⟩ := Option.map_eq_some_iff.mp key
  simp only [Bool.and_eq_true, decide_eq_true_eq] at h2
  obtain ⟨a, b, c, d, e, f⟩ := h2
  have key2 : ((TcpReader.accepted 100 0).bind (fun r => TcpReader.run trafficCfg 100 (tcpDemoReads.map .data ++ eofEvent true) r (Stream.new trafficCfg))).map (fun x => x.2.2.map (fun e => e.heap.cnt)) = some [1, 2, 77] := by
    decide +kernel
  obtain ⟨⟨r', s', out⟩, h3, h4⟩ := Option.map_eq_some_iff.mp key2
  obtain ⟨r, h5, h6⟩ := Option.bind_eq_some_iff.mp h3
  exact ⟨w, tr, r, r', s', out, h1, clean_of_rejected a, ⟨b, c⟩, d, tcpDemo_receivable e, h5, f, h6, h4⟩

end Spead2
