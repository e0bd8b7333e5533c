import Verif.Props.Flow
import Verif.Props.SendIbv

/-!
# C86: heaps sent with ibverbs and received with ibverbs
-/

namespace Spead2.Flow
open Spec

/-- What the sender puts on the wire is for the endpoint. -/
theorem sender_dest {c : IbvCfg} (hv : IbvValid c) {i : IEndpoint} (hi : i ∈ c.endpoints) (hp : i.port < 65536) {payload f : Bytes}
    (h : IsFrameTo c i payload f) (hl : payload.length ≤ c.maxPacket) : FrameFor ⟨groupMac i.addr, i.addr, i.port⟩ payload f := by
  have hu := C60_accepted hv hi h hl
  have ha := hv.dst i hi
  obtain ⟨sum, h1, h2, -⟩ := h
  have hm := hv.mac
  have hs := hv.src
  have hg : (groupMac i.addr).length = 6 := by rw [groupMac_eq ha]; simp [multicastMac, ha]
  obtain ⟨l1, hl1⟩ : ∃ l, l = groupMac i.addr := ⟨_, rfl⟩
  refine ⟨hu, ?_, ?_, hp, 0x45, ?_, ?_⟩
  · rw [h2]
    simp only [List.append_assoc]
    rw [List.take_append_of_le_length (by omega), List.take_of_length_le (by omega)]
  · have e : f = (groupMac i.addr ++ c.srcMac ++ [0x08, 0x00] ++ (ipHeader payload.length c.ttl sum c.srcAddr i.addr).take 16) ++
        (i.addr ++ (udpHeader payload.length c.srcPort i.port ++ payload)) := by
      rw [h2]
      unfold ipHeader
      have e1 : ∀ k, (beBytes 2 k).take 14 = beBytes 2 k := fun k => List.take_of_length_le (by simp)
      have e2 : sum.take 6 = sum := List.take_of_length_le (by omega)
      simp [h1, hs, List.append_assoc, List.take_append, e1, e2]
    rw [e, List.drop_append, List.drop_of_length_le (by simp [ipHeader, hg, hm, h1, hs, ha])]
    have : 30 - (groupMac i.addr ++ c.srcMac ++ [0x08, 0x00] ++ (ipHeader payload.length c.ttl sum c.srcAddr i.addr).take 16).length = 0 := by
      simp [ipHeader, hg, hm, h1, hs, ha]
    rw [this, List.drop_zero, List.nil_append, List.take_append_of_le_length (by omega), List.take_of_length_le (by omega)]
  · rw [h2]
    simp only [List.append_assoc]
    rw [List.getElem?_append_right (by omega), List.getElem?_append_right (by omega), List.getElem?_append_right (by simp [hg, hm])]
    simp [hg, hm, ipHeader]
  · have e : f = (groupMac i.addr ++ c.srcMac ++ [0x08, 0x00] ++ ipHeader payload.length c.ttl sum c.srcAddr i.addr ++ beBytes 2 c.srcPort) ++
        (beBytes 2 i.port ++ ((udpHeader payload.length c.srcPort i.port).drop 4 ++ payload)) := by
      rw [h2]
      unfold udpHeader
      simp [List.append_assoc, List.drop_append]
    have hlen : (groupMac i.addr ++ c.srcMac ++ [0x08, 0x00] ++ ipHeader payload.length c.ttl sum c.srcAddr i.addr ++ beBytes 2 c.srcPort).length = 36 := by
      simp [ipHeader, hg, hm, h1, hs, ha]
    rw [e, List.drop_append, List.drop_of_length_le (by rw [hlen]; decide), hlen]
    show List.take 2 (([] : Bytes) ++ List.drop 0 _) = _
    rw [List.drop_zero, List.nil_append, List.take_append_of_le_length (by simp), List.take_of_length_le (by simp)]

/-- Asking for the destination of a frame of the sender is subscribing to its endpoint. -/
theorem wants_sender {ifs : List IfAddr} {es : List Endpoint} {i : IEndpoint} (hg : IsGroup i.addr) :
    (∃ e ∈ es, Wants ifs e ⟨groupMac i.addr, i.addr, i.port⟩) ↔ Subscribes es i := by
  unfold Subscribes Wants
  constructor
  · rintro ⟨e, he, h1, h2 | h2 | ⟨a, h2, h3, h4⟩⟩
    · exact ⟨e, he, h1.symm, Or.inl h2⟩
    · exact ⟨e, he, h1.symm, Or.inr (Or.inl h2)⟩
    · exact ⟨e, he, h1.symm, Or.inr (Or.inr (by rw [h2]; exact congrArg _ h3.symm))⟩
  · rintro ⟨e, he, h1, h2 | h2 | h2⟩
    · exact ⟨e, he, h1.symm, Or.inl h2⟩
    · exact ⟨e, he, h1.symm, Or.inr (Or.inl h2)⟩
    · exact ⟨e, he, h1.symm, Or.inr (Or.inr ⟨i.addr, h2, rfl, by rw [if_pos hg]⟩)⟩

/-- **C86 (sender and receiver).** A frame that the ibverbs sender of C60 makes for a multicast endpoint arrives in the queue of a reader exactly
if the reader has subscribed to that endpoint, or to its port without an address. -/
theorem C86_sender {c : IbvCfg} (hv : IbvValid c) {i : IEndpoint} (hi : i ∈ c.endpoints) (hp : i.port < 65536) (hg : IsGroup i.addr)
    {payload f : Bytes} (h : IsFrameTo c i payload f) (hl : payload.length ≤ c.maxPacket)
    {ifs : List IfAddr} {es : List Endpoint} (ok : ∀ e ∈ es, e.Ok) {rules : List Rule} (hr : createFlows ifs es = some rules) (fs : List Bytes) (hm : f ∈ fs) :
    f ∈ steered rules fs ↔ Subscribes es i := by
  rw [C86_exact ok hr (sender_dest hv hi hp h hl) fs hm, wants_sender hg]

theorem reapSlots_taken {c : IbvCfg} {ok : Bool} : ∀ {n : Nat} {w w' : IbvW} {evs : List IEv} {g : Nat}, IbvW.reapSlots c ok n w = some (w', evs, g) → takenPkts evs = []
  | 0, w, w', evs, g, h => by
    cases h
    rfl
  | n + 1, w, w', evs, g, h => by
    rw [IbvW.reapSlots] at h
    split at h
    · cases h
    · split at h
      · cases h
      · split at h
        · cases h
        · rename_i h1
          cases h
          have := reapSlots_taken h1
          rw [← this]
          unfold takenPkts
          rw [List.filterMap_cons]
          split <;> first | rfl | (cases ok <;> simp at *)

theorem reapLoop_taken {c : IbvCfg} {m : Nat} {polls : List Bool} {r : Nat} {w : IbvW} :
    ∀ {w' : IbvW} {evs : List IEv} {g k : Nat}, IbvW.reapLoop c m polls r w = some (w', evs, g, k) → takenPkts evs = [] := by
  fun_induction IbvW.reapLoop c m polls r w with
  | case7 _ _ _ _ _ _ _ _ _ _ _ h1 _ _ _ _ h2 ih =>
    intro w' evs g k h
    cases h
    rw [takenPkts_append, reapSlots_taken h1, ih h2]
    rfl
  | _ => intro _ _ _ _ h; simp_all [takenPkts]

/-- Packets that were taken are packets that `get_packet` gave. -/
theorem taken_mem {c : IbvCfg} {um : Nat → UInt8} {w w' : IbvW} {ops : List IOp} {evs : List IEv} (h : IbvRun c um w ops w' evs) :
    ∀ p ∈ takenPkts evs, IOp.packet p ∈ ops := by
  induction h with
  | nil => intro p hp; cases hp
  | @snoc _ _ _ op _ evs' _ _ he ih =>
    intro p hp
    rw [takenPkts_append] at hp
    rcases List.mem_append.mp hp with hp | hp
    · exact List.mem_append_left _ (ih p hp)
    · refine List.mem_append_right _ (List.mem_singleton.mpr ?_)
      cases op with
      | packet q =>
        simp only [IbvW.exec] at he
        split at he
        · unfold IbvW.packet at he
          split at he
          · cases he
          · split at he
            · cases he
            · split at he
              · cases he
              · cases he
                simp only [takenPkts, List.filterMap_cons, List.filterMap_nil, List.mem_singleton] at hp
                rw [hp]
        · cases he
      | wake polls =>
        simp only [IbvW.exec, IbvW.wake, IbvW.reap] at he
        obtain ⟨r, h1, h2⟩ := Option.map_eq_some_iff.mp he
        obtain ⟨r', h3, rfl⟩ := Option.map_eq_some_iff.mp h1
        cases h2
        rw [takenPkts_append, reapLoop_taken h3] at hp
        split at hp <;> simp [takenPkts] at hp
      | heap => cases he; cases hp
      | timer => cases he; cases hp
      | arm => cases he; cases hp
      | finish r =>
        simp only [IbvW.exec] at he
        split at he
        · obtain ⟨_, _, h2⟩ := Option.map_eq_some_iff.mp he
          cases h2
          cases hp
        · cases he
      | send =>
        simp only [IbvW.exec] at he
        split at he
        · cases he
        · obtain ⟨_, _, h2⟩ := Option.map_eq_some_iff.mp he
          cases h2
          cases hp
      | err =>
        simp only [IbvW.exec] at he
        split at he
        · cases he
        · cases he
          cases hp

theorem taken_ok {c : IbvCfg} {um : Nat → UInt8} {ops : List IOp} {w : IbvW} {evs : List IEv} (h : IbvExec c um ops w evs) : ∀ p ∈ takenPkts evs, IPktOk c p := by
  intro p hp
  obtain ⟨_, _, hr⟩ := h.run
  exact h.pkts p (taken_mem hr p hp)

/-- All packets are on the wire. -/
theorem wire_all {c : IbvCfg} {um : Nat → UInt8} {ops : List IOp} {w : IbvW} {evs : List IEv} (h : IbvExec c um ops w evs) (hne : .err ∉ ops)
    (hd : w.sched = .requested) : List.Forall₂ (IsFrameOf c um) (takenPkts evs) (wireFrames evs) := by
  obtain ⟨h1, h2⟩ := C61_wire_partial h hne
  obtain ⟨-, h3, -, h4⟩ := C61_reports_partial h hne
  have hl : (takenPkts evs).length = (wireFrames evs).length := by have := h4 hd; omega
  rw [List.forall₂_iff_get]
  refine ⟨hl, fun k k1 k2 => ?_⟩
  obtain ⟨p, e1, e2⟩ := h2 k _ (List.getElem?_eq_getElem k2)
  rw [List.getElem?_eq_getElem k1] at e1
  obtain rfl := Option.some.inj e1
  exact e2

/-- What the reader of an endpoint finds in its queue are the packets of the substream. -/
theorem steered_inOrder {c : IbvCfg} (hv : IbvValid c) {um : Nat → UInt8} (hp : ∀ i ∈ c.endpoints, i.port < 65536) (hg : ∀ i ∈ c.endpoints, IsGroup i.addr)
    {ifs : List IfAddr} {es : List Endpoint} (ok : ∀ e ∈ es, e.Ok) {rules : List Rule} (hr : createFlows ifs es = some rules) {n : Nat}
    (hs : ∀ (m : Nat) i, c.endpoints[m]? = some i → (Subscribes es i ↔ m = n)) {wire got : List Bytes} (hre : Reaches ifs es wire got) :
    ∀ {pk : List IPkt} {ds : List Bytes}, List.Forall₂ (IsFrameOf c um) pk wire → (∀ p ∈ pk, IPktOk c p) → Payloads 14 (steered rules got) ds →
      InOrder ((pk.filter (fun p => p.sub = n)).map (ipktBytes um)) ds := by
  have step : ∀ (f : Bytes) (fs : List Bytes), steered rules (f :: fs) = if f ∈ steered rules [f] then f :: steered rules fs else steered rules fs := by
    intro f fs
    unfold steered
    rw [List.filter_cons]
    by_cases h : (rules.any fun r => r.takes f) = true
    · rw [if_pos h, if_pos (by simp [h])]
    · rw [if_neg h, if_neg (by simpa using h)]
  induction hre with
  | nil =>
    intro pk ds h _ hd
    cases h
    cases hd
    exact .nil
  | @sent f sent got _ ih =>
    intro pk ds h hpk hd
    cases h with
    | @cons p _ pk _ h1 h2 =>
      obtain ⟨i, e1, e2⟩ := h1
      have hok := hpk p (by simp)
      have hpl : (ipktBytes um p).length ≤ c.maxPacket := by
        have : (ipktBytes um p).length = p.size := by
          unfold ipktBytes IPkt.size
          rw [List.length_append, List.length_flatten, List.map_map]
          congr 2
          refine List.map_congr_left fun b _ => ?_
          simp [memBytes]
        rw [this]
        exact hok.1
      have hi := List.mem_of_getElem? e1
      have hst := C86_sender hv hi (hp i hi) (hg i hi) e2 hpl ok hr [f] (by simp)
      rw [hs _ i e1] at hst
      rw [step] at hd
      have ih := fun {ds} => ih (ds := ds) h2 (fun q hq => hpk q (by simp [hq]))
      by_cases hn : p.sub = n
      · rw [if_pos (hst.mpr hn)] at hd
        rw [List.filter_cons, if_pos (by simpa using hn), List.map_cons]
        have hu := C60_accepted hv hi e2 hpl
        cases hd with
        | take u1 u2 =>
          have : Payloads 14 [f] [ipktBytes um p] := .take hu .nil
          obtain h3 := payloads_unique (by decide) this (.take u1 .nil)
          obtain rfl := (List.cons.inj h3).1
          exact .sent (ih u2)
        | skip u1 _ => exact absurd ⟨_, hu⟩ u1
      · rw [if_neg (fun h => hn (hst.mp h))] at hd
        rw [List.filter_cons, if_neg (by simpa using hn)]
        exact ih hd
  | @other f sent got ho _ ih =>
    intro pk ds h hpk hd
    rw [step] at hd
    split at hd
    · rename_i hin
      cases hd with
      | take u1 u2 =>
        obtain ⟨d, hfd⟩ := frame_dest u1
        exact .other (ho d _ hfd ((C86_exact ok hr hfd [f] (by simp)).mp hin)) (ih h hpk u2)
      | skip u1 u2 => exact ih h hpk u2
    · exact ih h hpk hd

theorem ibvRun_stream (cfg : StreamConfig) (maxSize slots : Nat) : ∀ (handlers : List (List (List IbvWc))) (ds : List Bytes),
    Payloads 14 (ibvFrames handlers.flatten.flatten) ds →
    ∃ ls : List (List Pkt), PacketsOf (· ≤ maxSize) ds ls.flatten ∧
      ∀ s, ibvRun cfg maxSize slots handlers s = Stream.run cfg (ls.map (fun l => .batch (l.map .packet))) s
  | [], ds, h => by
    cases h
    exact ⟨[], .nil, fun s => rfl⟩
  | polls :: rest, ds, h => by
    have e : ibvFrames (polls :: rest).flatten.flatten = ibvFrames polls.flatten ++ ibvFrames rest.flatten.flatten := by
      unfold ibvFrames
      rw [List.flatten_cons, List.flatten_append, List.filterMap_append]
    rw [e] at h
    obtain ⟨d1, d2, rfl, h1, h2⟩ := payloads_append h
    obtain ⟨ls, h3, h4⟩ := ibvRun_stream cfg maxSize slots rest d2 h2
    obtain ⟨l, h5⟩ := dgAccepted_exists (· ≤ maxSize) d1
    refine ⟨l :: ls, dgAccepted_join h5 h3, fun s => ?_⟩
    rw [ibvRun, C54_ibv cfg maxSize slots s polls d1 l h1 h5]
    simp only [List.map_cons, Stream.run, Stream.step, Option.bind_eq_bind]
    cases s.batch cfg (l.map .packet) with
    | none => rfl
    | some r =>
      simp only [Option.bind_some, h4]
      cases Stream.run cfg (ls.map (fun l => .batch (l.map .packet))) r.1 with
      | none => rfl
      | some r' => rfl

theorem mprqFrames_append : ∀ a b : List MprqWc, mprqFrames (a ++ b) = mprqFrames a ++ mprqFrames b
  | [], b => rfl
  | x :: a, b => by
    have ih := mprqFrames_append a b
    rw [List.cons_append]
    cases x with
    | failed => exact ih
    | ok d l =>
      cases d with
      | none => exact ih
      | some d => exact congrArg (d :: ·) ih

theorem mprqRun_stream (cfg : StreamConfig) (maxSize wqeSize bufSize : Nat) : ∀ (handlers : List (Nat × List (List MprqWc))) (ds : List Bytes),
    (∀ h ∈ handlers, ∀ wcs ∈ h.2, wcs.length ≤ 256) → Payloads 14 (mprqFrames (handlers.map Prod.snd).flatten.flatten) ds →
    ∃ ls : List (List Pkt), PacketsOf (· ≤ maxSize) ds ls.flatten ∧
      ∀ s, mprqRun cfg maxSize wqeSize bufSize handlers s = Stream.run cfg (ls.map (fun l => .batch (l.map .packet))) s
  | [], ds, _, h => by
    cases h
    exact ⟨[], .nil, fun s => rfl⟩
  | (start, polls) :: rest, ds, h256, h => by
    rw [List.map_cons, List.flatten_cons, List.flatten_append, mprqFrames_append] at h
    obtain ⟨d1, d2, rfl, h1, h2⟩ := payloads_append h
    obtain ⟨ls, h3, h4⟩ := mprqRun_stream cfg maxSize wqeSize bufSize rest d2 (fun x hx => h256 x (by simp [hx])) h2
    obtain ⟨l, h5⟩ := dgAccepted_exists (· ≤ maxSize) d1
    refine ⟨l :: ls, dgAccepted_join h5 h3, fun s => ?_⟩
    rw [mprqRun, C54_mprq cfg maxSize wqeSize bufSize start s polls d1 l (h256 (start, polls) (by simp)) h1 h5]
    simp only [List.map_cons, Stream.run, Stream.step, Option.bind_eq_bind]
    cases s.batch cfg (l.map .packet) with
    | none => rfl
    | some r =>
      simp only [Option.bind_some, h4]
      cases Stream.run cfg (ls.map (fun l => .batch (l.map .packet))) r.1 with
      | none => rfl
      | some r' => rfl

/-- What a stream that is given the packets of datagrams that arrive in order hands over. -/
theorem arrives_batches {cfg : StreamConfig} (hm : 0 < cfg.maxHeaps) (hsub : 0 < cfg.substreams) {gs : List SentGroup} {maxSize : Nat}
    (hok : ∀ x ∈ gs.flatMap SentGroup.heaps, x.Ok ∧ x.mps ≤ maxSize ∧ (NoEmpty x.width x.heap.items ∨ (heapPtrs x.mps x.heap).Nodup))
    (hdel : Deliverable cfg gs) {ds : List Bytes} (hord : InOrder (gs.flatMap SentGroup.wire) ds) {ls : List (List Pkt)} (hls : PacketsOf (· ≤ maxSize) ds ls.flatten) :
    ∃ s outs, Stream.run cfg (ls.map (fun l => .batch (l.map .packet))) (Stream.new cfg) = some (s, outs.flatten) ∧
      List.Forall₂ Arrives gs outs ∧ liveHeaps s = [] ∧ s.stopped = false := by
  have hpk := dgAccepted_unique hls (inOrder_packets hord (fun d hd => by
    obtain ⟨x, hx, hd⟩ := wires_mem hd
    have hfr := (hok x hx).1.framed hd
    exact ⟨Nat.le_trans hfr.2.2 (hok x hx).2.1, hfr.2.1⟩))
  obtain ⟨s1, outs, g1, g2, g3, g4⟩ := delivery_stream hm hsub (fun x hx => (hok x hx).1) hdel (fun x hx => (hok x hx).2.2)
    (ops := ls.map (fun l => .batch (l.map .packet))) (by
    refine ⟨fun op hop => ?_, by rw [presented_batches, hpk]; rfl⟩
    obtain ⟨l, -, rfl⟩ := List.mem_map.1 hop
    intro b hb e
    obtain ⟨q, -, rfl⟩ := List.mem_map.1 hb
    cases e)
  exact ⟨s1, outs, g1, g4, g3, g2⟩

/-- **C86 (end to end).** An ibverbs sender (C61) has nothing more to do and no request failed; its packets for substream `n` are those of groups of
heaps that can be sent faithfully.  A reader subscribes to the endpoint of that substream and to no other of the sender.  What the sender sent
reaches the reader's card, in between with any frames that are for others or do not hold packets, and the completions that the handlers of the
reader find, in any portions and with failed ones in between, are for the frames that the card's rules take.  Then the reader has handed over the
heaps of the substream, group after group, each once, complete and with the items that were sent. -/
theorem C86_end_to_end {c : IbvCfg} {um : Nat → UInt8} {ops : List IOp} {w : IbvW} {evs : List IEv} (ex : IbvExec c um ops w evs) (hne : .err ∉ ops)
    (hd : w.sched = .requested) (hp : ∀ i ∈ c.endpoints, i.port < 65536) (hg : ∀ i ∈ c.endpoints, IsGroup i.addr) {n : Nat} {gs : List SentGroup}
    (hw : ((takenPkts evs).filter (fun p => p.sub = n)).map (ipktBytes um) = gs.flatMap SentGroup.wire)
    {ifs : List IfAddr} {es : List Endpoint} (ok : ∀ e ∈ es, e.Ok) {rules : List Rule} (hr : createFlows ifs es = some rules)
    (hs : ∀ (m : Nat) i, c.endpoints[m]? = some i → (Subscribes es i ↔ m = n)) {got : List Bytes} (hre : Reaches ifs es (wireFrames evs) got)
    (cfg : StreamConfig) (hm : 0 < cfg.maxHeaps) (hsub : 0 < cfg.substreams) (maxSize slots : Nat)
    (hok : ∀ x ∈ gs.flatMap SentGroup.heaps, x.Ok ∧ x.mps ≤ maxSize ∧ (NoEmpty x.width x.heap.items ∨ (heapPtrs x.mps x.heap).Nodup))
    (hdel : Deliverable cfg gs) (handlers : List (List (List IbvWc))) (hc : ibvFrames handlers.flatten.flatten = steered rules got) :
    ∃ s outs, ibvRun cfg maxSize slots handlers (Stream.new cfg) = some (s, outs.flatten) ∧ List.Forall₂ Arrives gs outs ∧
      liveHeaps s = [] ∧ s.stopped = false := by
  obtain ⟨ds, hds⟩ := payloads_exists 14 (steered rules got)
  have hord := steered_inOrder ex.valid hp hg ok hr hs hre (wire_all ex hne hd) (taken_ok ex) hds
  rw [hw] at hord
  obtain ⟨ls, h1, h2⟩ := ibvRun_stream cfg maxSize slots handlers ds (by rw [hc]; exact hds)
  rw [h2]
  exact arrives_batches hm hsub hok hdel hord h1

/-- **C86 (end to end, multi-packet receive queue).** The same for a reader with the queue of C85: the card has accepted the frames its rules take, and
the handlers have read all completions. -/
theorem C86_end_to_end_mprq {c : IbvCfg} {um : Nat → UInt8} {ops : List IOp} {w : IbvW} {evs : List IEv} (ex : IbvExec c um ops w evs) (hne : .err ∉ ops)
    (hd : w.sched = .requested) (hp : ∀ i ∈ c.endpoints, i.port < 65536) (hg : ∀ i ∈ c.endpoints, IsGroup i.addr) {n : Nat} {gs : List SentGroup}
    (hw : ((takenPkts evs).filter (fun p => p.sub = n)).map (ipktBytes um) = gs.flatMap SentGroup.wire)
    {ifs : List IfAddr} {es : List Endpoint} (ok : ∀ e ∈ es, e.Ok) {rules : List Rule} (hr : createFlows ifs es = some rules)
    (hs : ∀ (m : Nat) i, c.endpoints[m]? = some i → (Subscribes es i ↔ m = n)) {got : List Bytes} (hre : Reaches ifs es (wireFrames evs) got)
    (cfg : StreamConfig) (hm : 0 < cfg.maxHeaps) (hsub : 0 < cfg.substreams) (maxSize : Nat)
    (hok : ∀ x ∈ gs.flatMap SentGroup.heaps, x.Ok ∧ x.mps ≤ maxSize ∧ (NoEmpty x.width x.heap.items ∨ (heapPtrs x.mps x.heap).Nodup))
    (hdel : Deliverable cfg gs)
    {sh : Mprq.Shape} (shok : sh.Ok) (mem : Nat → UInt8) (qops : List Mprq.Op) (calm : Mprq.Calm sh (Mprq.St.init sh mem) qops) {q : Mprq.St}
    (hq : (Mprq.St.init sh mem).run sh qops = some q) (hcq : q.cq = []) (hacc : q.accepted = steered rules got)
    (handlers : List (Nat × List (List MprqWc))) (h256 : ∀ h ∈ handlers, ∀ wcs ∈ h.2, wcs.length ≤ 256)
    (hc : mprqFrames (handlers.map Prod.snd).flatten.flatten = q.out) :
    ∃ s outs, mprqRun cfg maxSize sh.wqeSize sh.bufSize handlers (Stream.new cfg) = some (s, outs.flatten) ∧ List.Forall₂ Arrives gs outs ∧
      liveHeaps s = [] ∧ s.stopped = false := by
  obtain ⟨ds, hds⟩ := payloads_exists 14 (steered rules got)
  have hord := steered_inOrder ex.valid hp hg ok hr hs hre (wire_all ex hne hd) (taken_ok ex) hds
  rw [hw] at hord
  rw [Mprq.C85_all sh shok mem qops calm q hq hcq, hacc] at hc
  obtain ⟨ls, h1, h2⟩ := mprqRun_stream cfg maxSize sh.wqeSize sh.bufSize handlers ds h256 (by rw [hc]; exact hds)
  rw [h2]
  exact arrives_batches hm hsub hok hdel hord h1

/-! ### The hypotheses are met -/

/-- A sender with two endpoints. -/
def netCfg : IbvCfg :=
  { maxPacket := 64, bufferSize := 848, endpoints := [⟨[239, 129, 1, 1], 7148⟩, ⟨[239, 129, 1, 2], 7148⟩], regions := [], srcMac := [2, 0, 0, 0, 0, 9],
    srcAddr := [10, 0, 0, 1], srcPort := 5000, base := 50000, csum := true, channel := false }

/-- Two heaps go to the second endpoint, round robin. -/
def netGroups : List SentGroup := [⟨.roundRobin, [plainSent 5, plainSent 6]⟩]

/-- Another one has gone to the first endpoint. -/
def netPkts : List IPkt :=
  (plainSent 8).wire.map (fun d => { hdr := d, bufs := [], sub := 0 }) ++ (netGroups.flatMap SentGroup.wire).map (fun d => { hdr := d, bufs := [], sub := 1 })

def netOps : List IOp := [.heap] ++ netPkts.flatMap (fun p => [.wake [true], .packet p, .finish .empty, .send]) ++ [.wake [true], .finish .empty]

def netPlay : Option (IbvW × List IEv) := netCfg.start.bind fun w => ibvPlay netCfg (fun _ => 0) w netOps

/-- The reader's endpoints. -/
def netEndpoints : List Endpoint := [⟨.v4 [10, 0, 0, 5], 7148⟩, ⟨.v4 [239, 129, 1, 2], 7148⟩]

theorem net_ok : ∀ e ∈ netEndpoints, e.Ok := by
  intro e he
  simp only [netEndpoints, List.mem_cons, List.not_mem_nil, or_false] at he
  rcases he with rfl | rfl <;> exact ⟨fun b h => by cases h; rfl, fun b h => (by cases h), by decide⟩

theorem reaches_refl (ifs : List IfAddr) (es : List Endpoint) : ∀ l, Reaches ifs es l l
  | [] => .nil
  | _ :: l => .sent (reaches_refl ifs es l)

theorem net_subscribes (m : Nat) (i : IEndpoint) (h : netCfg.endpoints[m]? = some i) : Subscribes netEndpoints i ↔ m = 1 := by
  match m, h with
  | 0, h =>
    cases h
    unfold Subscribes netEndpoints
    simp
  | 1, h =>
    cases h
    unfold Subscribes netEndpoints
    simp
  | m + 2, h => cases h

theorem net_heaps : ∀ x ∈ netGroups.flatMap SentGroup.heaps, x.Ok ∧ x.mps ≤ 64 ∧ (NoEmpty x.width x.heap.items ∨ (heapPtrs x.mps x.heap).Nodup) := by
  intro x hx
  simp only [netGroups, List.flatMap_cons, List.flatMap_nil, List.append_nil, List.mem_cons, List.not_mem_nil, or_false] at hx
  rcases hx with rfl | rfl
  · exact ⟨plainSent_ok 5 (by decide) (by decide +kernel), Nat.le_refl _, Or.inl plainHeap_noEmpty⟩
  · exact ⟨plainSent_ok 6 (by decide) (by decide +kernel), Nat.le_refl _, Or.inl plainHeap_noEmpty⟩

theorem net_deliverable : Deliverable trafficCfg netGroups where
  distinct := by decide +kernel
  few := by
    intro g hg _
    simp only [netGroups, List.mem_singleton] at hg
    subst hg
    decide
  nostop := by
    intro _ g hg x hx
    simp only [netGroups, List.mem_singleton] at hg
    subst hg
    simp only [List.mem_cons, List.not_mem_nil, or_false] at hx
    rcases hx with rfl | rfl <;> decide +kernel

/-- The hypotheses of `C86_end_to_end` are met by a run of a sender to two endpoints and a reader of one of them. -/
example : ∃ w evs rules, IbvExec netCfg (fun _ => 0) netOps w evs ∧ .err ∉ netOps ∧ w.sched = .requested ∧ createFlows exIfs netEndpoints = some rules ∧
    ((takenPkts evs).filter (fun p => p.sub = 1)).map (ipktBytes (fun _ => 0)) = netGroups.flatMap SentGroup.wire ∧
    ∃ s outs, ibvRun trafficCfg 64 8 [[(steered rules ([1, 2, 3] :: wireFrames evs)).map (fun f => ⟨0, some f⟩) ++ [⟨1, none⟩]]] (Stream.new trafficCfg) = some (s, outs.flatten) ∧
      List.Forall₂ Arrives netGroups outs ∧ liveHeaps s = [] ∧ s.stopped = false := by
  have key : (netPlay.map fun r => decide (r.1.sched = .requested) && decide (takenPkts r.2 = netPkts)) = some true := by decide +kernel
  obtain ⟨⟨w, evs⟩, h1, h2⟩ := Option.map_eq_some_iff.mp key
  simp only [Bool.and_eq_true, decide_eq_true_eq] at h2
  rw [netPlay, Option.bind_eq_some_iff] at h1
  obtain ⟨w0, h0, h1⟩ := h1
  have hp : ∀ p ∈ netPkts, p.size ≤ netCfg.maxPacket ∧ p.sub < netCfg.endpoints.length := by decide +kernel
  have ex : IbvExec netCfg (fun _ => 0) netOps w evs := by
    refine ⟨⟨by decide, rfl, rfl, by decide, by decide⟩, fun p h => hp p ?_, w0, h0, ibvPlay_run h1⟩
    unfold netOps at h
    simpa using h
  have hne : IOp.err ∉ netOps := by
    unfold netOps
    simp
  have hw : ((takenPkts evs).filter (fun p => p.sub = 1)).map (ipktBytes (fun _ => 0)) = netGroups.flatMap SentGroup.wire := by
    rw [h2.2]
    decide +kernel
  obtain ⟨rules, hr⟩ : ∃ rules, createFlows exIfs netEndpoints = some rules := Option.isSome_iff_exists.mp (by decide +kernel)
  refine ⟨w, evs, rules, ex, hne, h2.1, hr, hw, ?_⟩
  have hre : Reaches exIfs netEndpoints (wireFrames evs) ([1, 2, 3] :: wireFrames evs) := by
    refine .other ?_ (reaches_refl _ _ _)
    intro d p hf
    obtain ⟨v, h, -⟩ := frame_fields hf.1
    cases h
  refine C86_end_to_end ex hne h2.1 (by decide) (by decide) hw net_ok hr net_subscribes hre trafficCfg (by decide) (by decide) 64 8 net_heaps net_deliverable _ ?_
  · generalize steered rules ([1, 2, 3] :: wireFrames evs) = l
    simp [ibvFrames, List.filterMap_map, Function.comp_def]

end Spead2.Flow
