import Verif.Lemmas.RecvUdp
import Verif.Props.Mem
import Verif.Props.RawPacket

/-!
# C45 (receiving), C52, C53, C54: readers of datagrams
-/

namespace Spead2
open Spec

/-- C52 (the specification is total). Any datagrams have exactly one list of accepted packets; any frames have exactly one list of
payloads. -/
theorem C52_spec_total (fits : Nat → Prop) (ds : List Bytes) : ∃ l, PacketsOf fits ds l ∧ ∀ l', PacketsOf fits ds l' → l' = l := by
  obtain ⟨l, h⟩ := dgAccepted_exists fits ds
  exact ⟨l, h, fun l' h' => dgAccepted_unique h' h⟩

theorem C53_spec_total (n : Nat) (hn : 2 ≤ n) (fs : List Bytes) : ∃ ds, Payloads n fs ds ∧ ∀ ds', Payloads n fs ds' → ds' = ds := by
  obtain ⟨ds, h⟩ := payloads_exists n fs
  exact ⟨ds, h, fun ds' h' => payloads_unique hn h' h⟩

/-- C52. Whatever datagrams arrive, and however the kernel coalesces or cuts them, a handler of the UDP reader is one batch on the
stream, with the packets of those datagrams that are exactly one packet of at most `max_size` bytes, in order. -/
theorem C52_udp (cfg : StreamConfig) (maxSize : Nat) (gro : Bool) (s : Stream) (ds : List Bytes) (ms : List RxMsg) (l : List Pkt)
    (hdel : DeliversAll gro (rxBufferSize gro maxSize) ds ms) (hlen : ∀ d ∈ ds, d.length ≤ 65535) (hacc : PacketsOf (· ≤ maxSize) ds l) :
    udpHandler cfg maxSize gro s ms = s.batch cfg (l.map .packet) := by
  refine boundHandler_spec (msgLoop_spec ?_ ms ds _ l hdel hlen rfl hacc)
  unfold rxBufferSize
  cases gro with
  | false => left; show maxSize < maxSize + 1; omega
  | true => right; show 65535 ≤ 65536; omega

/-- C45 (receiving). Coalescing by the kernel makes no difference: the same datagrams, coalesced in any two ways or not at all, have the
same effect. -/
theorem C45_recv (cfg : StreamConfig) (maxSize : Nat) (s : Stream) (gro gro' : Bool) (ds : List Bytes) (ms ms' : List RxMsg)
    (hdel : DeliversAll gro (rxBufferSize gro maxSize) ds ms) (hdel' : DeliversAll gro' (rxBufferSize gro' maxSize) ds ms')
    (hlen : ∀ d ∈ ds, d.length ≤ 65535) : udpHandler cfg maxSize gro s ms = udpHandler cfg maxSize gro' s ms' := by
  obtain ⟨l, h⟩ := dgAccepted_exists (· ≤ maxSize) ds
  rw [C52_udp cfg maxSize gro s ds ms l hdel hlen h, C52_udp cfg maxSize gro' s ds ms' l hdel' hlen h]

/-- Handlers of a UDP reader, one after the other. -/
def udpRun (cfg : StreamConfig) (maxSize : Nat) (gro : Bool) : List (List RxMsg) → Stream → Option (Stream × List Entry)
  | [], s => some (s, [])
  | ms :: rest, s => (udpHandler cfg maxSize gro s ms).bind (fun r => (udpRun cfg maxSize gro rest r.1).map (fun r' => (r'.1, r.2 ++ r'.2)))

theorem pktOps_valid {fits : Nat → Prop} {ds : List Bytes} {l : List Pkt} (h : PacketsOf fits ds l) : OpsValid (pktOps l) := by
  intro p hp
  obtain ⟨q, hq, e⟩ := List.mem_map.mp hp
  cases e
  exact dgAccepted_valid h _ hq

/-- C52 (over the life of a reader). A UDP reader on a new stream, whatever arrives, does nothing undefined, and what it does is a history of
batches on the stream, of the packets accepted in each handler. -/
theorem C52_run (cfg : StreamConfig) (hm : 0 < cfg.maxHeaps) (hsub : 0 < cfg.substreams) (maxSize : Nat) (gro : Bool)
    (arrivals : List (List Bytes × List RxMsg)) (hdel : ∀ a ∈ arrivals, DeliversAll gro (rxBufferSize gro maxSize) a.1 a.2)
    (hlen : ∀ a ∈ arrivals, ∀ d ∈ a.1, d.length ≤ 65535) :
    ∃ (ls : List (List Pkt)) (s : Stream) (out : List Entry), PacketsOf (· ≤ maxSize) (arrivals.map Prod.fst).flatten ls.flatten ∧
      udpRun cfg maxSize gro (arrivals.map Prod.snd) (Stream.new cfg) = some (s, out) ∧
      Stream.run cfg (ls.map (fun l => .batch (l.map .packet))) (Stream.new cfg) = some (s, out) := by
  have key : ∀ (arrivals : List (List Bytes × List RxMsg)), (∀ a ∈ arrivals, DeliversAll gro (rxBufferSize gro maxSize) a.1 a.2) →
      (∀ a ∈ arrivals, ∀ d ∈ a.1, d.length ≤ 65535) → ∃ ls : List (List Pkt), PacketsOf (· ≤ maxSize) (arrivals.map Prod.fst).flatten ls.flatten ∧
        (∀ l ∈ ls, OpsValid (pktOps l)) ∧
        ∀ s, udpRun cfg maxSize gro (arrivals.map Prod.snd) s = Stream.run cfg (ls.map (fun l => .batch (l.map .packet))) s := by
    intro arrivals
    induction arrivals with
    | nil => exact fun _ _ => ⟨[], .nil, by simp, fun s => rfl⟩
    | cons a arrivals ih =>
      intro hdel hlen
      obtain ⟨ls, h1, h2, h3⟩ := ih (fun b hb => hdel b (by simp [hb])) (fun b hb => hlen b (by simp [hb]))
      obtain ⟨l, h⟩ := dgAccepted_exists (· ≤ maxSize) a.1
      refine ⟨l :: ls, dgAccepted_join h h1, ?_, ?_⟩
      · intro x hx
        rcases List.mem_cons.mp hx with rfl | hx
        · exact pktOps_valid h
        · exact h2 x hx
      · intro s
        rw [List.map_cons, udpRun, C52_udp cfg maxSize gro s a.1 a.2 l (hdel a (by simp)) (hlen a (by simp)) h]
        simp only [List.map_cons, Stream.run, Stream.step, Option.bind_eq_bind]
        cases s.batch cfg (l.map .packet) with
        | none => rfl
        | some r =>
          simp only [Option.bind_some, h3]
          cases Stream.run cfg (ls.map (fun l => .batch (l.map .packet))) r.1 with
          | none => rfl
          | some r' => rfl
  obtain ⟨ls, h1, h2, h3⟩ := key arrivals hdel hlen
  obtain ⟨s, a, t, h4, _⟩ := stream_refines cfg hm hsub (ls.map (fun l => .batch (l.map .packet))) (by
    intro op hop
    obtain ⟨l, hl, rfl⟩ := List.mem_map.mp hop
    exact h2 l hl)
  exact ⟨ls, s, handedOver t, h1, by rw [h3, h4], h4⟩

/-- C53. Reading a capture file (link header of `n` bytes) gives the stream, in some number of batches, the packets of the complete records that
hold a UDP datagram that is exactly one packet, in order, and then stops the stream. Damaged, cut and foreign records are skipped. -/
theorem C53_pcap (cfg : StreamConfig) (hm : 0 < cfg.maxHeaps) (hsub : 0 < cfg.substreams) (n : Nat) (hn : 2 ≤ n) (recs : List PcapRec)
    (ds : List Bytes) (l : List Pkt) (hd : Payloads n (wholeRecords recs) ds) (ha : PacketsOf (fun _ => True) ds l) :
    ∃ (opss : List (List BatchOp)) (s : Stream) (out : List Entry), opss.flatten = l.map .packet ++ [.stop] ∧ Stream.run cfg (opss.map .batch) (Stream.new cfg) = some (s, out) ∧ s.stopped = true ∧
      ∀ f, recs.length / 64 < f → pcapRun cfg n f (Stream.new cfg) recs = some (s, out) := by
  obtain ⟨opss, h1, h2, h3⟩ := pcapRun_spec (cfg := cfg) hn _ recs ds l (Nat.le_refl _) hd ha
  have hv : ∀ op ∈ opss.map StreamOp.batch, op.Valid := by
    intro op hop
    obtain ⟨ops, hops, rfl⟩ := List.mem_map.mp hop
    intro p hp
    have hp' : BatchOp.packet p ∈ opss.flatten := List.mem_flatten.mpr ⟨ops, hops, hp⟩
    rw [h1] at hp'
    rcases List.mem_append.mp hp' with hp' | hp'
    · exact pktOps_valid ha p hp'
    · simp at hp'
  obtain ⟨s, a, t, h4, _⟩ := stream_refines cfg hm hsub (opss.map .batch) hv
  exact ⟨opss, s, handedOver t, h1, h4, h2 _ _ h4, fun f hf => by rw [h3 f _ hf rfl, h4]⟩

/-- C53 (on any stream). Also when the stream has other readers: one handler is one batch, with the packets of the next 64 records, and a
stop if there are fewer; if the stream goes on, so does the reader, with the rest of the file. -/
theorem C53_handler (cfg : StreamConfig) (n : Nat) (hn : 2 ≤ n) (s : Stream) (recs : List PcapRec) (ds : List Bytes) (l : List Pkt)
    (hd : Payloads n (wholeRecords (recs.take 64)) ds) (ha : PacketsOf (fun _ => True) ds l) :
    (pcapHandler cfg n s recs).map (fun r => (r.1, r.2.1)) = s.batch cfg (l.map .packet ++ if recs.length < 64 then [.stop] else []) ∧
    (s.stopped = false → ∀ s' out recs', pcapHandler cfg n s recs = some (s', out, recs') → s'.stopped = false → recs' = recs.drop 64) := by
  obtain ⟨h1, h2⟩ := pcapHandler_spec (cfg := cfg) hn (s := s) hd ha
  exact ⟨h1, fun hs s' out recs' h h' => (h2 hs s' out recs' h h').1⟩

/-- C54. A handler of the ibverbs reader is one batch on the stream, with the packets in the ethernet frames received, in order, whatever the
frames hold. -/
theorem C54_ibv (cfg : StreamConfig) (maxSize slots : Nat) (s : Stream) (polls : List (List IbvWc)) (ds : List Bytes) (l : List Pkt)
    (hd : Payloads 14 (ibvFrames polls.flatten) ds) (ha : PacketsOf (· ≤ maxSize) ds l) :
    ibvHandler cfg maxSize slots s polls = s.batch cfg (l.map .packet) :=
  boundHandler_spec (ibvPolls_spec polls _ ds l rfl rfl hd ha).1

/-- C54 (multi-packet receive queues). -/
theorem C54_mprq (cfg : StreamConfig) (maxSize wqeSize bufSize start : Nat) (s : Stream) (polls : List (List MprqWc)) (ds : List Bytes) (l : List Pkt)
    (h256 : ∀ wcs ∈ polls, wcs.length ≤ 256) (hd : Payloads 14 (mprqFrames polls.flatten) ds) (ha : PacketsOf (· ≤ maxSize) ds l) :
    mprqHandler cfg maxSize wqeSize bufSize start s polls = s.batch cfg (l.map .packet) :=
  boundHandler_spec (mprqPolls_spec polls _ start ds l rfl rfl h256 hd ha)

/-- C54 (buffers). The buffers of the frames received are given back to the hardware in the order of the completions, each once, in batches of
1 to `max 1 (min 64 (slots / 4))`: all of them, unless the stream is stopped. -/
theorem C54_slots (cfg : StreamConfig) (maxSize slots : Nat) (s : Stream) (polls : List (List IbvWc)) (x : RxState) (posts : List (List Nat))
    (h : RxState.ibvPolls cfg maxSize slots polls ⟨s, {}, [], false⟩ = some (x, posts)) :
    (∀ b ∈ posts, b ≠ [] ∧ b.length ≤ max 1 (min 64 (slots / 4))) ∧ posts.flatten <+: polls.flatten.map IbvWc.index ∧
    (x.batch.stopped = false → posts.flatten = polls.flatten.map IbvWc.index) := by
  obtain ⟨ds, hd⟩ := payloads_exists 14 (ibvFrames polls.flatten)
  obtain ⟨l, ha⟩ := dgAccepted_exists (· ≤ maxSize) ds
  obtain ⟨h1, h2⟩ := ibvPolls_spec (cfg := cfg) (slots := slots) polls ⟨s, {}, [], false⟩ ds l rfl rfl hd ha
  obtain ⟨h3, i, h4, h5⟩ := h2 x posts h
  rw [h, Option.map_some] at h1
  refine ⟨h3, ?_, fun hs => h5 (by rw [feed_consistent h1.symm, hs])⟩
  rw [h4]
  exact List.take_prefix _ _

/-- A packet of 42 bytes: a part of a heap of `len` bytes. -/
def rxPkt (cnt len off : UInt8) (payload : Bytes) : Bytes :=
  [0x53, 4, 3, 5, 0, 0, 0, 4] ++ [0x80, 0, 1, 0, 0, 0, 0, cnt] ++ [0x80, 0, 2, 0, 0, 0, 0, len] ++ [0x80, 0, 3, 0, 0, 0, 0, off] ++
    [0x80, 0, 4, 0, 0, 0, 0, UInt8.ofNat payload.length] ++ payload

/-- Three datagrams: two packets, and one with a byte too many. -/
def rxDemo : List Bytes := [rxPkt 7 4 0 [1, 2], rxPkt 7 4 2 [3, 4], rxPkt 8 1 0 [5] ++ [9]]

theorem rxDemo_accepted : PacketsOf (· ≤ 42) rxDemo [⟨40, 7, some 4, 0, [1, 2], []⟩, ⟨40, 7, some 4, 2, [3, 4], []⟩] := by
  refine .take (by decide +kernel) (isPacket_of_decode (h := ⟨40, 0, 7, 4, 0, 2, 40, 40⟩) (by decide +kernel) (by decide +kernel)) ?_
  refine .take (by decide +kernel) (isPacket_of_decode (h := ⟨40, 0, 7, 4, 2, 2, 40, 40⟩) (by decide +kernel) (by decide +kernel)) ?_
  refine .skip (fun h => not_isPacket_of_decode (fun hd h' => ?_) h.2) .nil
  have : (decodePacket (rxPkt 8 1 0 [5] ++ [9])).map (Option.map Prod.snd) = some (some 41) := by decide +kernel
  rw [h'] at this
  have h42 : (rxPkt 8 1 0 [5] ++ [9]).length = 42 := by decide +kernel
  rw [h42] at this
  simp at this

/-- Non-vacuity of C52 and C45: the datagrams may arrive coalesced or one by one. -/
example : DeliversAll true (rxBufferSize true 42) rxDemo [⟨rxDemo.flatten, 42⟩] :=
  DeliversAll.cons (ds := rxDemo) (ds' := []) (.coalesced (n := 42) rfl ⟨by decide +kernel, by decide +kernel, by decide +kernel, by decide +kernel⟩ (by decide +kernel)) .nil

example : DeliversAll false (rxBufferSize false 42) rxDemo (rxDemo.map (fun d => ⟨d, -1⟩)) :=
  .cons (ds := [_]) .one (.cons (ds := [_]) .one (.cons (ds := [_]) .one .nil))

/-- A heap is completed by the two packets, and the same for the whole run. -/
example : ((udpHandler ⟨2, 1, false, false, true⟩ 42 true (Stream.new ⟨2, 1, false, false, true⟩) [⟨rxDemo.flatten, 42⟩]).map
    (fun r => (r.1.stats.packets, r.2.map (fun e => (e.heap.cnt, e.heap.received))))) = some (2, [(7, 4)]) := by decide +kernel

/-- An ethernet frame around a datagram. -/
def rxFrame (p : Bytes) : Bytes :=
  [1, 0, 0x5e, 1, 2, 3, 2, 2, 2, 2, 2, 2, 0x08, 0x00] ++
  [0x45, 0, 0, UInt8.ofNat (28 + p.length), 0, 0, 0x40, 0, 1, 17, 0, 0, 10, 0, 0, 1, 239, 1, 2, 3] ++
  [0x12, 0x34, 0x1b, 0x58, 0, UInt8.ofNat (8 + p.length), 0, 0] ++ p

theorem rxFrame_frame (p : Bytes) (h : p.length < 200) : IsUdpFrame 14 (rxFrame p) p := by
  refine ⟨[1, 0, 0x5e, 1, 2, 3, 2, 2, 2, 2, 2, 2, 0x08, 0x00],
    [0x45, 0, 0, UInt8.ofNat (28 + p.length), 0, 0, 0x40, 0, 1, 17, 0, 0, 10, 0, 0, 1, 239, 1, 2, 3],
    [0x12, 0x34, 0x1b, 0x58, 0, UInt8.ofNat (8 + p.length), 0, 0], [], 0x45, 0, [0, UInt8.ofNat (28 + p.length)], [0, 0], [0x40, 0], 1,
    [0, 0, 10, 0, 0, 1, 239, 1, 2, 3], [0x12, 0x34, 0x1b, 0x58], [0, UInt8.ofNat (8 + p.length)], [0, 0], by rw [List.append_nil]; rfl, rfl, rfl, rfl, rfl, rfl, rfl, ?_⟩
  have h1 : beNat [0, UInt8.ofNat (28 + p.length)] = 28 + p.length := by rw [beNat_two, UInt8.toNat_ofNat_of_lt' (by show 28 + p.length < 256; omega)]; simp
  have h2 : beNat [0, UInt8.ofNat (8 + p.length)] = 8 + p.length := by rw [beNat_two, UInt8.toNat_ofNat_of_lt' (by show 8 + p.length < 256; omega)]; simp
  rw [h1, h2]
  refine ⟨by decide, by rfl, by show 20 ≤ 20; omega, by decide +kernel, rfl, rfl, rfl, rfl, rfl, ?_, ?_⟩
  · show 20 + 8 + p.length ≤ 28 + p.length; omega
  · show 28 + p.length ≤ 20 + 8 + p.length + 0; omega

/-- A capture: a frame, a record that was cut, a read error, a frame that is not UDP, two frames. -/
def pcapDemo : List PcapRec :=
  [.record 84 (rxFrame (rxPkt 7 4 0 [1, 2])), .record 100 (rxFrame (rxPkt 7 4 0 [1, 2])), .error, .record 3 [1, 2, 3],
    .record 84 (rxFrame (rxPkt 7 4 2 [3, 4])), .record 84 (rxFrame (rxPkt 8 1 0 [5] ++ [9]))]

/-- Non-vacuity of C53. -/
example : Payloads 14 (wholeRecords pcapDemo) rxDemo := by
  refine .take (rxFrame_frame _ (by decide +kernel)) (.skip ?_ (.take (rxFrame_frame _ (by decide +kernel)) (.take (rxFrame_frame _ (by decide +kernel)) .nil)))
  rintro ⟨p, hp⟩
  obtain ⟨b, h, _⟩ := parse_of_frame (by omega) hp
  have : udpFromFrame 14 [1, 2, 3] = some (.error .length) := by decide +kernel
  rw [this] at h
  cases h

example : ((pcapRun ⟨2, 1, false, false, true⟩ 14 1 (Stream.new ⟨2, 1, false, false, true⟩) pcapDemo).map
    (fun r => (r.1.stopped, r.1.stats.packets, r.2.map (fun e => (e.heap.cnt, e.heap.received))))) = some (true, 2, [(7, 4)]) := by decide +kernel

/-- Non-vacuity of C54: five completions, one failed, with eight slots: batches of two. -/
example : ((RxState.ibvPolls ⟨2, 1, false, false, true⟩ 42 8
    [[⟨3, some (rxFrame (rxPkt 7 4 0 [1, 2]))⟩, ⟨4, none⟩, ⟨5, some [1]⟩], [⟨0, some (rxFrame (rxPkt 7 4 2 [3, 4]))⟩]]
    ⟨Stream.new ⟨2, 1, false, false, true⟩, {}, [], false⟩).map
    (fun r => (r.1.batch.packets, r.1.out.map (fun e => e.heap.cnt), r.2))) = some (2, [7], [[3, 4], [5], [0]]) := by decide +kernel

end Spead2
