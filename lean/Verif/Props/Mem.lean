import Verif.Lemmas.Mem
import Verif.Props.Stream

/-!
# C26: packets in memory
-/

namespace Spead2
open Spec

/-- C26 (the split exists and is unique). Every byte string is a sequence of packets followed by something that
does not start with a packet, in exactly one way. -/
theorem C26_unique_split (d : Bytes) :
    ∃ l rest, SplitsInto d l rest ∧ ∀ l' rest', SplitsInto d l' rest' → l' = l ∧ rest' = rest := by
  obtain ⟨l, rest, h⟩ := splits_exists d
  exact ⟨l, rest, h, fun l' rest' h' => splits_unique h h'⟩

/-- C26. On any stream, `mem_to_stream` on any bytes passes to the stream, as one batch, the packets that the buffer
starts with, in order: all of them, or those up to and including the first that stops the stream. It reports
consuming exactly those packets. -/
theorem C26_mem_to_stream (cfg : StreamConfig) (hm : 0 < cfg.maxHeaps) (hsub : 0 < cfg.substreams) {ops : List StreamOp}
    (hv : ∀ op ∈ ops, op.Valid) {s : Stream} {out0 : List Entry} (h : Stream.run cfg ops (Stream.new cfg) = some (s, out0))
    (d : Bytes) (l : List (Bytes × Pkt)) (rest : Bytes) (hd : SplitsInto d l rest) :
    ∃ j s' out, j ≤ l.length ∧
      memToStream cfg s d = some (s', out, ((l.take j).map Prod.fst).flatten.length) ∧
      s.batch cfg ((l.take j).map (fun x => .packet x.2)) = some (s', out) ∧
      s.batch cfg (l.map (fun x => .packet x.2)) = some (s', out) ∧
      (s'.stopped = false → j = l.length) ∧
      (s.stopped = true → j = 0) ∧
      ∀ i, i < j → ∃ s1 out1, s.batch cfg ((l.take i).map (fun x => .packet x.2)) = some (s1, out1) ∧ s1.stopped = false := by
  obtain ⟨a, t, dd, k1, k2, rel, inv, _, _, _, _⟩ := run_account hm hsub hv h
  cases hst : s.stopped with
  | true =>
    refine ⟨0, s, [], Nat.zero_le _, ?_, ?_, ?_, ?_, fun _ => rfl, fun i hi => by omega⟩
    · unfold memToStream; rw [if_pos hst]; rfl
    · unfold Stream.batch; rw [if_pos hst]
    · unfold Stream.batch; rw [if_pos hst]
    · intro h'; rw [hst] at h'; cases h'
  | false =>
    obtain ⟨a', t', e, s1, dd', q1, q2, q3, q4, q5, _⟩ := packets_refine hm hsub (asOps l) (splits_valid hd) rel inv {} rfl
    obtain ⟨j, g1, g2, g3, g4, g5⟩ := memLoop_spec cfg l (d.length + 1) d rest s {} (by omega) hd _ _ _ q2
    have hs1 : s1.stopped = false := by
      have := packets_stopped q1
      rw [q3.stopped, this, ← rel.stopped]; exact hst
    have hend : ∀ (s1 : Stream) (a' : AStream) (st : Batch), Rel cfg s1 a' → AInv cfg a' none → s1.stopped = false →
        ∃ s' out', s1.endBatch cfg st = some (s', out') ∧ s'.stopped = st.stopped := by
      intro s1 a' st rel' inv' hs1
      unfold Stream.endBatch
      cases hst' : st.stopped with
      | false =>
        rw [if_neg (by simp)]
        rw [Option.bind_eq_bind, Option.bind_some, if_neg (by simp)]
        exact ⟨_, _, rfl, hs1⟩
      | true =>
        obtain ⟨s2, h1, h2, h3⟩ := stopReceived_refine hm hsub rel' inv' (by rw [← rel'.stopped]; exact hs1)
        rw [if_pos rfl, h1, Option.bind_eq_bind, Option.bind_some]
        have : s2.stopped = true := by rw [h2.stopped]; rfl
        by_cases hp : st.packets = 0
        · rw [if_pos ⟨hp, rfl⟩]; exact ⟨_, _, rfl, this⟩
        · rw [if_neg (fun h => hp h.1)]; exact ⟨_, _, rfl, this⟩
    obtain ⟨s', out', he1, he2⟩ := hend s1 a' { packets := ({} : Batch).packets + packetCount t', complete := ({} : Batch).complete + t'.countP Ev.isCompleted, evicted := ({} : Batch).evicted + t'.countP Ev.isEvicted, single := ({} : Batch).single + t'.countP Ev.isSingle, searchDist := dd', stopped := e } q3 q4 hs1
    have hbatch : ∀ ops, Stream.batchLoop cfg ops s {} = Stream.batchLoop cfg (asOps l) s {} → s.batch cfg ops = some (s', handedOver t' ++ out') := by
      intro ops ho
      unfold Stream.batch
      rw [if_neg (by simp [hst]), ho, q2, Option.bind_eq_bind, Option.bind_some, he1]
      rfl
    refine ⟨j, s', handedOver t' ++ out', g1, ?_, hbatch _ (g3.trans q2.symm), hbatch _ rfl, fun h' => g4 (by rw [← h', he2]), fun h' => (nomatch h'), ?_⟩
    · unfold memToStream
      rw [if_neg (by simp [hst]), g2]
      simp only
      rw [he1]
    · intro i hi
      obtain ⟨s2, st2, out2, r1, r2⟩ := g5 i hi
      have hvi : OpsValid (asOps (l.take i)) := by
        intro p hp
        obtain ⟨x, hx, e⟩ := List.mem_map.1 hp
        exact splits_valid hd p (List.mem_map.2 ⟨x, List.mem_of_mem_take hx, e⟩)
      obtain ⟨a2, t2, e2, s3, dd2, w1, w2, w3, w4, _, _⟩ := packets_refine hm hsub (asOps (l.take i)) hvi rel inv {} rfl
      rw [w2] at r1
      simp only [Option.some.injEq, Prod.mk.injEq] at r1
      obtain ⟨rfl, rfl, rfl⟩ := r1
      obtain ⟨s4, out4, v1, v2⟩ := hend s3 a2 _ w3 w4 (by rw [w3.stopped, packets_stopped w1, ← rel.stopped]; exact hst)
      refine ⟨s4, handedOver t2 ++ out4, ?_, v2.trans r2⟩
      unfold Stream.batch
      rw [if_neg (by simp [hst])]
      change (Stream.batchLoop cfg (asOps (l.take i)) s {} >>= _) = _
      rw [w2, Option.bind_eq_bind, Option.bind_some, v1]
      rfl

theorem descPkt_isPacket (w bc : Nat) (d : Descriptor) (hw1 : 1 ≤ w) (hw7 : w ≤ 7) (fit : DescriptorFits w bc d)
    (hid : d.id < 2 ^ (8 * w)) {bytes : Bytes} {ok : Bool} (h : encodeDescriptor (8 * w) bc d = .ok (bytes, ok)) :
    IsPacket bytes (descPkt w bc d) := by
  rw [encodeDescriptor_bytes hw1 hw7 fit hid] at h
  simp only [Except.ok.injEq, Prod.mk.injEq] at h
  obtain ⟨rfl, _⟩ := h
  have hsuf := descItems_suffix (bc := bc) hw1 hw7 hid (Int.le_of_lt fit.id.1) fit.length
  have hlen := descItems_length (bc := bc) hw7 d
  have hone : 1 < 2 ^ (8 * w) := Nat.lt_of_lt_of_le (by decide : 1 < 2 ^ 8) (Nat.pow_le_pow_right (by omega) (by omega))
  obtain ⟨table, h1, h2, h3⟩ := wf_packetBytes (w := w) (cnt := 1) (hl := descriptorLength w bc d) (off := 0)
    (ptrs := itemPtrs w 0 (descItems (8 * w) bc d)) (payload := realPayload w (descItems (8 * w) bc d)) hw1 hw7 hone fit.length
    (by omega) (descItems_count d)
    (itemPtrs_lt hsuf) (fun q hq => (suffix_plain hsuf q (by simpa using hq)).1)
  have hw256 : (UInt8.ofNat w).toNat = w := by simp; omega
  refine ⟨_, _, _, _, _, _, h1, ?_, ?_⟩
  · have key : ∀ l : List Nat, (l.flatMap (beBytes 8)).length = 8 * l.length := by
      intro l
      induction l with
      | nil => rfl
      | cons x l ih => rw [List.flatMap_cons, List.length_append, ih, beBytes_length, List.length_cons]; omega
    unfold packetBytes
    rw [List.length_append, List.length_append, key, h2]
    simp [headerBytes]
    omega
  · rw [hw256, h3]; rfl

/-- The packet of a descriptor. -/
def encodedOr (hab bc : Nat) (d : Descriptor) : Bytes :=
  match encodeDescriptor hab bc d with
  | .ok (b, _) => b
  | .error _ => []

theorem encodedOr_isPacket : IsPacket (encodedOr 40 0 sampleDescriptor) (descPkt 5 0 sampleDescriptor) := by
  obtain ⟨b, h, _⟩ := C18_roundtrip_wide 5 0 sampleDescriptor (by decide) (by decide) (sampleDescriptor_fits 0)
  have : encodedOr 40 0 sampleDescriptor = b := by unfold encodedOr; rw [show (40 : Nat) = 8 * 5 from rfl, h]
  rw [this]
  exact descPkt_isPacket 5 0 sampleDescriptor (by decide) (by decide) (sampleDescriptor_fits 0) (by decide) h

-- two packets followed by a truncated one
example : SplitsInto (encodedOr 40 0 sampleDescriptor ++ encodedOr 40 0 sampleDescriptor ++ [0x53, 4, 3])
    [(encodedOr 40 0 sampleDescriptor, descPkt 5 0 sampleDescriptor), (encodedOr 40 0 sampleDescriptor, descPkt 5 0 sampleDescriptor)] [0x53, 4, 3] where
  concat := by simp
  packets := by simpa using encodedOr_isPacket
  maximal := by
    rintro ⟨b, p, r, e, hp⟩
    have h1 : 8 ≤ b.length := by
      obtain ⟨aw, table, payload, cnt, off, hlen, wf, hl, rfl⟩ := hp
      omega
    have e := congrArg List.length e
    simp at e
    omega

-- on a stream that has already received a packet, both packets are consumed and the rest is left
example : (((Stream.run ⟨2, 1, true, false, true⟩ [.batch [.packet (descPkt 5 0 sampleDescriptor)]] (Stream.new ⟨2, 1, true, false, true⟩)).bind
    (fun r => memToStream ⟨2, 1, true, false, true⟩ r.1 (encodedOr 40 0 sampleDescriptor ++ encodedOr 40 0 sampleDescriptor ++ [0x53, 4, 3]))).map
    (fun r => (r.2.1.length, r.2.2))) = some (2, 2 * (encodedOr 40 0 sampleDescriptor).length) := by
  decide +kernel

end Spead2
