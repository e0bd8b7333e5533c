import Verif.Lemmas.ChunkRecvEvents

/-!
# C70: receiving into chunks
-/

namespace Spead2

open Spec

/-- C70. Whatever is received, nothing undefined happens: no copy to a heap without memory, no write outside the arrays of a
chunk. -/
theorem C70_total {cfg : StreamConfig} {ccfg : ChunkConfig} (hm : 0 < cfg.maxHeaps) (hsub : 0 < cfg.substreams) (hmax : 0 < ccfg.maxChunks)
    {ops : List ChunkRecvOp} (hg : GoodHistory ccfg ops) : ∃ r, ChunkRecv.run cfg ccfg ops = some r := by
  obtain ⟨r, d, a, h, -⟩ := outcome hm hsub hmax hg
  exact ⟨r, h⟩

/-- C70 (heaps). Heaps are assembled, and come to an end, exactly as in a stream without chunks. -/
theorem C70_heaps {cfg : StreamConfig} {ccfg : ChunkConfig} (hm : 0 < cfg.maxHeaps) (hsub : 0 < cfg.substreams) (hmax : 0 < ccfg.maxChunks)
    {ops : List ChunkRecvOp} (hg : GoodHistory ccfg ops) {r : ChunkRecv} (h : ChunkRecv.run cfg ccfg ops = some r) :
    Stream.run cfg.forChunks (plainOps ops) (Stream.new cfg.forChunks) = some (r.stream, r.heaps) := by
  obtain ⟨d, a, o⟩ := outcome_of hm hsub hmax hg h
  exact o.stream

/-- C70 (calls). For each heap, the chunk layer is called in a fixed pattern: one allocation, at the place chosen for the
heap's first packet, unless the heap is empty; one copy for each accepted packet with payload; and at its end, if it is
handed over, one notification that says whether it is complete. -/
theorem C70_calls {cfg : StreamConfig} {ccfg : ChunkConfig} (hm : 0 < cfg.maxHeaps) (hsub : 0 < cfg.substreams) (hmax : 0 < ccfg.maxChunks)
    {ops : List ChunkRecvOp} (hg : GoodHistory ccfg ops) {r : ChunkRecv} (h : ChunkRecv.run cfg ccfg ops = some r) :
    (∀ e ∈ r.heaps, ∃ pl, PlacedAt ops e pl ∧ callsOf e.uid r.calls = memCalls cfg.allowOoo pl e ++ [.ready e.uid e.heap.isComplete]) ∧
    (∀ e ∈ liveHeaps r.stream, ∃ pl, PlacedAt ops e pl ∧ callsOf e.uid r.calls = memCalls cfg.allowOoo pl e) ∧
    ((r.heaps ++ liveHeaps r.stream).map Entry.uid).Nodup := by
  obtain ⟨d, a, o⟩ := outcome_of hm hsub hmax hg h
  have hp := liveHeaps_perm (cfg := cfg.forChunks) hm o.rel o.inv
  refine ⟨fun e he => ?_, fun e he => ?_, ?_⟩
  · obtain ⟨pl, h1, h2⟩ := o.called.ended e he
    exact ⟨pl, h1.placedAt, h2⟩
  · obtain ⟨pl, h1, h2⟩ := o.called.mem e (List.mem_append_right _ (hp.subset he))
    exact ⟨pl, h1.placedAt, h2⟩
  · have hn := o.called.nodup
    have hs : List.Sublist (r.heaps ++ entries a) (r.heaps ++ d ++ entries a) :=
      List.Sublist.append (List.sublist_append_left _ _) (List.Sublist.refl _)
    have hn' := hn.sublist (hs.map Entry.uid)
    exact (((List.Perm.append_left r.heaps hp).map Entry.uid).nodup_iff).2 hn'

/-- C70 (chunk layer). The calls, in order, are a valid history of the chunk layer, and the chunks and effects are those of
that history: C29 and C30 apply to the stream as a whole. -/
theorem C70_chunks {cfg : StreamConfig} {ccfg : ChunkConfig} (hm : 0 < cfg.maxHeaps) (hsub : 0 < cfg.substreams) (hmax : 0 < ccfg.maxChunks)
    {ops : List ChunkRecvOp} (hg : GoodHistory ccfg ops) {r : ChunkRecv} (h : ChunkRecv.run cfg ccfg ops = some r) :
    chunkOps [] r.calls = some r.ops ∧ ValidOps ccfg r.ops ∧ ChunkStream.run ccfg r.ops (ChunkStream.new ccfg) = some (r.chunks, r.trace) := by
  obtain ⟨d, a, o⟩ := outcome_of hm hsub hmax hg h
  exact ⟨o.ops, o.valid, o.chunks⟩

/-- C70 (writes). Everything written to the payload of a chunk is the payload of a received packet, at the offset where the
place callback put a packet of the same heap plus the packet's offset in the heap, in the chunk chosen there; the chunk was
supplied and has not been handed over, and the write is inside it. -/
theorem C70_write {cfg : StreamConfig} {ccfg : ChunkConfig} (hm : 0 < cfg.maxHeaps) (hsub : 0 < cfg.substreams) (hmax : 0 < ccfg.maxChunks)
    {ops : List ChunkRecvOp} (hg : GoodHistory ccfg ops) {r : ChunkRecv} (h : ChunkRecv.run cfg ccfg ops = some r)
    {before after : List ChunkEv} {c : Chunk} {off : Nat} {data : Bytes} (htr : r.trace = before ++ .write c off data :: after) :
    ∃ p0 pl p pl', (p0, pl) ∈ offers ops ∧ (p, pl') ∈ offers ops ∧ p0.heapCnt = p.heapCnt ∧ data = p.payload ∧
      off = pl.heapOffset + p.payloadOffset ∧ 0 ≤ pl.chunkId ∧ c.chunkId = pl.chunkId.toNat ∧
      Held ccfg before c ∧ off + data.length ≤ ccfg.dataSize c.chunkId := by
  obtain ⟨d, a, o⟩ := outcome_of hm hsub hmax hg h
  have hc := o.chunks
  obtain ⟨hheld, hin⟩ := C30_no_late_write hmax o.valid hc htr rfl
  rw [htr] at hc
  obtain ⟨o1, op, o2, s1, t1, s2, e1, e2, k1, k2, k3, k4⟩ := chunkRun_event hc
  obtain ⟨rfl, hp, x, rfl⟩ := step_write k3
  obtain ⟨e, pl, p, m1, m2, m3, m4, m5, m6⟩ := o.copied k1
  have hv := o.valid
  rw [k1] at hv
  obtain ⟨q1, q2⟩ := C30_copy hmax (ValidOps.prefix hv) k2 m6 (hv o1 _ o2 rfl)
  by_cases hs : Storable ccfg t1 pl
  · obtain ⟨c', g1, g2, g3⟩ := q2 hs
    rw [g3] at k3
    simp only [List.nil_append, Option.some.injEq, Prod.mk.injEq, List.cons.injEq, ChunkEv.write.injEq] at k3
    obtain ⟨-, ⟨rfl, rfl, -⟩, -⟩ := k3
    obtain ⟨n1, ⟨pl', n2⟩, -⟩ := o.called.acc m1 m2 m3
    obtain ⟨p0, rest, w1, w2, -⟩ := m2
    obtain ⟨-, -, z1, z2, z3, -⟩ := (o.called.ok e m1).1
    refine ⟨p0, pl, p, pl', w2, n2, ?_, m4.symm, by rw [m5], hs.1, g1, hheld, hin⟩
    rw [(z3 p0 (by rw [w1]; simp)).1, (z3 p n1).1]
  · rw [q1 hs] at k3
    simp at k3

/-- C70 (flags per heap). A flag is set only for a complete heap, in the chunk and at the index where it was placed; all its
payload, as a stream without chunks would deliver it, was written before. -/
theorem C70_flag {cfg : StreamConfig} {ccfg : ChunkConfig} (hm : 0 < cfg.maxHeaps) (hsub : 0 < cfg.substreams) (hmax : 0 < ccfg.maxChunks)
    {ops : List ChunkRecvOp} (hg : GoodHistory ccfg ops) {r : ChunkRecv} (h : ChunkRecv.run cfg ccfg ops = some r) (hz : ccfg.presenceSize = 0)
    {before after : List ChunkEv} {c : Chunk} {i : Nat} (htr : r.trace = before ++ .present c i :: after) :
    ∃ e ∈ r.heaps, ∃ pl n, e.heap.isComplete = true ∧ PlacedAt ops e pl ∧ e.heap.heapLength = some n ∧ 0 < n ∧
      0 ≤ pl.chunkId ∧ c.chunkId = pl.chunkId.toNat ∧ i = pl.heapIndex ∧ Held ccfg before c ∧
      ∀ k, k < n → ∃ b off data, e.heap.payload[k]? = some (some b) ∧ .write c off data ∈ before ∧ off ≤ pl.heapOffset + k ∧
        data[pl.heapOffset + k - off]? = some b := by
  obtain ⟨d, a, o⟩ := outcome_of hm hsub hmax hg h
  have hc := o.chunks
  rw [htr] at hc
  obtain ⟨o1, op, o2, s1, t1, s2, e1, e2, k1, k2, k3, k4⟩ := chunkRun_event hc
  obtain ⟨rfl, rfl, rfl, hp, rfl⟩ := (step_present k3).1 hz
  obtain ⟨e, pl, c1, c2, m1, m2, m3, m4, m5, m6, m7, m8, m9, -⟩ := o.readied k1
  have hv := o.valid
  rw [k1] at hv
  obtain ⟨q1, q2, q3, q4⟩ := C30_present_complete hmax (ValidOps.prefix hv) k2 m5 (hv o1 _ o2 rfl) k3 (c := c) (i := i) (by simp)
  have hst : 0 ≤ pl.chunkId := by
    by_cases hs : Storable ccfg t1 pl
    · exact hs.1
    · rcases (C30_heap_ready hmax (ValidOps.prefix hv) k2 m5 (hv o1 _ o2 rfl)).2.1 hs with h' | h' <;> rw [h'] at k3 <;> simp at k3
  rw [List.append_nil] at k4
  have hmem : e ∈ r.heaps ++ d ++ entries a := by rw [List.append_assoc]; exact List.mem_append_left _ m1
  have hinv := ((o.called.ok e hmem).1).inv
  obtain ⟨n, hn⟩ := Option.ne_none_iff_exists'.1 (o.called.ok e hmem).2.2
  refine ⟨e, m1, pl, n, m3.symm, m2.placedAt, hn, by simpa [hn] using m4, hst, q2, q1, by rw [k4]; exact q3, ?_⟩
  intro k hk
  have hcov : Covered (acceptedBy cfg.allowOoo e) k := by
    exact (o.called.ok e hmem).1.covered (o.called.ok e hmem).2.1 m3.symm hn hk
  obtain ⟨p, hpm, hpa, hpb⟩ := hcov
  have hne : p.payload ≠ [] := by
    intro h0
    rw [h0] at hpb
    simp at hpb
    omega
  obtain ⟨x, y, hxy⟩ := o.copies m6 m7 m8 m9 hpm hne
  obtain ⟨ta, tb, sb, sa, sev, w1, w2, w3, w4, w5⟩ := q4 x _ _ y hxy
  have hlen : k - p.payloadOffset < p.payload.length := by omega
  refine ⟨p.payload[k - p.payloadOffset], pl.heapOffset + p.payloadOffset, p.payload, ?_, ?_, by omega, ?_⟩
  · have := hinv.bytes p hpm (k - p.payloadOffset) _ (List.getElem?_eq_getElem hlen)
    rw [← this]
    congr 1
    omega
  · rw [k4, w4]
    exact List.mem_append_left _ (List.mem_append_right _ w5)
  · rw [show pl.heapOffset + k - (pl.heapOffset + p.payloadOffset) = k - p.payloadOffset by omega]
    exact List.getElem?_eq_getElem hlen

/-- C70 (flags per packet). A flag is set only for a received packet with payload, at the index of the heap plus that of the
packet, in the chunk where its heap was placed; the packet's payload was written just before. -/
theorem C70_packet_flag {cfg : StreamConfig} {ccfg : ChunkConfig} (hm : 0 < cfg.maxHeaps) (hsub : 0 < cfg.substreams) (hmax : 0 < ccfg.maxChunks)
    {ops : List ChunkRecvOp} (hg : GoodHistory ccfg ops) {r : ChunkRecv} (h : ChunkRecv.run cfg ccfg ops = some r) (hz : ccfg.presenceSize ≠ 0)
    {before after : List ChunkEv} {c : Chunk} {i : Nat} (htr : r.trace = before ++ .present c i :: after) :
    ∃ p0 pl p pl' tr, (p0, pl) ∈ offers ops ∧ (p, pl') ∈ offers ops ∧ p0.heapCnt = p.heapCnt ∧ p.payload ≠ [] ∧
      0 ≤ pl.chunkId ∧ c.chunkId = pl.chunkId.toNat ∧ i = pl.heapIndex + p.payloadOffset / ccfg.presenceSize ∧ Held ccfg before c ∧
      before = tr ++ [.write c (pl.heapOffset + p.payloadOffset) p.payload] := by
  obtain ⟨d, a, o⟩ := outcome_of hm hsub hmax hg h
  have hc := o.chunks
  obtain ⟨hheld, -⟩ := C30_no_late_write hmax o.valid hc htr rfl
  rw [htr] at hc
  obtain ⟨o1, op, o2, s1, t1, s2, e1, e2, k1, k2, k3, k4⟩ := chunkRun_event hc
  obtain ⟨rfl, rfl, hp, x, data, y, rfl, rfl⟩ := (step_present k3).2 hz
  obtain ⟨e, pl, p, m1, m2, m3, m4, m5, m6⟩ := o.copied k1
  have hv := o.valid
  rw [k1] at hv
  obtain ⟨q1, q2⟩ := C30_copy hmax (ValidOps.prefix hv) k2 m6 (hv o1 _ o2 rfl)
  have hne := o.copied_ne k1
  by_cases hs : Storable ccfg t1 pl
  · obtain ⟨c', g1, g2, g3⟩ := q2 hs
    rw [g3, if_neg hz] at k3
    simp only [List.cons_append, List.nil_append, Option.some.injEq, Prod.mk.injEq, List.cons.injEq, ChunkEv.write.injEq, ChunkEv.present.injEq] at k3
    obtain ⟨-, ⟨rfl, rfl, -⟩, ⟨-, rfl⟩, -⟩ := k3
    obtain ⟨n1, ⟨pl', n2⟩, -⟩ := o.called.acc m1 m2 m3
    obtain ⟨p0, rest, w1, w2, -⟩ := m2
    obtain ⟨-, -, z1, z2, z3, -⟩ := (o.called.ok e m1).1
    refine ⟨p0, pl, p, pl', t1, w2, n2, ?_, by rw [m4]; exact hne, hs.1, g1, by rw [m5], hheld, by rw [k4, m4, m5]⟩
    rw [(z3 p0 (by rw [w1]; simp)).1, (z3 p n1).1]
  · rw [q1 hs] at k3
    simp at k3

/-- The bytes written are the wanted ones. -/
theorem lastWritten_want {cfg : StreamConfig} {ccfg : ChunkConfig} (hm : 0 < cfg.maxHeaps) (hsub : 0 < cfg.substreams) (hmax : 0 < ccfg.maxChunks)
    {ops : List ChunkRecvOp} (hg : GoodHistory ccfg ops) {r : ChunkRecv} (h : ChunkRecv.run cfg ccfg ops = some r)
    {want : Nat → Nat → UInt8} (hw : Consistent want ops) {t t' : List ChunkEv} (ht : r.trace = t ++ t') {c : Chunk} {k off : Nat} {data : Bytes}
    (hin : .write c off data ∈ t) (hk : off ≤ k) (hd : k - off < data.length) : lastWritten c.chunkId k t = some (want c.chunkId k) := by
  unfold lastWritten
  cases hf : t.reverse.findSome? (fun ev => match ev with
    | .write ch off data => if ch.chunkId = c.chunkId ∧ off ≤ k then data[k - off]? else none
    | _ => none) with
  | none =>
    rw [List.findSome?_eq_none_iff] at hf
    have := hf _ (List.mem_reverse.2 hin)
    simp [hk] at this
    omega
  | some b =>
    obtain ⟨ev, hev, hb⟩ := List.exists_of_findSome?_eq_some hf
    rw [List.mem_reverse] at hev
    cases ev with
    | write ch o2 d2 =>
      simp only at hb
      split at hb
      · next hcond =>
        obtain ⟨x, y, hxy⟩ := List.append_of_mem hev
        obtain ⟨p0, pl, p, pl', w1, w2, w3, w4, w5, w6, w7, -⟩ := C70_write hm hsub hmax hg h (before := x) (after := y ++ t') (c := ch) (off := o2) (data := d2)
          (by rw [ht, hxy]; simp)
        have := hw _ w1 w6 _ w2 w3 (k - o2) b (by rw [← w4]; exact hb)
        rw [show pl.heapOffset + p.payloadOffset + (k - o2) = k by omega, ← w7, hcond.1] at this
        rw [this]
      · cases hb
    | _ => simp at hb

/-- C70 (contents). Suppose that the sender sends pieces of chunks (so a packet never contradicts another) and that the place
callback puts them where they belong. Then, from the moment the flag for a heap is set, the chunk has the right contents
throughout the heap. -/
theorem C70_contents {cfg : StreamConfig} {ccfg : ChunkConfig} (hm : 0 < cfg.maxHeaps) (hsub : 0 < cfg.substreams) (hmax : 0 < ccfg.maxChunks)
    {ops : List ChunkRecvOp} (hg : GoodHistory ccfg ops) {r : ChunkRecv} (h : ChunkRecv.run cfg ccfg ops = some r) (hz : ccfg.presenceSize = 0)
    {want : Nat → Nat → UInt8} (hw : Consistent want ops) {t t' : List ChunkEv} (ht : r.trace = t ++ t') {c : Chunk} {i : Nat} (hi : .present c i ∈ t) :
    ∃ e ∈ r.heaps, ∃ pl n, e.heap.isComplete = true ∧ PlacedAt ops e pl ∧ e.heap.heapLength = some n ∧ 0 < n ∧
      0 ≤ pl.chunkId ∧ c.chunkId = pl.chunkId.toNat ∧ i = pl.heapIndex ∧
      ∀ k, k < n → lastWritten c.chunkId (pl.heapOffset + k) t = some (want c.chunkId (pl.heapOffset + k)) := by
  obtain ⟨x, y, hxy⟩ := List.append_of_mem hi
  obtain ⟨e, he, pl, n, q1, q2, q3, q4, q5, q6, q7, q8, q9⟩ := C70_flag hm hsub hmax hg h hz (before := x) (after := y ++ t') (c := c) (i := i)
    (by rw [ht, hxy]; simp)
  refine ⟨e, he, pl, n, q1, q2, q3, q4, q5, q6, q7, fun k hk => ?_⟩
  obtain ⟨b, off, data, -, w2, w3, w4⟩ := q9 k hk
  exact lastWritten_want hm hsub hmax hg h hw ht (by rw [hxy]; exact List.mem_append_left _ w2) w3 (lt_of_getElem? w4)

/-- C70 (contents, flags per packet). -/
theorem C70_packet_contents {cfg : StreamConfig} {ccfg : ChunkConfig} (hm : 0 < cfg.maxHeaps) (hsub : 0 < cfg.substreams) (hmax : 0 < ccfg.maxChunks)
    {ops : List ChunkRecvOp} (hg : GoodHistory ccfg ops) {r : ChunkRecv} (h : ChunkRecv.run cfg ccfg ops = some r) (hz : ccfg.presenceSize ≠ 0)
    {want : Nat → Nat → UInt8} (hw : Consistent want ops) {t t' : List ChunkEv} (ht : r.trace = t ++ t') {c : Chunk} {i : Nat} (hi : .present c i ∈ t) :
    ∃ p0 pl p pl', (p0, pl) ∈ offers ops ∧ (p, pl') ∈ offers ops ∧ p0.heapCnt = p.heapCnt ∧ p.payload ≠ [] ∧
      0 ≤ pl.chunkId ∧ c.chunkId = pl.chunkId.toNat ∧ i = pl.heapIndex + p.payloadOffset / ccfg.presenceSize ∧
      ∀ k, k < p.payload.length → lastWritten c.chunkId (pl.heapOffset + p.payloadOffset + k) t = some (want c.chunkId (pl.heapOffset + p.payloadOffset + k)) := by
  obtain ⟨x, y, hxy⟩ := List.append_of_mem hi
  obtain ⟨p0, pl, p, pl', tr, q1, q2, q3, q4, q5, q6, q7, q8, q9⟩ := C70_packet_flag hm hsub hmax hg h hz (before := x) (after := y ++ t') (c := c) (i := i)
    (by rw [ht, hxy]; simp)
  refine ⟨p0, pl, p, pl', q1, q2, q3, q4, q5, q6, q7, fun k hk => ?_⟩
  exact lastWritten_want hm hsub hmax hg h hw ht (off := pl.heapOffset + p.payloadOffset) (data := p.payload) (by rw [hxy, q9]; simp) (by omega) (by omega)

theorem countP_chunkless {hs : List HeapMeta} {rs : List Nat} (hn : rs.Nodup) (hl : ∀ h ∈ rs, h < hs.length) :
    rs.countP (chunkless hs) ≤ hs.countP (fun m => decide (m.chunk = none)) := by
  have hsub : List.Subperm rs (List.range hs.length) := List.subperm_of_subset hn (fun h hh => List.mem_range.2 (hl h hh))
  have hle := hsub.countP_le (p := chunkless hs)
  have heq : hs.map (fun m => decide (m.chunk = none)) = (List.range hs.length).map (chunkless hs) := by
    apply List.ext_getElem
    · simp
    · intro i h1 h2
      rw [List.length_map] at h1
      simp [chunkless, List.getElem?_eq_getElem h1]
  have h2 : hs.countP (fun m => decide (m.chunk = none)) = (List.range hs.length).countP (chunkless hs) := by
    have := congrArg (List.countP id) heq
    rw [List.countP_map, List.countP_map] at this
    simpa [Function.comp_def] using this
  omega

theorem readies_length {cfg : StreamConfig} {ccfg : ChunkConfig} {ops : List ChunkRecvOp} {r : ChunkRecv} {d : List Entry} {a : AStream}
    (o : Outcome cfg ccfg ops r d a) : (readies r.ops).length = r.heaps.countP fullHeap := by
  have hnd : ((r.heaps.filter fullHeap).map Entry.uid).Nodup := by
    have h1 : List.Sublist (r.heaps.filter fullHeap) (r.heaps ++ d ++ entries a) := by
      refine List.filter_sublist.trans ?_
      rw [List.append_assoc]
      exact List.sublist_append_left _ _
    exact o.called.nodup.sublist (h1.map _)
  have hlen : r.heaps.countP fullHeap = ((r.heaps.filter fullHeap).map Entry.uid).length := by
    rw [List.length_map, List.countP_eq_length_filter]
  rw [hlen]
  apply Nat.le_antisymm
  · have hs : readies r.ops ⊆ ((r.heaps.filter fullHeap).map Entry.uid).map (fun u => (((placedPairs r.calls).map Prod.fst).idxOf? u).getD 0) := by
      intro h hh
      unfold readies at hh
      rw [List.mem_filterMap] at hh
      obtain ⟨op, hop, he⟩ := hh
      split at he
      · simp only [Option.some.injEq] at he
        subst he
        obtain ⟨o1, o2, hoo⟩ := List.append_of_mem hop
        obtain ⟨e, pl, c1, c2, m1, m2, m3, m4, m5, m6, m7, m8, m9, -⟩ := o.readied hoo
        have := idxOf?_append ((placedPairs (.ready e.uid true :: c2)).map Prod.fst) m8
        rw [← List.map_append, ← placedPairs_append, ← m6] at this
        refine List.mem_map.2 ⟨e.uid, List.mem_map.2 ⟨e, List.mem_filter.2 ⟨m1, ?_⟩, rfl⟩, by rw [this]; rfl⟩
        unfold fullHeap
        rw [← m3, Bool.true_and, decide_eq_true_eq]
        exact m4
      · cases he
    have := (List.subperm_of_subset o.readies_nodup hs).length_le
    rwa [List.length_map] at this
  · have hs : (r.heaps.filter fullHeap).map Entry.uid ⊆ (readies r.ops).map (fun h => (((placedPairs r.calls)[h]?).map Prod.fst).getD 0) := by
      intro u hu
      obtain ⟨e, he, rfl⟩ := List.mem_map.1 hu
      obtain ⟨he1, he2⟩ := List.mem_filter.1 he
      obtain ⟨h, h1, pl, h2⟩ := o.reported he1 he2
      exact List.mem_map.2 ⟨h, h1, by rw [h2]; rfl⟩
    have := (List.subperm_of_subset hnd hs).length_le
    rwa [List.length_map (fun h => (((placedPairs r.calls)[h]?).map Prod.fst).getD 0)] at this

/-- C70 (no silent loss). If the user supplies every chunk that is asked for, and flags are per heap, then each complete heap with
payload either has its flag set or is counted: there are at least as many flags and counts as such heaps, and no more flags
than heaps. -/
theorem C70_no_silent_loss {cfg : StreamConfig} {ccfg : ChunkConfig} (hm : 0 < cfg.maxHeaps) (hsub : 0 < cfg.substreams) (hmax : 0 < ccfg.maxChunks)
    {ops : List ChunkRecvOp} (hg : GoodHistory ccfg ops) {r : ChunkRecv} (h : ChunkRecv.run cfg ccfg ops = some r) (hz : ccfg.presenceSize = 0)
    (hall : ∀ n, ccfg.alloc n = true) :
    flagCount r.trace ≤ r.heaps.countP fullHeap ∧ r.heaps.countP fullHeap ≤ flagCount r.trace + lossCount r.trace := by
  obtain ⟨d, a, o⟩ := outcome_of hm hsub hmax hg h
  have hc : Counted r.chunks (readies r.ops) r.trace := by
    have := counted_run hmax hall hz r.ops [] (s := ChunkStream.new ccfg) (tr := []) o.valid rfl ⟨by simp [readies], by simp [readies, flagCount, lossCount, ChunkStream.new], by simp [flagCount]⟩ o.chunks
    simpa using this
  have hle := countP_chunkless o.readies_nodup hc.lt
  have hs := hc.sum
  have hl := hc.le
  rw [← readies_length o]
  omega

theorem placement_split : ∀ {ops : List ChunkOp} {h : Nat} {pl : Place}, (placements ops)[h]? = some pl →
    ∃ before after, ops = before ++ .allocate pl :: after ∧ (placements before).length = h
  | [], h, pl, hp => by simp [placements] at hp
  | op :: ops, h, pl, hp => by
    have key : ∀ {l : List Place} {g : Nat}, placements [op] = l → (placements ops)[g]? = some pl → h = l.length + g →
        ∃ before after, op :: ops = before ++ .allocate pl :: after ∧ (placements before).length = h := by
      intro l g hl hg hh
      obtain ⟨b, a, h1, h2⟩ := placement_split hg
      refine ⟨op :: b, a, by rw [h1]; rfl, ?_⟩
      rw [show op :: b = [op] ++ b from rfl, placements_append, List.length_append, hl, h2, hh]
    rw [show op :: ops = [op] ++ ops from rfl, placements_append] at hp
    cases op with
    | allocate p =>
      cases h with
      | zero =>
        have : p = pl := by simpa [placements] using hp
        exact ⟨[], ops, by rw [this]; rfl, rfl⟩
      | succ h => exact key (l := [p]) (g := h) rfl (by simpa [placements] using hp) (by simp; omega)
    | _ => exact key (l := []) (g := h) rfl (by simpa [placements] using hp) (by simp)

/-- C70 (every flag). If the user supplies every chunk that is asked for, flags are per heap, and no heap was counted as too old
or rejected, then every complete heap with payload that came to its end has its flag set, in the chunk and at the index
where it was placed, and all its payload was written there. -/
theorem C70_every_flag {cfg : StreamConfig} {ccfg : ChunkConfig} (hm : 0 < cfg.maxHeaps) (hsub : 0 < cfg.substreams) (hmax : 0 < ccfg.maxChunks)
    {ops : List ChunkRecvOp} (hg : GoodHistory ccfg ops) {r : ChunkRecv} (h : ChunkRecv.run cfg ccfg ops = some r) (hz : ccfg.presenceSize = 0)
    (hall : ∀ n, ccfg.alloc n = true) (hno : lossCount r.trace = 0) {e : Entry} (he : e ∈ r.heaps) (hf : fullHeap e = true) :
    ∃ pl c n, PlacedAt ops e pl ∧ 0 ≤ pl.chunkId ∧ c.chunkId = pl.chunkId.toNat ∧ .present c pl.heapIndex ∈ r.trace ∧ e.heap.heapLength = some n ∧
      ∀ k, k < n → ∃ off data, .write c off data ∈ r.trace ∧ off ≤ pl.heapOffset + k ∧ pl.heapOffset + k - off < data.length := by
  obtain ⟨d, a, o⟩ := outcome_of hm hsub hmax hg h
  have hnot : ∀ ev ∈ r.trace, ev ≠ .tooOld ∧ ev ≠ .rejected := by
    intro ev hev
    have := (List.countP_eq_zero.1 hno) ev hev
    constructor <;> (rintro rfl; exact this rfl)
  obtain ⟨k, hk, pl0, hk2⟩ := o.reported he hf
  unfold readies at hk
  rw [List.mem_filterMap] at hk
  obtain ⟨op, hop, hke⟩ := hk
  obtain ⟨o1, o2, hoo⟩ := List.append_of_mem hop
  have hop' : op = .heapReady k true := by
    split at hke
    · simp only [Option.some.injEq] at hke
      rw [hke]
    · cases hke
  subst hop'
  obtain ⟨e', pl, c1, c2, m1, m2, m3, m4, m5, m6, m7, m8, m9, -⟩ := o.readied hoo
  have hee : e' = e := by
    obtain ⟨q, hq⟩ := idxOf?_pairs m8
    rw [m6, placedPairs_append, List.getElem?_append_left (lt_of_getElem? hq), hq] at hk2
    refine uid_inj o.called.nodup (by rw [List.append_assoc]; exact List.mem_append_left _ m1)
      (by rw [List.append_assoc]; exact List.mem_append_left _ he) ?_
    simpa using congrArg Prod.fst (Option.some.inj hk2)
  subst hee
  have hv := o.valid
  have hc := o.chunks
  rw [hoo] at hv hc
  obtain ⟨s1, t1, t2, r1, r2, r3⟩ := chunkRun_append ccfg o1 _ _ hc
  obtain ⟨k1, k2, k3, k4⟩ := C30_heap_ready hmax (ValidOps.prefix hv) r1 m5 (hv o1 _ o2 rfl)
  -- the heap could be stored when it was placed
  obtain ⟨bf, af, b1, b2⟩ := placement_split m5
  have hv1 := ValidOps.prefix hv
  rw [b1] at r1 hv1
  obtain ⟨sb, tb, tb2, rb1, rb2, rb3⟩ := chunkRun_append ccfg bf _ _ r1
  obtain ⟨sa, ev, hst, a1, a2, -⟩ := C30_allocate hmax (ValidOps.prefix hv1) rb1 (hv1 bf _ af rfl)
  rw [ChunkStream.run, hst] at rb2
  have hev : ∀ x ∈ ev, x ∈ r.trace := by
    intro x hx
    simp only at rb2
    split at rb2
    · cases rb2
    · simp only [Option.some.injEq, Prod.mk.injEq] at rb2
      rw [r3, rb3, ← rb2.2]
      simp [hx]
  have hpos : 0 ≤ pl.chunkId := by
    apply Classical.byContradiction
    intro hneg
    have := (a1 (by omega)).1
    exact (hnot _ (hev .rejected (by rw [this]; simp))).2 rfl
  have hhead : headAfter tb ≤ pl.chunkId.toNat := by
    apply Classical.byContradiction
    intro hneg
    have := (a2 hpos (by omega)).1
    exact (hnot _ (hev .tooOld (by rw [this]; simp))).1 rfl
  have hstep : ∃ s2 ev2, s1.step ccfg (.heapReady k true) = some (s2, ev2) ∧ ∀ x ∈ ev2, x ∈ r.trace := by
    rw [ChunkStream.run] at r2
    split at r2
    · cases r2
    · next sx x hx =>
      refine ⟨sx, x, hx, ?_⟩
      intro y hy
      split at r2
      · cases r2
      · simp only [Option.some.injEq, Prod.mk.injEq] at r2
        rw [r3, ← r2.2]
        simp [hy]
  obtain ⟨s2, ev2, hs2, hin⟩ := hstep
  have hnow : headAfter t1 ≤ pl.chunkId.toNat := by
    apply Classical.byContradiction
    intro hneg
    have := (k4 bf af sb tb b1 b2 rb1).2 ⟨⟨hpos, hhead, hall _⟩, by omega⟩
    rw [hs2] at this
    simp only [Option.some.injEq, Prod.mk.injEq] at this
    exact (hnot _ (hin .tooOld (by rw [this.2]; simp))).1 rfl
  obtain ⟨c, q1, q2, q3⟩ := k3 ⟨hpos, hnow, hall _⟩
  rw [hs2, if_pos hz] at q3
  simp only [Option.some.injEq, Prod.mk.injEq] at q3
  have hmem : e' ∈ r.heaps ++ d ++ entries a := by rw [List.append_assoc]; exact List.mem_append_left _ m1
  obtain ⟨n, hn⟩ := Option.ne_none_iff_exists'.1 (o.called.ok e' hmem).2.2
  refine ⟨pl, c, n, m2.placedAt, hpos, q1, hin _ (by rw [q3.2]; simp), hn, ?_⟩
  intro j hj
  obtain ⟨p, hpm, hpa, hpb⟩ := (o.called.ok e' hmem).1.covered (o.called.ok e' hmem).2.1 m3.symm hn hj
  have hne : p.payload ≠ [] := by
    intro h0
    rw [h0] at hpb
    simp at hpb
    omega
  obtain ⟨x, y, hxy⟩ := o.copies m6 m7 m8 m9 hpm hne
  rw [b1] at m5 hoo
  obtain ⟨-, -, -, g4⟩ := C30_present_complete hmax hv1 r1 m5 (hv (bf ++ .allocate pl :: af) _ o2 (by rw [b1])) hs2 (c := c) (i := pl.heapIndex) (by rw [q3.2]; simp)
  obtain ⟨ta, tc, sc, sd, sev, w1, w2, w3, w4, w5⟩ := g4 x _ _ y (by rw [← b1]; exact hxy)
  refine ⟨pl.heapOffset + p.payloadOffset, p.payload, ?_, by omega, by omega⟩
  · rw [r3, w4]
    exact List.mem_append_left _ (List.mem_append_left _ (List.mem_append_right _ w5))

/-! ### A concrete history

Chunks of 8 bytes with two heaps each; heap `h` belongs to chunk `h / 2`. The packets of heaps 0 and 1 are interleaved and one
is repeated, heap 2 stays incomplete, heap 12 pushes the first chunk out, and heap 3 comes too late. -/

/-- Configuration of the stream. -/
def exampleRecvConfig : StreamConfig := { maxHeaps := 4, substreams := 1, allowOoo := true }

/-- Configuration of the chunks. -/
def exampleRecvChunks : ChunkConfig :=
  { maxChunks := 2, alloc := fun _ => true, dataSize := fun _ => 8, presentSize := fun _ => 2, extraSize := fun _ => 0 }

/-- Byte `k` of chunk `c`. -/
def exampleWant (c k : Nat) : UInt8 := UInt8.ofNat (16 * c + k)

/-- Two bytes of heap `h`, with the answer of the place callback. -/
def examplePiece (h off : Nat) : ChunkBatchOp :=
  .packet { hab := 48, heapCnt := h, heapLength := some 4, payloadOffset := off, payload := [exampleWant (h / 2) (4 * (h % 2) + off), exampleWant (h / 2) (4 * (h % 2) + off + 1)], pointers := [] }
    { chunkId := (h / 2 : Nat), heapIndex := h % 2, heapOffset := 4 * (h % 2) }

/-- The history. -/
def exampleRecvOps : List ChunkRecvOp :=
  [.batch [examplePiece 0 2, examplePiece 1 0, examplePiece 0 2, examplePiece 0 0], .batch [examplePiece 2 0, examplePiece 1 2],
   .batch [examplePiece 12 0, examplePiece 12 2, examplePiece 3 0, examplePiece 3 2], .flushChunks, .stop]

example : GoodHistory exampleRecvChunks exampleRecvOps := by
  intro x hx
  simp only [exampleRecvOps, offers, batchOffers, examplePiece, List.flatMap_cons, List.flatMap_nil, List.filterMap_cons, List.filterMap_nil,
    List.append_nil, List.mem_append, List.mem_cons, List.not_mem_nil, or_false] at hx
  rcases hx with (rfl | rfl | rfl | rfl) | (rfl | rfl) | (rfl | rfl | rfl | rfl) <;>
    exact ⟨by intro h hh; cases hh; decide, by decide, by intro _; decide, by intro _ len hl; cases hl; decide, by intro _ _; decide, fun _ h => absurd rfl h⟩

example : Consistent exampleWant exampleRecvOps := by
  intro x hx _ y hy hxy i b hb
  simp only [exampleRecvOps, offers, batchOffers, examplePiece, List.flatMap_cons, List.flatMap_nil, List.filterMap_cons, List.filterMap_nil,
    List.append_nil, List.mem_append, List.mem_cons, List.not_mem_nil, or_false] at hx hy
  have hlen : y.1.payload.length = 2 := by
    rcases hy with (rfl | rfl | rfl | rfl) | (rfl | rfl) | (rfl | rfl | rfl | rfl) <;> rfl
  have hi : i = 0 ∨ i = 1 := by
    have := lt_of_getElem? hb
    omega
  rcases hx with (rfl | rfl | rfl | rfl) | (rfl | rfl) | (rfl | rfl | rfl | rfl) <;>
  rcases hy with (rfl | rfl | rfl | rfl) | (rfl | rfl) | (rfl | rfl | rfl | rfl) <;>
  first
  | (exact absurd hxy (by decide))
  | (rcases hi with rfl | rfl <;> (simp at hb; rw [← hb]; decide))

/-- Chunk `n` of the example. -/
def exampleRecvChunk (n : Nat) : Chunk := ⟨n, n, 0⟩

example : (ChunkRecv.run exampleRecvConfig exampleRecvChunks exampleRecvOps).map ChunkRecv.trace = some
    [.win (.alloc 0 0), .write (exampleRecvChunk 0) 2 [2, 3], .write (exampleRecvChunk 0) 4 [4, 5], .write (exampleRecvChunk 0) 0 [0, 1],
     .present (exampleRecvChunk 0) 0, .win (.alloc 1 0), .write (exampleRecvChunk 1) 0 [16, 17], .write (exampleRecvChunk 0) 6 [6, 7],
     .present (exampleRecvChunk 0) 1, .win (.ready (exampleRecvChunk 0)), .win (.ready (exampleRecvChunk 1)), .win (.head 5), .win (.alloc 5 0), .win (.alloc 6 0),
     .write (exampleRecvChunk 6) 0 [96, 97], .write (exampleRecvChunk 6) 2 [98, 99], .present (exampleRecvChunk 6) 0, .tooOld,
     .win (.ready (exampleRecvChunk 5)), .win (.ready (exampleRecvChunk 6)), .win (.head (2 ^ 64 - 1))] := by decide +kernel

example : (ChunkRecv.run exampleRecvConfig exampleRecvChunks exampleRecvOps).map
    (fun r => r.heaps.map (fun e => (e.heap.cnt, e.heap.isComplete))) = some [(0, true), (1, true), (12, true), (3, true), (2, false)] := by decide +kernel

example : (ChunkRecv.run exampleRecvConfig exampleRecvChunks exampleRecvOps).map
    (fun r => [flagCount r.trace, lossCount r.trace, r.heaps.countP fullHeap, (liveHeaps r.stream).length]) = some [3, 1, 4, 0] := by decide +kernel

example : (ChunkRecv.run exampleRecvConfig exampleRecvChunks exampleRecvOps).map (fun r => lastWritten 0 5 r.trace) = some (some 5) := by decide +kernel

example : (ChunkRecv.run exampleRecvConfig exampleRecvChunks (exampleRecvOps.take 2 ++ [.stop])).map
    (fun r => [flagCount r.trace, lossCount r.trace, r.heaps.countP fullHeap, r.heaps.length]) = some [2, 0, 2, 3] := by decide +kernel

end Spead2
