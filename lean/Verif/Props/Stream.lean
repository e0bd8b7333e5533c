import Verif.Lemmas.StreamAccount
import Verif.Props.LiveHeap

/-!
# C19-C24: the receive stream

A history is a list of batches of packets, flushes and stops, applied to a new stream. `Reachable` states
include those in the middle of a batch.
-/

namespace Spead2
open Spec

/-- The stream never gets into undefined behaviour, and hands over exactly what the abstract stream of
`Verif.Spec.Stream` does, in the same order; its live heaps are those of the abstract stream. -/
theorem stream_refines (cfg : StreamConfig) (hm : 0 < cfg.maxHeaps) (hsub : 0 < cfg.substreams) (ops : List StreamOp)
    (hv : ∀ op ∈ ops, op.Valid) :
    ∃ s a t, Stream.run cfg ops (Stream.new cfg) = some (s, handedOver t) ∧ AStream.run cfg ops {} = some (a, t) ∧
      (liveHeaps s).Perm (a.live.map LiveRec.entry) ∧ s.stopped = a.stopped ∧ s.created = a.created := by
  obtain ⟨a, t, s, h1, h2, h3, h4, _⟩ := run_refine hm hsub ops hv (Rel.new cfg) (AInv.new cfg) [] rfl
  exact ⟨s, a, t, h2, h1, liveHeaps_perm hm h3 h4, h3.stopped, h3.created⟩

theorem run_account {cfg : StreamConfig} (hm : 0 < cfg.maxHeaps) (hsub : 0 < cfg.substreams) {ops : List StreamOp}
    (hv : ∀ op ∈ ops, op.Valid) {s : Stream} {out : List Entry} (h : Stream.run cfg ops (Stream.new cfg) = some (s, out)) :
    ∃ a t d, AStream.run cfg ops {} = some (a, t) ∧ out = handedOver t ∧ Rel cfg s a ∧ AInv cfg a none ∧ Account cfg t d a ∧
      d.length ≤ 1 ∧ (d ≠ [] → s.stopped = true) ∧ s.stats = statsOf t s.stats.searchDist := by
  obtain ⟨a, t, s', h1, h2, h3, h4, h5⟩ := run_refine hm hsub ops hv (Rel.new cfg) (AInv.new cfg) [] rfl
  rw [h] at h2
  simp only [Option.some.injEq, Prod.mk.injEq] at h2
  obtain ⟨rfl, rfl⟩ := h2
  obtain ⟨d, g1, g2, g3, g4⟩ := account_run hm hsub ops hv (Account.new cfg) (AInv.new cfg) ⟨by simp, by simp⟩ h1
  exact ⟨a, t, d, h1, rfl, h3, h4, by simpa using g1, g3, fun hd => by rw [h3.stopped]; exact g4 hd, by simpa using h5⟩

theorem reach_account {cfg : StreamConfig} (hm : 0 < cfg.maxHeaps) (hsub : 0 < cfg.substreams) {s : Stream} {hist : List Entry}
    (h : Reachable cfg s hist) :
    ∃ a t d, hist = handedOver t ∧ Rel cfg s a ∧ AInv cfg a none ∧ Account cfg t d a ∧ d.length ≤ 1 := by
  obtain ⟨ops, ps, s0, out, st, out', hv, hv', hr, hst, hb, rfl⟩ := h
  obtain ⟨a, t, d, _, rfl, h3, h4, h5, h6, h7, _⟩ := run_account hm hsub hv hr
  obtain ⟨a', t', e, s', d', q1, q2, q3, q4, _, _⟩ := packets_refine hm hsub ps hv' h3 h4 {} rfl
  rw [hb] at q2
  simp only [Option.some.injEq, Prod.mk.injEq] at q2
  obtain ⟨rfl, _, rfl⟩ := q2
  obtain ⟨drop, b1, b2, b3, b4⟩ := account_packets hm hsub ps hv' h5 h4 q1
  refine ⟨a', t ++ t', d ++ drop, (handedOver_append _ _).symm, q3, q4, b1, ?_⟩
  by_cases hd : d = []
  · rw [hd]; simpa using b3
  · have := hst (h7 hd)
    subst this
    simp only [AStream.packets, Option.some.injEq, Prod.mk.injEq] at q1
    obtain ⟨_, _, rfl⟩ := q1
    by_cases hdr : drop = []
    · rw [hdr]; simpa using h6
    · exact absurd (b4 hdr) (by simp)

/-! ### Example configuration -/

def exCfg : StreamConfig := { maxHeaps := 2, substreams := 2, allowOoo := true }

/-- A packet with 1 byte of payload at offset 0 of a heap of 2 bytes. -/
def exPkt (cnt : Nat) : Pkt :=
  { hab := 40, pointers := [], heapCnt := cnt, heapLength := some 2, payloadOffset := 0, payload := [7] }

def exOps : List StreamOp :=
  [.batch [.packet (exPkt 0), .packet (exPkt 1), .packet (exPkt 2)],
   .batch [.packet { exPkt 2 with payloadOffset := 1 }, .packet (exPkt 4)], .flush, .batch [.packet (exPkt 3)], .stop, .batch [.packet (exPkt 1)]]

theorem exPkt_valid (n : Nat) : PktValid (exPkt n) := by
  intro h e; simp [exPkt] at e; subst e; simp [exPkt]

theorem exOps_valid : ∀ op ∈ exOps, op.Valid := by
  have h2 : PktValid { exPkt 2 with payloadOffset := 1 } := by
    intro h e; simp [exPkt] at e; subst e; simp [exPkt]
  simp only [exOps, List.forall_mem_cons, StreamOp.Valid, OpsValid]
  simp only [List.mem_cons, BatchOp.packet.injEq, List.not_mem_nil, or_false, forall_eq_or_imp, forall_eq, exPkt_valid, h2, true_and]
  exact fun _ h => h.elim

/-! ### C19 -/

/-- C19. At most `max_heaps` heaps per substream are being assembled, in every reachable state. -/
theorem C19_bounded (cfg : StreamConfig) (hm : 0 < cfg.maxHeaps) (hsub : 0 < cfg.substreams) {s : Stream} {hist : List Entry}
    (h : Reachable cfg s hist) (i : Nat) :
    ((liveHeaps s).filter (fun e => e.heap.cnt % cfg.substreams = i)).length ≤ cfg.maxHeaps ∧
    (liveHeaps s).length ≤ cfg.maxHeaps * cfg.substreams := by
  obtain ⟨a, t, d, _, h2, h3, _, _⟩ := reach_account hm hsub h
  have hp := liveHeaps_perm hm h2 h3
  constructor
  · have h4 := (hp.filter (fun e => decide (e.heap.cnt % cfg.substreams = i))).length_eq
    rw [show (liveHeaps s) = s.slots.filterMap Slot.heap from rfl, h4]
    unfold entries
    rw [List.filter_map, List.length_map]
    have h5 : a.live.filter ((fun e : Entry => decide (e.heap.cnt % cfg.substreams = i)) ∘ LiveRec.entry) = a.live.filter (fun r => r.sub = i) := by
      apply List.filter_congr
      intro r hr
      exact decide_eq_decide.2 (by rw [h3.sub r hr])
    rw [h5]
    exact h3.length_sub i
  · have := h2.core.nslots
    have h6 : (s.slots.filterMap Slot.heap).length ≤ s.slots.length := List.length_filterMap_le _ _
    unfold liveHeaps
    omega

/-- The example history reaches both bounds' scale: three live heaps in two substreams of two. -/
example : (Stream.run exCfg (exOps.take 1) (Stream.new exCfg)).map (fun r => (liveHeaps r.1).map (fun e => e.heap.cnt)) = some [2, 0, 1] := by
  decide +kernel

/-! ### C20 -/

/-- C20. After any history, every heap ever started (they have serial numbers 0, 1, ...) has been handed over
once, or is live, or is the complete heap that ended the stream. Every heap is what its packets assemble to,
and every accepted packet is in exactly one heap. No packet is in heaps more often than it was presented. -/
theorem C20_exactly_once (cfg : StreamConfig) (hm : 0 < cfg.maxHeaps) (hsub : 0 < cfg.substreams) (ops : List StreamOp)
    (hv : ∀ op ∈ ops, op.Valid) :
    ∃ s t a dropped, Stream.run cfg ops (Stream.new cfg) = some (s, handedOver t) ∧ AStream.run cfg ops {} = some (a, t) ∧
      ((handedOver t ++ dropped ++ liveHeaps s).map Entry.uid).Perm (List.range s.created) ∧
      dropped.length ≤ 1 ∧
      (∀ e ∈ dropped, e.heap.isComplete = true ∧ e.heap.endOfStream = true ∧ cfg.stopOnStopItem = true ∧ s.stopped = true) ∧
      (∀ e ∈ handedOver t ++ dropped ++ liveHeaps s, Assembled cfg.allowOoo e) ∧
      (t.filterMap Ev.accepted?).Perm ((handedOver t ++ dropped ++ liveHeaps s).flatMap (acceptedBy cfg.allowOoo)) ∧
      ∀ q, ((handedOver t ++ dropped ++ liveHeaps s).flatMap Entry.pkts).count q ≤ (presented ops).count q := by
  obtain ⟨a, t, s, _, h2, _, _, _⟩ := run_refine hm hsub ops hv (Rel.new cfg) (AInv.new cfg) [] rfl
  obtain ⟨a, t', d, k1, k2, k3, k4, k5, k6, k7, _⟩ := run_account hm hsub hv h2
  have hp : (handedOver t' ++ d ++ liveHeaps s).Perm (allHeaps t' d a) := List.Perm.append_left _ (liveHeaps_perm hm k3 k4)
  refine ⟨s, t', a, d, by rw [h2, k2], k1, ?_, k6, ?_, ?_, ?_, ?_⟩
  rotate_right
  · intro q
    rw [(hp.flatMap_right _).count_eq]
    exact Nat.le_trans (k5.given q) (((run_presented k1).2 rfl).1.sublist.count_le q)
  · rw [k3.created]; exact (hp.map _).trans k5.uids
  · intro e he
    obtain ⟨g1, g2, g3⟩ := k5.dropped e he
    exact ⟨g1, g3, g2, k7 (fun h0 => by rw [h0] at he; simp at he)⟩
  · intro e he
    have := hp.subset he
    rcases List.mem_append.1 this with h | h
    · obtain ⟨g1, g2⟩ := k5.done e h
      exact g1.assembled g2
    · obtain ⟨r, hr, rfl⟩ := List.mem_map.1 h
      exact (k4.ok r hr).1.assembled (fun he => absurd ((k4.ok r hr).2.1 he) (by simp))
  · exact k5.packets.trans (hp.flatMap_right _).symm

/-- The example history hands over five heaps: 2 complete, 0 evicted, 4 and 1 flushed, 3 at stop. -/
example : (Stream.run exCfg exOps (Stream.new exCfg)).map (fun r => (r.2.map (fun e => e.heap.cnt), r.1.created)) = some ([2, 0, 4, 1, 3], 5) := by
  decide +kernel

/-! ### C21 -/

/-- C21. The lookup for a packet finds a live heap with the packet's heap cnt exactly when there is one (the
newest, if there are several), and never reads outside the table. -/
theorem C21_lookup_exact (cfg : StreamConfig) (hm : 0 < cfg.maxHeaps) (hsub : 0 < cfg.substreams) {s : Stream} {hist : List Entry}
    (h : Reachable cfg s hist) (st : Batch) (p : Pkt) (hp : p.heapLength ≠ some p.payload.length) :
    ∃ found st', s.lookup cfg st p = some (found, st') ∧
      (found = none ↔ ∀ e ∈ liveHeaps s, e.heap.cnt ≠ p.heapCnt) ∧
      (∀ i, found = some i → ∃ nx e, s.slots[i]? = some ⟨nx, some e⟩ ∧ e.heap.cnt = p.heapCnt ∧
        ∀ e' ∈ liveHeaps s, e'.heap.cnt = p.heapCnt → e'.uid ≤ e.uid) := by
  obtain ⟨a, t, d, _, rel, inv, _, _⟩ := reach_account hm hsub h
  have hperm := liveHeaps_perm hm rel inv
  obtain ⟨l, dist, h1, h2⟩ := bucket_search_spec rel.core (bucketOf_lt cfg) p.heapCnt
  refine ⟨(a.live.find? (fun r => r.entry.heap.cnt = p.heapCnt)).map (posOf cfg), { st with searchDist := st.searchDist + dist }, ?_, ?_, ?_⟩
  · unfold Stream.lookup
    rw [if_neg hp, Option.bind_eq_bind, h1, Option.bind_some, h2, Option.bind_eq_bind, Option.bind_some, find?_table, Option.map_map]
    rfl
  · rw [Option.map_eq_none_iff, List.find?_eq_none]
    constructor
    · intro hn e he
      obtain ⟨r, hr, rfl⟩ := List.mem_map.1 (hperm.subset he)
      simpa using hn r hr
    · intro hn r hr
      have := hn r.entry (hperm.symm.subset (List.mem_map_of_mem hr))
      simpa using this
  · intro i hi
    rw [Option.map_eq_some_iff] at hi
    obtain ⟨r, hr, rfl⟩ := hi
    have hmem := List.mem_of_find?_eq_some hr
    obtain ⟨nx, h3, _⟩ := rel.core.used _ (mem_table hmem)
    refine ⟨nx, r.entry, h3, by simpa using List.find?_some hr, ?_⟩
    intro e' he' hc
    obtain ⟨r', hr', rfl⟩ := List.mem_map.1 (hperm.subset he')
    rw [List.find?_eq_some_iff_append] at hr
    obtain ⟨_, A, B, hAB, hA⟩ := hr
    have hu := inv.uids
    rw [hAB, List.pairwise_append] at hu
    rw [hAB] at hr'
    rcases List.mem_append.1 hr' with hr' | hr'
    · have := hA r' hr'
      simp [hc] at this
    · rcases List.mem_cons.1 hr' with rfl | hr'
      · exact Nat.le_refl _
      · exact Nat.le_of_lt ((List.pairwise_cons.1 hu.2.1).1 r' hr')

/-- C21. Every heap cnt has a bucket, in the table of every reachable state; there are at least four buckets
per heap slot, and their number is a power of two. -/
theorem C21_bucket_in_range (cfg : StreamConfig) (hm : 0 < cfg.maxHeaps) (hsub : 0 < cfg.substreams) {s : Stream} {hist : List Entry}
    (h : Reachable cfg s hist) (cnt : Nat) :
    cfg.bucketOf cnt < s.buckets.length ∧ 4 * s.slots.length ≤ s.buckets.length ∧ ∃ k, s.buckets.length = 2 ^ k := by
  obtain ⟨a, t, d, _, rel, inv, _, _⟩ := reach_account hm hsub h
  rw [rel.core.nbuckets, rel.core.nslots]
  obtain ⟨k, _, h2, h3⟩ := computeBucketCount_pow (cfg.maxHeaps * cfg.substreams)
  exact ⟨bucketOf_lt cfg cnt, by unfold StreamConfig.bucketCount; rw [h2]; exact h3, k, h2⟩

/-- Cnts 1 and 2 + 2^40 are found among other live heaps; 7 is not. -/
example : (Stream.run exCfg [.batch [.packet (exPkt 1), .packet (exPkt (2 + 2 ^ 40)), .packet (exPkt 3)]] (Stream.new exCfg)).bind
    (fun r => (r.1.lookup exCfg {} (exPkt 1)).bind (fun x => (r.1.lookup exCfg {} (exPkt (2 + 2 ^ 40))).bind (fun y =>
      (r.1.lookup exCfg {} (exPkt 7)).map (fun z => (x.1, y.1, z.1))))) = some (some 3, some 1, none) := by
  decide +kernel

/-! ### C22 -/

/-- C22. A heap that a packet pushes out incomplete is the oldest live heap of the packet's substream. It is
pushed out only when the packet starts a heap, and at most one is. -/
theorem C22_oldest_first (cfg : StreamConfig) (hm : 0 < cfg.maxHeaps) (hsub : 0 < cfg.substreams) {s : Stream} {hist : List Entry}
    (h : Reachable cfg s hist) (st : Batch) {p : Pkt} (hv : PktValid p) :
    ∃ r, s.addPacket cfg st p = some r ∧
      (r.out.filter (fun e => e.heap.isComplete = false)).length ≤ 1 ∧
      ∀ e ∈ r.out, e.heap.isComplete = false →
        e ∈ liveHeaps s ∧ e.heap.cnt % cfg.substreams = p.heapCnt % cfg.substreams ∧ r.stream.created = s.created + 1 ∧
        ∀ e' ∈ liveHeaps s, e'.heap.cnt % cfg.substreams = p.heapCnt % cfg.substreams → e.uid ≤ e'.uid := by
  obtain ⟨a, t, d, _, rel, inv, acc, _⟩ := reach_account hm hsub h
  have hperm := liveHeaps_perm hm rel inv
  obtain ⟨res, s', d', h1, h2, h3, h4, h5⟩ := addPacket_refine hm hsub rel inv hv st
  refine ⟨_, h2, ?_⟩
  simp only
  rcases addPacket_account hm inv hv h1 with ⟨g1, g2, g3, g4, g5⟩ | ⟨e, e', drop, ⟨g, hend⟩, hcomp, hdrop, hlen, inv', hcase⟩
  · rw [g2, g3]; simp
  · have hfil : ∀ x ∈ res.completed, ¬ (decide (x.heap.isComplete = false)) = true := by
      intro x hx; rw [(hcomp x hx).2.1]; simp
    rcases hcase with ⟨_, c2, _⟩ | ⟨_, _, _, c4, _, c6, _⟩
    · rw [c2, List.nil_append]
      constructor
      · rw [List.filter_eq_nil_iff.2 hfil]; simp
      · intro x hx hxc
        rw [(hcomp x hx).2.1] at hxc; simp at hxc
    · constructor
      · rw [List.filter_append, List.filter_eq_nil_iff.2 hfil, List.append_nil]
        refine Nat.le_trans (List.length_filter_le _ _) ?_
        rw [c4]
        cases a.victim cfg (p.heapCnt % cfg.substreams) <;> simp
      · intro x hx hxc
        rcases List.mem_append.1 hx with hx | hx
        · rw [c4] at hx
          obtain ⟨v, hv1, rfl⟩ := List.mem_map.1 hx
          obtain ⟨v1, v2, v3⟩ := victim_mem (Option.mem_toList.1 hv1)
          refine ⟨hperm.symm.subset (List.mem_map_of_mem v1), by rw [← inv.sub v v1]; exact v2, by rw [h3.created, rel.created, c6], ?_⟩
          intro e' he' hs'
          obtain ⟨r', hr', rfl⟩ := List.mem_map.1 (hperm.subset he')
          rw [← inv.sub r' hr'] at hs'
          have hseq := inv.hi r' hr'
          rw [hs'] at hseq
          -- uid order follows seq order within a substream
          rcases Nat.lt_or_ge r'.entry.uid v.entry.uid with hlt | hge
          · exfalso
            have q1 := acc.seq r' hr'
            have q2 := acc.seq v v1
            rw [hs'] at q1
            rw [v2] at q2
            have hle : r'.seq < v.seq := by
              rw [q1, q2]
              have hmemall : r'.entry ∈ allHeaps t d a := List.mem_append_right _ (List.mem_map_of_mem hr')
              obtain ⟨A, B, hAB⟩ := List.append_of_mem hmemall
              rw [hAB]
              simp only [List.countP_append, List.countP_cons]
              have m1 : A.countP (fun e => decide (e.heap.cnt % cfg.substreams = p.heapCnt % cfg.substreams) && decide (e.uid < r'.entry.uid)) ≤
                  A.countP (fun e => decide (e.heap.cnt % cfg.substreams = p.heapCnt % cfg.substreams) && decide (e.uid < v.entry.uid)) := by
                apply List.countP_mono_left
                intro y _ hy
                simp only [Bool.and_eq_true, decide_eq_true_eq] at hy ⊢
                exact ⟨hy.1, by omega⟩
              have m2 : B.countP (fun e => decide (e.heap.cnt % cfg.substreams = p.heapCnt % cfg.substreams) && decide (e.uid < r'.entry.uid)) ≤
                  B.countP (fun e => decide (e.heap.cnt % cfg.substreams = p.heapCnt % cfg.substreams) && decide (e.uid < v.entry.uid)) := by
                apply List.countP_mono_left
                intro y _ hy
                simp only [Bool.and_eq_true, decide_eq_true_eq] at hy ⊢
                exact ⟨hy.1, by omega⟩
              rw [if_neg (by simp), if_pos (by
                simp only [Bool.and_eq_true, decide_eq_true_eq]
                exact ⟨by rw [← inv.sub r' hr']; exact hs', hlt⟩)]
              omega
            omega
          · exact hge
        · exfalso
          rw [(hcomp x hx).2.1] at hxc; simp at hxc

/-- C22. A packet only hands over heaps of its own substream, and leaves the live heaps of the others alone. -/
theorem C22_substreams_independent (cfg : StreamConfig) (hm : 0 < cfg.maxHeaps) (hsub : 0 < cfg.substreams) {s : Stream} {hist : List Entry}
    (h : Reachable cfg s hist) (st : Batch) {p : Pkt} (hv : PktValid p) :
    ∃ r, s.addPacket cfg st p = some r ∧
      (∀ e ∈ r.out, e.heap.cnt % cfg.substreams = p.heapCnt % cfg.substreams) ∧
      ((liveHeaps r.stream).filter (fun e => e.heap.cnt % cfg.substreams ≠ p.heapCnt % cfg.substreams)).Perm
        ((liveHeaps s).filter (fun e => e.heap.cnt % cfg.substreams ≠ p.heapCnt % cfg.substreams)) := by
  obtain ⟨a, t, d, _, rel, inv, acc, _⟩ := reach_account hm hsub h
  have hperm := liveHeaps_perm hm rel inv
  obtain ⟨res, s', d', h1, h2, h3, h4, h5⟩ := addPacket_refine hm hsub rel inv hv st
  have hperm' := liveHeaps_perm hm h3 h4
  refine ⟨_, h2, ?_⟩
  simp only
  have key : (∀ e ∈ res.evicted ++ res.completed, e.heap.cnt % cfg.substreams = p.heapCnt % cfg.substreams) ∧
      ((entries res.stream).filter (fun e => e.heap.cnt % cfg.substreams ≠ p.heapCnt % cfg.substreams)).Perm
        ((entries a).filter (fun e => e.heap.cnt % cfg.substreams ≠ p.heapCnt % cfg.substreams)) := by
    rcases addPacket_account hm inv hv h1 with ⟨g1, g2, g3, g4, g5⟩ | ⟨e, e', drop, ⟨g, hend⟩, hcomp, hdrop, hlen, inv', hcase⟩
    · rw [g1, g2, g3]; exact ⟨by simp, List.Perm.refl _⟩
    · have hs : e.heap.cnt % cfg.substreams = p.heapCnt % cfg.substreams := by rw [g.pcnt]
      have hs' : e'.heap.cnt % cfg.substreams = p.heapCnt % cfg.substreams := by rw [g.cnt, g.pcnt]
      have hev : ∀ x ∈ res.evicted, x.heap.cnt % cfg.substreams = p.heapCnt % cfg.substreams := by
        intro x hx
        rcases hcase with ⟨_, c2, _⟩ | ⟨_, _, _, c4, _⟩
        · rw [c2] at hx; simp at hx
        · rw [c4] at hx
          obtain ⟨v, hv1, rfl⟩ := List.mem_map.1 hx
          obtain ⟨v1, v2, v3⟩ := victim_mem (Option.mem_toList.1 hv1)
          rw [← inv.sub v v1]; exact v2
      have hco : ∀ x ∈ res.completed, x.heap.cnt % cfg.substreams = p.heapCnt % cfg.substreams := by
        intro x hx; rw [(hcomp x hx).1]; exact hs'
      have hdr : ∀ x ∈ drop, x.heap.cnt % cfg.substreams = p.heapCnt % cfg.substreams := by
        intro x hx; rw [(hdrop x hx).1]; exact hs'
      have hz : ∀ l : List Entry, (∀ x ∈ l, x.heap.cnt % cfg.substreams = p.heapCnt % cfg.substreams) →
          l.filter (fun e => e.heap.cnt % cfg.substreams ≠ p.heapCnt % cfg.substreams) = [] := by
        intro l hl
        rw [List.filter_eq_nil_iff]
        intro x hx
        simp [hl x hx]
      refine ⟨?_, ?_⟩
      · intro x hx
        rcases List.mem_append.1 hx with hx | hx
        · exact hev x hx
        · exact hco x hx
      · rcases hcase with ⟨_, _, ⟨X, c3, c4⟩, _⟩ | ⟨_, _, _, _, c5, _⟩
        · have k1 := c3.filter (fun e => decide (e.heap.cnt % cfg.substreams ≠ p.heapCnt % cfg.substreams))
          have k2 := c4.filter (fun e => decide (e.heap.cnt % cfg.substreams ≠ p.heapCnt % cfg.substreams))
          rw [List.filter_append, List.filter_append, hz _ hco, hz _ hdr, List.filter_cons, if_neg (by simp [hs'])] at k2
          rw [List.filter_cons, if_neg (by simp [hs])] at k1
          exact k2.trans k1.symm
        · have k2 := c5.filter (fun e => decide (e.heap.cnt % cfg.substreams ≠ p.heapCnt % cfg.substreams))
          rw [List.filter_append, List.filter_append, List.filter_append, hz _ hev, hz _ hco, hz _ hdr, List.filter_cons,
            if_neg (by simp [hs'])] at k2
          exact k2
  exact ⟨key.1, ((hperm'.filter _).trans key.2).trans (hperm.filter _).symm⟩

theorem countP_split {cfg : StreamConfig} (all : List Entry) (hnd : (all.map Entry.uid).Nodup) {e : Entry} (he : e ∈ all) :
    all.countP (fun x => decide (x.heap.cnt % cfg.substreams = e.heap.cnt % cfg.substreams)) =
      all.countP (fun x => decide (x.heap.cnt % cfg.substreams = e.heap.cnt % cfg.substreams) && decide (x.uid < e.uid)) + 1 + newer cfg all e := by
  obtain ⟨A, B, rfl⟩ := List.append_of_mem he
  have key : ∀ l : List Entry, (∀ x ∈ l, x.uid ≠ e.uid) →
      l.countP (fun x => decide (x.heap.cnt % cfg.substreams = e.heap.cnt % cfg.substreams)) =
      l.countP (fun x => decide (x.heap.cnt % cfg.substreams = e.heap.cnt % cfg.substreams) && decide (x.uid < e.uid)) +
      l.countP (fun x => decide (x.heap.cnt % cfg.substreams = e.heap.cnt % cfg.substreams) && decide (e.uid < x.uid)) := by
    intro l
    induction l with
    | nil => intro _; rfl
    | cons x l ih =>
      intro hl
      have h1 := ih (fun y hy => hl y (List.mem_cons_of_mem _ hy))
      have h2 := hl x List.mem_cons_self
      simp only [List.countP_cons]
      rw [h1]
      rcases Nat.lt_or_gt_of_ne h2 with h3 | h3
      · have h4 : ¬ e.uid < x.uid := by omega
        rw [decide_eq_true h3, decide_eq_false h4, Bool.and_true, Bool.and_false]
        simp only [Bool.false_eq_true, if_false]
        omega
      · have h4 : ¬ x.uid < e.uid := by omega
        rw [decide_eq_true h3, decide_eq_false h4, Bool.and_true, Bool.and_false]
        simp only [Bool.false_eq_true, if_false]
        omega
  rw [List.map_append, List.map_cons, List.nodup_append] at hnd
  obtain ⟨n1, n2, n3⟩ := hnd
  rw [List.nodup_cons] at n2
  have hA := key A (fun x hx h => n3 x.uid (List.mem_map_of_mem hx) e.uid List.mem_cons_self h)
  have hB := key B (fun x hx h => n2.1 (h ▸ List.mem_map_of_mem hx))
  unfold newer
  simp only [List.countP_append, List.countP_cons]
  rw [hA, hB]
  simp
  omega

/-- C22. A heap is pushed out exactly when `max_heaps` heaps of its substream have been started after it,
counting the one that the packet starts: neither before (see also `C22_oldest_first`), nor later. -/
theorem C22_window (cfg : StreamConfig) (hm : 0 < cfg.maxHeaps) (hsub : 0 < cfg.substreams) {s : Stream} {hist : List Entry}
    (h : Reachable cfg s hist) :
    ∃ dropped, ((hist ++ dropped ++ liveHeaps s).map Entry.uid).Perm (List.range s.created) ∧ dropped.length ≤ 1 ∧
      (∀ e ∈ liveHeaps s, newer cfg (hist ++ dropped ++ liveHeaps s) e < cfg.maxHeaps) ∧
      ∀ (st : Batch) (p : Pkt) (r : AddResult), PktValid p → s.addPacket cfg st p = some r →
        ∀ e ∈ r.out, e.heap.isComplete = false → newer cfg (hist ++ dropped ++ liveHeaps s) e + 1 = cfg.maxHeaps := by
  obtain ⟨a, t, d, rfl, rel, inv, acc, hd⟩ := reach_account hm hsub h
  have hperm := liveHeaps_perm hm rel inv
  have hp : (handedOver t ++ d ++ liveHeaps s).Perm (allHeaps t d a) := List.Perm.append_left _ hperm
  have hu : ((handedOver t ++ d ++ liveHeaps s).map Entry.uid).Perm (List.range s.created) := by
    rw [rel.created]; exact (hp.map _).trans acc.uids
  have hnd : ((allHeaps t d a).map Entry.uid).Nodup := acc.uids.nodup_iff.2 List.nodup_range
  have hnew : ∀ r ∈ a.live, r.seq + 1 + newer cfg (handedOver t ++ d ++ liveHeaps s) r.entry = a.started r.sub := by
    intro r hr
    have h1 := countP_split (cfg := cfg) (allHeaps t d a) hnd (e := r.entry) (List.mem_append_right _ (List.mem_map_of_mem hr))
    have h2 := acc.seq r hr
    have h3 := acc.started r.sub
    rw [inv.sub r hr] at h2 h3
    rw [← h3, ← h2] at h1
    have h4 : newer cfg (handedOver t ++ d ++ liveHeaps s) r.entry = newer cfg (allHeaps t d a) r.entry := hp.countP_eq _
    rw [h4, inv.sub r hr]
    exact h1.symm
  refine ⟨d, hu, hd, ?_, ?_⟩
  · intro e he
    obtain ⟨r, hr, rfl⟩ := List.mem_map.1 (hperm.subset he)
    have h1 := hnew r hr
    have h2 := inv.hi r hr
    omega
  · intro st p r hv hr e he hec
    obtain ⟨res, s', d', h1, h2, h3, h4, h5⟩ := addPacket_refine hm hsub rel inv hv st
    rw [hr] at h2
    simp only [Option.some.injEq] at h2
    subst h2
    simp only at he
    rcases addPacket_account hm inv hv h1 with ⟨g1, g2, g3, g4, g5⟩ | ⟨e0, e', drop, ⟨g, hend⟩, hcomp, hdrop, hlen, inv', hcase⟩
    · rw [g2, g3] at he; simp at he
    · rcases List.mem_append.1 he with he | he
      · rcases hcase with ⟨_, c2, _⟩ | ⟨_, _, _, c4, _⟩
        · rw [c2] at he; simp at he
        · rw [c4] at he
          obtain ⟨v, hv1, rfl⟩ := List.mem_map.1 he
          obtain ⟨v1, v2, v3⟩ := victim_mem (Option.mem_toList.1 hv1)
          have := hnew v v1
          rw [v2] at this
          omega
      · rw [(hcomp e he).2.1] at hec; simp at hec

/-- In the example, heap 4 pushes out heap 0 (and not 1, the oldest of the other substream). -/
example : (Stream.run exCfg [.batch [.packet (exPkt 1), .packet (exPkt 0), .packet (exPkt 2)]] (Stream.new exCfg)).bind
    (fun r => (r.1.addPacket exCfg {} (exPkt 4)).map (fun x => (x.out.map (fun e => (e.heap.cnt, e.heap.isComplete)), (liveHeaps x.stream).map (fun e => e.heap.cnt)))) =
    some ([(0, false)], [2, 4, 1]) := by
  decide +kernel

/-! ### C23 -/

/-- C23. The statistics add up: `pre` is the list of packets that were presented before the stream stopped
(all of them, if it did not stop) and `sizes` the sizes of the batches they came in. -/
theorem C23_statistics (cfg : StreamConfig) (hm : 0 < cfg.maxHeaps) (hsub : 0 < cfg.substreams) (ops : List StreamOp)
    (hv : ∀ op ∈ ops, op.Valid) :
    ∃ s out pre sizes, Stream.run cfg ops (Stream.new cfg) = some (s, out) ∧
      s.stats.heaps = out.length ∧
      s.stats.evicted + s.stats.flushed = out.countP (fun e => !e.heap.isComplete) ∧
      pre <+: presented ops ∧ (s.stopped = false → pre = presented ops) ∧
      s.stats.packets = pre.length ∧
      s.stats.single = pre.countP (fun p => p.heapLength = some p.payload.length) ∧
      sizes.sum = pre.length ∧ (s.stopped = false → sizes = batchSizes ops) ∧
      s.stats.batches = sizes.length ∧ s.stats.maxBatch = sizes.foldr max 0 := by
  obtain ⟨a, t, s, _, h2, _, _, _⟩ := run_refine hm hsub ops hv (Rel.new cfg) (AInv.new cfg) [] rfl
  obtain ⟨a, t', d, k1, k2, k3, k4, k5, k6, k7, k8⟩ := run_account hm hsub hv h2
  obtain ⟨p1, p2, p3⟩ := (run_presented k1).2 rfl
  refine ⟨s, handedOver t, t'.filterMap Ev.packet?, t'.filterMap Ev.batch?, h2, ?_, ?_, p1, ?_, ?_, ?_, p2, ?_, ?_, ?_⟩
  · rw [k8, k2]; rfl
  · rw [k8, k2]
    simp only [statsOf]
    have he := k5.evicted
    have hf := k5.flushed
    have hc := k5.completed
    clear k8 k5 k1 k2 p1 p2 p3
    induction t' with
    | nil => rfl
    | cons x t' ih =>
      have ih' := ih (fun e h => he e (List.mem_cons_of_mem _ h)) (fun e h => hf e (List.mem_cons_of_mem _ h))
        (fun e h => hc e (List.mem_cons_of_mem _ h))
      unfold handedOver at ih' ⊢
      rw [List.countP_cons, List.countP_cons, List.filterMap_cons]
      cases x with
      | packet p b => simpa [Ev.isEvicted, Ev.isFlushed, Ev.heap?] using ih'
      | batch n => simpa [Ev.isEvicted, Ev.isFlushed, Ev.heap?] using ih'
      | evicted e =>
        simp only [Ev.isEvicted, Ev.isFlushed, Ev.heap?, List.countP_cons, he e List.mem_cons_self]
        simp
        omega
      | flushed e =>
        simp only [Ev.isEvicted, Ev.isFlushed, Ev.heap?, List.countP_cons, hf e List.mem_cons_self]
        simp
        omega
      | completed e =>
        simp only [Ev.isEvicted, Ev.isFlushed, Ev.heap?, List.countP_cons, (hc e List.mem_cons_self).1]
        simp
        omega
  · intro hs; exact (p3 (by rw [← k3.stopped]; exact hs)).1
  · rw [k8]; exact packetCount_eq t'
  · rw [k8]; exact single_eq t'
  · intro hs; exact (p3 (by rw [← k3.stopped]; exact hs)).2
  · rw [k8]; exact batches_eq t'
  · rw [k8]; rfl

/-- Statistics of the example: 5 heaps, one evicted and three flushed, 6 packets in 3 batches. -/
example : (Stream.run exCfg exOps (Stream.new exCfg)).map (fun r => { r.1.stats with searchDist := 0 }) =
    some { heaps := 5, evicted := 1, flushed := 3, packets := 6, batches := 3, maxBatch := 3, single := 0, searchDist := 0 } := by
  decide +kernel

/-! ### C24 -/

/-- C24. Stopping a running stream hands over all its live heaps, by substream and within a substream oldest
first. -/
theorem C24_stop_flushes (cfg : StreamConfig) (hm : 0 < cfg.maxHeaps) (hsub : 0 < cfg.substreams) {ops : List StreamOp}
    (hv : ∀ op ∈ ops, op.Valid) {s : Stream} {out : List Entry} (h : Stream.run cfg ops (Stream.new cfg) = some (s, out))
    (hs : s.stopped = false) :
    ∃ s' out', s.stop cfg = some (s', out') ∧ s'.stopped = true ∧ liveHeaps s' = [] ∧ out'.Perm (liveHeaps s) ∧
      out'.Pairwise (fun x y => x.heap.cnt % cfg.substreams < y.heap.cnt % cfg.substreams ∨
        (x.heap.cnt % cfg.substreams = y.heap.cnt % cfg.substreams ∧ x.uid < y.uid)) := by
  obtain ⟨a, t, d, k1, k2, rel, inv, _, _, _, _⟩ := run_account hm hsub hv h
  obtain ⟨s', h1, h2, h3⟩ := stopReceived_refine hm hsub rel inv (by rw [← rel.stopped]; exact hs)
  refine ⟨s', _, ?_, ?_, ?_, ?_, inv.flushed_sorted⟩
  · unfold Stream.stop; rw [hs, if_neg (by simp), h1]
  · rw [h2.stopped]; rfl
  · have := liveHeaps_perm hm h2 (AInv.clear cfg a true)
    exact List.perm_nil.1 this
  · exact (inv.flushed_perm hsub).trans (liveHeaps_perm hm rel inv).symm

/-- C24. A stopped stream has no live heaps. Whatever happens to a stopped stream afterwards, it
hands over nothing, keeps nothing and counts nothing. -/
theorem C24_stop_is_final (cfg : StreamConfig) (hm : 0 < cfg.maxHeaps) (hsub : 0 < cfg.substreams) {ops : List StreamOp}
    (hv : ∀ op ∈ ops, op.Valid) {s : Stream} {out : List Entry} (h : Stream.run cfg ops (Stream.new cfg) = some (s, out))
    (hs : s.stopped = true) (ops' : List StreamOp) (hv' : ∀ op ∈ ops', op.Valid) :
    liveHeaps s = [] ∧ ∃ s', Stream.run cfg ops' s = some (s', []) ∧ s'.stopped = true ∧ liveHeaps s' = [] ∧
      s'.created = s.created ∧ { s'.stats with searchDist := 0 } = { s.stats with searchDist := 0 } := by
  obtain ⟨a, t, d, k1, k2, rel, inv, acc, kd1, kd2, hst⟩ := run_account hm hsub hv h
  have hl := (run_live k1 (by simp)).1
  have hsa : a.stopped = true := by rw [← rel.stopped]; exact hs
  have hlive : liveHeaps s = [] := by
    have := liveHeaps_perm hm rel inv
    unfold entries at this
    rw [hl hsa] at this
    exact List.perm_nil.1 this
  refine ⟨hlive, ?_⟩
  obtain ⟨a', t', s', h1, h2, h3, h4, h5⟩ := run_refine hm hsub ops' hv' rel inv t hst
  obtain ⟨l1, l2⟩ := run_live h1 hl
  obtain ⟨ht, hcr⟩ := l2 hsa
  subst ht
  have hstop := ((run_presented h1).1 hsa).1
  have hlive' : liveHeaps s' = [] := by
    have := liveHeaps_perm hm h3 h4
    unfold entries at this
    rw [l1 hstop] at this
    exact List.perm_nil.1 this
  refine ⟨s', h2, by rw [h3.stopped]; exact hstop, hlive', ?_, ?_⟩
  · rw [h3.created, rel.created, hcr]
  · rw [h5, hst, List.append_nil]; rfl

/-- C24. A batch that signals the end of the stream leaves the stream stopped. -/
theorem C24_signal_stops (cfg : StreamConfig) (hm : 0 < cfg.maxHeaps) (hsub : 0 < cfg.substreams) (ops : List StreamOp)
    (hv : ∀ op ∈ ops, op.Valid) (l : List BatchOp) (hl : .batch l ∈ ops) (hstop : BatchOp.stop ∈ l) :
    ∃ s out, Stream.run cfg ops (Stream.new cfg) = some (s, out) ∧ s.stopped = true := by
  obtain ⟨a, t, s, h1, h2, h3, _, _⟩ := run_refine hm hsub ops hv (Rel.new cfg) (AInv.new cfg) [] rfl
  refine ⟨s, _, h2, ?_⟩
  rw [h3.stopped]
  have key : ∀ {ops : List StreamOp} {a a' : AStream} {t : List Ev}, AStream.run cfg ops a = some (a', t) → .batch l ∈ ops → a'.stopped = true := by
    intro ops
    induction ops with
    | nil => intro _ _ _ _ h; simp at h
    | cons op ops ih =>
      intro a a' t h hmem
      rw [AStream.run] at h
      cases h1 : a.step cfg op with
      | none => rw [h1] at h; simp at h
      | some x =>
        obtain ⟨a1, t1⟩ := x
        rw [h1] at h
        simp only at h
        cases h2 : AStream.run cfg ops a1 with
        | none => rw [h2] at h; simp at h
        | some y =>
          obtain ⟨a2, t2⟩ := y
          rw [h2] at h
          simp only [Option.some.injEq, Prod.mk.injEq] at h
          obtain ⟨rfl, rfl⟩ := h
          rcases List.mem_cons.1 hmem with rfl | hmem
          · refine ((run_presented h2).1 ?_).1
            simp only [AStream.step] at h1
            cases hs : a.stopped with
            | true =>
              simp only [hs, if_true, Option.some.injEq, Prod.mk.injEq] at h1
              rw [← h1.1]; exact hs
            | false =>
              rw [hs, if_neg (by simp)] at h1
              cases hp : AStream.packets cfg l a with
              | none => rw [hp] at h1; simp at h1
              | some x =>
                obtain ⟨a3, t3, en⟩ := x
                have := packets_stop_mem hp hstop
                subst this
                rw [hp] at h1
                simp only [Option.some.injEq, Prod.mk.injEq] at h1
                rw [← h1.1]; rfl
          · exact ih h2 hmem
  exact key h1 hl

/-- C24. With `stop_on_stop_item`, an accepted packet that has a stop item ends the stream (`is_stopped` of
the batch becomes true, and the batch then stops the stream, see `C24_signal_stops`). A packet ends the stream
only if it was accepted, `stop_on_stop_item` is set, and a packet that its heap accepted has a stop item. -/
theorem C24_stop_item (cfg : StreamConfig) (hm : 0 < cfg.maxHeaps) (hsub : 0 < cfg.substreams) {s : Stream} {hist : List Entry}
    (h : Reachable cfg s hist) (st : Batch) (hst : st.stopped = false) {p : Pkt} (hv : PktValid p) :
    ∃ r, s.addPacket cfg st p = some r ∧
      (r.accepted = true → cfg.stopOnStopItem = true → (∃ q ∈ p.pointers, isStop p.hab q) → r.batch.stopped = true) ∧
      (r.batch.stopped = true → r.accepted = true ∧ cfg.stopOnStopItem = true ∧
        ∃ e, e.heap.cnt = p.heapCnt ∧ e.pkts.getLast? = some p ∧ Assembled cfg.allowOoo e ∧
          ∃ x ∈ acceptedBy cfg.allowOoo e, ∃ q ∈ x.pointers, isStop x.hab q) := by
  obtain ⟨a, t, d, _, rel, inv, acc, _⟩ := reach_account hm hsub h
  obtain ⟨res, s', d', h1, h2, h3, h4, h5⟩ := addPacket_refine hm hsub rel inv hv st
  refine ⟨_, h2, ?_⟩
  simp only [hst, Bool.false_or]
  rcases addPacket_account hm inv hv h1 with ⟨g1, g2, g3, g4, g5⟩ | ⟨e, e', drop, ⟨g, hend⟩, _⟩
  · rw [g4, g5]; simp
  · have hne : e'.pkts ≠ [] := by rw [g.pkts]; simp
    have hasm := g.ok'.assembled hne
    obtain ⟨p0, rest, ac, a1, a2, a3⟩ := hasm
    have hab : acceptedBy cfg.allowOoo e' = ac := by
      unfold acceptedBy
      rw [a1]
      rw [a1] at a3
      simp only
      rw [a3]; rfl
    obtain ⟨p0', ac', b1, b2, b3, b4, b5⟩ := g.ok'
    have hp0 : p0 = p0' := b1 p0 (by rw [a1]; rfl)
    subst hp0
    rw [a3] at b4
    simp only [Option.some.injEq, Prod.mk.injEq, true_and] at b4
    subst b4
    have heos := (C16_pointers p0 cfg.allowOoo e'.pkts (fun q hq => (b3 q hq).2) e'.heap ac a3).2.2
    rw [hend]
    constructor
    · intro c1 c2 ⟨q, hq, hs⟩
      rw [c1, c2]
      simp only [Bool.true_and]
      rw [heos]
      have hmem : p ∈ ac := by
        rw [← hab, g.accepted, c1]; simp
      exact ⟨p, hmem, q, hq, by rw [← b5.hab p hmem]; exact hs⟩
    · intro hc
      simp only [Bool.and_eq_true] at hc
      refine ⟨hc.1.1, hc.1.2, e', by rw [g.cnt, g.pcnt], by rw [g.pkts]; simp, ⟨p0, rest, ac, a1, a2, a3⟩, ?_⟩
      obtain ⟨x, hx, q, hq, hs⟩ := heos.1 hc.2
      rw [hab]
      exact ⟨x, hx, q, hq, by rw [b5.hab x hx]; exact hs⟩

/-- A stop item (id 6, value 2, 40-bit addresses) in a packet of the example stream. -/
def exStop : Pkt := { exPkt 9 with pointers := [2 ^ 63 + 6 * 2 ^ 40 + 2] }

/-- After the stop item, the incomplete stop heap is flushed with the others and the rest of the batch ignored. -/
example : (Stream.run exCfg [.batch [.packet (exPkt 0), .packet exStop, .packet (exPkt 3)], .batch [.packet (exPkt 5)], .flush]
    (Stream.new exCfg)).map (fun r => (r.2.map (fun e => e.heap.cnt), r.1.stopped, r.1.stats.packets)) = some ([0, 9], true, 2) := by
  decide +kernel

end Spead2
