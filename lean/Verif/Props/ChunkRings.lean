import Verif.Lemmas.ChunkRingsOrder
import Verif.Props.ChunkRecv

/-!
# C71: chunk streams on ringbuffers
-/

namespace Spead2

open Spec

/-- The state that streams `fds`, `n` chunks and rings with capacities `a` and `b` reach after `ops`, with the outcomes `outs`. -/
def RingsReach (fds : List Feed) (n a b : Nat) (ops : List RingsOp) (s : ChunkRings) (outs : List RingsOut) : Prop :=
  ∃ pr by_, ChunkRings.run fds ops (ChunkRings.new fds n a b pr by_) = some (s, outs)

/-- C71. Whatever the streams, the user and the consumer do, in any order, nothing undefined happens: streams use only chunks that
they hold, and a producer is not removed twice. -/
theorem C71_total {fds : List Feed} (good : ∀ fd ∈ fds, GoodFeed fd) (n a b : Nat) (pr : Nat → Nat → Bool) (by_ : Nat → Nat → UInt8) (ops : List RingsOp) :
    ∃ s outs, ChunkRings.run fds ops (ChunkRings.new fds n a b pr by_) = some (s, outs) := by
  obtain ⟨s, os, h, -⟩ := CrInv.run good ops (CrInv.init good n a b pr by_)
  exact ⟨s, os, h⟩

/-- C71 (conservation). Every chunk is in exactly one place: no chunk is lost or in use twice. -/
theorem C71_conserved {fds : List Feed} (good : ∀ fd ∈ fds, GoodFeed fd) {n a b : Nat} {ops : List RingsOp} {s : ChunkRings} {outs : List RingsOut}
    (h : RingsReach fds n a b ops s outs) : ((whereabouts s).map Prod.snd).Perm (List.range n) := by
  obtain ⟨pr, by_, h⟩ := h
  exact (rings_inv good h).perm

/-- C71 (streams). Each stream does what a chunk stream does (C29, C30) whose requests for chunks get the answers that this
stream got; the chunks it got are those it handed over, in order, followed by those in its window. -/
theorem C71_stream {fds : List Feed} (good : ∀ fd ∈ fds, GoodFeed fd) {n a b : Nat} {ops : List RingsOp} {s : ChunkRings} {outs : List RingsOut}
    (h : RingsReach fds n a b ops s outs) {i : Nat} {fd : Feed} {f : Feeder} (hfd : fds[i]? = some fd) (hf : s.feeders[i]? = some f) :
    (∃ cs t, ChunkStream.run { fd.cfg with alloc := answerFn f.ans } fd.ops (ChunkStream.new { fd.cfg with alloc := answerFn f.ans }) = some (cs, t) ∧ f.effects <+: t) ∧
    requested (winEvs f.effects) = f.ans.map Prod.fst ∧
    supplied (answerFn f.ans) (winEvs f.effects) = readied (winEvs f.effects) ++ f.held.map Prod.fst ∧ f.held.length ≤ fd.cfg.maxChunks := by
  obtain ⟨pr, by_, h⟩ := h
  have hF := (rings_inv good h).feed i fd f hfd hf
  obtain ⟨cs, r, ht⟩ := hF.prefixTrace (good fd (List.mem_of_getElem? hfd))
  exact ⟨⟨cs, _, ht, List.prefix_append _ _⟩, hF.reqs, hF.suppliedEq, hF.heldLen⟩

/-- C71 (no refusal). Until the free ring is stopped, every request for a chunk is granted. -/
theorem C71_granted {fds : List Feed} (good : ∀ fd ∈ fds, GoodFeed fd) {n a b : Nat} {ops : List RingsOp} {s : ChunkRings} {outs : List RingsOut}
    (h : RingsReach fds n a b ops s outs) (hs : s.freeStopped = false) {i : Nat} {f : Feeder} (hf : s.feeders[i]? = some f) : ∀ x ∈ f.ans, x.2 = true := by
  obtain ⟨pr, by_, h⟩ := h
  exact (rings_order good h).granted hs i f hf

/-- C71 (order). The chunks that the consumer got from a stream, followed by those in the data ring, are the chunks that
the stream handed over, in that order: all of them if the data ring was not stopped by the user, or has not been stopped yet;
otherwise the first of them. -/
theorem C71_order {fds : List Feed} (good : ∀ fd ∈ fds, GoodFeed fd) {n a b : Nat} {ops : List RingsOp} {s : ChunkRings} {outs : List RingsOut}
    (h : RingsReach fds n a b ops s outs) {i : Nat} {f : Feeder} (hf : s.feeders[i]? = some f) :
    delivered i outs ++ queued i s <+: readied (winEvs f.effects) ∧
    (RingsOp.stopData ∉ ops ∨ s.dataStopped = false → delivered i outs ++ queued i s = readied (winEvs f.effects)) := by
  obtain ⟨pr, by_, h⟩ := h
  have o := rings_order good h
  exact ⟨o.pre i f hf, o.all i f hf⟩

/-- C71 (contents). When the consumer gets a chunk, the chunk has been handed over by its stream, it has exactly the flags that
were set for it — none are left from an earlier use — and the bytes that were written to it; it belongs to the consumer, and to
nobody else. -/
theorem C71_contents {fds : List Feed} (good : ∀ fd ∈ fds, GoodFeed fd) {n a b : Nat} {ops : List RingsOp} {s s' : ChunkRings} {outs : List RingsOut}
    (h : RingsReach fds n a b ops s outs) {i : Nat} {c : Chunk} {p : Nat} (hp : s.step fds .pop = some (s', .got i c p)) :
    ∃ f, s'.feeders[i]? = some f ∧ c ∈ readied (winEvs f.effects) ∧ Filled s' f.effects c p ∧ ∀ w, (w, p) ∈ whereabouts s' ↔ w = .user := by
  obtain ⟨pr, by_, h⟩ := h
  have inv := rings_inv good h
  have inv' : CrInv fds n s' := by
    have := inv.pop
    rwa [show s.pop.1 = s' from (Prod.mk.inj (Option.some.inj hp)).1] at this
  simp only [ChunkRings.step, ChunkRings.pop] at hp
  split at hp
  · next j c' q rest hd =>
    cases hp
    obtain ⟨f, h1, h2, h3⟩ := inv.data i c p (by rw [hd]; simp)
    have hu : (Whereabout.user, p) ∈ whereabouts { s with data := rest, user := s.user ++ [p] } := where_user (List.mem_append_right _ (by simp))
    refine ⟨f, h1, h2, h3.same rfl rfl, fun w => ⟨fun hw => inv'.one hw hu, fun hw => by rw [hw]; exact hu⟩⟩
  · have := (Prod.mk.inj (Option.some.inj hp)).2
    split at this <;> cases this

/-- C71 (ownership). While the user has a chunk, only the user changes it. -/
theorem C71_untouched {fds : List Feed} (good : ∀ fd ∈ fds, GoodFeed fd) {n a b : Nat} {ops : List RingsOp} {s s' : ChunkRings} {outs : List RingsOut}
    (h : RingsReach fds n a b ops s outs) {op : RingsOp} {o : RingsOut} (hs : s.step fds op = some (s', o)) {p : Nat} (hp : p ∈ s.user)
    (h1 : op ≠ .add p) (h2 : ∀ k b, op ≠ .poke p k b) (h3 : ∀ k v, op ≠ .mark p k v) :
    p ∈ s'.user ∧ s'.present p = s.present p ∧ s'.bytes p = s.bytes p := by
  obtain ⟨pr, by_, h⟩ := h
  exact (rings_inv good h).untouched good hs hp h1 h2 h3

/-- C71 (end). If the user does not stop the data ring, the consumer is told that the ring is stopped only when every stream has
come to its end, and has got every chunk that any stream took. -/
theorem C71_end {fds : List Feed} (good : ∀ fd ∈ fds, GoodFeed fd) {n a b : Nat} {ops : List RingsOp} {s s' : ChunkRings} {outs : List RingsOut}
    (h : RingsReach fds n a b ops s outs) (hn : RingsOp.stopData ∉ ops) (hp : s.step fds .pop = some (s', .stopped)) {i : Nat} {fd : Feed} {f : Feeder}
    (hfd : fds[i]? = some fd) (hf : s.feeders[i]? = some f) :
    f.Finished fd ∧ f.held = [] ∧ f.grave = [] ∧ delivered i outs = supplied (answerFn f.ans) (winEvs f.effects) := by
  obtain ⟨pr, by_, h⟩ := h
  have inv := rings_inv good h
  have o := rings_order good h
  have hds : s.data = [] ∧ s.dataStopped = true := by
    simp only [ChunkRings.step, ChunkRings.pop] at hp
    split at hp
    · cases hp
    · next hd =>
      have := (Prod.mk.inj (Option.some.inj hp)).2
      split at this
      · next hst => exact ⟨hd, hst⟩
      · cases this
  have hF := inv.feed i fd f hfd hf
  obtain ⟨h1, h2⟩ := hF.emptied (good fd (List.mem_of_getElem? hfd)) (inv.allRemoved (o.last hn hds.2) hf)
  refine ⟨h2, h1, (o.clean hn).1 i f hf, ?_⟩
  have h3 := o.all i f hf (Or.inl hn)
  have h4 : queued i s = [] := by unfold queued; rw [hds.1]; rfl
  rw [h4, List.append_nil] at h3
  rw [hF.suppliedEq, h1, ← h3]
  simp

/-- C71 (end, converse). Once all streams have come to their ends, the consumer never waits: it gets the remaining chunks, and is
then told that the ring is stopped. -/
theorem C71_ended {fds : List Feed} (good : ∀ fd ∈ fds, GoodFeed fd) {n a b : Nat} {ops : List RingsOp} {s : ChunkRings} {outs : List RingsOut}
    (h : RingsReach fds n a b ops s outs) (hne : fds ≠ []) (hr : ∀ f ∈ s.feeders, FeedAct.remove ∈ f.log) :
    ∀ s', s.step fds .pop ≠ some (s', .wait) := by
  obtain ⟨pr, by_, h⟩ := h
  have inv := rings_inv good h
  have o := rings_order good h
  have hp : s.producers = 0 := by
    rw [inv.prods, List.countP_eq_zero]
    intro f hf
    simpa using hr f hf
  have hst := (o.closed hp).resolve_left hne
  intro s' hs
  simp only [ChunkRings.step, ChunkRings.pop] at hs
  split at hs
  · cases hs
  · have := (Prod.mk.inj (Option.some.inj hs)).2
    rw [if_pos hst] at this
    cases this

/-- C71 (waiting). A stream waits only to take a chunk from the free ring while it is empty and not stopped, or to put a chunk in
the data ring while it is full and not stopped. In the first case, unless the data ring was stopped, there are fewer chunks
than the streams have room for in their windows together with those in the data ring and those that the user has. -/
theorem C71_wait {fds : List Feed} (good : ∀ fd ∈ fds, GoodFeed fd) {n a b : Nat} {ops : List RingsOp} {s s' : ChunkRings} {outs : List RingsOut}
    (h : RingsReach fds n a b ops s outs) {i : Nat} (hs : s.step fds (.act i) = some (s', .wait)) :
    s' = s ∧
    ((s.free = [] ∧ s.freeStopped = false ∧ (s.dataStopped = false → n < (fds.map (fun fd => fd.cfg.maxChunks)).sum + s.data.length + s.user.length)) ∨
     (s.dataCap ≤ s.data.length ∧ s.dataStopped = false)) := by
  obtain ⟨pr, by_, h⟩ := h
  have inv := rings_inv good h
  rcases inv.stepActs good hs with ⟨-, h0⟩ | ⟨fd, f, l, h1, h2, h3, h4⟩
  · cases h0
  · cases h4 with
    | waitFree id sid hn he hst => exact ⟨rfl, Or.inl ⟨he, hst, fun hd => inv.waiting good h1 h2 h3 hn he hd⟩⟩
    | waitData c hn hc hst => exact ⟨rfl, Or.inr ⟨hc, hst⟩⟩

/-- C71 (stopping). Once both rings are stopped, a stream never waits, and after finitely many further actions it has finished. -/
theorem C71_stop {fds : List Feed} (good : ∀ fd ∈ fds, GoodFeed fd) {n a b : Nat} {ops : List RingsOp} {s : ChunkRings} {outs : List RingsOut}
    (h : RingsReach fds n a b ops s outs) (h1 : s.freeStopped = true) (h2 : s.dataStopped = true) {i : Nat} {fd : Feed} (hfd : fds[i]? = some fd) :
    ∃ k s' os f', ChunkRings.run fds (List.replicate k (.act i)) s = some (s', os) ∧ s'.feeders[i]? = some f' ∧ f'.Finished fd ∧ ∀ o ∈ os, o = .done := by
  obtain ⟨pr, by_, h⟩ := h
  have inv := rings_inv good h
  have hlt : i < s.feeders.length := by
    rw [inv.len]
    rcases Nat.lt_or_ge i fds.length with h' | h'
    · exact h'
    · rw [List.getElem?_eq_none h'] at hfd; cases hfd
  have hf := List.getElem?_eq_getElem hlt
  obtain ⟨l, hl, -⟩ := (inv.feed i fd _ hfd hf).pre
  exact inv.finishes good hfd _ _ h1 h2 hf hl rfl rfl

theorem caps_run (fds : List Feed) (good : ∀ fd ∈ fds, GoodFeed fd) {n : Nat} : ∀ (ops : List RingsOp) {s s' : ChunkRings} {os : List RingsOut}, CrInv fds n s → ChunkRings.run fds ops s = some (s', os) →
    s'.freeCap = s.freeCap ∧ s'.dataCap = s.dataCap ∧ (s.data.length ≤ s.dataCap → s'.data.length ≤ s'.dataCap)
  | [], s, s', os, inv, h => by cases h; exact ⟨rfl, rfl, id⟩
  | op :: ops, s, s', os, inv, h => by
    obtain ⟨s1, o, h1, inv1⟩ := inv.step good op
    simp only [ChunkRings.run, h1] at h
    split at h
    · cases h
    · next s2 os2 h2 =>
      cases h
      obtain ⟨-, -, -, -, c1, c2, -⟩ := inv.fields good h1
      obtain ⟨d1, d2, d3⟩ := caps_run fds good ops inv1 h2
      refine ⟨by rw [d1, c1], by rw [d2, c2], fun hd => d3 ?_⟩
      rw [c2]
      cases op with
      | act i =>
        rcases inv.stepActs good h1 with ⟨rfl, rfl⟩ | ⟨fd, f, l, g1, g2, g3, g4⟩
        · exact hd
        · cases g4 with
          | push c p rest hn hh hst hcap =>
            show (s.data ++ [(i, c, p)]).length ≤ s.dataCap
            rw [List.length_append]
            exact hcap
          | _ => exact hd
      | add p =>
        simp only [ChunkRings.step, ChunkRings.add] at h1
        split at h1
        · split at h1
          · cases h1; exact hd
          · split at h1
            · cases h1; exact hd
            · cases h1; exact hd
        · cases h1; exact hd
      | pop =>
        simp only [ChunkRings.step, ChunkRings.pop] at h1
        split at h1
        · next hdd =>
          cases h1
          rw [hdd] at hd
          simp only [List.length_cons] at hd ⊢
          omega
        · have e : s1 = s := (Prod.mk.inj (Option.some.inj h1)).1.symm
          subst e; exact hd
      | stopFree => cases h1; exact hd
      | stopData => cases h1; exact hd
      | reap i =>
        simp only [ChunkRings.step, ChunkRings.reap] at h1
        split at h1
        · split at h1
          · cases h1
          · split at h1
            · cases h1; exact hd
            · cases h1; exact hd
        · cases h1; exact hd
      | poke p k b =>
        simp only [ChunkRings.step] at h1
        split at h1
        · cases h1; exact hd
        · cases h1; exact hd
      | mark p k v =>
        simp only [ChunkRings.step] at h1
        split at h1
        · cases h1; exact hd
        · cases h1; exact hd

/-- C71 (sizing). If there are at least as many chunks as the streams have room for in their windows, plus the size of the data ring,
plus those that the user holds on to, then (until the data ring is stopped) no stream ever waits for a free chunk; and if the
free ring has room for all chunks, `add_free_chunk` never fails because it is full. -/
theorem C71_sizing {fds : List Feed} (good : ∀ fd ∈ fds, GoodFeed fd) {n a b : Nat} {ops : List RingsOp} {s s' : ChunkRings} {outs : List RingsOut}
    (h : RingsReach fds n a b ops s outs) :
    (s.dataStopped = false → (fds.map (fun fd => fd.cfg.maxChunks)).sum + b + s.user.length ≤ n → ∀ i, s.step fds (.act i) = some (s', .wait) → s.data.length = b) ∧
    (n ≤ a → ∀ p, s.step fds (.add p) ≠ some (s', .full)) := by
  have h0 := h
  obtain ⟨pr, by_, h⟩ := h
  have inv := rings_inv good h
  obtain ⟨c1, c2, c3⟩ := caps_run fds good ops (CrInv.init good n a b pr by_) h
  have c1' : s.freeCap = a := c1
  have c2' : s.dataCap = b := c2
  have c3' := c3 (Nat.zero_le _)
  refine ⟨fun hd hn i hs => ?_, fun hn p hs => ?_⟩
  · rcases (C71_wait good h0 hs).2 with ⟨-, -, h3⟩ | ⟨h3, -⟩
    · have := h3 hd
      omega
    · omega
  · simp only [ChunkRings.step, ChunkRings.add] at hs
    split at hs
    · next hp =>
      split at hs
      · cases hs
      · split at hs
        · cases hs
        · next hlt =>
          have hlen := inv.perm.length_eq
          rw [List.length_map, List.length_range, whereabouts_eq] at hlen
          simp only [List.length_append, List.length_map] at hlen
          have : 0 < s.user.length := List.length_pos_of_mem hp
          omega
    · cases hs

/-- The calls of the chunk layer do not depend on which chunks are supplied. -/
theorem recv_any {cfg : StreamConfig} {ccfg : ChunkConfig} {rops : List ChunkRecvOp} {r : ChunkRecv} (h : ChunkRecv.run cfg ccfg rops = some r) {f : Nat → Bool} {cs : ChunkStream} {t : List ChunkEv}
    (ht : ChunkStream.run { ccfg with alloc := f } r.ops (ChunkStream.new { ccfg with alloc := f }) = some (cs, t)) :
    ∃ r', ChunkRecv.run cfg { ccfg with alloc := f } rops = some r' ∧ r'.trace = t ∧ r'.heaps = r.heaps := by
  unfold ChunkRecv.run at h
  simp only [Option.bind_eq_bind, Option.bind_eq_some_iff] at h
  obtain ⟨x, h1, o, h2, c, h3, h4⟩ := h
  cases h4
  refine ⟨⟨x.1, x.2.1, x.2.2, o, cs, t⟩, ?_, rfl, rfl⟩
  unfold ChunkRecv.run
  simp only [Option.bind_eq_bind, Option.bind_eq_some_iff]
  exact ⟨x, h1, o, h2, (cs, t), ht, rfl⟩

theorem good_any {ccfg : ChunkConfig} {rops : List ChunkRecvOp} (hg : GoodHistory { ccfg with alloc := fun _ => true } rops) (f : Nat → Bool) : GoodHistory { ccfg with alloc := f } rops := by
  intro x hx
  obtain ⟨h1, h2⟩ := hg x hx
  exact ⟨h1, ⟨h2.1, fun h => h2.2 ⟨h.1, rfl⟩, fun h => h2.3 ⟨h.1, rfl⟩, fun h => h2.4 ⟨h.1, rfl⟩, fun h => h2.5 ⟨h.1, rfl⟩⟩⟩

/-- The chunk layer of a stream that receives packets (C70) is a good stream, if its last call, should it come to its end, is that of
`flush_chunks` in `stop_received`. -/
theorem C71_feed {fd : Feed} {cfg : StreamConfig} (hm : 0 < cfg.maxHeaps) (hsub : 0 < cfg.substreams) (hmax : 0 < fd.cfg.maxChunks)
    {rops : List ChunkRecvOp} (hg : GoodHistory { fd.cfg with alloc := fun _ => true } rops) {r : ChunkRecv} (hr : ChunkRecv.run cfg fd.cfg rops = some r) (hops : fd.ops = r.ops)
    (hend : fd.ends = true → ∃ l, r.calls = l ++ [.flush]) : GoodFeed fd := by
  obtain ⟨r', d, a, h1, o⟩ := outcome (ccfg := { fd.cfg with alloc := fun _ => true }) hm hsub hmax hg
  have hops' : r'.ops = r.ops := by
    unfold ChunkRecv.run at hr h1
    simp only [Option.bind_eq_bind, Option.bind_eq_some_iff] at hr h1
    obtain ⟨x, g1, o, h2, c, h3, h4⟩ := hr
    obtain ⟨x', k1, o', k2, c', k3, k4⟩ := h1
    rw [g1] at k1
    cases k1
    rw [h2] at k2
    cases k2
    cases h4
    cases k4
    rfl
  refine ⟨hmax, by rw [hops, ← hops']; exact o.valid, fun he => ?_⟩
  obtain ⟨l, hl⟩ := hend he
  obtain ⟨d', a', o'⟩ := outcome_of hm hsub hmax (good_any hg fd.cfg.alloc) hr
  have h2 := o'.ops
  rw [hl] at h2
  obtain ⟨o1, o2, k1, k2, k3⟩ := chunkOps_append h2
  simp only [chunkOps, MemCall.op?] at k2
  cases k2
  exact ⟨o1, by rw [hops, k3]; rfl⟩

/-- C71 (from packets to the consumer). Suppose that stream `i` receives `rops` (see C70) and that its packets are pieces of chunks with
contents `want`, which the place callback puts where they belong. When the consumer gets a chunk from that stream, then for each
flag that is set in it there is a complete heap that the stream received, and the memory of the chunk has the right contents
throughout that heap. -/
theorem C71_received {fds : List Feed} (good : ∀ fd ∈ fds, GoodFeed fd) {n a b : Nat} {ops : List RingsOp} {s s' : ChunkRings} {outs : List RingsOut}
    (h : RingsReach fds n a b ops s outs) {i : Nat} {c : Chunk} {p : Nat} (hp : s.step fds .pop = some (s', .got i c p))
    {fd : Feed} (hfd : fds[i]? = some fd) {cfg : StreamConfig} (hm : 0 < cfg.maxHeaps) (hsub : 0 < cfg.substreams) (hz : fd.cfg.presenceSize = 0)
    {rops : List ChunkRecvOp} (hg : GoodHistory { fd.cfg with alloc := fun _ => true } rops) {r : ChunkRecv} (hr : ChunkRecv.run cfg fd.cfg rops = some r) (hops : fd.ops = r.ops)
    {want : Nat → Nat → UInt8} (hw : Consistent want rops) {j : Nat} (hj : s'.present p j = true) :
    ∃ e ∈ r.heaps, ∃ pl len, e.heap.isComplete = true ∧ PlacedAt rops e pl ∧ e.heap.heapLength = some len ∧ 0 < len ∧
      0 ≤ pl.chunkId ∧ c.chunkId = pl.chunkId.toNat ∧ j = pl.heapIndex ∧
      ∀ k, k < len → s'.bytes p (pl.heapOffset + k) = want c.chunkId (pl.heapOffset + k) := by
  obtain ⟨f, h1, h2, h3, -⟩ := C71_contents good h hp
  obtain ⟨pr, by_, h⟩ := h
  have inv' : CrInv fds n s' := by
    have := (rings_inv good h).pop
    rwa [show s.pop.1 = s' from (Prod.mk.inj (Option.some.inj hp)).1] at this
  have g := good fd (List.mem_of_getElem? hfd)
  obtain ⟨cs, rest, ht⟩ := (inv'.feed i fd f hfd h1).prefixTrace g
  unfold Feed.Trace Feed.cfgFor at ht
  rw [hops] at ht
  obtain ⟨r', k1, k2, k3⟩ := recv_any hr ht
  obtain ⟨e, he, pl, len, q1, q2, q3, q4, q5, q6, q7, q8⟩ := C70_contents (ccfg := { fd.cfg with alloc := answerFn f.ans }) hm hsub g.max (good_any hg _) k1 hz hw k2 (c := c) (i := j) ((h3.flags j).1 hj)
  exact ⟨e, k3 ▸ he, pl, len, q1, q2, q3, q4, q5, q6, q7, fun k hk => h3.bytes _ _ (q8 k hk)⟩

/-- C71 (from packets to the consumer, flags per packet). -/
theorem C71_packet_received {fds : List Feed} (good : ∀ fd ∈ fds, GoodFeed fd) {n a b : Nat} {ops : List RingsOp} {s s' : ChunkRings} {outs : List RingsOut}
    (h : RingsReach fds n a b ops s outs) {i : Nat} {c : Chunk} {p : Nat} (hp : s.step fds .pop = some (s', .got i c p))
    {fd : Feed} (hfd : fds[i]? = some fd) {cfg : StreamConfig} (hm : 0 < cfg.maxHeaps) (hsub : 0 < cfg.substreams) (hz : fd.cfg.presenceSize ≠ 0)
    {rops : List ChunkRecvOp} (hg : GoodHistory { fd.cfg with alloc := fun _ => true } rops) {r : ChunkRecv} (hr : ChunkRecv.run cfg fd.cfg rops = some r) (hops : fd.ops = r.ops)
    {want : Nat → Nat → UInt8} (hw : Consistent want rops) {j : Nat} (hj : s'.present p j = true) :
    ∃ p0 pl q pl', (p0, pl) ∈ offers rops ∧ (q, pl') ∈ offers rops ∧ p0.heapCnt = q.heapCnt ∧ q.payload ≠ [] ∧
      0 ≤ pl.chunkId ∧ c.chunkId = pl.chunkId.toNat ∧ j = pl.heapIndex + q.payloadOffset / fd.cfg.presenceSize ∧
      ∀ k, k < q.payload.length → s'.bytes p (pl.heapOffset + q.payloadOffset + k) = want c.chunkId (pl.heapOffset + q.payloadOffset + k) := by
  obtain ⟨f, h1, h2, h3, -⟩ := C71_contents good h hp
  obtain ⟨pr, by_, h⟩ := h
  have inv' : CrInv fds n s' := by
    have := (rings_inv good h).pop
    rwa [show s.pop.1 = s' from (Prod.mk.inj (Option.some.inj hp)).1] at this
  have g := good fd (List.mem_of_getElem? hfd)
  obtain ⟨cs, rest, ht⟩ := (inv'.feed i fd f hfd h1).prefixTrace g
  unfold Feed.Trace Feed.cfgFor at ht
  rw [hops] at ht
  obtain ⟨r', k1, k2, k3⟩ := recv_any hr ht
  obtain ⟨p0, pl, q, pl', q1, q2, q3, q4, q5, q6, q7, q8⟩ := C70_packet_contents (ccfg := { fd.cfg with alloc := answerFn f.ans }) hm hsub g.max (good_any hg _) k1 hz hw k2 (c := c) (i := j) ((h3.flags j).1 hj)
  exact ⟨p0, pl, q, pl', q1, q2, q3, q4, q5, q6, q7, fun k hk => h3.bytes _ _ (q8 k hk)⟩

/-! ### A concrete history

Two streams with windows of one chunk share a free ring of capacity 2 and a data ring of capacity 1; there are three chunks, whose
flags and bytes are initially all set. Stream 0 fills chunks 0 and 1, stream 1 fills half of chunk 0. Stream 0 waits for the
data ring, and the consumer returns a chunk, which is used again. -/

/-- Configuration of the streams. -/
def exampleFeedConfig : ChunkConfig :=
  { maxChunks := 1, alloc := fun _ => true, dataSize := fun _ => 4, presentSize := fun _ => 2, extraSize := fun _ => 0 }

/-- The streams. -/
def exampleFeeds : List Feed :=
  [{ cfg := exampleFeedConfig,
     ops := [.allocate ⟨0, 0, 0, 0, []⟩, .copy 0 0 [1, 2], .heapReady 0 true, .allocate ⟨0, 1, 2, 0, []⟩, .copy 1 0 [3, 4], .heapReady 1 true,
             .allocate ⟨1, 1, 2, 0, []⟩, .copy 2 0 [5, 6], .heapReady 2 true, .flush], ends := true },
   { cfg := exampleFeedConfig, ops := [.allocate ⟨0, 1, 2, 0, []⟩, .copy 0 0 [7, 8], .heapReady 0 true, .flush], ends := true }]

theorem exampleFeeds_good : ∀ fd ∈ exampleFeeds, GoodFeed fd := by
  have valid : ∀ ops : List ChunkOp, ValidFrom { exampleFeedConfig with alloc := fun _ => true } [] ops → ValidOps { exampleFeedConfig with alloc := fun _ => true } ops := by
    intro ops h a op b he
    simpa using h.ops a op b he
  intro fd hfd
  simp only [exampleFeeds, List.mem_cons, List.not_mem_nil, or_false] at hfd
  rcases hfd with rfl | rfl
  · exact ⟨by decide, valid _ (by simp [ValidFrom, ChunkOp.Valid, placements, exampleFeedConfig]), fun _ => ⟨_, List.dropLast_concat_getLast (by simp) |>.symm⟩⟩
  · exact ⟨by decide, valid _ (by simp [ValidFrom, ChunkOp.Valid, placements, exampleFeedConfig]), fun _ => ⟨_, List.dropLast_concat_getLast (by simp) |>.symm⟩⟩

/-- The history. -/
def exampleRingsOps : List RingsOp :=
  [.add 0, .add 1, .add 2] ++ List.replicate 7 (.act 0) ++ List.replicate 3 (.act 1) ++ [.act 1, .pop, .mark 0 0 false, .add 0, .act 1, .act 1, .act 1, .pop, .add 1] ++
  List.replicate 7 (.act 0) ++ [.pop, .pop]

/-- Observations on the outcome of a history. -/
def ringsSummary (r : Option (ChunkRings × List RingsOut)) : Option (List RingsOut × List (List Bool) × List (List UInt8)) :=
  r.map (fun x => (x.2, (List.range 3).map (fun p => (List.range 2).map (x.1.present p)), (List.range 3).map (fun p => (List.range 4).map (x.1.bytes p))))

example : ringsSummary (ChunkRings.run exampleFeeds exampleRingsOps (ChunkRings.new exampleFeeds 3 2 1 (fun _ _ => true) (fun _ _ => 255))) = some
    ([.moved, .moved, .full] ++ List.replicate 10 .done ++ [.wait, .got 0 ⟨0, 0, 0⟩ 0, .done, .moved, .done, .done, .done, .got 1 ⟨0, 0, 0⟩ 1, .moved] ++
       List.replicate 6 .done ++ [.finished, .got 0 ⟨1, 1, 0⟩ 0, .stopped],
     [[false, true], [false, false], [false, false]], [[1, 2, 5, 6], [255, 255, 7, 8], [255, 255, 255, 255]]) := by decide +kernel

/-- A stream that receives packets. -/
def exampleRecvFeed (r : ChunkRecv) : Feed := { cfg := exampleRecvChunks, ops := r.ops, ends := true }

example : ∃ r, ChunkRecv.run exampleRecvConfig exampleRecvChunks exampleRecvOps = some r ∧ GoodFeed (exampleRecvFeed r) := by
  have hg : GoodHistory exampleRecvChunks exampleRecvOps := by
    intro x hx
    simp only [exampleRecvOps, offers, batchOffers, examplePiece, List.flatMap_cons, List.flatMap_nil, List.filterMap_cons, List.filterMap_nil,
      List.append_nil, List.mem_append, List.mem_cons, List.not_mem_nil, or_false] at hx
    rcases hx with (rfl | rfl | rfl | rfl) | (rfl | rfl) | (rfl | rfl | rfl | rfl) <;>
      exact ⟨by intro h hh; cases hh; decide, by decide, by intro _; decide, by intro _ len hl; cases hl; decide, by intro _ _; decide, fun _ h => absurd rfl h⟩
  obtain ⟨r, hr⟩ := C70_total (cfg := exampleRecvConfig) (by decide) (by decide) (by decide) hg
  refine ⟨r, hr, C71_feed (fd := exampleRecvFeed r) (cfg := exampleRecvConfig) (by decide) (by decide) Nat.zero_lt_two hg hr rfl (fun _ => ⟨r.calls.dropLast, ?_⟩)⟩
  have : (ChunkRecv.run exampleRecvConfig exampleRecvChunks exampleRecvOps).map (fun r => r.calls.getLast?) = some (some .flush) := by decide +kernel
  rw [hr] at this
  have h2 : r.calls.getLast? = some .flush := Option.some.inj this
  exact (List.dropLast_append_getLast? _ h2).symm

end Spead2
