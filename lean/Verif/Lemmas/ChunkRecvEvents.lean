import Verif.Lemmas.ChunkRecv
import Verif.Props.ChunkStream
import Verif.Props.LiveHeap
import Mathlib.Data.List.Perm.Subperm

/-!
# Lemmas about the effects of receiving into chunks
-/

namespace Spead2

open Spec

/-! ### Which operation an effect comes from -/

theorem allocate_events {cfg : ChunkConfig} {s s' : ChunkStream} {pl : Place} {ev : List ChunkEv} (h : s.allocate cfg pl = some (s', ev)) :
    (∀ c off data, .write c off data ∉ ev) ∧ (∀ c i, .present c i ∉ ev) := by
  unfold ChunkStream.allocate at h
  split at h
  · simp only [Option.some.injEq, Prod.mk.injEq] at h
    obtain ⟨-, rfl⟩ := h
    split <;> simp
  · split at h
    · cases h
    · simp only [Option.some.injEq, Prod.mk.injEq] at h
      obtain ⟨-, rfl⟩ := h
      simp
    · split at h
      · cases h
      · next ev' hc =>
        simp only [Option.some.injEq, Prod.mk.injEq] at h
        obtain ⟨-, rfl⟩ := h
        unfold copyExtra at hc
        split at hc
        · split at hc
          · simp only [Option.some.injEq] at hc
            subst hc
            simp
          · cases hc
        · simp only [Option.some.injEq] at hc
          subst hc
          simp

theorem withWindow_events {s s' : ChunkStream} {w : Option (Window × List WinEv)} {ev : List ChunkEv} (h : s.withWindow w = some (s', ev)) :
    (∀ c off data, .write c off data ∉ ev) ∧ (∀ c i, .present c i ∉ ev) ∧ .tooOld ∉ ev ∧ .rejected ∉ ev ∧ s'.heaps = s.heaps := by
  cases w with
  | none => cases h
  | some w =>
    simp only [ChunkStream.withWindow, Option.some.injEq, Prod.mk.injEq] at h
    obtain ⟨rfl, rfl⟩ := h
    simp

theorem copy_events {cfg : ChunkConfig} {s s' : ChunkStream} {h off : Nat} {data : Bytes} {ev : List ChunkEv} (hc : s.copy cfg h off data = some (s', ev)) :
    s' = s ∧ (ev = [] ∨ ∃ c o, ev = .write c o data :: if cfg.presenceSize = 0 then [] else
      [.present c (((s.heaps[h]?).map HeapMeta.heapIndex).getD 0 + off / cfg.presenceSize)]) := by
  unfold ChunkStream.copy at hc
  split at hc
  · cases hc
  · next m hm =>
    split at hc
    · simp only [Option.some.injEq, Prod.mk.injEq] at hc
      exact ⟨hc.1.symm, Or.inl hc.2.symm⟩
    · split at hc
      · cases hc
      · next c hcc =>
        split at hc
        · split at hc
          · cases hc
          · next ev' hp =>
            simp only [Option.some.injEq, Prod.mk.injEq] at hc
            refine ⟨hc.1.symm, Or.inr ⟨c, m.heapOffset + off, ?_⟩⟩
            rw [← hc.2]
            unfold packetPresence at hp
            split at hp
            · next hz =>
              split at hp
              · simp only [Option.some.injEq] at hp
                rw [if_neg hz, ← hp, hm]; rfl
              · cases hp
            · next hz =>
              simp only [Option.some.injEq] at hp
              rw [if_pos (Classical.not_not.1 hz), ← hp]
        · cases hc

theorem heapReady_events {cfg : ChunkConfig} {s s' : ChunkStream} {h : Nat} {b : Bool} {ev : List ChunkEv} (hc : s.heapReady cfg h b = some (s', ev)) :
    s' = s ∧ (ev = [] ∨ ev = [.tooOld] ∨ (∃ c i, b = true ∧ cfg.presenceSize = 0 ∧ ev = [.present c i])) := by
  unfold ChunkStream.heapReady at hc
  split at hc
  · next hb =>
    split at hc
    · cases hc
    · split at hc
      · simp only [Option.some.injEq, Prod.mk.injEq] at hc
        exact ⟨hc.1.symm, Or.inl hc.2.symm⟩
      · next c hcc =>
        split at hc
        · simp only [Option.some.injEq, Prod.mk.injEq] at hc
          exact ⟨hc.1.symm, Or.inr (Or.inl hc.2.symm)⟩
        · split at hc
          · cases hc
          · next ev' hp =>
            simp only [Option.some.injEq, Prod.mk.injEq] at hc
            refine ⟨hc.1.symm, ?_⟩
            rw [← hc.2]
            unfold heapPresence at hp
            split at hp
            · next hz =>
              split at hp
              · simp only [Option.some.injEq] at hp
                exact Or.inr (Or.inr ⟨_, _, hb, hz, hp.symm⟩)
              · cases hp
            · simp only [Option.some.injEq] at hp
              exact Or.inl hp.symm
  · simp only [Option.some.injEq, Prod.mk.injEq] at hc
    exact ⟨hc.1.symm, Or.inl hc.2.symm⟩

/-- Payload is written only by copies. -/
theorem step_write {cfg : ChunkConfig} {s s' : ChunkStream} {op : ChunkOp} {e1 e2 : List ChunkEv} {c : Chunk} {off : Nat} {data : Bytes}
    (h : s.step cfg op = some (s', e1 ++ .write c off data :: e2)) : e1 = [] ∧ ∃ hp o, op = .copy hp o data := by
  cases op with
  | allocate pl => exact absurd (by simp) ((allocate_events h).1 c off data)
  | flush => exact absurd (by simp) ((withWindow_events h).1 c off data)
  | flushUntil t => exact absurd (by simp) ((withWindow_events h).1 c off data)
  | heapReady hp b =>
    rcases (heapReady_events h).2 with h' | h' | ⟨x, i, -, -, h'⟩
    · simp at h'
    · have : ChunkEv.write c off data ∈ [ChunkEv.tooOld] := by rw [← h']; simp
      simp at this
    · have : ChunkEv.write c off data ∈ [ChunkEv.present x i] := by rw [← h']; simp
      simp at this
  | copy hp o d =>
    rcases (copy_events h).2 with h' | ⟨x, i, h'⟩
    · simp at h'
    · cases e1 with
      | nil =>
        simp only [List.nil_append, List.cons.injEq, ChunkEv.write.injEq] at h'
        obtain ⟨⟨-, -, rfl⟩, -⟩ := h'
        exact ⟨rfl, hp, o, rfl⟩
      | cons y e1 =>
        simp only [List.cons_append, List.cons.injEq] at h'
        have hm : ChunkEv.write c off data ∈ e1 ++ .write c off data :: e2 := by simp
        rw [h'.2] at hm
        split at hm
        · cases hm
        · simp at hm

/-- Flags are set only by copies, if they are per packet, and otherwise only by the end of a complete heap. -/
theorem step_present {cfg : ChunkConfig} {s s' : ChunkStream} {op : ChunkOp} {e1 e2 : List ChunkEv} {c : Chunk} {i : Nat}
    (h : s.step cfg op = some (s', e1 ++ .present c i :: e2)) :
    (cfg.presenceSize = 0 → e1 = [] ∧ e2 = [] ∧ s' = s ∧ ∃ hp, op = .heapReady hp true) ∧
    (cfg.presenceSize ≠ 0 → e2 = [] ∧ s' = s ∧ ∃ hp o d k, op = .copy hp o d ∧ e1 = [.write c k d]) := by
  cases op with
  | allocate pl => exact absurd (by simp) ((allocate_events h).2 c i)
  | flush => exact absurd (by simp) ((withWindow_events h).2.1 c i)
  | flushUntil t => exact absurd (by simp) ((withWindow_events h).2.1 c i)
  | heapReady hp b =>
    obtain ⟨h1, h2⟩ := heapReady_events h
    rcases h2 with h' | h' | ⟨x, j, hb, hz, h'⟩
    · simp at h'
    · have : ChunkEv.present c i ∈ [ChunkEv.tooOld] := by rw [← h']; simp
      simp at this
    · refine ⟨fun _ => ?_, fun hn => absurd hz hn⟩
      cases e1 with
      | nil => simp at h'; exact ⟨rfl, h'.2, h1, hp, by rw [hb]⟩
      | cons y e1 => simp at h'
  | copy hp o d =>
    obtain ⟨h1, h2⟩ := copy_events h
    rcases h2 with h' | ⟨x, j, h'⟩
    · simp at h'
    · cases e1 with
      | nil => simp at h'
      | cons y e1 =>
        simp only [List.cons_append, List.cons.injEq] at h'
        split at h'
        · next hz => simp at h'
        · next hz =>
          refine ⟨fun hn => absurd hn hz, fun _ => ?_⟩
          cases e1 with
          | nil =>
            simp only [List.nil_append, List.cons.injEq, ChunkEv.present.injEq] at h'
            obtain ⟨rfl, ⟨rfl, -⟩, rfl⟩ := h'
            exact ⟨rfl, h1, hp, o, d, j, rfl, rfl⟩
          | cons z e1 => simp at h'

/-! ### The outcome of a history -/

/-- What is known about the outcome of a history. -/
structure Outcome (cfg : StreamConfig) (ccfg : ChunkConfig) (ops : List ChunkRecvOp) (r : ChunkRecv) (d : List Entry) (a : AStream) : Prop where
  stream : Stream.run cfg.forChunks (plainOps ops) (Stream.new cfg.forChunks) = some (r.stream, r.heaps)
  rel : Rel cfg.forChunks r.stream a
  inv : AInv cfg.forChunks a none
  called : Called cfg.forChunks (offers ops) r.calls r.heaps d a
  ops : chunkOps [] r.calls = some r.ops
  valid : ValidOps ccfg r.ops
  chunks : ChunkStream.run ccfg r.ops (ChunkStream.new ccfg) = some (r.chunks, r.trace)

theorem outcome {cfg : StreamConfig} {ccfg : ChunkConfig} (hm : 0 < cfg.maxHeaps) (hsub : 0 < cfg.substreams) (hmax : 0 < ccfg.maxChunks)
    {ops : List ChunkRecvOp} (hg : GoodHistory ccfg ops) : ∃ r d a, ChunkRecv.run cfg ccfg ops = some r ∧ Outcome cfg ccfg ops r d a := by
  obtain ⟨a, s, out, cs, d, h1, h2, h3, h4, h5⟩ := called_run (cfg := cfg.forChunks) hm hsub rfl ops (fun x hx => (hg x hx).1)
    (Rel.new cfg.forChunks) (AInv.new cfg.forChunks) (Called.new cfg.forChunks)
  simp only [List.nil_append] at h5
  obtain ⟨o, k1, k2⟩ := h5.valid hg
  obtain ⟨c, tr, k3⟩ := C30_total hmax k2
  refine ⟨⟨s, out, cs, o, c, tr⟩, d, a, ?_, ⟨h2, h3, h4, h5, k1, k2, k3⟩⟩
  simp [ChunkRecv.run, h1, k1, k3]

theorem outcome_of {cfg : StreamConfig} {ccfg : ChunkConfig} (hm : 0 < cfg.maxHeaps) (hsub : 0 < cfg.substreams) (hmax : 0 < ccfg.maxChunks)
    {ops : List ChunkRecvOp} (hg : GoodHistory ccfg ops) {r : ChunkRecv} (h : ChunkRecv.run cfg ccfg ops = some r) : ∃ d a, Outcome cfg ccfg ops r d a := by
  obtain ⟨r', d, a, h1, h2⟩ := outcome hm hsub hmax hg
  rw [h] at h1
  cases h1
  exact ⟨d, a, h2⟩

theorem FirstAt.placedAt {ops : List ChunkRecvOp} {e : Entry} {pl : Place} (h : FirstAt (offers ops) e pl) : PlacedAt ops e pl := by
  obtain ⟨p, rest, h1, h2, -⟩ := h
  exact ⟨p, rest, h1, h2⟩

theorem ValidOps.prefix {ccfg : ChunkConfig} {a b : List ChunkOp} (h : ValidOps ccfg (a ++ b)) : ValidOps ccfg a :=
  fun x op y he => h x op (y ++ b) (by rw [he]; simp)

theorem op?_copy {mem : List Nat} {c : MemCall} {h off : Nat} {data : Bytes} (he : c.op? mem = some [.copy h off data]) :
    ∃ u, c = .copy u off data ∧ mem.idxOf? u = some h := by
  cases c with
  | place u pl => simp [MemCall.op?] at he
  | copy u o d =>
    simp only [MemCall.op?, Option.map_eq_some_iff] at he
    obtain ⟨k, h1, h2⟩ := he
    simp only [List.cons.injEq, ChunkOp.copy.injEq, and_true] at h2
    obtain ⟨rfl, rfl, rfl⟩ := h2
    exact ⟨u, rfl, h1⟩
  | ready u b =>
    simp only [MemCall.op?] at he
    split at he <;> simp at he
  | flush => simp [MemCall.op?] at he

theorem op?_ready {mem : List Nat} {c : MemCall} {h : Nat} {b : Bool} (he : c.op? mem = some [.heapReady h b]) :
    ∃ u, c = .ready u b ∧ mem.idxOf? u = some h := by
  cases c with
  | place u pl => simp [MemCall.op?] at he
  | copy u o d => simp [MemCall.op?] at he
  | ready u b' =>
    simp only [MemCall.op?] at he
    split at he
    · simp at he
    · next k hk =>
      simp only [Option.some.injEq, List.cons.injEq, ChunkOp.heapReady.injEq, and_true] at he
      obtain ⟨rfl, rfl⟩ := he
      exact ⟨u, rfl, hk⟩
  | flush => simp [MemCall.op?] at he

/-- The packet for which a copy was made. -/
theorem Outcome.copied {cfg : StreamConfig} {ccfg : ChunkConfig} {ops : List ChunkRecvOp} {r : ChunkRecv} {d : List Entry} {a : AStream}
    (o : Outcome cfg ccfg ops r d a) {o1 o2 : List ChunkOp} {h off : Nat} {data : Bytes} (he : r.ops = o1 ++ .copy h off data :: o2) :
    ∃ e pl p, e ∈ r.heaps ++ d ++ entries a ∧ FirstAt (offers ops) e pl ∧ p ∈ acceptedBy cfg.allowOoo e ∧ p.payload = data ∧ p.payloadOffset = off ∧
      (placements o1)[h]? = some pl := by
  have ho := o.ops
  rw [he] at ho
  obtain ⟨c1, call, c2, h1, h2, h3⟩ := chunkOps_split ho
  obtain ⟨u, rfl, hk⟩ := op?_copy h3
  obtain ⟨pl, hp1, hp2⟩ := place_of_idx h2 hk
  obtain ⟨e, pl', p, k1, k2, k3, k4, k5, k6, k7, k8⟩ := o.called.copied h1
  obtain ⟨e', m1, m2, m3, -⟩ := o.called.placed (u := u) (pl := pl) (by rw [h1]; exact List.mem_append_left _ hp1)
  have hee : e' = e := uid_inj o.called.nodup m1 k1 (by rw [m2, k2])
  subst hee
  exact ⟨e', pl, p, k1, m3, k4, k7, k6, hp2⟩

/-- The heap whose end was reported. -/
theorem Outcome.readied {cfg : StreamConfig} {ccfg : ChunkConfig} {ops : List ChunkRecvOp} {r : ChunkRecv} {d : List Entry} {a : AStream}
    (o : Outcome cfg ccfg ops r d a) {o1 o2 : List ChunkOp} {h : Nat} {b : Bool} (he : r.ops = o1 ++ .heapReady h b :: o2) :
    ∃ e pl c1 c2, e ∈ r.heaps ∧ FirstAt (offers ops) e pl ∧ b = e.heap.isComplete ∧ 0 < e.heap.heapLength.getD 0 ∧ (placements o1)[h]? = some pl ∧
      r.calls = c1 ++ .ready e.uid b :: c2 ∧ chunkOps [] c1 = some o1 ∧ ((placedPairs c1).map Prod.fst).idxOf? e.uid = some h ∧
      callsOf e.uid c1 = memCalls cfg.allowOoo pl e ∧ callsOf e.uid c2 = [] := by
  have ho := o.ops
  rw [he] at ho
  obtain ⟨c1, call, c2, h1, h2, h3⟩ := chunkOps_split ho
  obtain ⟨u, rfl, hk⟩ := op?_ready h3
  obtain ⟨pl, hp1, hp2⟩ := place_of_idx h2 hk
  obtain ⟨e, pl', k1, k2, k3, k4, k5, k6⟩ := o.called.readied h1
  obtain ⟨e', m1, m2, m3, m4⟩ := o.called.placed (u := u) (pl := pl) (by rw [h1]; exact List.mem_append_left _ hp1)
  have hee : e' = e := uid_inj o.called.nodup m1 (by rw [List.append_assoc]; exact List.mem_append_left _ k1) (by rw [m2, k2])
  subst hee
  subst k2
  have hpl : pl = pl' := by
    have hm : MemCall.place e'.uid pl ∈ callsOf e'.uid c1 := mem_callsOf.2 ⟨hp1, rfl⟩
    rw [k5, memCalls, if_pos m4] at hm
    rcases List.mem_append.1 hm with hm | hm
    · simp only [List.mem_singleton, MemCall.place.injEq] at hm
      exact hm.2
    · obtain ⟨p, -, -, hp⟩ := mem_copiesOf hm
      cases hp
  subst hpl
  exact ⟨e', pl, c1, c2, k1, m3, k3, m4, hp2, h1, h2, by simpa using hk, k5, k6⟩

theorem copiesOf_mem {u : Nat} {p : Pkt} {ps : List Pkt} (hp : p ∈ ps) (hn : p.payload ≠ []) : .copy u p.payloadOffset p.payload ∈ copiesOf u ps := by
  unfold copiesOf
  rw [List.mem_filterMap]
  exact ⟨p, hp, by rw [if_neg hn]⟩

/-- An index that was found stays the same when more is appended. -/
theorem idxOf?_append : ∀ {l : List Nat} {u h : Nat} (m : List Nat), l.idxOf? u = some h → (l ++ m).idxOf? u = some h
  | [], u, h, m, e => by simp at e
  | v :: l, u, h, m, e => by
    rw [List.cons_append, List.idxOf?_cons]
    rw [List.idxOf?_cons] at e
    by_cases hv : v = u
    · simpa [hv] using e
    · simp [hv] at e ⊢
      obtain ⟨k, hk, rfl⟩ := e
      exact ⟨k, idxOf?_append m hk, rfl⟩

theorem idxOf?_index : ∀ {l : List Nat}, l.Nodup → ∀ {h u : Nat}, l[h]? = some u → l.idxOf? u = some h
  | [], _, h, u, e => by simp at e
  | v :: l, hn, h, u, e => by
    rw [List.nodup_cons] at hn
    rw [List.idxOf?_cons]
    cases h with
    | zero => simp at e; simp [e]
    | succ h =>
      rw [List.getElem?_cons_succ] at e
      have : v ≠ u := fun hv => hn.1 (by rw [hv]; exact List.mem_of_getElem? e)
      simp [this, idxOf?_index hn.2 e]

/-- All copies of a heap whose end is reported were made before, with the same index. -/
theorem Outcome.copies {cfg : StreamConfig} {ccfg : ChunkConfig} {ops : List ChunkRecvOp} {r : ChunkRecv} {d : List Entry} {a : AStream}
    (o : Outcome cfg ccfg ops r d a) {c1 : List MemCall} {o1 : List ChunkOp} {call : MemCall} {c2 : List MemCall} {e : Entry} {pl : Place} {h : Nat}
    (hc : r.calls = c1 ++ call :: c2) (h1 : chunkOps [] c1 = some o1) (hk : ((placedPairs c1).map Prod.fst).idxOf? e.uid = some h)
    (hm : callsOf e.uid c1 = memCalls cfg.allowOoo pl e) {p : Pkt} (hp : p ∈ acceptedBy cfg.allowOoo e) (hn : p.payload ≠ []) :
    ∃ before after, o1 = before ++ .copy h p.payloadOffset p.payload :: after := by
  have hin : MemCall.copy e.uid p.payloadOffset p.payload ∈ callsOf e.uid c1 := by
    rw [hm]
    exact List.mem_append_right _ (copiesOf_mem hp hn)
  obtain ⟨x, y, hxy⟩ := List.append_of_mem (mem_callsOf.1 hin).1
  rw [hxy] at h1
  obtain ⟨oa, ob, k1, k2, k3⟩ := chunkOps_append h1
  obtain ⟨u, v, k4, k5, k6⟩ := chunkOps_cons k2
  simp only [List.nil_append, MemCall.op?, Option.map_eq_some_iff] at k4
  obtain ⟨j, hj, rfl⟩ := k4
  have hjh : j = h := by
    have := idxOf?_append ((placedPairs (.copy e.uid p.payloadOffset p.payload :: y)).map Prod.fst) hj
    rw [← List.map_append, ← placedPairs_append, ← hxy, hk] at this
    exact (Option.some.inj this).symm
  subst hjh
  exact ⟨oa, v, by rw [k3, k6]; rfl⟩

/-- All payload of a complete heap is carried by the accepted packets. -/
theorem EntryOk.covered {ooo : Bool} {e : Entry} (h : EntryOk ooo e) (hne : e.pkts ≠ []) (hc : e.heap.isComplete = true) {n : Nat}
    (hn : e.heap.heapLength = some n) {k : Nat} (hk : k < n) : Covered (acceptedBy ooo e) k := by
  have hinv := h.inv
  obtain ⟨p0, acc, h1, h2, h3, h4, h5⟩ := h
  have hacc : acceptedBy ooo e = acc := by
    unfold acceptedBy
    cases hp : e.pkts with
    | nil => exact absurd hp hne
    | cons q rest =>
      have : q = p0 := h1 q (by rw [hp]; rfl)
      subst this
      rw [hp] at h4
      simp [h4]
  have hmin : n = extent acc := by
    have hcomp := hc
    simp only [LiveHeap.isComplete, hn, decide_eq_true_eq, Option.some.injEq] at hcomp
    rw [← h5.min, ← hcomp.2, ← hcomp.1]
  rw [hacc]
  exact ((C13_complete_iff p0 ooo e.pkts (fun p hp => (h3 p hp).2) e.heap acc h4).1 hc).2 k (by omega)

theorem Outcome.copied_ne {cfg : StreamConfig} {ccfg : ChunkConfig} {ops : List ChunkRecvOp} {r : ChunkRecv} {d : List Entry} {a : AStream}
    (o : Outcome cfg ccfg ops r d a) {o1 o2 : List ChunkOp} {h off : Nat} {data : Bytes} (he : r.ops = o1 ++ .copy h off data :: o2) : data ≠ [] := by
  have ho := o.ops
  rw [he] at ho
  obtain ⟨c1, call, c2, h1, h2, h3⟩ := chunkOps_split ho
  obtain ⟨u, rfl, hk⟩ := op?_copy h3
  obtain ⟨e, pl', p, k1, k2, k3, k4, k5, k6, k7, k8⟩ := o.called.copied h1
  rw [← k7]
  exact k5

/-! ### No heap is lost without being counted -/

/-- The complete heaps whose end was reported. -/
def readies (ops : List ChunkOp) : List Nat := ops.filterMap (fun op => match op with | .heapReady h true => some h | _ => none)

theorem readies_append (a b : List ChunkOp) : readies (a ++ b) = readies a ++ readies b := List.filterMap_append

/-- The heap has no chunk. -/
def chunkless (hs : List HeapMeta) (h : Nat) : Bool := ((hs[h]?).map (fun m => decide (m.chunk = none))).getD false

theorem flagCount_append (a b : List ChunkEv) : flagCount (a ++ b) = flagCount a + flagCount b := List.countP_append

theorem lossCount_append (a b : List ChunkEv) : lossCount (a ++ b) = lossCount a + lossCount b := List.countP_append

theorem counts_win (l : List WinEv) : flagCount (l.map .win) = 0 ∧ lossCount (l.map .win) = 0 := by
  unfold flagCount lossCount
  rw [List.countP_eq_zero, List.countP_eq_zero]
  simp

/-- Flags and losses against the ends of complete heaps. -/
structure Counted (s : ChunkStream) (rs : List Nat) (tr : List ChunkEv) : Prop where
  lt : ∀ h ∈ rs, h < s.heaps.length
  sum : flagCount tr + lossCount tr + rs.countP (chunkless s.heaps) = rs.length + s.heaps.countP (fun m => decide (m.chunk = none))
  le : flagCount tr ≤ rs.length

theorem chunkless_append {hs : List HeapMeta} {m : HeapMeta} {rs : List Nat} (hl : ∀ h ∈ rs, h < hs.length) :
    rs.countP (chunkless (hs ++ [m])) = rs.countP (chunkless hs) := by
  apply List.countP_congr
  intro h hh
  unfold chunkless
  rw [List.getElem?_append_left (hl h hh)]

theorem Counted.allocate {cfg : ChunkConfig} (hall : ∀ n, cfg.alloc n = true) {ops : List ChunkOp} {s s' : ChunkStream} {tr ev : List ChunkEv} {hd : Nat}
    {win : List (Option Chunk)} (hmax : 0 < cfg.maxChunks) (cr : CRel cfg ops s tr hd win) {rs : List Nat} (c : Counted s rs tr) {pl : Place} (hv : (ChunkOp.allocate pl).Valid cfg (placements ops))
    (h : s.step cfg (.allocate pl) = some (s', ev)) : Counted s' rs (tr ++ ev) := by
  obtain ⟨s1, ev1, h1, win1, q1, q2, q3, q4, q5, q6⟩ := allocate_spec hmax cr hv.1 hv.2
  have h' : s.allocate cfg pl = some (s', ev) := h
  rw [q1] at h'
  obtain ⟨rfl, rfl⟩ : s1 = s' ∧ ev1 = ev := by simpa using h'
  have hheaps : ∃ m, s1.heaps = s.heaps ++ [m] := by
    unfold ChunkStream.allocate at q1
    split at q1
    · simp only [Option.some.injEq, Prod.mk.injEq] at q1
      exact ⟨_, by rw [← q1.1]⟩
    · split at q1
      · cases q1
      · simp only [Option.some.injEq, Prod.mk.injEq] at q1
        exact ⟨_, by rw [← q1.1]⟩
      · split at q1
        · cases q1
        · simp only [Option.some.injEq, Prod.mk.injEq] at q1
          exact ⟨_, by rw [← q1.1]⟩
  obtain ⟨m, hm⟩ := hheaps
  have hst := q6 m (by rw [hm]; simp)
  have hhead : headAfter tr = hd := lastHead_eq cr.st
  have hev : flagCount ev1 = 0 ∧ lossCount ev1 = if m.chunk = none then 1 else 0 := by
    by_cases hneg : pl.chunkId < 0
    · have hn : m.chunk = none := by
        apply Classical.byContradiction
        intro hx
        have := (hst.1 hx).1
        omega
      rw [(q3 hneg).1, if_pos hn]
      simp [flagCount, lossCount]
    · by_cases hlt : pl.chunkId.toNat < hd
      · have hn : m.chunk = none := by
          apply Classical.byContradiction
          intro hx
          have := (hst.1 hx).2.1
          omega
        rw [(q4 (by omega) hlt).1, if_pos hn]
        simp [flagCount, lossCount]
      · have hn : m.chunk ≠ none := hst.2 ⟨by omega, by omega, hall _⟩
        obtain ⟨wev, x, g1, g2, g3, g4, g5⟩ := q5 (by omega) (by omega)
        rw [if_neg hn, g2, flagCount_append, lossCount_append, (counts_win wev).1, (counts_win wev).2]
        cases x with
        | none => simp [flagCount, lossCount]
        | some x =>
          simp only
          split <;> simp [flagCount, lossCount]
  refine ⟨fun h hh => by rw [hm]; have := c.lt h hh; simp; omega, ?_, ?_⟩
  · rw [flagCount_append, lossCount_append, hev.1, hev.2, hm, chunkless_append c.lt, List.countP_append]
    have := c.sum
    by_cases hn : m.chunk = none
    · simp [hn]; omega
    · simp [hn]; omega
  · rw [flagCount_append, hev.1]; exact c.le

theorem Counted.quiet {s s' : ChunkStream} {tr ev : List ChunkEv} {rs : List Nat} (c : Counted s rs tr) (hh : s'.heaps = s.heaps) (h1 : flagCount ev = 0)
    (h2 : lossCount ev = 0) : Counted s' rs (tr ++ ev) :=
  ⟨fun h hm => by rw [hh]; exact c.lt h hm, by rw [flagCount_append, lossCount_append, h1, h2, hh]; simpa using c.sum, by rw [flagCount_append, h1]; exact c.le⟩

theorem Counted.ready {cfg : ChunkConfig} (hz : cfg.presenceSize = 0) {s s' : ChunkStream} {tr ev : List ChunkEv} {rs : List Nat} (c : Counted s rs tr) {h : Nat}
    (hs : s.step cfg (.heapReady h true) = some (s', ev)) : Counted s' (rs ++ [h]) (tr ++ ev) := by
  simp only [ChunkStream.step, ChunkStream.heapReady, if_true] at hs
  cases hm : s.heaps[h]? with
  | none => rw [hm] at hs; simp at hs
  | some m =>
    have hlt : h < s.heaps.length := lt_of_getElem? hm
    rw [hm] at hs
    simp only at hs
    have hx : ∀ x ∈ rs ++ [h], x < s.heaps.length := fun x hx => by
      rcases List.mem_append.1 hx with hx | hx
      · exact c.lt x hx
      · rw [List.mem_singleton] at hx; omega
    have hcs := c.sum
    have hle := c.le
    cases hc : m.chunk with
    | none =>
      rw [hc] at hs
      simp only [Option.some.injEq, Prod.mk.injEq] at hs
      obtain ⟨rfl, rfl⟩ := hs
      refine ⟨hx, ?_, by simp; omega⟩
      rw [List.append_nil, List.countP_append, List.length_append]
      simp [chunkless, hm, hc]
      omega
    | some k =>
      rw [hc] at hs
      simp only at hs
      have hcl : chunkless s.heaps h = false := by simp [chunkless, hm, hc]
      split at hs
      · simp only [Option.some.injEq, Prod.mk.injEq] at hs
        obtain ⟨rfl, rfl⟩ := hs
        refine ⟨hx, ?_, by rw [flagCount_append]; simp [flagCount]; unfold flagCount at hle; omega⟩
        rw [flagCount_append, lossCount_append, List.countP_append, List.length_append]
        have e1 : flagCount [ChunkEv.tooOld] = 0 := rfl
        have e2 : lossCount [ChunkEv.tooOld] = 1 := rfl
        rw [e1, e2]
        simp [hcl]
        omega
      · unfold heapPresence at hs
        rw [if_pos hz] at hs
        split at hs
        · cases hs
        · next ev' hev =>
          split at hev
          · simp only [Option.some.injEq] at hev
            simp only [Option.some.injEq, Prod.mk.injEq] at hs
            obtain ⟨rfl, rfl⟩ := hs
            subst hev
            have e1 : ∀ c i, flagCount [ChunkEv.present c i] = 1 := fun _ _ => rfl
            have e2 : ∀ c i, lossCount [ChunkEv.present c i] = 0 := fun _ _ => rfl
            refine ⟨hx, ?_, by rw [flagCount_append, e1]; simp; omega⟩
            rw [flagCount_append, lossCount_append, List.countP_append, List.length_append, e1, e2]
            simp [hcl]
            omega
          · cases hev

theorem chunkRun_join (cfg : ChunkConfig) : ∀ {a b : List ChunkOp} {s s1 s2 : ChunkStream} {t1 t2 : List ChunkEv},
    ChunkStream.run cfg a s = some (s1, t1) → ChunkStream.run cfg b s1 = some (s2, t2) → ChunkStream.run cfg (a ++ b) s = some (s2, t1 ++ t2)
  | [], b, s, s1, s2, t1, t2, h1, h2 => by cases h1; exact h2
  | op :: a, b, s, s1, s2, t1, t2, h1, h2 => by
    rw [ChunkStream.run] at h1
    rw [List.cons_append, ChunkStream.run]
    split at h1
    · cases h1
    · next s' ev hs =>
      split at h1
      · cases h1
      · next s'' ev' hr =>
        simp only [Option.some.injEq, Prod.mk.injEq] at h1
        obtain ⟨rfl, rfl⟩ := h1
        rw [chunkRun_join cfg hr h2]
        simp

theorem counts_zero {ev : List ChunkEv} (w2 : ∀ c i, .present c i ∉ ev) (w3 : .tooOld ∉ ev) (w4 : .rejected ∉ ev) : flagCount ev = 0 ∧ lossCount ev = 0 := by
  unfold flagCount lossCount
  rw [List.countP_eq_zero, List.countP_eq_zero]
  refine ⟨fun x hx => ?_, fun x hx => ?_⟩
  · cases x <;> simp
    exact absurd hx (w2 _ _)
  · cases x <;> simp
    · exact absurd hx w3
    · exact absurd hx w4

theorem counted_run {cfg : ChunkConfig} (hmax : 0 < cfg.maxChunks) (hall : ∀ n, cfg.alloc n = true) (hz : cfg.presenceSize = 0) :
    ∀ (b a : List ChunkOp) {s s' : ChunkStream} {tr t' : List ChunkEv}, ValidOps cfg (a ++ b) → ChunkStream.run cfg a (ChunkStream.new cfg) = some (s, tr) →
    Counted s (readies a) tr → ChunkStream.run cfg b s = some (s', t') → Counted s' (readies (a ++ b)) (tr ++ t')
  | [], a, s, s', tr, t', _, _, hc, h => by cases h; simpa using hc
  | op :: b, a, s, s', tr, t', hv, ha, hc, h => by
    rw [ChunkStream.run] at h
    split at h
    · cases h
    · next s1 ev hs =>
      split at h
      · cases h
      · next s2 ev' hr =>
        simp only [Option.some.injEq, Prod.mk.injEq] at h
        obtain ⟨rfl, rfl⟩ := h
        have hv1 : op.Valid cfg (placements a) := hv a op b rfl
        have hone : Counted s1 (readies (a ++ [op])) (tr ++ ev) := by
          rw [readies_append]
          cases op with
          | allocate pl =>
            obtain ⟨sx, tx, hd, win, g1, g2⟩ := chunkRun_new hmax (ValidOps.prefix hv)
            rw [ha] at g1
            obtain ⟨rfl, rfl⟩ : s = sx ∧ tr = tx := by simpa using g1
            simpa [readies] using hc.allocate hall hmax g2 hv1 hs
          | copy hp off data =>
            obtain ⟨rfl, he⟩ := copy_events hs
            have : flagCount ev = 0 ∧ lossCount ev = 0 := by
              rcases he with rfl | ⟨c, o, rfl⟩
              · exact ⟨rfl, rfl⟩
              · rw [if_pos hz]; exact ⟨rfl, rfl⟩
            simpa [readies] using hc.quiet rfl this.1 this.2
          | heapReady hp bb =>
            cases bb with
            | true => simpa [readies] using hc.ready hz hs
            | false =>
              simp only [ChunkStream.step, ChunkStream.heapReady] at hs
              simp only [Bool.false_eq_true, if_false, Option.some.injEq, Prod.mk.injEq] at hs
              obtain ⟨rfl, rfl⟩ := hs
              simpa [readies] using hc
          | flush =>
            obtain ⟨w1, w2, w3, w4, w5⟩ := withWindow_events hs
            obtain ⟨z1, z2⟩ := counts_zero w2 w3 w4
            simpa [readies] using hc.quiet w5 z1 z2
          | flushUntil t =>
            obtain ⟨w1, w2, w3, w4, w5⟩ := withWindow_events hs
            obtain ⟨z1, z2⟩ := counts_zero w2 w3 w4
            simpa [readies] using hc.quiet w5 z1 z2
        have hrun1 : ChunkStream.run cfg [op] s = some (s1, ev) := by
          rw [ChunkStream.run, hs]; simp [ChunkStream.run]
        have := counted_run hmax hall hz b (a ++ [op]) (by simpa using hv) (chunkRun_join cfg ha hrun1) hone hr
        simpa using this

/-- No heap's end is reported twice. -/
theorem Outcome.readies_nodup {cfg : StreamConfig} {ccfg : ChunkConfig} {ops : List ChunkRecvOp} {r : ChunkRecv} {d : List Entry} {a : AStream}
    (o : Outcome cfg ccfg ops r d a) : (readies r.ops).Nodup := by
  have key : ∀ (l : List ChunkOp), (∀ o1 h o2, l = o1 ++ .heapReady h true :: o2 → ∀ b, .heapReady h b ∉ o2) → (readies l).Nodup := by
    intro l
    induction l with
    | nil => intro _; exact List.nodup_nil
    | cons op l ih =>
      intro hh
      have ih' := ih (fun o1 h o2 he => hh (op :: o1) h o2 (by rw [he]; rfl))
      have hc : readies (op :: l) = readies [op] ++ readies l := readies_append [op] l
      rw [hc]
      cases op with
      | heapReady h b =>
        cases b with
        | false => exact ih'
        | true =>
          show (h :: readies l).Nodup
          rw [List.nodup_cons]
          refine ⟨fun hm => ?_, ih'⟩
          unfold readies at hm
          rw [List.mem_filterMap] at hm
          obtain ⟨x, hx, hxe⟩ := hm
          split at hxe
          · simp only [Option.some.injEq] at hxe
            subst hxe
            exact hh [] _ l rfl true hx
          · cases hxe
      | _ => exact ih'
  refine key r.ops (fun o1 h o2 he b hm => ?_)
  obtain ⟨e, pl, c1, c2, m1, m2, m3, m4, m5, m6, m7, m8, m9, m10⟩ := o.readied he
  obtain ⟨x, y, hxy⟩ := List.append_of_mem hm
  have he2 : r.ops = (o1 ++ .heapReady h true :: x) ++ .heapReady h b :: y := by rw [he, hxy]; simp
  obtain ⟨e', pl', c1', c2', n1, n2, n3, n4, n5, n6, n7, n8, n9, n10⟩ := o.readied he2
  -- both refer to the same allocation
  have hsplit : chunkOps [] (c1' ) = some (o1 ++ .heapReady h true :: x) := n7
  obtain ⟨z1, call, z2, w1, w2, w3⟩ := chunkOps_split hsplit
  obtain ⟨u, rfl, hk⟩ := op?_ready w3
  have hidx : ((placedPairs c1').map Prod.fst).idxOf? u = some h := by
    have := idxOf?_append ((placedPairs (.ready u true :: z2)).map Prod.fst) (by simpa using hk)
    rw [← List.map_append, ← placedPairs_append, ← w1] at this
    exact this
  have hu : u = e'.uid := by
    obtain ⟨p1, g1⟩ := idxOf?_pairs hidx
    obtain ⟨p2, g2⟩ := idxOf?_pairs n8
    rw [g1] at g2
    simpa using congrArg Prod.fst (Option.some.inj g2)
  subst hu
  have hin : MemCall.ready e'.uid true ∈ callsOf e'.uid c1' := mem_callsOf.2 ⟨by rw [w1]; simp, rfl⟩
  rw [n9] at hin
  unfold memCalls at hin
  rcases List.mem_append.1 hin with hin | hin
  · split at hin <;> simp at hin
  · obtain ⟨p, -, -, hp⟩ := mem_copiesOf hin
    cases hp

/-- The end of every complete heap with payload that is handed over is reported to the chunk layer. -/
theorem Outcome.reported {cfg : StreamConfig} {ccfg : ChunkConfig} {ops : List ChunkRecvOp} {r : ChunkRecv} {d : List Entry} {a : AStream}
    (o : Outcome cfg ccfg ops r d a) {e : Entry} (he : e ∈ r.heaps) (hf : fullHeap e = true) :
    ∃ h ∈ readies r.ops, ∃ pl, (placedPairs r.calls)[h]? = some (e.uid, pl) := by
  unfold fullHeap at hf
  rw [Bool.and_eq_true, decide_eq_true_eq] at hf
  obtain ⟨pl, h1, h2⟩ := o.called.ended e he
  have hin : MemCall.ready e.uid e.heap.isComplete ∈ callsOf e.uid r.calls := by rw [h2]; simp
  obtain ⟨c1, c2, hc⟩ := List.append_of_mem (mem_callsOf.1 hin).1
  obtain ⟨e', pl', k1, k2, k3, k4, k5, k6⟩ := o.called.readied hc
  have hee : e' = e := uid_inj o.called.nodup (by rw [List.append_assoc]; exact List.mem_append_left _ k1)
    (by rw [List.append_assoc]; exact List.mem_append_left _ he) k2
  subst hee
  have hpl : MemCall.place e'.uid pl' ∈ c1 := by
    have : MemCall.place e'.uid pl' ∈ callsOf e'.uid c1 := by
      rw [k5, memCalls, if_pos hf.2]; simp
    exact (mem_callsOf.1 this).1
  obtain ⟨h, hk⟩ := idxOf?_isSome (l := (placedPairs c1).map Prod.fst) (u := e'.uid) (List.mem_map.2 ⟨_, mem_placedPairs.2 hpl, rfl⟩)
  obtain ⟨p1, g1⟩ := idxOf?_pairs hk
  have ho := o.ops
  rw [hc] at ho
  obtain ⟨oa, ob, q1, q2, q3⟩ := chunkOps_append ho
  obtain ⟨u, v, q4, q5, q6⟩ := chunkOps_cons q2
  refine ⟨h, ?_, p1, ?_⟩
  · simp only [List.nil_append, MemCall.op?, hk, Option.some.injEq] at q4
    rw [q3, q6, ← q4, hf.1, readies_append]
    refine List.mem_append_right _ ?_
    rw [readies_append]
    exact List.mem_append_left _ (by simp [readies])
  · rw [hc, placedPairs_append, List.getElem?_append_left (lt_of_getElem? g1)]
    exact g1

end Spead2
