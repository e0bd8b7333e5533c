import Verif.Lemmas.StreamRefine

namespace Spead2
open Spec

/-! ### Traces -/

theorem packetCount_append (a b : List Ev) : packetCount (a ++ b) = packetCount a + packetCount b := List.countP_append
theorem handedOver_append (a b : List Ev) : handedOver (a ++ b) = handedOver a ++ handedOver b := List.filterMap_append

theorem foldr_max_append (a b : List Nat) : (a ++ b).foldr max 0 = max (a.foldr max 0) (b.foldr max 0) := by
  induction a with
  | nil => simp
  | cons x a ih => simp only [List.cons_append, List.foldr_cons, ih]; omega

theorem largestBatch_append (a b : List Ev) : largestBatch (a ++ b) = max (largestBatch a) (largestBatch b) := by
  unfold largestBatch
  rw [List.filterMap_append, foldr_max_append]

theorem countP_map_const {α : Type} (f : α → Ev) (g : Ev → Bool) (b : Bool) (h : ∀ x, g (f x) = b) (l : List α) :
    (l.map f).countP g = if b then l.length else 0 := by
  induction l with
  | nil => cases b <;> rfl
  | cons x l ih =>
    rw [List.map_cons, List.countP_cons, ih, h]
    cases b <;> simp

theorem filterMap_map_const {α β : Type} (f : α → Ev) (g : Ev → Option β) (h : ∀ x, g (f x) = none) (l : List α) :
    (l.map f).filterMap g = [] := by
  induction l with
  | nil => rfl
  | cons x l ih => rw [List.map_cons, List.filterMap_cons, h, ih]

theorem heap_map {f : Entry → Ev} (h : ∀ x, (f x).heap? = some x) (l : List Entry) : handedOver (l.map f) = l := by
  induction l with
  | nil => rfl
  | cons x l ih =>
    unfold handedOver at ih ⊢
    rw [List.map_cons, List.filterMap_cons, h, ih]

theorem events_counts (p : Pkt) (r : AResult) :
    packetCount (r.events p) = 1 ∧ handedOver (r.events p) = r.evicted ++ r.completed ∧
    (r.events p).countP Ev.isEvicted = r.evicted.length ∧ (r.events p).countP Ev.isCompleted = r.completed.length ∧
    (r.events p).countP Ev.isSingle = (if p.heapLength = some p.payload.length then 1 else 0) ∧
    (r.events p).countP Ev.isFlushed = 0 ∧ (r.events p).countP Ev.isBatch = 0 ∧ largestBatch (r.events p) = 0 := by
  have k : ∀ g : Ev → Bool, (r.events p).countP g =
      (if g (.packet p r.accepted) then 1 else 0) + ((r.evicted.map Ev.evicted).countP g + (r.completed.map Ev.completed).countP g) := by
    intro g
    unfold AResult.events
    rw [List.countP_cons, List.countP_append]
    omega
  refine ⟨?_, ?_, ?_, ?_, ?_, ?_, ?_, ?_⟩
  · unfold packetCount
    rw [k, countP_map_const _ _ false (fun _ => rfl), countP_map_const _ _ false (fun _ => rfl)]; rfl
  · unfold AResult.events
    rw [show ∀ x (l : List Ev), handedOver (x :: l) = handedOver ([x] ++ l) from fun _ _ => rfl, handedOver_append, handedOver_append,
      heap_map (fun _ => rfl), heap_map (fun _ => rfl)]
    rfl
  · rw [k, countP_map_const _ _ true (fun _ => rfl), countP_map_const _ _ false (fun _ => rfl)]; simp [Ev.isEvicted]
  · rw [k, countP_map_const _ _ false (fun _ => rfl), countP_map_const _ _ true (fun _ => rfl)]; simp [Ev.isCompleted]
  · rw [k, countP_map_const _ _ false (fun _ => rfl), countP_map_const _ _ false (fun _ => rfl)]; simp [Ev.isSingle]
  · rw [k, countP_map_const _ _ false (fun _ => rfl), countP_map_const _ _ false (fun _ => rfl)]; simp [Ev.isFlushed]
  · rw [k, countP_map_const _ _ false (fun _ => rfl), countP_map_const _ _ false (fun _ => rfl)]; simp [Ev.isBatch]
  · unfold largestBatch AResult.events
    rw [List.filterMap_cons, List.filterMap_append, filterMap_map_const _ _ (fun _ => rfl), filterMap_map_const _ _ (fun _ => rfl)]
    rfl

/-- A trace of packets only: no flush, no end of batch; everything handed over was evicted or complete. -/
structure PacketTrace (t : List Ev) : Prop where
  flushed : t.countP Ev.isFlushed = 0
  batch : t.countP Ev.isBatch = 0
  largest : largestBatch t = 0
  length : (handedOver t).length = t.countP Ev.isCompleted + t.countP Ev.isEvicted
  nil : packetCount t = 0 → t = []

theorem PacketTrace.events (p : Pkt) (r : AResult) : PacketTrace (r.events p) := by
  obtain ⟨h1, h2, h3, h4, _, h6, h7, h8⟩ := events_counts p r
  exact ⟨h6, h7, h8, by rw [h2, h3, h4, List.length_append]; omega, by rw [h1]; simp⟩

theorem PacketTrace.append {a b : List Ev} (ha : PacketTrace a) (hb : PacketTrace b) : PacketTrace (a ++ b) :=
  ⟨by rw [List.countP_append, ha.flushed, hb.flushed], by rw [List.countP_append, ha.batch, hb.batch],
    by rw [largestBatch_append, ha.largest, hb.largest]; rfl,
    by rw [handedOver_append, List.length_append, List.countP_append, List.countP_append, ha.length, hb.length]; omega,
    by
      rw [packetCount_append]
      intro h
      rw [ha.nil (by omega), hb.nil (by omega)]; rfl⟩

theorem packets_refine {cfg : StreamConfig} (hm : 0 < cfg.maxHeaps) (hsub : 0 < cfg.substreams) :
    ∀ (ops : List BatchOp) (_ : OpsValid ops) {s : Stream} {a : AStream} (_ : Rel cfg s a) (_ : AInv cfg a none) (st : Batch)
      (_ : st.stopped = false),
    ∃ a' t e s' d, AStream.packets cfg ops a = some (a', t, e) ∧
      Stream.batchLoop cfg ops s st = some (s', { packets := st.packets + packetCount t, complete := st.complete + t.countP Ev.isCompleted, evicted := st.evicted + t.countP Ev.isEvicted, single := st.single + t.countP Ev.isSingle, searchDist := d, stopped := e }, handedOver t) ∧
      Rel cfg s' a' ∧ AInv cfg a' none ∧ s'.stats = s.stats ∧ PacketTrace t
  | [], _, s, a, rel, inv, st, hst => by
    refine ⟨a, [], false, s, st.searchDist, rfl, ?_, rel, inv, rfl, ⟨rfl, rfl, rfl, rfl, fun _ => rfl⟩⟩
    simp [Stream.batchLoop, packetCount, handedOver, ← hst]
  | .stop :: ops, hv, s, a, rel, inv, st, hst => by
    refine ⟨a, [], true, s, st.searchDist, rfl, ?_, rel, inv, rfl, ⟨rfl, rfl, rfl, rfl, fun _ => rfl⟩⟩
    have : ∀ (l : List BatchOp) (st : Batch), st.stopped = true → Stream.batchLoop cfg l s st = some (s, st, []) := by
      intro l st h
      cases l with
      | nil => rfl
      | cons x l => simp [Stream.batchLoop, h]
    rw [Stream.batchLoop, if_neg (by simp [hst])]
    rw [this _ _ rfl]
    rfl
  | .packet p :: ops, hv, s, a, rel, inv, st, hst => by
    obtain ⟨res, s1, d1, h1, h2, h3, h4, h5⟩ := addPacket_refine hm hsub rel inv (hv p List.mem_cons_self) st
    obtain ⟨c1, c2, c3, c4, c5, c6, c7, c8⟩ := events_counts p res
    rw [Stream.batchLoop, if_neg (by simp [hst])]
    rw [Option.bind_eq_bind, h2, Option.bind_some]
    simp only
    rw [AStream.packets, h1]
    simp only
    cases he : res.ended with
    | true =>
      refine ⟨res.stream, res.events p, true, s1, d1, by rw [if_pos rfl], ?_, h3, h4, h5, PacketTrace.events p res⟩
      have : ∀ (l : List BatchOp) (st : Batch), st.stopped = true → Stream.batchLoop cfg l s1 st = some (s1, st, []) := by
        intro l st h
        cases l with
        | nil => rfl
        | cons x l => simp [Stream.batchLoop, h]
      rw [this _ _ (by simp), Option.bind_eq_bind, Option.bind_some, c1, c2, c3, c4, c5]
      simp
    | false =>
      obtain ⟨a', t, e, s', d, q1, q2, q3, q4, q5, q6⟩ := packets_refine hm hsub ops (fun p hp => hv p (List.mem_cons_of_mem _ hp)) h3 h4
        { packets := st.packets + 1, complete := st.complete + res.completed.length, evicted := st.evicted + res.evicted.length, single := st.single + (if p.heapLength = some p.payload.length then 1 else 0), searchDist := d1, stopped := st.stopped || false } (by simp [hst])
      refine ⟨a', res.events p ++ t, e, s', d, ?_, ?_, q3, q4, q5.trans h5, (PacketTrace.events p res).append q6⟩
      · rw [if_neg (by simp), q1]
      · rw [q2, Option.bind_eq_bind, Option.bind_some, packetCount_append, handedOver_append, List.countP_append, List.countP_append, List.countP_append,
          c1, c2, c3, c4, c5]
        simp only [Nat.add_assoc]

theorem Rel.withStats {cfg : StreamConfig} {s : Stream} {a : AStream} (h : Rel cfg s a) (x : StreamStats) : Rel cfg { s with stats := x } a :=
  ⟨⟨h.core.nslots, h.core.nbuckets, h.core.nodup, h.core.used, h.core.free, h.core.chain⟩, h.nheads, h.heads, h.created, h.stopped⟩

theorem stopReceived_refine {cfg : StreamConfig} (hm : 0 < cfg.maxHeaps) (hsub : 0 < cfg.substreams) {s : Stream} {a : AStream}
    (rel : Rel cfg s a) (inv : AInv cfg a none) (hs : a.stopped = false) :
    ∃ s', s.stopReceived cfg = some (s', a.flushed cfg) ∧ Rel cfg s' (a.halt cfg).1 ∧
      s'.stats = { s.stats with heaps := s.stats.heaps + (a.flushed cfg).length, flushed := s.stats.flushed + (a.flushed cfg).length } := by
  have rel' : Rel cfg { s with stopped := true } { a with stopped := true } :=
    ⟨⟨rel.core.nslots, rel.core.nbuckets, rel.core.nodup, rel.core.used, rel.core.free, rel.core.chain⟩, rel.nheads, rel.heads, rel.created, rfl⟩
  have inv' : AInv cfg { a with stopped := true } none := ⟨inv.sub, inv.lo, inv.hi, inv.order, inv.ok, inv.uid, inv.uids⟩
  obtain ⟨s', h1, h2, h3⟩ := flush_refine hm hsub rel' inv'
  refine ⟨s', ?_, h2, h3⟩
  unfold Stream.stopReceived
  rw [if_neg (by rw [rel.stopped, hs]; simp)]
  exact h1

theorem statsOf_append (t u : List Ev) (d : Nat) : statsOf (t ++ u) d =
    { heaps := (statsOf t d).heaps + (handedOver u).length, evicted := (statsOf t d).evicted + u.countP Ev.isEvicted, flushed := (statsOf t d).flushed + u.countP Ev.isFlushed, packets := (statsOf t d).packets + packetCount u, batches := (statsOf t d).batches + u.countP Ev.isBatch, maxBatch := max (statsOf t d).maxBatch (largestBatch u), single := (statsOf t d).single + u.countP Ev.isSingle, searchDist := d } := by
  simp [statsOf, handedOver_append, packetCount_append, largestBatch_append]

theorem flushed_counts (l : List Entry) : packetCount (l.map Ev.flushed) = 0 ∧ handedOver (l.map Ev.flushed) = l ∧
    (l.map Ev.flushed).countP Ev.isEvicted = 0 ∧ (l.map Ev.flushed).countP Ev.isSingle = 0 ∧
    (l.map Ev.flushed).countP Ev.isFlushed = l.length ∧ (l.map Ev.flushed).countP Ev.isBatch = 0 ∧ largestBatch (l.map Ev.flushed) = 0 := by
  refine ⟨?_, heap_map (fun _ => rfl) l, ?_, ?_, ?_, ?_, ?_⟩
  · unfold packetCount; rw [countP_map_const _ _ false (fun _ => rfl)]; rfl
  · rw [countP_map_const _ _ false (fun _ => rfl)]; rfl
  · rw [countP_map_const _ _ false (fun _ => rfl)]; rfl
  · rw [countP_map_const _ _ true (fun _ => rfl)]; rfl
  · rw [countP_map_const _ _ false (fun _ => rfl)]; rfl
  · unfold largestBatch; rw [filterMap_map_const _ _ (fun _ => rfl)]; rfl

theorem batchEvent_counts (n : Nat) (e : Bool) (h : ¬ (n = 0 ∧ e = true)) : batchEvent n e = [.batch n] := by
  unfold batchEvent; rw [if_neg h]

/-- One operation refines the abstract operation and keeps the statistics in step with the trace. -/
theorem step_refine {cfg : StreamConfig} (hm : 0 < cfg.maxHeaps) (hsub : 0 < cfg.substreams) {s : Stream} {a : AStream}
    (rel : Rel cfg s a) (inv : AInv cfg a none) (op : StreamOp) (hv : op.Valid) (t0 : List Ev) (hst : s.stats = statsOf t0 s.stats.searchDist) :
    ∃ a' t s', a.step cfg op = some (a', t) ∧ s.step cfg op = some (s', handedOver t) ∧ Rel cfg s' a' ∧ AInv cfg a' none ∧
      s'.stats = statsOf (t0 ++ t) s'.stats.searchDist := by
  have hflush : ∀ (l : List Entry) (s' : Stream),
      s'.stats = { s.stats with heaps := s.stats.heaps + l.length, flushed := s.stats.flushed + l.length } →
      s'.stats = statsOf (t0 ++ l.map Ev.flushed) s'.stats.searchDist := by
    intro l s' h
    obtain ⟨f1, f2, f3, f4, f5, f6, f7⟩ := flushed_counts l
    rw [statsOf_append, f1, f2, f3, f4, f5, f6, f7]
    rw [h]
    simp only
    have := hst
    generalize s.stats = x at *
    cases x
    simp only [statsOf, StreamStats.mk.injEq] at this ⊢
    obtain ⟨g1, g2, g3, g4, g5, g6, g7, _⟩ := this
    refine ⟨by rw [g1], by rw [g2]; omega, by rw [g3], by rw [g4]; omega, by rw [g5]; omega, by rw [g6]; omega, by rw [g7]; omega, trivial⟩
  cases op with
  | flush =>
    obtain ⟨s', h1, h2, h3⟩ := flush_refine hm hsub rel inv
    refine ⟨a.clear, _, s', rfl, ?_, h2, AInv.clear cfg a a.stopped, hflush _ s' h3⟩
    rw [(flushed_counts _).2.1]; exact h1
  | stop =>
    cases hs : a.stopped with
    | true =>
      refine ⟨a, [], s, by simp [AStream.step, hs], ?_, rel, inv, by simpa using hst⟩
      show s.stop cfg = _
      unfold Stream.stop
      rw [if_pos (by rw [rel.stopped, hs])]
      rfl
    | false =>
      obtain ⟨s', h1, h2, h3⟩ := stopReceived_refine hm hsub rel inv hs
      refine ⟨_, _, s', by simp [AStream.step, hs]; rfl, ?_, h2, AInv.clear cfg a true, hflush _ s' h3⟩
      show s.stop cfg = _
      unfold Stream.stop
      rw [if_neg (by rw [rel.stopped, hs]; simp), h1]
      simp only [AStream.halt, (flushed_counts _).2.1]
  | batch ops =>
    cases hs : a.stopped with
    | true =>
      refine ⟨a, [], s, by simp [AStream.step, hs], ?_, rel, inv, by simpa using hst⟩
      show s.batch cfg ops = _
      unfold Stream.batch
      rw [if_pos (by rw [rel.stopped, hs])]
      rfl
    | false =>
      obtain ⟨a', t, e, s1, d, q1, q2, q3, q4, q5, q6⟩ := packets_refine hm hsub ops hv rel inv {} rfl
      have hstep : s.step cfg (.batch ops) = (s1.endBatch cfg { packets := packetCount t, complete := t.countP Ev.isCompleted, evicted := t.countP Ev.isEvicted, single := t.countP Ev.isSingle, searchDist := d, stopped := e }).bind (fun r' => some (r'.1, handedOver t ++ r'.2)) := by
        show s.batch cfg ops = _
        unfold Stream.batch
        rw [if_neg (by rw [rel.stopped, hs]; simp), Option.bind_eq_bind, q2, Option.bind_some]
        simp only [Nat.zero_add]
        rfl
      have hbatch : ∀ n, packetCount [Ev.batch n] = 0 ∧ handedOver [Ev.batch n] = [] ∧ [Ev.batch n].countP Ev.isEvicted = 0 ∧
          [Ev.batch n].countP Ev.isSingle = 0 ∧ [Ev.batch n].countP Ev.isFlushed = 0 ∧ [Ev.batch n].countP Ev.isBatch = 1 ∧
          largestBatch [Ev.batch n] = n := by
        intro n
        refine ⟨rfl, rfl, rfl, rfl, rfl, rfl, ?_⟩
        simp [largestBatch, Ev.batch?]
      cases e with
      | false =>
        refine ⟨a', t ++ batchEvent (packetCount t) false, { s1 with stats := s1.stats.addBatch { packets := packetCount t, complete := t.countP Ev.isCompleted, evicted := t.countP Ev.isEvicted, single := t.countP Ev.isSingle, searchDist := d, stopped := false } }, ?_, ?_, q3.withStats _, q4, ?_⟩
        · show (if a.stopped then _ else _) = _
          rw [hs, if_neg (by simp), q1]
        · rw [hstep]
          unfold Stream.endBatch
          simp only [Bool.false_eq_true, if_false, and_false, Option.bind_eq_bind, Option.bind_some]
          rw [batchEvent_counts _ _ (by simp), handedOver_append, (hbatch _).2.1]
        · simp only [StreamStats.addBatch]
          obtain ⟨b1, b2, b3, b4, b5, b6, b7⟩ := hbatch (packetCount t)
          rw [batchEvent_counts _ _ (by simp), statsOf_append, handedOver_append, packetCount_append, largestBatch_append,
            List.countP_append, List.countP_append, List.countP_append, List.countP_append, b1, b2, b3, b4, b5, b6, b7,
            q6.flushed, q6.batch, q6.largest, List.append_nil, q6.length, q5]
          have := hst
          generalize s.stats = x at *
          cases x
          simp only [statsOf, StreamStats.mk.injEq] at this ⊢
          obtain ⟨g1, g2, g3, g4, g5, g6, g7, _⟩ := this
          refine ⟨by rw [g1], by rw [g2]; omega, by rw [g3]; omega, by rw [g4]; omega, by rw [g5], by rw [g6]; omega, by rw [g7]; omega, trivial⟩
      | true =>
        have hs' : a'.stopped = false := by rw [packets_stopped q1, hs]
        obtain ⟨s2, h1, h2, h3⟩ := stopReceived_refine hm hsub q3 q4 hs'
        obtain ⟨f1, f2, f3, f4, f5, f6, f7⟩ := flushed_counts (a'.flushed cfg)
        have habs : a.step cfg (.batch ops) = some ((a'.halt cfg).1, t ++ (a'.halt cfg).2 ++ batchEvent (packetCount t) true) := by
          show (if a.stopped then _ else _) = _
          rw [hs, if_neg (by simp), q1]
        have h4 : (a'.halt cfg).2 = (a'.flushed cfg).map Ev.flushed := rfl
        rw [h4] at habs
        by_cases hz : packetCount t = 0
        · refine ⟨_, _, s2, habs, ?_, h2, AInv.clear cfg a' true, ?_⟩
          · rw [hstep]
            unfold Stream.endBatch
            simp only [if_true]
            rw [Option.bind_eq_bind, h1, Option.bind_some, if_pos ⟨hz, trivial⟩, Option.bind_some, handedOver_append, handedOver_append, f2]
            simp [batchEvent, hz, handedOver]
          · have := q6.nil hz
            subst this
            have hb : batchEvent (packetCount []) true = [] := rfl
            rw [hb, List.nil_append, List.append_nil]
            exact hflush _ s2 (by rw [h3, q5])
        · have hz' : ¬ (packetCount t = 0 ∧ true = true) := fun h => hz h.1
          refine ⟨_, _, { s2 with stats := s2.stats.addBatch { packets := packetCount t, complete := t.countP Ev.isCompleted, evicted := t.countP Ev.isEvicted, single := t.countP Ev.isSingle, searchDist := d, stopped := true } }, habs, ?_, h2.withStats _, AInv.clear cfg a' true, ?_⟩
          · rw [hstep]
            unfold Stream.endBatch
            simp only [if_true]
            rw [Option.bind_eq_bind, h1, Option.bind_some, if_neg (fun h => hz h.1), Option.bind_some, handedOver_append, handedOver_append, f2,
              batchEvent_counts _ _ hz', (hbatch _).2.1, List.append_nil]
          · simp only [StreamStats.addBatch]
            obtain ⟨b1, b2, b3, b4, b5, b6, b7⟩ := hbatch (packetCount t)
            rw [batchEvent_counts _ _ hz', statsOf_append]
            simp only [handedOver_append, packetCount_append, largestBatch_append, List.countP_append, b1, b2, b3, b4, b5, b6, b7,
              f1, f2, f3, f4, f5, f6, f7,
              q6.flushed, q6.batch, q6.largest, List.append_nil, List.length_append, q6.length, h3, q5]
            have := hst
            generalize s.stats = x at *
            cases x
            simp only [statsOf, StreamStats.mk.injEq] at this ⊢
            obtain ⟨g1, g2, g3, g4, g5, g6, g7, _⟩ := this
            refine ⟨by rw [g1]; omega, by rw [g2]; omega, by rw [g3]; omega, by rw [g4]; omega, by rw [g5], by rw [g6]; omega, by rw [g7]; omega, trivial⟩

/-- Traces of a whole history. -/
theorem run_refine {cfg : StreamConfig} (hm : 0 < cfg.maxHeaps) (hsub : 0 < cfg.substreams) :
    ∀ (ops : List StreamOp) (_ : ∀ op ∈ ops, op.Valid) {s : Stream} {a : AStream} (_ : Rel cfg s a) (_ : AInv cfg a none) (t0 : List Ev)
      (_ : s.stats = statsOf t0 s.stats.searchDist),
    ∃ a' t s', AStream.run cfg ops a = some (a', t) ∧ Stream.run cfg ops s = some (s', handedOver t) ∧ Rel cfg s' a' ∧ AInv cfg a' none ∧
      s'.stats = statsOf (t0 ++ t) s'.stats.searchDist
  | [], _, s, a, rel, inv, t0, hst => ⟨a, [], s, rfl, rfl, rel, inv, by simpa using hst⟩
  | op :: ops, hv, s, a, rel, inv, t0, hst => by
    obtain ⟨a1, t1, s1, h1, h2, h3, h4, h5⟩ := step_refine hm hsub rel inv op (hv op List.mem_cons_self) t0 hst
    obtain ⟨a2, t2, s2, q1, q2, q3, q4, q5⟩ := run_refine hm hsub ops (fun o ho => hv o (List.mem_cons_of_mem _ ho)) h3 h4 (t0 ++ t1) h5
    refine ⟨a2, t1 ++ t2, s2, ?_, ?_, q3, q4, by rw [← List.append_assoc]; exact q5⟩
    · rw [AStream.run, h1]
      simp only
      rw [q1]
    · rw [Stream.run, Option.bind_eq_bind, h2, Option.bind_some]
      simp only
      rw [q2, Option.bind_some, handedOver_append]

theorem chain_null {slots : List Slot} : ChainAt slots .null [] := rfl

theorem Rel.new (cfg : StreamConfig) : Rel cfg (Stream.new cfg) {} where
  core := {
    nslots := by simp [Stream.new]
    nbuckets := by simp [Stream.new]
    nodup := by simp [table]
    used := by simp [table]
    free := by
      intro i hi _
      simp only [Stream.new, List.length_replicate] at hi
      simp only [Stream.new, List.getElem?_replicate, if_pos hi]
    chain := by
      intro b hb
      refine ⟨.null, ?_, rfl⟩
      simp only [Stream.new, List.getElem?_replicate, if_pos hb] }
  nheads := by simp [Stream.new]
  heads := by
    intro i hi
    have : i < cfg.substreams + 1 := by omega
    simp [Stream.new, List.getElem?_range this]
  created := rfl
  stopped := rfl

theorem AInv.new (cfg : StreamConfig) : AInv cfg {} none :=
  ⟨by simp, by simp, by simp, by simp, by simp, by simp, by simp⟩

end Spead2
