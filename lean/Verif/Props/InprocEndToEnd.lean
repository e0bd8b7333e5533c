import Verif.Lemmas.RecvInproc
import Verif.Props.Queue
import Verif.Props.TcpEndToEnd

/-!
# C66: heaps that are sent over in-process queues arrive
-/

namespace Spead2
open Spec

theorem first_split {α : Type} {x : α} : ∀ {a b c d : List α}, x ∉ a → x ∉ c → a ++ x :: b = c ++ x :: d → a = c
  | [], b, [], d, _, _, _ => rfl
  | [], b, y :: c, d, _, hc, h => by
    rw [List.nil_append, List.cons_append, List.cons.injEq] at h
    exact absurd (h.1 ▸ List.mem_cons_self) hc
  | y :: a, b, [], d, ha, _, h => by
    rw [List.nil_append, List.cons_append, List.cons.injEq] at h
    exact absurd (h.1 ▸ List.mem_cons_self) ha
  | y :: a, b, z :: c, d, ha, hc, h => by
    rw [List.cons_append, List.cons_append, List.cons.injEq] at h
    rw [h.1, first_split (fun hm => ha (List.mem_cons_of_mem _ hm)) (fun hm => hc (List.mem_cons_of_mem _ hm)) h.2]

/-- C66. As C65, with in-process queues, one for each substream, and any substream. The queue is used by any number of threads, in any interleaving; what is added to it is
what the writer sends on its substream, and what is taken out of it is given to the receiver, which also sees spurious wake-ups and
errors of the event loop. Once the queue has been emptied the receiver has handed over the heaps of that substream, group after group, each
once, complete and with the items that were sent. It has stopped exactly if it has seen that the queue was stopped. No step is undefined. -/
theorem C66_end_to_end {size mask substreams mps : Nat} (hq : queueMask size = some mask) {connecting : Bool} {ops : List (WOp SendHeap)} {w : WSt SendHeap GenPacket} {tr : List (WEv GenPacket)}
    (h : WReach .inproc (packetEnv size mask substreams mps) connecting ops w tr) (hc : CleanRejects (queueEvs tr)) (hi : w.idle) (ha : AllSent (queueEvs tr)) (hf : FaithfulCalls mps ops)
    (cfg : StreamConfig) (hm : 0 < cfg.maxHeaps) (hsub : 0 < cfg.substreams) (n : Nat) (hr : Receivable cfg ops ((accepted (queueEvs tr)).map (Accepted.on n)))
    {T : Nat → Bool} {k : Nat} {qops : List (UOp Bytes)} {qs : UState Bytes} {qtr : List (REv Bytes)} (hqr : QueueReach k qops qs qtr) (hT : Readers T qops) (hp : pushed qtr = leftOn n tr) (hall : popped qtr = pushed qtr)
    {evs : List InWake} (he : evs.filter (fun e => e ≠ .error) = results T qtr) :
    ∃ reading s' groups outs, List.Forall₂ (SubmittedOn ops mps n) (accepted (queueEvs tr)) groups ∧ inprocRun cfg evs true (Stream.new cfg) = some (reading, s', outs.flatten) ∧
      List.Forall₂ Arrives groups outs ∧ liveHeaps s' = [] ∧ s'.stopped = decide (InWake.stopped ∈ evs) := by
  have hv := packetEnv_valid (substreams := substreams) (mps := mps) hq
  obtain ⟨gs0, h1, h2⟩ := submitted_groups (env := (packetEnv size mask substreams mps).sq) rfl hf _ (accepted_from hv.sq h hc)
  obtain ⟨gs, k1, k2⟩ := on_groups n h1 h2
  have hd := on_deliverable k1 hr
  have hok : ∀ x ∈ gs.flatMap SentGroup.heaps, x.Ok := fun x hx => (k2 x hx).1
  have hit : ∀ x ∈ gs.flatMap SentGroup.heaps, NoEmpty x.width x.heap.items ∨ (heapPtrs x.mps x.heap).Nodup := by
    intro x hx
    obtain ⟨-, f, e1, e2⟩ := k2 x hx
    rw [e1, e2]
    exact f.items
  have hwire : leftOn n tr = gs.flatMap SentGroup.wire := by
    unfold leftOn
    rw [(C64_all hv h hc hi ha).1 rfl, ← on_wires k1]
    unfold allPackets
    rw [List.filter_map, List.map_map]
    rfl
  -- what the receiver sees
  obtain ⟨r, c, r1, r2, r3, -⟩ := (seen_reach hqr hT).sees
  rw [r1] at he
  have hpk : ∀ l : List InWake, packetsOf (l.filter (fun e => e ≠ .error)) = packetsOf l := by
    intro l
    induction l with
    | nil => rfl
    | cons x l ih => cases x <;> simp [packetsOf] at ih ⊢ <;> exact ih
  have hrs : InWake.stopped ∉ r := by
    intro h
    rcases r2 _ h with h | ⟨d, h⟩ <;> cases h
  -- up to the end of the queue
  have hmain : ∀ pre : List InWake, InWake.stopped ∉ pre → pre.filter (fun e => e ≠ .error) = r →
      ∃ s1 outs, inprocRun cfg pre true (Stream.new cfg) = some (true, s1, outs.flatten) ∧ List.Forall₂ Arrives gs outs ∧ liveHeaps s1 = [] ∧ s1.stopped = false ∧ ∃ x, s1.batch cfg [.stop] = some x := by
    intro pre hns e2
    have hpre : packetsOf pre = gs.flatMap SentGroup.wire := by rw [← hpk, e2, r3, hall, hp, hwire]
    have hgood : ∀ d ∈ packetsOf pre, IsPacket d (recvOr d) := by
      intro d hd
      rw [hpre] at hd
      obtain ⟨x, hx, hd⟩ := wires_mem hd
      exact ((hok x hx).framed hd).2.1
    obtain ⟨s1, outs, g1, g2, g3, g4⟩ := delivery_stream hm hsub hok hd hit (ops := pre.map wakeOp) (wake_presents (by rw [hpre]; rfl))
    refine ⟨s1, outs, inproc_run (fun e he h => hns (h ▸ he)) hgood g1 rfl g2, g4, g3, g2, ?_⟩
    obtain ⟨a, t, s2, -, q, -⟩ := run_refine hm hsub (pre.map wakeOp ++ [.batch [.stop]]) (by
      intro op hop
      rcases List.mem_append.1 hop with hop | hop
      · obtain ⟨e, he, rfl⟩ := List.mem_map.1 hop
        cases e with
        | packet d =>
          intro p hp'
          simp only [List.mem_singleton, BatchOp.packet.injEq] at hp'
          subst hp'
          exact framePkt_valid (b := d) (by rw [framePkt_packet (hgood d (List.mem_filterMap.2 ⟨_, he, rfl⟩))]; simp)
        | stopped => intro p hp'; cases hp'
        | empty => intro p hp'; cases hp'
        | error => intro p hp'; cases hp'
      · rw [List.mem_singleton] at hop
        subst hop
        intro p hp'
        simp at hp') (Rel.new cfg) (AInv.new cfg) [] rfl
    obtain ⟨s3, o1, o2, q1, q2, -⟩ := stream_run_split q
    rw [g1] at q1
    obtain ⟨rfl, -⟩ := Prod.mk.inj (Option.some.inj q1)
    rw [Stream.run] at q2
    simp only [Option.bind_eq_bind, Option.bind_eq_some_iff] at q2
    obtain ⟨x, q3, -⟩ := q2
    exact ⟨x, q3⟩
  by_cases hst : InWake.stopped ∈ evs
  · obtain ⟨pre, post, rfl, hn⟩ := List.eq_append_cons_of_mem hst
    have hc0 : 0 < c := by
      apply Classical.byContradiction
      intro h0
      have hm' : InWake.stopped ∈ (pre ++ InWake.stopped :: post).filter (fun e => e ≠ .error) := List.mem_filter.2 ⟨hst, by simp⟩
      rw [he, show c = 0 by omega, List.replicate_zero, List.append_nil] at hm'
      exact hrs hm'
    obtain ⟨c', rfl⟩ : ∃ c', c = c' + 1 := ⟨c - 1, by omega⟩
    rw [List.filter_append, List.filter_cons, if_pos (by simp), List.replicate_succ] at he
    have e2 := first_split (fun h => hn (List.mem_filter.1 h).1) hrs he
    obtain ⟨s1, outs, g1, g2, g3, g4, ⟨s2, o2⟩, g5⟩ := hmain pre hn e2
    have hnil : s1.batch cfg [] = some ({ s1 with stats := s1.stats.addBatch {} }, []) := by
      unfold Stream.batch
      rw [if_neg (by simp [g4])]
      rfl
    obtain ⟨q1, q2, q3⟩ := quiet_batch (l := []) hnil g4 g3 g5
    subst q1
    have hstep : inprocRun cfg (InWake.stopped :: post) true s1 = some (false, s2, []) := by
      rw [inprocRun, inprocStep, if_neg (by simp), if_neg (by simp [g4])]
      simp only [inprocBatch, g5, q2, Bool.not_true]
      rw [inproc_off]
      rfl
    refine ⟨false, s2, gs, outs, k1, ?_, g2, q3, by rw [q2]; simp⟩
    have := inprocRun_append g1 hstep
    rwa [List.append_nil] at this
  · have hc0 : c = 0 := by
      apply Classical.byContradiction
      intro h0
      have hm' : InWake.stopped ∈ r ++ List.replicate c InWake.stopped := List.mem_append_right _ (List.mem_replicate.2 ⟨h0, rfl⟩)
      rw [← he] at hm'
      exact hst (List.mem_filter.1 hm').1
    rw [hc0, List.replicate_zero, List.append_nil] at he
    obtain ⟨s1, outs, g1, g2, g3, g4, -⟩ := hmain evs hst he
    exact ⟨true, s1, gs, outs, k1, g1, g2, g3, by rw [g4]; simp [hst]⟩

/-- C66: what a wake-up does, whatever it finds, and with any bytes in the queue. It is one batch on the stream, and then the reader waits again unless the stream has
stopped. -/
theorem C66_reader (cfg : StreamConfig) (s : Stream) (hs : s.stopped = false) (ev : InWake) : ∃ l, WakeBatch ev l ∧
    inprocStep cfg true s ev = (s.batch cfg l).map (fun r : Stream × List Entry => (!r.1.stopped, r.1, r.2)) := by
  have key : ∃ l, WakeBatch ev l ∧ inprocBatch ev = some l := by
    cases ev with
    | stopped => exact ⟨_, .stopped, rfl⟩
    | empty => exact ⟨_, .empty, rfl⟩
    | error => exact ⟨_, .error, rfl⟩
    | packet d =>
      by_cases h : ∃ p, IsPacket d p
      · obtain ⟨p, hp⟩ := h
        obtain ⟨hd, h1, h2⟩ := isPacket_decode hp []
        rw [List.append_nil] at h1 h2
        refine ⟨_, .packet hp, ?_⟩
        show inprocPacket d = _
        unfold inprocPacket
        rw [h1]
        simp only [if_true, h2]
        rfl
      · refine ⟨_, .other h, ?_⟩
        show inprocPacket d = _
        unfold inprocPacket
        cases hd : decodePacket d with
        | none => exact absurd hd (C03_decode_safe d).2.1
        | some o =>
          cases o with
          | none => rfl
          | some x =>
            obtain ⟨hdr, size⟩ := x
            simp only
            rw [if_neg]
            intro e
            subst e
            obtain ⟨q, -, -, -, -, g⟩ := decode_isPacket hd
            rw [List.take_length] at g
            exact h ⟨q, g⟩
  obtain ⟨l, h1, h2⟩ := key
  refine ⟨l, h1, ?_⟩
  rw [inprocStep, if_neg (by simp), if_neg (by simp [hs]), h2]
  simp only
  cases s.batch cfg l with
  | none => rfl
  | some r => rfl

/-- C66: the batch of a wake-up is determined. -/
theorem C66_reader_unique {ev : InWake} {l l' : List BatchOp} (h : WakeBatch ev l) (h' : WakeBatch ev l') : l = l' := by
  cases h with
  | packet h =>
    cases h' with
    | packet h' => rw [isPacket_inj h h']
    | other h' => exact absurd ⟨_, h⟩ h'
  | other h =>
    cases h' with
    | packet h' => exact absurd ⟨_, h'⟩ h
    | other h' => rfl
  | stopped => cases h'; rfl
  | empty => cases h'; rfl
  | error => cases h'; rfl

/-- C66: no wake-up is lost. When the receiver is in no call of `try_pop`, so that it waits for the semaphore, then the
semaphore can be taken exactly if there is a packet that it has not taken or the queue was stopped. -/
theorem C66_wakeup {T : Nat → Bool} {k : Nat} {qops : List (UOp Bytes)} {qs : UState Bytes} {qtr : List (REv Bytes)} (hqr : QueueReach k qops qs qtr) (hT : Readers T qops)
    (hw : ∀ (t : Nat) (pc : UPc Bytes), T t = true → qs.threads[t]? = some pc → pc = .idle) : 0 < qs.queue.sem ↔ popped qtr ≠ pushed qtr ∨ isClosed qtr = true := by
  have hq := (queue_reach hqr).1.inv
  have hz : wsum held qs.threads = 0 := by
    apply wsum_zero
    intro pc hpc
    obtain ⟨t, ht⟩ := List.getElem?_of_mem hpc
    have ha := (seen_reach hqr hT).apart t pc ht
    cases pc with
    | popBody => have := hw t _ (by rw [← ha (by simp)]; rfl) ht; cases this
    | tryBody ok => have := hw t _ (by rw [← ha (by simp)]; rfl) ht; cases this
    | _ => rfl
  have hs := hq.sem
  rw [hz] at hs
  rw [hq.closed]
  have hflow := hq.flow
  have hd : popped qtr ≠ pushed qtr ↔ qs.queue.data ≠ [] := by
    rw [← hflow]
    constructor
    · intro h h'; rw [h', List.append_nil] at h; exact h rfl
    · intro h h'; exact h (by simpa using h')
  rw [hd]
  cases hst : qs.queue.stopped with
  | true => rw [hst] at hs; replace hs : qs.queue.sem + 0 = qs.queue.data.length + 1 := hs; exact ⟨fun _ => Or.inr rfl, fun _ => by omega⟩
  | false =>
    rw [hst] at hs
    simp only [stopUnit] at hs
    constructor
    · intro h
      left
      intro hn
      rw [hn] at hs
      simp at hs
      omega
    · rintro (h | h)
      · have := List.length_pos_iff.2 h
        omega
      · cases h

/-! ### The hypotheses are met -/

/-- A round-robin group with heaps for both substreams, and a heap whose cnt the caller chooses. -/
def inDemoOps : List (WOp SendHeap) :=
  [.caller (.enter [⟨plainHeap, 48, none, 0⟩, ⟨plainHeap, 48, none, 1⟩, ⟨plainHeap, 48, none, 1⟩] .roundRobin), .caller .commit, .tick false {}, .tick false {}, .tick false {},
    .caller (.enter [⟨plainHeap, 48, some 77, 1⟩] .serial), .caller .commit] ++ List.replicate 90 (.tick false {})

theorem inDemo_refs {refs : List (SendRef SendHeap)} {mode : GroupMode} (hm : WOp.caller (.enter refs mode) ∈ inDemoOps) {r : SendRef SendHeap} (hr : r ∈ refs) : r.bits = 48 ∧ r.heap = plainHeap := by
  simp only [inDemoOps, List.cons_append, List.mem_cons, List.nil_append, List.mem_replicate, WOp.caller.injEq, SqOp.enter.injEq, reduceCtorEq, and_false, false_or, or_false] at hm
  rcases hm with ⟨rfl, -⟩ | ⟨rfl, -⟩ <;> simp only [List.mem_cons, List.not_mem_nil, or_false] at hr
  · rcases hr with rfl | rfl | rfl <;> exact ⟨rfl, rfl⟩
  · subst hr; exact ⟨rfl, rfl⟩

theorem inDemo_faithful : FaithfulCalls 64 inDemoOps := by
  intro refs mode hm r hr
  obtain ⟨e1, e2⟩ := inDemo_refs hm hr
  rw [e1, e2]
  exact ⟨rfl, plainHeap_faithful⟩

theorem inDemo_receivable {as : List (Accepted GenPacket)} (h : as.map (fun a => (a.mode, a.hs.map Admitted.cnt)) = [(.roundRobin, [2, 3]), (.serial, [77])]) : Receivable trafficCfg inDemoOps as := by
  have hl : as.length = 2 := by simpa using congrArg List.length h
  match as, hl, h with
  | [a, b], _, h =>
    simp only [List.map_cons, List.map_nil, List.cons.injEq, Prod.mk.injEq, and_true] at h
    obtain ⟨⟨a1, a2⟩, b1, b2⟩ := h
    refine ⟨by simp [a2, b2], fun x hx hm => ?_, fun _ refs mode hm r hr => by rw [(inDemo_refs hm hr).2]; decide⟩
    have hl : x.hs.length = (x.hs.map Admitted.cnt).length := by rw [List.length_map]
    simp only [List.mem_cons, List.not_mem_nil, or_false] at hx
    rcases hx with rfl | rfl
    · rw [hl, a2]; decide
    · rw [b1] at hm; cases hm

/-- What leaves on substream 1. -/
def inDemoLeft : List Bytes := ((WSt.run .inproc (packetEnv 4 3 2 64) inDemoOps (WSt.new false)).map (fun r => leftOn 1 r.2)).getD []

/-- The sender (thread 0) adds packets and stops the queue at the end; the receiver (thread 1) takes one after each two that are added, then the rest, and then sees the end. -/
def inDemoQueue (l : List Bytes) : List (UOp Bytes) :=
  l.flatMap (fun d => [.call 0 (.push d), .act 0]) ++ [.call 0 .stop, .act 0] ++ List.flatten (List.replicate (l.length + 1) [.call 1 (.pop false), .fail 1, .act 1, .act 1, .act 1])

theorem inDemo_readers (l : List Bytes) : Readers (fun t => t = 1) (inDemoQueue l) := by
  intro t c h
  simp only [inDemoQueue, List.mem_append, List.mem_flatMap, List.mem_flatten, List.mem_replicate, List.mem_cons, List.not_mem_nil, or_false, UOp.call.injEq, reduceCtorEq] at h
  rcases h with (⟨d, -, rfl, rfl⟩ | ⟨rfl, rfl⟩) | ⟨_, ⟨_, rfl⟩, h⟩
  · simp
  · simp
  · simp only [List.mem_cons, UOp.call.injEq, reduceCtorEq, List.not_mem_nil, or_false, or_self] at h
    obtain ⟨rfl, rfl⟩ := h
    simp

/-- The hypotheses of both theorems are met, with the heaps 2, 3 and 77 for substream 1. -/
theorem inDemo_meets : ∃ w tr qs qtr, WReach .inproc (packetEnv 4 3 2 64) false inDemoOps w tr ∧ CleanRejects (queueEvs tr) ∧ w.idle ∧ AllSent (queueEvs tr) ∧
    Receivable trafficCfg inDemoOps ((accepted (queueEvs tr)).map (Accepted.on 1)) ∧
    QueueReach 2 (inDemoQueue inDemoLeft) qs qtr ∧ pushed qtr = leftOn 1 tr ∧ popped qtr = pushed qtr ∧ (InWake.stopped ∈ results (fun t => t = 1) qtr) ∧
    (inprocRun trafficCfg (.error :: .empty :: results (fun t => t = 1) qtr) true (Stream.new trafficCfg)).map (fun x => x.2.2.map (fun e => e.heap.cnt)) = some [2, 3, 77] := by
  have key : (WSt.run .inproc (packetEnv 4 3 2 64) inDemoOps (WSt.new false)).map (fun r : WSt SendHeap GenPacket × List (WEv GenPacket) =>
      decide (rejected (queueEvs r.2) = []) && (decide (r.1.pc = .rest) && (decide (r.1.sq.wk = .need) && (decide (∀ x ∈ outcomes (queueEvs r.2), x = none) &&
        (decide (((accepted (queueEvs r.2)).map (Accepted.on 1)).map (fun a => (a.mode, a.hs.map Admitted.cnt)) = [(.roundRobin, [2, 3]), (.serial, [77])]) && decide (inDemoLeft = leftOn 1 r.2)))))) = some true := by
    decide +kernel
  obtain ⟨⟨w, tr⟩, h1, h2⟩ := Option.map_eq_some_iff.mp key
  simp only [Bool.and_eq_true, decide_eq_true_eq] at h2
  obtain ⟨a, b, c, d, e, f⟩ := h2
  have key2 : (UState.run (inDemoQueue inDemoLeft) (UState.new Bytes 2)).map (fun x : UState Bytes × List (REv Bytes) =>
      decide (pushed x.2 = inDemoLeft) && (decide (popped x.2 = pushed x.2) && (decide (InWake.stopped ∈ results (fun t => t = 1) x.2) &&
        decide ((inprocRun trafficCfg (.error :: .empty :: results (fun t => t = 1) x.2) true (Stream.new trafficCfg)).map (fun x => x.2.2.map (fun e => e.heap.cnt)) = some [2, 3, 77])))) = some true := by
    decide +kernel
  obtain ⟨⟨qs, qtr⟩, h3, h4⟩ := Option.map_eq_some_iff.mp key2
  simp only [Bool.and_eq_true, decide_eq_true_eq] at h4
  obtain ⟨p, q, r, s⟩ := h4
  exact ⟨w, tr, qs, qtr, h1, clean_of_rejected a, ⟨b, c⟩, d, inDemo_receivable e, h3, p.trans f, q, r, s⟩

end Spead2
