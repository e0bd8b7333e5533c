import Verif.Lemmas.SendProgress

/-!
# C38, C39, C40, C41 and C51: the queue of a send stream

Histories are arbitrary lists of transitions (`SqReach`): calls by any threads, steps of the writer, and the `io_context`
running posted handlers, in any order. C41 shows that a group that is rejected after some of its heaps were placed breaks
the queue; the other theorems are about histories without that (`CleanRejects`).
-/

namespace Spead2
open Spec

variable {H π : Type}

/-! ## C38 -/

/-- C38: no transition of a history is undefined: no queue entry is overwritten, destroyed twice or used after it was
destroyed, no empty handler is called and no search of the writer runs forever. -/
theorem C38_safe {env : SqEnv H π} (hv : Spec.SqEnv.Valid env) {w : Wake} {ops : List (SqOp H)} (hc : ∀ ops' s tr, ops' <+: ops → SqReach env w ops' s tr → CleanRejects tr) : ∃ s tr, SqReach env w ops s tr := by
  have key : ∀ (n : Nat), n ≤ ops.length → ∃ s tr, SqReach env w (ops.take n) s tr := by
    intro n
    induction n with
    | zero => intro _; exact ⟨_, _, rfl⟩
    | succ n ih =>
      intro hn
      obtain ⟨s, tr, h⟩ := ih (by omega)
      have st := reach_state hv h (hc _ _ _ (List.take_prefix _ _) h)
      obtain ⟨s', ev, h', -⟩ := step_state hv st ops[n]
      refine ⟨s', tr ++ ev, ?_⟩
      rw [List.take_add_one, List.getElem?_eq_getElem (by omega)]
      refine run_snoc h ?_
      show Sq.run env [ops[n]] s = _
      unfold Sq.run
      rw [h']
      simp [Sq.run]
  obtain ⟨s, tr, h⟩ := key ops.length (Nat.le_refl _)
  rw [List.take_length] at h
  exact ⟨s, tr, h⟩

/-- C38: at most `max_heaps` heaps belong to accepted groups that the transport is not done with. -/
theorem C38_bounded {env : SqEnv H π} (hv : Spec.SqEnv.Valid env) {w : Wake} {ops : List (SqOp H)} {s : Sq H π} {tr : List (SqEv π)} (h : SqReach env w ops s tr) (hc : CleanRejects tr) :
    heapCount ((accepted tr).drop (due env.bytes (accepted tr) (outcomes tr)).length) ≤ env.size := by
  obtain ⟨⟨old, gl, n, inv⟩, -⟩ := reach_state hv h hc
  have h1 := (unsent_heaps inv).1
  have h2 := queue_heaps inv
  have h3 := inv.bnd
  omega

/-- C38: the decision about a group. `s1` is the stream when the call gets the mutex, `ops2` is whatever other threads do
until it decides. A group of acceptable heaps that fits beside the heaps of groups whose handlers have not been called is
accepted. A group is accepted completely or not at all: the heaps are those of the call, each with its explicit cnt or the
next of the sequence. Otherwise the call is answered with the right error, and neither the queue nor the sequence has
changed. -/
theorem C38_admission {env : SqEnv H π} (hv : Spec.SqEnv.Valid env) {w : Wake} {ops1 ops2 : List (SqOp H)} {s1 s2 : Sq H π} {tr1 tr2 : List (SqEv π)} {refs : List (SendRef H)} {mode : GroupMode} (h1 : SqReach env w ops1 s1 tr1)
    (hs : s1.sender = none) (hne : refs ≠ []) (h2 : Sq.run env (.enter refs mode :: ops2) s1 = some (s2, tr2)) (hno : .commit ∉ ops2) (hc : CleanRejects (tr1 ++ tr2)) :
    ∃ s3 e, s2.step env .commit = some (s3, [e]) ∧
      (∀ hs, Admits env refs (allot s1.stepCnt s1.nextCnt refs).1 hs → heapCount ((accepted tr1).drop (completed tr1).length) + refs.length ≤ env.size → e = .accept s1.calls mode hs) ∧
      (∀ c m hs, e = .accept c m hs → c = s1.calls ∧ m = mode ∧ hs.length = refs.length ∧ Admits env refs (allot s1.stepCnt s1.nextCnt refs).1 hs ∧ s3.nextCnt = (allot s1.stepCnt s1.nextCnt refs).2 ∧
        heapCount ((accepted tr1).drop (due env.bytes (accepted tr1) (outcomes tr1)).length) + refs.length ≤ env.size) ∧
      ((∀ c m hs, e ≠ .accept c m hs) → (e = .threw s1.calls ∨ ∃ r n, e = .reject s1.calls r n ∧ (r = .invalid ∨ r = .wouldBlock)) ∧ s3.tail = s1.tail ∧ s3.nextCnt = s1.nextCnt ∧ (CleanRejects [e] → s3.slots = s2.slots)) ∧
      (∀ hs, Admits env refs (allot s1.stepCnt s1.nextCnt refs).1 hs → e = .accept s1.calls mode hs ∨ ∃ n, e = .reject s1.calls .wouldBlock n) ∧
      (∀ n, e = .reject s1.calls .wouldBlock n → env.size < heapCount ((accepted tr1).drop (completed tr1).length) + refs.length) := by
  have hr2 := run_snoc h1 h2
  have st1 := reach_state hv h1 (clean_left hc)
  have st2 := reach_state hv hr2 hc
  obtain ⟨⟨old1, gl1, n1, inv1⟩, hd1, -⟩ := st1
  obtain ⟨⟨old2, gl2, n2, inv2⟩, hd2, -⟩ := st2
  have hent : s1.step env (.enter refs mode) = some ({ s1 with calls := s1.calls + 1, sender := some ⟨s1.calls, refs, mode, s1.head⟩ }, []) := by
    simp only [Sq.step, hs]
    cases refs with
    | nil => exact absurd rfl hne
    | cons r rs => rfl
  unfold Sq.run at h2
  rw [hent] at h2
  simp only at h2
  split at h2
  · cases h2
  · rename_i s3 ev3 h3
    cases h2
    have kept := run_kept ops2 h3 hno rfl
    obtain ⟨s4, e, c1, c2, c3, c4⟩ := commit_spec hv inv2 kept.sender
    have k1 := kept.tail
    have k2 := kept.next
    have k3 := kept.step
    replace k1 : s2.tail = s1.tail := k1
    replace k2 : s2.nextCnt = s1.nextCnt := k2
    replace k3 : s2.stepCnt = s1.stepCnt := k3
    rw [k1, k2, k3] at c4
    dsimp only at c4
    have q1 := queue_heaps inv1
    have q2 := unsent_heaps inv1
    refine ⟨s4, e, c1, ?_, ?_, ?_, ?_, ?_⟩
    · intro hs' ha hroom
      rcases c4 with ⟨hs2, a1, a2, -⟩ | ⟨n, a1, a2, -⟩ | ⟨n, a1, a2, -⟩ | ⟨a1, a2, -⟩
      · rw [a1, admits_unique ha a2]
      · omega
      · exact absurd ⟨hs', ha⟩ a2
      · exact absurd ⟨hs', ha⟩ a2
    · intro c m hs' he
      rcases c4 with ⟨hs2, a1, a2, a3, a4⟩ | ⟨n, a1, -⟩ | ⟨n, a1, -⟩ | ⟨a1, -⟩
      · rw [a1] at he
        cases he
        exact ⟨rfl, rfl, by rw [← List.length_map Admitted.cnt, admits_cnts a2, allot_length], a2, a3, by omega⟩
      · rw [a1] at he; cases he
      · rw [a1] at he; cases he
      · rw [a1] at he; cases he
    · intro hna
      rcases c4 with ⟨hs2, a1, -⟩ | ⟨n, a1, -, a3, a4, a5⟩ | ⟨n, a1, -, a3, a4, a5⟩ | ⟨a1, -, a3, a4, a5⟩
      · exact absurd a1 (hna _ _ _)
      · exact ⟨Or.inr ⟨_, _, a1, Or.inr rfl⟩, a3, a4, fun hcl => a5 (hcl _ _ _ (by rw [a1]; exact List.mem_singleton.mpr rfl))⟩
      · exact ⟨Or.inr ⟨_, _, a1, Or.inl rfl⟩, a3, a4, fun hcl => a5 (hcl _ _ _ (by rw [a1]; exact List.mem_singleton.mpr rfl))⟩
      · exact ⟨Or.inl a1, a3, a4, fun _ => a5⟩
    · intro hs' ha
      rcases c4 with ⟨hs2, a1, a2, -⟩ | ⟨n, a1, -⟩ | ⟨n, a1, a2, -⟩ | ⟨a1, a2, -⟩
      · rw [a1, admits_unique ha a2]; exact Or.inl rfl
      · exact Or.inr ⟨n, a1⟩
      · exact absurd ⟨hs', ha⟩ a2
      · exact absurd ⟨hs', ha⟩ a2
    · intro n he
      rcases c4 with ⟨hs2, a1, -⟩ | ⟨n, a1, a2, -⟩ | ⟨n, a1, -⟩ | ⟨a1, -⟩
      · rw [a1] at he; cases he
      · omega
      · rw [a1] at he; cases he
      · rw [a1] at he; cases he

/-- C38: after `set_cnt_sequence(next, step)`, while all heaps are sent without explicit cnts, the `i`-th accepted heap gets
cnt `next + i * step`, truncated to the address bits. -/
theorem C38_sequence {env : SqEnv H π} (hv : Spec.SqEnv.Valid env) {w : Wake} {ops1 ops2 : List (SqOp H)} {s1 s2 : Sq H π} {tr1 tr2 : List (SqEv π)} {next step bits : Nat} (h1 : SqReach env w ops1 s1 tr1) (hs : s1.sender = none)
    (hst : step ≠ 0) (h2 : Sq.run env (.setCnt next step :: ops2) s1 = some (s2, tr2)) (hc : CleanRejects (tr1 ++ tr2)) (hno : ∀ a b, .setCnt a b ∉ ops2)
    (hauto : ∀ refs mode, .enter refs mode ∈ ops2 → ∀ r ∈ refs, r.cnt = none ∧ r.bits = bits) :
    (accepted tr2).flatMap (fun g => g.hs.map Admitted.cnt) = (List.range (heapCount (accepted tr2))).map (fun i => (next + i * step) % 2 ^ 64 % 2 ^ bits) := by
  have st1 := reach_state hv h1 (clean_left hc)
  have hset : s1.step env (.setCnt next step) = some ({ s1 with nextCnt := next % 2 ^ 64, stepCnt := step % 2 ^ 64 }, []) := by
    simp only [Sq.step, Sq.setCnt]
    rw [if_neg (by rw [hs]; simp [hst])]
  obtain ⟨s', ev, h', st2⟩ := step_state hv st1 (.setCnt next step)
  rw [hset, Option.some.injEq] at h'
  cases h'
  have st2 := st2 (fun _ _ _ h => by cases h)
  unfold Sq.run at h2
  rw [hset] at h2
  simp only at h2
  split at h2
  · cases h2
  · rename_i s3 ev3 h3
    cases h2
    have := run_auto hv ops2 (bits := bits) st2 (Nat.mod_lt _ (Nat.two_pow_pos 64)) (fun c hc' => by rw [show ({ s1 with nextCnt := next % 2 ^ 64, stepCnt := step % 2 ^ 64 } : Sq H π).sender = s1.sender from rfl, hs] at hc'; cases hc') h3 (clean_right hc) hno hauto
    rw [List.nil_append, this]
    unfold cntSeq
    apply List.map_congr_left
    intro i _
    show (next % 2 ^ 64 + i * (step % 2 ^ 64)) % 2 ^ 64 % 2 ^ bits = _
    rw [Nat.mod_add_mod, Nat.add_mod, Nat.mul_mod, Nat.mod_mod, ← Nat.mul_mod, ← Nat.add_mod]

/-! ## C39 -/

/-- C39: the handlers of accepted groups that were called are an initial part of those that are due: in the order of the
groups, each once, after the transport was done with all packets of the group, with the bytes sent, and with an error exactly
if a packet failed. -/
theorem C39_handlers {env : SqEnv H π} (hv : Spec.SqEnv.Valid env) {w : Wake} {ops : List (SqOp H)} {s : Sq H π} {tr : List (SqEv π)} (h : SqReach env w ops s tr) (hc : CleanRejects tr) :
    completed tr <+: due env.bytes (accepted tr) (outcomes tr) := by
  obtain ⟨⟨old, gl, n, inv⟩, -⟩ := reach_state hv h hc
  rw [due_split inv, List.append_assoc]
  exact List.prefix_append _ _

/-- C39: every call has one answer: of the calls so far, each one except the one in progress was accepted, rejected or threw,
once. -/
theorem C39_answers {env : SqEnv H π} (hv : Spec.SqEnv.Valid env) {w : Wake} {ops : List (SqOp H)} {s : Sq H π} {tr : List (SqEv π)} (h : SqReach env w ops s tr) (hc : CleanRejects tr) :
    (answers tr ++ s.sender.toList.map SqCall.id).Perm (List.range s.calls) := (reach_state hv h hc).2.2.ans

/-- C39: so no handler of an accepted group is called twice. -/
theorem C39_once {env : SqEnv H π} (hv : Spec.SqEnv.Valid env) {w : Wake} {ops : List (SqOp H)} {s : Sq H π} {tr : List (SqEv π)} (h : SqReach env w ops s tr) (hc : CleanRejects tr) : ((completed tr).map Prod.fst).Nodup := by
  have h1 : (answers tr).Nodup := by
    have := (C39_answers hv h hc).nodup_iff.mpr List.nodup_range
    exact (List.nodup_append.mp this).1
  have h2 : ((accepted tr).map Accepted.call).Sublist (answers tr) := accepted_sublist tr
  have h3 := C39_handlers hv h hc
  have h4 : ∀ (A : List (Accepted π)) R, (due env.bytes A R).map Prod.fst <+: A.map Accepted.call := by
    intro A
    induction A with
    | nil => intro R; exact List.prefix_refl _
    | cons g A ih =>
      intro R
      unfold due
      split
      · rw [List.map_cons, List.map_cons]
        exact List.cons_prefix_cons.mpr ⟨rfl, ih _⟩
      · exact List.nil_prefix
  exact (((h3.map Prod.fst).trans (h4 _ _)).sublist.trans h2).nodup h1

/-- C39: the handlers of rejected groups: each is called with the error that the group was rejected with and no bytes, once,
by the `io_context`. -/
theorem C39_rejected {env : SqEnv H π} (hv : Spec.SqEnv.Valid env) {w : Wake} {ops : List (SqOp H)} {s : Sq H π} {tr : List (SqEv π)} (h : SqReach env w ops s tr) (hc : CleanRejects tr) :
    (refused tr ++ s.posted.map (fun p : Nat × SqResult => (p.1, p.2, 0))).Perm ((rejected tr).map (fun p : Nat × SqResult => (p.1, p.2, 0))) := (reach_state hv h hc).2.2.rfs

/-- C39: no wakeup is lost: when the writer waits for one, every handler that is due has been called, every accepted group has
been completed, and every call of `flush` can return. -/
theorem C39_idle {env : SqEnv H π} (hv : Spec.SqEnv.Valid env) {w : Wake} {ops : List (SqOp H)} {s : Sq H π} {tr : List (SqEv π)} (h : SqReach env w ops s tr) (hc : CleanRejects tr) (hw : s.wk = .need) :
    completed tr = due env.bytes (accepted tr) (outcomes tr) ∧ (completed tr).length = (accepted tr).length ∧ (returned tr).Perm (List.range s.flushes) := by
  have st := reach_state hv h hc
  obtain ⟨⟨old, gl, n, inv⟩, -⟩ := id st
  obtain ⟨a, b, c, d, e⟩ := inv.need hw
  obtain ⟨r1, r2, r3, -⟩ := all_done st d e a b c
  exact ⟨r1, r2, r3⟩

/-- C39: after every history, steps of the writer alone lead to the completion of all accepted groups and the return of all
calls of `flush`. -/
theorem C39_progress {env : SqEnv H π} (hv : Spec.SqEnv.Valid env) {w : Wake} {ops : List (SqOp H)} {s : Sq H π} {tr : List (SqEv π)} (h : SqReach env w ops s tr) (hc : CleanRejects tr) :
    ∃ more s' tr', (∀ op ∈ more, op.isWriter = true) ∧ SqReach env w (ops ++ more) s' (tr ++ tr') ∧ accepted tr' = [] ∧ CleanRejects tr' ∧
      completed (tr ++ tr') = due env.bytes (accepted tr) (outcomes (tr ++ tr')) ∧ (completed (tr ++ tr')).length = (accepted tr).length ∧ (returned (tr ++ tr')).Perm (List.range s.flushes) := by
  obtain ⟨s', ev, led, a, b, c, d, e⟩ := writer_finishes hv (reach_state hv h hc)
  obtain ⟨more, m1, m2⟩ := led.by_writer
  obtain ⟨r1, r2, r3, -⟩ := all_done led.state a b c d e
  have hacc : accepted (tr ++ ev) = accepted tr := by rw [accepted_append, led.acc, List.append_nil]
  rw [hacc] at r1 r2
  rw [led.flushes] at r3
  exact ⟨more, s', ev, m1, run_snoc h m2, led.acc, led.clean, r1, r2, r3⟩

/-! ## C40 -/

/-- C40: the packets given to the transport are an initial part of those of the accepted groups, group by group in the order
of acceptance, each group in serial or round-robin order (`groupPackets`), each packet on the substream of its heap, and
exactly the last packet of each group marked as last. -/
theorem C40_order {env : SqEnv H π} (hv : Spec.SqEnv.Valid env) {w : Wake} {ops : List (SqOp H)} {s : Sq H π} {tr : List (SqEv π)} (h : SqReach env w ops s tr) (hc : CleanRejects tr) :
    fetched tr <+: (accepted tr).flatMap (fun g => markLast g.packets) := by
  obtain ⟨⟨old, gl, n, inv⟩, -⟩ := reach_state hv h hc
  exact fetched_prefix inv

/-! ## C51 -/

/-- C51: when a call of `flush` can return, the transport is done with all packets of all groups accepted before the call. -/
theorem C51_flush {env : SqEnv H π} (hv : Spec.SqEnv.Valid env) {w : Wake} {ops : List (SqOp H)} {s : Sq H π} {tr : List (SqEv π)} (h : SqReach env w ops s tr) (hc : CleanRejects tr) : FlushOk tr := by
  obtain ⟨⟨old, gl, n, inv⟩, -⟩ := reach_state hv h hc
  exact inv.flo

/-- C51: no call of `flush` returns twice, and only calls that were made return. That each returns is in `C39_idle` and
`C39_progress`. -/
theorem C51_once {env : SqEnv H π} (hv : Spec.SqEnv.Valid env) {w : Wake} {ops : List (SqOp H)} {s : Sq H π} {tr : List (SqEv π)} (h : SqReach env w ops s tr) (hc : CleanRejects tr) :
    (returned tr).Nodup ∧ ∀ f ∈ returned tr, f < s.flushes := by
  obtain ⟨⟨old, gl, n, inv⟩, -⟩ := reach_state hv h hc
  have hp := inv.flp
  rw [List.append_assoc] at hp
  refine ⟨(List.nodup_append.mp (hp.nodup_iff.mpr List.nodup_range)).1, fun f hf => ?_⟩
  exact List.mem_range.mp (hp.mem_iff.mp (List.mem_append_left _ hf))

/-! ## Examples

A heap is the list of its packets, a packet its size; a heap without packets is one whose generator throws. -/

def sqDemo : SqEnv (List Nat) Nat := { size := 3, mask := 3, substreams := 2, gen := fun h _ => if h = [] then none else some h, bytes := id }

theorem sqDemo_valid : Spec.SqEnv.Valid sqDemo := by
  refine ⟨by decide, ?_⟩
  intro h cnt ps hg
  unfold sqDemo at hg
  simp only at hg
  split at hg
  · cases hg
  · rename_i hne
    cases hg
    exact hne

/-- A single heap, a round-robin group of two that is sent with an error, a flush, and calls that are rejected because the queue
is full, because there is no heap, and because the generator throws. -/
def sqDemoOps : List (SqOp (List Nat)) :=
  [.setCnt 255 3, .enter [⟨[5], 8, none, 0⟩] .serial, .commit, .enter [⟨[7, 8, 9], 8, none, 0⟩, ⟨[4], 8, none, 1⟩] .roundRobin, .commit, .flush, .enter [⟨[1], 8, some 200, 0⟩] .serial, .commit,
   .enter [] .serial, .wake, .get, .get, .get, .sent none, .sent (some 2), .complete 1, .call, .enter [⟨[], 8, none, 0⟩] .serial, .commit, .get, .get, .get, .sent none, .sent none, .sent none, .complete 1, .call, .notify,
   .dispatch 1, .dispatch 0, .request]

def sqDemoTrace : List (SqEv Nat) :=
  [.accept 0 .serial [⟨255, 0, [5]⟩], .accept 1 .roundRobin [⟨2, 0, [7, 8, 9]⟩, ⟨5, 1, [4]⟩], .flush 0, .reject 2 .wouldBlock 0, .reject 3 .invalid 0,
   .packet 5 0 true, .packet 7 0 false, .packet 4 1 false, .sent none, .sent (some 2), .handler 0 .ok 5, .threw 4, .packet 8 0 false, .packet 9 0 true, .sent none, .sent none, .sent none, .handler 1 .failed 23,
   .flushed 0, .handler 3 .invalid 0, .handler 2 .wouldBlock 0]

theorem sqDemo_run : (Sq.run sqDemo sqDemoOps { wk := .need }).map Prod.snd = some sqDemoTrace := by decide +kernel

theorem sqDemo_reach : ∃ s, SqReach sqDemo .need sqDemoOps s sqDemoTrace := by
  have h := sqDemo_run
  unfold SqReach
  cases hr : Sq.run sqDemo sqDemoOps { wk := .need } with
  | none => rw [hr] at h; cases h
  | some p =>
    obtain ⟨s, tr⟩ := p
    rw [hr] at h
    simp only [Option.map_some, Option.some.injEq] at h
    exact ⟨s, by rw [← h]⟩

theorem sqDemo_clean : CleanRejects sqDemoTrace := by
  intro c r n hm
  simp [sqDemoTrace] at hm
  rcases hm with h | h <;> exact h.2.2

/-- The hypotheses of C38 to C40 and C51 are met by this history, and the conclusions say something about it. -/
example : ∃ s, SqReach sqDemo .need sqDemoOps s sqDemoTrace ∧ CleanRejects sqDemoTrace ∧ completed sqDemoTrace = [(0, .ok, 5), (1, .failed, 23)] ∧ due sqDemo.bytes (accepted sqDemoTrace) (outcomes sqDemoTrace) = [(0, .ok, 5), (1, .failed, 23)] ∧
    (accepted sqDemoTrace).flatMap (fun g => markLast g.packets) = [((5, 0), true), ((7, 0), false), ((4, 1), false), ((8, 0), false), ((9, 0), true)] := by
  obtain ⟨s, h⟩ := sqDemo_reach
  exact ⟨s, h, sqDemo_clean, by decide, by decide, by decide⟩

/-- A history in which the queue is full when the fourth heap comes. -/
example : heapCount ((accepted (sqDemoTrace.take 3)).drop (due sqDemo.bytes (accepted (sqDemoTrace.take 3)) (outcomes (sqDemoTrace.take 3))).length) = sqDemo.size := by decide

/-- A group that meets the hypotheses of `C38_admission`, with an explicit and an automatic cnt. -/
example : Admits sqDemo [⟨[1], 8, some 200, 0⟩, ⟨[2, 3], 8, none, 1⟩] (allot 3 257 [(⟨[1], 8, some 200, 0⟩ : SendRef (List Nat)), ⟨[2, 3], 8, none, 1⟩]).1 [⟨200, 0, [1]⟩, ⟨1, 1, [2, 3]⟩] := by
  simp [Admits, RefOk, allot, sqDemo]

/-! ## C41 -/

/-- C41: no history is undefined, whatever groups are rejected: each entry that was constructed for a rejected group is
destroyed once, and no other entry is. -/
def C41_statement : Prop := ∀ (env : SqEnv (List Nat) Nat), Spec.SqEnv.Valid env → ∀ w ops, ∃ s tr, SqReach env w ops s tr

/-- The code violates C41. The queue has room for three heaps. A group of two is accepted, then one of two is rejected, as there
is room for its first heap only: that is destroyed with the mutex held and again, by the destructor of the unwinder, after it
has been released. -/
theorem C41_violated : ¬ C41_statement := by
  intro h
  obtain ⟨s, tr, hr⟩ := h sqDemo sqDemo_valid .need [.enter [⟨[1], 8, none, 0⟩, ⟨[2], 8, none, 0⟩] .serial, .commit, .enter [⟨[3], 8, none, 0⟩, ⟨[4], 8, none, 0⟩] .serial, .commit, .unwind 0]
  have : Sq.run sqDemo [.enter [⟨[1], 8, none, 0⟩, ⟨[2], 8, none, 0⟩] .serial, .commit, .enter [⟨[3], 8, none, 0⟩, ⟨[4], 8, none, 0⟩] .serial, .commit, .unwind 0] { wk := .need } = none := by
    have : (Sq.run sqDemo [.enter [⟨[1], 8, none, 0⟩, ⟨[2], 8, none, 0⟩] .serial, .commit, .enter [⟨[3], 8, none, 0⟩, ⟨[4], 8, none, 0⟩] .serial, .commit, .unwind 0] { wk := .need }).isNone = true := by decide +kernel
    exact Option.isNone_iff_eq_none.mp this
  unfold SqReach at hr
  rw [this] at hr
  cases hr

/-- Worse, if another thread sends a heap before the destructor runs, that heap is accepted and then destroyed: its entry is
gone although its index is in the queue, and the writer uses it. -/
theorem C41_race : ∃ s tr, SqReach sqDemo .need [.enter [⟨[3], 8, none, 0⟩, ⟨[4], 8, none, 7⟩] .serial, .commit, .enter [⟨[5], 8, none, 0⟩] .serial, .commit, .unwind 0, .wake] s tr ∧
    accepted tr = [⟨1, .serial, [⟨1, 0, [5]⟩]⟩] ∧ s.head = 0 ∧ s.tail = 1 ∧ s.slots 0 = none ∧ s.step sqDemo .get = none := by
  refine ⟨_, _, rfl, ?_⟩
  refine ⟨by decide +kernel, by decide +kernel, by decide +kernel, by decide +kernel, ?_⟩
  exact Option.isNone_iff_eq_none.mp (by decide +kernel)

/-- C41, partial: it holds for histories in which no group was rejected after a heap of it had been placed. In particular it
holds when all groups are of one heap, and groups whose generator throws are undone correctly. Missing: groups that are
rejected later than that, for which it is false. -/
theorem C41_partial {env : SqEnv H π} (hv : Spec.SqEnv.Valid env) {w : Wake} {ops : List (SqOp H)} (hc : ∀ ops' s tr, ops' <+: ops → SqReach env w ops' s tr → CleanRejects tr) : ∃ s tr, SqReach env w ops s tr := C38_safe hv hc

/-- C41, partial: when all groups are of one heap, no group is rejected after a heap of it has been placed, so every history is
defined. -/
theorem C41_single_partial {env : SqEnv H π} (hv : Spec.SqEnv.Valid env) {w : Wake} {ops : List (SqOp H)} (h1 : ∀ refs mode, .enter refs mode ∈ ops → refs.length ≤ 1) : ∃ s tr, SqReach env w ops s tr ∧ CleanRejects tr := by
  obtain ⟨s, tr, a, b, -⟩ := sq_run_single hv ops (init_state (env := env) w) (fun c hc => by cases hc) h1
  exact ⟨s, tr, a, b⟩

/-- C41, partial: and a call that throws leaves the queue and the sequence of cnts as they were. -/
theorem C41_throw_partial {env : SqEnv H π} (hv : Spec.SqEnv.Valid env) {w : Wake} {ops : List (SqOp H)} {s s' : Sq H π} {tr : List (SqEv π)} (h : SqReach env w ops s tr) (hc : CleanRejects tr) {c : Nat}
    (hs : s.step env .commit = some (s', [.threw c])) : s'.slots = s.slots ∧ s'.tail = s.tail ∧ s'.nextCnt = s.nextCnt ∧ s'.unwinding = s.unwinding := by
  obtain ⟨⟨old, gl, n, inv⟩, -⟩ := reach_state hv h hc
  cases hsd : s.sender with
  | none =>
    have : s.step env .commit = some (s, []) := by show s.commit env = _; unfold Sq.commit; rw [hsd]
    rw [this] at hs
    cases hs
  | some cl =>
    obtain ⟨a, e, h1, h2, h3⟩ := commit_cases hv inv hsd
    replace hs : s.commit env = some (s', [.threw c]) := hs
    rcases h3 with ⟨-, hne, h3⟩ | ⟨-, h3⟩ | ⟨-, -, h3, sl, h4, -⟩
    · obtain ⟨s'', k1, -⟩ := accept_step hv inv hsd h1 hne
      rw [h3, k1] at hs
      cases hs
    · rw [h3] at hs
      cases hs
      exact ⟨rfl, rfl, rfl, rfl⟩
    · rw [h3, h4] at hs
      cases hs

end Spead2
