import Verif.Lemmas.Queue

/-!
# C36: the queue behind in-process transport

Histories are of any number `n` of threads making any calls in any interleaving (`QueueReach`). Events are those of the
ring buffer (Verif/Spec/Ring.lean).
-/

namespace Spead2
open Spec

variable {α : Type} [DecidableEq α]

/-- C36: every history is defined: no call reads the front of an empty queue, and the assertions hold. -/
theorem C36_total (n : Nat) (ops : List (UOp α)) : ∃ s tr, QueueReach n ops s tr := by
  obtain ⟨s, ev, h, -⟩ := queue_run_spec ops (queue_new_spec (α := α) n)
  exact ⟨s, ev, h⟩

/-- C36: the packets popped so far followed by those in the queue are exactly the packets pushed, in order. -/
theorem C36_fifo {n : Nat} {ops : List (UOp α)} {s : UState α} {tr : List (REv α)} (h : QueueReach n ops s tr) :
    popped tr ++ s.queue.data = pushed tr := (queue_reach h).1.inv.flow

/-- C36: calls behave as `Phase` says: a push that returns normally entered its own item exactly once, between call and
return; a pop returns the one item that it removed; a call that fails changes nothing. -/
theorem C36_calls {n : Nat} {ops : List (UOp α)} {s : UState α} {tr : List (REv α)} (h : QueueReach n ops s tr) {t : Nat} (ht : t < n) :
    ∃ p, Phase.after (eventsOf t tr) .idle = some p ∧ (s.threads[t]? = some .idle → p = .idle) := by
  obtain ⟨sys, hlen⟩ := queue_reach h
  have : t < s.threads.length := by rw [hlen]; exact ht
  obtain ⟨p, h1, h2⟩ := sys.phase t _ (List.getElem?_eq_getElem this)
  refine ⟨p, h1, fun hi => ?_⟩
  rw [List.getElem?_eq_getElem this, Option.some.injEq] at hi
  rw [hi] at h2
  exact h2

/-- C36: nothing enters the queue after it was stopped. -/
theorem C36_closed {n : Nat} {ops : List (UOp α)} {s : UState α} {tr : List (REv α)} (h : QueueReach n ops s tr)
    {a b : List (REv α)} {t : Nat} {v : α} (he : tr = a ++ .push t v :: b) : isClosed a = false := by
  obtain ⟨p, -, h2⟩ := (queue_reach h).1.hist.split he
  exact h2

/-- C36: a call reports `stopped` only after `stop` was called, and a pop only after everything pushed was popped. -/
theorem C36_stopped {n : Nat} {ops : List (UOp α)} {s : UState α} {tr : List (REv α)} (h : QueueReach n ops s tr)
    {a b : List (REv α)} {t : Nat} (he : tr = a ++ .ret t .stopped :: b) :
    isClosed a = true ∧ ∀ blk, Phase.after (eventsOf t a) .idle = some (.called (.pop blk)) → popped a = pushed a := by
  obtain ⟨p, h1, h2⟩ := (queue_reach h).1.hist.split he
  simp only [QEvOk, List.nil_append, REv.thread] at h1 h2
  refine ⟨h2.1, fun blk hb => ?_⟩
  rw [hb, Option.some.injEq] at h1
  exact h2.2 blk h1.symm

/-- C36: `try_pop` reports `empty` exactly when, at that moment, the queue is empty and not stopped (it is never spurious). -/
theorem C36_empty {n : Nat} {ops : List (UOp α)} {s : UState α} {tr : List (REv α)} (h : QueueReach n ops s tr)
    {a b : List (REv α)} {t : Nat} (he : tr = a ++ .ret t .empty :: b) : popped a = pushed a ∧ isClosed a = false := by
  obtain ⟨p, h1, h2⟩ := (queue_reach h).1.hist.split he
  exact ⟨h2.2, h2.1⟩

/-- C36: if every thread keeps running, then after finitely many actions every call has returned (including the retry loop
of `try_pop`), except for `pop`s that wait on a queue that is empty and was not stopped. -/
theorem C36_progress {n : Nat} {ops : List (UOp α)} {s : UState α} {tr : List (REv α)} (h : QueueReach n ops s tr)
    {sched : Nat → Nat} (hf : FairTo n sched) :
    ∃ k s' tr', QueueReach n (ops ++ queueActs sched k) s' tr' ∧
      ∀ t, t < n → s'.threads[t]? = some .idle ∨ (queueWaits s' t ∧ s'.queue.data = [] ∧ isClosed tr' = false) := by
  obtain ⟨sys, hlen⟩ := queue_reach h
  obtain ⟨k, s', ev, h1, h2, h3, h4⟩ := queue_fair _ sys hlen (Nat.le_refl _) hf
  refine ⟨k, s', tr ++ ev, queue_run_append h h1, fun t ht => ?_⟩
  have hlt : t < s'.threads.length := by rw [h3]; exact ht
  have hget := List.getElem?_eq_getElem hlt
  rcases h4 _ (List.getElem_mem hlt) with hi | ⟨hw, h0⟩
  · left; rw [hget, hi]
  · right
    refine ⟨by unfold queueWaits; rw [hget, hw], ?_⟩
    have hz : wsum held s'.threads = 0 := wsum_zero (fun x hx => by rcases h4 x hx with rfl | ⟨rfl, -⟩ <;> rfl)
    have hs := h2.inv.sem
    rw [hz, h0] at hs
    rw [h2.inv.closed]
    refine ⟨List.eq_nil_of_length_eq_zero (by omega), ?_⟩
    cases hst : s'.queue.stopped with
    | false => rfl
    | true => rw [hst] at hs; simp [stopUnit] at hs

/-! ### Cases that meet the hypotheses -/

example : ∃ s, QueueReach 3 ([.call 0 (.push 1), .call 1 (.pop true), .act 1, .act 0, .call 2 (.pop false), .act 1, .act 2, .act 2, .act 1, .act 2, .act 2, .call 0 (.push 2), .act 0,
      .call 0 .stop, .act 0, .call 1 (.pop true), .act 1, .act 1, .call 1 (.pop false), .act 1, .act 1] : List (UOp Nat)) s
    [.call 0 (.push 1 true), .call 1 (.pop true), .push 0 1, .ret 0 .ok, .call 2 (.pop false), .pop 1 1, .ret 1 (.value 1), .ret 2 .empty, .call 0 (.push 2 true), .push 0 2, .ret 0 .ok,
     .call 0 .stop, .close 0, .seal 0, .ret 0 (.flag true), .call 1 (.pop true), .pop 1 2, .ret 1 (.value 2), .call 1 (.pop false), .ret 1 .stopped] := ⟨_, rfl⟩

/-- A pop waits on an empty queue; stop wakes it. -/
example : ∃ s tr, QueueReach 2 ([.call 0 (.pop true), .act 0, .act 0] : List (UOp Nat)) s tr ∧ queueWaits s 0 ∧ s.queue.data = [] ∧ isClosed tr = false := ⟨_, _, rfl, rfl, rfl, rfl⟩
example : ∃ s tr, QueueReach 2 ([.call 0 (.pop true), .act 0, .call 1 .stop, .act 1, .act 0, .act 0] : List (UOp Nat)) s tr ∧ s.threads[0]? = some .idle ∧ .ret 0 .stopped ∈ tr :=
  ⟨_, _, rfl, rfl, by decide⟩

end Spead2
