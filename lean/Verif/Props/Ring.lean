import Verif.Lemmas.Ring

/-!
# Properties of the ring buffer: C33 (first in, first out), C34 (slots), C35 (stop, no lost wakeups)

Histories are of any number `n` of threads making any calls in any interleaving (`RingReach`), on a buffer of any capacity
`cap > 0`. `contents` are the items in the buffer (Verif/Spec/Ring.lean). Thread events follow `Phase`: an item enters the
buffer between call and return of the `push` for it, and leaves it between call and return of the `pop` that returns it.
-/

namespace Spead2
open Spec

variable {α : Type} [DecidableEq α]

/-- C33: the items popped so far, followed by those in the buffer, are exactly the items pushed so far, in the order in
which they were pushed: nothing is lost, duplicated, invented or reordered. -/
theorem C33_fifo {cap n : Nat} (hc : 0 < cap) {ops : List (RingOp α)} {s : RState α} {tr : List (REv α)} (h : RingReach cap n ops s tr) :
    popped tr ++ contents s.ring = pushed tr := by
  obtain ⟨q, e, e', sys⟩ := ring_reach hc h
  rw [sys.inv.contents]
  exact sys.inv.flow

/-- C33: every call of every thread behaves as `Phase` says: a push that returns normally has entered its own item exactly
once and between call and return; a push that fails has entered nothing; a pop returns the one item that it removed, or
removed nothing and fails; only calls that do not block report full or empty. -/
theorem C33_calls {cap n : Nat} (hc : 0 < cap) {ops : List (RingOp α)} {s : RState α} {tr : List (REv α)} (h : RingReach cap n ops s tr)
    {t : Nat} (ht : t < n) : ∃ p, Phase.after (eventsOf t tr) .idle = some p ∧ (s.threads[t]? = some .idle → p = .idle) := by
  obtain ⟨q, e, e', sys⟩ := ring_reach hc h
  have hlen := ring_run_length h
  have : t < s.threads.length := by rw [hlen]; simpa [RState.new] using ht
  obtain ⟨p, h1, h2⟩ := sys.phase t _ (List.getElem?_eq_getElem this)
  refine ⟨p, h1, fun hi => ?_⟩
  rw [List.getElem?_eq_getElem this, Option.some.injEq] at hi
  rw [hi] at h2
  exact h2

/-- C34: as long as `remove_producer` is called no more often than producers have been registered, no action constructs an
item over a live one, reads or destroys an empty slot, or accesses a slot out of range. -/
theorem C34_defined {cap n : Nat} (hc : 0 < cap) {ops : List (RingOp α)} {s : RState α} {tr : List (REv α)} (h : RingReach cap n ops s tr)
    (hb : removals tr ≤ additions tr) (op : RingOp α) : s.step op ≠ none := by
  obtain ⟨q, e, e', sys⟩ := ring_reach hc h
  exact ring_step_balanced sys hb op

/-- C34: without calls of `remove_producer`, every history is defined. -/
theorem C34_total {cap n : Nat} (hc : 0 < cap) (ops : List (RingOp α)) (hops : ∀ t, RingOp.call t .removeProducer ∉ ops) :
    ∃ s tr, RingReach (α := α) cap n ops s tr := by
  obtain ⟨s, tr, h, -⟩ := ring_run_total (ring_new_spec hc n) (by simp [removals]) hops
  exact ⟨s, tr, h⟩

/-- C34: the buffer never holds more items than its capacity. -/
theorem C34_capacity {cap n : Nat} (hc : 0 < cap) {ops : List (RingOp α)} {s : RState α} {tr : List (REv α)} (h : RingReach cap n ops s tr) :
    (contents s.ring).length ≤ cap := by
  obtain ⟨q, e, e', sys⟩ := ring_reach hc h
  rw [sys.inv.contents]
  exact sys.inv.qlen

/-- C34: `size` returns the number of items in the buffer. -/
theorem C34_size {cap n : Nat} (hc : 0 < cap) {ops : List (RingOp α)} {s : RState α} {tr : List (REv α)} (h : RingReach cap n ops s tr)
    {a b : List (REv α)} {t k : Nat} (he : tr = a ++ .ret t (.count k) :: b) : k + (popped a).length = (pushed a).length := by
  obtain ⟨q, e, e', sys⟩ := ring_reach hc h
  obtain ⟨p, -, h2⟩ := sys.hist.split he
  exact h2

/-- C34: the destructor destroys the items that remain, each once and nothing else. -/
theorem C34_destroy {cap n : Nat} (hc : 0 < cap) {ops : List (RingOp α)} {s : RState α} {tr : List (REv α)} (h : RingReach cap n ops s tr) :
    ∃ l, s.ring.drain (cap + 1) = some l ∧ popped tr ++ l = pushed tr := by
  obtain ⟨q, e, e', sys⟩ := ring_reach hc h
  have inv := sys.inv
  exact ⟨q, RInv.drain q _ (by have := inv.qlen; omega) inv.len inv.hd inv.qlen inv.tl inv.slots, inv.flow⟩

/-- C35: no item enters the buffer once it is closed, and then no push reports a full buffer. -/
theorem C35_closed {cap n : Nat} (hc : 0 < cap) {ops : List (RingOp α)} {s : RState α} {tr : List (REv α)} (h : RingReach cap n ops s tr)
    {a b : List (REv α)} {ev : REv α} (he : tr = a ++ ev :: b) (hcl : isClosed a = true) :
    (∀ t v, ev ≠ .push t v) ∧ ∀ t, ev ≠ .ret t .full := by
  obtain ⟨q, e, e', sys⟩ := ring_reach hc h
  obtain ⟨p, -, h2⟩ := sys.hist.split he
  refine ⟨?_, ?_⟩
  · rintro t v rfl
    rw [show EvOk _ _ (REv.push t v) = (isClosed ([] ++ a) = false) from rfl, List.nil_append, hcl] at h2
    cases h2
  · rintro t rfl
    rw [show EvOk _ _ (REv.ret t .full) = (isClosed ([] ++ a) = false) from rfl, List.nil_append, hcl] at h2
    cases h2

/-- C35: a call reports that the buffer was stopped only once it is closed; a pop, only once the end was made known and
every item that was ever pushed has been popped. -/
theorem C35_stopped {cap n : Nat} (hc : 0 < cap) {ops : List (RingOp α)} {s : RState α} {tr : List (REv α)} (h : RingReach cap n ops s tr)
    {a b : List (REv α)} {t : Nat} (he : tr = a ++ .ret t .stopped :: b) :
    isClosed a = true ∧ ∀ blk, Phase.after (eventsOf t a) .idle = some (.called (.pop blk)) → isSealed a = true ∧ popped a = pushed a := by
  obtain ⟨q, e, e', sys⟩ := ring_reach hc h
  obtain ⟨p, h1, h2⟩ := sys.hist.split he
  simp only [EvOk, List.nil_append, REv.thread] at h1 h2
  refine ⟨h2.1, fun blk hb => ?_⟩
  rw [hb, Option.some.injEq] at h1
  exact h2.2 blk h1.symm

/-- C35: once the end is made known, a pop that does not block reports `empty` only while items remain. -/
theorem C35_empty {cap n : Nat} (hc : 0 < cap) {ops : List (RingOp α)} {s : RState α} {tr : List (REv α)} (h : RingReach cap n ops s tr)
    {a b : List (REv α)} {t : Nat} (he : tr = a ++ .ret t .empty :: b) (hs : isSealed a = true) : popped a ≠ pushed a := by
  obtain ⟨q, e, e', sys⟩ := ring_reach hc h
  obtain ⟨p, h1, h2⟩ := sys.hist.split he
  exact h2 hs

/-- C35: `remove_producer` closes the buffer only when it has been called for every registered producer. -/
theorem C35_remove_closes {cap n : Nat} (hc : 0 < cap) {ops : List (RingOp α)} {s : RState α} {tr : List (REv α)} (h : RingReach cap n ops s tr)
    {a b : List (REv α)} {t : Nat} (he : tr = a ++ .close t :: b) (hp : Phase.after (eventsOf t a) .idle = some (.called .removeProducer)) :
    additions a ≤ removals a := by
  obtain ⟨q, e, e', sys⟩ := ring_reach hc h
  obtain ⟨p, h1, h2⟩ := sys.hist.split he
  simp only [EvOk, List.nil_append, REv.thread] at h1 h2
  rw [hp, Option.some.injEq] at h1
  exact h2 h1.symm

/-- C35: when all calls have returned and every registered producer has been removed, the buffer is closed. -/
theorem C35_last_producer {cap n : Nat} (hc : 0 < cap) {ops : List (RingOp α)} {s : RState α} {tr : List (REv α)} (h : RingReach cap n ops s tr)
    (hi : ∀ pc ∈ s.threads, pc = .idle) (h0 : 0 < additions tr) (hr : additions tr ≤ removals tr) : isClosed tr = true := by
  obtain ⟨q, e, e', sys⟩ := ring_reach hc h
  have hp := sys.inv.prod
  rw [show total removeW s.threads = 0 from sum_zero (by
    intro x hx
    rw [List.mem_map] at hx
    obtain ⟨pc, hpc, rfl⟩ := hx
    rw [hi pc hpc]
    rfl)] at hp
  rw [sys.inv.closed]
  exact sys.inv.last h0 (by omega)

/-- C35, no lost wakeup: when no thread can run, threads wait in `push` only if the buffer is full, and in `pop` only if
it is empty; and once it is closed, nobody waits. -/
theorem C35_no_lost_wakeup {cap n : Nat} (hc : 0 < cap) {ops : List (RingOp α)} {s : RState α} {tr : List (REv α)} (h : RingReach cap n ops s tr)
    (hq : Quiescent s) : (∀ t, waitsForSpace s t → (contents s.ring).length = cap ∧ isClosed tr = false) ∧
      (∀ t, waitsForData s t → contents s.ring = [] ∧ isClosed tr = false) := by
  obtain ⟨q, e, e', sys⟩ := ring_reach hc h
  exact sys.no_lost_wakeup (quiescent_settled hq)

/-- C35: from any state in which producers are balanced, if every thread with a call in progress keeps running, then after
finitely many actions every call has returned, except for pushes that wait on a full buffer and pops that wait on an
empty one; if the buffer is closed, every call has returned. -/
theorem C35_progress {cap n : Nat} (hc : 0 < cap) {ops : List (RingOp α)} {s : RState α} {tr : List (REv α)} (h : RingReach cap n ops s tr)
    (hb : removals tr ≤ additions tr) {sched : Nat → Nat} (hf : FairTo n sched) :
    ∃ k s' tr', RingReach cap n (ops ++ actsOf sched k) s' tr' ∧
      (∀ t, t < n → s'.threads[t]? = some .idle ∨
        (waitsForSpace s' t ∧ (contents s'.ring).length = cap ∧ isClosed tr' = false) ∨
        (waitsForData s' t ∧ contents s'.ring = [] ∧ isClosed tr' = false)) ∧
      (isClosed tr = true → ∀ t, t < n → s'.threads[t]? = some .idle) := by
  obtain ⟨q, e, e', sys⟩ := ring_reach hc h
  have hlen := ring_run_length h
  rw [show (RState.new α cap n).threads.length = n by simp [RState.new]] at hlen
  obtain ⟨k, s', ev, q', f, f', h1, h2, h3, h4⟩ := ring_fair _ sys hb (Nat.le_refl _) sched (by rw [hlen]; exact hf)
  have key : ∀ t, t < n → s'.threads[t]? = some .idle ∨
        (waitsForSpace s' t ∧ (contents s'.ring).length = cap ∧ isClosed (tr ++ ev) = false) ∨
        (waitsForData s' t ∧ contents s'.ring = [] ∧ isClosed (tr ++ ev) = false) := by
    intro t ht
    have hlt : t < s'.threads.length := by rw [h3.len, hlen]; exact ht
    have hget := List.getElem?_eq_getElem hlt
    obtain ⟨w1, w2⟩ := h2.no_lost_wakeup h4
    rcases h4 _ (List.getElem_mem hlt) with hi | hw
    · rw [hi] at hget; exact Or.inl hget
    · right
      rcases waits_cases hw with ⟨v, hv⟩ | hv
      · left
        have : waitsForSpace s' t := ⟨v, by rw [hget, hv]⟩
        exact ⟨this, w1 t this⟩
      · right
        have : waitsForData s' t := by unfold waitsForData; rw [hget, hv]
        exact ⟨this, w2 t this⟩
  refine ⟨k, s', tr ++ ev, ring_run_append h h1, key, fun hcl t ht => ?_⟩
  rcases key t ht with hi | ⟨-, -, hx⟩ | ⟨-, -, hx⟩
  · exact hi
  · rw [isClosed_append, hcl] at hx; cases hx
  · rw [isClosed_append, hcl] at hx; cases hx

/-! ### Cases that meet the hypotheses -/

/-- Two producers and two consumers on a buffer of capacity 2, with wrap around, a full and an empty report, and stop. -/
def ringOps : List (RingOp Nat) :=
  let go (t : Nat) (c : Call Nat) (k : Nat) : List (RingOp Nat) := .call t c :: List.replicate k (.act t)
  go 0 (.push 10 true) 3 ++ go 1 (.push 11 true) 3 ++ go 1 (.push 12 false) 2 ++ go 2 (.pop true) 3 ++ go 0 (.push 13 true) 3 ++
  go 2 .size 1 ++ go 3 (.pop false) 3 ++ go 0 .addProducer 1 ++ [.call 1 (.push 14 true), .act 1, .call 3 .stop, .act 3, .act 1, .act 3, .act 3, .act 3, .act 1] ++
  go 2 (.pop true) 3 ++ go 2 (.pop true) 3 ++ go 3 (.pop false) 3

example : ∃ s, RingReach 2 4 ringOps s
    [.call 0 (.push 10 true), .push 0 10, .ret 0 .ok, .call 1 (.push 11 true), .push 1 11, .ret 1 .ok, .call 1 (.push 12 false), .ret 1 .full,
     .call 2 (.pop true), .pop 2 10, .ret 2 (.value 10), .call 0 (.push 13 true), .push 0 13, .ret 0 .ok, .call 2 .size, .ret 2 (.count 2),
     .call 3 (.pop false), .pop 3 11, .ret 3 (.value 11), .call 0 .addProducer, .added 0, .ret 0 .ok, .call 1 (.push 14 true), .call 3 .stop, .close 3, .seal 3, .ret 3 (.flag true),
     .ret 1 .stopped, .call 2 (.pop true), .pop 2 13, .ret 2 (.value 13), .call 2 (.pop true), .ret 2 .stopped, .call 3 (.pop false), .ret 3 .stopped] :=
  ⟨_, rfl⟩

/-- A pop that does not block may report an empty buffer although an item is in it and its push has returned: producer 0
has entered item 1 but not yet announced it, producer 1 has pushed item 2 and returned, consumer 2 takes the announcement
(and will get item 1), and consumer 3 finds nothing. -/
example : ∃ s, RingReach 4 4 ([.call 0 (.push 1 true), .act 0, .act 0, .call 1 (.push 2 true), .act 1, .act 1, .act 1, .call 2 (.pop true), .act 2,
      .call 3 (.pop false), .act 3, .act 3] : List (RingOp Nat)) s
    [.call 0 (.push 1 true), .push 0 1, .call 1 (.push 2 true), .push 1 2, .ret 1 .ok, .call 2 (.pop true), .call 3 (.pop false), .ret 3 .empty] ∧
    contents s.ring = [1, 2] := ⟨_, rfl, rfl⟩

/-- A state in which nobody can run: a push waits on a full buffer. -/
example : ∃ s tr, RingReach 1 2 ([.call 0 (.push 1 true), .act 0, .act 0, .act 0, .call 1 (.push 2 true), .act 1] : List (RingOp Nat)) s tr ∧ Quiescent s ∧ waitsForSpace s 1 ∧
    contents s.ring = [1] := by
  refine ⟨_, _, rfl, ?_, ⟨2, rfl⟩, rfl⟩
  intro t
  match t with
  | 0 => rfl
  | 1 => rfl
  | t + 2 => rfl

/-- A fair schedule. -/
example : FairTo 3 (fun k => k % 3) := by
  intro t ht k
  exact ⟨3 * k + t, by omega, by show (3 * k + t) % 3 = t; omega⟩

/-- Balanced producers: two registered, two removed, and the second removal closes the buffer. -/
example : ∃ s tr, RingReach 1 1 ([.call 0 .addProducer, .act 0, .call 0 .addProducer, .act 0, .call 0 .removeProducer, .act 0, .call 0 .removeProducer, .act 0, .act 0, .act 0, .act 0] :
      List (RingOp Nat)) s tr ∧ removals tr ≤ additions tr ∧ isClosed tr = true ∧ stopReturned tr = true ∧
      0 < additions tr ∧ additions tr ≤ removals tr ∧ ∀ pc ∈ s.threads, pc = .idle := ⟨_, _, rfl, by decide, rfl, rfl, by decide, by decide, by decide⟩

end Spead2
