import Verif.Lemmas.PyAsyncStop

/-!
# C75: asynchronous gets and puts from Python

`getGate H` is `await stream.get()` (or `await ring.get()`), `putGate H` is `await ring.put(chunk)`.
A history is any interleaving of calls, runs of the event loop's callback, cancellations, resumed
tasks, and what other threads do to the ringbuffer.
-/

namespace Spead2.Aio

variable {H : Type}

/-- A new ringbuffer, and a queue on it. -/
def newGet (H : Type) : St (GetRing H) Unit H := St.init ⟨[], false⟩

/-- A new ringbuffer of `cap` chunks, and a queue on it. -/
def newPut (H : Type) (cap : Nat) : St (PutRing H) H Unit := St.init ⟨[], cap, false, []⟩

/-- **C75.** No history makes the queue fail. -/
theorem C75_total (cap : Nat) (gops : List (Op Unit (GetEnv H))) (pops : List (Op H PutEnv)) :
    (∃ t, run (getGate H) (newGet H) gops = some t) ∧
    (∃ t, run (putGate H) (newPut H cap) pops = some t) := by
  constructor
  · obtain ⟨t, ht, _⟩ := run_inv (getGate_lawful H) gops (AInv.init (getGate H) ⟨[], false⟩)
    exact ⟨t, ht⟩
  · obtain ⟨t, ht, _⟩ := run_inv (putGate_lawful H) pops (AInv.init (putGate H) ⟨[], cap, false, []⟩)
    exact ⟨t, ht⟩

/-- **C75.** The heaps that the calls of `get` have taken, in the order of the calls, followed by
those in the ringbuffer, are the heaps that were pushed, in the order they were pushed: no heap goes
to two calls, none is skipped, and an earlier call gets an earlier heap. -/
theorem C75_get (ops : List (Op Unit (GetEnv H))) (t : St (GetRing H) Unit H)
    (hr : run (getGate H) (newGet H) ops = some t) :
    (List.range t.next).filterMap (taken t) ++ t.res.items = pushed ops := by
  obtain ⟨inv, _, h⟩ := get_run ops t hr
  rw [← h]
  congr 1
  unfold served
  rw [List.map_filterMap]
  apply List.filterMap_congr
  intro i hi
  obtain ⟨a, ha⟩ := inv.args i (List.mem_range.mp hi)
  cases hx : taken t i <;> simp [ha]

/-- **C75.** The chunks that consumers have got, followed by those in the ringbuffer, are the chunks
of the calls of `put` that have gone through, in the order of the calls; and the ringbuffer never
holds more than its capacity. -/
theorem C75_put (cap : Nat) (ops : List (Op H PutEnv)) (t : St (PutRing H) H Unit)
    (hr : run (putGate H) (newPut H cap) ops = some t) :
    t.res.out ++ t.res.items =
      (List.range t.next).filterMap (fun i => if (taken t i).isSome then t.arg i else none) ∧
    t.res.items.length ≤ cap := by
  obtain ⟨inv, _, hle, h⟩ := put_run cap ops t hr
  refine ⟨?_, hle⟩
  rw [h]
  unfold served
  rw [List.map_filterMap]
  apply List.filterMap_congr
  intro i hi
  obtain ⟨a, ha⟩ := inv.args i (List.mem_range.mp hi)
  cases hx : taken t i <;> simp [ha]

/-- **C75.** A call that is not cancelled returns what it has taken: it has returned it already or
does when its task runs. -/
theorem C75_returns {σ α β ε : Type} (g : Gate σ α β ε) (hg : g.Lawful) (r : σ)
    (ops : List (Op α ε)) (t : St σ α β) (hr : run g (St.init r) ops = some t) (i : Nat)
    (hi : NotCancelled i ops) (b : β) (hb : taken t i = some b) :
    (resume t i).phase i = some (.returned b) := by
  obtain ⟨hf, hp⟩ := uncancelled_run hg r ops t hr i hi
  rcases hp with hp | ⟨c, hp⟩ | hp | ⟨c, hp⟩ | hp
  · simp [taken, hp] at hb
  · simp only [taken, hp, Option.some.injEq] at hb
    simp [resume, hp, put, hb]
  · cases hfi : t.fut i with
    | result c =>
      simp only [taken, hp, hfi, Option.some.injEq] at hb
      simp [resume, hp, put, hfi, wake, hb]
    | pending => simp [taken, hp, hfi] at hb
    | exception => simp [taken, hp, hfi] at hb
    | cancelled => simp [taken, hp, hfi] at hb
  · simp only [taken, hp, Option.some.injEq] at hb
    simp [resume, hp, hb]
  · simp [taken, hp] at hb

theorem returned_of {σ α β ε : Type} {g : Gate σ α β ε} (hg : g.Lawful) {r : σ}
    {ops : List (Op α ε)} {s : St σ α β} (hr : run g (St.init r) ops = some s) {i : Nat}
    (hi : Waiting s i) (hc : NotCancelled i ops) : s.phase i = some (.awaiting false) := by
  obtain ⟨m, hm⟩ := hi.1
  rcases (uncancelled_run hg r ops s hr i hc).phase with hp | ⟨c, hp⟩ | hp | ⟨c, hp⟩ | hp <;>
    rw [hm] at hp <;> first | exact hm.trans hp | cases hp

/-- **C75.** Nobody waits for a heap that is there: while a call waits the event loop watches the
descriptor, the descriptor is readable when there is a heap, and then the callback gives the first
heap to the call that has waited longest, which returns it. -/
theorem C75_wake (ops : List (Op Unit (GetEnv H))) (s : St (GetRing H) Unit H)
    (hr : run (getGate H) (newGet H) ops = some s) (i : Nat) (hi : Waiting s i)
    (hmin : ∀ j, j < i → ¬ Waiting s j) (hc : NotCancelled i ops) (h : H) (hs : List H)
    (hh : s.res.items = h :: hs) :
    s.listening = true ∧ (getGate H).readable s.res = true ∧
    ∃ t, run (getGate H) s [.ready, .resume i] = some t ∧ t.phase i = some (.returned h) ∧
      t.res.items = hs ∧ ∀ j, j ≠ i → (Waiting t j ↔ Waiting s j) := by
  obtain ⟨inv, _⟩ := get_run ops s hr
  have hm : s.waiters ≠ [] := by intro hn; have := inv.mem i hi; rw [hn] at this; cases this
  refine ⟨inv.listen hm, by simp [getGate, hh], ?_⟩
  obtain ⟨a, ha⟩ := inv.args i (hi.lt inv)
  obtain ⟨t, ht, hp, hcase⟩ := ready_first (getGate_lawful H) inv hi hmin ha
    (by simp [getGate, getNowait, hh])
  have hph := returned_of (getGate_lawful H) hr hi hc
  rcases hcase with ⟨r, b, hok, hres, hfut⟩ | ⟨hst, _⟩
  · simp only [getGate, getNowait, hh, Try.ok.injEq] at hok
    obtain ⟨rfl, rfl⟩ := hok
    refine ⟨resume t i, by simp [run, step, ht], ?_, ?_, ?_⟩
    · simp [resume, hp, hph, hfut, put, wake]
    · rw [(resume_same t i).1, hres]
    · intro j hj
      simp only [Waiting, resume_ne t hj, (resume_same t i).2.2.2.2.2.2, hp, hfut, put_ne _ _ hj]
  · simp [getGate, getNowait, hh] at hst

/-- **C75.** The same for `put`: when there is space the call that has waited longest puts its chunk
and returns. -/
theorem C75_wake_put (cap : Nat) (ops : List (Op H PutEnv)) (s : St (PutRing H) H Unit)
    (hr : run (putGate H) (newPut H cap) ops = some s) (i : Nat) (hi : Waiting s i)
    (hmin : ∀ j, j < i → ¬ Waiting s j) (hc : NotCancelled i ops)
    (hsp : s.res.items.length < cap) (hns : s.res.stopped = false) :
    s.listening = true ∧ (putGate H).readable s.res = true ∧
    ∃ t c, s.arg i = some c ∧ run (putGate H) s [.ready, .resume i] = some t ∧
      t.phase i = some (.returned ()) ∧ t.res.items = s.res.items ++ [c] ∧
      ∀ j, j ≠ i → (Waiting t j ↔ Waiting s j) := by
  obtain ⟨inv, hcap, _⟩ := put_run cap ops s hr
  have hm : s.waiters ≠ [] := by intro hn; have := inv.mem i hi; rw [hn] at this; cases this
  refine ⟨inv.listen hm, by simp [putGate, hcap, hsp], ?_⟩
  obtain ⟨a, ha⟩ := inv.args i (hi.lt inv)
  have hatt : (putGate H).attempt s.res a = .ok { s.res with items := s.res.items ++ [a] } () := by
    simp [putGate, putNowait, hns, hcap, hsp]
  obtain ⟨t, ht, hp, hcase⟩ := ready_first (putGate_lawful H) inv hi hmin ha (by rw [hatt]; simp)
  have hph := returned_of (putGate_lawful H) hr hi hc
  rcases hcase with ⟨r, b, hok, hres, hfut⟩ | ⟨hst, _⟩
  · rw [hatt] at hok
    simp only [Try.ok.injEq, and_true] at hok
    subst hok
    refine ⟨resume t i, a, ha, by simp [run, step, ht], ?_, ?_, ?_⟩
    · simp [resume, hp, hph, hfut, put, wake]
    · rw [(resume_same t i).1, hres]
    · intro j hj
      simp only [Waiting, resume_ne t hj, (resume_same t i).2.2.2.2.2.2, hp, hfut, put_ne _ _ hj]
  · rw [hatt] at hst; cases hst

/-- **C75.** When a ringbuffer is stopped and empty everybody who waits for it is told, after at most
as many runs of the callback as there have been calls: nobody waits any more, and a call that was not
cancelled raises `Stopped` when its task runs. -/
theorem C75_stop (ops : List (Op Unit (GetEnv H))) (s : St (GetRing H) Unit H)
    (hr : run (getGate H) (newGet H) ops = some s) (hs : s.res.stopped = true)
    (he : s.res.items = []) :
    ∃ t, run (getGate H) s (List.replicate s.next .ready) = some t ∧ (∀ j, ¬ Waiting t j) ∧
      ∀ i, Waiting s i → NotCancelled i ops → (resume t i).phase i = some .raised := by
  obtain ⟨inv, _⟩ := get_run ops s hr
  obtain ⟨t, ht, hp, hf, hw⟩ := stop_rounds (getGate_lawful H) s.next inv
    (by intro a; simp [getGate, getNowait, hs, he]) 0 (fun j _ => Nat.zero_le j) (by omega)
  refine ⟨t, ht, hw, ?_⟩
  intro i hi hc
  have hph := returned_of (getGate_lawful H) hr hi hc
  rcases hf i with hfi | hfi
  · exact absurd ⟨⟨false, by rw [hp]; exact hph⟩, by rw [hfi]; exact hi.2⟩ (hw i)
  · simp [resume, hp, hph, hfi, put, wake]

/-- **C75.** One run is enough if nobody was cancelled. -/
theorem C75_stop_once (ops : List (Op Unit (GetEnv H))) (s : St (GetRing H) Unit H)
    (hr : run (getGate H) (newGet H) ops = some s) (hs : s.res.stopped = true)
    (he : s.res.items = []) (hc : ∀ j, Op.cancel j ∉ ops) :
    ∃ t, run (getGate H) s [.ready] = some t ∧ ∀ j, ¬ Waiting t j := by
  obtain ⟨inv, _⟩ := get_run ops s hr
  obtain ⟨t, ht, it⟩ := ready_inv (getGate_lawful H) inv
  refine ⟨t, by simp [run, step, ht], ?_⟩
  intro j hj
  have hsj := ready_mono inv ht hj
  -- the earliest of those who wait
  have hex : ∃ i, Waiting s i ∧ ∀ k, k < i → ¬ Waiting s k := by
    have aux : ∀ n, (∃ k, k < n ∧ Waiting s k) → ∃ i, Waiting s i ∧ ∀ k, k < i → ¬ Waiting s k := by
      intro n
      induction n with
      | zero => rintro ⟨k, hk, _⟩; omega
      | succ n ih =>
        rintro ⟨k, hk, hw⟩
        by_cases hlt : ∃ k, k < n ∧ Waiting s k
        · exact ih hlt
        · refine ⟨k, hw, fun k' hk' hw' => hlt ⟨k', by omega, hw'⟩⟩
    exact aux (j + 1) ⟨j, by omega, hsj⟩
  obtain ⟨i, hi, hmin⟩ := hex
  obtain ⟨a, ha⟩ := inv.args i (hi.lt inv)
  have hatt : (getGate H).attempt s.res a = .stopped := by simp [getGate, getNowait, hs, he]
  obtain ⟨t', ht', _, hcase⟩ := ready_first (getGate_lawful H) inv hi hmin ha (by rw [hatt]; simp)
  have : t' = t := by rw [ht] at ht'; cases ht'; rfl
  subst this
  rcases hcase with ⟨r, b, hok, _⟩ | ⟨_, _, _, _, hall⟩
  · rw [hatt] at hok; cases hok
  · refine hall ?_ j hj
    exact allPending_run (getGate_lawful H) ops (AInv.init _ _) (by intro w hw; cases hw) hc hr

/-- **C75.** `Stopped` is raised only when the ringbuffer is stopped and nothing is left in it. -/
theorem C75_stopped (ops : List (Op Unit (GetEnv H))) (t : St (GetRing H) Unit H)
    (hr : run (getGate H) (newGet H) ops = some t) (i : Nat) (hi : t.phase i = some .raised) :
    Op.env .stop ∈ ops ∧ t.res.items = [] := by
  obtain ⟨_, hstop, _⟩ := get_run ops t hr
  have := honest_run (getGate_lawful H) _ ops t hr ⟨i, Or.inr hi⟩ ()
  simp only [getGate, getNowait] at this
  cases hx : t.res.items with
  | cons x xs => simp [hx] at this
  | nil =>
    simp only [hx] at this
    refine ⟨hstop.mp ?_, rfl⟩
    cases hs : t.res.stopped
    · simp [hs] at this
    · rfl

/-- The full claim: a call of `get` that ends with `CancelledError` has not taken a heap, so that
every heap that was pushed is in the ringbuffer or reaches a caller. -/
def C75_statement : Prop :=
  ∀ (H : Type) (ops : List (Op Unit (GetEnv H))) (t : St (GetRing H) Unit H),
    run (getGate H) (newGet H) ops = some t → ∀ i h, t.phase i ≠ some (.cancelled (some h))

/-- It is not so: a heap arrives for a call that waits, and the task of the call is cancelled before
it runs again (as `asyncio.wait_for` does when the time is up).  The heap is gone: the next call
gets the one after it. -/
theorem C75_violated : ¬ C75_statement := by
  intro h
  have hr : (run (getGate Nat) (newGet Nat)
      [.call (), .env (.push 1), .ready, .cancel 0, .resume 0, .env (.push 2), .call (), .resume 1]).map
      (fun t => (t.phase 0, t.phase 1)) =
      some (some (.cancelled (some 1)), some (.returned 2)) := by decide
  cases hx : run (getGate Nat) (newGet Nat)
      [.call (), .env (.push 1), .ready, .cancel 0, .resume 0, .env (.push 2), .call (), .resume 1] with
  | none => rw [hx] at hr; cases hr
  | some t =>
    rw [hx] at hr
    simp only [Option.map_some, Option.some.injEq, Prod.mk.injEq] at hr
    exact h Nat _ t hx 0 1 hr.1

/-- The same happens to a heap that was there when `get` was called. -/
theorem C75_violated_direct :
    (run (getGate Nat) (newGet Nat)
      [.env (.push 1), .call (), .cancel 0, .resume 0, .call ()]).map
      (fun t => (t.phase 0, t.fut 1, t.res.items)) =
      some (some (.cancelled (some 1)), .pending, []) := by decide

/-- And a `put` that ends with `CancelledError` may have put its chunk. -/
theorem C75_violated_put :
    (run (putGate Nat) (newPut Nat 4) [.call 7, .cancel 0, .resume 0]).map
      (fun t => (t.phase 0, t.res.items)) = some (some (.cancelled (some ())), [7]) := by decide

/-- **C75, part.** A call that is cancelled while it waits (nothing has been taken for it yet) takes
nothing, then or later.  Missing: the two moments of `C75_violated` and `C75_violated_direct`. -/
theorem C75_cancel_partial {σ α β ε : Type} (g : Gate σ α β ε) (hg : g.Lawful) (r : σ)
    (ops more : List (Op α ε)) (s t : St σ α β) (i : Nat)
    (hr : run g (St.init r) ops = some s) (hi : Waiting s i)
    (hm : run g s (.cancel i :: more) = some t) : taken t i = none := by
  obtain ⟨s', hs', inv⟩ := run_inv hg ops (AInv.init g r)
  have : s' = s := by rw [hr] at hs'; cases hs'; rfl
  subst this
  rw [run, step, Option.bind_some] at hm
  exact (cancelledEarly_run hg more (cancel_inv inv i) (cancelledEarly_of inv hi) hm).taken

/-- **C75, part.** If nobody is cancelled, all that was pushed is in the ringbuffer or with a call
that has returned it or does when its task runs. -/
theorem C75_lossless_partial (ops : List (Op Unit (GetEnv H))) (t : St (GetRing H) Unit H)
    (hr : run (getGate H) (newGet H) ops = some t) (hc : ∀ j, Op.cancel j ∉ ops) :
    (List.range t.next).filterMap (fun i => match (resume t i).phase i with
      | some (.returned h) => some h
      | _ => none) ++ t.res.items = pushed ops := by
  rw [← C75_get ops t hr]
  congr 1
  apply List.filterMap_congr
  intro i _
  have hnc : NotCancelled i ops := fun j hj => absurd hj (hc j)
  cases hx : taken t i with
  | some b => rw [C75_returns _ (getGate_lawful H) _ ops t hr i hnc b hx]
  | none =>
    cases hp : (resume t i).phase i with
    | none => rfl
    | some p =>
      cases p with
      | returned b =>
        have := resume_taken t i i
        rw [hx] at this
        simp [taken, hp] at this
      | _ => rfl

/-! ## cases that meet the hypotheses -/

/-- Three calls wait, the second is cancelled, two heaps arrive. -/
example : (run (getGate Nat) (newGet Nat)
    [.call (), .call (), .call (), .cancel 1, .env (.push 5), .env (.push 6), .ready, .ready,
      .resume 0, .resume 1, .resume 2]).map
    (fun t => (t.phase 0, t.phase 1, t.phase 2, t.listening)) =
    some (some (.returned 5), some (.cancelled none), some (.returned 6), false) := by decide

/-- With a cancelled call in the middle of the queue one run of the callback does not tell everybody
that the ringbuffer is stopped (the loop ends with `InvalidStateError`), but two do. -/
example : (run (getGate Nat) (newGet Nat)
    [.call (), .call (), .call (), .cancel 1, .env .stop, .ready]).map
    (fun t => (t.fut 0, t.fut 2, t.listening)) = some (.exception, .pending, true) ∧
    (run (getGate Nat) (newGet Nat)
    [.call (), .call (), .call (), .cancel 1, .env .stop, .ready, .ready]).map
    (fun t => (t.fut 0, t.fut 2, t.listening)) = some (.exception, .exception, false) := by decide

/-- A `put` waits for space and goes through. -/
example : (run (putGate Nat) (newPut Nat 1)
    [.call 7, .call 8, .resume 0, .env .pop, .ready, .resume 1]).map
    (fun t => (t.phase 0, t.phase 1, t.res.out, t.res.items)) =
    some (some (.returned ()), some (.returned ()), [7], [8]) := by decide

end Spead2.Aio
