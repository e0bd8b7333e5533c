import Verif.Lemmas.PyAsyncSend
import Verif.Spec.PyAsyncSend
import Mathlib.Data.List.Nodup

/-!
# C76: asynchronous sends from Python

Histories interleave sends, handlers run by threads of the thread pool (each in two steps), the event
loop, and futures that are cancelled.
-/

namespace Spead2.AioSend

theorem Reachable.inv {s : St} (h : Reachable s) : PInv s := by
  obtain ⟨ops, rfl⟩ := h
  exact run_inv ops PInv.init

/-- **C76.** The callback of a send is called at most once, and until it is called the send is in
exactly one place: with the stream, with a handler that reports that it was refused, or among the
callbacks to be called. -/
theorem C76_once (s : St) (h : Reachable s) (i : Nat) :
    s.ran i ≤ 1 ∧
    (Outstanding s i ↔ (s.pipeline ++ s.rejected ++ s.callbacks.map Prod.fst).count i = 1) ∧
    (s.pipeline ++ s.rejected ++ s.callbacks.map Prod.fst).count i ≤ 1 := by
  have v := h.inv.inv
  have hm := v.mem i
  have hn := List.nodup_iff_count_le_one.mp v.nodup i
  refine ⟨v.ranLe i, ?_, hn⟩
  rw [Outstanding, ← hm, ← List.count_pos_iff]
  unfold pend at hn ⊢
  omega

/-- **C76.** Whenever a handler has run and its callback has not been called, the event loop watches
the descriptor, and unless a handler is between its two steps or the callbacks are being processed,
the descriptor is readable: the callback will be called.  The semaphore is never above one, and
`process_callbacks` never finds nothing to do. -/
theorem C76_wake (s : St) (h : Reachable s) :
    (s.callbacks ≠ [] → s.reader = true ∧ (s.sem = 1 ∨ s.putting = 1 ∨ s.taking = true)) ∧
    s.sem ≤ 1 ∧ s.putting ≤ 1 ∧ (s.sem = 1 ∨ s.taking = true → s.callbacks ≠ []) := by
  have ht := h.inv.token
  have v := h.inv.inv
  refine ⟨?_, ?_, ?_, ?_⟩
  · intro hc
    rw [if_neg hc] at ht
    refine ⟨?_, ?_⟩
    · rw [v.reader, v.active]
      have : 0 < s.callbacks.length := List.length_pos_iff.mpr hc
      simp only [pend, List.length_append, List.length_map]
      omega
    · cases htk : s.taking <;> simp [htk] at ht ⊢
      omega
  · split at ht <;> split at ht <;> omega
  · split at ht <;> split at ht <;> omega
  · intro hs hc
    rw [if_pos hc] at ht
    rcases hs with hs | hs
    · omega
    · simp [hs] at ht

/-- **C76.** When the event loop then runs, all those callbacks are called and a future that was not
cancelled gets what the handler was told. -/
theorem C76_delivers (s : St) (h : Reachable s) (hs : s.sem = 1) (i : Nat) (o : Outcome)
    (hi : (i, o) ∈ s.callbacks) :
    (run s [.poll, .process]).callbacks = [] ∧ (run s [.poll, .process]).ran i = 1 ∧
    (run s [.poll, .process]).fut i = if s.fut i = .cancelled then .cancelled else .done o := by
  have v := h.inv.inv
  have hc : s.callbacks ≠ [] := by intro hn; rw [hn] at hi; cases hi
  have ht := h.inv.token
  rw [if_neg hc, hs] at ht
  have htk : s.taking = false := by
    cases hx : s.taking
    · rfl
    · simp [hx] at ht
  have hr := ((C76_wake s h).1 hc).1
  have hpoll : poll s = { s with sem := 0, taking := true } := by
    unfold poll
    rw [hs]
    simp [hr, htk]
  have hrun : run s [.poll, .process] =
      runCallbacks { s with sem := 0, taking := false, callbacks := [] } s.callbacks := by
    simp only [run, step, hpoll, process, if_true]
  rw [hrun]
  have hmem : i ∈ pend s s.callbacks := by
    simp only [pend, List.mem_append]
    exact Or.inr (List.mem_map_of_mem (f := Prod.fst) hi)
  have h0 := ((v.mem i).mp hmem).2
  have hnd : (s.callbacks.map Prod.fst).Nodup := by
    have := v.nodup
    unfold pend at this
    exact (List.nodup_append.mp this).2.1
  obtain ⟨h1, h2⟩ := runCallbacks_at s.callbacks { s with sem := 0, taking := false, callbacks := [] } hnd hi
  refine ⟨(runCallbacks_same _ _).1, ?_, ?_⟩
  · rw [h2]; show s.ran i + 1 = 1; omega
  · rw [h1]
    show resolve (s.fut i) o = _
    cases hf : s.fut i with
    | pending => simp [resolve, Fut.isDone]
    | cancelled => simp [resolve, Fut.isDone]
    | done c =>
      have := v.futDone i c hf
      omega

theorem runCallbacks_keeps (l : List (Nat × Outcome)) (s : St) (i : Nat) (h : s.fut i ≠ .pending) :
    (runCallbacks s l).fut i = s.fut i := by
  induction l generalizing s with
  | nil => rfl
  | cons x xs ih =>
    obtain ⟨j, o⟩ := x
    have h1 : (runCallback s j o).fut i = s.fut i := by
      show upd s.fut j (resolve (s.fut j) o) i = _
      unfold upd
      split
      · rename_i hij
        subst hij
        unfold resolve
        cases hf : s.fut i with
        | pending => exact absurd hf h
        | _ => rfl
      · rfl
    show (runCallbacks (runCallback s j o) xs).fut i = _
    rw [ih _ (by rw [h1]; exact h), h1]

theorem step_keeps (s : St) (op : Op) (i : Nat) (h : s.fut i ≠ .pending) :
    (step s op).fut i = s.fut i := by
  cases op with
  | send a => rfl
  | complete o => show (complete s o).fut i = _; unfold complete; split <;> rfl
  | refuse j ec => show (refuse s j ec).fut i = _; unfold refuse; split <;> rfl
  | semPut => show (semPut s).fut i = _; unfold semPut; split <;> rfl
  | poll => show (poll s).fut i = _; unfold poll; split; · rfl
            split <;> rfl
  | process =>
    show (process s).fut i = _; unfold process
    split
    · exact runCallbacks_keeps s.callbacks _ i h
    · rfl
  | cancel j =>
    show (if j < s.n then cancel s j else s).fut i = _; unfold cancel
    split
    · split
      · rfl
      · rename_i hd
        show upd s.fut j .cancelled i = _
        unfold upd
        split
        · rename_i hij
          subst hij
          cases hf : s.fut i with
          | pending => exact absurd hf h
          | _ => simp [hf, Fut.isDone] at hd
        · rfl
    · rfl

/-- **C76.** A future is pending until the callback of its send is called, unless it is cancelled,
and once it has an outcome or is cancelled nothing changes it. -/
theorem C76_future (s : St) (h : Reachable s) (i : Nat) :
    (s.ran i = 1 → s.fut i ≠ .pending) ∧ (∀ o, s.fut i = .done o → s.ran i = 1) ∧
    (s.fut i ≠ .pending → ∀ ops, (run s ops).fut i = s.fut i) := by
  refine ⟨h.inv.inv.futRan i, fun o => h.inv.inv.futDone i o, fun hp ops => ?_⟩
  clear h
  induction ops generalizing s with
  | nil => rfl
  | cons op ops ih =>
    have h1 := step_keeps s op i hp
    show (run (step s op) ops).fut i = _
    rw [ih _ (by rw [h1]; exact hp), h1]

/-- **C76.** The callbacks of accepted sends are called in the order of the sends. -/
theorem C76_order (s : St) (h : Reachable s) (i j : Nat) (hij : i < j) (hj : j < s.n)
    (hqi : s.queued i = true) (hqj : s.queued j = true) (hr : s.ran j = 1) : s.ran i = 1 := by
  have v := h.inv.inv
  have hle := v.ranLe i
  rcases Nat.lt_or_ge (s.ran i) 1 with hlt | hge
  · have hm := mem_line v (by omega : i < s.n) hqi (by omega)
    have := v.before j i hj hqj hr hm
    omega
  · omega

/-- **C76.** The event loop watches the descriptor exactly while some callback has still to be
called, and `_active` counts those. -/
theorem C76_watch (s : St) (h : Reachable s) :
    (s.reader = true ↔ ∃ i, Outstanding s i) ∧
    s.active = ((List.range s.n).filter (fun i => s.ran i = 0)).length := by
  have v := h.inv.inv
  have hperm : (pend s s.callbacks).Perm ((List.range s.n).filter (fun i => s.ran i = 0)) := by
    refine (List.perm_ext_iff_of_nodup v.nodup (List.Nodup.filter _ List.nodup_range)).mpr ?_
    intro i
    rw [v.mem i, List.mem_filter, List.mem_range]
    simp
  refine ⟨?_, by rw [v.active, hperm.length_eq]⟩
  rw [v.reader, v.active]
  constructor
  · intro hne
    cases hp : pend s s.callbacks with
    | nil => rw [hp] at hne; simp at hne
    | cons x xs => exact ⟨x, (v.mem x).mp (by rw [hp]; simp)⟩
  · rintro ⟨i, hi⟩ hz
    have hm := (v.mem i).mpr hi
    have : (pend s s.callbacks).length = 0 := by omega
    rw [List.length_eq_zero_iff.mp this] at hm
    cases hm

/-- **C76.** The heap and the callback (and through it the stream) are kept alive exactly until the
callback is called. -/
theorem C76_alive (s : St) (h : Reachable s) (i : Nat) : s.held i = true ↔ Outstanding s i :=
  h.inv.inv.held i

/-- The full claim about `async_flush`: when it returns, everything that was accepted before the call
has been sent. -/
def C76_flush_statement : Prop :=
  ∀ (s : St) (ops : List Op), Reachable s → FlushReturns s (run s ops) → AllSent s (run s ops)

/-- **C76, part.** It holds if the future of the last accepted send is not cancelled.  Missing: the
case of `C76_flush_violated`. -/
theorem C76_flush_partial (s : St) (ops : List Op) (h : Reachable s)
    (hf : FlushReturns s (run s ops))
    (hc : ∀ i, flushTarget s = some i → (run s ops).fut i ≠ .cancelled) :
    AllSent s (run s ops) := by
  intro j hj hq
  have v := h.inv.inv
  have w := (run_inv ops h.inv).inv
  obtain ⟨hn, hqk⟩ := run_keep ops (s := s)
  have hle := w.ranLe j
  unfold FlushReturns flushTarget at hf
  unfold flushTarget at hc
  cases hl : s.last with
  | none =>
    have := v.lastNone hl j hj hq
    have := run_ran ops s j
    omega
  | some i =>
    rw [hl] at hf
    obtain ⟨hi, hqi, hmax⟩ := v.lastSome i hl
    have hri : (run s ops).ran i = 1 := by
      cases hx : (run s ops).fut i with
      | pending => simp [hx, Fut.isDone] at hf
      | cancelled => exact absurd hx (hc i hl)
      | done o => exact w.futDone i o hx
    rcases Nat.lt_or_ge ((run s ops).ran j) 1 with hlt | hge
    · have hm := mem_line w (Nat.lt_of_lt_of_le hj hn) ((hqk j hj).trans hq) (by omega)
      have h1 := w.before i j (Nat.lt_of_lt_of_le hi hn) ((hqk i hi).trans hqi) hri hm
      have h2 := hmax j hj hq
      omega
    · omega

/-- If the future of the last send is cancelled (as `asyncio.wait_for` does when its time is up)
`async_flush` returns at once, with everything still unsent. -/
theorem C76_flush_violated : ¬ C76_flush_statement := by
  intro h
  have := h (run St.init [.send true, .send true, .cancel 1]) []
    ⟨[.send true, .send true, .cancel 1], rfl⟩ (show Fut.isDone _ = true by decide) 0 (by decide) (by decide)
  exact absurd this (by decide)

/-! ## cases that meet the hypotheses -/

/-- Three sends, the second refused; two handlers have run and one of them has not raised the
semaphore yet. -/
example : let s := run St.init [.send true, .send false, .send true, .refuse 1 11, .semPut,
    .complete (.sent 100)]
    Reachable s ∧ s.sem = 1 ∧ s.callbacks = [(1, .error 11), (0, .sent 100)] ∧
    Outstanding s 2 ∧ s.active = 3 :=
  ⟨⟨_, rfl⟩, by decide, by decide, ⟨by decide, by decide⟩, by decide⟩

/-- A flush that waits for a future that is not cancelled. -/
example : let s := run St.init [.send true, .send true]
    let t := run s [.complete (.sent 1), .complete (.sent 2), .semPut, .poll, .process]
    Reachable s ∧ flushTarget s = some 1 ∧ FlushReturns s t ∧ ¬ FlushReturns s s ∧
    t.fut 1 = .done (.sent 2) :=
  ⟨⟨_, rfl⟩, by decide, show Fut.isDone _ = true by decide, show ¬ (Fut.isDone _ = true) by decide,
    by decide⟩

end Spead2.AioSend
