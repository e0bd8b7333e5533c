import Verif.Lemmas.PyLog

/-!
# C79: log messages reach Python's logging

Every message that the library logs is passed to the `spead2` logger once, in order and with its level, or it is
dropped because 1024 are waiting.  A call never waits, and before the end of the process it never fails.
Python is told that messages were lost - but not always soon: if the thread that drops a message is slow to
say so, Python learns of it only with the next message.
-/

namespace Spead2.PyLog

def exM (t : String) : Msg := ⟨.info, t⟩

/-- Capacity 2: three messages, the last is dropped; all is logged and reported; then the end. -/
def exOps : List Op :=
  [.emit (exM "a"), .emit ⟨.warning, "b"⟩, .emit (exM "c"), .flag, .work, .work, .work, .work, .work, .work, .work, .work,
    .emit ⟨.debug, "d"⟩, .stop, .work, .work, .work, .work, .work]

/-! ## Order -/

/-- **C79 (order).** What Python gets is the beginning of what was put into the ring, in order, and that is part of
what was logged, in order.  Every message goes to the method of its level. -/
theorem C79_order (cap : Nat) (ops : List Op) :
    messages (run (St.init cap) ops).out <+: (run (St.init cap) ops).accepted ∧
    (run (St.init cap) ops).accepted.Sublist (emitted ops) ∧
    ∀ m : Msg, (Line.msg m).call = (some m.level.method, m.text) := by
  refine ⟨?_, ?_, ?_⟩
  · have v := run_inv ops (init_inv cap)
    rw [← v.order, List.append_assoc]
    exact List.prefix_append _ _
  · have main : ∀ (ops : List Op) (s : St), (run s ops).accepted.Sublist (s.accepted ++ emitted ops) := by
      intro ops
      induction ops with
      | nil => intro s; show s.accepted.Sublist (s.accepted ++ []); rw [List.append_nil]
      | cons op ops ih =>
        intro s
        refine (ih (step s op)).trans ?_
        cases op with
        | emit m =>
          have he : emitted (Op.emit m :: ops) = m :: emitted ops := rfl
          rw [he]
          show ((emit s m).accepted ++ emitted ops).Sublist _
          unfold emit
          split
          · exact (List.append_sublist_append_left _).mpr (List.sublist_cons_self _ _)
          · split
            · exact (List.append_sublist_append_left _).mpr (List.sublist_cons_self _ _)
            · show (s.accepted ++ [m] ++ emitted ops).Sublist _
              rw [List.append_assoc]
              exact List.Sublist.refl _
        | flag =>
          have he : emitted (Op.flag :: ops) = emitted ops := rfl
          rw [he]
          show ((flag s).accepted ++ emitted ops).Sublist _
          unfold flag
          split <;> exact List.Sublist.refl _
        | work =>
          have he : emitted (Op.work :: ops) = emitted ops := rfl
          rw [he]
          show ((work s).accepted ++ emitted ops).Sublist _
          unfold work
          repeat' split
          all_goals exact List.Sublist.refl _
        | stop => exact List.Sublist.refl _
    exact main ops (St.init cap)
  · intro m
    obtain ⟨l, t⟩ := m
    cases l <;> rfl

/-- **C79 (nothing vanishes).** Until the end of the process, every message that was logged is in the ring or past
it, or was dropped, and no call has failed. -/
theorem C79_all (cap : Nat) (ops : List Op) (h : Op.stop ∉ ops) :
    ((run (St.init cap) ops).accepted ++ (run (St.init cap) ops).dropped).Perm (emitted ops) ∧
    (run (St.init cap) ops).raised = 0 := by
  have main : ∀ (ops : List Op) (s : St), Op.stop ∉ ops → s.stopped = false →
      ((run s ops).accepted ++ (run s ops).dropped).Perm (s.accepted ++ s.dropped ++ emitted ops) ∧
      (run s ops).stopped = false := by
    intro ops
    induction ops with
    | nil => intro s _ hs; exact ⟨by show (s.accepted ++ s.dropped).Perm (s.accepted ++ s.dropped ++ []); rw [List.append_nil], hs⟩
    | cons op ops ih =>
      intro s hns hs
      have hop : op ≠ .stop := fun he => hns (by rw [he]; exact List.mem_cons_self)
      obtain ⟨h1, h2⟩ := ih (step s op) (fun hm => hns (List.mem_cons_of_mem _ hm)) ((step_stopped hop).trans hs)
      refine ⟨h1.trans ?_, h2⟩
      cases op with
      | emit m =>
        have he : emitted (Op.emit m :: ops) = m :: emitted ops := rfl
        rw [he]
        show ((emit s m).accepted ++ (emit s m).dropped ++ emitted ops).Perm _
        unfold emit
        rw [hs]
        simp only [Bool.false_eq_true, if_false]
        split
        · show (s.accepted ++ (s.dropped ++ [m]) ++ emitted ops).Perm _
          rw [← List.append_assoc, List.append_assoc _ [m]]
          exact List.Perm.refl _
        · show (s.accepted ++ [m] ++ s.dropped ++ emitted ops).Perm _
          rw [List.append_assoc, List.append_assoc, List.append_assoc]
          refine List.Perm.append_left _ ?_
          show (m :: (s.dropped ++ emitted ops)).Perm (s.dropped ++ m :: emitted ops)
          exact (List.perm_middle).symm
      | flag =>
        have he : emitted (Op.flag :: ops) = emitted ops := rfl
        rw [he]
        show ((flag s).accepted ++ (flag s).dropped ++ emitted ops).Perm _
        unfold flag
        split <;> exact List.Perm.refl _
      | work =>
        have he : emitted (Op.work :: ops) = emitted ops := rfl
        rw [he]
        show ((work s).accepted ++ (work s).dropped ++ emitted ops).Perm _
        unfold work
        repeat' split
        all_goals exact List.Perm.refl _
      | stop => exact absurd rfl hop
  obtain ⟨h1, h2⟩ := main ops (St.init cap) h rfl
  exact ⟨h1, (run_inv ops (init_inv cap)).calm h2⟩

/-- **C79 (drops).** A message is dropped only if as many messages as the ring can hold have not been passed on. -/
theorem C79_drop (cap : Nat) (ops : List Op) (m : Msg)
    (h : (emit (run (St.init cap) ops) m).dropped ≠ (run (St.init cap) ops).dropped) :
    cap ≤ (run (St.init cap) ops).items.length + (inHand (run (St.init cap) ops).pc).length := by
  have v := run_inv ops (init_inv cap)
  generalize run (St.init cap) ops = s at *
  have hs := v.space
  have ht : taking s.pc ≤ (inHand s.pc).length := by
    cases s.pc <;> simp [taking, inHand]
  unfold emit at h
  split at h
  · exact absurd rfl h
  · split at h
    · omega
    · exact absurd rfl h

/-! ## The end -/

/-- **C79 (end).** After `stop`, the thread ends when it has gone on often enough, and then everything that was put
into the ring has been passed to Python. -/
theorem C79_end (cap : Nat) :
    (∀ pre : List Op, ∃ n, ∀ ops : List Op, n ≤ works ops →
      (run (run (St.init cap) (pre ++ [.stop])) ops).pc = .ended) ∧
    (∀ ops : List Op, (run (St.init cap) ops).pc = .ended →
      messages (run (St.init cap) ops).out = (run (St.init cap) ops).accepted) := by
  constructor
  · intro pre
    refine ⟨rest (run (St.init cap) (pre ++ [.stop])), fun ops h => ends ops ?_ h⟩
    have : ∀ (l : List Op) (s : St), (run s (l ++ [.stop])).stopped = true := by
      intro l
      induction l with
      | nil => intro s; rfl
      | cons op l ih => intro s; exact ih (step s op)
    exact this pre _
  · intro ops he
    have v := run_inv ops (init_inv cap)
    generalize run (St.init cap) ops = s at *
    have h1 := v.order
    rw [he, (v.ended he).2] at h1
    simpa [inHand] using h1

/-- **C79 (other threads).** Whatever is logged meanwhile, the thread waits for messages again (without the GIL) or
has ended after at most 3073 of its steps, that is after at most 1024 messages. -/
theorem C79_gil (cap : Nat) (pre ops : List Op) (h : 3073 ≤ works ops) :
    ∃ n, (run (run (St.init cap) pre) (ops.take n)).pc = .pop ∨ (run (run (St.init cap) pre) (ops.take n)).pc = .ended := by
  have v := run_inv pre (init_inv cap)
  exact releases ops v (Nat.le_trans (hold_le _ v.pass) h)

example : (run (St.init 2) exOps).pc = .ended ∧
    (run (St.init 2) exOps).out = [.msg (exM "a"), .msg ⟨.warning, "b"⟩, .overflow, .msg ⟨.debug, "d"⟩] ∧
    (run (St.init 2) exOps).dropped = [exM "c"] ∧ (run (St.init 2) exOps).raised = 0 := by decide +kernel

example : (Line.msg ⟨.debug, "d"⟩).call = (some "debug", "d") := rfl

/-! ## Lost messages are reported -/

/-- **C79 (reports).** Python is told of losses at most as often as messages are lost.  If a message was lost then
Python has been told, or the flag for that is set, or the call that lost it has not returned.  A loss is reported as a
warning. -/
theorem C79_told (cap : Nat) (ops : List Op) :
    reports (run (St.init cap) ops).out ≤ (run (St.init cap) ops).dropped.length ∧
    ((run (St.init cap) ops).dropped ≠ [] → 0 < reports (run (St.init cap) ops).out ∨
      0 < (run (St.init cap) ops).late ∨ (run (St.init cap) ops).overflowed = true) ∧
    Line.overflow.call = (some "warning", "Log ringbuffer was full - some log messages were dropped") := by
  have v := run_inv ops (init_inv cap)
  exact ⟨by have := v.counts; omega, v.told, rfl⟩

/-- **C79 (reports, what holds).** If the flag is set while the thread is at work or has a message to work on, then
Python is told of the loss after at most 3074 steps of the thread, whatever is logged meanwhile, unless the
process ends. -/
theorem C79_reported_partial (cap : Nat) (pre ops : List Op) (hstop : Op.stop ∉ pre) (hstop' : Op.stop ∉ ops)
    (ho : (run (St.init cap) pre).overflowed = true)
    (hbusy : (run (St.init cap) pre).pc ≠ .pop ∨ (run (St.init cap) pre).items ≠ []) (h : 3074 ≤ works ops) :
    reports (run (St.init cap) pre).out < reports (run (run (St.init cap) pre) ops).out := by
  have v := run_inv pre (init_inv cap)
  have hs : ∀ (l : List Op) (s : St), Op.stop ∉ l → s.stopped = false → (run s l).stopped = false := by
    intro l
    induction l with
    | nil => intro s _ h; exact h
    | cons op l ih =>
      intro s hn h
      exact ih (step s op) (fun hm => hn (List.mem_cons_of_mem _ hm))
        ((step_stopped (fun he => hn (by rw [he]; exact List.mem_cons_self))).trans h)
  refine reported ops v (hs pre _ hstop rfl) hstop' ho hbusy ?_
  have := hold_le _ v.pass
  unfold until_
  split <;> omega

/-- Three messages for a ring of two; the flag is set while the thread has not begun. -/
example : (run (St.init 2) [.emit (exM "a"), .emit (exM "b"), .emit (exM "c"), .flag]).overflowed = true ∧
    (run (St.init 2) [.emit (exM "a"), .emit (exM "b"), .emit (exM "c"), .flag]).items ≠ [] := by decide

/-- What one would like: if a message is lost, Python is told later on, as long as all threads keep going and the
process does not end. -/
def C79_statement : Prop :=
  ∀ (cap : Nat), 0 < cap → ∀ sched : Nat → Op, Fair sched → (∀ i, sched i ≠ .stop) →
    ∀ i, (trace (St.init cap) sched i).dropped ≠ (trace (St.init cap) sched (i + 1)).dropped →
    ∃ j, i < j ∧ reports (trace (St.init cap) sched i).out < reports (trace (St.init cap) sched j).out

/-- The call that loses a message sets the flag only after the thread has logged everything and gone to sleep. -/
def exLate : Nat → Op := fun i =>
  if i = 0 then .emit (exM "a") else if i = 1 then .emit (exM "b") else if i < 8 then .work
  else if i % 2 = 0 then .flag else .work

/-- The state in which everything stays. -/
def exStuck : St :=
  { items := [], space := 1, stopped := false, overflowed := true, pc := .pop, late := 0, raised := 0
    out := [.msg (exM "a")], accepted := [exM "a"], dropped := [exM "b"] }

theorem exLate_stuck (k : Nat) : trace (St.init 1) exLate (9 + k) = exStuck := by
  induction k with
  | zero => decide +kernel
  | succ k ih =>
    show step (trace (St.init 1) exLate (9 + k)) (exLate (9 + k)) = exStuck
    rw [ih]
    have h0 : 9 + k ≠ 0 := by omega
    have h1 : 9 + k ≠ 1 := by omega
    have h2 : ¬ 9 + k < 8 := by omega
    unfold exLate
    rw [if_neg h0, if_neg h1, if_neg h2]
    split
    · decide
    · decide

theorem C79_violated : ¬ C79_statement := by
  intro h
  have hfair : Fair exLate := by
    constructor
    · intro i
      refine ⟨2 * i + 9, by omega, ?_⟩
      unfold exLate
      rw [if_neg (by omega), if_neg (by omega), if_neg (by omega), if_neg (by omega)]
    · intro i
      refine ⟨2 * i + 8, by omega, ?_⟩
      unfold exLate
      rw [if_neg (by omega), if_neg (by omega), if_neg (by omega), if_pos (by omega)]
  have hns : ∀ i, exLate i ≠ .stop := by
    intro i
    unfold exLate
    split
    · intro h; cases h
    · split
      · intro h; cases h
      · split
        · intro h; cases h
        · split <;> (intro h; cases h)
  obtain ⟨j, hj, hr⟩ := h 1 Nat.one_pos exLate hfair hns 1 (by decide +kernel)
  have hout : reports (trace (St.init 1) exLate j).out = 0 := by
    rcases Nat.lt_or_ge j 9 with hlt | hge
    · have : ∀ j, j < 9 → reports (trace (St.init 1) exLate j).out = 0 := by decide +kernel
      exact this j hlt
    · obtain ⟨k, rfl⟩ : ∃ k, j = 9 + k := ⟨j - 9, by omega⟩
      rw [exLate_stuck k]
      decide
  rw [hout] at hr
  omega

/-- When the process ends, a loss may never be reported, even if the flag was set in time. -/
theorem C79_stop_silent : ∃ ops : List Op, (run (St.init 1) ops).pc = .ended ∧ (run (St.init 1) ops).dropped ≠ [] ∧
    (run (St.init 1) ops).overflowed = true ∧ reports (run (St.init 1) ops).out = 0 :=
  ⟨[.emit (exM "a"), .emit (exM "b"), .flag, .stop, .work, .work, .work, .work], by decide⟩

/-- After the end of the logger, a call fails with an exception. -/
theorem C79_after (cap : Nat) (pre : List Op) (m : Msg) :
    (step (run (St.init cap) (pre ++ [.stop])) (.emit m)).raised = (run (St.init cap) (pre ++ [.stop])).raised + 1 := by
  have : ∀ (l : List Op) (s : St), (run s (l ++ [.stop])).stopped = true := by
    intro l
    induction l with
    | nil => intro s; rfl
    | cons op l ih => intro s; exact ih (step s op)
  show (emit _ m).raised = _
  unfold emit
  rw [if_pos (this pre _)]

end Spead2.PyLog
