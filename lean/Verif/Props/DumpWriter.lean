import Verif.Lemmas.DumpProgress

/-!
# C77: what mcdump writes to its file

`B` is the size of a buffer (8 MiB in the code), `mem` what the buffers contain at the start, so that
their number is the depth, and `calls` the arguments of the calls of `write`.  Schedules interleave the
main thread, the writer threads and the kernel's answers to their writes in any way.
-/

namespace Spead2.Dump

variable {B : Nat} {mem : List (List UInt8)} {threads : Nat} {calls : List (List UInt8)}

theorem reach_inv (hB : 0 < B) (hm : mem ≠ []) (hl : ∀ d ∈ mem, d.length = B) (ht : 0 < threads) (ops : List Op) :
    Inv B mem.length calls.flatten (run B mem.length (St.init mem threads calls) ops) := by
  refine run_inv hB (init_inv hB mem hm hl threads calls) ?_ ops
  intro h
  have := congrArg List.length h
  simp [St.init] at this
  omega

/-- **C77.** When `close` has returned, the file has exactly the bytes that were written, in the order of
the calls, however the threads were scheduled, however many bytes each `pwrite` wrote and whatever was in
the buffers before. -/
theorem C77_contents (hB : 0 < B) (hm : mem ≠ []) (hl : ∀ d ∈ mem, d.length = B) (ht : 0 < threads)
    (ops : List Op) (h : Closed (run B mem.length (St.init mem threads calls) ops)) :
    (run B mem.length (St.init mem threads calls) ops).file = calls.flatten :=
  (reach_inv hB hm hl ht ops).shut h

theorem failed_step {D : Nat} {s : St} (h : Failed s) (op : Op) : Failed (step B D s op) := by
  obtain ⟨b, d, h⟩ := h
  refine ⟨b, d, ?_⟩
  cases op with
  | main =>
    show _ ∈ (mainStep B D s).workers
    unfold mainStep callStep copyStep pushStep popStep joinStep
    dsimp only
    repeat' split
    all_goals exact h
  | destroy => show _ ∈ (destroyStep s).workers; unfold destroyStep; split <;> exact h
  | worker t a =>
    show _ ∈ (workerStep B D s t a).workers
    unfold workerStep
    split
    · rename_i ht
      unfold takeStep
      split
      · exact mem_set_of_ne h ht (by simp)
      · split
        · exact mem_set_of_ne h ht (by simp)
        · exact h
    · rename_i ht
      split
      · cases a with
        | eintr => exact h
        | error => exact mem_set_of_ne h ht (by simp)
        | wrote n => exact mem_set_of_ne h ht (by simp)
      · unfold giveBack
        split
        · exact mem_set_of_ne h ht (by simp)
        · exact h
    · exact h

theorem failed_run {D : Nat} {s : St} (h : Failed s) (ops : List Op) : Failed (run B D s ops) := by
  induction ops generalizing s with
  | nil => exact h
  | cons op ops ih => exact ih (failed_step h op)

theorem run_append (D : Nat) (s : St) (a b : List Op) : run B D s (a ++ b) = run B D (run B D s a) b := by
  induction a generalizing s with
  | nil => rfl
  | cons op ops ih => exact ih _

/-- **C77.** A failed write is never silent: the capture is told to stop, and `close` never returns. -/
theorem C77_not_silent (hB : 0 < B) (hm : mem ≠ []) (hl : ∀ d ∈ mem, d.length = B) (ht : 0 < threads)
    (ops : List Op) (h : Failed (run B mem.length (St.init mem threads calls) ops)) :
    (run B mem.length (St.init mem threads calls) ops).stop = true ∧
    ∀ more, ¬ Closed (run B mem.length (run B mem.length (St.init mem threads calls) ops) more) := by
  refine ⟨(reach_inv hB hm hl ht ops).stopFlag h, ?_⟩
  intro more hc
  rw [← run_append] at hc
  have v := reach_inv (calls := calls) hB hm hl ht (ops ++ more)
  have hf := failed_run (B := B) (D := mem.length) h more
  rw [← run_append] at hf
  obtain ⟨b, d, hf⟩ := hf
  have := v.allFin (by rcases hc with hc | hc <;> simp [hc]) _ hf
  cases this

/-- **C77.** No buffer is lost or made up: each is in the ring, free, with a thread, or being filled.  So
pushing a buffer to either ring never blocks. -/
theorem C77_buffers (hB : 0 < B) (hm : mem ≠ []) (hl : ∀ d ∈ mem, d.length = B) (ht : 0 < threads)
    (ops : List Op) (s : St) (hs : s = run B mem.length (St.init mem threads calls) ops) :
    s.ring.length + s.free.length + (s.workers.filter busy).length + (if s.pc.isPop then 0 else 1) = mem.length ∧
    (∀ rest c, s.pc = .push rest c → s.ring.length < mem.length) ∧
    (∀ b d, Worker.writing b d ∈ s.workers → s.free.length < mem.length) := by
  subst hs
  have v := reach_inv (calls := calls) hB hm hl ht ops
  have hc := v.count
  refine ⟨by rw [← List.countP_eq_length_filter]; exact hc, ?_, ?_⟩
  · intro rest c hp
    rw [hp] at hc
    simp only [Pc.isPop, Bool.false_eq_true, if_false] at hc
    omega
  · intro b d hw
    have : 0 < (run B mem.length (St.init mem threads calls) ops).workers.countP busy :=
      List.countP_pos_iff.mpr ⟨_, hw, rfl⟩
    omega

/-- **C77.** The options always give at least one buffer and one thread, and no more memory than was
asked for unless that is less than one buffer. -/
theorem C77_sizes (hB : 0 < B) (diskBuffer : Nat) (diskAffinity : List Nat) :
    0 < computeDepth B diskBuffer ∧ 0 < numThreads diskAffinity ∧
    computeDepth B diskBuffer * B ≤ max diskBuffer B ∧
    (B ≤ diskBuffer → diskBuffer < (computeDepth B diskBuffer + 1) * B) := by
  have hd : diskBuffer / B * B ≤ diskBuffer := Nat.div_mul_le_self _ _
  have hlt : diskBuffer < (diskBuffer / B + 1) * B := by
    have := Nat.lt_div_mul_add hB (a := diskBuffer)
    rw [Nat.add_mul, Nat.one_mul]
    exact this
  unfold computeDepth numThreads
  dsimp only
  refine ⟨?_, ?_, ?_, ?_⟩
  · split
    · omega
    · rename_i h; exact Nat.pos_of_ne_zero h
  · split
    · omega
    · rename_i h; exact List.length_pos_iff.mpr h
  · split
    · omega
    · omega
  · intro h
    split
    · rename_i h0
      have := Nat.div_pos h hB
      omega
    · exact hlt

/-- The full claim about the end: if every thread goes on running, mcdump ends properly, also when a write
fails. -/
def C77_ends_statement : Prop :=
  ∀ (B : Nat) (mem : List (List UInt8)) (threads : Nat) (calls : List (List UInt8)) (sched : Nat → Op),
    0 < B → mem ≠ [] → (∀ d ∈ mem, d.length = B) → 0 < threads → Fair threads sched →
    ∃ k, (trace B mem.length (St.init mem threads calls) sched k).pc = .ended

theorem trace_run (D : Nat) (s : St) (sched : Nat → Op) (k : Nat) :
    trace B D s sched k = run B D s ((List.range k).map sched) := by
  induction k with
  | zero => rfl
  | succ k ih =>
    rw [List.range_succ, List.map_append, run_append, ← ih]
    rfl

theorem noErrors_step {D : Nat} {s : St} (h : ¬ Failed s) {op : Op} (hop : ∀ t, op ≠ .worker t .error) :
    ¬ Failed (step B D s op) := by
  rintro ⟨b, d, hf⟩
  apply h
  refine ⟨b, d, ?_⟩
  cases op with
  | main =>
    have hf' : Worker.failed b d ∈ (mainStep B D s).workers := hf
    unfold mainStep callStep copyStep pushStep popStep joinStep at hf'
    dsimp only at hf'
    repeat' split at hf'
    all_goals exact hf'
  | destroy =>
    have hf' : Worker.failed b d ∈ (destroyStep s).workers := hf
    unfold destroyStep at hf'
    split at hf' <;> exact hf'
  | worker t a =>
    have hset : ∀ {w : Worker}, Worker.failed b d ∈ s.workers.set t w → (∀ b d, w ≠ .failed b d) →
        Worker.failed b d ∈ s.workers := by
      intro w h hw
      rcases List.mem_or_eq_of_mem_set h with h | h
      · exact h
      · exact absurd h.symm (hw b d)
    have hf' : Worker.failed b d ∈ (workerStep B D s t a).workers := hf
    unfold workerStep at hf'
    split at hf'
    · unfold takeStep at hf'
      split at hf'
      · exact hset hf' (by simp)
      · split at hf'
        · exact hset hf' (by simp)
        · exact hf'
    · split at hf'
      · cases a with
        | eintr => exact hf'
        | error => exact absurd rfl (hop t)
        | wrote n => exact hset hf' (by simp)
      · unfold giveBack at hf'
        split at hf'
        · exact hset hf' (by simp)
        · exact hf'
    · exact hf'

/-- **C77, part.** If every thread goes on running and no write fails, `close` returns and mcdump ends,
with everything in the file.  Missing: the case that a write fails, see below. -/
theorem C77_ends_partial (hB : 0 < B) (hm : mem ≠ []) (hl : ∀ d ∈ mem, d.length = B) (ht : 0 < threads)
    (sched : Nat → Op) (hfair : Fair threads sched) (hne : NoErrors sched) :
    ∃ k, (trace B mem.length (St.init mem threads calls) sched k).pc = .ended ∧
      (trace B mem.length (St.init mem threads calls) sched k).file = calls.flatten := by
  have hinv : ∀ k, Inv B mem.length calls.flatten (trace B mem.length (St.init mem threads calls) sched k) := by
    intro k
    rw [trace_run]
    exact reach_inv hB hm hl ht _
  have hlen : ∀ k, (trace B mem.length (St.init mem threads calls) sched k).workers.length = threads := by
    intro k
    rw [trace_run, run_workers]
    simp [St.init]
  have hnf : ∀ k, ¬ Failed (trace B mem.length (St.init mem threads calls) sched k) := by
    intro k
    induction k with
    | zero =>
      rintro ⟨b, d, h⟩
      have := List.eq_of_mem_replicate h
      cases this
    | succ k ih => exact noErrors_step ih (hne k)
  have hmono : ∀ i n, trace B mem.length (St.init mem threads calls) sched (i + n) =
      trace B mem.length (St.init mem threads calls) sched i ∨
      weight B (trace B mem.length (St.init mem threads calls) sched (i + n)) <
      weight B (trace B mem.length (St.init mem threads calls) sched i) := by
    intro i n
    induction n with
    | zero => exact Or.inl rfl
    | succ n ih =>
      have hstep := step_weight (hinv (i + n)) (sched (i + n))
      have hd : trace B mem.length (St.init mem threads calls) sched (i + (n + 1)) =
          step B mem.length (trace B mem.length (St.init mem threads calls) sched (i + n)) (sched (i + n)) := rfl
      rw [hd]
      rcases hstep with h | h
      · rw [h]; exact ih
      · rcases ih with ih | ih
        · rw [ih] at h ⊢; exact Or.inr h
        · exact Or.inr (by omega)
  have hend : ∀ w i, weight B (trace B mem.length (St.init mem threads calls) sched i) ≤ w →
      ∃ k, (trace B mem.length (St.init mem threads calls) sched k).pc = .ended := by
    intro w
    induction w using Nat.strongRecOn with
    | ind w ih =>
      intro i hi
      by_cases hp : (trace B mem.length (St.init mem threads calls) sched i).pc = .ended
      · exact ⟨i, hp⟩
      · obtain ⟨a, hat, ha⟩ := helpful hB (List.length_pos_iff.mpr hm) (hinv i)
          (by intro h; have := hlen i; rw [h] at this; simp at this; omega) (hnf i) hp
        have hj : ∃ j, i ≤ j ∧ Acts a (sched j) := by
          cases a with
          | main => exact hfair.1 i
          | worker t => exact hfair.2.1 t (by have := hat t rfl; rw [hlen] at this; exact this) i
          | destroy => exact hfair.2.2 i
        obtain ⟨j, hij, hact⟩ := hj
        obtain ⟨n, rfl⟩ := Nat.exists_eq_add_of_le hij
        rcases hmono i n with h | h
        · have h1 := ha _ hact
          have h2 : trace B mem.length (St.init mem threads calls) sched (i + n + 1) =
              step B mem.length (trace B mem.length (St.init mem threads calls) sched i) (sched (i + n)) := by
            rw [← h]; rfl
          rw [← h2] at h1
          exact ih _ (by omega) (i + n + 1) (Nat.le_refl _)
        · exact ih _ (by omega) (i + n) (Nat.le_refl _)
  obtain ⟨k, hk⟩ := hend _ 0 (Nat.le_refl _)
  exact ⟨k, hk, (hinv k).shut (Or.inr hk)⟩

/-- **C77.** If `close` throws because a write failed, the process does not end with that error: the
destructor calls `close` again, which throws, so that the process is aborted. -/
theorem C77_abort (hB : 0 < B) (hm : mem ≠ []) (hl : ∀ d ∈ mem, d.length = B) (ht : 0 < threads)
    (ops : List Op) (h : (run B mem.length (St.init mem threads calls) ops).pc = .threw) :
    (step B mem.length (run B mem.length (St.init mem threads calls) ops) .destroy).pc = .terminated := by
  have hg := (reach_inv (calls := calls) hB hm hl ht ops).gotPos h
  show (destroyStep _).pc = _
  unfold destroyStep
  rw [h]
  simp only
  rw [if_pos hg]

/-- The main thread waits for a free buffer, and nobody is left who could give one. -/
def Stuck (s : St) : Prop :=
  (∃ r c, s.pc = .pop r c) ∧ s.free = [] ∧ ∀ w ∈ s.workers, ∃ b d, w = .failed b d

theorem stuck_step {D : Nat} {s : St} (h : Stuck s) (op : Op) : step B D s op = s := by
  obtain ⟨⟨r, c, hp⟩, hf, hw⟩ := h
  cases op with
  | main =>
    show mainStep B D s = s
    unfold mainStep popStep
    rw [hp]
    simp only [hf]
  | destroy => show destroyStep s = s; unfold destroyStep; rw [hp]
  | worker t a =>
    show workerStep B D s t a = s
    unfold workerStep
    split
    · rename_i ht
      obtain ⟨b, d, h⟩ := hw _ (List.mem_of_getElem? ht)
      cases h
    · rename_i ht
      obtain ⟨b, d, h⟩ := hw _ (List.mem_of_getElem? ht)
      cases h
    · rfl

/-- The schedule of the counterexample: a buffer is filled and passed on, writing it fails; then everybody
runs again and again. -/
def hangSched : Nat → Op
  | 0 => .main
  | 1 => .main
  | 2 => .main
  | 3 => .worker 0 (.wrote 1)
  | 4 => .worker 0 .error
  | n + 5 => if n % 3 = 0 then .main else if n % 3 = 1 then .worker 0 (.wrote 1) else .destroy

theorem hangSched_fair : Fair 1 hangSched := by
  refine ⟨fun i => ?_, fun t ht i => ?_, fun i => ?_⟩
  · refine ⟨3 * i + 5, by omega, ?_⟩
    show hangSched (3 * i + 5) = .main
    simp only [hangSched]
    rw [if_pos (by omega)]
  · refine ⟨3 * i + 1 + 5, by omega, 1, by omega, ?_⟩
    have : t = 0 := by omega
    subst this
    simp only [hangSched]
    rw [if_neg (by omega), if_pos (by omega)]
  · refine ⟨3 * i + 2 + 5, by omega, ?_⟩
    show hangSched (3 * i + 2 + 5) = .destroy
    simp only [hangSched]
    rw [if_neg (by omega), if_neg (by omega)]

/-- With one buffer (`--disk-buffer` of less than 16 MiB) and one thread, a buffer full of data of which
the write fails leaves mcdump stuck, whatever the size of the buffer. -/
theorem hang (B : Nat) (hB : 0 < B) :
    Stuck (trace B 1 (St.init [List.replicate B 0] 1 [List.replicate B 7]) hangSched 5) := by
  obtain ⟨n, rfl⟩ : ∃ n, B = n + 1 := ⟨B - 1, by omega⟩
  have h1 : trace (n + 1) 1 (St.init [List.replicate (n + 1) 0] 1 [List.replicate (n + 1) 7]) hangSched 2 =
      { calls := [], pc := .push [] false, cur := ⟨0, List.replicate (n + 1) 7, n + 1⟩, total := 0, ring := [], ringStopped := false, free := [], workers := [.idle], got := 0, stop := false, file := [] } := by
    simp [trace, hangSched, step, mainStep, callStep, St.init, copyStep, Buf.append, List.replicate_succ]
  have h2 : trace (n + 1) 1 (St.init [List.replicate (n + 1) 0] 1 [List.replicate (n + 1) 7]) hangSched 5 =
      { calls := [], pc := .pop [] false, cur := ⟨0, List.replicate (n + 1) 7, n + 1⟩, total := 0 + (n + 1), ring := [], ringStopped := false, free := [], workers := [.failed ⟨0, List.replicate (n + 1) 7, n + 1⟩ 0], got := 0, stop := true, file := [] } := by
    show step _ _ (step _ _ (step _ _ (trace (n + 1) 1 _ hangSched 2) _) _) _ = _
    rw [h1]
    simp [hangSched, step, mainStep, pushStep, workerStep, takeStep, setWorker, pwriteStep]
  rw [h2]
  exact ⟨⟨[], false, rfl⟩, rfl, by intro w hw; exact ⟨_, _, by simpa using hw⟩⟩

theorem ended_step {D : Nat} {s : St} (h : s.pc = .ended) (op : Op) : (step B D s op).pc = .ended := by
  cases op with
  | main => show (mainStep B D s).pc = _; unfold mainStep; rw [h]; exact h
  | destroy => show (destroyStep s).pc = _; unfold destroyStep; rw [h]; exact h
  | worker t a =>
    show (workerStep B D s t a).pc = _
    unfold workerStep takeStep giveBack setWorker
    repeat' split
    all_goals first | exact h | skip
    cases a <;> exact h

theorem hang_never (B : Nat) (hB : 0 < B) (k : Nat) :
    (trace B 1 (St.init [List.replicate B 0] 1 [List.replicate B 7]) hangSched k).pc ≠ .ended := by
  have hst := hang B hB
  have hstay : ∀ n, trace B 1 (St.init [List.replicate B 0] 1 [List.replicate B 7]) hangSched (5 + n) =
      trace B 1 (St.init [List.replicate B 0] 1 [List.replicate B 7]) hangSched 5 := by
    intro n
    induction n with
    | zero => rfl
    | succ n ih =>
      show step B 1 (trace B 1 _ hangSched (5 + n)) _ = _
      rw [ih]
      exact stuck_step hst _
  intro hk
  have hend : ∀ n, (trace B 1 (St.init [List.replicate B 0] 1 [List.replicate B 7]) hangSched (k + n)).pc = .ended := by
    intro n
    induction n with
    | zero => exact hk
    | succ n ih => exact ended_step ih _
  have h1 := hend 5
  rw [Nat.add_comm, hstay] at h1
  obtain ⟨⟨r, c, hp⟩, _⟩ := hst
  rw [hp] at h1
  cases h1

/-- **C77 is violated**: when writing to the disk fails mcdump can hang.  The main thread waits for a free
buffer for ever, and no interrupt helps because it does not look at the flag. -/
theorem C77_ends_violated : ¬ C77_ends_statement := by
  intro h
  have hB : 0 < 8 * 1024 * 1024 := by omega
  generalize 8 * 1024 * 1024 = B at hB
  obtain ⟨k, hk⟩ := h B [List.replicate B 0] 1 [List.replicate B 7] hangSched hB (List.cons_ne_nil _ _)
    (by intro d hd; rw [List.mem_singleton.mp hd]; exact List.length_replicate) (by omega) hangSched_fair
  exact hang_never B hB k hk

/-- Two buffers of two bytes, one thread: five bytes in three calls; the thread writes a byte or two at a
time and is interrupted once. -/
def exampleOps : List Op :=
  let w (n : Nat) : Op := .worker 0 (.wrote n)
  [.main, .main, .main, .main, .main, w 1, .main, w 1, .worker 0 .eintr, .main, w 5, w 1, w 1, .main, .main, w 2, w 2,
   .main, .main, .main, .main, .main, .main, .main, .main, .main, w 1, w 1, w 1, .main, w 1, w 2, w 1, w 1, .main, .main, .main,
   .main, .main, .main, .main, .main, .main, .main, w 1, w 1, w 1, w 1, .main, .main, .main, .main, .main, .main, w 1, .main, .main, .main, .main]

/-- A case that meets the hypotheses of `C77_contents`. -/
example : Closed (run 2 2 (St.init [[9, 9], [8, 8]] 1 [[1, 2, 3], [], [4, 5]]) exampleOps) ∧
    (run 2 2 (St.init [[9, 9], [8, 8]] 1 [[1, 2, 3], [], [4, 5]]) exampleOps).file = [1, 2, 3, 4, 5] := by
  unfold Closed
  decide +kernel

/-- A case that meets those of `C77_abort` and `C77_not_silent`: two buffers of two bytes, and the write of
the only byte fails. -/
example : (run 2 2 (St.init [[9, 9], [8, 8]] 1 [[1]])
      [.main, .main, .main, .main, .main, .main, .main, .worker 0 (.wrote 1), .worker 0 .error, .main]).pc = .threw := by
  decide +kernel

/-- A fair schedule without errors, as in `C77_ends_partial`. -/
example : Fair 1 (fun n => if n % 3 = 0 then .main else if n % 3 = 1 then .worker 0 (.wrote 1) else .destroy) ∧
    NoErrors (fun n => if n % 3 = 0 then .main else if n % 3 = 1 then .worker 0 (.wrote 1) else .destroy) := by
  refine ⟨⟨fun i => ?_, fun t ht i => ?_, fun i => ?_⟩, fun i t => ?_⟩
  · exact ⟨3 * i, by omega, by show (if _ then _ else _) = _; rw [if_pos (by omega)]⟩
  · have : t = 0 := by omega
    subst this
    exact ⟨3 * i + 1, by omega, 1, by omega, by show (if _ then _ else _) = _; rw [if_neg (by omega), if_pos (by omega)]⟩
  · exact ⟨3 * i + 2, by omega, by show (if _ then _ else _) = _; rw [if_neg (by omega), if_neg (by omega)]⟩
  · show (if _ then _ else _) ≠ _
    split
    · simp
    · split <;> simp

end Spead2.Dump
