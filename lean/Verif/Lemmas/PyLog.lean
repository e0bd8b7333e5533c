import Verif.Spec.PyLog
import Mathlib.Data.List.Basic

/-!
# Invariant of the Python logger
-/

namespace Spead2.PyLog

/-- Slot that is not free although its message was taken. -/
def taking : Pc → Nat
  | .put _ _ => 1
  | _ => 0

def passOk : Pc → Prop
  | .put _ k => k < 1024
  | .log _ k => k < 1024
  | .loop k => 1 ≤ k ∧ k ≤ 1024
  | _ => True

structure Inv (cap : Nat) (s : St) : Prop where
  order : messages s.out ++ inHand s.pc ++ s.items = s.accepted
  space : s.space + s.items.length + taking s.pc = cap
  pass : passOk s.pc
  counts : reports s.out + s.late + (if s.overflowed then 1 else 0) ≤ s.dropped.length
  told : s.dropped ≠ [] → 0 < reports s.out ∨ 0 < s.late ∨ s.overflowed = true
  ended : s.pc = .ended → s.stopped = true ∧ s.items = []
  calm : s.stopped = false → s.raised = 0

theorem init_inv (cap : Nat) : Inv cap (St.init cap) :=
  ⟨rfl, rfl, True.intro, Nat.le_refl _, fun h => absurd rfl h, (fun h => by cases h), fun _ => rfl⟩

theorem messages_append (a b : List Line) : messages (a ++ b) = messages a ++ messages b := by
  unfold messages
  rw [List.filterMap_append]

theorem reports_append (a b : List Line) : reports (a ++ b) = reports a + reports b := by
  unfold reports
  rw [List.count_append]

theorem emit_inv {cap : Nat} {s : St} (v : Inv cap s) (m : Msg) : Inv cap (emit s m) := by
  have h3 := v.space
  have h4 := v.counts
  unfold emit
  split
  · rename_i hs
    exact ⟨v.order, v.space, v.pass, v.counts, v.told, v.ended, fun h => by rw [hs] at h; cases h⟩
  · rename_i hs
    split
    · refine ⟨v.order, v.space, v.pass, ?_, ?_, v.ended, v.calm⟩
      · show reports s.out + (s.late + 1) + _ ≤ (s.dropped ++ [m]).length
        rw [List.length_append]
        simp only [List.length_cons, List.length_nil]
        omega
      · intro _
        exact Or.inr (Or.inl (Nat.succ_pos _))
    · refine ⟨?_, ?_, v.pass, v.counts, v.told, ?_, v.calm⟩
      · show messages s.out ++ inHand s.pc ++ (s.items ++ [m]) = s.accepted ++ [m]
        rw [← List.append_assoc, v.order]
      · show s.space - 1 + (s.items ++ [m]).length + taking s.pc = cap
        rw [List.length_append]
        simp only [List.length_cons, List.length_nil]
        omega
      · intro h
        exact absurd (v.ended h).1 hs

theorem flag_inv {cap : Nat} {s : St} (v : Inv cap s) : Inv cap (flag s) := by
  have h4 := v.counts
  unfold flag
  split
  · exact v
  · refine ⟨v.order, v.space, v.pass, ?_, fun _ => Or.inr (Or.inr rfl), v.ended, v.calm⟩
    show reports s.out + (s.late - 1) + 1 ≤ s.dropped.length
    split at h4 <;> omega

theorem work_inv {cap : Nat} {s : St} (v : Inv cap s) : Inv cap (work s) := by
  have h1 := v.order
  have h3 := v.space
  have h4 := v.counts
  have h5 := v.pass
  unfold work
  split
  · rename_i hp
    rw [hp] at h1 h3
    split
    · rename_i m r hi
      rw [hi] at h1 h3
      refine ⟨?_, ?_, (by show 0 < 1024; omega), v.counts, v.told, (fun h => by cases h), v.calm⟩
      · show messages s.out ++ [m] ++ r = s.accepted
        rw [← h1]
        simp [inHand]
      · show s.space + r.length + 1 = cap
        simp only [taking, List.length_cons] at h3
        omega
    · rename_i hi
      split
      · rename_i hs
        exact ⟨h1, h3, True.intro, v.counts, v.told, fun _ => ⟨hs, hi⟩, v.calm⟩
      · exact v
  · rename_i m k hp
    rw [hp] at h1 h3 h5
    refine ⟨h1, ?_, h5, v.counts, v.told, (fun h => by cases h), v.calm⟩
    show s.space + 1 + s.items.length + 0 = cap
    simp only [taking] at h3
    omega
  · rename_i m k hp
    rw [hp] at h1 h3 h5
    refine ⟨?_, h3, ?_, ?_, ?_, (fun h => by cases h), v.calm⟩
    · show messages (s.out ++ [.msg m]) ++ [] ++ s.items = s.accepted
      rw [messages_append, ← h1]
      simp [inHand, messages]
    · show 1 ≤ k + 1 ∧ k + 1 ≤ 1024
      have : k < 1024 := h5
      omega
    · show reports (s.out ++ [.msg m]) + _ + _ ≤ _
      rw [reports_append]
      exact h4
    · show s.dropped ≠ [] → 0 < reports (s.out ++ [.msg m]) ∨ _
      rw [reports_append]
      exact v.told
  · rename_i k hp
    rw [hp] at h1 h3 h5
    split
    · rename_i hk
      split
      · rename_i m r hi
        rw [hi] at h1 h3
        refine ⟨?_, ?_, hk, v.counts, v.told, (fun h => by cases h), v.calm⟩
        · show messages s.out ++ [m] ++ r = s.accepted
          rw [← h1]
          simp [inHand]
        · show s.space + r.length + 1 = cap
          simp only [taking, List.length_cons] at h3
          omega
      · rename_i hi
        split
        · rename_i hs
          exact ⟨h1, h3, True.intro, v.counts, v.told, fun _ => ⟨hs, hi⟩, v.calm⟩
        · exact ⟨h1, h3, True.intro, v.counts, v.told, (fun h => by cases h), v.calm⟩
    · exact ⟨h1, h3, True.intro, v.counts, v.told, (fun h => by cases h), v.calm⟩
  · rename_i hp
    rw [hp] at h1 h3
    split
    · rename_i ho
      rw [ho] at h4
      refine ⟨?_, h3, True.intro, ?_, ?_, (fun h => by cases h), v.calm⟩
      · show messages (s.out ++ [.overflow]) ++ [] ++ s.items = s.accepted
        rw [messages_append, ← h1]
        simp [inHand, messages]
      · show reports (s.out ++ [.overflow]) + s.late + 0 ≤ s.dropped.length
        rw [reports_append]
        show reports s.out + 1 + s.late + 0 ≤ s.dropped.length
        simp only [if_true] at h4
        omega
      · intro _
        refine Or.inl ?_
        show 0 < reports (s.out ++ [.overflow])
        rw [reports_append]
        exact Nat.succ_pos _
    · exact ⟨h1, h3, True.intro, v.counts, v.told, (fun h => by cases h), v.calm⟩
  · exact v

theorem step_inv {cap : Nat} {s : St} (v : Inv cap s) (op : Op) : Inv cap (step s op) := by
  cases op with
  | emit m => exact emit_inv v m
  | flag => exact flag_inv v
  | work => exact work_inv v
  | stop => exact ⟨v.order, v.space, v.pass, v.counts, v.told, fun h => ⟨rfl, (v.ended h).2⟩, fun h => by cases h⟩

theorem run_inv {cap : Nat} (ops : List Op) : ∀ {s : St}, Inv cap s → Inv cap (run s ops) := by
  induction ops with
  | nil => intro s v; exact v
  | cons op ops ih => intro s v; exact ih (step_inv v op)

/-! ## How long the thread is busy -/

/-- Steps until the thread waits for messages again. -/
def hold : Pc → Nat
  | .pop => 0
  | .put _ k => 3 * (1024 - k) + 1
  | .log _ k => 3 * (1024 - k)
  | .loop k => 3 * (1024 - k) + 2
  | .check => 1
  | .ended => 0

theorem hold_le (pc : Pc) (h : passOk pc) : hold pc ≤ 3073 := by
  cases pc with
  | loop k => have h : 1 ≤ k ∧ k ≤ 1024 := h; show 3 * (1024 - k) + 2 ≤ 3073; omega
  | _ => simp only [hold]; omega

theorem work_hold {s : St} (hp : passOk s.pc) (h : s.pc ≠ .pop) (he : s.pc ≠ .ended) : hold (work s).pc < hold s.pc := by
  unfold work
  split
  · rename_i hpc; exact absurd hpc h
  · rename_i m k hpc; rw [hpc]; show 3 * (1024 - k) < 3 * (1024 - k) + 1; omega
  · rename_i m k hpc
    rw [hpc] at hp ⊢
    have : k < 1024 := hp
    show 3 * (1024 - (k + 1)) + 2 < 3 * (1024 - k)
    omega
  · rename_i k hpc
    rw [hpc]
    split
    · split
      · show 3 * (1024 - k) + 1 < 3 * (1024 - k) + 2; omega
      · split
        · show 0 < 3 * (1024 - k) + 2; omega
        · show 1 < 3 * (1024 - k) + 2; omega
    · show 1 < 3 * (1024 - k) + 2; omega
  · rename_i hpc
    rw [hpc]
    split <;> exact Nat.one_pos
  · rename_i hpc; exact absurd hpc he

theorem step_pc {s : St} {op : Op} (h : op ≠ .work) : (step s op).pc = s.pc := by
  cases op with
  | emit m =>
    show (emit s m).pc = s.pc
    unfold emit
    split
    · rfl
    · split <;> rfl
  | flag =>
    show (flag s).pc = s.pc
    unfold flag
    split <;> rfl
  | work => exact absurd rfl h
  | stop => rfl

theorem step_out {s : St} {op : Op} (h : op ≠ .work) : (step s op).out = s.out := by
  cases op with
  | emit m =>
    show (emit s m).out = s.out
    unfold emit
    split
    · rfl
    · split <;> rfl
  | flag =>
    show (flag s).out = s.out
    unfold flag
    split <;> rfl
  | work => exact absurd rfl h
  | stop => rfl

theorem step_overflowed {s : St} {op : Op} (h : op ≠ .work) (ho : s.overflowed = true) : (step s op).overflowed = true := by
  cases op with
  | emit m =>
    show (emit s m).overflowed = true
    unfold emit
    split
    · exact ho
    · split <;> exact ho
  | flag =>
    show (flag s).overflowed = true
    unfold flag
    split
    · exact ho
    · rfl
  | work => exact absurd rfl h
  | stop => exact ho

theorem step_items {s : St} {op : Op} (h : op ≠ .work) (hi : s.items ≠ []) : (step s op).items ≠ [] := by
  cases op with
  | emit m =>
    show (emit s m).items ≠ []
    unfold emit
    split
    · exact hi
    · split
      · exact hi
      · show s.items ++ [m] ≠ []
        simp
  | flag =>
    show (flag s).items ≠ []
    unfold flag
    split <;> exact hi
  | work => exact absurd rfl h
  | stop => exact hi

theorem step_stopped {s : St} {op : Op} (h : op ≠ .stop) : (step s op).stopped = s.stopped := by
  cases op with
  | emit m =>
    show (emit s m).stopped = s.stopped
    unfold emit
    split
    · rfl
    · split <;> rfl
  | flag =>
    show (flag s).stopped = s.stopped
    unfold flag
    split <;> rfl
  | work =>
    show (work s).stopped = s.stopped
    unfold work
    repeat' split
    all_goals rfl
  | stop => exact absurd rfl h

theorem work_out (s : St) : ∃ l, (work s).out = s.out ++ l := by
  unfold work
  split
  · split
    · exact ⟨[], (List.append_nil _).symm⟩
    · split <;> exact ⟨[], (List.append_nil _).symm⟩
  · exact ⟨[], (List.append_nil _).symm⟩
  · exact ⟨_, rfl⟩
  · split
    · split
      · exact ⟨[], (List.append_nil _).symm⟩
      · split <;> exact ⟨[], (List.append_nil _).symm⟩
    · exact ⟨[], (List.append_nil _).symm⟩
  · split
    · exact ⟨_, rfl⟩
    · exact ⟨[], (List.append_nil _).symm⟩
  · exact ⟨[], (List.append_nil _).symm⟩

theorem reports_step (s : St) (op : Op) : reports s.out ≤ reports (step s op).out := by
  by_cases h : op = .work
  · subst h
    obtain ⟨l, hl⟩ := work_out s
    show _ ≤ reports (work s).out
    rw [hl, reports_append]
    omega
  · exact Nat.le_of_eq (by rw [step_out h])

theorem reports_run (ops : List Op) : ∀ s : St, reports s.out ≤ reports (run s ops).out := by
  induction ops with
  | nil => intro s; exact Nat.le_refl _
  | cons op ops ih => intro s; exact Nat.le_trans (reports_step s op) (ih (step s op))

/-- The thread waits for messages again, or has finished, before long. -/
theorem releases {cap : Nat} (ops : List Op) : ∀ {s : St}, Inv cap s → hold s.pc ≤ works ops →
    ∃ n, (run s (ops.take n)).pc = .pop ∨ (run s (ops.take n)).pc = .ended := by
  induction ops with
  | nil =>
    intro s v h
    have h0 : hold s.pc = 0 := Nat.le_zero.mp h
    refine ⟨0, ?_⟩
    show s.pc = .pop ∨ s.pc = .ended
    have hp := v.pass
    cases hpc : s.pc with
    | pop => exact Or.inl rfl
    | ended => exact Or.inr rfl
    | put m k => rw [hpc] at h0; simp only [hold] at h0; omega
    | log m k => rw [hpc] at h0 hp; simp only [hold, passOk] at h0 hp; omega
    | loop k => rw [hpc] at h0; simp only [hold] at h0; omega
    | check => rw [hpc] at h0; simp only [hold] at h0; omega
  | cons op ops ih =>
    intro s v h
    by_cases hpc : s.pc = .pop ∨ s.pc = .ended
    · exact ⟨0, hpc⟩
    · have hle : hold (step s op).pc ≤ works ops := by
        by_cases hw : op = .work
        · subst hw
          have := work_hold v.pass (fun h => hpc (Or.inl h)) (fun h => hpc (Or.inr h))
          show hold (work s).pc ≤ works ops
          have h2 : works (Op.work :: ops) = works ops + 1 := by simp [works]
          omega
        · rw [step_pc hw]
          have h2 : works (op :: ops) = works ops := by simp [works, hw]
          omega
      obtain ⟨n, hn⟩ := ih (step_inv v op) hle
      exact ⟨n + 1, by rw [List.take_succ_cons]; exact hn⟩

/-- Steps until the next look at `overflowed`. -/
def until_ (s : St) : Nat := if s.pc = .pop then 3074 else hold s.pc

/-- A message about lost messages follows. -/
theorem reported {cap : Nat} (ops : List Op) : ∀ {s : St}, Inv cap s → s.stopped = false → Op.stop ∉ ops →
    s.overflowed = true → (s.pc ≠ .pop ∨ s.items ≠ []) → until_ s ≤ works ops →
    reports s.out < reports (run s ops).out := by
  induction ops with
  | nil =>
    intro s v hs _ ho hpi h
    have h0 : until_ s = 0 := Nat.le_zero.mp h
    have hp := v.pass
    unfold until_ at h0
    split at h0
    · cases h0
    · rename_i hpc
      cases hpc' : s.pc with
      | pop => exact absurd hpc' hpc
      | ended => have := (v.ended hpc').1; rw [hs] at this; cases this
      | put m k => rw [hpc'] at h0; simp only [hold] at h0; omega
      | log m k => rw [hpc'] at h0 hp; simp only [hold, passOk] at h0 hp; omega
      | loop k => rw [hpc'] at h0; simp only [hold] at h0; omega
      | check => rw [hpc'] at h0; simp only [hold] at h0; omega
  | cons op ops ih =>
    intro s v hs hns ho hpi h
    have hop : op ≠ .stop := fun he => hns (by rw [he]; exact List.mem_cons_self)
    have hns' : Op.stop ∉ ops := fun hm => hns (List.mem_cons_of_mem _ hm)
    show reports s.out < reports (run (step s op) ops).out
    by_cases hw : op = .work
    · subst hw
      have hsum : works (Op.work :: ops) = works ops + 1 := by simp [works]
      have v' : Inv cap (work s) := step_inv v .work
      have hs' : (work s).stopped = false := (step_stopped (op := .work) (by intro h; cases h)).trans hs
      by_cases hck : s.pc = .check
      · have hr : reports (work s).out = reports s.out + 1 := by
          unfold work
          rw [hck]
          simp only [ho, if_true]
          rw [reports_append]
          rfl
        have := reports_run ops (work s)
        show reports s.out < reports (run (work s) ops).out
        omega
      · -- the flag stays and the message has not been written yet
        have hstep : (work s).overflowed = true ∧ (work s).pc ≠ .pop ∧ reports s.out ≤ reports (work s).out ∧
            hold (work s).pc + 1 ≤ until_ s := by
          refine ⟨?_, ?_, reports_step s .work, ?_⟩
          · unfold work
            split
            · split
              · exact ho
              · split <;> exact ho
            · exact ho
            · exact ho
            · split
              · split
                · exact ho
                · split <;> exact ho
              · exact ho
            · rename_i hpc; exact absurd hpc hck
            · exact ho
          · unfold work
            split
            · rename_i hpc
              split
              · intro h; cases h
              · rename_i hi; exact absurd hi (hpi.resolve_left (fun h => h hpc))
            · intro h; cases h
            · intro h; cases h
            · split
              · split
                · intro h; cases h
                · split <;> (intro h; cases h)
              · intro h; cases h
            · rename_i hpc; exact absurd hpc hck
            · rename_i hpc
              have := (v.ended hpc).1
              rw [hs] at this
              cases this
          · unfold until_
            split
            · have := hold_le _ v'.pass
              omega
            · rename_i hpc
              refine work_hold v.pass hpc ?_
              intro he
              have := (v.ended he).1
              rw [hs] at this
              cases this
        obtain ⟨h1, h2, h3, h4⟩ := hstep
        have := ih v' hs' hns' h1 (Or.inl h2) (by unfold until_; rw [if_neg h2]; omega)
        show reports s.out < reports (run (work s) ops).out
        omega
    · have hsum : works (op :: ops) = works ops := by simp [works, hw]
      have := ih (step_inv v op) ((step_stopped hop).trans hs) hns' (step_overflowed hw ho)
        (by
          rcases hpi with h | h
          · exact Or.inl (by rw [step_pc hw]; exact h)
          · exact Or.inr (step_items hw h))
        (by unfold until_ at h ⊢; rw [step_pc hw]; omega)
      rw [step_out hw] at this
      exact this

/-! ## The end -/

/-- Steps until the thread has ended. -/
def rest (s : St) : Nat :=
  5 * s.items.length + (match s.pc with
    | .pop => 1
    | .put _ _ => 5
    | .log _ _ => 4
    | .loop _ => 3
    | .check => 2
    | .ended => 0)

theorem work_rest {s : St} (hs : s.stopped = true) (he : s.pc ≠ .ended) : rest (work s) < rest s := by
  unfold work
  split
  · rename_i hpc
    split
    · rename_i m r hi
      unfold rest
      simp only [hpc, hi, List.length_cons]
      omega
    · rename_i hi
      rw [if_pos hs]
      unfold rest
      simp only [hpc, hi, List.length_nil]
      omega
  · rename_i m k hpc; unfold rest; simp only [hpc]; omega
  · rename_i m k hpc; unfold rest; simp only [hpc]; omega
  · rename_i k hpc
    split
    · split
      · rename_i m r hi; unfold rest; simp only [hpc, hi, List.length_cons]; omega
      · rename_i hi
        unfold rest; simp only [hpc, hi, hs, if_true, List.length_nil]; omega
    · unfold rest; simp only [hpc]; omega
  · rename_i hpc
    split <;> · unfold rest; simp only [hpc]; omega
  · rename_i hpc; exact absurd hpc he

theorem step_rest {s : St} (hs : s.stopped = true) {op : Op} (hw : op ≠ .work) :
    rest (step s op) = rest s ∧ (step s op).stopped = true := by
  cases op with
  | emit m =>
    show rest (emit s m) = rest s ∧ (emit s m).stopped = true
    unfold emit
    rw [if_pos hs]
    exact ⟨rfl, hs⟩
  | flag =>
    show rest (flag s) = rest s ∧ (flag s).stopped = true
    unfold flag
    split
    · exact ⟨rfl, hs⟩
    · exact ⟨rfl, hs⟩
  | work => exact absurd rfl hw
  | stop => exact ⟨rfl, rfl⟩

theorem work_ended {s : St} (h : s.pc = .ended) : work s = s := by
  unfold work
  rw [h]

theorem run_ended (ops : List Op) : ∀ {s : St}, s.pc = .ended → (run s ops).pc = .ended := by
  induction ops with
  | nil => intro s h; exact h
  | cons op ops ih =>
    intro s h
    refine ih ?_
    by_cases hw : op = .work
    · subst hw
      show (work s).pc = .ended
      rw [work_ended h, h]
    · rw [step_pc hw, h]

theorem ends (ops : List Op) : ∀ {s : St}, s.stopped = true → rest s ≤ works ops → (run s ops).pc = .ended := by
  induction ops with
  | nil =>
    intro s hs h
    have h0 : rest s = 0 := Nat.le_zero.mp h
    unfold rest at h0
    cases hpc : s.pc with
    | ended => exact hpc
    | _ => rw [hpc] at h0; simp only at h0; omega
  | cons op ops ih =>
    intro s hs h
    by_cases he : s.pc = .ended
    · exact run_ended (op :: ops) he
    · by_cases hw : op = .work
      · subst hw
        have := work_rest hs he
        have hsum : works (Op.work :: ops) = works ops + 1 := by simp [works]
        exact ih (s := work s) ((step_stopped (op := .work) (by intro h; cases h)).trans hs) (by omega)
      · have hsum : works (op :: ops) = works ops := by simp [works, hw]
        obtain ⟨h1, h2⟩ := step_rest hs hw
        exact ih h2 (by omega)

end Spead2.PyLog
