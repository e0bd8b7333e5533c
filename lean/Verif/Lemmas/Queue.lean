import Verif.Spec.Queue
import Verif.Lemmas.Ring
import Verif.Lemmas.Multi

/-!
# Invariants of the unbounded queue
-/

namespace Spead2
open Spec

variable {α : Type}

/-- Units of the semaphore held by a thread. -/
def held : UPc α → Nat
  | .popBody => 1 | .tryBody true => 1 | _ => 0

def stopUnit (b : Bool) : Nat := if b then 1 else 0

/-- The phase of a thread. -/
def QPhase : UPc α → Phase α → Prop
  | .idle, p => p = .idle
  | .push v, p => p = .called (.push v true)
  | .getSem, p => p = .called (.pop true)
  | .popBody, p => p = .called (.pop true)
  | .tryGet, p => p = .called (.pop false)
  | .tryBody _, p => p = .called (.pop false)
  | .stop, p => p = .called .stop

/-- What holds of an event, given the history before it and the phase of its thread. -/
def QEvOk (pre : List (REv α)) (p : Phase α) : REv α → Prop
  | .push _ _ => isClosed pre = false
  | .ret _ .stopped => isClosed pre = true ∧ (∀ b, p = .called (.pop b) → popped pre = pushed pre)
  | .ret _ .empty => isClosed pre = false ∧ popped pre = pushed pre
  | _ => True

/-- The invariant of the queue; `h` is the number of units held by threads. -/
structure QInv (q : UQueue α) (tr : List (REv α)) (h : Nat) : Prop where
  sem : q.sem + h = q.data.length + stopUnit q.stopped
  flow : popped tr ++ q.data = pushed tr
  closed : isClosed tr = q.stopped
  sealed' : isSealed tr = q.stopped

theorem hist_one [DecidableEq α] {P : List (REv α) → Phase α → REv α → Prop} {pre : List (REv α)} {t : Nat} {p : Phase α} (hp : Phase.after (eventsOf t pre) .idle = some p)
    {x : REv α} (hx : x.thread = t) (h : P pre p x) : HistP P pre [x] := ⟨⟨p, by rw [hx]; exact hp, h⟩, trivial⟩

theorem after_snoc [DecidableEq α] {pre : List (REv α)} {t : Nat} {p p1 : Phase α} (hp : Phase.after (eventsOf t pre) .idle = some p)
    {x : REv α} (hx : x.thread = t) (hn : p.next x = some p1) : Phase.after (eventsOf t (pre ++ [x])) .idle = some p1 := by
  rw [eventsOf_append, Phase.after_append, hp]
  have : eventsOf t [x] = [x] := by simp [eventsOf, hx]
  rw [this]
  simp [Phase.after, hn]

theorem hist_cons [DecidableEq α] {P : List (REv α) → Phase α → REv α → Prop} {pre ev : List (REv α)} {t : Nat} {p : Phase α} (hp : Phase.after (eventsOf t pre) .idle = some p)
    {x : REv α} (hx : x.thread = t) (h : P pre p x) (h2 : HistP P (pre ++ [x]) ev) : HistP P pre (x :: ev) := ⟨⟨p, by rw [hx]; exact hp, h⟩, h2⟩

theorem queue_act_spec [DecidableEq α] {q : UQueue α} {tr : List (REv α)} {b t : Nat} {pc : UPc α} {p : Phase α} (inv : QInv q tr (b + held pc))
    (hp : Phase.after (eventsOf t tr) .idle = some p) (hpc : QPhase pc p) :
    ∃ q' pc' ev, q.act t pc = some (q', pc', ev) ∧ QInv q' (tr ++ ev) (b + held pc') ∧ (∀ x ∈ ev, x.thread = t) ∧
      (∃ p', Phase.after ev p = some p' ∧ QPhase pc' p') ∧ HistP QEvOk tr ev := by
  have hsem := inv.sem
  have take : ∀ (blk : Bool), p = .called (.pop blk) → held pc = 1 → ∃ q' ev, q.take t = some (q', ev) ∧ QInv q' (tr ++ ev) (b + 0) ∧ (∀ x ∈ ev, x.thread = t) ∧
      (∃ p', Phase.after ev p = some p' ∧ QPhase (.idle : UPc α) p') ∧ HistP QEvOk tr ev := by
    intro blk hpp hh
    rw [hh] at hsem
    unfold UQueue.take
    cases hd : q.data with
    | nil =>
      rw [hd] at hsem
      simp only
      have hst : q.stopped = true := by
        cases hs : q.stopped with
        | true => rfl
        | false => rw [hs] at hsem; simp [stopUnit] at hsem
      rw [if_pos hst]
      have hfl := inv.flow
      rw [hd, List.append_nil] at hfl
      refine ⟨_, _, rfl, ⟨?_, ?_, ?_, ?_⟩, by simp [REv.thread], ⟨.idle, ?_, rfl⟩, hist_one hp rfl ⟨by rw [inv.closed]; exact hst, fun _ _ => hfl⟩⟩
      · simp only [List.length_nil] at hsem ⊢; omega
      · rw [popped_append, pushed_append]; simpa [popped, pushed] using hfl
      · rw [isClosed_append]; simpa [isClosed] using inv.closed
      · rw [isSealed_append]; simpa [isSealed] using inv.sealed'
      · subst hpp
        cases blk <;> rfl
    | cons v rest =>
      rw [hd] at hsem
      simp only
      have hfl := inv.flow
      rw [hd] at hfl
      subst hpp
      refine ⟨_, _, rfl, ⟨?_, ?_, ?_, ?_⟩, by simp [REv.thread], ⟨.idle, by cases blk <;> simp [Phase.after, Phase.next], rfl⟩, hist_cons hp rfl trivial (hist_one (after_snoc hp rfl rfl) rfl trivial)⟩
      · simp only [List.length_cons] at hsem ⊢; omega
      · rw [popped_append, pushed_append, ← hfl]; simp [popped, pushed]
      · rw [isClosed_append]; simpa [isClosed] using inv.closed
      · rw [isSealed_append]; simpa [isSealed] using inv.sealed'
  cases pc with
  | idle => exact ⟨q, _, _, rfl, by simpa using inv, by simp, ⟨p, rfl, hpc⟩, trivial⟩
  | push v =>
    have hpc : p = .called (.push v true) := hpc
    subst hpc
    simp only [UQueue.act, UQueue.push]
    cases hs : q.stopped with
    | true =>
      rw [if_pos rfl]
      refine ⟨_, _, _, rfl, ⟨hsem, ?_, ?_, ?_⟩, by simp [REv.thread], ⟨.idle, rfl, rfl⟩, hist_one hp rfl ⟨by rw [inv.closed]; exact hs, fun _ h => by cases h⟩⟩
      · rw [popped_append, pushed_append]; simpa [popped, pushed] using inv.flow
      · rw [isClosed_append]; simpa [isClosed] using inv.closed
      · rw [isSealed_append]; simpa [isSealed] using inv.sealed'
    | false =>
      rw [if_neg (by simp)]
      have hcl := inv.closed
      have hsl := inv.sealed'
      have hsem := hsem
      rw [hs] at hcl hsl hsem
      refine ⟨_, _, _, rfl, ⟨?_, ?_, ?_, ?_⟩, by simp [REv.thread], ⟨.idle, by simp [Phase.after, Phase.next], rfl⟩,
        hist_cons hp rfl (by show isClosed tr = false; rw [inv.closed]; exact hs) (hist_one (after_snoc hp rfl (by simp [Phase.next]; rfl)) rfl trivial)⟩
      · simp only [List.length_append, List.length_cons, List.length_nil, held] at hsem ⊢; omega
      · rw [popped_append, pushed_append, ← inv.flow]; simp [popped, pushed]
      · rw [isClosed_append, hcl]; rfl
      · rw [isSealed_append, hsl]; rfl
  | getSem =>
    simp only [UQueue.act]
    by_cases h0 : 0 < q.sem
    · rw [if_pos h0]
      exact ⟨_, _, _, rfl, ⟨by simp only [held] at hsem ⊢; omega, by simpa using inv.flow, by simpa using inv.closed, by simpa using inv.sealed'⟩, by simp, ⟨p, rfl, hpc⟩, trivial⟩
    · rw [if_neg h0]
      exact ⟨q, _, _, rfl, by simpa using inv, by simp, ⟨p, rfl, hpc⟩, trivial⟩
  | popBody =>
    obtain ⟨q', ev, h1, h2⟩ := take true hpc rfl
    simp only [UQueue.act, h1]
    exact ⟨q', _, ev, rfl, h2⟩
  | tryGet =>
    simp only [UQueue.act]
    by_cases h0 : 0 < q.sem
    · rw [if_pos h0]
      exact ⟨_, _, _, rfl, ⟨by simp only [held] at hsem ⊢; omega, by simpa using inv.flow, by simpa using inv.closed, by simpa using inv.sealed'⟩, by simp, ⟨p, rfl, hpc⟩, trivial⟩
    · rw [if_neg h0]
      exact ⟨q, _, _, rfl, by rw [List.append_nil]; exact inv, by simp, ⟨p, rfl, hpc⟩, trivial⟩
  | tryBody ok =>
    cases ok with
    | true =>
      obtain ⟨q', ev, h1, h2⟩ := take false hpc rfl
      simp only [UQueue.act, h1]
      exact ⟨q', _, ev, rfl, h2⟩
    | false =>
      have hpc : p = .called (.pop false) := hpc
      subst hpc
      simp only [UQueue.act]
      cases hd : q.data with
      | nil =>
        have hfl := inv.flow
        rw [hd, List.append_nil] at hfl
        simp only [List.isEmpty_nil, if_true]
        cases hs : q.stopped with
        | true =>
          refine ⟨q, _, _, rfl, ⟨hsem, ?_, ?_, ?_⟩, by simp [REv.thread], ⟨.idle, rfl, rfl⟩, hist_one hp rfl ⟨by rw [inv.closed]; exact hs, fun _ _ => hfl⟩⟩
          · rw [popped_append, pushed_append]; simpa [popped, pushed] using inv.flow
          · rw [isClosed_append]; simpa [isClosed] using inv.closed
          · rw [isSealed_append]; simpa [isSealed] using inv.sealed'
        | false =>
          refine ⟨q, _, _, rfl, ⟨hsem, ?_, ?_, ?_⟩, by simp [REv.thread], ⟨.idle, rfl, rfl⟩, hist_one hp rfl ⟨by rw [inv.closed]; exact hs, hfl⟩⟩
          · rw [popped_append, pushed_append]; simpa [popped, pushed] using inv.flow
          · rw [isClosed_append]; simpa [isClosed] using inv.closed
          · rw [isSealed_append]; simpa [isSealed] using inv.sealed'
      | cons v rest =>
        simp only [List.isEmpty_cons]
        rw [if_neg (by simp)]
        exact ⟨q, _, _, rfl, by rw [List.append_nil]; exact inv, by simp, ⟨_, rfl, rfl⟩, trivial⟩
  | stop =>
    have hpc : p = .called .stop := hpc
    subst hpc
    simp only [UQueue.act, UQueue.stop]
    have hh : HistP QEvOk tr [.close t, .seal t, .ret t (.flag true)] :=
      hist_cons hp rfl trivial (hist_cons (after_snoc hp rfl rfl) rfl trivial (hist_one (after_snoc (after_snoc hp rfl rfl) rfl rfl) rfl trivial))
    cases hs : q.stopped with
    | true =>
      rw [if_pos rfl]
      refine ⟨q, _, _, rfl, ⟨hsem, ?_, ?_, ?_⟩, by simp [REv.thread], ⟨.idle, by simp [Phase.after, Phase.next], rfl⟩, hh⟩
      · rw [popped_append, pushed_append]; simpa [popped, pushed] using inv.flow
      · rw [isClosed_append, hs]; simp [isClosed]
      · rw [isSealed_append, hs]; simp [isSealed]
    | false =>
      rw [if_neg (by simp)]
      refine ⟨_, _, _, rfl, ⟨?_, ?_, ?_, ?_⟩, by simp [REv.thread], ⟨.idle, by simp [Phase.after, Phase.next], rfl⟩, hh⟩
      · rw [hs] at hsem; simp only [held, stopUnit] at hsem ⊢; simp at hsem ⊢; omega
      · rw [popped_append, pushed_append]; simpa [popped, pushed] using inv.flow
      · rw [isClosed_append]; simp [isClosed]
      · rw [isSealed_append]; simp [isSealed]

/-- The invariant of the system. -/
structure QSys [DecidableEq α] (s : UState α) (tr : List (REv α)) : Prop where
  inv : QInv s.queue tr (wsum held s.threads)
  phase : ∀ (t : Nat) (pc : UPc α), s.threads[t]? = some pc → ∃ p, Phase.after (eventsOf t tr) .idle = some p ∧ QPhase pc p
  hist : HistP QEvOk [] tr

theorem QSys.update [DecidableEq α] {s : UState α} {tr ev : List (REv α)} (sys : QSys s tr) {q' : UQueue α} {t : Nat} {pc pc' : UPc α} {p p' : Phase α} (hpc : s.threads[t]? = some pc)
    (hp : Phase.after (eventsOf t tr) .idle = some p) (inv : QInv q' (tr ++ ev) (wsum held (s.threads.set t pc'))) (hev : ∀ x ∈ ev, x.thread = t)
    (hn : Phase.after ev p = some p') (hok : QPhase pc' p') (hh : HistP QEvOk tr ev) : QSys ⟨q', s.threads.set t pc'⟩ (tr ++ ev) := by
  refine ⟨inv, ?_, sys.hist.append (by simpa using hh)⟩
  intro t' pc1 hpc1
  simp only at hpc1
  by_cases he : t = t'
  · subst he
    rw [List.getElem?_set_self (List.getElem?_eq_some_iff.mp hpc).1, Option.some.injEq] at hpc1
    subst hpc1
    exact ⟨p', by rw [eventsOf_append, Phase.after_append, hp, eventsOf_same hev]; exact hn, hok⟩
  · rw [List.getElem?_set_ne he] at hpc1
    obtain ⟨p1, h1, h2⟩ := sys.phase t' pc1 hpc1
    refine ⟨p1, ?_, h2⟩
    rw [eventsOf_append, eventsOf_other hev (Ne.symm he), List.append_nil]
    exact h1

theorem queue_step_spec [DecidableEq α] {s : UState α} {tr : List (REv α)} (sys : QSys s tr) (op : UOp α) :
    ∃ s' ev, s.step op = some (s', ev) ∧ QSys s' (tr ++ ev) := by
  have stay : ∃ s' ev, some (s, ([] : List (REv α))) = some (s', ev) ∧ QSys s' (tr ++ ev) := ⟨s, [], rfl, by simpa using sys⟩
  cases op with
  | call t c =>
    simp only [UState.step]
    cases hpc : s.threads[t]? with
    | none => exact stay
    | some pc =>
      cases pc with
      | idle =>
        obtain ⟨p, h1, h2⟩ := sys.phase t _ hpc
        have h2 : p = .idle := h2
        subst h2
        refine ⟨_, _, rfl, sys.update hpc h1 ?_ (by simp [REv.thread]) (p' := .called c.toCall) rfl ?_ (hist_one h1 rfl trivial)⟩
        · have := wsum_set held hpc c.start
          have hz : held c.start = 0 := by rcases c with _ | b | _ <;> (try cases b) <;> rfl
          have inv := sys.inv
          refine ⟨?_, ?_, ?_, ?_⟩
          · have := inv.sem; simp only [held] at *; omega
          · rw [popped_append, pushed_append]; simpa [popped, pushed] using inv.flow
          · rw [isClosed_append]; simpa [isClosed] using inv.closed
          · rw [isSealed_append]; simpa [isSealed] using inv.sealed'
        · rcases c with _ | b | _ <;> (try cases b) <;> rfl
      | _ => exact stay
  | act t =>
    simp only [UState.step]
    cases hpc : s.threads[t]? with
    | none => exact stay
    | some pc =>
      simp only
      obtain ⟨p, h1, h2⟩ := sys.phase t _ hpc
      have hge := wsum_ge held hpc
      obtain ⟨q', pc', ev, k1, k2, k3, ⟨p', k4, k5⟩, k6⟩ := queue_act_spec (b := wsum held s.threads - held pc) (by rw [Nat.sub_add_cancel hge]; exact sys.inv) h1 h2
      rw [k1]
      have := wsum_set held hpc pc'
      exact ⟨_, _, rfl, sys.update hpc h1 (by rw [show wsum held (s.threads.set t pc') = wsum held s.threads - held pc + held pc' by omega]; exact k2) k3 k4 k5 k6⟩
  | fail t =>
    simp only [UState.step]
    cases hpc : s.threads[t]? with
    | none => exact stay
    | some pc =>
      cases pc with
      | tryGet =>
        obtain ⟨p, h1, h2⟩ := sys.phase t _ hpc
        have := wsum_set held hpc (.tryBody false)
        refine ⟨_, _, rfl, sys.update hpc h1 ?_ (by simp) rfl h2 trivial⟩
        rw [List.append_nil, show wsum held (s.threads.set t (.tryBody false)) = wsum held s.threads by simp only [held] at this; omega]
        exact sys.inv
      | _ => exact stay

theorem queue_new_spec [DecidableEq α] (n : Nat) : QSys (UState.new α n) [] := by
  refine ⟨⟨?_, rfl, rfl, rfl⟩, ?_, trivial⟩
  · simp only [UState.new]
    rw [wsum_zero (by intro x hx; rw [List.mem_replicate] at hx; rw [hx.2]; rfl)]
    rfl
  · intro t pc hpc
    have := List.mem_of_getElem? hpc
    simp only [UState.new, List.mem_replicate] at this
    exact ⟨.idle, rfl, by rw [this.2]; rfl⟩

theorem queue_run_spec [DecidableEq α] : ∀ (ops : List (UOp α)) {s : UState α} {tr : List (REv α)}, QSys s tr →
    ∃ s' ev, UState.run ops s = some (s', ev) ∧ QSys s' (tr ++ ev) ∧ s'.threads.length = s.threads.length
  | [], s, tr, sys => ⟨s, [], rfl, by simpa using sys, rfl⟩
  | op :: ops, s, tr, sys => by
    obtain ⟨s1, e1, h1, h2⟩ := queue_step_spec sys op
    obtain ⟨s2, e2, h3, h4, h5⟩ := queue_run_spec ops h2
    refine ⟨s2, e1 ++ e2, by simp only [UState.run, h1, h3], by rw [← List.append_assoc]; exact h4, ?_⟩
    rw [h5]
    cases op with
    | call t c => simp only [UState.step] at h1; split at h1 <;> cases h1 <;> simp
    | act t =>
      simp only [UState.step] at h1
      split at h1
      · cases h1; rfl
      · split at h1
        · cases h1
        · cases h1; simp
    | fail t => simp only [UState.step] at h1; split at h1 <;> cases h1 <;> simp

theorem queue_reach [DecidableEq α] {n : Nat} {ops : List (UOp α)} {s : UState α} {tr : List (REv α)} (h : QueueReach n ops s tr) :
    QSys s tr ∧ s.threads.length = n := by
  obtain ⟨s', ev, h1, h2, h3⟩ := queue_run_spec ops (queue_new_spec (α := α) n)
  unfold QueueReach at h
  rw [h] at h1
  cases h1
  exact ⟨by simpa using h2, by rw [h3]; simp [UState.new]⟩

/-! ### Progress -/

def qrank : UPc α → Nat
  | .idle => 0 | .push _ => 1 | .stop => 1 | .popBody => 1 | .tryBody true => 1 | .getSem => 2 | .tryGet => 2 | .tryBody false => 2

/-- The thread is between calls, or waits in `pop` for the semaphore. -/
def QSettled (q : UQueue α) (pc : UPc α) : Prop := pc = .idle ∨ (pc = .getSem ∧ q.sem = 0)

/-- After `m` actions without effect, the next action of the thread makes progress, as long as the queue stays the same. -/
def Turns (q : UQueue α) : Nat → UPc α → Prop
  | 0, pc => ∀ t q' pc' ev, q.act t pc = some (q', pc', ev) → qrank pc' < qrank pc
  | m + 1, pc => ∃ pc1, (∀ t, q.act t pc = some (q, pc1, [])) ∧ qrank pc1 = qrank pc ∧ Turns q m pc1

theorem queue_act_rank {q q' : UQueue α} {t : Nat} {pc pc' : UPc α} {ev : List (REv α)} (h : q.act t pc = some (q', pc', ev)) :
    (q' = q ∧ ev = [] ∧ qrank pc' = qrank pc) ∨ qrank pc' < qrank pc := by
  cases pc with
  | idle => cases h; exact Or.inl ⟨rfl, rfl, rfl⟩
  | push v => cases h; exact Or.inr (by simp [qrank])
  | stop => cases h; exact Or.inr (by simp [qrank])
  | getSem => simp only [UQueue.act] at h; split at h <;> cases h <;> first | exact Or.inl ⟨rfl, rfl, rfl⟩ | exact Or.inr (by simp [qrank])
  | tryGet => simp only [UQueue.act] at h; split at h <;> cases h <;> first | exact Or.inl ⟨rfl, rfl, rfl⟩ | exact Or.inr (by simp [qrank])
  | popBody => simp only [UQueue.act] at h; split at h <;> cases h; exact Or.inr (by simp [qrank])
  | tryBody ok =>
    cases ok with
    | true => simp only [UQueue.act] at h; split at h <;> cases h; exact Or.inr (by simp [qrank])
    | false => simp only [UQueue.act] at h; split at h <;> cases h <;> first | exact Or.inl ⟨rfl, rfl, rfl⟩ | exact Or.inr (by simp [qrank])

theorem queueActs_succ (sched : Nat → Nat) (n : Nat) : (queueActs sched (n + 1) : List (UOp α)) = .act (sched 0) :: queueActs (fun k => sched (k + 1)) n := by
  unfold queueActs
  rw [List.range_succ_eq_map, List.map_cons, List.map_map]
  rfl

theorem queueActs_add (sched : Nat → Nat) (n k : Nat) : (queueActs sched (n + k) : List (UOp α)) = queueActs sched n ++ queueActs (fun x => sched (n + x)) k := by
  unfold queueActs
  rw [List.range_add, List.map_append, List.map_map]
  rfl

theorem fairTo_shift {n : Nat} {sched : Nat → Nat} (h : FairTo n sched) (d : Nat) : FairTo n (fun x => sched (d + x)) := by
  intro t ht k
  obtain ⟨j, h1, h2⟩ := h t ht (d + k)
  exact ⟨j - d, by omega, by show sched (d + (j - d)) = t; rw [show d + (j - d) = j by omega]; exact h2⟩

theorem queue_run_append : ∀ {a b : List (UOp α)} {s s1 s2 : UState α} {e1 e2 : List (REv α)}, UState.run a s = some (s1, e1) → UState.run b s1 = some (s2, e2) →
    UState.run (a ++ b) s = some (s2, e1 ++ e2)
  | [], b, s, s1, s2, e1, e2, h1, h2 => by cases h1; exact h2
  | op :: a, b, s, s1, s2, e1, e2, h1, h2 => by
    simp only [UState.run, List.cons_append] at h1 ⊢
    cases hs : s.step op with
    | none => rw [hs] at h1; cases h1
    | some p =>
      obtain ⟨s', e'⟩ := p
      rw [hs] at h1
      simp only at h1 ⊢
      cases hr : UState.run a s' with
      | none => rw [hr] at h1; cases h1
      | some p =>
        obtain ⟨s'', e''⟩ := p
        rw [hr] at h1
        cases h1
        rw [queue_run_append hr h2]
        simp

/-- One action of any thread: progress, or the queue and all other threads stay the same. -/
theorem queue_act_step [DecidableEq α] {s : UState α} {tr : List (REv α)} (sys : QSys s tr) (t : Nat) :
    ∃ s' ev, s.step (.act t) = some (s', ev) ∧ (wsum qrank s'.threads < wsum qrank s.threads ∨
      (wsum qrank s'.threads = wsum qrank s.threads ∧ s'.queue = s.queue ∧ (∀ t', t' ≠ t → s'.threads[t']? = s.threads[t']?) ∧
       ∀ pc, s.threads[t]? = some pc → ∃ pc' ev', s.queue.act t pc = some (s.queue, pc', ev') ∧ s'.threads[t]? = some pc' ∧ qrank pc' = qrank pc)) := by
  obtain ⟨s', ev, h1, -⟩ := queue_step_spec sys (.act t)
  refine ⟨s', ev, h1, ?_⟩
  simp only [UState.step] at h1
  cases hpc : s.threads[t]? with
  | none =>
    rw [hpc] at h1; cases h1
    exact Or.inr ⟨rfl, rfl, fun _ _ => rfl, fun _ h => by cases h⟩
  | some pc =>
    rw [hpc] at h1
    simp only at h1
    cases ha : s.queue.act t pc with
    | none => rw [ha] at h1; cases h1
    | some p =>
      obtain ⟨q', pc', ev'⟩ := p
      rw [ha] at h1
      cases h1
      have hw := wsum_set qrank hpc pc'
      rcases queue_act_rank ha with ⟨k1, k2, k3⟩ | k
      · subst k1
        refine Or.inr ⟨by simp only; omega, rfl, fun t' ht' => by simp only; rw [List.getElem?_set_ne (Ne.symm ht')], ?_⟩
        intro pc0 h0
        cases h0
        exact ⟨pc', _, ha, by simp only; rw [List.getElem?_set_self (List.getElem?_eq_some_iff.mp hpc).1], k3⟩
      · exact Or.inl (by simp only; omega)

theorem queue_turns [DecidableEq α] {n t : Nat} (ht : t < n) : ∀ (m k : Nat) {s : UState α} {tr : List (REv α)} {pc : UPc α} {sched : Nat → Nat}, QSys s tr → FairTo n sched →
    s.threads[t]? = some pc → Turns s.queue m pc → sched k = t → ∃ j s' ev, UState.run (queueActs sched j) s = some (s', ev) ∧ wsum qrank s'.threads < wsum qrank s.threads := by
  intro m
  induction m with
  | zero =>
    intro k
    induction k with
    | zero =>
      intro s tr pc sched sys hf hpc htu hk
      obtain ⟨s', ev, h1, h2⟩ := queue_act_step sys (sched 0)
      rcases h2 with h2 | ⟨-, -, -, h2⟩
      · exact ⟨1, s', ev, by rw [queueActs_succ]; simp [UState.run, h1, queueActs], h2⟩
      · rw [hk] at h2
        obtain ⟨pc', ev', h3, h4, h5⟩ := h2 pc hpc
        have := htu _ _ _ _ h3
        omega
    | succ k ih =>
      intro s tr pc sched sys hf hpc htu hk
      obtain ⟨s', ev, h1, h2⟩ := queue_act_step sys (sched 0)
      by_cases h0 : sched 0 = t
      · rcases h2 with h2 | ⟨-, -, -, h2⟩
        · exact ⟨1, s', ev, by rw [queueActs_succ]; simp [UState.run, h1, queueActs], h2⟩
        · rw [h0] at h2
          obtain ⟨pc', ev', h3, h4, h5⟩ := h2 pc hpc
          have := htu _ _ _ _ h3
          omega
      · rcases h2 with h2 | ⟨k1, k2, k3, -⟩
        · exact ⟨1, s', ev, by rw [queueActs_succ]; simp [UState.run, h1, queueActs], h2⟩
        · obtain ⟨s1, e1, q1, sys1⟩ := queue_step_spec sys (.act (sched 0))
          rw [h1] at q1; cases q1
          obtain ⟨j, s2, e2, r1, r2⟩ := ih (sched := fun x => sched (x + 1)) sys1 (by have := fairTo_shift hf 1; simpa only [Nat.add_comm 1] using this)
            (by rw [k3 t (Ne.symm h0)]; exact hpc) (by rw [k2]; exact htu) hk
          refine ⟨j + 1, s2, ev ++ e2, ?_, by omega⟩
          rw [queueActs_succ]
          simp only [UState.run, h1, r1]
  | succ m ihm =>
    intro k
    induction k with
    | zero =>
      intro s tr pc sched sys hf hpc htu hk
      obtain ⟨s', ev, h1, h2⟩ := queue_act_step sys (sched 0)
      rcases h2 with h2 | ⟨w, h2, -, h3⟩
      · exact ⟨1, s', ev, by rw [queueActs_succ]; simp [UState.run, h1, queueActs], h2⟩
      · rw [hk] at h3
        obtain ⟨pc', ev', h4, h5, h6⟩ := h3 pc hpc
        obtain ⟨pc1, u1, u2, u3⟩ := htu
        rw [u1 t] at h4; cases h4
        obtain ⟨s1, e1, q1, sys1⟩ := queue_step_spec sys (.act (sched 0))
        rw [h1] at q1; cases q1
        have hf' : FairTo n (fun x => sched (x + 1)) := by have := fairTo_shift hf 1; simpa only [Nat.add_comm 1] using this
        obtain ⟨k', -, hk'⟩ := hf' t ht 0
        obtain ⟨j, s2, e2, r1, r2⟩ := ihm k' sys1 hf' h5 (by rw [h2]; exact u3) hk'
        refine ⟨j + 1, s2, ev ++ e2, ?_, by omega⟩
        rw [queueActs_succ]
        simp only [UState.run, h1, r1]
    | succ k ih =>
      intro s tr pc sched sys hf hpc htu hk
      obtain ⟨s', ev, h1, h2⟩ := queue_act_step sys (sched 0)
      have hf' : FairTo n (fun x => sched (x + 1)) := by have := fairTo_shift hf 1; simpa only [Nat.add_comm 1] using this
      obtain ⟨s1, e1, q1, sys1⟩ := queue_step_spec sys (.act (sched 0))
      rw [h1] at q1; cases q1
      rcases h2 with h2 | ⟨w, h2, h3, h4⟩
      · exact ⟨1, s', ev, by rw [queueActs_succ]; simp [UState.run, h1, queueActs], h2⟩
      · by_cases h0 : sched 0 = t
        · rw [h0] at h4
          obtain ⟨pc', ev', h4, h5, h6⟩ := h4 pc hpc
          obtain ⟨pc1, u1, u2, u3⟩ := htu
          rw [u1 t] at h4; cases h4
          obtain ⟨k', -, hk'⟩ := hf' t ht 0
          obtain ⟨j, s2, e2, r1, r2⟩ := ihm k' sys1 hf' h5 (by rw [h2]; exact u3) hk'
          refine ⟨j + 1, s2, ev ++ e2, ?_, by omega⟩
          rw [queueActs_succ]
          simp only [UState.run, h1, r1]
        · obtain ⟨j, s2, e2, r1, r2⟩ := ih (sched := fun x => sched (x + 1)) sys1 hf' (by rw [h3 t (Ne.symm h0)]; exact hpc) (by rw [h2]; exact htu) hk
          refine ⟨j + 1, s2, ev ++ e2, ?_, by omega⟩
          rw [queueActs_succ]
          simp only [UState.run, h1, r1]

/-- Unless all threads are settled, some thread will make progress. -/
theorem queue_ready [DecidableEq α] {s : UState α} {tr : List (REv α)} (sys : QSys s tr) (h : ¬ ∀ pc ∈ s.threads, QSettled s.queue pc) :
    ∃ (t : Nat) (pc : UPc α) (m : Nat), s.threads[t]? = some pc ∧ Turns s.queue m pc := by
  have holder : s.queue.data ≠ [] → s.queue.sem = 0 → ∃ (t : Nat) (pc : UPc α) (m : Nat), s.threads[t]? = some pc ∧ Turns s.queue m pc := by
    intro h1 h2
    have hs := sys.inv.sem
    have : 0 < s.queue.data.length := List.length_pos_iff.mpr h1
    obtain ⟨i, x, k1, k2⟩ := wsum_pos (f := held) (l := s.threads) (by omega)
    refine ⟨i, x, 0, k1, ?_⟩
    intro t q' pc' ev ha
    cases x with
    | popBody => simp only [UQueue.act] at ha; split at ha <;> cases ha; simp [qrank]
    | tryBody ok =>
      cases ok with
      | true => simp only [UQueue.act] at ha; split at ha <;> cases ha; simp [qrank]
      | false => simp [held] at k2
    | _ => simp [held] at k2
  simp only [Classical.not_forall, QSettled, not_or] at h
  obtain ⟨pc, hmem, h1, h2⟩ := h
  obtain ⟨t, ht⟩ := List.getElem?_of_mem hmem
  cases pc with
  | idle => exact absurd rfl h1
  | push v => exact ⟨t, _, 0, ht, fun _ _ _ _ ha => by cases ha; simp [qrank]⟩
  | stop => exact ⟨t, _, 0, ht, fun _ _ _ _ ha => by cases ha; simp [qrank]⟩
  | popBody => exact ⟨t, _, 0, ht, fun _ _ _ _ ha => by simp only [UQueue.act] at ha; split at ha <;> cases ha; simp [qrank]⟩
  | getSem =>
    have : 0 < s.queue.sem := by simp at h2; omega
    refine ⟨t, _, 0, ht, fun _ _ _ _ ha => ?_⟩
    simp only [UQueue.act, if_pos this] at ha
    cases ha; simp [qrank]
  | tryGet =>
    by_cases h0 : 0 < s.queue.sem
    · refine ⟨t, _, 0, ht, fun _ _ _ _ ha => ?_⟩
      simp only [UQueue.act, if_pos h0] at ha
      cases ha; simp [qrank]
    · by_cases hd : s.queue.data = []
      · refine ⟨t, _, 1, ht, .tryBody false, fun _ => by simp only [UQueue.act, if_neg h0], rfl, fun _ _ _ _ ha => ?_⟩
        simp only [UQueue.act, hd, List.isEmpty_nil, if_true] at ha
        cases ha; simp [qrank]
      · exact holder hd (by omega)
  | tryBody ok =>
    cases ok with
    | true => exact ⟨t, _, 0, ht, fun _ _ _ _ ha => by simp only [UQueue.act] at ha; split at ha <;> cases ha; simp [qrank]⟩
    | false =>
      by_cases hd : s.queue.data = []
      · refine ⟨t, _, 0, ht, fun _ _ _ _ ha => ?_⟩
        simp only [UQueue.act, hd, List.isEmpty_nil, if_true] at ha
        cases ha; simp [qrank]
      · by_cases h0 : 0 < s.queue.sem
        · refine ⟨t, _, 1, ht, .tryGet, fun _ => ?_, rfl, fun _ _ _ _ ha => ?_⟩
          · simp only [UQueue.act]
            rw [if_neg (by simpa using hd)]
          · simp only [UQueue.act, if_pos h0] at ha
            cases ha; simp [qrank]
        · exact holder hd (by omega)

theorem queue_fair [DecidableEq α] {n : Nat} : ∀ (w : Nat) {s : UState α} {tr : List (REv α)}, QSys s tr → s.threads.length = n → wsum qrank s.threads ≤ w →
    ∀ {sched : Nat → Nat}, FairTo n sched → ∃ k s' ev, UState.run (queueActs sched k) s = some (s', ev) ∧ QSys s' (tr ++ ev) ∧ s'.threads.length = n ∧
      ∀ pc ∈ s'.threads, QSettled s'.queue pc := by
  intro w
  induction w with
  | zero =>
    intro s tr sys hlen hw sched hf
    by_cases hall : ∀ pc ∈ s.threads, QSettled s.queue pc
    · exact ⟨0, s, [], rfl, by simpa using sys, hlen, hall⟩
    · obtain ⟨t, pc, m, h1, h2⟩ := queue_ready sys hall
      have hlt : t < n := by rw [← hlen]; exact (List.getElem?_eq_some_iff.mp h1).1
      obtain ⟨k, -, hk⟩ := hf t hlt 0
      obtain ⟨j, s1, e1, r1, r2⟩ := queue_turns hlt m k sys hf h1 h2 hk
      omega
  | succ w ih =>
    intro s tr sys hlen hw sched hf
    by_cases hall : ∀ pc ∈ s.threads, QSettled s.queue pc
    · exact ⟨0, s, [], rfl, by simpa using sys, hlen, hall⟩
    · obtain ⟨t, pc, m, h1, h2⟩ := queue_ready sys hall
      have hlt : t < n := by rw [← hlen]; exact (List.getElem?_eq_some_iff.mp h1).1
      obtain ⟨k, -, hk⟩ := hf t hlt 0
      obtain ⟨j, s1, e1, r1, r2⟩ := queue_turns hlt m k sys hf h1 h2 hk
      obtain ⟨s1', e1', q1, sys1, hl1⟩ := queue_run_spec (queueActs sched j) sys
      rw [r1] at q1; cases q1
      obtain ⟨k2, s2, e2, t1, t2, t3, t4⟩ := ih sys1 (hl1.trans hlen) (by omega) (fairTo_shift hf j)
      exact ⟨j + k2, s2, e1 ++ e2, by rw [queueActs_add]; exact queue_run_append r1 t1, by rw [← List.append_assoc]; exact t2, t3, t4⟩

end Spead2
