import Verif.Lemmas.PyAsyncRun

/-!
# Stopping, and cancelling a call that waits
-/

namespace Spead2.Aio

variable {σ α β ε : Type}

/-- What the callback of the descriptor leaves alone. -/
theorem ready_futs {g : Gate σ α β ε} {s t : St σ α β} (h : AInv g s) (hst : ready g s = some t) :
    t.phase = s.phase ∧ t.arg = s.arg ∧ t.next = s.next ∧
      ∀ j, t.fut j = s.fut j ∨ (s.fut j = .pending ∧ t.fut j ≠ .pending) := by
  unfold ready at hst
  split at hst
  · obtain ⟨u, hu, iu, uw, ur, uf, up, ua, un, _⟩ := clearDone_some h
    rw [hu, Option.bind_some] at hst
    unfold readyWith at hst
    cases hw : u.waiters with
    | nil =>
      simp only [hw] at hst
      cases hst
      exact ⟨up, ua, un, fun j => Or.inl (by rw [uf])⟩
    | cons w ws =>
      have hmem : w ∈ u.waiters := by rw [hw]; simp
      have hpend : s.fut w = .pending :=
        dropDone_head s.fut s.waiters (by rw [← uw]; exact hw)
      obtain ⟨a, ha⟩ := iu.args w (iu.bound w hmem)
      simp only [hw, ha] at hst
      cases hat : g.attempt u.res a with
      | blocked =>
        simp only [hat] at hst
        cases hst
        exact ⟨up, ua, un, fun j => Or.inl (by rw [uf])⟩
      | stopped =>
        simp only [hat] at hst
        cases hst
        obtain ⟨_, ea, en, ep, ef⟩ := stopAll_same u
        refine ⟨by rw [ep, up], by rw [ea, ua], by rw [en, un], fun j => ?_⟩
        rw [ef]
        rcases setExceptions_spec u.waiters u.fut iu.nodup j with he | ⟨_, hp, he⟩
        · left; rw [he, uf]
        · right; exact ⟨by rw [← uf]; exact hp, by rw [he]; simp⟩
      | ok r b =>
        simp only [hat, serve] at hst
        split at hst
        · cases hst
        · cases hst
          refine ⟨up, ua, un, fun j => ?_⟩
          show put u.fut w (.result b) j = _ ∨ _ ∧ put u.fut w (.result b) j ≠ _
          by_cases hj : j = w
          · subst hj
            right
            exact ⟨hpend, by rw [put_self]; simp⟩
          · left; rw [put_ne _ _ hj, uf]
  · cases hst
    exact ⟨rfl, rfl, rfl, fun j => Or.inl rfl⟩

theorem ready_mono {g : Gate σ α β ε} {s t : St σ α β} (h : AInv g s) (hst : ready g s = some t)
    {j : Nat} (hj : Waiting t j) : Waiting s j := by
  obtain ⟨hp, _, _, hf⟩ := ready_futs h hst
  refine ⟨by rw [← hp]; exact hj.1, ?_⟩
  rcases hf j with he | ⟨he, _⟩
  · rw [← he]; exact hj.2
  · exact he

/-- On a stopped ringbuffer the callback leaves the ringbuffer as it is and only sets exceptions. -/
theorem ready_stopped {g : Gate σ α β ε} {s t : St σ α β} (h : AInv g s)
    (hs : ∀ a, g.attempt s.res a = .stopped) (hst : ready g s = some t) :
    t.res = s.res ∧ ∀ j, t.fut j = s.fut j ∨ t.fut j = .exception := by
  unfold ready at hst
  split at hst
  · obtain ⟨u, hu, iu, uw, ur, uf, up, ua, un, _⟩ := clearDone_some h
    rw [hu, Option.bind_some] at hst
    unfold readyWith at hst
    cases hw : u.waiters with
    | nil =>
      simp only [hw] at hst
      cases hst
      exact ⟨ur, fun j => Or.inl (by rw [uf])⟩
    | cons w ws =>
      obtain ⟨a, ha⟩ := iu.args w (iu.bound w (by rw [hw]; simp))
      simp only [hw, ha, ur, hs a] at hst
      cases hst
      obtain ⟨er, _, _, _, ef⟩ := stopAll_same u
      refine ⟨by rw [er, ur], fun j => ?_⟩
      rw [ef]
      rcases setExceptions_spec u.waiters u.fut iu.nodup j with he | ⟨_, _, he⟩
      · left; rw [he, uf]
      · right; exact he
  · cases hst; exact ⟨rfl, fun j => Or.inl rfl⟩

theorem Waiting.lt {g : Gate σ α β ε} {s : St σ α β} (h : AInv g s) {j : Nat} (hj : Waiting s j) :
    j < s.next := h.bound j (h.mem j hj)

theorem stop_rounds {g : Gate σ α β ε} (hg : g.Lawful) (n : Nat) {s : St σ α β} (h : AInv g s)
    (hs : ∀ a, g.attempt s.res a = .stopped) (k : Nat) (hk : ∀ j, Waiting s j → k ≤ j)
    (hn : s.next ≤ k + n) :
    ∃ t, run g s (List.replicate n .ready) = some t ∧ t.phase = s.phase ∧
      (∀ j, t.fut j = s.fut j ∨ t.fut j = .exception) ∧ ∀ j, ¬ Waiting t j := by
  induction n generalizing s k with
  | zero =>
    refine ⟨s, rfl, rfl, fun j => Or.inl rfl, fun j hj => ?_⟩
    have := hk j hj
    have := hj.lt h
    omega
  | succ n ih =>
    obtain ⟨t, ht, it⟩ := ready_inv hg h
    obtain ⟨hres, hfs⟩ := ready_stopped h hs ht
    have hnext := (ready_futs h ht).2.2.1
    have hk' : ∀ j, Waiting t j → k + 1 ≤ j := by
      intro j hj
      have hsj := ready_mono h ht hj
      have h1 := hk j hsj
      rcases Nat.lt_or_ge k j with hlt | hge
      · omega
      · have hjk : j = k := by omega
        subst hjk
        obtain ⟨a, ha⟩ := h.args j (hsj.lt h)
        obtain ⟨t', ht', _, hcase⟩ := ready_first hg h hsj
          (fun i hi hw => by have := hk i hw; omega) ha (by rw [hs a]; simp)
        have : t' = t := by rw [ht] at ht'; cases ht'; rfl
        subst this
        rcases hcase with ⟨r, b, hok, _⟩ | ⟨_, _, hex, _⟩
        · rw [hs a] at hok; cases hok
        · have := hj.2; rw [hex] at this; cases this
    obtain ⟨u, hu, hup, huf, hw⟩ :=
      ih it (by rw [hres]; exact hs) (k + 1) hk' (by rw [hnext]; omega)
    refine ⟨u, ?_, hup.trans (ready_futs h ht).1, fun j => ?_, hw⟩
    swap
    · rcases huf j with he | he
      · rcases hfs j with hf | hf
        · left; rw [he, hf]
        · right; rw [he, hf]
      · exact Or.inr he
    rw [List.replicate_succ, run]
    show (ready g s).bind _ = _
    rw [ht]
    exact hu

/-! ## a queue in which nobody was cancelled -/

/-- Nobody in the queue is done. -/
def AllPending (s : St σ α β) : Prop := ∀ w ∈ s.waiters, s.fut w = .pending

theorem allPending_step {g : Gate σ α β ε} {s t : St σ α β} (h : AInv g s)
    (hk : AllPending s) (op : Op α ε) (ho : ∀ j, op ≠ .cancel j) (hst : step g s op = some t) :
    AllPending t := by
  cases op with
  | env e => cases hst; exact hk
  | cancel j => exact absurd rfl (ho j)
  | resume j =>
    cases hst
    intro w hw
    rw [(resume_same s j).2.2.2.1] at hw
    rw [(resume_same s j).2.2.2.2.2.2]
    exact hk w hw
  | call a =>
    obtain ⟨u, hu, iu, uw, ur, uf, up, ua, un, _⟩ := clearDone_some h
    simp only [step, call, hu, Option.map_some, Option.some.injEq] at hst
    subst hst
    have hku : AllPending u := by
      intro w hw
      rw [uw] at hw
      rw [uf]
      exact hk w ((dropDone_sublist s.fut s.waiters).subset hw)
    have enq : AllPending (enqueue { u with arg := put u.arg u.next (some a) }) := by
      intro w hw
      show put u.fut u.next .pending w = .pending
      by_cases hin : w = u.next
      · subst hin; exact put_self _ _ _
      · rw [put_ne _ _ hin]
        have hw' : w ∈ u.waiters ++ [u.next] := hw
        rcases List.mem_append.mp hw' with hw' | hw'
        · exact hku w hw'
        · exact absurd (List.mem_singleton.mp hw') hin
    unfold waitFrom
    by_cases hw : u.waiters = []
    · rw [if_pos hw]
      cases hat : g.attempt u.res a with
      | blocked => simpa only [hat] using enq
      | stopped => simp only [hat]; exact hku
      | ok r b => simp only [hat]; exact hku
    · rw [if_neg hw]; exact enq
  | ready =>
    simp only [step, ready] at hst
    split at hst
    · obtain ⟨u, hu, iu, uw, ur, uf, up, ua, un, _⟩ := clearDone_some h
      rw [hu, Option.bind_some] at hst
      have hku : AllPending u := by
        intro w hw
        rw [uw] at hw
        rw [uf]
        exact hk w ((dropDone_sublist s.fut s.waiters).subset hw)
      unfold readyWith at hst
      cases hw : u.waiters with
      | nil =>
        simp only [hw] at hst
        cases hst
        exact hku
      | cons w ws =>
        have hmem : w ∈ u.waiters := by rw [hw]; simp
        obtain ⟨a, ha⟩ := iu.args w (iu.bound w hmem)
        simp only [hw, ha] at hst
        cases hat : g.attempt u.res a with
        | blocked =>
          simp only [hat] at hst
          cases hst
          exact hku
        | stopped =>
          simp only [hat] at hst
          cases hst
          have ht := setExceptions_all u.waiters u.fut iu.nodup hku
          rcases hse : setExceptions u.waiters u.fut with ⟨fut, c⟩
          rw [hse] at ht
          have hc : c = true := ht
          subst hc
          intro x hx
          simp [stopAll, hse] at hx
        | ok r b =>
          simp only [hat, serve] at hst
          split at hst
          · cases hst
          · cases hst
            intro x hx
            have hx' : x ∈ ws := hx
            have hn := iu.nodup
            rw [hw] at hn
            have hxw : x ≠ w := fun he => (List.nodup_cons.mp hn).1 (he ▸ hx')
            show put u.fut w (.result b) x = _
            rw [put_ne _ _ hxw]
            exact hku x (by rw [hw]; exact List.mem_cons_of_mem _ hx')
    · cases hst
      exact hk

theorem allPending_run {g : Gate σ α β ε} (hg : g.Lawful) (ops : List (Op α ε)) {s t : St σ α β}
    (h : AInv g s) (hk : AllPending s) (ho : ∀ j, Op.cancel j ∉ ops) (hr : run g s ops = some t) :
    AllPending t := by
  induction ops generalizing s with
  | nil => cases hr; exact hk
  | cons op ops ih =>
    obtain ⟨u, hu, iu⟩ := step_inv hg h op
    rw [run, hu, Option.bind_some] at hr
    refine ih iu (allPending_step h hk op ?_ hu) (fun j hj => ho j (List.mem_cons_of_mem _ hj)) hr
    rintro j rfl
    exact ho j (by simp)

/-! ## cancelling a call that waits -/

/-- Call `i` was cancelled before it took anything. -/
structure CancelledEarly (s : St σ α β) (i : Nat) : Prop where
  old : i < s.next
  fut : s.fut i = .cancelled
  phase : (∃ m, s.phase i = some (.awaiting m)) ∨ s.phase i = some (.cancelled none)

theorem CancelledEarly.taken {s : St σ α β} {i : Nat} (h : CancelledEarly s i) :
    taken s i = none := by
  rcases h.phase with ⟨m, hm⟩ | hm
  · simp [Aio.taken, hm, h.fut]
  · simp [Aio.taken, hm]

theorem cancelledEarly_of {g : Gate σ α β ε} {s : St σ α β} (h : AInv g s) {i : Nat}
    (hi : Waiting s i) : CancelledEarly (cancel s i) i := by
  obtain ⟨⟨m, hm⟩, hp⟩ := hi
  have hlt := Waiting.lt h ⟨⟨m, hm⟩, hp⟩
  constructor
  · rw [(cancel_same s i).2.2.1]; exact hlt
  · simp [cancel, hm, hp, Fut.done, put]
  · left; exact ⟨m, by simp [cancel, hm, hp, Fut.done, put]⟩

theorem cancelledEarly_step {g : Gate σ α β ε} {s t : St σ α β} (h : AInv g s) {i : Nat}
    (hi : CancelledEarly s i) (op : Op α ε) (hst : step g s op = some t) : CancelledEarly t i := by
  cases op with
  | env e => cases hst; exact ⟨hi.old, hi.fut, hi.phase⟩
  | cancel j =>
    cases hst
    refine ⟨by rw [(cancel_same s j).2.2.1]; exact hi.old, ?_, ?_⟩
    · by_cases hij : i = j
      · subst hij
        rcases hi.phase with ⟨m, hm⟩ | hm
        · simp [cancel, hm, hi.fut, Fut.done]
        · simp [cancel, hm, hi.fut]
      · rw [(cancel_ne s hij).2]; exact hi.fut
    · by_cases hij : i = j
      · subst hij
        rcases hi.phase with ⟨m, hm⟩ | hm
        · simp [cancel, hm, hi.fut, Fut.done, put]
        · simp [cancel, hm]
      · rw [(cancel_ne s hij).1]; exact hi.phase
  | resume j =>
    cases hst
    refine ⟨by rw [(resume_same s j).2.2.1]; exact hi.old,
      by rw [(resume_same s j).2.2.2.2.2.2]; exact hi.fut, ?_⟩
    by_cases hij : i = j
    · subst hij
      rcases hi.phase with ⟨m, hm⟩ | hm
      · simp [resume, hm, hi.fut, put, wake]
      · simp [resume, hm]
    · rw [resume_ne s hij]; exact hi.phase
  | ready =>
    obtain ⟨hp, _, hn, hf⟩ := ready_futs h hst
    refine ⟨by rw [hn]; exact hi.old, ?_, by rw [hp]; exact hi.phase⟩
    rcases hf i with he | ⟨he, _⟩
    · rw [he]; exact hi.fut
    · rw [hi.fut] at he; cases he
  | call a =>
    obtain ⟨u, hu, iu, _, ur, uf, up, ua, un, _⟩ := clearDone_some h
    simp only [step, call, hu, Option.map_some, Option.some.injEq] at hst
    subst hst
    have hiu : CancelledEarly u i :=
      ⟨by rw [un]; exact hi.old, by rw [uf]; exact hi.fut, by rw [up]; exact hi.phase⟩
    have hne : i ≠ u.next := Nat.ne_of_lt hiu.old
    have enq : CancelledEarly (enqueue { u with arg := put u.arg u.next (some a) }) i := by
      refine ⟨Nat.lt_succ_of_lt hiu.old, ?_, ?_⟩
      · exact (put_ne _ _ hne).trans hiu.fut
      · have : (enqueue { u with arg := put u.arg u.next (some a) }).phase i = u.phase i :=
          put_ne _ _ hne
        rw [this]; exact hiu.phase
    have dir : ∀ (r : σ) (p : Phase β), CancelledEarly { u with res := r, arg := put u.arg u.next (some a), phase := put u.phase u.next (some p), next := u.next + 1 } i := by
      intro r p
      refine ⟨Nat.lt_succ_of_lt hiu.old, hiu.fut, ?_⟩
      have : put u.phase u.next (some p) i = u.phase i := put_ne _ _ hne
      simp only [this]
      exact hiu.phase
    unfold waitFrom
    by_cases hw : u.waiters = []
    · rw [if_pos hw]
      cases hat : g.attempt u.res a with
      | blocked => simpa only [hat] using enq
      | stopped => simpa only [hat] using dir u.res .raised
      | ok r b => simpa only [hat] using dir r (.sleeping b false)
    · rw [if_neg hw]; exact enq

theorem cancelledEarly_run {g : Gate σ α β ε} (hg : g.Lawful) (ops : List (Op α ε)) {s t : St σ α β}
    (h : AInv g s) {i : Nat} (hi : CancelledEarly s i) (hr : run g s ops = some t) :
    CancelledEarly t i := by
  induction ops generalizing s with
  | nil => cases hr; exact hi
  | cons op ops ih =>
    obtain ⟨u, hu, iu⟩ := step_inv hg h op
    rw [run, hu, Option.bind_some] at hr
    exact ih iu (cancelledEarly_step h hi op hu) hr

end Spead2.Aio
