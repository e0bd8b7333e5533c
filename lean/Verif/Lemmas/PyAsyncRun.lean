import Verif.Lemmas.PyAsync
import Mathlib.Data.List.Induction
import Mathlib.Data.List.Basic

/-!
# Order and progress of asynchronous gets and puts
-/

namespace Spead2.Aio

variable {σ α β ε : Type}

/-! ## who took what -/

/-- One more call in `filterMap` over the numbers below `n`. -/
theorem filterMap_range_append {γ : Type} (f f' : Nat → Option γ) (w n : Nat) (x : γ)
    (hw : w < n) (heq : ∀ j, j ≠ w → f' j = f j) (h0 : f w = none) (h1 : f' w = some x)
    (hl : ∀ j, w < j → f j = none) :
    (List.range n).filterMap f' = (List.range n).filterMap f ++ [x] := by
  induction n with
  | zero => omega
  | succ n ih =>
    rw [List.range_succ, List.filterMap_append, List.filterMap_append]
    by_cases hn : w < n
    · rw [ih hn]
      have e1 : f n = none := hl n hn
      have e2 : f' n = none := by rw [heq n (by omega)]; exact e1
      simp [e1, e2]
    · have hwn : w = n := by omega
      subst hwn
      have hpre : (List.range w).filterMap f' = (List.range w).filterMap f := by
        apply List.filterMap_congr
        intro j hj
        exact heq j (by have := List.mem_range.mp hj; omega)
      rw [hpre]
      simp [h0, h1]

theorem served_congr {s t : St σ α β} (hn : t.next = s.next)
    (ha : ∀ i, i < s.next → t.arg i = s.arg i) (ht : ∀ i, i < s.next → taken t i = taken s i) :
    served t = served s := by
  unfold served
  rw [hn]
  apply List.filterMap_congr
  intro i hi
  have hi' := List.mem_range.mp hi
  simp only [ha i hi', ht i hi']

/-- A new call that takes nothing, or takes `b`. -/
theorem served_new {s t : St σ α β} (hn : t.next = s.next + 1)
    (ha : ∀ i, i < s.next → t.arg i = s.arg i) (ht : ∀ i, i < s.next → taken t i = taken s i)
    {a : α} (hna : t.arg s.next = some a) :
    served t = served s ++ ((taken t s.next).map fun b => (a, b)).toList := by
  unfold served
  rw [hn, List.range_succ, List.filterMap_append]
  congr 1
  · apply List.filterMap_congr
    intro i hi
    have hi' := List.mem_range.mp hi
    simp only [ha i hi', ht i hi']
  · cases hx : taken t s.next <;> simp [hna, hx]

/-- What one step does to the ringbuffer and to what has been taken. -/
theorem step_served {g : Gate σ α β ε} (hg : g.Lawful) {s t : St σ α β} (h : AInv g s) (op : Op α ε)
    (hst : step g s op = some t) :
    (served t = served s ∧ ∃ e, op = .env e ∧ t.res = g.env s.res e) ∨
    (served t = served s ∧ t.res = s.res ∧ ∀ e, op ≠ .env e) ∨
    ((∀ e, op ≠ .env e) ∧
      ∃ a r b, g.attempt s.res a = .ok r b ∧ t.res = r ∧ served t = served s ++ [(a, b)]) := by
  cases op with
  | env e =>
    cases hst
    exact Or.inl ⟨rfl, e, rfl, rfl⟩
  | cancel i =>
    cases hst
    obtain ⟨hr, ha, hn, _⟩ := cancel_same s i
    exact Or.inr (Or.inl ⟨served_congr hn (fun _ _ => by rw [ha]) (fun _ _ => cancel_taken s i _), hr,
      by simp⟩)
  | resume i =>
    cases hst
    obtain ⟨hr, ha, hn, _⟩ := resume_same s i
    exact Or.inr (Or.inl ⟨served_congr hn (fun _ _ => by rw [ha]) (fun _ _ => resume_taken s i _), hr,
      by simp⟩)
  | call a =>
    right
    obtain ⟨u, hu, iu, _, ur, uf, up, ua, un, _⟩ := clearDone_some h
    have hus : served u = served s :=
      served_congr un (fun _ _ => by rw [ua]) (fun _ _ => taken_congr (by rw [up]) (by rw [uf]))
    simp only [step, call, hu, Option.map_some, Option.some.injEq] at hst
    subst hst
    have enq : ∀ v, v = enqueue { u with arg := put u.arg u.next (some a) } →
        served v = served s ∧ v.res = s.res := by
      rintro v rfl
      refine ⟨?_, ur⟩
      rw [served_new (s := u) (a := a) rfl ?_ ?_ (put_self _ _ _)]
      · have : taken (enqueue { u with arg := put u.arg u.next (some a) }) u.next = none := by
          simp [taken, enqueue, put]
        rw [this, hus]; simp
      · intro i hi
        exact put_ne _ _ (Nat.ne_of_lt hi)
      · intro i hi
        exact taken_congr (put_ne _ _ (Nat.ne_of_lt hi)) (put_ne _ _ (Nat.ne_of_lt hi))
    unfold waitFrom
    by_cases hw : u.waiters = []
    · rw [if_pos hw]
      cases hat : g.attempt u.res a with
      | blocked =>
        simp only [hat]
        obtain ⟨e1, e2⟩ := enq _ rfl
        exact Or.inl ⟨e1, e2, by simp⟩
      | stopped =>
        simp only [hat]
        left
        refine ⟨?_, ur, by simp⟩
        rw [served_new (s := u) (a := a) rfl ?_ ?_ (put_self _ _ _)]
        · rw [hus]; simp [taken, put]
        · intro i hi
          exact put_ne _ _ (Nat.ne_of_lt hi)
        · intro i hi
          exact taken_congr (put_ne _ _ (Nat.ne_of_lt hi)) rfl
      | ok r b =>
        simp only [hat]
        right
        refine ⟨by simp, a, r, b, by rw [← ur]; exact hat, rfl, ?_⟩
        rw [served_new (s := u) (a := a) rfl ?_ ?_ (put_self _ _ _)]
        · rw [hus]; simp [taken, put]
        · intro i hi
          exact put_ne _ _ (Nat.ne_of_lt hi)
        · intro i hi
          exact taken_congr (put_ne _ _ (Nat.ne_of_lt hi)) rfl
    · rw [if_neg hw]
      obtain ⟨e1, e2⟩ := enq _ rfl
      exact Or.inl ⟨e1, e2, by simp⟩
  | ready =>
    right
    simp only [step, ready] at hst
    split at hst
    · obtain ⟨u, hu, iu, uw, ur, uf, up, ua, un, _⟩ := clearDone_some h
      have hus : served u = served s :=
        served_congr un (fun _ _ => by rw [ua]) (fun _ _ => taken_congr (by rw [up]) (by rw [uf]))
      rw [hu, Option.bind_some] at hst
      unfold readyWith at hst
      cases hw : u.waiters with
      | nil =>
        simp only [hw] at hst
        cases hst
        exact Or.inl ⟨hus, ur, by simp⟩
      | cons w ws =>
        have hmem : w ∈ u.waiters := by rw [hw]; simp
        obtain ⟨a, ha⟩ := iu.args w (iu.bound w hmem)
        simp only [hw, ha] at hst
        cases hat : g.attempt u.res a with
        | blocked =>
          simp only [hat] at hst
          cases hst
          exact Or.inl ⟨hus, ur, by simp⟩
        | stopped =>
          simp only [hat] at hst
          cases hst
          obtain ⟨er, ea, en, _⟩ := stopAll_same u
          refine Or.inl ⟨?_, by rw [er, ur], by simp⟩
          rw [← hus]
          exact served_congr en (fun _ _ => by rw [ea]) (fun _ _ => stopAll_taken iu _)
        | ok r b =>
          simp only [hat, serve] at hst
          split at hst
          · cases hst
          · cases hst
            right
            refine ⟨by simp, a, r, b, by rw [← ur]; exact hat, rfl, ?_⟩
            rw [← hus]
            have hpend : u.fut w = .pending := by
              rw [uf]; exact dropDone_head s.fut s.waiters (by rw [← uw]; exact hw)
            have hph : ∃ m, u.phase w = some (.awaiting m) := by
              rcases iu.phases w hmem with hm | ⟨hne, _⟩
              · exact hm
              · exact absurd hpend hne
            obtain ⟨m, hm⟩ := hph
            unfold served
            refine filterMap_range_append _ _ w _ (a, b) (iu.bound w hmem) ?_ ?_ ?_ ?_
            · intro j hj
              have : taken { u with res := r, waiters := ws, fut := put u.fut w (.result b), listening := if ws = [] then false else u.listening } j = taken u j :=
                taken_congr rfl (put_ne _ _ hj)
              simp only [this]
            · simp [iu.takenNone hmem]
            · simp [ha, taken, hm, put]
            · intro j hj
              simp [iu.later w hmem j hj]
    · cases hst
      exact Or.inl ⟨rfl, rfl, by simp⟩

/-! ## the two ends of a ringbuffer -/

theorem getGate_lawful (H : Type) : (getGate H).Lawful := by
  constructor
  · intro s a h a'
    exact h
  · intro s a h e
    simp only [getGate, getNowait] at h ⊢
    cases hi : s.items with
    | cons x xs => simp [hi] at h
    | nil =>
      simp only [hi] at h
      have hs : s.stopped = true := by
        cases hx : s.stopped
        · simp [hx] at h
        · rfl
      cases e <;> simp [getEnv, hs, hi]
  · intro s a h
    simp only [getGate, getNowait] at h ⊢
    cases hi : s.items with
    | cons x xs => simp
    | nil =>
      simp [hi] at h
      simp [h]

theorem putGate_lawful (H : Type) : (putGate H).Lawful := by
  constructor
  · intro s a h a'
    simp only [putGate, putNowait] at h ⊢
    cases hs : s.stopped
    · simp only [hs, Bool.false_eq_true, if_false] at h
      split at h <;> cases h
    · simp
  · intro s a h e
    simp only [putGate, putNowait] at h ⊢
    cases hs : s.stopped
    · simp only [hs, Bool.false_eq_true, if_false] at h
      split at h <;> cases h
    · cases e with
      | stop => simp [putEnv]
      | pop => cases hi : s.items <;> simp [putEnv, hi, hs]
  · intro s a h
    simp only [putGate, putNowait] at h ⊢
    cases hs : s.stopped
    · simp [hs] at h
      simp [h]
    · simp

theorem pushed_append_other {H : Type} (ops : List (Op Unit (GetEnv H))) (op : Op Unit (GetEnv H))
    (ho : ∀ e, op ≠ .env e) : pushed (ops ++ [op]) = pushed ops := by
  induction ops with
  | nil =>
    cases op with
    | env e => exact absurd rfl (ho e)
    | _ => rfl
  | cons o ops ih =>
    cases o with
    | env e => cases e <;> simp [pushed, ih]
    | _ => simpa [pushed] using ih

theorem pushed_append_stop {H : Type} (ops : List (Op Unit (GetEnv H))) :
    pushed (ops ++ [.env .stop]) = pushed ops := by
  induction ops with
  | nil => rfl
  | cons o ops ih =>
    cases o with
    | env e => cases e <;> simp [pushed, ih]
    | _ => simpa [pushed] using ih

theorem pushed_append_push {H : Type} (ops : List (Op Unit (GetEnv H))) (h : H) :
    (Op.env .stop ∈ ops → pushed (ops ++ [.env (.push h)]) = pushed ops) ∧
    (Op.env .stop ∉ ops → pushed (ops ++ [.env (.push h)]) = pushed ops ++ [h]) := by
  induction ops with
  | nil => simp [pushed]
  | cons o ops ih =>
    cases o with
    | env e =>
      cases e with
      | push x => simp [pushed]; exact ih
      | stop => simp [pushed]
    | _ => simpa [pushed] using ih

/-- What has been taken and what is in the ringbuffer is what was pushed. -/
theorem get_run {H : Type} (ops : List (Op Unit (GetEnv H))) (t : St (GetRing H) Unit H)
    (hr : run (getGate H) (St.init ⟨[], false⟩) ops = some t) :
    AInv (getGate H) t ∧ (t.res.stopped = true ↔ Op.env .stop ∈ ops) ∧
      (served t).map Prod.snd ++ t.res.items = pushed ops := by
  revert t
  induction ops using List.reverseRecOn with
  | nil =>
    intro t hr
    cases hr
    exact ⟨AInv.init _ _, by simp [St.init], by simp [St.init, served, pushed]⟩
  | append_singleton ops op ih =>
    intro t hr
    rw [run_append] at hr
    obtain ⟨s, hs, is⟩ := run_inv (getGate_lawful H) ops (AInv.init (getGate H) ⟨[], false⟩)
    rw [hs, Option.bind_some] at hr
    obtain ⟨_, hstop, hcons⟩ := ih s hs
    obtain ⟨t', ht', it⟩ := step_inv (getGate_lawful H) is op
    have htt : t' = t := by rw [hr] at ht'; cases ht'; rfl
    subst htt
    refine ⟨it, ?_⟩
    rcases step_served (getGate_lawful H) is op ht' with ⟨h1, e, rfl, h2⟩ | ⟨h1, h2, h3⟩ |
      ⟨h3, a, r, b, h4, h5, h6⟩
    · rw [h1, h2]
      cases e with
      | stop =>
        rw [pushed_append_stop]
        simp [getGate, getEnv, hcons]
      | push x =>
        obtain ⟨p1, p2⟩ := pushed_append_push ops x
        cases hst : s.res.stopped with
        | true =>
          have hin := hstop.mp hst
          rw [p1 hin]
          simp [getGate, getEnv, hst, hcons, hin]
        | false =>
          have hin : Op.env GetEnv.stop ∉ ops := fun hc => by
            rw [hstop.mpr hc] at hst; cases hst
          rw [p2 hin, ← hcons]
          simp [getGate, getEnv, hst, hin]
    · rw [h1, h2, pushed_append_other ops op h3]
      refine ⟨?_, hcons⟩
      rw [hstop]
      have := h3 .stop
      simp [this.symm]
    · rw [pushed_append_other ops op h3, h6, h5]
      simp only [getGate, getNowait] at h4
      cases hi : s.res.items with
      | nil =>
        simp only [hi] at h4
        split at h4 <;> cases h4
      | cons x xs =>
        simp only [hi] at h4
        cases h4
        rw [hi] at hcons
        refine ⟨?_, by rw [← hcons]; simp⟩
        show s.res.stopped = true ↔ _
        rw [hstop]
        have := h3 .stop
        simp [this.symm]

/-- What consumers have taken and what is in the ringbuffer is what was put. -/
theorem put_run {H : Type} (cap : Nat) (ops : List (Op H PutEnv)) (t : St (PutRing H) H Unit)
    (hr : run (putGate H) (St.init ⟨[], cap, false, []⟩) ops = some t) :
    AInv (putGate H) t ∧ t.res.cap = cap ∧ t.res.items.length ≤ cap ∧
      t.res.out ++ t.res.items = (served t).map Prod.fst := by
  revert t
  induction ops using List.reverseRecOn with
  | nil =>
    intro t hr
    cases hr
    exact ⟨AInv.init _ _, by simp [St.init], by simp [St.init], by simp [St.init, served]⟩
  | append_singleton ops op ih =>
    intro t hr
    rw [run_append] at hr
    obtain ⟨s, hs, is⟩ := run_inv (putGate_lawful H) ops (AInv.init (putGate H) ⟨[], cap, false, []⟩)
    rw [hs, Option.bind_some] at hr
    obtain ⟨_, hc, hle, hcons⟩ := ih s hs
    obtain ⟨t', ht', it⟩ := step_inv (putGate_lawful H) is op
    have htt : t' = t := by rw [hr] at ht'; cases ht'; rfl
    subst htt
    refine ⟨it, ?_⟩
    rcases step_served (putGate_lawful H) is op ht' with ⟨h1, e, rfl, h2⟩ | ⟨h1, h2, _⟩ |
      ⟨_, a, r, b, h4, h5, h6⟩
    · rw [h1, h2, ← hcons]
      cases e with
      | stop => exact ⟨hc, hle, rfl⟩
      | pop =>
        cases hi : s.res.items with
        | nil => simp [putGate, putEnv, hi, hc]
        | cons x xs =>
          rw [hi] at hle
          simp only [List.length_cons] at hle
          refine ⟨by simp [putGate, putEnv, hi, hc], ?_, by simp [putGate, putEnv, hi]⟩
          simp only [putGate, putEnv, hi]
          omega
    · rw [h1, h2]
      exact ⟨hc, hle, hcons⟩
    · rw [h6, h5]
      simp only [putGate, putNowait] at h4
      split at h4
      · cases h4
      · split at h4
        · rename_i hlt
          cases h4
          refine ⟨hc, ?_, by simp [← hcons]⟩
          simp only [List.length_append, List.length_singleton]
          omega
        · cases h4

/-! ## progress -/

/-- The waiter that the callback of the descriptor finds at the head. -/
theorem first_waiter {g : Gate σ α β ε} {s : St σ α β} (h : AInv g s) {i : Nat} (hi : Waiting s i)
    (hmin : ∀ j, j < i → ¬ Waiting s j) : ∃ ws, dropDone s.fut s.waiters = i :: ws := by
  have hmem := dropDone_pending s.fut s.waiters (h.mem i hi) hi.2
  cases hd : dropDone s.fut s.waiters with
  | nil => rw [hd] at hmem; cases hmem
  | cons w ws =>
    have hw : s.fut w = .pending := dropDone_head _ _ hd
    have hws : w ∈ s.waiters := (dropDone_sublist s.fut s.waiters).subset (by rw [hd]; simp)
    have hwait : Waiting s w := by
      refine ⟨?_, hw⟩
      rcases h.phases w hws with hm | ⟨hne, _⟩
      · exact hm
      · exact absurd hw hne
    have hsort := h.sorted.sublist (dropDone_sublist s.fut s.waiters)
    rw [hd] at hsort hmem
    rcases List.mem_cons.mp hmem with rfl | hin
    · exact ⟨ws, rfl⟩
    · have := (List.pairwise_cons.mp hsort).1 i hin
      exact absurd hwait (hmin w this)

/-- The callback deals with the earliest call that waits. -/
theorem ready_first {g : Gate σ α β ε} (hg : g.Lawful) {s : St σ α β} (h : AInv g s) {i : Nat}
    (hi : Waiting s i) (hmin : ∀ j, j < i → ¬ Waiting s j) {a : α} (ha : s.arg i = some a)
    (hnb : g.attempt s.res a ≠ .blocked) :
    ∃ t, ready g s = some t ∧ t.phase = s.phase ∧
      ((∃ r b, g.attempt s.res a = .ok r b ∧ t.res = r ∧ t.fut = put s.fut i (.result b)) ∨
       (g.attempt s.res a = .stopped ∧ t.res = s.res ∧ t.fut i = .exception ∧
         (∀ j, t.fut j = s.fut j ∨ (Waiting s j ∧ t.fut j = .exception)) ∧
         ((∀ w ∈ s.waiters, s.fut w = .pending) → ∀ j, ¬ Waiting t j))) := by
  obtain ⟨ws, hws⟩ := first_waiter h hi hmin
  have hl : s.listening = true := h.listen (by intro hn; rw [hn] at hws; cases hws)
  obtain ⟨u, hu, iu, uw, ur, uf, up, ua, un, ud⟩ := clearDone_some h
  have hw : u.waiters = i :: ws := by rw [uw, hws]
  have hua : u.arg i = some a := by rw [ua]; exact ha
  have hdq : u.isDeque = true := by
    rcases iu.deque with hd | ⟨hn, _⟩
    · exact hd
    · rw [hw] at hn; cases hn
  unfold ready
  rw [if_pos hl, hu, Option.bind_some]
  unfold readyWith
  simp only [hw, hua]
  rw [ur]
  cases hat : g.attempt s.res a with
  | blocked => exact absurd hat hnb
  | ok r b =>
    simp only [serve, hdq]
    refine ⟨_, rfl, up, Or.inl ⟨r, b, rfl, rfl, ?_⟩⟩
    simp only [uf]
  | stopped =>
    obtain ⟨er, ea, en, ep, ef⟩ := stopAll_same u
    have spec := setExceptions_spec u.waiters u.fut iu.nodup
    refine ⟨_, rfl, by rw [ep, up], Or.inr ⟨rfl, by rw [er, ur], ?_, ?_, ?_⟩⟩
    · rw [ef, hw]
      exact setExceptions_head i ws u.fut (by rw [uf]; exact hi.2) (by rw [← hw]; exact iu.nodup)
    · intro j
      rw [ef]
      rcases spec j with he | ⟨hm, hp, he⟩
      · left; rw [he, uf]
      · right
        refine ⟨?_, he⟩
        rcases iu.phases j hm with hph | ⟨hne, _⟩
        · exact ⟨by rw [← up]; exact hph, by rw [← uf]; exact hp⟩
        · exact absurd hp hne
    · intro hall j hj
      have hsub := dropDone_sublist s.fut s.waiters
      have hall' : ∀ w ∈ u.waiters, u.fut w = .pending := by
        intro w hw'
        rw [uw] at hw'
        rw [uf]
        exact hall w (hsub.subset hw')
      have ht := setExceptions_all u.waiters u.fut iu.nodup hall'
      have hinv := stopAll_inv iu (hg.stopped_all _ a (by rw [ur]; exact hat))
      have hm := hinv.mem j hj
      rcases hse : setExceptions u.waiters u.fut with ⟨fut, c⟩
      rw [hse] at ht
      have hc : c = true := ht
      subst hc
      simp [stopAll, hse] at hm

/-! ## calls that are not cancelled -/

/-- A call that nobody cancels. -/
structure Uncancelled (s : St σ α β) (i : Nat) : Prop where
  fut : s.fut i ≠ .cancelled
  phase : s.phase i = none ∨ (∃ b, s.phase i = some (.sleeping b false)) ∨
    s.phase i = some (.awaiting false) ∨ (∃ b, s.phase i = some (.returned b)) ∨
    s.phase i = some .raised

theorem uncancelled_step {g : Gate σ α β ε} {s t : St σ α β} (h : AInv g s)
    {i : Nat} (hi : Uncancelled s i) (op : Op α ε) (ho : ∀ j, op = .cancel j → j ≠ i)
    (hst : step g s op = some t) : Uncancelled t i := by
  cases op with
  | env e => cases hst; exact ⟨hi.fut, hi.phase⟩
  | cancel j =>
    cases hst
    have hij : i ≠ j := (ho j rfl).symm
    obtain ⟨h1, h2⟩ := cancel_ne s hij
    exact ⟨by rw [h2]; exact hi.fut, by rw [h1]; exact hi.phase⟩
  | resume j =>
    cases hst
    refine ⟨by rw [(resume_same s j).2.2.2.2.2.2]; exact hi.fut, ?_⟩
    by_cases hij : i = j
    · subst hij
      rcases hi.phase with hp | ⟨b, hp⟩ | hp | ⟨b, hp⟩ | hp
      · simp [resume, hp]
      · simp [resume, hp, put]
      · have hc := hi.fut
        cases hf : s.fut i with
        | cancelled => exact absurd hf hc
        | _ => simp [resume, hp, put, hf, wake]
      · simp [resume, hp]
      · simp [resume, hp]
    · rw [resume_ne s hij]; exact hi.phase
  | call a =>
    obtain ⟨u, hu, iu, _, ur, uf, up, ua, un, _⟩ := clearDone_some h
    simp only [step, call, hu, Option.map_some, Option.some.injEq] at hst
    subst hst
    have hiu : Uncancelled u i := ⟨by rw [uf]; exact hi.fut, by rw [up]; exact hi.phase⟩
    have enq : Uncancelled (enqueue { u with arg := put u.arg u.next (some a) }) i := by
      by_cases hin : i = u.next
      · subst hin
        constructor <;> simp [enqueue, put]
      · constructor
        · show put u.fut u.next .pending i ≠ _
          rw [put_ne _ _ hin]; exact hiu.fut
        · have : (enqueue { u with arg := put u.arg u.next (some a) }).phase i = u.phase i :=
            put_ne _ _ hin
          rw [this]; exact hiu.phase
    have dir : ∀ (r : σ) (p : Phase β), (p = .raised ∨ ∃ b, p = .sleeping b false) →
        Uncancelled { u with res := r, arg := put u.arg u.next (some a), phase := put u.phase u.next (some p), next := u.next + 1 } i := by
      intro r p hp
      refine ⟨hiu.fut, ?_⟩
      by_cases hin : i = u.next
      · subst hin
        rcases hp with rfl | ⟨b, rfl⟩ <;> simp [put]
      · have : put u.phase u.next (some p) i = u.phase i := put_ne _ _ hin
        simp only [this]
        exact hiu.phase
    unfold waitFrom
    by_cases hw : u.waiters = []
    · rw [if_pos hw]
      cases hat : g.attempt u.res a with
      | blocked => simpa only [hat] using enq
      | stopped => simpa only [hat] using dir u.res .raised (Or.inl rfl)
      | ok r b => simpa only [hat] using dir r (.sleeping b false) (Or.inr ⟨b, rfl⟩)
    · rw [if_neg hw]; exact enq
  | ready =>
    simp only [step, ready] at hst
    split at hst
    · obtain ⟨u, hu, iu, uw, ur, uf, up, ua, un, _⟩ := clearDone_some h
      rw [hu, Option.bind_some] at hst
      have hiu : Uncancelled u i := ⟨by rw [uf]; exact hi.fut, by rw [up]; exact hi.phase⟩
      unfold readyWith at hst
      cases hw : u.waiters with
      | nil =>
        simp only [hw] at hst
        cases hst
        exact hiu
      | cons w ws =>
        have hmem : w ∈ u.waiters := by rw [hw]; simp
        obtain ⟨a, ha⟩ := iu.args w (iu.bound w hmem)
        simp only [hw, ha] at hst
        cases hat : g.attempt u.res a with
        | blocked =>
          simp only [hat] at hst
          cases hst
          exact hiu
        | stopped =>
          simp only [hat] at hst
          cases hst
          obtain ⟨_, _, _, ep, ef⟩ := stopAll_same u
          refine ⟨?_, by rw [ep]; exact hiu.phase⟩
          rw [ef]
          rcases setExceptions_spec u.waiters u.fut iu.nodup i with he | ⟨_, _, he⟩
          · rw [he]; exact hiu.fut
          · rw [he]; simp
        | ok r b =>
          simp only [hat, serve] at hst
          split at hst
          · cases hst
          · cases hst
            refine ⟨?_, hiu.phase⟩
            show put u.fut w (.result b) i ≠ _
            by_cases hiw : i = w
            · subst hiw
              rw [put_self]; simp
            · rw [put_ne _ _ hiw]; exact hiu.fut
    · cases hst
      exact hi

theorem uncancelled_run {g : Gate σ α β ε} (hg : g.Lawful) (r : σ) (ops : List (Op α ε))
    (t : St σ α β) (hr : run g (St.init r) ops = some t) (i : Nat) (hi : NotCancelled i ops) :
    Uncancelled t i := by
  revert t
  induction ops using List.reverseRecOn with
  | nil =>
    intro t hr
    cases hr
    constructor <;> simp [St.init]
  | append_singleton ops op ih =>
    intro t hr
    rw [run_append] at hr
    obtain ⟨s, hs, is⟩ := run_inv hg ops (AInv.init g r)
    rw [hs, Option.bind_some] at hr
    refine uncancelled_step is (ih (fun j hj => hi j (List.mem_append_left _ hj)) s hs) op ?_ hr
    rintro j rfl
    exact hi j (by simp)

/-! ## `Stopped` -/

/-- Nobody is told that the ringbuffer is stopped unless it is. -/
def Honest (g : Gate σ α β ε) (s : St σ α β) : Prop :=
  (∃ i, s.fut i = .exception ∨ s.phase i = some .raised) → ∀ a, g.attempt s.res a = .stopped

theorem honest_step {g : Gate σ α β ε} (hg : g.Lawful) {s t : St σ α β} (h : AInv g s)
    (hh : Honest g s) (op : Op α ε) (hst : step g s op = some t) : Honest g t := by
  have key : ∀ u : St σ α β, u.res = s.res →
      (∀ i, u.fut i = .exception → s.fut i = .exception) →
      (∀ i, u.phase i = some .raised → s.phase i = some .raised ∨ s.fut i = .exception) →
      Honest g u := by
    intro u hr hf hp ⟨i, hi⟩
    rw [hr]
    apply hh
    rcases hi with hi | hi
    · exact ⟨i, Or.inl (hf i hi)⟩
    · exact ⟨i, (hp i hi).symm⟩
  cases op with
  | env e =>
    cases hst
    intro ⟨i, hi⟩ a
    exact hg.stopped_env _ _ (hh ⟨i, hi⟩ a) e
  | cancel j =>
    cases hst
    apply key _ (cancel_same s j).1
    · intro i hi
      by_cases hij : i = j
      · subst hij
        revert hi
        unfold cancel
        split
        · exact id
        · split
          · exact id
          · simp [put]
        · exact id
      · rw [(cancel_ne s hij).2] at hi; exact hi
    · intro i hi
      by_cases hij : i = j
      · subst hij
        revert hi
        unfold cancel
        split
        · simp [put]
        · split <;> simp [put]
        · exact Or.inl
      · rw [(cancel_ne s hij).1] at hi; exact Or.inl hi
  | resume j =>
    cases hst
    apply key _ (resume_same s j).1
    · intro i hi
      rw [(resume_same s j).2.2.2.2.2.2] at hi; exact hi
    · intro i hi
      by_cases hij : i = j
      · subst hij
        revert hi
        unfold resume
        split
        · simp [put]
        · simp [put]
        · rename_i m hp
          cases hf : s.fut i <;> cases m <;> simp [put, wake]
        · exact Or.inl
      · rw [resume_ne s hij] at hi; exact Or.inl hi
  | call a =>
    obtain ⟨u, hu, iu, _, ur, uf, up, ua, un, _⟩ := clearDone_some h
    simp only [step, call, hu, Option.map_some, Option.some.injEq] at hst
    subst hst
    have enq : Honest g (enqueue { u with arg := put u.arg u.next (some a) }) := by
      refine key _ (show (enqueue _).res = s.res from ur) ?_ ?_
      · intro i hi
        have hi' : put u.fut u.next .pending i = .exception := hi
        by_cases hin : i = u.next
        · subst hin; rw [put_self] at hi'; cases hi'
        · rw [put_ne _ _ hin, uf] at hi'; exact hi'
      · intro i hi
        have hi' : put u.phase u.next (some (.awaiting false)) i = some .raised := hi
        by_cases hin : i = u.next
        · subst hin; rw [put_self] at hi'; cases hi'
        · rw [put_ne _ _ hin, up] at hi'; exact Or.inl hi'
    unfold waitFrom
    by_cases hw : u.waiters = []
    · rw [if_pos hw]
      cases hat : g.attempt u.res a with
      | blocked => simpa only [hat] using enq
      | stopped =>
        simp only [hat]
        intro _
        exact hg.stopped_all _ _ hat
      | ok r b =>
        simp only [hat]
        intro ⟨i, hi⟩
        exfalso
        have hs : ∀ a, g.attempt s.res a = .stopped := by
          apply hh
          refine ⟨i, ?_⟩
          rcases hi with hi | hi
          · left; rw [← uf]; exact hi
          · right
            have hi' : put u.phase u.next (some (.sleeping b false)) i = some .raised := hi
            by_cases hin : i = u.next
            · subst hin; rw [put_self] at hi'; cases hi'
            · rw [put_ne _ _ hin, up] at hi'; exact hi'
        rw [ur, hs a] at hat; cases hat
    · rw [if_neg hw]; exact enq
  | ready =>
    simp only [step, ready] at hst
    split at hst
    · obtain ⟨u, hu, iu, uw, ur, uf, up, ua, un, _⟩ := clearDone_some h
      rw [hu, Option.bind_some] at hst
      have hiu : Honest g u := key u ur (fun i hi => by rw [← uf]; exact hi)
        (fun i hi => Or.inl (by rw [← up]; exact hi))
      unfold readyWith at hst
      cases hw : u.waiters with
      | nil =>
        simp only [hw] at hst
        cases hst
        exact hiu
      | cons w ws =>
        have hmem : w ∈ u.waiters := by rw [hw]; simp
        obtain ⟨a, ha⟩ := iu.args w (iu.bound w hmem)
        simp only [hw, ha] at hst
        cases hat : g.attempt u.res a with
        | blocked =>
          simp only [hat] at hst
          cases hst
          exact hiu
        | stopped =>
          simp only [hat] at hst
          cases hst
          intro _
          rw [(stopAll_same u).1]
          exact hg.stopped_all _ _ hat
        | ok r b =>
          simp only [hat, serve] at hst
          split at hst
          · cases hst
          · cases hst
            intro ⟨i, hi⟩
            exfalso
            have hs : ∀ a, g.attempt u.res a = .stopped := by
              apply hiu
              refine ⟨i, ?_⟩
              rcases hi with hi | hi
              · left
                have hi' : put u.fut w (.result b) i = .exception := hi
                by_cases hiw : i = w
                · subst hiw; rw [put_self] at hi'; cases hi'
                · rw [put_ne _ _ hiw] at hi'; exact hi'
              · exact Or.inr hi
            rw [hs a] at hat; cases hat
    · cases hst
      exact hh

theorem honest_run {g : Gate σ α β ε} (hg : g.Lawful) (r : σ) (ops : List (Op α ε))
    (t : St σ α β) (hr : run g (St.init r) ops = some t) : Honest g t := by
  revert t
  induction ops using List.reverseRecOn with
  | nil =>
    intro t hr
    cases hr
    rintro ⟨i, hi⟩
    simp [St.init] at hi
  | append_singleton ops op ih =>
    intro t hr
    rw [run_append] at hr
    obtain ⟨s, hs, is⟩ := run_inv hg ops (AInv.init g r)
    rw [hs, Option.bind_some] at hr
    exact honest_step hg is (ih s hs) op hr

end Spead2.Aio
