import Verif.Lemmas.PyExit
import Verif.Model.Rate

/-!
# C93: the exit of a Python program
-/

namespace Spead2.PyExit

theorem before_of_sorted {l : List Nat} (hs : l.Pairwise (· > ·)) {o p : Nat} (ho : o ∈ l) (hp : p ∈ l) (hlt : p < o) : Before l o p := by
  obtain ⟨a, t, rfl⟩ := List.append_of_mem ho
  obtain ⟨_, h2, h3⟩ := List.pairwise_append.1 hs
  rcases List.mem_append.1 hp with h | h
  · have := h3 p h o List.mem_cons_self
    omega
  · rcases List.mem_cons.1 h with h | h
    · omega
    · obtain ⟨b, c, rfl⟩ := List.append_of_mem h
      exact ⟨a, b, c, by simp⟩

/-- **C93 (order).** Whatever a program has made, stopped and destroyed, in whichever order: the list has each object that must be stopped, once; a stream comes before its pool, and
the logger is last. -/
theorem C93_order {evs : List Ev} {s : St} (hr : Reach evs s) :
    (∀ o, o ∈ s.entries ↔ Active s o) ∧ s.entries.Nodup ∧ (∀ o p, Uses s o p → o ∈ s.entries → p ∈ s.entries → Before s.entries o p) ∧
    (∀ o, o ∈ s.entries → 0 ∈ s.entries → o ≠ 0 → Before s.entries o 0) := by
  have hi := reach_inv hr
  refine ⟨hi.mem, hi.nodup, ?_, ?_⟩
  · intro o p ⟨x, hx, hp⟩ h1 h2
    exact before_of_sorted hi.sorted h1 h2 (hi.dep o x p hx hp).1
  · intro o h1 h2 h3
    exact before_of_sorted hi.sorted h1 h2 (by omega)

/-- Stopping the object at the front of the list. -/
theorem stop_front {s : St} (hi : Inv s) {o : Nat} {rest : List Nat} (he : s.entries = o :: rest) :
    ∃ s', stopObj s o = some s' ∧ s'.entries = rest ∧ s'.exiting = s.exiting := by
  have hm : o ∈ s.entries := by rw [he]; exact List.mem_cons_self
  obtain ⟨x, hx, hst, hns⟩ := (hi.mem o).1 hm
  have herase : s.entries.erase o = rest := by rw [he]; simp
  unfold stopObj
  rw [hx]
  cases hk : x.kind with
  | log => exact ⟨(s.set o { x with stopped := true }).reset o, by simp only [hk], herase, rfl⟩
  | recv p => exact ⟨(s.set o { x with stopped := true, blocked := false }).reset o, by simp only [hk], herase, rfl⟩
  | send p => exact absurd hk (hns p)
  | pool =>
    have hb : s.busy o = false := by
      cases hb : s.busy o with
      | false => rfl
      | true =>
        obtain ⟨o', z, hz, hzk, hzb⟩ := busy_iff.1 hb
        have h1 := (hi.blk o' z hz hzb).1
        have h2 : o' ∈ s.entries := (hi.mem o').2 ⟨z, hz, h1, by simp [hzk]⟩
        have h3 := (hi.dep o' z o hz (by rw [hzk]; rfl)).1
        have h4 := hi.sorted
        rw [he] at h2 h4
        rcases List.mem_cons.1 h2 with h2 | h2
        · omega
        · have := (List.pairwise_cons.1 h4).1 o' h2
          omega
    refine ⟨(s.set o { x with stopped := true }).reset o, ?_, herase, rfl⟩
    simp only [hk, hb, Bool.false_eq_true, if_false]

/-- **C93 (stopping).** Each iteration of the loop returns, whatever the threads are doing (in particular if some wait for space in a ring whose consumer is gone), and removes one object. -/
theorem C93_stoppers {evs : List Ev} {s : St} (hr : Reach evs s) (hx : s.exiting = true) {o : Nat} {rest : List Nat} (he : s.entries = o :: rest) :
    ∃ s', step s .stopper = some s' ∧ s'.entries = rest := by
  obtain ⟨s', h1, h2, _⟩ := stop_front (reach_inv hr) he
  refine ⟨s', ?_, h2⟩
  simp only [step, he, hx, if_true]
  exact h1

/-- **C93 (stopped).** After the loop no pool has threads, and no receive stream has a handler that waits. -/
theorem C93_after {evs : List Ev} {s : St} (hr : Reach evs s) (he : s.entries = []) : (∀ o, ¬ Active s o) ∧ (∀ p, s.running p = false) ∧ ∀ p, s.busy p = false := by
  have hi := reach_inv hr
  have h1 : ∀ o, ¬ Active s o := by
    intro o ha
    have := (hi.mem o).2 ha
    rw [he] at this
    cases this
  refine ⟨h1, ?_, ?_⟩
  · intro p
    cases h : s.running p with
    | false => rfl
    | true =>
      obtain ⟨x, hx, hk, hs⟩ := running_iff.1 h
      exact absurd ⟨x, hx, hs, by simp [hk]⟩ (h1 p)
  · intro p
    cases h : s.busy p with
    | false => rfl
    | true =>
      obtain ⟨o, x, hx, hk, hb⟩ := busy_iff.1 h
      exact absurd ⟨x, hx, (hi.blk o x hx hb).1, by simp [hk]⟩ (h1 o)

/-! ## What can happen to an object -/

structure Evolves (s : St) (x y : Obj) : Prop where
  kind : y.kind = x.kind
  stopped : x.stopped = true → y.stopped = true
  alive : y.alive = true → x.alive = true
  stuck : ∀ p, x.kind = .send p → x.alive = true → ¬ Idle x → s.running p = false → y.alive = true ∧ ¬ Idle y
  idle : s.exiting = true → Idle x → Idle y

theorem Evolves.refl (s : St) (x : Obj) : Evolves s x x := ⟨rfl, id, id, fun _ _ h1 h2 _ => ⟨h1, h2⟩, fun _ h => h⟩

theorem stopObj_form {s s' : St} {o : Nat} (h : stopObj s o = some s') :
    ∃ x y, s.objs[o]? = some x ∧ s' = ⟨s.objs.set o y, s.entries.erase o, s.exiting⟩ ∧ Evolves s x y ∧ y.alive = x.alive := by
  unfold stopObj at h
  split at h
  · cases h
  · rename_i x hx
    split at h
    · rename_i hk
      cases h
      exact ⟨x, { x with stopped := true }, hx, rfl, ⟨rfl, fun _ => rfl, id, (fun p h => by rw [hk] at h; cases h), fun _ h => h⟩, rfl⟩
    · rename_i hk
      split at h
      · cases h
      · cases h
        exact ⟨x, { x with stopped := true }, hx, rfl, ⟨rfl, fun _ => rfl, id, (fun p h => by rw [hk] at h; cases h), fun _ h => h⟩, rfl⟩
    · rename_i q hk
      cases h
      exact ⟨x, { x with stopped := true, blocked := false }, hx, rfl, ⟨rfl, fun _ => rfl, id, (fun p h => by rw [hk] at h; cases h), fun _ h => h⟩, rfl⟩
    · cases h

theorem destroyObj_form {s s' : St} {o : Nat} (h : destroyObj s o = some s') :
    ∃ x y es, s.objs[o]? = some x ∧ s' = ⟨s.objs.set o y, es, s.exiting⟩ ∧ es.length ≤ s.entries.length ∧ Evolves s x y ∧ x.alive = true ∧ y.alive = false := by
  unfold destroyObj at h
  split at h
  · cases h
  · rename_i x hx
    split at h
    · rename_i ha
      split at h
      · rename_i hk
        split at h
        · cases h
          exact ⟨x, { x with alive := false }, s.entries, hx, rfl, Nat.le_refl _, ⟨rfl, id, by simp, (fun p h => by rw [hk] at h; cases h), fun _ h => h⟩, ha, rfl⟩
        · cases h
      · rename_i hk
        split at h
        · cases h
        · cases h
          exact ⟨x, { x with alive := false, stopped := true }, s.entries.erase o, hx, rfl, List.length_erase_le, ⟨rfl, fun _ => rfl, by simp, (fun p h => by rw [hk] at h; cases h), fun _ h => h⟩, ha, rfl⟩
      · rename_i q hk
        cases h
        exact ⟨x, { x with alive := false, stopped := true, blocked := false }, s.entries.erase o, hx, rfl, List.length_erase_le,
          ⟨rfl, fun _ => rfl, by simp, (fun p h => by rw [hk] at h; cases h), fun _ h => h⟩, ha, rfl⟩
      · rename_i q hk
        split at h
        · rename_i hid
          cases h
          exact ⟨x, { x with alive := false }, s.entries, hx, rfl, Nat.le_refl _, ⟨rfl, id, by simp, fun p _ _ hn => absurd hid hn, fun _ h => h⟩, ha, rfl⟩
        · cases h
    · cases h

/-- What a step does: an object is made, one changes, or the exit starts. -/
theorem step_form {s s' : St} {e : Ev} (h : step s e = some s') :
    (∃ k, s' = s.add k ∧ s.exiting = false ∧ e.main = false) ∨
    (∃ o x y es, s.objs[o]? = some x ∧ s' = ⟨s.objs.set o y, es, s.exiting⟩ ∧ Evolves s x y ∧
      ((e.main = false ∧ (s.exiting = true → es = s.entries)) ∨ (e = .stopper ∧ es = s.entries.erase o ∧ o ∈ s.entries) ∨
       (e = .destroy o ∧ es.length ≤ s.entries.length ∧ x.alive = true ∧ y.alive = false))) ∨
    (s' = { s with exiting := true } ∧ e.main = false) := by
  have hnew : ∀ {p k}, s.onPool p k = some s' → ∃ k, s' = s.add k ∧ s.exiting = false := by
    intro p k h
    unfold St.onPool at h
    split at h
    · split at h
      · rename_i hc
        cases h
        exact ⟨k, rfl, hc.2.2⟩
      · cases h
    · cases h
  cases e with
  | newPool =>
    simp only [step] at h
    split at h
    · cases h
    · rename_i hx
      cases h
      exact Or.inl ⟨_, rfl, by simpa using hx, rfl⟩
  | newRecv p => obtain ⟨k, h1, h2⟩ := hnew h; exact Or.inl ⟨k, h1, h2, rfl⟩
  | newSend p => obtain ⟨k, h1, h2⟩ := hnew h; exact Or.inl ⟨k, h1, h2, rfl⟩
  | stop o =>
    simp only [step] at h
    split at h
    · split at h
      · cases h
      · rename_i hc
        obtain ⟨x, y, h1, h2, h3, _⟩ := stopObj_form h
        refine Or.inr (Or.inl ⟨o, x, y, _, h1, h2, h3, Or.inl ⟨rfl, ?_⟩⟩)
        intro hx
        simp [hx] at hc
    · cases h
  | destroy o =>
    simp only [step] at h
    split at h
    · cases h
    · obtain ⟨x, y, es, h1, h2, h3, h4, h5, h6⟩ := destroyObj_form h
      exact Or.inr (Or.inl ⟨o, x, y, es, h1, h2, h4, Or.inr (Or.inr ⟨rfl, h3, h5, h6⟩)⟩)
  | exit =>
    simp only [step] at h
    split at h
    · cases h
    · cases h
      exact Or.inr (Or.inr ⟨rfl, rfl⟩)
  | stopper =>
    simp only [step] at h
    split at h
    · rename_i o rest he
      split at h
      · obtain ⟨x, y, h1, h2, h3, _⟩ := stopObj_form h
        exact Or.inr (Or.inl ⟨o, x, y, _, h1, h2, h3, Or.inr (Or.inl ⟨rfl, rfl, by rw [he]; exact List.mem_cons_self⟩)⟩)
      · cases h
    · cases h
  | send o =>
    simp only [step] at h
    split at h
    · rename_i x hx
      split at h
      · split at h
        · cases h
        · rename_i hc
          cases h
          refine Or.inr (Or.inl ⟨o, x, { x with queued := x.queued + 1, pending := true }, s.entries, hx, rfl, ⟨rfl, id, id, ?_, ?_⟩, Or.inl ⟨rfl, fun _ => rfl⟩⟩)
          · intro p _ ha _ _
            exact ⟨ha, fun h => by simp [Idle] at h⟩
          · intro hx'
            simp [hx'] at hc
      · cases h
    · cases h
  | block o =>
    simp only [step] at h
    split at h
    · rename_i x hx
      split at h
      · split at h
        · cases h
          exact Or.inr (Or.inl ⟨o, x, { x with blocked := true }, s.entries, hx, rfl, ⟨rfl, id, id, fun _ _ h1 h2 _ => ⟨h1, h2⟩, fun _ h => h⟩, Or.inl ⟨rfl, fun _ => rfl⟩⟩)
        · cases h
      · cases h
    · cases h
  | unblock o =>
    simp only [step] at h
    split at h
    · rename_i x hx
      split at h
      · cases h
        exact Or.inr (Or.inl ⟨o, x, { x with blocked := false }, s.entries, hx, rfl, ⟨rfl, id, id, fun _ _ h1 h2 _ => ⟨h1, h2⟩, fun _ h => h⟩, Or.inl ⟨rfl, fun _ => rfl⟩⟩)
      · cases h
    · cases h
  | work o n again =>
    simp only [step] at h
    split at h
    · rename_i x hx
      split at h
      · rename_i q hk
        split at h
        · rename_i hc
          cases h
          simp only [Bool.and_eq_true] at hc
          refine Or.inr (Or.inl ⟨o, x, { x with queued := x.queued - n, pending := again }, s.entries, hx, rfl, ⟨rfl, id, id, ?_, ?_⟩, Or.inl ⟨rfl, fun _ => rfl⟩⟩)
          · intro p hp _ _ hrun
            rw [hk] at hp
            cases hp
            rw [hrun] at hc
            simp at hc
          · intro _ hid
            rw [hid.2] at hc
            simp at hc
        · cases h
      · cases h
    · cases h

/-- An object exists as long as its destructor was not run, and changes as `Evolves` says. -/
theorem step_obj {s s' : St} {e : Ev} (h : step s e = some s') {o : Nat} {x : Obj} (hx : s.objs[o]? = some x) : ∃ x', s'.objs[o]? = some x' ∧ Evolves s x x' := by
  rcases step_form h with ⟨k, rfl, _⟩ | ⟨o', z, y, es, hz, rfl, hev, _⟩ | ⟨rfl, _⟩
  · have := getElem?_lt hx
    exact ⟨x, by rw [add_get, if_neg (by omega)]; exact hx, Evolves.refl s x⟩
  · show ∃ x', (s.objs.set o' y)[o]? = some x' ∧ _
    rw [set_get hz]
    by_cases he : o = o'
    · rw [if_pos he]
      rw [← he, hx] at hz
      cases hz
      exact ⟨y, rfl, hev⟩
    · rw [if_neg he]
      exact ⟨x, hx, Evolves.refl s x⟩
  · exact ⟨x, hx, Evolves.refl s x⟩

/-! ## Send streams that are not idle -/

theorem stuck_run : ∀ (es : List Ev) {s s' : St} {o p : Nat} {x : Obj}, Inv s → s.objs[o]? = some x → x.kind = .send p → x.alive = true → ¬ Idle x → s.running p = false →
    run s es = some s' → ∃ x', s'.objs[o]? = some x' ∧ x'.alive = true ∧ ¬ Idle x' := by
  intro es
  induction es with
  | nil => intro s s' o p x _ hx _ ha hn _ h; cases h; exact ⟨x, hx, ha, hn⟩
  | cons e es ih =>
    intro s s' o p x hi hx hk ha hn hrun h
    simp only [run] at h
    cases hs : step s e with
    | none => rw [hs] at h; cases h
    | some s1 =>
      rw [hs] at h
      obtain ⟨x1, hx1, hev⟩ := step_obj hs hx
      obtain ⟨ha1, hn1⟩ := hev.stuck p hk ha hn hrun
      refine ih (step_inv hi hs) hx1 (hev.kind.trans hk) ha1 hn1 ?_ h
      obtain ⟨_, y, hy, hyk, _⟩ := hi.dep o x p hx (by rw [hk]; rfl)
      obtain ⟨y1, hy1, hyev⟩ := step_obj hs hy
      have hys : y.stopped = true := by
        cases hst : y.stopped with
        | true => rfl
        | false => rw [running_iff.2 ⟨y, hy, hyk, hst⟩] at hrun; cases hrun
      cases hr1 : s1.running p with
      | false => rfl
      | true =>
        obtain ⟨w, hw, _, hws⟩ := running_iff.1 hr1
        rw [hy1] at hw
        cases hw
        rw [hyev.stopped hys] at hws
        cases hws

/-- **C93 (stuck).** If a pool was stopped when a send stream on it was not idle, the destructor of that stream does not return, whatever happens: the stream exists for ever. -/
theorem C93_stuck {evs : List Ev} {s : St} (hr : Reach evs s) {o p : Nat} {x : Obj} (hx : s.objs[o]? = some x) (hk : x.kind = .send p) (ha : x.alive = true) (hn : ¬ Idle x)
    (hp : s.running p = false) {es : List Ev} {s' : St} (h : run s es = some s') : ∃ x', s'.objs[o]? = some x' ∧ x'.alive = true ∧ ¬ Idle x' :=
  stuck_run es (reach_inv hr) hx hk ha hn hp h

/-! ## Send streams that are idle -/

/-- Once the exit has begun, idle send streams stay idle, and the exit stays. -/
theorem idle_step {s s' : St} {e : Ev} (hx : s.exiting = true) (h : step s e = some s') : s'.exiting = true ∧ (AllIdle s → AllIdle s') := by
  refine ⟨?_, ?_⟩
  · rcases step_form h with ⟨k, rfl, _⟩ | ⟨o', z, y, es, hz, rfl, _⟩ | ⟨rfl, _⟩
    · exact hx
    · exact hx
    · rfl
  · intro hall x' hx' p hk ha
    rcases step_form h with ⟨k, _, hf, _⟩ | ⟨o', z, y, es, hz, rfl, hev, _⟩ | ⟨rfl, _⟩
    · rw [hx] at hf; cases hf
    · rcases List.mem_or_eq_of_mem_set hx' with hm | hm
      · exact hall x' hm p hk ha
      · rw [hm] at hk ha ⊢
        exact hev.idle hx (hall z (List.mem_of_getElem? hz) p (hev.kind ▸ hk) (hev.alive ha))
    · exact hall x' hx' p hk ha

theorem alive_set {l : List Obj} {o : Nat} {x y : Obj} (hx : l[o]? = some x) :
    ((l.set o y).filter (·.alive)).length + (if x.alive then 1 else 0) = (l.filter (·.alive)).length + (if y.alive then 1 else 0) := by
  induction l generalizing o with
  | nil => simp at hx
  | cons a l ih =>
    cases o with
    | zero =>
      simp only [List.getElem?_cons_zero, Option.some.injEq] at hx
      subst hx
      simp only [List.set_cons_zero, List.filter_cons]
      cases a.alive <;> cases y.alive <;> simp
    | succ o =>
      have := ih (o := o) (by simpa using hx)
      simp only [List.set_cons_succ, List.filter_cons]
      cases a.alive <;> simp <;> omega

/-- Each event of the exiting thread leaves less for it to do; others do not add anything. -/
theorem left_step {s s' : St} {e : Ev} (hx : s.exiting = true) (h : step s e = some s') : s'.left + (if e.main then 1 else 0) ≤ s.left := by
  rcases step_form h with ⟨k, _, hf, _⟩ | ⟨o, x, y, es, hz, rfl, hev, hc⟩ | ⟨rfl, hm⟩
  · rw [hx] at hf; cases hf
  · have hal := alive_set (y := y) hz
    have hle : (if y.alive = true then 1 else 0) ≤ (if x.alive = true then 1 else 0) := by
      cases hy : y.alive with
      | false => simp
      | true => rw [hev.alive hy]; simp
    show es.length + ((s.objs.set o y).filter (·.alive)).length + _ ≤ s.entries.length + (s.objs.filter (·.alive)).length
    rcases hc with ⟨hm, hes⟩ | ⟨rfl, rfl, hm⟩ | ⟨rfl, hes, h1, h2⟩
    · rw [hm, hes hx]
      simp only [Bool.false_eq_true, if_false]
      omega
    · have h1 := List.length_erase_of_mem hm
      have h2 := List.length_pos_of_mem hm
      rw [h1]
      simp only [Ev.main, if_true]
      omega
    · rw [h1, h2] at hal
      simp only [Bool.false_eq_true, if_false, if_true] at hal
      simp only [Ev.main, if_true]
      omega
  · rw [hm]
    exact Nat.le_refl _

/-- **C93 (bound).** Once the exit has begun, the exiting thread stops and destroys at most as many objects as are left, whatever the other threads do. -/
theorem C93_bounded : ∀ (es : List Ev) {s s' : St}, s.exiting = true → run s es = some s' → s'.left + (es.filter Ev.main).length ≤ s.left := by
  intro es
  induction es with
  | nil => intro s s' _ h; cases h; simp
  | cons e es ih =>
    intro s s' hx h
    simp only [run] at h
    cases hs : step s e with
    | none => rw [hs] at h; cases h
    | some s1 =>
      rw [hs] at h
      have h1 := ih (idle_step hx hs).1 h
      have h2 := left_step hx hs
      simp only [List.filter_cons]
      cases hm : e.main with
      | true => rw [hm] at h2; simp only [if_true, List.length_cons] at h2 ⊢; omega
      | false => rw [hm] at h2; simp only [Bool.false_eq_true, if_false] at h2 ⊢; omega

theorem last_alive (l : List Obj) (h : ¬ ∀ x ∈ l, x.alive = false) :
    ∃ (o : Nat) (x : Obj), l[o]? = some x ∧ x.alive = true ∧ ∀ (o' : Nat) (x' : Obj), o < o' → l[o']? = some x' → x'.alive = false := by
  induction l with
  | nil => exact absurd (by simp) h
  | cons a l ih =>
    by_cases hl : ∀ x ∈ l, x.alive = false
    · refine ⟨0, a, rfl, ?_, ?_⟩
      · cases ha : a.alive with
        | true => rfl
        | false =>
          refine absurd ?_ h
          intro x hx
          rcases List.mem_cons.1 hx with hx | hx
          · rw [hx]; exact ha
          · exact hl x hx
      · intro o' x' ho' hx'
        cases o' with
        | zero => omega
        | succ o' => exact hl x' (List.mem_of_getElem? (by simpa using hx'))
    · obtain ⟨o, x, h1, h2, h3⟩ := ih hl
      refine ⟨o + 1, x, by simpa using h1, h2, ?_⟩
      intro o' x' ho' hx'
      cases o' with
      | zero => omega
      | succ o' => exact h3 o' x' (by omega) (by simpa using hx')

/-- If all send streams are idle, the exiting thread can go on. -/
theorem can_go_on {s : St} (hi : Inv s) (hx : s.exiting = true) (hid : AllIdle s) (hf : ¬ Finished s) : ∃ e s', e.main = true ∧ step s e = some s' := by
  cases he : s.entries with
  | cons o rest =>
    obtain ⟨s', h1, _⟩ := stop_front hi he
    refine ⟨.stopper, s', rfl, ?_⟩
    simp only [step, he, hx, if_true]
    exact h1
  | nil =>
    obtain ⟨o, x, ho, ha, hl⟩ := last_alive s.objs hf
    have hst : step s (.destroy o) = destroyObj s o := by simp [step, he]
    refine ⟨.destroy o, ?_⟩
    rw [hst]
    unfold destroyObj
    rw [ho]
    simp only [ha, if_true]
    cases hk : x.kind with
    | log => simp only [hx, he]; exact ⟨_, rfl, rfl⟩
    | recv p => exact ⟨_, rfl, rfl⟩
    | send p =>
      have := hid x (List.mem_of_getElem? ho) p hk ha
      simp only [this.1, this.2, and_self, if_true]
      exact ⟨_, rfl, rfl⟩
    | pool =>
      have hu : s.used o = false := by
        cases hu : s.used o with
        | false => rfl
        | true =>
          obtain ⟨o', z, hz, hza, hzk⟩ := used_iff.1 hu
          have := hl o' z (hi.dep o' z o hz hzk).1 hz
          rw [hza] at this
          cases this
      have hb : s.busy o = false := by
        cases hb : s.busy o with
        | false => rfl
        | true =>
          obtain ⟨o', z, hz, hzk, hzb⟩ := busy_iff.1 hb
          have : o' ∈ s.entries := (hi.mem o').2 ⟨z, hz, (hi.blk o' z hz hzb).1, by simp [hzk]⟩
          rw [he] at this
          cases this
      simp only [hu, hb]
      exact ⟨_, rfl, rfl⟩

theorem finishes (n : Nat) : ∀ {s : St}, Inv s → s.exiting = true → AllIdle s → s.left ≤ n → ∃ es, (∀ e ∈ es, e.main = true) ∧ ∃ s', run s es = some s' ∧ Finished s' := by
  induction n with
  | zero =>
    intro s hi hx hid hn
    refine ⟨[], by simp, s, rfl, ?_⟩
    refine Classical.byContradiction fun hf => ?_
    obtain ⟨e, s', hm, hs⟩ := can_go_on hi hx hid hf
    have := left_step hx hs
    rw [hm] at this
    simp at this
    omega
  | succ n ih =>
    intro s hi hx hid hn
    by_cases hf : Finished s
    · exact ⟨[], by simp, s, rfl, hf⟩
    · obtain ⟨e, s1, hm, hs⟩ := can_go_on hi hx hid hf
      have h1 := left_step hx hs
      rw [hm, if_pos rfl] at h1
      obtain ⟨es, h2, s', h3, h4⟩ := ih (step_inv hi hs) (idle_step hx hs).1 ((idle_step hx hs).2 hid) (by omega)
      refine ⟨e :: es, ?_, s', ?_, h4⟩
      · intro e' he'
        rcases List.mem_cons.1 he' with he' | he'
        · rw [he']; exact hm
        · exact h2 e' he'
      · simp only [run, hs]
        exact h3

theorem idle_run : ∀ (es : List Ev) {s s' : St}, s.exiting = true → run s es = some s' → s'.exiting = true ∧ (AllIdle s → AllIdle s') := by
  intro es
  induction es with
  | nil => intro s s' hx h; cases h; exact ⟨hx, id⟩
  | cons e es ih =>
    intro s s' hx h
    simp only [run] at h
    cases hs : step s e with
    | none => rw [hs] at h; cases h
    | some s1 =>
      rw [hs] at h
      have h1 := idle_step hx hs
      have h2 := ih h1.1 h
      exact ⟨h2.1, fun h => h2.2 (h1.2 h)⟩

/-! ## Send streams while their pool runs -/

theorem awake_set {l : List Obj} {o : Nat} {x y : Obj} (hl : ∀ z ∈ l, 0 < z.queued → z.pending = true) (hx : l[o]? = some x)
    (hy : (0 < x.queued → x.pending = true) → 0 < y.queued → y.pending = true) : ∀ z ∈ l.set o y, 0 < z.queued → z.pending = true := by
  intro z hz
  rcases List.mem_or_eq_of_mem_set hz with h | h
  · exact hl z h
  · rw [h]; exact hy (hl x (List.mem_of_getElem? hx))

theorem awake_add {s : St} (hl : ∀ z ∈ s.objs, 0 < z.queued → z.pending = true) (k : Kind) : ∀ z ∈ (s.add k).objs, 0 < z.queued → z.pending = true := by
  intro z hz
  simp only [St.add, List.mem_append, List.mem_singleton] at hz
  rcases hz with h | h
  · exact hl z h
  · subst h; intro h; cases h

theorem awake_stop {s s' : St} {o : Nat} (hl : ∀ z ∈ s.objs, 0 < z.queued → z.pending = true) (h : stopObj s o = some s') : ∀ z ∈ s'.objs, 0 < z.queued → z.pending = true := by
  unfold stopObj at h
  repeat' split at h
  all_goals first | (cases h; done) | skip
  all_goals (have hx := ‹s.objs[o]? = some _›; cases h; exact awake_set hl hx (fun h => h))

theorem awake_step {s s' : St} {e : Ev} (hl : ∀ z ∈ s.objs, 0 < z.queued → z.pending = true) (h : step s e = some s') : ∀ z ∈ s'.objs, 0 < z.queued → z.pending = true := by
  have hnew : ∀ {p k}, s.onPool p k = some s' → ∀ z ∈ s'.objs, 0 < z.queued → z.pending = true := by
    intro p k h
    unfold St.onPool at h
    repeat' split at h
    all_goals first | (cases h; done) | skip
    cases h
    exact awake_add hl k
  cases e with
  | newPool =>
    simp only [step] at h
    split at h
    · cases h
    · cases h; exact awake_add hl _
  | newRecv p => exact hnew h
  | newSend p => exact hnew h
  | stop o =>
    simp only [step] at h
    repeat' split at h
    all_goals first | (cases h; done) | skip
    exact awake_stop hl h
  | destroy o =>
    simp only [step, destroyObj] at h
    repeat' split at h
    all_goals first | (cases h; done) | skip
    all_goals (have hx := ‹s.objs[o]? = some _›; cases h; exact awake_set hl hx (fun h => h))
  | send o =>
    simp only [step] at h
    repeat' split at h
    all_goals first | (cases h; done) | skip
    have hx := ‹s.objs[o]? = some _›
    cases h
    exact awake_set hl hx (fun _ _ => rfl)
  | block o =>
    simp only [step] at h
    repeat' split at h
    all_goals first | (cases h; done) | skip
    have hx := ‹s.objs[o]? = some _›
    cases h
    exact awake_set hl hx (fun h => h)
  | unblock o =>
    simp only [step] at h
    repeat' split at h
    all_goals first | (cases h; done) | skip
    have hx := ‹s.objs[o]? = some _›
    cases h
    exact awake_set hl hx (fun h => h)
  | work o n again =>
    simp only [step] at h
    repeat' split at h
    all_goals first | (cases h; done) | skip
    rename_i hc
    cases h
    simp only [Bool.and_eq_true, Bool.or_eq_true, beq_iff_eq] at hc
    refine awake_set hl (by assumption) (fun _ hq => ?_)
    rcases hc.2 with h | h
    · exact h
    · simp only at hq; omega
  | exit =>
    simp only [step] at h
    split at h
    · cases h
    · cases h; exact hl
  | stopper =>
    simp only [step] at h
    repeat' split at h
    all_goals first | (cases h; done) | skip
    exact awake_stop hl h

theorem awake_run : ∀ (es : List Ev) {s s' : St}, (∀ z ∈ s.objs, 0 < z.queued → z.pending = true) → run s es = some s' → ∀ z ∈ s'.objs, 0 < z.queued → z.pending = true := by
  intro es
  induction es with
  | nil => intro s s' hl h; cases h; exact hl
  | cons e es ih =>
    intro s s' hl h
    simp only [run] at h
    cases hs : step s e with
    | none => rw [hs] at h; cases h
    | some s1 => rw [hs] at h; exact ih (awake_step hl hs) h

/-- **C93 (heaps are not forgotten).** A send stream that has heaps is never asleep; so while its pool runs, a thread of the pool can always report all heaps and leave the stream idle. -/
theorem C93_awake {evs : List Ev} {s : St} (hr : Reach evs s) {o p : Nat} {x : Obj} (hx : s.objs[o]? = some x) (hk : x.kind = .send p) (ha : x.alive = true) :
    (0 < x.queued → x.pending = true) ∧
    (¬ Idle x → s.running p = true → ∃ s' y, step s (.work o x.queued false) = some s' ∧ s'.objs[o]? = some y ∧ y.alive = true ∧ Idle y) := by
  have hw := awake_run evs (s := {}) (by intro z hz; simp only [List.mem_singleton] at hz; subst hz; intro h; cases h) hr x (List.mem_of_getElem? hx)
  refine ⟨hw, fun hn hrun => ?_⟩
  have hp : x.pending = true := by
    cases hc : x.pending with
    | true => rfl
    | false =>
      refine absurd ⟨?_, hc⟩ hn
      by_cases h0 : 0 < x.queued
      · rw [hw h0] at hc; cases hc
      · omega
  refine ⟨s.set o { x with queued := x.queued - x.queued, pending := false }, { x with queued := x.queued - x.queued, pending := false }, ?_, ?_, ha, by simp, rfl⟩
  · simp only [step, hx, hk, hrun, ha, hp, Bool.and_self, Nat.le_refl, decide_true, beq_self_eq_true, Bool.or_true, if_true]
  · simp only [St.set]
    rw [set_get hx o, if_pos rfl]

/-- C93 in full: the exit of a program can always be finished. -/
def C93_statement : Prop := ∀ evs s, Reach evs s → s.exiting = true → ∃ es s', run s es = some s' ∧ Finished s'

/-- **C93.** If all send streams that exist when the program exits are idle, the exiting thread is never stuck, whatever has happened before and whatever other threads do in between
(`es`): it can finish by itself.  By `C93_bounded` it does so after a bounded number of steps.  Missing: send streams that are not idle. -/
theorem C93_partial {evs : List Ev} {s : St} (hr : Reach evs s) (hx : s.exiting = true) (hid : AllIdle s) {es : List Ev} {s1 : St} (h : run s es = some s1) :
    ∃ es', (∀ e ∈ es', e.main = true) ∧ ∃ s', run s1 es' = some s' ∧ Finished s' := by
  have h1 := idle_run es hx h
  exact finishes s1.left (run_inv es (reach_inv hr) h) h1.1 (h1.2 hid) (Nat.le_refl _)

/-- **C93 (exactly when).** After the loop, the exit can be finished if and only if all send streams that exist are idle. -/
theorem C93_exact {evs : List Ev} {s : St} (hr : Reach evs s) (hx : s.exiting = true) (he : s.entries = []) : (∃ es s', run s es = some s' ∧ Finished s') ↔ AllIdle s := by
  constructor
  · intro ⟨es, s', h1, h2⟩ x hxm p hk ha
    refine Classical.byContradiction fun hn => ?_
    obtain ⟨o, ho⟩ := List.getElem?_of_mem hxm
    obtain ⟨x', h3, h4, _⟩ := C93_stuck hr ho hk ha hn ((C93_after hr he).2.1 p) h1
    rw [h2 x' (List.mem_of_getElem? h3)] at h4
    cases h4
  · intro hid
    obtain ⟨es, _, s', h1, h2⟩ := C93_partial hr hx hid (es := []) rfl
    exact ⟨es, s', h1, h2⟩

/-- A program sends one heap, which is sent and reported; the writer sets its timer because of the rate limit; the program ends. -/
def sampleExit : List Ev := [.newPool, .newSend 1, .send 2, .work 2 1 true, .exit, .stopper, .stopper]

/-- **C93 fails in full**: `sampleExit` does not end, although everything that the program has sent was sent and reported. -/
theorem C93_violated : ¬ C93_statement := by
  intro h
  have hr : Reach sampleExit ⟨[{ kind := .log, stopped := true }, { kind := .pool, stopped := true }, { kind := .send 1, pending := true }], [], true⟩ := by
    unfold Reach; decide
  have hid := (C93_exact hr rfl rfl).1 (h _ _ hr rfl)
  have := (hid { kind := .send 1, pending := true } (by simp) 1 rfl rfl).2
  cases this

/-- The timer is set although there is nothing left to send: a writer that has sent a burst sleeps before it looks whether its queue is empty (src/send_writer.cpp 116-134). -/
theorem C93_sleeps {c : RateConfig} {l : Limiter} (h1 : l.mustSleep = false) (h2 : c.burstSize ≤ l.bytes) {t1 t2 t3 : Int} (h3 : t2 < (l.update c t2).2) :
    ∃ u, (l.get c t1 t2 t3 .none).2 = .slept t2 u := by
  simp only [Limiter.get, h1, Limiter.check, h2, if_true, h3]
  exact ⟨_, rfl⟩

/-! A program with two pools, a stream that waits for space in its ring, one that was stopped by the program, and an idle send stream. -/

def sampleProgram : List Ev :=
  [.newPool, .newRecv 1, .newSend 1, .newPool, .newRecv 4, .newRecv 1, .block 2, .send 3, .work 3 0 true, .work 3 1 true, .work 3 0 false, .stop 5, .block 6, .exit]

example : ∃ s, Reach sampleProgram s ∧ s.exiting = true ∧ s.entries = [6, 4, 2, 1, 0] ∧ AllIdle s ∧ ¬ Finished s ∧ s.busy 1 = true := by
  refine ⟨_, rfl, rfl, by decide, ?_, ?_, by decide⟩
  · intro x hx p hk _
    have : ∀ x ∈ ((run {} sampleProgram).getD {}).objs, x.queued = 0 ∧ x.pending = false := by decide
    exact this x hx
  · intro h
    have : ¬ ∀ x ∈ ((run {} sampleProgram).getD {}).objs, x.alive = false := by decide
    exact this h

/-- Its exit, in the order of the list and then of the references. -/
example : ((run {} (sampleProgram ++ [.stopper, .stopper, .stopper, .stopper, .stopper, .destroy 3, .destroy 0, .destroy 5, .destroy 4, .destroy 2, .destroy 6, .destroy 1])).map
    (fun s => s.objs.all (fun x => !x.alive))) = some true := by decide

/-- A pool cannot be stopped while one of its threads waits: the order matters. -/
example : run {} [.newPool, .newRecv 1, .block 2, .stop 1] = none := by decide

/-- A burst that was sent, at a rate of one byte per tick. -/
example : (({ bytes := 100, wait := 100, avg := PTime.of 1000, burst := PTime.of 1000 } : Limiter).get ⟨1, 64, 1, 1, false⟩ 1000 1000 1000 .none).2 = .slept 1000 1100 := by
  decide +kernel

end Spead2.PyExit
