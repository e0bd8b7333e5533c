import Verif.Lemmas.PySend

/-!
# C92: synchronous sends from Python
-/

namespace Spead2.PySend

theorem handler_given {evs : List Ev} {s : St} (hr : Reach evs s) {c : Nat} {x : Call} (hx : s.calls[c]? = some x) : callbacks evs c = x.handler.given := by
  have := (reach_inv hr).given c
  rwa [hx] at this

/-- **C92 (outcome).** A call of `send_heap` or `send_heaps` that has returned has returned (or raised) the outcome of its own heaps, which the stream has reported. -/
theorem C92_result {evs : List Ev} {s : St} (hr : Reach evs s) {c : Nat} {x : Call} (hx : s.calls[c]? = some x) {r : Outcome} (hp : x.phase = .returned r) :
    callbacks evs c = [r] := by
  rw [handler_given hr hx]
  have hd := ((reach_inv hr).call c x hx).data
  cases hq : x.handler with
  | queued => rw [hq] at hd; exact absurd hp (hd.2 r)
  | wroteEc q => rw [hq] at hd; exact absurd hp (hd.2.2 r)
  | wroteBytes q => rw [hq] at hd; exact absurd hp (hd.2.2.2 r)
  | posted q => rw [hq] at hd; rw [hd.2.2.1 r hp]; rfl
  | gone q => rw [hq] at hd; rw [hd.2.2.1 r hp]; rfl

/-- A call is reported at most once. -/
theorem C92_once {evs : List Ev} {s : St} (hr : Reach evs s) (c : Nat) : (callbacks evs c).length ≤ 1 := by
  have := (reach_inv hr).given c
  rw [this]
  cases s.calls[c]? with
  | none => simp
  | some x =>
    show x.handler.given.length ≤ 1
    cases x.handler <;> simp [Handler.given]

theorem owners_pos {evs : List Ev} {s : St} (hr : Reach evs s) {c : Nat} {x : Call} (hx : s.calls[c]? = some x) :
    (x.phase = .waiting → x.owners ≠ 0) ∧ ((∀ r, x.handler ≠ .gone r) → x.owners ≠ 0) := by
  have ho := ((reach_inv hr).call c x hx).owners
  refine ⟨fun h => ?_, fun h => ?_⟩
  · rw [ho, if_pos h]; omega
  · cases hq : x.handler with
    | gone r => exact absurd hq (h r)
    | queued => rw [hq] at ho; simp only at ho; omega
    | wroteEc r => rw [hq] at ho; simp only at ho; omega
    | wroteBytes r => rw [hq] at ho; simp only at ho; omega
    | posted r => rw [hq] at ho; simp only at ho; omega

/-- **C92 (callback state).** Whatever is interrupted, the state that a call shares with its callback is never used after it was freed: the only thing that can go wrong is
that the stream reads a heap that nobody has a reference to, of a call that was interrupted. -/
theorem C92_state {evs : List Ev} {s : St} (hr : Reach evs s) {e : Ev} (hu : step s e = .undefined) :
    ∃ c x, e = .read c ∧ s.calls[c]? = some x ∧ x.phase = .interrupted ∧ x.accepted = true ∧ callbacks evs c = [] ∧ ∃ h ∈ x.heaps, s.refs h = 0 := by
  cases e with
  | new => simp [step] at hu
  | keep h => simp only [step] at hu; split at hu <;> cases hu
  | drop h => simp only [step] at hu; split at hu <;> cases hu
  | send hs a => simp only [step] at hu; split at hu <;> cases hu
  | callback c r =>
    simp only [step] at hu
    split at hu
    · cases hu
    · rename_i x hx
      split at hu
      · rename_i hq
        split at hu
        · rename_i h0; exact absurd h0 ((owners_pos hr hx).2 (by rw [hq]; simp))
        · cases hu
      · cases hu
  | next c =>
    simp only [step] at hu
    split at hu
    · cases hu
    · rename_i x hx
      unfold callbackStep at hu
      split at hu
      · rename_i hq
        split at hu
        · rename_i h0; exact absurd h0 ((owners_pos hr hx).2 (by rw [hq]; simp))
        · cases hu
      · rename_i hq
        split at hu
        · rename_i h0; exact absurd h0 ((owners_pos hr hx).2 (by rw [hq]; simp))
        · cases hu
      · cases hu
      · cases hu
  | wake c =>
    simp only [step] at hu
    split at hu
    · cases hu
    · rename_i x hx
      split at hu
      · rename_i hw
        split at hu
        · rename_i h0; exact absurd h0 ((owners_pos hr hx).1 hw)
        · split at hu <;> cases hu
      · cases hu
  | signal c b =>
    simp only [step] at hu
    split at hu
    · cases hu
    · split at hu
      · split at hu <;> cases hu
      · cases hu
  | read c =>
    simp only [step] at hu
    split at hu
    · cases hu
    · rename_i x hx
      split at hu
      · rename_i ha
        split at hu
        · cases hu
        · rename_i hn
          have hi := reach_inv hr
          have hd := (hi.call c x hx).data
          rw [ha.2] at hd
          have hn' : ¬ ∀ h ∈ x.heaps, 0 < s.refs h := by simpa only [List.all_eq_true, decide_eq_true_eq] using hn
          obtain ⟨h, hm, h0⟩ : ∃ h ∈ x.heaps, ¬ 0 < s.refs h := by
            refine Classical.byContradiction fun hc => hn' fun h hm => Classical.byContradiction fun h0 => hc ⟨h, hm, h0⟩
          refine ⟨c, x, rfl, hx, ?_, ha.1, ?_, h, hm, by omega⟩
          · cases hp : x.phase with
            | interrupted => rfl
            | returned r => exact absurd hp (hd.2 r)
            | waiting =>
              exfalso
              have h1 := hold_le hx h
              have h2 := hi.refs h
              have h3 : hold h x = x.heaps.count h := by simp only [hold, hp, if_true]
              have h4 := List.count_pos_iff.2 hm
              omega
          · rw [handler_given hr hx, ha.2]; rfl
      · cases hu

/-- While a call waits, the heaps of its arguments exist, whatever the rest of the program does. -/
theorem C92_arguments {evs : List Ev} {s : St} (hr : Reach evs s) {c : Nat} {x : Call} (hx : s.calls[c]? = some x) (hp : x.phase = .waiting) {h : Nat} (hm : h ∈ x.heaps) :
    0 < s.refs h := by
  have h1 := hold_le hx h
  have h2 := (reach_inv hr).refs h
  have h3 : hold h x = x.heaps.count h := by simp only [hold, hp, if_true]
  have h4 := List.count_pos_iff.2 hm
  omega

theorem undefined_at (evs : List Ev) : ∀ s, run s evs = .undefined → ∃ pre e post s', evs = pre ++ e :: post ∧ run s pre = .ok s' ∧ step s' e = .undefined := by
  induction evs with
  | nil => intro s h; cases h
  | cons e evs ih =>
    intro s h
    simp only [run] at h
    cases hs : step s e with
    | ok s1 =>
      rw [hs] at h
      obtain ⟨pre, e', post, s', h1, h2, h3⟩ := ih s1 h
      exact ⟨e :: pre, e', post, s', by rw [h1]; rfl, by simp only [run, hs]; exact h2, h3⟩
    | disabled => rw [hs] at h; cases h
    | undefined => exact ⟨[], e, evs, s, rfl, rfl, hs⟩

/-- C92 in full: there is no undefined behaviour, whatever Python programs do. -/
def C92_statement : Prop := ∀ evs, run {} evs ≠ .undefined

/-- **C92.** There is no undefined behaviour in programs that keep the heaps of an interrupted call until the stream has sent them.  Missing: programs that do not. -/
theorem C92_partial {evs : List Ev} (hk : AlwaysKept evs) : run {} evs ≠ .undefined := by
  intro h
  obtain ⟨pre, e, post, s, h1, h2, h3⟩ := undefined_at evs _ h
  obtain ⟨c, x, he, hx, hp, ha, hc, k, hm, h0⟩ := C92_state h2 h3
  have hq : x.handler = .queued := by
    rw [handler_given h2 hx] at hc
    cases hh : x.handler <;> simp [hh, Handler.given] at hc ⊢
  have := hk pre (e :: post) s h1 h2 x (List.mem_of_getElem? hx) hp ha hq k hm
  have := (reach_inv h2).refs k
  omega

/-- Nobody is interrupted. -/
theorem never_interrupted (evs : List Ev) : ∀ {s s' : St}, (∀ x ∈ s.calls, x.phase ≠ .interrupted) → (∀ c, Ev.signal c true ∉ evs) → run s evs = .ok s' →
    ∀ x ∈ s'.calls, x.phase ≠ .interrupted := by
  induction evs with
  | nil => intro s s' h _ hr; cases hr; exact h
  | cons e evs ih =>
    intro s s' h hn hr
    simp only [run] at hr
    cases hs : step s e with
    | disabled => rw [hs] at hr; cases hr
    | undefined => rw [hs] at hr; cases hr
    | ok s1 =>
      rw [hs] at hr
      refine ih ?_ (fun c hc => hn c (List.mem_cons_of_mem _ hc)) hr
      have hset : ∀ {c : Nat} {y : Call}, y.phase ≠ .interrupted → ∀ z ∈ s.calls.set c y, z.phase ≠ .interrupted := by
        intro c y hy z hz
        rcases List.mem_or_eq_of_mem_set hz with hz | hz
        · exact h z hz
        · rw [hz]; exact hy
      have hget : ∀ {c : Nat} {y : Call}, s.calls[c]? = some y → y.phase ≠ .interrupted := fun hy => h _ (List.mem_of_getElem? hy)
      cases e with
      | new => cases hs; exact h
      | keep k => simp only [step] at hs; split at hs <;> cases hs; exact h
      | drop k => simp only [step] at hs; split at hs <;> cases hs; exact h
      | send l a =>
        simp only [step] at hs
        split at hs
        · cases hs
          intro x hx
          rcases List.mem_append.1 hx with hx | hx
          · exact h x hx
          · rw [List.mem_singleton.1 hx]; simp
        · cases hs
      | read c =>
        simp only [step] at hs
        split at hs
        · cases hs
        · split at hs
          · split at hs <;> cases hs; exact h
          · cases hs
      | callback c r =>
        simp only [step] at hs
        split at hs
        · cases hs
        · rename_i x hx
          split at hs
          · split at hs <;> cases hs
            exact hset (y := { x with ec := r.ec, handler := .wroteEc r }) (show x.phase ≠ _ from hget hx)
          · cases hs
      | next c =>
        simp only [step] at hs
        split at hs
        · cases hs
        · rename_i x hx
          unfold callbackStep at hs
          split at hs
          · rename_i r _
            split at hs <;> cases hs
            exact hset (y := { x with bytes := r.bytes, handler := .wroteBytes r }) (show x.phase ≠ _ from hget hx)
          · rename_i r _
            split at hs <;> cases hs
            exact hset (y := { x with sem := x.sem + 1, handler := .posted r }) (show x.phase ≠ _ from hget hx)
          · rename_i r _
            cases hs
            exact hset (y := { x with owners := x.owners - 1, handler := .gone r }) (show x.phase ≠ _ from hget hx)
          · cases hs
      | wake c =>
        simp only [step] at hs
        split at hs
        · cases hs
        · rename_i x hx
          split at hs
          · split at hs
            · cases hs
            · split at hs
              · cases hs
              · cases hs
                refine hset ?_
                simp
          · cases hs
      | signal c b =>
        simp only [step] at hs
        split at hs
        · cases hs
        · split at hs
          · split at hs
            · rename_i hb
              rw [hb] at hn
              exact absurd (List.mem_cons_self) (hn c)
            · cases hs; exact h
          · cases hs

/-- Programs whose signal handlers raise no exceptions (so that `KeyboardInterrupt` does not happen) need not care. -/
theorem C92_uninterrupted {evs : List Ev} (hn : ∀ c, Ev.signal c true ∉ evs) : run {} evs ≠ .undefined := by
  refine C92_partial ?_
  intro pre post s he hr x hx hp
  refine absurd hp (never_interrupted pre (s := {}) (by simp) ?_ hr x hx)
  intro c hc
  exact hn c (by rw [he]; exact List.mem_append_left _ hc)

/-- **C92 fails in full**: after `KeyboardInterrupt` the heap can be freed while the stream still has to send it. -/
theorem C92_violated : ¬ C92_statement := by
  intro h
  exact h [.new, .send [0] true, .signal 0 true, .drop 0, .read 0] rfl

theorem getElem?_setCall {s : St} {c : Nat} {x y : Call} (hx : s.calls[c]? = some x) : (s.setCall c y).calls[c]? = some y := by
  show (s.calls.set c y)[c]? = _
  rw [List.getElem?_set_self (getElem?_lt hx)]

theorem reach_one {evs : List Ev} {s s' : St} (hr : Reach evs s) {e : Ev} (hs : step s e = .ok s') : Reach (evs ++ [e]) s' := by
  unfold Reach at hr ⊢
  rw [run_append, hr]
  simp only [run, hs]

/-- The call can return. -/
theorem can_wake {evs : List Ev} {s : St} (hr : Reach evs s) {c : Nat} {x : Call} (hx : s.calls[c]? = some x) (hp : x.phase = .waiting) {r : Outcome}
    (hq : x.handler = .posted r ∨ x.handler = .gone r) : ∃ s' x', step s (.wake c) = .ok s' ∧ s'.calls[c]? = some x' ∧ x'.phase = .returned r := by
  have hd := ((reach_inv hr).call c x hx).data
  have hdat : x.ec = r.ec ∧ x.bytes = r.bytes ∧ x.sem = 1 := by
    rcases hq with hq | hq <;> rw [hq] at hd <;> exact ⟨hd.1, hd.2.1, hd.2.2.2 hp⟩
  have ho := (owners_pos hr hx).1 hp
  refine ⟨s.leave c { x with sem := x.sem - 1 } (.returned ⟨x.ec, x.bytes⟩), { x with sem := x.sem - 1, phase := .returned ⟨x.ec, x.bytes⟩, owners := x.owners - 1 }, ?_, ?_, ?_⟩
  · have h1 : x.sem ≠ 0 := by rw [hdat.2.2]; simp
    simp only [step, hx, hp, if_true, ho, h1, if_false]
  · exact getElem?_setCall hx
  · show Phase.returned ⟨x.ec, x.bytes⟩ = _
    rw [hdat.1, hdat.2.1]

/-- **C92 (progress).** Whatever has happened, a waiting call returns once the stream's thread has run its callback to the point where it signals: no wake-up is lost, and
no other call, signal or thread is needed.  `r` is what the stream reports, if it has not yet done so. -/
theorem C92_progress {evs : List Ev} {s : St} (hr : Reach evs s) {c : Nat} {x : Call} (hx : s.calls[c]? = some x) (hp : x.phase = .waiting) (r : Outcome) :
    ∃ es, (∀ e ∈ es, OfStream c e) ∧ ∃ s' x', Reach (evs ++ es ++ [.wake c]) s' ∧ s'.calls[c]? = some x' ∧
      x'.phase = .returned ((callbacks evs c).headD r) := by
  have key : ∀ (q : Outcome) (evs : List Ev) (s : St) (x : Call), Reach evs s → s.calls[c]? = some x → x.phase = .waiting → (x.handler = .posted q ∨ x.handler = .gone q) →
      ∃ es, (∀ e ∈ es, OfStream c e) ∧ ∃ s' x', Reach (evs ++ es ++ [.wake c]) s' ∧ s'.calls[c]? = some x' ∧ x'.phase = .returned q := by
    intro q evs s x hr hx hp hq
    obtain ⟨s', x', h1, h2, h3⟩ := can_wake hr hx hp hq
    refine ⟨[], by simp, s', x', ?_, h2, h3⟩
    rw [List.append_nil]
    exact reach_one hr h1
  have more : ∀ (q : Outcome) (e : Ev), OfStream c e → ∀ (evs : List Ev) (s s' : St), Reach evs s → step s e = .ok s' →
      (∃ es, (∀ e ∈ es, OfStream c e) ∧ ∃ t x', Reach (evs ++ [e] ++ es ++ [.wake c]) t ∧ t.calls[c]? = some x' ∧ x'.phase = .returned q) →
      ∃ es, (∀ e ∈ es, OfStream c e) ∧ ∃ t x', Reach (evs ++ es ++ [.wake c]) t ∧ t.calls[c]? = some x' ∧ x'.phase = .returned q := by
    intro q e he evs s s' _ _ ⟨es, h1, t, x', h2, h3⟩
    refine ⟨e :: es, ?_, t, x', ?_, h3⟩
    · intro e' he'
      rcases List.mem_cons.1 he' with he' | he'
      · rw [he']; exact he
      · exact h1 e' he'
    · rw [show evs ++ e :: es = evs ++ [e] ++ es by simp]; exact h2
  have k3 : ∀ (q : Outcome) (evs : List Ev) (s : St) (x : Call), Reach evs s → s.calls[c]? = some x → x.phase = .waiting → x.handler = .wroteBytes q →
      ∃ es, (∀ e ∈ es, OfStream c e) ∧ ∃ s' x', Reach (evs ++ es ++ [.wake c]) s' ∧ s'.calls[c]? = some x' ∧ x'.phase = .returned q := by
    intro q evs s x hr hx hp hq
    have ho := (owners_pos hr hx).1 hp
    have hs : step s (.next c) = .ok (s.setCall c { x with sem := x.sem + 1, handler := .posted q }) := by
      simp only [step, hx, callbackStep, hq, ho, if_false]
    exact more q (.next c) rfl evs s _ hr hs (key q _ _ _ (reach_one hr hs) (getElem?_setCall hx) hp (Or.inl rfl))
  have k2 : ∀ (q : Outcome) (evs : List Ev) (s : St) (x : Call), Reach evs s → s.calls[c]? = some x → x.phase = .waiting → x.handler = .wroteEc q →
      ∃ es, (∀ e ∈ es, OfStream c e) ∧ ∃ s' x', Reach (evs ++ es ++ [.wake c]) s' ∧ s'.calls[c]? = some x' ∧ x'.phase = .returned q := by
    intro q evs s x hr hx hp hq
    have ho := (owners_pos hr hx).1 hp
    have hs : step s (.next c) = .ok (s.setCall c { x with bytes := q.bytes, handler := .wroteBytes q }) := by
      simp only [step, hx, callbackStep, hq, ho, if_false]
    exact more q (.next c) rfl evs s _ hr hs (k3 q _ _ _ (reach_one hr hs) (getElem?_setCall hx) hp rfl)
  rw [handler_given hr hx]
  cases hq : x.handler with
  | queued =>
    have ho := (owners_pos hr hx).1 hp
    have hs : step s (.callback c r) = .ok (s.setCall c { x with ec := r.ec, handler := .wroteEc r }) := by
      simp only [step, hx, hq, ho, if_true, if_false]
    exact more r (.callback c r) rfl evs s _ hr hs (k2 r _ _ _ (reach_one hr hs) (getElem?_setCall hx) hp rfl)
  | wroteEc q => exact k2 q evs s x hr hx hp hq
  | wroteBytes q => exact k3 q evs s x hr hx hp hq
  | posted q => exact key q evs s x hr hx hp (Or.inl hq)
  | gone q => exact key q evs s x hr hx hp (Or.inr hq)

/-- **C92 (signals).** A signal whose handler raises nothing changes nothing.  One whose handler raises ends that call only, at any time while it waits, and what the stream does
with the heaps goes on as if nothing had happened. -/
theorem C92_signal {s : St} {c : Nat} {x : Call} (hx : s.calls[c]? = some x) (hp : x.phase = .waiting) :
    step s (.signal c false) = .ok s ∧
    ∃ s' x', step s (.signal c true) = .ok s' ∧ s'.calls[c]? = some x' ∧ x'.phase = .interrupted ∧ x'.handler = x.handler ∧ s'.mine = s.mine ∧
      ∀ c', c' ≠ c → s'.calls[c']? = s.calls[c']? := by
  refine ⟨by simp only [step, hx, hp]; rfl, s.leave c x .interrupted, { x with phase := .interrupted, owners := x.owners - 1 }, ?_, getElem?_setCall hx, rfl, rfl, rfl, ?_⟩
  · simp only [step, hx, hp, if_true]
  · intro c' hc'
    show (s.calls.set c _)[c']? = _
    rw [List.getElem?_set_ne (Ne.symm hc')]

/-! Two calls at once, whose callbacks run in the other order; one is interrupted before its callback runs. -/

def sampleRun : List Ev :=
  [.new, .new, .send [0] true, .send [1] true, .read 1, .callback 1 ⟨0, 80⟩, .signal 0 false, .next 1, .signal 0 true, .next 1, .wake 1, .read 0, .next 1, .callback 0 ⟨4, 0⟩, .next 0, .next 0,
   .next 0, .drop 0]

def Res.calls : Res → Option (List Call)
  | .ok s => some s.calls
  | _ => none

example : (run {} sampleRun).calls = some
    [{ heaps := [0], accepted := true, phase := .interrupted, handler := .gone ⟨4, 0⟩, sem := 1, ec := 4, bytes := 0, owners := 0 },
     { heaps := [1], accepted := true, phase := .returned ⟨0, 80⟩, handler := .gone ⟨0, 80⟩, sem := 0, ec := 0, bytes := 80, owners := 0 }] := by decide

/-- A waiting call whose callback has run in part. -/
example : (run {} (sampleRun.take 8)).calls = some
    [{ heaps := [0], accepted := true }, { heaps := [1], accepted := true, handler := .wroteBytes ⟨0, 80⟩, bytes := 80 }] := by decide

/-- A history in which a heap is kept although its call was interrupted. -/
example : AlwaysKept [.new, .send [0] true, .signal 0 true, .read 0] := by
  intro pre post s he hr x hx hp ha hq h hm
  match pre, he, hr with
  | [], _, hr => cases hr; cases hx
  | [_], he, hr => cases he; cases hr; cases hx
  | [_, _], he, hr =>
    cases he; cases hr
    rw [List.mem_singleton.1 hx] at hp
    cases hp
  | [_, _, _], he, hr =>
    cases he; cases hr
    rw [List.mem_singleton.1 hx] at hm
    rw [List.mem_singleton.1 hm]
    decide
  | [_, _, _, _], he, hr =>
    cases he; cases hr
    rw [List.mem_singleton.1 hx] at hm
    rw [List.mem_singleton.1 hm]
    decide
  | _ :: _ :: _ :: _ :: _ :: _, he, _ => simp at he

end Spead2.PySend
