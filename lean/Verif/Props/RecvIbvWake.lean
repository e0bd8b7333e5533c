import Verif.Model.RecvIbvWake

/-! # C63: the ibverbs receiver does not miss packets -/

namespace Spead2

/-- Completions that were polled but not yet processed. -/
def IRxPc.todo : IRxPc → List Nat
  | .proc _ _ todo _ => todo
  | _ => []

/-- Slots that will be posted. -/
def IRxPc.cur : IRxPc → List Nat
  | .proc _ _ _ cur => cur
  | _ => []

/-- Nothing can be missed from here: there is an event, or there will be one for the next completion and (after the poll) there are no completions. -/
def IRx.alert (s : IRx) : Prop :=
  match s.pc with
  | .idle => s.wake = .waiting → s.event = true ∨ s.armed = true ∧ s.cq = []
  | .loop _ need => need = false → s.event = true ∨ s.armed = true ∧ s.cq = []
  | .poll _ need => need = false → s.event = true ∨ s.armed = true
  | .proc _ need _ _ => need = false → s.event = true ∨ s.armed = true ∧ s.cq = []
  | .next _ need _ => need = false → s.event = true ∨ s.armed = true

/-- Each slot is in exactly one place. -/
def IRx.slotsOk (c : IRxCfg) (s : IRx) : Prop :=
  c.mprq = false → s.wake ≠ .stopped → (s.rq ++ s.pc.cur ++ s.pc.todo ++ s.cq).Perm (List.range c.nSlots)

structure IRxInv (c : IRxCfg) (s : IRx) : Prop where
  alert : s.alert
  slots : s.slotsOk c
  order : s.wake ≠ .stopped → s.arrived = s.given ++ s.pc.todo ++ s.cq
  pref : s.given <+: s.arrived
  idle : s.pc = .idle ↔ s.wake ≠ .running

theorem IRxInv.init (c : IRxCfg) : IRxInv c c.init := by
  refine ⟨(fun h => by cases h), ?_, fun _ => rfl, List.nil_prefix, ⟨(fun _ h => by cases h), fun _ => rfl⟩⟩
  intro h _
  simp [IRxCfg.init, h, IRxPc.cur, IRxPc.todo]

theorem IRxInv.alert_step {c : IRxCfg} {s s' : IRx} (h : IRxInv c s) (st : IRxStep c s s') : s'.alert := by
  obtain ⟨h1, h2, h3, h4, h5⟩ := h
  unfold IRx.alert at h1
  cases st with
  | poll i need hp hm =>
    rw [hp] at h1
    intro hn
    rcases h1 hn with h | h
    · exact Or.inl h
    · refine Or.inr ⟨h, ?_⟩
      have hl := (h2 hm (fun hw => by have := h5.mpr (by rw [hw]; decide); rw [hp] at this; cases this)).length_eq
      simp only [List.length_append, List.length_range] at hl
      exact List.drop_eq_nil_of_le (by omega)
  | leave i need hp hi =>
    rw [hp] at h1
    intro hw
    dsimp only at hw
    split at hw
    · rename_i hc
      simp only [Bool.and_eq_true, Bool.not_eq_true'] at hc
      exact h1 hc.2
    · cases hw
  | card x rq hm hr =>
    unfold IRx.alert
    dsimp only
    split at h1 <;> intro hn <;> (have h1 := h1 hn; simp only [Bool.or_eq_true]; rcases h1 with h | h <;> simp [h])
  | mCard x hm =>
    unfold IRx.alert
    dsimp only
    split at h1 <;> intro hn <;> (have h1 := h1 hn; simp only [Bool.or_eq_true]; rcases h1 with h | h <;> simp [h])
  | run hw => intro hn; cases hn
  | notified hw he => intro hn; cases hn
  | again i need hp hi ha =>
    rw [hp] at h1
    intro hn
    rcases h1 hn with h | h
    · exact Or.inl h
    · exact Or.inr h.1
  | arm i need hp => intro _; exact Or.inr rfl
  | take i need x todo cur hp => rw [hp] at h1; exact h1
  | takePost i need x todo cur hp => rw [hp] at h1; exact h1
  | takeStop i need x todo cur hp => intro hw; cases hw
  | post i need cur hp => rw [hp] at h1; exact h1
  | mBegin i need hp => rw [hp] at h1; exact h1
  | mDrained i need iter _ hp hi hc =>
    rw [hp] at h1
    intro hn
    rcases h1 hn with h | h
    · exact Or.inl h
    · exact Or.inr ⟨h, hc⟩
  | mTake i need iter x cq _ hp => rw [hp] at h1; exact h1
  | mStop i need iter x cq _ hp => intro hw; cases hw
  | mPartial i need iter _ hp => intro hn; cases hn

theorem IRxInv.idle_step {c : IRxCfg} {s s' : IRx} (h : IRxInv c s) (st : IRxStep c s s') : s'.pc = .idle ↔ s'.wake ≠ .running := by
  have h5 := h.idle
  cases st with
  | leave i need hp hi => dsimp only; split <;> simp
  | card | mCard => exact h5
  | _ => first | (simp; done) | (rename_i hp _; rw [hp] at h5; simpa using h5) | (rename_i hp; rw [hp] at h5; simpa using h5) |
      (rename_i hp _ _; rw [hp] at h5; simpa using h5) | (rename_i hp _ _ _; rw [hp] at h5; simpa using h5)

theorem perm_move {a b x d : List Nat} : (a ++ (b ++ x) ++ d).Perm (a ++ b ++ (x ++ d)) := by
  simp only [List.append_assoc]
  exact List.Perm.refl _

theorem IRxInv.slots_step {c : IRxCfg} {s s' : IRx} (h : IRxInv c s) (st : IRxStep c s s') : s'.slotsOk c := by
  have h2 := h.slots
  have h5 := h.idle
  have nr : s.pc ≠ .idle → s.wake ≠ .stopped := fun hp hw => hp (h5.mpr (by rw [hw]; decide))
  unfold IRx.slotsOk at h2
  intro hm hs
  cases st with
  | run hw =>
    have := h2 hm (by rw [hw]; decide)
    rw [h5.mpr (by rw [hw]; decide)] at this
    exact this
  | notified hw he =>
    have := h2 hm (by rw [hw]; decide)
    rw [h5.mpr (by rw [hw]; decide)] at this
    exact this
  | again i need hp => have := h2 hm (nr (by rw [hp]; simp)); rw [hp] at this; exact this
  | arm i need hp => have := h2 hm (nr (by rw [hp]; simp)); rw [hp] at this; exact this
  | leave i need hp => have := h2 hm (nr (by rw [hp]; simp)); rw [hp] at this; exact this
  | poll i need hp =>
    have := h2 hm (nr (by rw [hp]; simp))
    rw [hp] at this
    simp only [IRxPc.cur, IRxPc.todo, List.append_nil] at this ⊢
    rw [List.append_assoc, List.take_append_drop]
    exact this
  | take i need x todo cur hp =>
    have := h2 hm (nr (by rw [hp]; simp))
    rw [hp] at this
    simpa only [IRxPc.cur, IRxPc.todo, List.append_assoc, List.cons_append, List.nil_append] using this
  | takePost i need x todo cur hp =>
    have := h2 hm (nr (by rw [hp]; simp))
    rw [hp] at this
    simpa only [IRxPc.cur, IRxPc.todo, List.append_assoc, List.cons_append, List.nil_append] using this
  | takeStop i need x todo cur hp => exact absurd rfl hs
  | post i need cur hp =>
    have := h2 hm (nr (by rw [hp]; simp))
    rw [hp] at this
    simpa only [IRxPc.cur, IRxPc.todo, List.append_assoc, List.cons_append, List.nil_append, List.append_nil] using this
  | card x rq _ hr =>
    have := h2 hm hs
    rw [hr] at this
    refine List.Perm.trans ?_ this
    dsimp only
    simp only [List.cons_append]
    rw [← List.append_assoc]
    exact List.perm_append_singleton x _
  | mBegin i need hp hm' | mCard x hm' => rw [hm] at hm'; cases hm'
  | mDrained i need iter hm' | mTake i need iter x cq hm' | mStop i need iter x cq hm' | mPartial i need iter hm' => rw [hm] at hm'; cases hm'

theorem IRxInv.order_step {c : IRxCfg} {s s' : IRx} (h : IRxInv c s) (st : IRxStep c s s') :
    (s'.wake ≠ .stopped → s'.arrived = s'.given ++ s'.pc.todo ++ s'.cq) ∧ s'.given <+: s'.arrived := by
  have h3 := h.order
  have h4 := h.pref
  have h5 := h.idle
  have nr : s.pc ≠ .idle → s.wake ≠ .stopped := fun hp hw => hp (h5.mpr (by rw [hw]; decide))
  have fin : ∀ {s' : IRx}, s'.arrived = s'.given ++ s'.pc.todo ++ s'.cq →
      (s'.wake ≠ .stopped → s'.arrived = s'.given ++ s'.pc.todo ++ s'.cq) ∧ s'.given <+: s'.arrived :=
    fun {s'} e => ⟨fun _ => e, by rw [e, List.append_assoc]; exact List.prefix_append _ _⟩
  cases st with
  | run hw =>
    have := h3 (by rw [hw]; decide)
    rw [h5.mpr (by rw [hw]; decide)] at this
    exact fin this
  | notified hw he =>
    have := h3 (by rw [hw]; decide)
    rw [h5.mpr (by rw [hw]; decide)] at this
    exact fin this
  | poll i need hp =>
    have := h3 (nr (by rw [hp]; simp))
    rw [hp] at this
    refine fin ?_
    simp only [IRxPc.todo, List.append_nil] at this ⊢
    rw [List.append_assoc, List.take_append_drop]
    exact this
  | take i need x todo cur hp | takePost i need x todo cur hp =>
    have := h3 (nr (by rw [hp]; simp))
    rw [hp] at this
    refine fin ?_
    simpa only [IRxPc.todo, List.append_assoc, List.cons_append, List.nil_append] using this
  | takeStop i need x todo cur hp =>
    have := h3 (nr (by rw [hp]; simp))
    rw [hp] at this
    refine ⟨fun hs => absurd rfl hs, ⟨todo ++ s.cq, ?_⟩⟩
    rw [this]
    simp only [IRxPc.todo, List.append_assoc, List.cons_append, List.nil_append]
  | mTake i need iter x cq _ hp hi hc =>
    have := h3 (nr (by rw [hp]; simp))
    rw [hp, hc] at this
    refine fin ?_
    simpa only [IRxPc.todo, List.append_assoc, List.cons_append, List.nil_append, List.append_nil] using this
  | mStop i need iter x cq _ hp hi hc =>
    have := h3 (nr (by rw [hp]; simp))
    rw [hp, hc] at this
    refine ⟨fun hs => absurd rfl hs, ⟨cq, ?_⟩⟩
    rw [this]
    simp only [IRxPc.todo, List.append_assoc, List.cons_append, List.nil_append]
  | card x rq hm hr | mCard x hm =>
    refine ⟨fun hs => ?_, List.IsPrefix.trans h4 (List.prefix_append _ _)⟩
    have := h3 hs
    show s.arrived ++ [x] = _
    rw [this, List.append_assoc]
  | again i need hp | arm i need hp | leave i need hp | post i need cur hp | mBegin i need hp | mDrained i need iter _ hp | mPartial i need iter _ hp =>
    have := h3 (nr (by rw [hp]; simp))
    rw [hp] at this
    exact fin this

theorem irx_inv {c : IRxCfg} {s : IRx} (h : IRxReach c s) : IRxInv c s := by
  induction h with
  | init => exact .init c
  | step _ st ih => exact ⟨ih.alert_step st, ih.slots_step st, (ih.order_step st).1, (ih.order_step st).2, ih.idle_step st⟩

theorem irx_kind {c : IRxCfg} {s : IRx} (h : IRxReach c s) {i : Nat} {need : Bool} {iter : Nat} (hp : s.pc = .next i need iter) : c.mprq = true := by
  induction h generalizing i need iter with
  | init => cases hp
  | step _ st ih =>
    cases st with
    | card x rq hm hr => exact ih hp
    | mCard x hm => exact hm
    | mBegin i need _ hm => exact hm
    | mTake i need iter x cq hm => exact hm
    | _ => cases hp

/-- Any number of steps. -/
inductive IRxSteps (c : IRxCfg) : IRx → IRx → Prop
  | refl (s : IRx) : IRxSteps c s s
  | step {s s' s'' : IRx} : IRxStep c s s' → IRxSteps c s' s'' → IRxSteps c s s''

/-- **C63, no missed packet.** If the reader waits for an event and there is none, then no packet is waiting to be processed, and the next packet that
arrives will generate an event. -/
theorem C63_notified {c : IRxCfg} {s : IRx} (h : IRxReach c s) (hw : s.wake = .waiting) (he : s.event = false) :
    s.cq = [] ∧ s.given = s.arrived ∧ s.armed = true := by
  have i := irx_inv h
  have hp := i.idle.mpr (by rw [hw]; decide)
  have ha := i.alert
  unfold IRx.alert at ha
  rw [hp] at ha
  rcases ha hw with h1 | ⟨h1, h2⟩
  · rw [h1] at he; cases he
  · have ho := i.order (by rw [hw]; decide)
    rw [hp, h2] at ho
    exact ⟨h2, by rw [ho]; simp [IRxPc.todo], h1⟩

/-- **C63, order.** Packets are given to the stream in the order in which they arrived, each once, without gaps. -/
theorem C63_order {c : IRxCfg} {s : IRx} (h : IRxReach c s) : s.given <+: s.arrived := (irx_inv h).pref

/-- **C63, slots.** Until the stream is stopped, no slot is lost and none is posted twice: between two calls of the handler each slot is either posted or
holds a packet that has not been processed. -/
theorem C63_slots {c : IRxCfg} (hm : c.mprq = false) {s : IRx} (h : IRxReach c s) (hi : s.pc = .idle) (hs : s.wake ≠ .stopped) :
    (s.rq ++ s.cq).Perm (List.range c.nSlots) := by
  have := (irx_inv h).slots hm hs
  rw [hi] at this
  simpa [IRxPc.cur, IRxPc.todo] using this

theorem irx_poll {c : IRxCfg} {s : IRx} (h : IRxInv c s) {i : Nat} {need : Bool} (hp : s.pc = .poll i need) (hn : s.given ≠ s.arrived) :
    ∃ s' x, IRxSteps c s s' ∧ s'.given = s.given ++ [x] := by
  have hns : s.wake ≠ .stopped := fun hw => by have := h.idle.mpr (by rw [hw]; decide); rw [hp] at this; cases this
  have ho := h.order hns
  rw [hp] at ho
  cases hc : s.cq with
  | nil => rw [hc] at ho; simp [IRxPc.todo] at ho; exact absurd ho.symm hn
  | cons x cq =>
    cases hm : c.mprq with
    | true =>
      exact ⟨_, x, .step (.mBegin s i need hp hm) (.step (.mTake _ i need 0 x cq hm rfl (by decide) hc) (.refl _)), rfl⟩
    | false =>
      have hl := (h.slots hm hns).length_eq
      simp only [List.length_append, List.length_range, hc, List.length_cons] at hl
      obtain ⟨n, hnn⟩ : ∃ n, c.nSlots = n + 1 := ⟨c.nSlots - 1, by omega⟩
      have ht : s.cq.take c.nSlots = x :: cq.take n := by rw [hc, hnn]; rfl
      have st := IRxStep.poll (c := c) s i need hp hm
      rw [ht] at st
      by_cases hb : 0 + 1 = c.postBatch
      · exact ⟨_, x, .step st (.step (.takePost _ i need x _ [] rfl hb) (.refl _)), rfl⟩
      · exact ⟨_, x, .step st (.step (.take _ i need x _ [] rfl hb) (.refl _)), rfl⟩

theorem irx_head {c : IRxCfg} {s : IRx} (h : IRxInv c s) {i : Nat} {need : Bool} (hp : s.pc = .loop i need) (hi : i < c.maxPoll) (hn : s.given ≠ s.arrived) :
    ∃ s' x, IRxSteps c s s' ∧ s'.given = s.given ++ [x] := by
  by_cases ha : c.channel = true → i ≠ c.maxPoll - 1
  · have st := IRxStep.again (c := c) s i need hp hi ha
    obtain ⟨s', x, h1, h2⟩ := irx_poll (⟨h.alert_step st, h.slots_step st, (h.order_step st).1, (h.order_step st).2, h.idle_step st⟩) rfl hn
    exact ⟨s', x, .step st h1, h2⟩
  · have hc : c.channel = true := by
      cases hc : c.channel with
      | true => rfl
      | false => exact absurd (fun h => by rw [hc] at h; cases h) ha
    have he : i = c.maxPoll - 1 := Classical.byContradiction fun he => ha fun _ => he
    have st := IRxStep.arm (c := c) s i need hp hi hc he
    obtain ⟨s', x, h1, h2⟩ := irx_poll (⟨h.alert_step st, h.slots_step st, (h.order_step st).1, (h.order_step st).2, h.idle_step st⟩) rfl hn
    exact ⟨s', x, .step st h1, h2⟩

theorem irx_idle {c : IRxCfg} (hm : 0 < c.maxPoll) {s : IRx} (h : IRxInv c s) (hp : s.pc = .idle) (hs : s.wake ≠ .stopped) (hn : s.given ≠ s.arrived) :
    ∃ s' x, IRxSteps c s s' ∧ s'.given = s.given ++ [x] := by
  cases hw : s.wake with
  | stopped => exact absurd hw hs
  | running => exact absurd hw (h.idle.mp hp)
  | posted =>
    have st := IRxStep.run (c := c) s hw
    obtain ⟨s', x, h1, h2⟩ := irx_head (⟨h.alert_step st, h.slots_step st, (h.order_step st).1, (h.order_step st).2, h.idle_step st⟩) rfl hm hn
    exact ⟨s', x, .step st h1, h2⟩
  | waiting =>
    have he : s.event = true := by
      have ha := h.alert
      unfold IRx.alert at ha
      rw [hp] at ha
      rcases ha hw with h1 | ⟨_, h2⟩
      · exact h1
      · have ho := h.order hs
        rw [hp, h2] at ho
        simp [IRxPc.todo] at ho
        exact absurd ho.symm hn
    have st := IRxStep.notified (c := c) s hw he
    obtain ⟨s', x, h1, h2⟩ := irx_head (⟨h.alert_step st, h.slots_step st, (h.order_step st).1, (h.order_step st).2, h.idle_step st⟩) rfl hm hn
    exact ⟨s', x, .step st h1, h2⟩

theorem irx_loop {c : IRxCfg} (hm : 0 < c.maxPoll) {s : IRx} (h : IRxInv c s) {i : Nat} {need : Bool} (hp : s.pc = .loop i need) (hn : s.given ≠ s.arrived) :
    ∃ s' x, IRxSteps c s s' ∧ s'.given = s.given ++ [x] := by
  by_cases hi : i < c.maxPoll
  · exact irx_head h hp hi hn
  · have st := IRxStep.leave (c := c) s i need hp hi
    obtain ⟨s', x, h1, h2⟩ := irx_idle hm (⟨h.alert_step st, h.slots_step st, (h.order_step st).1, (h.order_step st).2, h.idle_step st⟩) rfl
      (by dsimp only; split <;> simp) hn
    exact ⟨s', x, .step st h1, h2⟩

/-- **C63, progress.** As long as a packet that arrived has not been given to the stream and the stream is not stopped, the reader can get to it without any
other packet arriving. -/
theorem C63_progress {c : IRxCfg} (hm : 0 < c.maxPoll) {s : IRx} (h : IRxReach c s) (hs : s.wake ≠ .stopped) (hn : s.given ≠ s.arrived) :
    ∃ s' x, IRxSteps c s s' ∧ s'.given = s.given ++ [x] := by
  have i := irx_inv h
  cases hp : s.pc with
  | idle => exact irx_idle hm i hp hs hn
  | loop j need => exact irx_loop hm i hp hn
  | poll j need => exact irx_poll i hp hn
  | proc j need todo cur =>
    cases todo with
    | nil =>
      have st := IRxStep.post (c := c) s j need cur hp
      obtain ⟨s', x, h1, h2⟩ := irx_loop hm (⟨i.alert_step st, i.slots_step st, (i.order_step st).1, (i.order_step st).2, i.idle_step st⟩) rfl hn
      exact ⟨s', x, .step st h1, h2⟩
    | cons x todo =>
      by_cases hb : cur.length + 1 = c.postBatch
      · exact ⟨_, x, .step (.takePost s j need x todo cur hp hb) (.refl _), rfl⟩
      · exact ⟨_, x, .step (.take s j need x todo cur hp hb) (.refl _), rfl⟩
  | next j need iter =>
    have hmp : c.mprq = true := irx_kind h hp
    have ho := i.order hs
    rw [hp] at ho
    cases hc : s.cq with
    | nil => rw [hc] at ho; simp [IRxPc.todo] at ho; exact absurd ho.symm hn
    | cons x cq =>
      by_cases hi : iter < mprqMaxIter
      · exact ⟨_, x, .step (.mTake s j need iter x cq hmp hp hi hc) (.refl _), rfl⟩
      · have st := IRxStep.mPartial (c := c) s j need iter hmp hp hi
        obtain ⟨s', x, h1, h2⟩ := irx_loop hm (⟨i.alert_step st, i.slots_step st, (i.order_step st).1, (i.order_step st).2, i.idle_step st⟩) rfl hn
        exact ⟨s', x, .step st h1, h2⟩

/-- Non-vacuity: two slots, one poll per handler. -/
def irxDemo : IRxCfg := { nSlots := 2, maxPoll := 1, postBatch := 1 }

/-- Nothing has arrived, and the reader waits. -/
example : ∃ s, IRxReach irxDemo s ∧ s.wake = .waiting ∧ s.event = false ∧ s.pc = .idle :=
  ⟨_, (((((IRxReach.init.step (.run _ rfl)).step (.arm _ 0 _ rfl (by decide) rfl rfl)).step (.poll _ 0 _ rfl rfl)).step (.post _ 0 _ _ rfl)).step
    (.leave _ 1 _ rfl (by decide))), rfl, rfl, rfl⟩

/-- A packet arrives between the last poll and the wait: there is an event. -/
example : ∃ s, IRxReach irxDemo s ∧ s.wake = .waiting ∧ s.event = true ∧ s.cq = [0] ∧ s.rq = [1] ∧ s.given ≠ s.arrived :=
  ⟨_, ((((((IRxReach.init.step (.run _ rfl)).step (.arm _ 0 _ rfl (by decide) rfl rfl)).step (.poll _ 0 _ rfl rfl)).step (.card _ 0 [1] rfl rfl)).step
    (.post _ 0 _ _ rfl)).step (.leave _ 1 _ rfl (by decide))), rfl, rfl, rfl, rfl, by decide⟩

/-- Two packets are processed and their slots posted again, while a third one arrives in the first slot. -/
example : ∃ s, IRxReach irxDemo s ∧ s.arrived = [0, 1, 0] ∧ s.given = [0, 1] ∧ s.rq = [1] :=
  ⟨_, (((((((IRxReach.init.step (.run _ rfl)).step (.card _ 0 [1] rfl rfl)).step (.card _ 1 [] rfl rfl)).step (.arm _ 0 _ rfl (by decide) rfl rfl)).step
    (.poll _ 0 _ rfl rfl)).step (.takePost _ 0 _ 0 [1] [] rfl rfl)).step (.card _ 0 [] rfl rfl)).step (.takePost _ 0 _ 1 [] [] rfl rfl), rfl, rfl, rfl⟩

/-- The multi-packet receive queue: a packet is processed. -/
example : ∃ s, IRxReach { irxDemo with mprq := true } s ∧ s.given = [7] ∧ s.pc = .next 0 false 1 :=
  ⟨_, (((((IRxReach.init.step (.mCard _ 7 rfl)).step (.run _ rfl)).step (.arm _ 0 _ rfl (by decide) rfl rfl)).step (.mBegin _ 0 _ rfl rfl)).step
    (.mTake _ 0 _ 0 7 [] rfl rfl (by decide) rfl)), rfl, rfl⟩

end Spead2
