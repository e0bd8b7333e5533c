import Verif.Lemmas.LifecycleProgress

/-! # C56, C57: starting, stopping and destroying a stream -/

namespace Spead2

open Spec

theorem LcSafe.alive_of_body {s : LcState} (h : LcSafe s) {t : Nat} (hb : inHandlerBody (s.pc t) = true) : s.alive = true := by
  cases ha : s.alive
  · exact absurd (h.dead ha).1 (h.quiet t hb).1
  · rfl

/-- **C56, memory.** Whatever users and I/O threads do, the next action of any thread only uses a stream that has not been freed, a reader that
the stream has and that has not been freed, and a shared state that something still refers to. -/
theorem C56_memory {cfg : LcConfig} {s : LcState} (h : LcReachable cfg s) (t : Nat) :
    (usesStream (s.pc t) = true → s.alive = true) ∧
    (∀ i, usesReader (s.pc t) = some i → s.alive = true ∧ i < s.readers.length) ∧
    (usesShared (s.pc t) = true → sharedExists s) := by
  obtain ⟨L, S, R, _⟩ := reach_all h
  have cases3 : ∀ p : LcPc, p.isUser = true ∨ inHandlerBody p = true ∨ usesStream p = false := by
    intro p
    cases p <;> (try cases ‹LcBy›) <;> first | exact Or.inl rfl | exact Or.inr (Or.inl rfl) | exact Or.inr (Or.inr rfl)
  have us : usesStream (s.pc t) = true → s.alive = true := fun hu => by
    rcases cases3 (s.pc t) with a | a | a
    · exact (S.user t a).1
    · exact S.alive_of_body a
    · rw [a] at hu; cases hu
  refine ⟨us, fun i hi => ?_, fun hs => ?_⟩
  · generalize hp : s.pc t = p at hi us
    cases p <;> simp only [usesReader] at hi <;> try (cases hi; done)
    case hBody k =>
      refine ⟨us rfl, R.ref t i ?_⟩
      rw [hp]
      cases k with
      | none => cases hi
      | some j => exact hi
    case emplaceStart => exact ⟨us rfl, R.ref t i (by rw [hp]; exact hi)⟩
  · have shared : ∀ p : LcPc, usesShared p = true → usesStream p = true ∨ p.isUser = true ∨ holdsRef p = true ∨ inHandlerBody p = true := by
      intro p
      cases p <;> simp [usesShared, usesStream, LcPc.isUser, LcPc.isHandler, holdsRef, inHandlerBody] <;> rename_i c <;> cases c <;> simp
    rcases shared _ hs with a | a | a | a
    · exact Or.inl (us a)
    · exact Or.inl (S.user t a).1
    · exact Or.inr (Or.inr ⟨t, a⟩)
    · exact Or.inl (S.alive_of_body a)

theorem stop_final {cfg : LcConfig} {s : LcState} (h : LcReachable cfg s) (hd : lcStopReturned s) :
    s.noMore = true ∧ ∀ t, inHandlerBody (s.pc t) = false ∧ inStopReceived (s.pc t) = false := by
  obtain ⟨L, S, R, _⟩ := reach_all h
  have nb : ∀ t, inHandlerBody (s.pc t) = false := fun t => by
    cases hb : inHandlerBody (s.pc t)
    · rfl
    · exact absurd hd (S.quiet t hb).1
  have no : ∀ t, (s.pc t).inOnce = false := fun t => by
    cases hb : (s.pc t).inOnce
    · rfl
    · have := (L.once t).mp hb
      rw [hd] at this; cases this
  have sr : ∀ p : LcPc, inStopReceived p = true → inHandlerBody p = true ∨ p.inOnce = true := by
    intro p
    cases p <;> (try cases ‹LcBy›) <;> first | (intro hc; cases hc; done) | exact fun _ => Or.inl rfl | exact fun _ => Or.inr rfl
  have ns : ∀ t, inStopReceived (s.pc t) = false := fun t => by
    cases hb : inStopReceived (s.pc t)
    · rfl
    · rcases sr _ hb with a | a
      · rw [nb t] at a; cases a
      · rw [no t] at a; cases a
  refine ⟨?_, fun t => ⟨nb t, ns t⟩⟩
  cases hn : s.noMore
  · obtain ⟨t, ht⟩ := R.wait (S.done hd) hn
    have := ns t
    revert ht this
    cases s.pc t <;> simp [LcPc.preSet, inStopReceived]
  · rfl

theorem once_done_step {cfg : LcConfig} {s s' : LcState} (h : s.once = .done) (st : LcCont cfg s s') : s'.once = .done := by
  cases st
  case stopOnce t d hp hf => rw [h] at hf; cases hf
  all_goals first | exact h | rfl

theorem once_done_begin {s s' : LcState} (h : s.once = .done) (st : LcBegin s s') : s'.once = .done := by
  cases st <;> exact h

/-- The readers and how often they were stopped. -/
def stopCounts (s : LcState) : List Nat := s.readers.map (fun x : LcReader => x.stops)

theorem map_stops_modify (l : List LcReader) (i : Nat) (f : LcReader → LcReader) (hf : ∀ x, (f x).stops = x.stops) :
    (l.modify i f).map (fun x : LcReader => x.stops) = l.map (fun x : LcReader => x.stops) := by
  apply List.ext_getElem?
  intro j
  rw [List.getElem?_map, List.getElem?_map, List.getElem?_modify]
  cases l[j]? with
  | none => rfl
  | some x =>
    by_cases e : i = j
    · simp [e, hf]
    · simp [e]

theorem counts_cont {cfg : LcConfig} {s s' : LcState} (h : LcReachable cfg s) (hd : lcStopReturned s) (st : LcCont cfg s s') :
    stopCounts s' = stopCounts s := by
  obtain ⟨L, S, R, _⟩ := reach_all h
  have f := stop_final h hd
  cases st
  case emplaceMake t hp =>
    have := R.make t (by rw [hp]; rfl)
    rw [f.1] at this; cases this
  case recvStop t c i hp hi =>
    have := (f.2 t).2
    rw [hp] at this; cases this
  all_goals first
    | rfl
    | exact map_stops_modify _ _ _ fun _ => rfl

theorem LcSteps.trans {cfg : LcConfig} {s s' s'' : LcState} (h : LcSteps cfg s s') (h' : LcSteps cfg s' s'') : LcSteps cfg s s'' := by
  induction h' with
  | refl => exact h
  | start _ st ih => exact .start ih st
  | step _ st ih => exact .step ih st

/-- **C56, the end.** Once a call of `stop` has returned, no thread runs code of a reader or hands over heaps, each reader that was ever added has
been told to stop exactly once, and this is final: handlers that run later do nothing, no reader is added and none is told to stop again. -/
theorem C56_after_stop {cfg : LcConfig} {s : LcState} (h : LcReachable cfg s) (hd : lcStopReturned s) :
    (∀ t, inHandlerBody (s.pc t) = false ∧ inStopReceived (s.pc t) = false) ∧ (∀ n ∈ stopCounts s, n = 1) ∧
    ∀ s', LcSteps cfg s s' → lcStopReturned s' ∧ (∀ t, inHandlerBody (s'.pc t) = false ∧ inStopReceived (s'.pc t) = false) ∧
      stopCounts s' = stopCounts s := by
  obtain ⟨L, S, R, _⟩ := reach_all h
  have f := stop_final h hd
  refine ⟨f.2, fun n hn => ?_, fun s' hs => ?_⟩
  · obtain ⟨x, hx, rfl⟩ := List.mem_map.mp hn
    obtain ⟨j, hj⟩ := List.getElem?_of_mem hx
    exact R.all f.1 j x hj
  · have key : lcStopReturned s' ∧ stopCounts s' = stopCounts s := by
      induction hs with
      | refl => exact ⟨hd, rfl⟩
      | start _ st ih =>
        refine ⟨once_done_begin ih.1 st, ?_⟩
        rw [← ih.2]
        cases st <;> rfl
      | step pre st ih =>
        exact ⟨once_done_step ih.1 st, (counts_cont (h.trans pre) ih.1 st).trans ih.2⟩
    exact ⟨key.1, (stop_final (h.trans hs) key.1).2, key.2⟩

/-- **C56, stopping once.** The stream is stopped at most once, whoever stops it: `stop_received` is only entered while the stream is not stopped,
by one thread at a time; and no reader is ever told to stop twice. -/
theorem C56_once {cfg : LcConfig} {s : LcState} (h : LcReachable cfg s) :
    (∀ t c, s.pc t = .recvMark c → s.stopped = false) ∧
    (∀ t u, inStopReceived (s.pc t) = true → inStopReceived (s.pc u) = true → t = u) ∧ (∀ n ∈ stopCounts s, n ≤ 1) := by
  obtain ⟨L, S, R, _⟩ := reach_all h
  have hold : ∀ p : LcPc, inStopReceived p = true → p.holdsQ = true := by
    intro p; cases p <;> simp [inStopReceived, LcPc.holdsQ]
  refine ⟨fun t c hp => S.pre' hp rfl, fun t u ht hu => ?_, fun n hn => ?_⟩
  · have a := (L.q t).mp (hold _ ht)
    have b := (L.q u).mp (hold _ hu)
    rw [a] at b; exact Option.some.inj b
  · obtain ⟨x, hx, rfl⟩ := List.mem_map.mp hn
    obtain ⟨j, hj⟩ := List.getElem?_of_mem hx
    show x.stops ≤ 1
    cases hn : s.noMore
    · by_cases h1 : ∃ t c i, s.pc t = .recvStop c i
      · obtain ⟨t, c, i, ht⟩ := h1
        rw [(R.mid t c i ht).2 j x hj]; split <;> omega
      · by_cases h2 : ∃ t c, s.pc t = .recvSet c
        · obtain ⟨t, c, ht⟩ := h2
          rw [R.full t c ht j x hj]; omega
        · rw [R.fresh hn (fun t c i e => h1 ⟨t, c, i, e⟩) (fun t c e => h2 ⟨t, c, e⟩) j x hj]; omega
    · rw [R.all hn j x hj]; omega

/-- The thread is about to do the stop that its handler asked for. -/
def LcPc.willStop : LcPc → Bool
  | .hEnd _ true | .recvMark .handler => true
  | _ => false

/-- A stop that was asked for has been done or is about to be done. -/
def LcAsked (s : LcState) : Prop := s.asked = true → s.stopped = true ∨ ∃ t, (s.pc t).willStop = true

theorem LcAsked.go {s X : LcState} {t : Nat} {p p' : LcPc} (h : LcAsked s) (hp : s.pc t = p) (hx : X.pc = s.pc)
    (h1 : X.asked = s.asked ∨ p'.willStop = true) (h2 : X.stopped = s.stopped ∨ X.stopped = true)
    (h3 : p.willStop = true → p'.willStop = true ∨ X.stopped = true) : LcAsked (X.go t p') := by
  intro ha
  change X.asked = true at ha
  show X.stopped = true ∨ _
  have new : p'.willStop = true → ∃ u, ((X.go t p').pc u).willStop = true := fun e => ⟨t, by rw [go_pc_self]; exact e⟩
  rcases h1 with e | e
  · rw [e] at ha
    rcases h ha with a | ⟨u, a⟩
    · rcases h2 with b | b
      · exact Or.inl (b.trans a)
      · exact Or.inl b
    · by_cases e : u = t
      · subst e
        rw [hp] at a
        rcases h3 a with b | b
        · exact Or.inr (new b)
        · exact Or.inl b
      · exact Or.inr ⟨u, by rw [go_pc_ne _ _ _ e, hx]; exact a⟩
  · exact Or.inr (new e)

theorem LcAsked.cont {cfg : LcConfig} {s s' : LcState} (h : LcAsked s) (st : LcCont cfg s s') : LcAsked s' := by
  cases st
  case emplacePost => exact h
  case startPost => exact h
  case hPost => exact h
  case hBody t k st hp =>
    cases st
    · exact h.go hp rfl (Or.inl (Bool.or_false _)) (Or.inl rfl) (fun hc => by cases hc)
    · exact h.go hp rfl (Or.inr rfl) (Or.inl rfl) (fun hc => by cases hc)
  case hEnd t k st hp =>
    cases st
    · exact h.go hp rfl (Or.inl rfl) (Or.inl rfl) (fun hc => by cases hc)
    · exact h.go hp rfl (Or.inl rfl) (Or.inl rfl) (fun _ => Or.inl rfl)
  case recvMark t c hp => exact h.go hp rfl (Or.inl rfl) (Or.inr rfl) (fun _ => Or.inr rfl)
  all_goals exact h.go ‹_› rfl (Or.inl rfl) (Or.inl rfl) (fun hc => by cases hc)

theorem LcAsked.fresh {s X : LcState} {t : Nat} {p : LcPc} (h : LcAsked s) (hi : s.pc t = .idle) (hx : X.pc = s.pc)
    (h1 : X.asked = s.asked) (h2 : X.stopped = s.stopped) : LcAsked (X.go t p) :=
  h.go hi hx (Or.inl h1) (Or.inl h2) (fun hc => by cases hc)

theorem LcAsked.begin {s s' : LcState} (h : LcAsked s) (st : LcBegin s s') : LcAsked s' := by
  cases st with
  | call t p h1 => exact h.fresh h1 rfl rfl rfl
  | destroy t h1 => exact h.fresh h1 rfl rfl rfl
  | run t k h1 => exact h.fresh h1 rfl rfl rfl
  | post => exact h

/-- **C56, stops from the network.** If a packet or a reader has stopped the stream, then the stream is stopped as soon as the handler in
question is done. -/
theorem C56_network_stop {cfg : LcConfig} {s : LcState} (h : LcReachable cfg s) (ha : s.asked = true)
    (hn : ∀ t, inHandlerBody (s.pc t) = false) : s.stopped = true := by
  have key : LcAsked s := by
    unfold LcReachable at h
    generalize hi : LcState.init cfg = i at h
    clear ha hn
    induction h with
    | refl => subst hi; intro ha; cases ha
    | start _ st ih => exact ih.begin st
    | step _ st ih => exact ih.cont st
  rcases key ha with a | ⟨t, a⟩
  · exact a
  · have b := hn t
    revert a b
    cases s.pc t <;> (try cases ‹LcBy›) <;> simp [LcPc.willStop, inHandlerBody]

/-- **C56, no deadlock.** From every state that a stream can get into, all calls and handlers that are in progress can be completed, without
beginning new ones. -/
theorem C56_no_deadlock {cfg : LcConfig} {s : LcState} (h : LcReachable cfg s) : ∃ s', LcConts cfg s s' ∧ allIdle s' := by
  obtain ⟨L, _, _, N, hN⟩ := reach_all h
  exact drain N _ _ s L hN rfl rfl

/-- **C57, as one would like to have it.** A reader is never started twice, nor after it was stopped. -/
def C57_statement : Prop :=
  ∀ (cfg : LcConfig) (s : LcState), LcReachable cfg s → ∀ x ∈ s.readers, x.late = false ∧ x.starts ≤ 1

/-- **C57, partial.** It holds for streams that are not started explicitly. Missing: streams with `explicit_start`, where it is false. -/
theorem C57_start_partial {cfg : LcConfig} (hc : cfg.explicitStart = false) {s : LcState} (h : LcReachable cfg s) :
    ∀ x ∈ s.readers, x.late = false ∧ x.starts ≤ 1 := by
  obtain ⟨_, _, R, _⟩ := reach_all h
  intro x hx
  obtain ⟨j, hj⟩ := List.getElem?_of_mem hx
  obtain ⟨a, b⟩ := R.imps hc j x hj
  exact ⟨a, by rcases b with b | b <;> omega⟩

/-- With `explicit_start`: a reader is added, the stream is stopped, then started. -/
theorem late_start : ∃ s, LcReachable ⟨true⟩ s ∧ ∃ x ∈ s.readers, x.late = true :=
  ⟨_, (((((((((((((((((((((LcSteps.refl (LcState.init ⟨true⟩)).start (.call _ 0 .emplaceLock rfl rfl rfl)).step (.emplaceLock _ 0 rfl rfl)).step
    (.emplaceCheck _ 0 rfl)).step (.emplaceMake _ 0 rfl)).step (.emplaceUnlock _ 0 rfl)).start (.call _ 0 (.stopOnce false) rfl rfl rfl)).step
    (.stopOnce _ 0 _ rfl rfl)).step (.stopLock _ 0 _ rfl rfl)).step (.stopCheck _ 0 _ rfl)).step (.recvMark _ 0 _ rfl)).step
    (.recvFlush _ 0 _ rfl)).step (.recvLock _ 0 _ rfl rfl)).step (.recvStop _ 0 _ 0 rfl (by decide))).step (.recvEnd _ 0 _ 1 rfl (by decide))).step
    (.recvSet _ 0 _ rfl)).step (.recvUnlock _ 0 _ false rfl)).step (.stopUnlock _ 0 _ rfl)).step (.stopDone _ 0 _ rfl)).step
    (.stopReturn _ 0 _ rfl)).start (.call _ 0 .startLock rfl rfl rfl)).step (.startLock _ 0 rfl rfl) |>.step (.startCheck _ 0 rfl) |>.step
    (.startEach _ 0 0 rfl (by decide)), { starts := 1, stops := 1, late := true }, by decide, rfl⟩

/-- **C57 is violated.** -/
theorem C57_violated : ¬ C57_statement := by
  intro h
  obtain ⟨s, hs, x, hx, hl⟩ := late_start
  rw [(h _ s hs x hx).1] at hl
  cases hl

/-- The run used in the examples: a reader is added and leaves two handlers with the I/O context; thread 1 runs one of them, whose last packet
stops the stream; meanwhile thread 0 calls the destructor, which waits for thread 1, and thread 2 runs the other handler. -/
theorem destroy_run : ∃ s, LcReachable ⟨false⟩ s ∧ s.pc 0 = .stopLock true ∧ s.pc 1 = .recvStop .handler 1 ∧ s.pc 2 = .hLock (some 0) ∧
    stopCounts s = [1] ∧ s.alive = true ∧ s.asked = true :=
  ⟨_, (((((((((((((((((LcSteps.refl (LcState.init ⟨false⟩)).start (.call _ 0 .emplaceLock rfl rfl rfl)).step (.emplaceLock _ 0 rfl rfl)).step
    (.emplaceCheck _ 0 rfl)).step (.emplaceMake _ 0 rfl)).step (.emplacePost _ 0 0 rfl)).step (.emplacePost _ 0 0 rfl)).step
    (.emplaceStart _ 0 0 rfl)).step (.emplaceUnlock _ 0 rfl)).start (.run _ 1 (some 0) rfl (by decide))).step (.hLock _ 1 _ rfl rfl)).start
    (.run _ 2 (some 0) rfl (by decide))).step (.hEnter _ 1 _ rfl)).step (.hBody _ 1 _ true rfl)).step (.hEnd _ 1 _ _ rfl)).start
    (.destroy _ 0 rfl rfl (fun u => by
      by_cases h2 : u = 2
      · exact Or.inr (by simp [LcState.go, h2, LcPc.isHandler])
      · by_cases h1 : u = 1
        · exact Or.inr (by simp [LcState.go, h1, LcPc.isHandler])
        · exact Or.inl (by simp [LcState.go, LcState.init, LcState.startReader, h1, h2]; intro h; simp [h])))).step (.stopOnce _ 0 _ rfl rfl)).step
    (.recvMark _ 1 _ rfl) |>.step (.recvFlush _ 1 _ rfl) |>.step (.recvLock _ 1 _ rfl rfl) |>.step (.recvStop _ 1 _ 0 rfl (by decide)),
    rfl, rfl, rfl, rfl, rfl, rfl⟩

/-- It goes on: thread 1 finishes, the destructor frees everything, and only then thread 2 gets to run its handler, which does nothing. -/
theorem late_handler : ∃ s, LcReachable ⟨false⟩ s ∧ s.alive = false ∧ lcStopReturned s ∧ stopCounts s = [1] ∧ s.pc 2 = .hUnlock true := by
  exact ⟨_, ((((((((((((LcSteps.refl (LcState.init ⟨false⟩)).start (.call _ 0 .emplaceLock rfl rfl rfl)).step (.emplaceLock _ 0 rfl rfl)).step
    (.emplaceCheck _ 0 rfl)).step (.emplaceMake _ 0 rfl)).step (.emplacePost _ 0 0 rfl)).step (.emplaceStart _ 0 0 rfl)).step
    (.emplaceUnlock _ 0 rfl)).start (.run _ 2 (some 0) rfl (by decide))).start
    (.destroy _ 0 rfl rfl (fun u => by
      by_cases h2 : u = 2
      · exact Or.inr (by simp [LcState.go, h2, LcPc.isHandler])
      · exact Or.inl (by simp [LcState.go, LcState.init, LcState.startReader, h2]; intro h; simp [h])))).step (.stopOnce _ 0 _ rfl rfl)).step
    (.stopLock _ 0 _ rfl rfl)).step (.stopCheck _ 0 _ rfl) |>.step (.recvMark _ 0 _ rfl) |>.step (.recvFlush _ 0 _ rfl) |>.step
    (.recvLock _ 0 _ rfl rfl) |>.step (.recvStop _ 0 _ 0 rfl (by decide)) |>.step (.recvEnd _ 0 _ 1 rfl (by decide)) |>.step
    (.recvSet _ 0 _ rfl) |>.step (.recvUnlock _ 0 _ false rfl) |>.step (.stopUnlock _ 0 _ rfl) |>.step (.stopDone _ 0 _ rfl) |>.step
    (.stopReturn _ 0 _ rfl) |>.step (.free _ 0 rfl) |>.step (.hLock _ 2 _ rfl rfl) |>.step (.hEnter _ 2 _ rfl), rfl, rfl, rfl, rfl⟩

/-- C56 applies to it: the shared state still exists, and everything can be completed. -/
example : ∃ s, LcReachable ⟨false⟩ s ∧ s.alive = false ∧ sharedExists s ∧ ∃ s', LcConts ⟨false⟩ s s' ∧ allIdle s' := by
  obtain ⟨s, hs, ha, _, _, h2⟩ := late_handler
  exact ⟨s, hs, ha, (C56_memory hs 2).2.2 (by rw [h2]; rfl), C56_no_deadlock hs⟩

end Spead2
