import Verif.Lemmas.TcpConn

/-!
# C109: the connection of a TCP reader
-/

namespace Spead2.TcpConn

open Spead2.Spec

/-- **C109.** In every history, the reader takes the first client only, and all others are turned away: they cannot connect, or their connection is reset. -/
theorem C109_one (cfg : StreamConfig) (max : Nat) (fill : UInt8) (es : List Ev) (hn : Ev.stop ∉ es) (s : St) (h : run cfg max fill es (St.new cfg) = some s) (k : Nat) (hk : Taken s k) :
    k = 0 ∧ s.listening = false ∧ s.queue = [] ∧ (∀ j, 0 < j → j < s.conns.length → j ∈ s.dropped ∨ j ∈ s.refused) ∧ ∀ j, j ∈ s.dropped ∨ j ∈ s.refused → j ≠ 0 := by
  have hi := inv_run es (inv_new cfg max fill) hn h
  obtain ⟨r, u, hp⟩ := hk
  unfold Inv at hi
  rw [hp] at hi
  obtain ⟨h0, ⟨h1, h2, h3, h4⟩, _⟩ := hi
  exact ⟨h0, h1, h2, h3, fun j hj => Nat.pos_iff_ne_zero.mp (h4 j hj)⟩

/-- The empty batch of `accept_handler`. -/
theorem accept_ops {cfg : StreamConfig} {s0 : Stream} (h : (Stream.new cfg).batch cfg [] = some (s0, [])) :
    Stream.run cfg [.batch []] (Stream.new cfg) = some (s0, []) ∧ ∀ op ∈ [StreamOp.batch []], op.Valid := by
  refine ⟨?_, ?_⟩
  · simp only [Stream.run, Stream.step, h, Option.bind_eq_bind, Option.bind_some]
    rfl
  · intro op hop
    rw [List.mem_singleton.mp hop]
    intro p hp
    cases hp

/-- **C109.** The heaps that were handed over are those of the packets in what has been read, which is the first so many bytes of what that client sent; the stream was ended after them only if the client has closed the connection and everything it sent has been read. -/
theorem C109_gets (cfg : StreamConfig) (hm : 0 < cfg.maxHeaps) (hsub : 0 < cfg.substreams) (max : Nat) (hmax : 0 < max) (fill : UInt8) (es : List Ev) (hn : Ev.stop ∉ es) (s : St)
    (h : run cfg max fill es (St.new cfg) = some s) (k : Nat) (r : TcpReader) (u : Nat) (hp : s.phase = .reading k r u) :
    ∃ c s0 closed ps s'', s.conns[k]? = some c ∧ u ≤ c.sent.length ∧ (Stream.new cfg).batch cfg [] = some (s0, []) ∧
      TcpPackets max (c.sent.take u) ps ∧ (∀ ps', TcpPackets max (c.sent.take u) ps' → ps' = ps) ∧
      s0.batch cfg (ps.map .packet ++ if closed then [.stop] else []) = some (s'', s.out) ∧ s.stream.stopped = s''.stopped ∧
      (closed = true → c.finished = true ∧ u = c.sent.length) := by
  have hi := inv_run es (inv_new cfg max fill) hn h
  unfold Inv at hi
  rw [hp] at hi
  obtain ⟨rfl, _, c, reads, tail, r0, s0, h1, h2, h3, h4, h5, h6, h7⟩ := hi
  obtain ⟨g1, g2⟩ := accept_ops h5
  rcases h7 with rfl | ⟨rfl, _, hf, hu⟩ | ⟨rfl, _, hl⟩
  · obtain ⟨ps, s'', a1, a2, a3, _, a5, _⟩ := C27_segmentation cfg hm hsub max hmax g2 g1 h4 reads false h6
    rw [h3] at a1 a2
    exact ⟨c, s0, false, ps, s'', h1, h2, h5, a1, a2, a3, a5, (fun h => by cases h)⟩
  · obtain ⟨ps, s'', a1, a2, a3, _, a5, _⟩ := C27_segmentation cfg hm hsub max hmax g2 g1 h4 reads true h6
    rw [h3] at a1 a2
    exact ⟨c, s0, true, ps, s'', h1, h2, h5, a1, a2, a3, a5, fun _ => ⟨hf, hu⟩⟩
  · rw [tcpRun_append] at h6
    simp only [Option.bind_eq_some_iff, Option.map_eq_some_iff] at h6
    obtain ⟨⟨r1, s1, o1⟩, e1, ⟨r2, s2, o2⟩, e2, e3⟩ := h6
    simp only [Prod.mk.injEq] at e3
    obtain ⟨rfl, e4, e5⟩ := e3
    have hone : TcpReader.step cfg max r1 s1 .error = some (r2, s2, o2) := by
      rw [TcpReader.run] at e2
      cases hs : TcpReader.step cfg max r1 s1 .error with
      | none => rw [hs] at e2; cases e2
      | some x =>
        obtain ⟨a, b, o⟩ := x
        rw [hs] at e2
        simp only [TcpReader.run, Option.some.injEq, Prod.mk.injEq, List.append_nil] at e2
        obtain ⟨rfl, rfl, rfl⟩ := e2
        rfl
    obtain ⟨q1, q2, _⟩ := error_step hone
    obtain ⟨ps, s'', a1, a2, a3, _, a5, _⟩ := C27_segmentation cfg hm hsub max hmax g2 g1 h4 reads false (r' := r1) (s' := s1) (out := o1) (by simpa [eofEvent] using e1)
    rw [h3] at a1 a2
    rw [q1, List.append_nil] at e5
    exact ⟨c, s0, false, ps, s'', h1, h2, h5, a1, a2, by rw [← e5]; exact a3, by rw [← e4, q2]; exact a5, (fun h => by cases h)⟩

/-- **C109.** End of file: if the reader waits, the client has closed the connection and all of its bytes have been read, the next receive ends the stream. -/
theorem C109_eof (cfg : StreamConfig) (max : Nat) (fill : UInt8) (s t : St) (k : Nat) (r : TcpReader) (c : Conn) (hp : s.phase = .reading k r c.sent.length) (hr : r.reading = true)
    (hs : 0 < r.tcp.space) (hc : s.conns[k]? = some c) (hf : c.finished = true) (h : step cfg max fill s .eof = some t) : t.stream.stopped = true ∧ Finished t := by
  simp only [step, hp, hc] at h
  rw [if_pos (by exact ⟨hr, hs, trivial, hf⟩)] at h
  unfold St.complete at h
  simp only [Option.map_eq_some_iff] at h
  obtain ⟨⟨r', s', o⟩, h1, rfl⟩ := h
  obtain ⟨e1, e2⟩ := eof_step h1 hr
  exact ⟨e1, Or.inr ⟨k, r', _, rfl, e2⟩⟩

/-- No connection was lost, and the accept did not fail. -/
def Calm (s : St) : Prop := (∀ c ∈ s.conns, c.lost = false) ∧ s.phase ≠ .idle

theorem calm_modify {s : St} (h : Calm s) (k : Nat) (f : Conn → Conn) (hf : ∀ c, (f c).lost = c.lost) : Calm { s with conns := s.conns.modify k f } := by
  refine ⟨?_, h.2⟩
  intro c hc
  obtain ⟨i, hi⟩ := List.mem_iff_getElem?.mp hc
  simp only [List.getElem?_modify, Option.map_eq_map, Option.map_eq_some_iff] at hi
  obtain ⟨d, hd, he⟩ := hi
  have := h.1 d (List.mem_of_getElem? hd)
  rw [← he]
  split
  · rw [hf]; exact this
  · exact this

theorem calm_step {cfg : StreamConfig} {max : Nat} {fill : UInt8} {s t : St} (hi : Calm s) {e : Ev} (h1 : e ≠ .stop) (h2 : e ≠ .acceptFail) (h3 : ∀ k, e ≠ .lose k) (h : step cfg max fill s e = some t) : Calm t := by
  cases e with
  | stop => exact absurd rfl h1
  | acceptFail => exact absurd rfl h2
  | lose k => exact absurd rfl (h3 k)
  | connect =>
    have hc : ∀ c ∈ s.conns ++ [({} : Conn)], c.lost = false := by
      intro c hc
      rcases List.mem_append.mp hc with hc | hc
      · exact hi.1 c hc
      · rw [List.mem_singleton.mp hc]
    simp only [step] at h
    split at h <;> (cases h; exact ⟨hc, hi.2⟩)
  | send k b =>
    simp only [step, Option.some.injEq] at h
    subst h
    apply calm_modify hi
    intro c
    split <;> rfl
  | finish k =>
    simp only [step, Option.some.injEq] at h
    subst h
    exact calm_modify hi k _ fun _ => rfl
  | accept =>
    simp only [step] at h
    split at h
    · simp only [Option.bind_eq_bind, Option.bind_eq_some_iff, Option.some.injEq] at h
      obtain ⟨r, _, x, _, rfl⟩ := h
      exact ⟨hi.1, (fun h => by cases h)⟩
    · cases h; exact hi
  | recv n =>
    simp only [step] at h
    split at h
    · split at h
      · split at h
        · simp only [St.complete, Option.map_eq_some_iff] at h
          obtain ⟨x, _, rfl⟩ := h
          exact ⟨hi.1, (fun h => by cases h)⟩
        · cases h; exact hi
      · cases h; exact hi
    · cases h; exact hi
  | eof =>
    simp only [step] at h
    split at h
    · split at h
      · split at h
        · simp only [St.complete, Option.map_eq_some_iff] at h
          obtain ⟨x, _, rfl⟩ := h
          exact ⟨hi.1, (fun h => by cases h)⟩
        · cases h; exact hi
      · cases h; exact hi
    · cases h; exact hi
  | fail =>
    simp only [step] at h
    split at h
    · split at h
      · split at h
        · simp only [St.complete, Option.map_eq_some_iff] at h
          obtain ⟨x, _, rfl⟩ := h
          exact ⟨hi.1, (fun h => by cases h)⟩
        · cases h; exact hi
      · cases h; exact hi
    · cases h; exact hi

theorem calm_run {cfg : StreamConfig} {max : Nat} {fill : UInt8} (es : List Ev) : ∀ {s t : St}, Calm s → (∀ e ∈ es, e ≠ .stop ∧ e ≠ .acceptFail ∧ ∀ k, e ≠ .lose k) → run cfg max fill es s = some t → Calm t := by
  induction es with
  | nil => intro s t hi _ h; cases h; exact hi
  | cons e es ih =>
    intro s t hi hn h
    simp only [run, Option.bind_eq_some_iff] at h
    obtain ⟨s1, h1, h2⟩ := h
    obtain ⟨a, b, c⟩ := hn e List.mem_cons_self
    exact ih (calm_step hi a b c h1) (fun e he => hn e (List.mem_cons_of_mem _ he)) h2

/-- The full property: when the reader is finished, the stream has ended. -/
def C109_statement : Prop := ∀ (cfg : StreamConfig) (_ : 0 < cfg.maxHeaps) (_ : 0 < cfg.substreams) (max : Nat) (_ : 0 < max) (fill : UInt8) (es : List Ev) (s : St),
  run cfg max fill es (St.new cfg) = some s → Finished s → s.stream.stopped = true

/-- **C109.** When the reader is finished the stream has ended, if the connection was not lost and the accept did not fail. -/
theorem C109_partial (cfg : StreamConfig) (hm : 0 < cfg.maxHeaps) (hsub : 0 < cfg.substreams) (max : Nat) (hmax : 0 < max) (fill : UInt8) (es : List Ev)
    (hn : ∀ e ∈ es, e ≠ .stop ∧ e ≠ .acceptFail ∧ ∀ k, e ≠ .lose k) (s : St) (h : run cfg max fill es (St.new cfg) = some s) (hf : Finished s) : s.stream.stopped = true := by
  have hi := inv_run es (inv_new cfg max fill) (fun hm => (hn _ hm).1 rfl) h
  have hcalm := calm_run es (s := St.new cfg) ⟨(fun _ h => by cases h), (fun h => by cases h)⟩ hn h
  rcases hf with hf | ⟨k, r, u, hp, hr⟩
  · exact absurd hf hcalm.2
  · unfold Inv at hi
    rw [hp] at hi
    obtain ⟨rfl, _, c, reads, tail, r0, s0, h1, h2, h3, h4, h5, h6, h7⟩ := hi
    obtain ⟨g1, g2⟩ := accept_ops h5
    obtain ⟨a, t, d, k1, k2, rel, inv, _, _, _, hst⟩ := run_account hm hsub g2 g1
    obtain ⟨q1, q2, q3⟩ := accepted_ready h4
    have hs0 : s0.stopped = false := (batch_nil h5).2
    have hreads : ∀ {r' : TcpReader} {s' : Stream} {out : List Entry}, TcpReader.run cfg max (reads.map .data) r0 s0 = some (r', s', out) → r'.reading = !s'.stopped := by
      intro r' s' out hrun
      obtain ⟨_, _, _, _, hx, _⟩ := run_reads hm hsub hmax reads q1 q2 rel inv hst hs0 hrun
      exact hx
    rcases h7 with rfl | ⟨rfl, _, _, _⟩ | ⟨_, _, hl⟩
    · rw [List.append_nil] at h6
      have := hreads h6
      rw [hr] at this
      simpa using this.symm
    · rw [tcpRun_append] at h6
      simp only [Option.bind_eq_some_iff, Option.map_eq_some_iff] at h6
      obtain ⟨⟨r1, s1, o1⟩, e1, ⟨r2, s2, o2⟩, e2, e3⟩ := h6
      simp only [Prod.mk.injEq] at e3
      obtain ⟨rfl, e4, e5⟩ := e3
      have hrs := hreads e1
      rw [← e4]
      rw [TcpReader.run] at e2
      cases hs : TcpReader.step cfg max r1 s1 .eof with
      | none => rw [hs] at e2; cases e2
      | some x =>
        obtain ⟨a, b, o⟩ := x
        rw [hs] at e2
        simp only [TcpReader.run, Option.some.injEq, Prod.mk.injEq] at e2
        obtain ⟨rfl, rfl, _⟩ := e2
        rcases Bool.eq_false_or_eq_true r1.reading with hrd | hrd
        · exact (eof_step hs hrd).1
        · unfold TcpReader.step at hs
          rw [if_pos hrd] at hs
          cases hs
          rw [hrd] at hrs
          simpa using hrs.symm
    · have := hcalm.1 c (List.mem_of_getElem? h1)
      rw [hl] at this; cases this

theorem stuck_step {cfg : StreamConfig} {max : Nat} {fill : UInt8} {s t : St} (hf : Finished s) (hl : s.listening = false) {e : Ev} (he : e ≠ .stop) (h : step cfg max fill s e = some t) :
    t.phase = s.phase ∧ t.listening = false ∧ t.stream = s.stream ∧ t.out = s.out ∧ s.conns.length ≤ t.conns.length ∧ (∀ j ∈ s.refused, j ∈ t.refused) ∧
    ∀ j, s.conns.length ≤ j → j < t.conns.length → j ∈ t.refused := by
  have same : (s.phase = s.phase ∧ s.listening = false ∧ s.stream = s.stream ∧ s.out = s.out ∧ s.conns.length ≤ s.conns.length ∧ (∀ j ∈ s.refused, j ∈ s.refused) ∧
      ∀ j, s.conns.length ≤ j → j < s.conns.length → j ∈ s.refused) := ⟨rfl, hl, rfl, rfl, Nat.le_refl _, fun _ h => h, fun j a b => by omega⟩
  cases e with
  | stop => exact absurd rfl he
  | connect =>
    simp only [step] at h
    rw [if_neg (by rw [hl]; decide)] at h
    cases h
    refine ⟨rfl, hl, rfl, rfl, by simp, fun j hj => List.mem_append_left _ hj, ?_⟩
    intro j h1 h2
    simp only [List.length_append, List.length_singleton] at h2
    exact List.mem_append_right _ (by rw [List.mem_singleton]; omega)
  | send k b => simp only [step, Option.some.injEq] at h; subst h; simpa using same
  | finish k => simp only [step, Option.some.injEq] at h; subst h; simpa using same
  | lose k => simp only [step, Option.some.injEq] at h; subst h; simpa using same
  | accept =>
    rcases hf with hp | ⟨k, r, u, hp, _⟩ <;> (simp only [step, hp] at h; cases h; exact same)
  | acceptFail =>
    rcases hf with hp | ⟨k, r, u, hp, _⟩ <;> (simp only [step, hp] at h; cases h; exact same)
  | recv n =>
    rcases hf with hp | ⟨k, r, u, hp, hr⟩
    · simp only [step, hp] at h; cases h; exact same
    · simp only [step, hp, hr] at h
      split at h
      · simp at h; subst h; exact same
      · cases h; exact same
  | eof =>
    rcases hf with hp | ⟨k, r, u, hp, hr⟩
    · simp only [step, hp] at h; cases h; exact same
    · simp only [step, hp, hr] at h
      split at h
      · simp at h; subst h; exact same
      · cases h; exact same
  | fail =>
    rcases hf with hp | ⟨k, r, u, hp, hr⟩
    · simp only [step, hp] at h; cases h; exact same
    · simp only [step, hp, hr] at h
      split at h
      · simp at h; subst h; exact same
      · cases h; exact same

/-- **C109.** A finished reader stays so: until the program stops the stream nothing is handed over, the stream does not end if it has not ended, and no client can connect. -/
theorem C109_stuck (cfg : StreamConfig) (max : Nat) (fill : UInt8) (es : List Ev) : ∀ (s t : St), Finished s → s.listening = false → Ev.stop ∉ es → run cfg max fill es s = some t →
    t.stream = s.stream ∧ t.out = s.out ∧ Finished t ∧ ∀ j, s.conns.length ≤ j → j < t.conns.length → j ∈ t.refused := by
  suffices hs : ∀ (s t : St), Finished s → s.listening = false → Ev.stop ∉ es → run cfg max fill es s = some t →
      t.stream = s.stream ∧ t.out = s.out ∧ Finished t ∧ (∀ j ∈ s.refused, j ∈ t.refused) ∧ s.conns.length ≤ t.conns.length ∧ ∀ j, s.conns.length ≤ j → j < t.conns.length → j ∈ t.refused by
    intro s t a b c d
    obtain ⟨h1, h2, h3, _, _, h4⟩ := hs s t a b c d
    exact ⟨h1, h2, h3, h4⟩
  induction es with
  | nil => intro s t hf hl _ h; cases h; exact ⟨rfl, rfl, hf, fun _ h => h, Nat.le_refl _, fun j a b => by omega⟩
  | cons e es ih =>
    intro s t hf hl hn h
    simp only [run, Option.bind_eq_some_iff] at h
    obtain ⟨s1, h1, h2⟩ := h
    obtain ⟨a1, a2, a3, a4, a5, a6, a7⟩ := stuck_step hf hl (fun he => hn (by rw [he]; exact List.mem_cons_self)) h1
    have hf1 : Finished s1 := by unfold Finished; rw [a1]; exact hf
    obtain ⟨b1, b2, b3, b4, b5, b6⟩ := ih s1 t hf1 a2 (fun hm => hn (List.mem_cons_of_mem _ hm)) h2
    refine ⟨b1.trans a3, b2.trans a4, b3, fun j hj => b4 j (a6 j hj), Nat.le_trans a5 b5, ?_⟩
    intro j x y
    rcases Nat.lt_or_ge j s1.conns.length with h | h
    · exact b4 j (a7 j x h)
    · exact b6 j h y

theorem closed_step {cfg : StreamConfig} {max : Nat} {fill : UInt8} {s t : St} (hi : s.phase = .accepting ∨ s.listening = false) (e : Ev) (h : step cfg max fill s e = some t) : t.phase = .accepting ∨ t.listening = false := by
  cases e with
  | connect => simp only [step] at h; split at h <;> (cases h; exact hi)
  | send k b => simp only [step, Option.some.injEq] at h; subst h; exact hi
  | finish k => simp only [step, Option.some.injEq] at h; subst h; exact hi
  | lose k => simp only [step, Option.some.injEq] at h; subst h; exact hi
  | accept =>
    simp only [step] at h
    split at h
    · simp only [Option.bind_eq_bind, Option.bind_eq_some_iff, Option.some.injEq] at h
      obtain ⟨r, _, x, _, rfl⟩ := h
      exact Or.inr rfl
    · cases h; exact hi
  | acceptFail =>
    simp only [step] at h
    split at h
    · simp only [Option.bind_eq_bind, Option.bind_eq_some_iff, Option.some.injEq] at h
      obtain ⟨x, _, rfl⟩ := h
      exact Or.inr rfl
    · cases h; exact hi
  | stop =>
    simp only [step, Option.bind_eq_bind, Option.bind_eq_some_iff, Option.some.injEq] at h
    obtain ⟨x, _, rfl⟩ := h
    exact Or.inr rfl
  | recv n =>
    simp only [step] at h
    split at h
    · rename_i hp
      have hl : s.listening = false := hi.resolve_left (by rw [hp]; exact fun h => by cases h)
      split at h
      · split at h
        · simp only [St.complete, Option.map_eq_some_iff] at h
          obtain ⟨x, _, rfl⟩ := h
          exact Or.inr hl
        · cases h; exact hi
      · cases h; exact hi
    · cases h; exact hi
  | eof =>
    simp only [step] at h
    split at h
    · rename_i hp
      have hl : s.listening = false := hi.resolve_left (by rw [hp]; exact fun h => by cases h)
      split at h
      · split at h
        · simp only [St.complete, Option.map_eq_some_iff] at h
          obtain ⟨x, _, rfl⟩ := h
          exact Or.inr hl
        · cases h; exact hi
      · cases h; exact hi
    · cases h; exact hi
  | fail =>
    simp only [step] at h
    split at h
    · rename_i hp
      have hl : s.listening = false := hi.resolve_left (by rw [hp]; exact fun h => by cases h)
      split at h
      · split at h
        · simp only [St.complete, Option.map_eq_some_iff] at h
          obtain ⟨x, _, rfl⟩ := h
          exact Or.inr hl
        · cases h; exact hi
      · cases h; exact hi
    · cases h; exact hi

/-- **C109.** In every history, also with stops and failures: once the reader has taken a client or is finished, the listening socket is closed. -/
theorem C109_closed (cfg : StreamConfig) (max : Nat) (fill : UInt8) (es : List Ev) (s : St) (h : run cfg max fill es (St.new cfg) = some s) (hf : Finished s ∨ ∃ k, Taken s k) : s.listening = false := by
  suffices hs : ∀ (es : List Ev) (s t : St), (s.phase = .accepting ∨ s.listening = false) → run cfg max fill es s = some t → t.phase = .accepting ∨ t.listening = false by
    rcases hs es _ s (Or.inl rfl) h with hp | hl
    · rcases hf with (hf | ⟨k, r, u, hf, _⟩) | ⟨k, r, u, hf⟩ <;> (rw [hp] at hf; cases hf)
    · exact hl
  intro es
  induction es with
  | nil => intro s t hi h; cases h; exact hi
  | cons e es ih =>
    intro s t hi h
    simp only [run, Option.bind_eq_some_iff] at h
    obtain ⟨s1, h1, h2⟩ := h
    exact ih s1 t (closed_step hi e h1) h2

/-- **C109.** Stopping the stream ends it, closes the sockets and turns away the clients that wait. -/
theorem C109_stop (cfg : StreamConfig) (max : Nat) (fill : UInt8) (s t : St) (h : step cfg max fill s .stop = some t) :
    t.stream.stopped = true ∧ Finished t ∧ t.listening = false ∧ (∀ j ∈ s.queue, j ∈ t.dropped) ∧ ∃ flushed, s.stream.stop cfg = some (t.stream, flushed) ∧ t.out = s.out ++ flushed := by
  simp only [step, Option.bind_eq_bind, Option.bind_eq_some_iff, Option.some.injEq] at h
  obtain ⟨x, h1, rfl⟩ := h
  refine ⟨?_, Or.inl rfl, rfl, fun j hj => List.mem_append_right _ hj, x.2, h1, rfl⟩
  simp only [Stream.step] at h1
  unfold Stream.stop at h1
  split at h1
  · rename_i hs; cases h1; exact hs
  · exact stopReceived_stopped h1

/-- **C109.** If a client is in the queue while the reader waits for one, the accept takes it and starts to receive from its beginning. -/
theorem C109_accepts (cfg : StreamConfig) (max : Nat) (fill : UInt8) (s t : St) (hp : s.phase = .accepting) (k : Nat) (rest : List Nat) (hq : s.queue = k :: rest)
    (h : step cfg max fill s .accept = some t) : ∃ r, t.phase = .reading k r 0 ∧ r.reading = true ∧ t.listening = false ∧ ∀ j ∈ rest, j ∈ t.dropped := by
  simp only [step, hp, hq, Option.bind_eq_bind, Option.bind_eq_some_iff, Option.some.injEq] at h
  obtain ⟨r, h1, x, _, rfl⟩ := h
  exact ⟨r, rfl, (accepted_ready h1).1, rfl, fun j hj => List.mem_append_right _ hj⟩

/-- **C109.** No history of clients, receives and stops leads to undefined behaviour. -/
theorem C109_safe (cfg : StreamConfig) (hm : 0 < cfg.maxHeaps) (hsub : 0 < cfg.substreams) (max : Nat) (fill : UInt8) (es : List Ev) : ∃ s, run cfg max fill es (St.new cfg) = some s := by
  suffices hs : ∀ (s : St), ((∃ a t, Rel cfg s.stream a ∧ AInv cfg a none ∧ s.stream.stats = statsOf t s.stream.stats.searchDist) ∧ ∀ k r u, s.phase = .reading k r u → TcpInv max r) →
      ∃ t, run cfg max fill es s = some t from
    hs _ ⟨⟨{}, [], Rel.new cfg, AInv.new cfg, rfl⟩, (fun _ _ _ h => by cases h)⟩
  induction es with
  | nil => exact fun s _ => ⟨s, rfl⟩
  | cons e es ih =>
    intro s ⟨hrel, hinv⟩
    suffices hstep : ∃ t, step cfg max fill s e = some t ∧ (∃ a t0, Rel cfg t.stream a ∧ AInv cfg a none ∧ t.stream.stats = statsOf t0 t.stream.stats.searchDist) ∧ ∀ k r u, t.phase = .reading k r u → TcpInv max r by
      obtain ⟨t, h1, h2⟩ := hstep
      obtain ⟨v, hv⟩ := ih t h2
      exact ⟨v, by simp only [run, h1, Option.bind_some]; exact hv⟩
    obtain ⟨a, t0, rel, inv, hst⟩ := hrel
    have same : (∃ a t0, Rel cfg s.stream a ∧ AInv cfg a none ∧ s.stream.stats = statsOf t0 s.stream.stats.searchDist) ∧ ∀ k r u, s.phase = .reading k r u → TcpInv max r := ⟨⟨a, t0, rel, inv, hst⟩, hinv⟩
    have hop : ∀ (op : StreamOp), op.Valid → ∃ x, s.stream.step cfg op = some x ∧ ∃ a t0, Rel cfg x.1 a ∧ AInv cfg a none ∧ x.1.stats = statsOf t0 x.1.stats.searchDist := by
      intro op hv
      obtain ⟨a', t', s', _, q2, q3, q4, q5⟩ := step_refine hm hsub rel inv op hv t0 hst
      exact ⟨_, q2, a', _, q3, q4, q5⟩
    have hcomp : ∀ k r u v ev, s.phase = .reading k r u → ReadFits r ev → ∃ t, s.complete cfg max k r v ev = some t ∧
        (∃ a t0, Rel cfg t.stream a ∧ AInv cfg a none ∧ t.stream.stats = statsOf t0 t.stream.stats.searchDist) ∧ ∀ k r u, t.phase = .reading k r u → TcpInv max r := by
      intro k r u v ev hp hfit
      obtain ⟨r', s', out, h1, h2, h3⟩ := step_tcp hm hsub (hinv k r u hp) rel inv hst hfit
      unfold St.complete
      rw [h1]
      refine ⟨_, rfl, h3, ?_⟩
      intro k2 r2 u2 h
      cases h
      exact h2
    cases e with
    | connect => simp only [step]; split <;> exact ⟨_, rfl, same⟩
    | send k b => exact ⟨_, rfl, same⟩
    | finish k => exact ⟨_, rfl, same⟩
    | lose k => exact ⟨_, rfl, same⟩
    | accept =>
      simp only [step]
      split
      · obtain ⟨r, hr⟩ : ∃ r, TcpReader.accepted max fill = some r := by
          unfold TcpReader.accepted Tcp.enqueueReceive Tcp.new
          simp
        obtain ⟨x, hx, hx2⟩ := hop (.batch []) (by intro p hp; cases hp)
        have hx : s.stream.batch cfg [] = some x := hx
        rw [hr, hx]
        refine ⟨_, rfl, hx2, ?_⟩
        intro k2 r2 u2 h
        cases h
        obtain ⟨_, q2, q3⟩ := accepted_ready hr
        exact q2.inv q3 _
      · exact ⟨_, rfl, same⟩
    | acceptFail =>
      simp only [step]
      split
      · obtain ⟨x, hx, hx2⟩ := hop (.batch []) (by intro p hp; cases hp)
        have hx : s.stream.batch cfg [] = some x := hx
        rw [hx]
        exact ⟨_, rfl, hx2, (fun _ _ _ h => by cases h)⟩
      · exact ⟨_, rfl, same⟩
    | recv n =>
      simp only [step]
      split
      · rename_i k r u hp
        split
        · rename_i c hc
          split
          · rename_i hg
            exact hcomp k r u _ _ hp (by simp only [ReadFits, List.length_take]; omega)
          · exact ⟨_, rfl, same⟩
        · exact ⟨_, rfl, same⟩
      · exact ⟨_, rfl, same⟩
    | eof =>
      simp only [step]
      split
      · rename_i k r u hp
        split
        · split
          · exact hcomp k r u _ _ hp trivial
          · exact ⟨_, rfl, same⟩
        · exact ⟨_, rfl, same⟩
      · exact ⟨_, rfl, same⟩
    | fail =>
      simp only [step]
      split
      · rename_i k r u hp
        split
        · split
          · exact hcomp k r u _ _ hp trivial
          · exact ⟨_, rfl, same⟩
        · exact ⟨_, rfl, same⟩
      · exact ⟨_, rfl, same⟩
    | stop =>
      obtain ⟨x, hx, hx2⟩ := hop .stop trivial
      simp only [step, hx]
      exact ⟨_, rfl, hx2, (fun _ _ _ h => by cases h)⟩

/-- **C109.** A lost connection finishes the reader: nothing is handed over, and the stream does not end. -/
theorem C109_lost (cfg : StreamConfig) (max : Nat) (fill : UInt8) (s t : St) (k : Nat) (r : TcpReader) (u : Nat) (c : Conn) (hp : s.phase = .reading k r u) (hr : r.reading = true)
    (hc : s.conns[k]? = some c) (hl : c.lost = true) (h : step cfg max fill s .fail = some t) : t.stream.stopped = s.stream.stopped ∧ t.out = s.out ∧ Finished t := by
  simp only [step, hp, hc] at h
  rw [if_pos ⟨hr, hl⟩] at h
  unfold St.complete at h
  simp only [Option.map_eq_some_iff] at h
  obtain ⟨⟨r', s', o⟩, h1, rfl⟩ := h
  obtain ⟨e1, e2, e3⟩ := error_step h1
  exact ⟨e2, by simp only [e1, List.append_nil], Or.inr ⟨k, r', _, rfl, e3⟩⟩

/-- Whether the reader is finished and whether the stream has ended. -/
def summary (s : St) : Bool × Bool × Nat :=
  ((match s.phase with | .accepting => false | .reading _ r _ => !r.reading | .idle => true), s.stream.stopped, s.out.length)

theorem summary_finished {s : St} {b : Bool} {n : Nat} (h : summary s = (true, b, n)) : Finished s ∧ s.stream.stopped = b := by
  unfold summary at h
  simp only [Prod.mk.injEq] at h
  refine ⟨?_, h.2.1⟩
  cases hp : s.phase with
  | accepting => rw [hp] at h; simp at h
  | idle => exact Or.inl hp
  | reading k r u =>
    rw [hp] at h
    simp only [Bool.not_eq_true'] at h
    exact Or.inr ⟨k, r, u, hp, h.1⟩

/-- A sender that is killed: its connection is reset. -/
def killed : List Ev := [.connect, .accept, .send 0 [0x53, 4, 3, 5], .recv 4, .lose 0, .fail]

theorem killed_summary : (run ⟨4, 1, true, false, true⟩ 300 0 killed (St.new ⟨4, 1, true, false, true⟩)).map summary = some (true, false, 0) := by decide +kernel

theorem C109_violated : ¬ C109_statement := by
  intro hst
  have h := killed_summary
  rw [Option.map_eq_some_iff] at h
  obtain ⟨s, h1, h2⟩ := h
  obtain ⟨h3, h4⟩ := summary_finished h2
  have := hst _ (by decide) (by decide) 300 (by decide) 0 killed s h1 h3
  rw [h4] at this
  cases this

/-! ## Concrete cases -/

/-- A packet in two pieces, while two other clients try to connect, one before and one after the first was taken. -/
def goodRun : List Ev :=
  [.connect, .connect, .send 0 ((encodedOr 40 0 sampleDescriptor).take 50), .accept, .connect, .recv 20, .recv 30, .send 0 ((encodedOr 40 0 sampleDescriptor).drop 50),
   .finish 0, .recv ((encodedOr 40 0 sampleDescriptor).length - 50), .eof]

example : (run ⟨4, 1, true, false, true⟩ 300 0 goodRun (St.new ⟨4, 1, true, false, true⟩)).map (fun s => (summary s, s.dropped, s.refused)) = some ((true, true, 1), [1], [2]) := by decide +kernel

example : ∀ e ∈ goodRun, e ≠ .stop ∧ e ≠ .acceptFail ∧ ∀ k, e ≠ .lose k := by
  intro e he
  simp only [goodRun, List.mem_cons, List.not_mem_nil, or_false] at he
  rcases he with rfl | rfl | rfl | rfl | rfl | rfl | rfl | rfl | rfl | rfl | rfl <;> exact ⟨(fun h => by cases h), (fun h => by cases h), (fun k h => by cases h)⟩

end Spead2.TcpConn
