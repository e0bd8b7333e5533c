import Verif.Spec.TcpConn
import Verif.Props.Tcp
import Verif.Lemmas.RecvUdp

namespace Spead2.TcpConn

open Spead2.Spec

theorem batch_nil {cfg : StreamConfig} {s : Stream} {x : Stream × List Entry} (h : s.batch cfg [] = some x) : x.2 = [] ∧ x.1.stopped = s.stopped := by
  unfold Stream.batch at h
  split at h
  · cases h; exact ⟨rfl, rfl⟩
  · simp only [Stream.batchLoop, Option.bind_eq_bind, Option.bind_some, Stream.endBatch] at h
    simp at h
    subst h
    exact ⟨rfl, rfl⟩

theorem error_step {cfg : StreamConfig} {max : Nat} {r r' : TcpReader} {s s' : Stream} {o : List Entry} (h : r.step cfg max s .error = some (r', s', o)) :
    o = [] ∧ s'.stopped = s.stopped ∧ r'.reading = false := by
  unfold TcpReader.step at h
  split at h
  · rename_i hr; cases h; exact ⟨rfl, rfl, hr⟩
  · split at h
    · cases h; exact ⟨rfl, rfl, rfl⟩
    · simp only [Option.map_eq_some_iff] at h
      obtain ⟨x, h1, h2⟩ := h
      cases h2
      exact ⟨(batch_nil h1).1, (batch_nil h1).2, rfl⟩

theorem eof_step {cfg : StreamConfig} {max : Nat} {r r' : TcpReader} {s s' : Stream} {o : List Entry} (h : r.step cfg max s .eof = some (r', s', o)) (hr : r.reading = true) :
    s'.stopped = true ∧ r'.reading = false := by
  unfold TcpReader.step at h
  rw [if_neg (by rw [hr]; decide)] at h
  split at h
  · rename_i hs; cases h; exact ⟨hs, rfl⟩
  · simp only [Option.map_eq_some_iff] at h
    obtain ⟨x, h1, h2⟩ := h
    cases h2
    exact ⟨batch_stop_stopped (ops := []) h1, rfl⟩

/-- What clients may do: send more unless they have finished, finish, and be lost. -/
def Grow (c d : Conn) : Prop := c.sent <+: d.sent ∧ (c.finished = true → d.finished = true ∧ d.sent = c.sent) ∧ (c.lost = true → d.lost = true)

theorem grow_refl (c : Conn) : Grow c c := ⟨List.prefix_refl _, fun h => ⟨h, rfl⟩, fun h => h⟩

/-- How the reading ended. -/
def Tail (c : Conn) (u : Nat) (r : TcpReader) (tail : List TcpEvent) : Prop :=
  tail = [] ∨ (tail = [.eof] ∧ r.reading = false ∧ c.finished = true ∧ u = c.sent.length) ∨ (tail = [.error] ∧ r.reading = false ∧ c.lost = true)

/-- The state of a reader that has taken a connection. -/
def Read (cfg : StreamConfig) (max : Nat) (fill : UInt8) (s : St) (r : TcpReader) (u : Nat) : Prop :=
  ∃ (c : Conn) (reads : List Bytes) (tail : List TcpEvent) (r0 : TcpReader) (s0 : Stream), s.conns[0]? = some c ∧ u ≤ c.sent.length ∧ reads.flatten = c.sent.take u ∧
    TcpReader.accepted max fill = some r0 ∧ (Stream.new cfg).batch cfg [] = some (s0, []) ∧ TcpReader.run cfg max (reads.map .data ++ tail) r0 s0 = some (r, s.stream, s.out) ∧
    Tail c u r tail

/-- All other clients have been turned away. -/
def Alone (s : St) : Prop := s.listening = false ∧ s.queue = [] ∧ (∀ j, 0 < j → j < s.conns.length → j ∈ s.dropped ∨ j ∈ s.refused) ∧ ∀ j, j ∈ s.dropped ∨ j ∈ s.refused → 0 < j

def Inv (cfg : StreamConfig) (max : Nat) (fill : UInt8) (s : St) : Prop :=
  match s.phase with
  | .accepting => s.listening = true ∧ s.queue = List.range s.conns.length ∧ s.refused = [] ∧ s.dropped = [] ∧ s.out = [] ∧ s.stream = Stream.new cfg
  | .reading k r u => k = 0 ∧ Alone s ∧ Read cfg max fill s r u
  | .idle => s.listening = false ∧ s.queue = [] ∧ s.out = [] ∧ s.stream.stopped = false ∧ ∀ j < s.conns.length, j ∈ s.dropped ∨ j ∈ s.refused

theorem Read.grow {cfg : StreamConfig} {max : Nat} {fill : UInt8} {s s' : St} {r : TcpReader} {u : Nat} (h : Read cfg max fill s r u) (hs : s'.stream = s.stream) (ho : s'.out = s.out)
    (hc : ∀ c, s.conns[0]? = some c → ∃ d, s'.conns[0]? = some d ∧ Grow c d) : Read cfg max fill s' r u := by
  obtain ⟨c, reads, tail, r0, s0, h1, h2, h3, h4, h5, h6, h7⟩ := h
  obtain ⟨d, g1, ⟨e, g2⟩, g3, g4⟩ := hc c h1
  refine ⟨d, reads, tail, r0, s0, g1, ?_, ?_, h4, h5, ?_, ?_⟩
  · rw [← g2, List.length_append]; omega
  · rw [h3, ← g2, List.take_append_of_le_length h2]
  · rw [hs, ho]; exact h6
  · rcases h7 with h | ⟨a, b, x, y⟩ | ⟨a, b, x⟩
    · exact Or.inl h
    · exact Or.inr (Or.inl ⟨a, b, (g3 x).1, by rw [(g3 x).2]; exact y⟩)
    · exact Or.inr (Or.inr ⟨a, b, g4 x⟩)

theorem inv_modify {cfg : StreamConfig} {max : Nat} {fill : UInt8} {s : St} (hi : Inv cfg max fill s) (k : Nat) (f : Conn → Conn) (hf : ∀ c, Grow c (f c)) :
    Inv cfg max fill { s with conns := s.conns.modify k f } := by
  unfold Inv at hi ⊢
  simp only
  cases hp : s.phase with
  | accepting => rw [hp] at hi; simpa using hi
  | idle => rw [hp] at hi; simpa using hi
  | reading j r u =>
    rw [hp] at hi
    obtain ⟨h1, h2, h3⟩ := hi
    refine ⟨h1, by unfold Alone at h2 ⊢; simpa using h2, h3.grow (s' := { s with conns := s.conns.modify k f }) rfl rfl ?_⟩
    intro c hc
    simp only [List.getElem?_modify, hc]
    refine ⟨_, rfl, ?_⟩
    simp only
    split
    · exact hf c
    · exact grow_refl c

theorem inv_complete {cfg : StreamConfig} {max : Nat} {fill : UInt8} {s t : St} {r : TcpReader} {u v : Nat} {ev : TcpEvent} {c : Conn} (ha : Alone s) (hr : Read cfg max fill s r u)
    (hc : s.conns[0]? = some c) (hrd : r.reading = true) (he : (∃ n, ev = .data ((c.sent.drop u).take n) ∧ v = u + n ∧ v ≤ c.sent.length) ∨ (ev = .eof ∧ v = u ∧ u = c.sent.length ∧ c.finished = true) ∨ (ev = .error ∧ v = u ∧ c.lost = true))
    (h : s.complete cfg max 0 r v ev = some t) : Inv cfg max fill t := by
  unfold St.complete at h
  simp only [Option.map_eq_some_iff] at h
  obtain ⟨⟨r', s', o⟩, h1, h2⟩ := h
  subst h2
  obtain ⟨c', reads, tail, r0, s0, a1, a2, a3, a4, a5, a6, a7⟩ := hr
  rw [hc] at a1
  cases a1
  have ht : tail = [] := by
    rcases a7 with h | ⟨_, b, _⟩ | ⟨_, b, _⟩
    · exact h
    · rw [hrd] at b; cases b
    · rw [hrd] at b; cases b
  subst ht
  rw [List.append_nil] at a6
  have hrun : ∀ l, TcpReader.run cfg max (reads.map .data ++ l) r0 s0 = (TcpReader.run cfg max l r s.stream).map fun y => (y.1, y.2.1, s.out ++ y.2.2) := by
    intro l; rw [tcpRun_append, a6]; rfl
  have hone : TcpReader.run cfg max [ev] r s.stream = some (r', s', o) := by
    rw [TcpReader.run, h1]
    simp [TcpReader.run]
  refine ⟨rfl, ha, ?_⟩
  rcases he with ⟨n, rfl, rfl, hv⟩ | ⟨rfl, rfl, hu, hf⟩ | ⟨rfl, rfl, hl⟩
  · refine ⟨c, reads ++ [(c.sent.drop u).take n], [], r0, s0, hc, hv, ?_, a4, a5, ?_, Or.inl rfl⟩
    · rw [List.flatten_append, a3, List.take_add]; simp
    · rw [List.append_nil, List.map_append, hrun]
      simp only [List.map_cons, List.map_nil]
      rw [hone]; rfl
  · obtain ⟨_, e2⟩ := eof_step h1 hrd
    refine ⟨c, reads, [.eof], r0, s0, hc, a2, a3, a4, a5, by rw [hrun, hone]; rfl, Or.inr (Or.inl ⟨rfl, e2, hf, hu⟩)⟩
  · obtain ⟨_, _, e2⟩ := error_step h1
    refine ⟨c, reads, [.error], r0, s0, hc, a2, a3, a4, a5, by rw [hrun, hone]; rfl, Or.inr (Or.inr ⟨rfl, e2, hl⟩)⟩

theorem inv_step {cfg : StreamConfig} {max : Nat} {fill : UInt8} {s t : St} (hi : Inv cfg max fill s) {e : Ev} (he : e ≠ .stop) (h : step cfg max fill s e = some t) : Inv cfg max fill t := by
  cases e with
  | stop => exact absurd rfl he
  | connect =>
    simp only [step] at h
    unfold Inv at hi
    cases hp : s.phase with
    | accepting =>
      rw [hp] at hi
      obtain ⟨a1, a2, a3, a4, a5, a6⟩ := hi
      rw [if_pos a1] at h
      cases h
      unfold Inv
      simp only [hp]
      exact ⟨a1, by rw [a2, List.length_append]; simp [List.range_succ], a3, a4, a5, a6⟩
    | reading k r u =>
      rw [hp] at hi
      obtain ⟨a1, ⟨b1, b2, b3, b4⟩, a3⟩ := hi
      rw [if_neg (by rw [b1]; decide)] at h
      cases h
      unfold Inv
      simp only [hp]
      have hpos : 0 < s.conns.length := by
        obtain ⟨c, _, _, _, _, g, _⟩ := a3
        rcases Nat.eq_zero_or_pos s.conns.length with h | h
        · rw [List.getElem?_eq_none (by omega)] at g; cases g
        · exact h
      refine ⟨a1, ⟨b1, b2, ?_, ?_⟩, a3.grow rfl rfl ?_⟩
      · intro j h0 hj
        simp only [List.length_append, List.length_singleton] at hj
        rcases Nat.lt_or_ge j s.conns.length with h | h
        · rcases b3 j h0 h with h | h
          · exact Or.inl h
          · exact Or.inr (List.mem_append_left _ h)
        · exact Or.inr (List.mem_append_right _ (by rw [List.mem_singleton]; omega))
      · intro j hj
        rcases hj with hj | hj
        · exact b4 j (Or.inl hj)
        · rcases List.mem_append.mp hj with hj | hj
          · exact b4 j (Or.inr hj)
          · rw [List.mem_singleton.mp hj]; exact hpos
      · intro c hc
        exact ⟨c, by simp only; rw [List.getElem?_append_left hpos]; exact hc, grow_refl c⟩
    | idle =>
      rw [hp] at hi
      obtain ⟨a1, a2, a3, a4, a5⟩ := hi
      rw [if_neg (by rw [a1]; decide)] at h
      cases h
      unfold Inv
      simp only [hp]
      refine ⟨a1, a2, a3, a4, ?_⟩
      intro j hj
      simp only [List.length_append, List.length_singleton] at hj
      rcases Nat.lt_or_ge j s.conns.length with h | h
      · rcases a5 j h with h | h
        · exact Or.inl h
        · exact Or.inr (List.mem_append_left _ h)
      · exact Or.inr (List.mem_append_right _ (by rw [List.mem_singleton]; omega))
  | send k b =>
    simp only [step, Option.some.injEq] at h
    subst h
    apply inv_modify hi
    intro c
    cases h1 : c.finished with
    | true => simp only [Bool.true_or, if_true]; exact grow_refl c
    | false =>
      cases h2 : c.lost with
      | true => simp only [Bool.or_true, if_true]; exact grow_refl c
      | false => exact ⟨List.prefix_append _ _, (fun h => by rw [h1] at h; cases h), (fun h => by rw [h2] at h; cases h)⟩
  | finish k =>
    simp only [step, Option.some.injEq] at h
    subst h
    exact inv_modify hi k _ fun c => ⟨List.prefix_refl _, fun _ => ⟨rfl, rfl⟩, fun h => h⟩
  | lose k =>
    simp only [step, Option.some.injEq] at h
    subst h
    exact inv_modify hi k _ fun c => ⟨List.prefix_refl _, fun h => ⟨h, rfl⟩, fun _ => rfl⟩
  | accept =>
    simp only [step] at h
    split at h
    · rename_i k rest hp hq
      simp only [Option.bind_eq_bind, Option.bind_eq_some_iff, Option.some.injEq] at h
      obtain ⟨r, h1, ⟨s0, o⟩, h2, h3⟩ := h
      subst h3
      unfold Inv at hi
      rw [hp] at hi
      obtain ⟨a1, a2, a3, a4, a5, a6⟩ := hi
      rw [a2] at hq
      obtain ⟨n, hn⟩ : ∃ n, s.conns.length = n + 1 := by
        rcases Nat.eq_zero_or_pos s.conns.length with h | h
        · rw [h] at hq; cases hq
        · exact ⟨s.conns.length - 1, by omega⟩
      rw [hn, List.range_succ_eq_map] at hq
      cases hq
      obtain rfl : o = [] := (batch_nil h2).1
      rw [a6] at h2
      refine ⟨rfl, ⟨rfl, rfl, ?_, ?_⟩, ?_⟩
      · intro j h0 hj
        refine Or.inl ?_
        simp only [St.close, a4, List.nil_append, List.mem_map, List.mem_range]
        have hj : j < s.conns.length := hj
        exact ⟨j - 1, by omega, by omega⟩
      · intro j hj
        simp only [St.close, a3, a4, List.nil_append, List.mem_map, List.not_mem_nil, or_false] at hj
        obtain ⟨i, _, rfl⟩ := hj
        exact Nat.succ_pos i
      · have hget : ∃ c, s.conns[0]? = some c := ⟨s.conns[0], List.getElem?_eq_getElem (by omega)⟩
        obtain ⟨c, hc⟩ := hget
        refine ⟨c, [], [], r, s0, hc, Nat.zero_le _, by simp, h1, h2, ?_, Or.inl rfl⟩
        simp [TcpReader.run, a5]
    · cases h; exact hi
  | acceptFail =>
    simp only [step] at h
    split at h
    · rename_i hp
      simp only [Option.bind_eq_bind, Option.bind_eq_some_iff, Option.some.injEq] at h
      obtain ⟨⟨s0, o⟩, h2, h3⟩ := h
      subst h3
      unfold Inv at hi
      rw [hp] at hi
      obtain ⟨a1, a2, a3, a4, a5, a6⟩ := hi
      obtain ⟨e1, e2⟩ := batch_nil h2
      simp only at e1 e2
      refine ⟨rfl, rfl, ?_, ?_, ?_⟩
      · simp only [a5, e1, List.append_nil]
      · simp only; rw [e2, a6]; rfl
      · intro j hj
        have hj : j < s.conns.length := hj
        refine Or.inl ?_
        simp only [St.close, a2, a4, List.nil_append, List.mem_range]
        exact hj
    · cases h; exact hi
  | recv n =>
    simp only [step] at h
    split at h
    · rename_i k r u hp
      have hi' := hi
      unfold Inv at hi
      rw [hp] at hi
      obtain ⟨rfl, ha, hr⟩ := hi
      split at h
      · rename_i c hc
        split at h
        · rename_i hg
          exact inv_complete ha hr hc hg.1 (Or.inl ⟨n, rfl, rfl, hg.2.2.1⟩) h
        · cases h; exact hi'
      · cases h; exact hi'
    · cases h; exact hi
  | eof =>
    simp only [step] at h
    split at h
    · rename_i k r u hp
      have hi' := hi
      unfold Inv at hi
      rw [hp] at hi
      obtain ⟨rfl, ha, hr⟩ := hi
      split at h
      · rename_i c hc
        split at h
        · rename_i hg
          exact inv_complete ha hr hc hg.1 (Or.inr (Or.inl ⟨rfl, rfl, hg.2.2.1, hg.2.2.2⟩)) h
        · cases h; exact hi'
      · cases h; exact hi'
    · cases h; exact hi
  | fail =>
    simp only [step] at h
    split at h
    · rename_i k r u hp
      have hi' := hi
      unfold Inv at hi
      rw [hp] at hi
      obtain ⟨rfl, ha, hr⟩ := hi
      split at h
      · rename_i c hc
        split at h
        · rename_i hg
          exact inv_complete ha hr hc hg.1 (Or.inr (Or.inr ⟨rfl, rfl, hg.2⟩)) h
        · cases h; exact hi'
      · cases h; exact hi'
    · cases h; exact hi

theorem inv_run {cfg : StreamConfig} {max : Nat} {fill : UInt8} (es : List Ev) : ∀ {s t : St}, Inv cfg max fill s → Ev.stop ∉ es → run cfg max fill es s = some t → Inv cfg max fill t := by
  induction es with
  | nil => intro s t hi _ h; cases h; exact hi
  | cons e es ih =>
    intro s t hi hn h
    simp only [run, Option.bind_eq_some_iff] at h
    obtain ⟨s1, h1, h2⟩ := h
    exact ih (inv_step hi (fun he => hn (by rw [he]; exact List.mem_cons_self)) h1) (fun hm => hn (List.mem_cons_of_mem _ hm)) h2

theorem inv_new (cfg : StreamConfig) (max : Nat) (fill : UInt8) : Inv cfg max fill (St.new cfg) := ⟨rfl, rfl, rfl, rfl, rfl, rfl⟩

end Spead2.TcpConn
