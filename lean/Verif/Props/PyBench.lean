import Verif.Lemmas.PyBench

/-!
# C102: the agent of the Python benchmark
-/

namespace Spead2.PyBench

/-- **C102.** Streams that receive have different endpoints, and no stream belongs to two connections. -/
theorem C102_own {ibv : Bool} {s : St} (h : Run ibv s) :
    (∀ (i j : Nat) (x y : Stream), s.streams[i]? = some x → s.streams[j]? = some y → x.recv = true → y.recv = true → x.port = y.port → i = j) ∧
      ∀ (c c' : Nat) (x x' : Conn) (k : Nat), s.conns[c]? = some x → s.conns[c']? = some x' → x.cur = some k → x'.cur = some k → c = c' :=
  ⟨(run_inv h).ports, (run_inv h).uniq⟩

/-- **C102.** A client is told that the agent is ready, and how many heaps it received, in turn. -/
theorem C102_turns {ibv : Bool} {s : St} (h : Run ibv s) {x : Conn} (hx : x ∈ s.conns) : Alternate x.replies := by
  obtain ⟨b, hb⟩ := ((run_inv h).conns x hx).alt
  cases b with
  | true => exact (hb.alternate.2 rfl).1
  | false =>
    have := hb.alternate.1 rfl [] trivial
    rwa [List.append_nil] at this

/-- **C102.** The client is told that the agent is ready exactly if it has no stream, the endpoint is free and the client does not know of ibverbs, or the agent does too; then a stream receives
at the endpoint. -/
theorem C102_ready {ibv : Bool} {s s' : St} (h : Run ibv s) {c port : Nat} {opt : Bool} (hs : s.step (.start c port opt) = some s') :
    ∃ x, s.conns[c]? = some x ∧
      ((∃ x', s'.conns[c]? = some x' ∧ x'.replies = x.replies ++ [.ready]) ↔
        x.cur = none ∧ (opt = true → s.ibv = true) ∧ ∀ y ∈ s.streams, y.recv = true → y.port ≠ port) ∧
      ((∃ x', s'.conns[c]? = some x' ∧ x'.replies = x.replies ++ [.ready]) →
        s'.streams = s.streams ++ [{ port := port, pushed := 0, taken := 0, recv := true }] ∧ ∃ x', s'.conns[c]? = some x' ∧ x'.cur = some s.streams.length ∧ x'.phase = .line) := by
  unfold St.step at hs
  split at hs
  · simp only [Option.map_eq_some_iff] at hs
    obtain ⟨x, hx, hs⟩ := hs
    obtain ⟨hx, hl⟩ := atLine_some hx
    refine ⟨x, hx, ?_⟩
    have hno : ∀ {x' : Conn}, x'.replies = x.replies → ¬ x'.replies = x.replies ++ [.ready] := by
      intro x' h1 h2
      have := congrArg List.length (h1.symm.trans h2)
      simp at this
    have hstay : ∀ t : St, (∃ x', t.conns[c]? = some x' ∧ x'.replies = x.replies) → ¬ ∃ x', t.conns[c]? = some x' ∧ x'.replies = x.replies ++ [.ready] := by
      rintro t ⟨x1, h1, h2⟩ ⟨x2, h3, h4⟩
      rw [h1] at h3
      cases h3
      exact hno h2 h4
    subst hs
    unfold St.start
    cases hc : x.cur with
    | some k => exact ⟨⟨fun h => absurd h (hstay _ ⟨x, hx, rfl⟩), fun h => (by cases h.1)⟩, fun h => absurd h (hstay _ ⟨x, hx, rfl⟩)⟩
    | none =>
      simp only
      split
      · rename_i hdead
        have hns := hstay { s with up := false } ⟨x, hx, rfl⟩
        refine ⟨⟨fun h => absurd h hns, fun h => ?_⟩, fun h => absurd h hns⟩
        simp only [Bool.and_eq_true, Bool.not_eq_true'] at hdead
        rw [h.2.1 hdead.1] at hdead
        cases hdead.2
      · rename_i hdead
        split
        · rename_i hb
          have hns := hstay (s.setConn c { x with phase := .over, cur := none }) ⟨{ x with phase := .over, cur := none }, (by show (s.conns.set c _)[c]? = _; rw [get_set hx, if_pos rfl]), rfl⟩
          refine ⟨⟨fun h => absurd h hns, fun h => ?_⟩, fun h => absurd h hns⟩
          unfold St.bound at hb
          rw [List.any_eq_true] at hb
          obtain ⟨y, hy, hb⟩ := hb
          simp only [Bool.and_eq_true, beq_iff_eq] at hb
          exact absurd hb.2 (h.2.2 y hy hb.1)
        · rename_i hb
          have hb : s.bound port = false := by simpa using hb
          have hget : ∀ z : Conn, (s.conns.set c z)[c]? = some z := fun z => by rw [get_set hx, if_pos rfl]
          refine ⟨⟨fun _ => ⟨trivial, ?_, fun y hy hr => bound_false hb hy hr⟩, fun _ => ⟨_, hget _, rfl⟩⟩, fun _ => ⟨rfl, _, hget _, rfl, hl⟩⟩
          intro ho
          rw [ho] at hdead
          simpa using hdead
  · cases hs

/-- **C102.** The number of heaps that a client is told is that of all the heaps that its stream pushed, and the stream has stopped. -/
theorem C102_count {ibv : Bool} {s s' : St} (h : Run ibv s) {c : Nat} {x : Conn} (hx : s.conns[c]? = some x) (hp : x.phase = .stopping) (hs : s.step (.resume c) = some s') :
    ∃ (k : Nat) (y : Stream), x.cur = some k ∧ s.streams[k]? = some y ∧ y.recv = false ∧ s'.conns[c]? = some { phase := .line, cur := none, replies := x.replies ++ [.heaps y.pushed] } := by
  unfold St.step at hs
  split at hs
  · simp only [hx] at hs
    split at hs
    · rename_i k hc
      split at hs
      · rename_i y hy
        split at hs
        · rename_i hd
          unfold Stream.done at hd
          simp only [Bool.and_eq_true, Bool.not_eq_true', beq_iff_eq] at hd
          unfold St.resume at hs
          rw [hp] at hs
          cases hs
          refine ⟨k, y, hc, hy, hd.1, ?_⟩
          show (s.conns.set c _)[c]? = _
          rw [get_set hx, if_pos rfl, hd.2]
        · cases hs
      · cases hs
    · cases hs
  · cases hs

/-- What an event can do to a stream. -/
theorem stream_step {s s' : St} {e : Ev} (hs : s.step e = some s') {k : Nat} {y : Stream} (hy : s.streams[k]? = some y) :
    ∃ y', s'.streams[k]? = some y' ∧ y'.port = y.port ∧ (y.recv = false → y'.recv = false ∧ y'.pushed = y.pushed) ∧
      (y'.recv = false → y.recv = true → e = .finish k ∨ ∃ c x, (e = .stop c ∨ e = .exit c) ∧ s.conns[c]? = some x ∧ x.cur = some k) := by
  have hsame : ∀ t : St, t.streams = s.streams → ∃ y', t.streams[k]? = some y' ∧ y'.port = y.port ∧ (y.recv = false → y'.recv = false ∧ y'.pushed = y.pushed) ∧
      (y'.recv = false → y.recv = true → e = .finish k ∨ ∃ c x, (e = .stop c ∨ e = .exit c) ∧ s.conns[c]? = some x ∧ x.cur = some k) := by
    intro t ht
    refine ⟨y, by rw [ht]; exact hy, rfl, fun h => ⟨h, rfl⟩, fun h1 h2 => ?_⟩
    rw [h1] at h2
    cases h2
  have hset : ∀ (j : Nat) (z z' : Stream), s.streams[j]? = some z → z'.port = z.port → (z.recv = false → z'.recv = false ∧ z'.pushed = z.pushed) →
      (z'.recv = false → z.recv = true → j = k → e = .finish k ∨ ∃ c x, (e = .stop c ∨ e = .exit c) ∧ s.conns[c]? = some x ∧ x.cur = some k) →
      ∃ y', (s.streams.set j z')[k]? = some y' ∧ y'.port = y.port ∧ (y.recv = false → y'.recv = false ∧ y'.pushed = y.pushed) ∧
        (y'.recv = false → y.recv = true → e = .finish k ∨ ∃ c x, (e = .stop c ∨ e = .exit c) ∧ s.conns[c]? = some x ∧ x.cur = some k) := by
    intro j z z' hz h1 h2 h3
    rw [get_set hz]
    by_cases hk : k = j
    · subst hk
      rw [hz] at hy
      cases hy
      rw [if_pos rfl]
      exact ⟨z', rfl, h1, h2, fun a b => h3 a b rfl⟩
    · rw [if_neg hk]
      refine ⟨y, hy, rfl, fun h => ⟨h, rfl⟩, fun h1 h2 => ?_⟩
      rw [h1] at h2
      cases h2
  have hhalt : ∀ (c j : Nat) (x : Conn), s.conns[c]? = some x → x.cur = some j → (e = .stop c ∨ e = .exit c) →
      ∃ y', (s.halt j).streams[k]? = some y' ∧ y'.port = y.port ∧ (y.recv = false → y'.recv = false ∧ y'.pushed = y.pushed) ∧
        (y'.recv = false → y.recv = true → e = .finish k ∨ ∃ c x, (e = .stop c ∨ e = .exit c) ∧ s.conns[c]? = some x ∧ x.cur = some k) := by
    intro c j x hx hc he
    unfold St.halt
    cases hj : s.streams[j]? with
    | none => exact hsame s rfl
    | some z => exact hset j z z.halt hj rfl (fun _ => ⟨rfl, rfl⟩) (fun _ _ hjk => Or.inr ⟨c, x, he, hx, hjk ▸ hc⟩)
  unfold St.step at hs
  split at hs
  · cases e with
    | connect => simp only [Option.some.injEq] at hs; subst hs; exact hsame _ rfl
    | start c port opt =>
      simp only [Option.map_eq_some_iff] at hs
      obtain ⟨x, hx, hs⟩ := hs
      subst hs
      unfold St.start
      split
      · exact hsame _ rfl
      · split
        · exact hsame _ rfl
        · split
          · exact hsame _ rfl
          · refine ⟨y, ?_, rfl, fun h => ⟨h, rfl⟩, fun h1 h2 => ?_⟩
            · show (s.streams ++ [_])[k]? = _
              rw [List.getElem?_append_left (List.getElem?_eq_some_iff.1 hy).1]
              exact hy
            · rw [h1] at h2; cases h2
    | stop c =>
      simp only [Option.map_eq_some_iff] at hs
      obtain ⟨x, hx, hs⟩ := hs
      subst hs
      unfold St.stop
      split
      · exact hsame _ rfl
      · rename_i j hc
        exact hhalt c j x (atLine_some hx).1 hc (Or.inl rfl)
    | exit c =>
      simp only [Option.map_eq_some_iff] at hs
      obtain ⟨x, hx, hs⟩ := hs
      subst hs
      unfold St.exit
      split
      · exact hsame _ rfl
      · rename_i j hc
        exact hhalt c j x (atLine_some hx).1 hc (Or.inr rfl)
    | other c =>
      simp only [Option.map_eq_some_iff] at hs
      obtain ⟨x, hx, hs⟩ := hs
      subst hs
      exact hsame _ rfl
    | fault c =>
      simp only [Option.map_eq_some_iff] at hs
      obtain ⟨x, hx, hs⟩ := hs
      subst hs
      exact hsame _ rfl
    | resume c =>
      simp only at hs
      split at hs
      · split at hs
        · split at hs
          · split at hs
            · unfold St.resume at hs
              split at hs <;> cases hs <;> exact hsame _ rfl
            · cases hs
          · cases hs
        · cases hs
      · cases hs
    | heap j =>
      simp only at hs
      split at hs
      · rename_i z hz
        split at hs
        · rename_i hr
          cases hs
          exact hset j z _ hz rfl (fun h => by rw [hr] at h; cases h) (fun h _ => by rw [show ({ z with pushed := z.pushed + 1 } : Stream).recv = true from hr] at h; cases h)
        · cases hs
      · cases hs
    | take j =>
      simp only at hs
      split at hs
      · rename_i z hz
        split at hs
        · cases hs
          exact hset j z _ hz rfl (fun h => ⟨h, rfl⟩) (fun h1 h2 => by rw [show z.recv = false from h1] at h2; cases h2)
        · cases hs
      · cases hs
    | finish j =>
      simp only at hs
      split at hs
      · rename_i z hz
        split at hs
        · cases hs
          exact hset j z z.halt hz rfl (fun _ => ⟨rfl, rfl⟩) (fun _ _ hjk => Or.inl (by rw [hjk]))
        · cases hs
      · cases hs
  · cases hs

/-- **C102.** That number is final: a stream that has stopped pushes no more heaps. -/
theorem C102_final {s s' : St} {e : Ev} (hs : s.step e = some s') {k : Nat} {y : Stream} (hy : s.streams[k]? = some y) (hr : y.recv = false) :
    ∃ y', s'.streams[k]? = some y' ∧ y'.recv = false ∧ y'.pushed = y.pushed := by
  obtain ⟨y', h1, _, h2, _⟩ := stream_step hs hy
  exact ⟨y', h1, h2 hr⟩

/-- **C102.** A stream stops only if the end of the stream came, or by a command or the end of the connection that it belongs to; others have no influence. -/
theorem C102_isolated {s s' : St} {e : Ev} (hs : s.step e = some s') {k : Nat} {y y' : Stream} (hy : s.streams[k]? = some y) (hr : y.recv = true) (hy' : s'.streams[k]? = some y')
    (hr' : y'.recv = false) : e = .finish k ∨ ∃ (c : Nat) (x : Conn), (e = .stop c ∨ e = .exit c) ∧ s.conns[c]? = some x ∧ x.cur = some k := by
  obtain ⟨z, h1, _, _, h2⟩ := stream_step hs hy
  rw [hy'] at h1
  cases h1
  exact h2 hr' hr

/-- **C102.** A connection that waits for its stream goes on, after as many heaps as are left in the ring. -/
theorem C102_waits {ibv : Bool} {s : St} (h : Run ibv s) (hu : s.up = true) {c : Nat} {x : Conn} (hx : s.conns[c]? = some x) (hp : x.phase = .stopping ∨ x.phase = .closing) :
    ∃ (k : Nat) (y : Stream), x.cur = some k ∧ s.streams[k]? = some y ∧ y.taken ≤ y.pushed ∧
      (y.taken = y.pushed → (s.step (.resume c)).isSome) ∧
      (y.taken < y.pushed → ∃ s', s.step (.take k) = some s' ∧ s'.streams[k]? = some { y with taken := y.taken + 1 }) := by
  have hi := run_inv h
  obtain ⟨k, y, hc, hy, hr⟩ := (hi.conns x (List.mem_of_getElem? hx)).wait hp
  refine ⟨k, y, hc, hy, hi.takes y (List.mem_of_getElem? hy), ?_, ?_⟩
  · intro he
    unfold St.step
    rw [if_pos hu]
    simp only [hx, hc, hy]
    rw [if_pos (by simp [Stream.done, hr, he])]
    unfold St.resume
    rcases hp with hp | hp <;> rw [hp] <;> rfl
  · intro hlt
    refine ⟨{ s with streams := s.streams.set k { y with taken := y.taken + 1 } }, ?_, ?_⟩
    · unfold St.step
      rw [if_pos hu]
      simp only [hy]
      rw [if_pos hlt]
    · show (s.streams.set k _)[k]? = _
      rw [get_set hy, if_pos rfl]

/-- When all connections have ended no endpoint is in use. -/
def C102_statement : Prop := ∀ (ibv : Bool) (s : St), Run ibv s → (∀ x ∈ s.conns, x.phase = .over) → ∀ y ∈ s.streams, y.recv = false

/-- **C102, the part that holds.** Without exceptions every stream that receives belongs to a connection that has not ended. -/
theorem C102_partial {ibv : Bool} {s : St} (h : Calm ibv s) {k : Nat} {y : Stream} (hy : s.streams[k]? = some y) (hr : y.recv = true) :
    ∃ (c : Nat) (x : Conn), s.conns[c]? = some x ∧ x.cur = some k ∧ x.phase = .line := by
  induction h generalizing k y with
  | init => simp at hy
  | @step s s' e hcalm hs hf ih =>
    have hi := run_inv hcalm.run
    -- a stream that was there before and has an owner that the event leaves alone
    have hkeep : ∀ t : St, t.conns = s.conns → t.streams[k]? = some y → (∀ z, s.streams[k]? = some z → z.recv = true) → k < s.streams.length →
        ∃ (c : Nat) (x : Conn), t.conns[c]? = some x ∧ x.cur = some k ∧ x.phase = .line := by
      intro t ht _ hz hlt
      rw [ht]
      exact ih (List.getElem?_eq_getElem hlt) (hz _ (List.getElem?_eq_getElem hlt))
    have hlt_or : k < s.streams.length ∨ s.streams[k]? = none := by
      by_cases hlt : k < s.streams.length
      · exact Or.inl hlt
      · exact Or.inr (List.getElem?_eq_none (by omega))
    have hold : ∀ z, s.streams[k]? = some z → z.recv = true := by
      intro z hz
      cases hzr : z.recv with
      | true => rfl
      | false =>
        obtain ⟨y', h1, h2, _⟩ := C102_final hs hz hzr
        rw [hy] at h1
        cases h1
        rw [h2] at hr
        cases hr
    -- a connection whose stream does not receive any more, or which has none, is changed
    have hset : ∀ (t : St) (c : Nat) (x x' : Conn), s.conns[c]? = some x → t.conns = s.conns.set c x' → (x.cur = some k → x'.cur = some k ∧ x'.phase = .line) → k < s.streams.length →
        ∃ (d : Nat) (z : Conn), t.conns[d]? = some z ∧ z.cur = some k ∧ z.phase = .line := by
      intro t c x x' hx ht hxx hlt
      obtain ⟨d, z, h1, h2, h3⟩ := ih (List.getElem?_eq_getElem hlt) (hold _ (List.getElem?_eq_getElem hlt))
      by_cases hd : d = c
      · subst hd
        rw [hx] at h1
        cases h1
        refine ⟨d, x', ?_, hxx h2⟩
        rw [ht, get_set hx, if_pos rfl]
      · refine ⟨d, z, ?_, h2, h3⟩
        rw [ht, get_set hx, if_neg hd]
        exact h1
    have hhalt : ∀ (c : Nat) (x : Conn) (j : Nat) (p : Phase), s.conns[c]? = some x → x.cur = some j → s' = (s.halt j).setConn c { x with phase := p } →
        ∃ (d : Nat) (z : Conn), s'.conns[d]? = some z ∧ z.cur = some k ∧ z.phase = .line := by
      intro c x j p hx hc he
      have hlen : s'.streams.length = s.streams.length := by rw [he]; exact (halt_conns s j).2.1
      have hlt : k < s.streams.length := by rw [← hlen]; exact (List.getElem?_eq_some_iff.1 hy).1
      refine hset s' c x { x with phase := p } hx (by rw [he]; show (s.halt j).conns.set c _ = _; rw [(halt_conns s j).1]) ?_ hlt
      intro hk
      exfalso
      rw [hk] at hc
      cases hc
      have := halt_get s (List.getElem?_eq_getElem hlt)
      rw [he] at hy
      have hy : (s.halt k).streams[k]? = some y := hy
      rw [this] at hy
      cases hy
      cases hr
    have hlen_of : s'.streams = s.streams → k < s.streams.length := by
      intro he
      rw [he] at hy
      exact (List.getElem?_eq_some_iff.1 hy).1
    unfold St.step at hs
    split at hs
    · cases e with
      | connect =>
        simp only [Option.some.injEq] at hs
        subst hs
        obtain ⟨d, z, h1, h2, h3⟩ := ih hy hr
        refine ⟨d, z, ?_, h2, h3⟩
        show (s.conns ++ [_])[d]? = _
        rw [List.getElem?_append_left (List.getElem?_eq_some_iff.1 h1).1]
        exact h1
      | start c port opt =>
        simp only [Option.map_eq_some_iff] at hs
        obtain ⟨x, hx, hs⟩ := hs
        obtain ⟨hx, hl⟩ := atLine_some hx
        subst hs
        generalize hs' : s.start c x port opt = s' at *
        unfold St.start at hs'
        split at hs'
        · subst hs'
          exact ih hy hr
        · rename_i hc
          split at hs'
          · subst hs'
            exact ih hy hr
          · split at hs'
            · subst hs'
              exact hset _ c x _ hx rfl (fun h => by rw [hc] at h; cases h) (hlen_of rfl)
            · subst hs'
              have hy : (s.streams ++ [{ port := port }])[k]? = some y := hy
              rw [get_push] at hy
              split at hy
              · rename_i hk
                refine ⟨c, { x with cur := some s.streams.length, replies := x.replies ++ [.ready] }, ?_, by rw [hk], hl⟩
                show (s.conns.set c _)[c]? = _
                rw [get_set hx, if_pos rfl]
              · exact hset _ c x { x with cur := some s.streams.length, replies := x.replies ++ [.ready] } hx rfl (fun h => by rw [hc] at h; cases h) (List.getElem?_eq_some_iff.1 hy).1
      | stop c =>
        simp only [Option.map_eq_some_iff] at hs
        obtain ⟨x, hx, hs⟩ := hs
        obtain ⟨hx, hl⟩ := atLine_some hx
        unfold St.stop at hs
        split at hs
        · subst hs; exact ih hy hr
        · rename_i j hc
          exact hhalt c x j _ hx hc hs.symm
      | exit c =>
        simp only [Option.map_eq_some_iff] at hs
        obtain ⟨x, hx, hs⟩ := hs
        obtain ⟨hx, hl⟩ := atLine_some hx
        unfold St.exit at hs
        split at hs
        · rename_i hc
          subst hs
          exact hset _ c x _ hx rfl (fun h => by rw [hc] at h; cases h) (hlen_of rfl)
        · rename_i j hc
          exact hhalt c x j _ hx hc hs.symm
      | other c =>
        simp only [Option.map_eq_some_iff] at hs
        obtain ⟨x, hx, hs⟩ := hs
        subst hs
        exact ih hy hr
      | fault c => exact absurd rfl (hf c)
      | resume c =>
        simp only at hs
        split at hs
        · rename_i x hx
          split at hs
          · rename_i j hc
            split at hs
            · rename_i z hz
              split at hs
              · rename_i hd
                have hne : x.cur = some k → False := by
                  intro hk
                  rw [hk] at hc
                  cases hc
                  have := hold z hz
                  simp [Stream.done, this] at hd
                unfold St.resume at hs
                split at hs
                · cases hs
                  exact hset _ c x _ hx rfl (fun h => absurd h (fun h => hne h)) (hlen_of rfl)
                · cases hs
                  exact hset _ c x _ hx rfl (fun h => absurd h (fun h => hne h)) (hlen_of rfl)
                · cases hs
              · cases hs
            · cases hs
          · cases hs
        · cases hs
      | heap j =>
        simp only at hs
        split at hs
        · split at hs
          · cases hs
            exact hkeep _ rfl hy hold (by have := (List.getElem?_eq_some_iff.1 hy).1; rwa [List.length_set] at this)
          · cases hs
        · cases hs
      | take j =>
        simp only at hs
        split at hs
        · split at hs
          · cases hs
            exact hkeep _ rfl hy hold (by have := (List.getElem?_eq_some_iff.1 hy).1; rwa [List.length_set] at this)
          · cases hs
        · cases hs
      | finish j =>
        simp only at hs
        split at hs
        · split at hs
          · cases hs
            exact hkeep _ rfl hy hold (by have := (List.getElem?_eq_some_iff.1 hy).1; rwa [List.length_set] at this)
          · cases hs
        · cases hs
    · cases hs

/-- **C102.** So without exceptions the endpoints are free again when the connections have ended. -/
theorem C102_freed {ibv : Bool} {s : St} (h : Calm ibv s) (ho : ∀ x ∈ s.conns, x.phase = .over) : ∀ y ∈ s.streams, y.recv = false := by
  intro y hy
  obtain ⟨k, hk, hky⟩ := List.getElem_of_mem hy
  cases hr : y.recv with
  | false => rfl
  | true =>
    obtain ⟨c, x, h1, _, h3⟩ := C102_partial h (k := k) (by rw [List.getElem?_eq_getElem hk, hky]) hr
    have := ho x (List.mem_of_getElem? h1)
    rw [h3] at this
    cases this

/-- **C102 fails.** A client starts a stream, and its connection is reset. -/
theorem C102_violated : ¬ C102_statement := by
  intro h
  have h1 : Run false { ibv := false, conns := [{}] } := .step (e := .connect) .init rfl
  have h2 : Run false { ibv := false, conns := [{ cur := some 0, replies := [.ready] }], streams := [{ port := 8888 }] } := .step (e := .start 0 8888 false) h1 rfl
  have h3 : Run false { ibv := false, conns := [{ phase := .over, replies := [.ready] }], streams := [{ port := 8888 }] } := .step (e := .fault 0) h2 rfl
  have := h false _ h3 (by simp) { port := 8888 } (by simp)
  cases this

/-- **C102.** From then on, until the end of a stream happens to come to it, nothing stops the stream that was left behind, it gets no new owner, and every start command for its endpoint fails
without a reply. -/
theorem C102_blocked {ibv : Bool} {s s' : St} {e : Ev} (h : Run ibv s) {k : Nat} {y : Stream} (hy : s.streams[k]? = some y) (hr : y.recv = true) (ho : ¬ s.owned k) (hs : s.step e = some s')
    (hf : e ≠ .finish k) :
    (∃ y', s'.streams[k]? = some y' ∧ y'.recv = true ∧ y'.port = y.port) ∧ ¬ s'.owned k ∧
      ∀ c opt x, e = .start c y.port opt → s.conns[c]? = some x → x.cur = none → (opt = true → s.ibv = true) → s'.conns[c]? = some { x with phase := .over } := by
  have hi := run_inv h
  refine ⟨?_, ?_, ?_⟩
  · obtain ⟨y', h1, h2, _, h4⟩ := stream_step hs hy
    refine ⟨y', h1, ?_, h2⟩
    cases hr' : y'.recv with
    | true => rfl
    | false =>
      rcases h4 hr' hr with h | ⟨c, x, _, hx, hc⟩
      · exact absurd h hf
      · exact absurd ⟨c, x, hx, hc⟩ ho
  · rintro ⟨d, z, hz, hzk⟩
    have hlt := (List.getElem?_eq_some_iff.1 hy).1
    -- a connection that is changed to one without a stream, or with the same one
    have hset : ∀ (t : St) (c : Nat) (x x' : Conn), s.conns[c]? = some x → t.conns = s.conns.set c x' → (x'.cur = some k → x.cur = some k) → t.conns[d]? = some z → False := by
      intro t c x x' hx ht hxx hd
      rw [ht, get_set hx] at hd
      split at hd
      · rename_i hdc
        cases hd
        exact ho ⟨c, x, hx, hxx hzk⟩
      · exact ho ⟨d, z, hd, hzk⟩
    unfold St.step at hs
    split at hs
    · cases e with
      | connect =>
        simp only [Option.some.injEq] at hs
        subst hs
        have hz : (s.conns ++ [_])[d]? = some z := hz
        rw [get_push] at hz
        split at hz
        · cases hz; cases hzk
        · exact ho ⟨d, z, hz, hzk⟩
      | start c port opt =>
        simp only [Option.map_eq_some_iff] at hs
        obtain ⟨x, hx, hs⟩ := hs
        obtain ⟨hx, hl⟩ := atLine_some hx
        unfold St.start at hs
        split at hs
        · subst hs; exact ho ⟨d, z, hz, hzk⟩
        · rename_i hc
          split at hs
          · subst hs; exact ho ⟨d, z, hz, hzk⟩
          · split at hs
            · subst hs
              exact hset _ c x _ hx rfl (fun h => by rw [hc] at h; cases h) hz
            · subst hs
              exact hset _ c x { x with cur := some s.streams.length, replies := x.replies ++ [.ready] } hx rfl (fun h => by cases h; omega) hz
      | stop c =>
        simp only [Option.map_eq_some_iff] at hs
        obtain ⟨x, hx, hs⟩ := hs
        obtain ⟨hx, hl⟩ := atLine_some hx
        unfold St.stop at hs
        split at hs
        · subst hs; exact ho ⟨d, z, hz, hzk⟩
        · rename_i j hc
          subst hs
          exact hset _ c x { x with phase := .stopping } hx (by show (s.halt j).conns.set c _ = _; rw [(halt_conns s j).1]) (fun h => h) hz
      | exit c =>
        simp only [Option.map_eq_some_iff] at hs
        obtain ⟨x, hx, hs⟩ := hs
        obtain ⟨hx, hl⟩ := atLine_some hx
        unfold St.exit at hs
        split at hs
        · subst hs; exact hset _ c x { x with phase := .over } hx rfl (fun h => h) hz
        · rename_i j hc
          subst hs
          exact hset _ c x { x with phase := .closing } hx (by show (s.halt j).conns.set c _ = _; rw [(halt_conns s j).1]) (fun h => h) hz
      | other c =>
        simp only [Option.map_eq_some_iff] at hs
        obtain ⟨x, hx, hs⟩ := hs
        subst hs
        exact ho ⟨d, z, hz, hzk⟩
      | fault c =>
        simp only [Option.map_eq_some_iff] at hs
        obtain ⟨x, hx, hs⟩ := hs
        subst hs
        exact hset _ c x { x with phase := .over, cur := none } (atLine_some hx).1 rfl (fun h => by cases h) hz
      | resume c =>
        simp only at hs
        split at hs
        · rename_i x hx
          split at hs
          · split at hs
            · split at hs
              · unfold St.resume at hs
                split at hs
                · cases hs
                  exact hset _ c x _ hx rfl (fun h => by cases h) hz
                · cases hs
                  exact hset _ c x _ hx rfl (fun h => by cases h) hz
                · cases hs
              · cases hs
            · cases hs
          · cases hs
        · cases hs
      | heap j => simp only at hs; split at hs <;> (try split at hs) <;> cases hs <;> exact ho ⟨d, z, hz, hzk⟩
      | take j => simp only at hs; split at hs <;> (try split at hs) <;> cases hs <;> exact ho ⟨d, z, hz, hzk⟩
      | finish j => simp only at hs; split at hs <;> (try split at hs) <;> cases hs <;> exact ho ⟨d, z, hz, hzk⟩
    · cases hs
  · intro c opt x he hx hc hopt
    subst he
    unfold St.step at hs
    split at hs
    · simp only [Option.map_eq_some_iff] at hs
      obtain ⟨x1, hx1, hs⟩ := hs
      obtain ⟨hx1, hl⟩ := atLine_some hx1
      rw [hx] at hx1
      cases hx1
      have hb : s.bound y.port = true := by
        unfold St.bound
        rw [List.any_eq_true]
        exact ⟨y, List.mem_of_getElem? hy, by simp [hr]⟩
      unfold St.start at hs
      simp only [hc] at hs
      rw [if_neg (by intro hd; simp only [Bool.and_eq_true, Bool.not_eq_true'] at hd; rw [hopt hd.1] at hd; cases hd.2), if_pos hb] at hs
      subst hs
      show (s.conns.set c _)[c]? = _
      rw [get_set hx, if_pos rfl]
      cases x
      simp only at hc
      subst hc
      rfl
    · cases hs

/-- **C102.** A client whose spead2 has support for ibverbs ends an agent without it, with all its connections, even if the client does not ask for ibverbs. -/
theorem C102_dies {s : St} (hi : s.ibv = false) (hu : s.up = true) {c : Nat} {x : Conn} (hx : s.conns[c]? = some x) (hl : x.phase = .line) (hc : x.cur = none) (port : Nat) :
    ∃ s', s.step (.start c port true) = some s' ∧ ∀ e, s'.step e = none := by
  refine ⟨{ s with up := false }, ?_, fun e => rfl⟩
  unfold St.step
  rw [if_pos hu]
  simp [St.atLine, hx, hl, St.start, hc, hi]

/-- **C102.** Nothing else ends an agent. -/
theorem C102_lives {s s' : St} {e : Ev} (hs : s.step e = some s') (hd : s'.up = false) : s.ibv = false ∧ ∃ c port, e = .start c port true := by
  unfold St.step at hs
  split at hs
  · rename_i hu
    have hsame : ∀ t : St, t.up = s.up → t.up = false → False := by
      intro t h1 h2
      rw [h1, hu] at h2
      cases h2
    cases e with
    | connect => simp only [Option.some.injEq] at hs; subst hs; exact (hsame _ rfl hd).elim
    | start c port opt =>
      simp only [Option.map_eq_some_iff] at hs
      obtain ⟨x, hx, hs⟩ := hs
      subst hs
      unfold St.start at hd
      split at hd
      · exact (hsame _ rfl hd).elim
      · split at hd
        · rename_i hc
          simp only [Bool.and_eq_true, Bool.not_eq_true'] at hc
          rw [hc.1]
          exact ⟨hc.2, c, port, rfl⟩
        · split at hd <;> exact (hsame _ rfl hd).elim
    | stop c =>
      simp only [Option.map_eq_some_iff] at hs
      obtain ⟨x, hx, hs⟩ := hs
      subst hs
      unfold St.stop at hd
      split at hd
      · exact (hsame _ rfl hd).elim
      · exact (hsame _ (halt_conns s _).2.2.1 hd).elim
    | exit c =>
      simp only [Option.map_eq_some_iff] at hs
      obtain ⟨x, hx, hs⟩ := hs
      subst hs
      unfold St.exit at hd
      split at hd
      · exact (hsame _ rfl hd).elim
      · exact (hsame _ (halt_conns s _).2.2.1 hd).elim
    | other c =>
      simp only [Option.map_eq_some_iff] at hs
      obtain ⟨x, hx, hs⟩ := hs
      subst hs
      exact (hsame _ rfl hd).elim
    | fault c =>
      simp only [Option.map_eq_some_iff] at hs
      obtain ⟨x, hx, hs⟩ := hs
      subst hs
      exact (hsame _ rfl hd).elim
    | resume c =>
      simp only at hs
      split at hs
      · split at hs
        · split at hs
          · split at hs
            · unfold St.resume at hs
              split at hs <;> cases hs <;> exact (hsame _ rfl hd).elim
            · cases hs
          · cases hs
        · cases hs
      · cases hs
    | heap j => simp only at hs; split at hs <;> (try split at hs) <;> cases hs <;> exact (hsame _ rfl hd).elim
    | take j => simp only at hs; split at hs <;> (try split at hs) <;> cases hs <;> exact (hsame _ rfl hd).elim
    | finish j => simp only at hs; split at hs <;> (try split at hs) <;> cases hs <;> exact (hsame _ rfl hd).elim
  · cases hs

/-- Events in order. -/
def runs (s : St) : List Ev → Option St
  | [] => some s
  | e :: es => (s.step e).bind (fun s' => runs s' es)

/-- Two clients at different endpoints; one asks for the number of heaps, of which one is still in the ring. -/
example : (runs { ibv := false } [.connect, .connect, .start 0 1 false, .start 1 2 false, .heap 0, .heap 0, .heap 1, .take 0, .stop 0, .take 0, .resume 0, .exit 0]).map
    (fun s => (s.conns, s.streams)) =
    some ([{ phase := .over, replies := [.ready, .heaps 2] }, { cur := some 1, replies := [.ready] }], [⟨1, 2, 2, false⟩, ⟨2, 1, 0, true⟩]) := by decide

/-- After a reset the endpoint is never ready again. -/
example : (runs { ibv := false } [.connect, .start 0 1 false, .fault 0, .connect, .start 1 1 false]).map (fun s => (s.conns.map (·.replies), s.conns.map (·.phase))) =
    some ([[.ready], []], [.over, .over]) := by decide

end Spead2.PyBench
