import Verif.Spec.SendWriter
import Verif.Lemmas.SendProgress

/-!
# The simple writers use the queue as they should
-/

namespace Spead2
open Spec

variable {H π : Type}

theorem queueEvs_append (a b : List (WEv π)) : queueEvs (a ++ b) = queueEvs a ++ queueEvs b := List.filterMap_append
theorem leftWire_append (a b : List (WEv π)) : leftWire (a ++ b) = leftWire a ++ leftWire b := List.filterMap_append

theorem queueEvs_sq (ev : List (SqEv π)) : queueEvs (ev.map WEv.sq) = ev := by
  induction ev with
  | nil => rfl
  | cons e ev ih => show e :: queueEvs (ev.map WEv.sq) = _; rw [ih]

theorem leftWire_sq (ev : List (SqEv π)) : leftWire (ev.map (WEv.sq (π := π))) = [] := by
  induction ev with
  | nil => rfl
  | cons e ev ih => exact ih

theorem queueEvs_wire (n : Nat) (d : Option Bytes) : queueEvs (wireEvs (π := π) n d) = [] := by cases d <;> rfl
theorem leftWire_wire (n : Nat) (d : Option Bytes) : leftWire (wireEvs (π := π) n d) = d.toList.map (fun d => (n, d)) := by cases d <;> rfl

/-- What callers do leaves the part of the state that belongs to the writer alone. -/
theorem caller_keep {env : SqEnv H π} {s s' : Sq H π} {op : SqOp H} {ev : List (SqEv π)} (ho : op.ofCaller = true) (h : s.step env op = some (s', ev)) :
    (s'.active = s.active ∧ s'.wtail = s.wtail ∧ s'.out = s.out ∧ s'.fin = s.fin ∧ s'.calling = s.calling ∧ s'.waking = s.waking) ∧
    (s'.wk = s.wk ∨ s.wk = .need ∧ s'.wk = .queued) ∧ fetched ev = [] ∧ outcomes ev = [] := by
  cases op with
  | enter refs mode =>
    simp only [Sq.step] at h
    split at h
    · cases h; exact ⟨⟨rfl, rfl, rfl, rfl, rfl, rfl⟩, Or.inl rfl, rfl, rfl⟩
    · unfold Sq.enter at h
      split at h <;> (cases h; exact ⟨⟨rfl, rfl, rfl, rfl, rfl, rfl⟩, Or.inl rfl, rfl, rfl⟩)
  | commit =>
    simp only [Sq.step, Sq.commit] at h
    split at h
    · cases h; exact ⟨⟨rfl, rfl, rfl, rfl, rfl, rfl⟩, Or.inl rfl, rfl, rfl⟩
    · split at h
      · cases h
      · unfold Sq.accept at h
        split at h
        · cases h
        · split at h
          · cases h
          · cases h
            refine ⟨⟨rfl, rfl, rfl, rfl, rfl, rfl⟩, ?_, rfl, rfl⟩
            by_cases hw : s.wk = .need
            · right; exact ⟨hw, by show (if s.wk = .need then _ else _) = _; rw [if_pos hw]⟩
            · left; show (if s.wk = .need then _ else _) = _; rw [if_neg hw]
      · unfold Sq.throw at h
        split at h
        · cases h
        · cases h; exact ⟨⟨rfl, rfl, rfl, rfl, rfl, rfl⟩, Or.inl rfl, rfl, rfl⟩
      · unfold Sq.reject at h
        split at h
        · cases h
        · cases h; exact ⟨⟨rfl, rfl, rfl, rfl, rfl, rfl⟩, Or.inl rfl, rfl, rfl⟩
  | unwind i =>
    simp only [Sq.step, Sq.unwind] at h
    split at h
    · cases h; exact ⟨⟨rfl, rfl, rfl, rfl, rfl, rfl⟩, Or.inl rfl, rfl, rfl⟩
    · split at h
      · cases h
      · cases h; exact ⟨⟨rfl, rfl, rfl, rfl, rfl, rfl⟩, Or.inl rfl, rfl, rfl⟩
  | flush =>
    simp only [Sq.step, Sq.flush] at h
    split at h
    · cases h; exact ⟨⟨rfl, rfl, rfl, rfl, rfl, rfl⟩, Or.inl rfl, rfl, rfl⟩
    · split at h
      · cases h; exact ⟨⟨rfl, rfl, rfl, rfl, rfl, rfl⟩, Or.inl rfl, rfl, rfl⟩
      · split at h
        · cases h
        · cases h; exact ⟨⟨rfl, rfl, rfl, rfl, rfl, rfl⟩, Or.inl rfl, rfl, rfl⟩
  | setCnt a b =>
    simp only [Sq.step, Sq.setCnt] at h
    split at h <;> (cases h; exact ⟨⟨rfl, rfl, rfl, rfl, rfl, rfl⟩, Or.inl rfl, rfl, rfl⟩)
  | dispatch i =>
    simp only [Sq.step] at h
    split at h <;> (cases h; exact ⟨⟨rfl, rfl, rfl, rfl, rfl, rfl⟩, Or.inl rfl, rfl, rfl⟩)
  | wake => cases ho
  | get => cases ho
  | sent r => cases ho
  | complete k => cases ho
  | call => cases ho
  | notify => cases ho
  | repost => cases ho
  | request => cases ho

/-- What `get_packet` does. -/
theorem get_writer {env : SqEnv H π} {s s' : Sq H π} {ev : List (SqEv π)} (h : s.get env = some (s', ev)) :
    (s'.fin = s.fin ∧ s'.calling = s.calling ∧ s'.waking = s.waking ∧ s'.wk = s.wk ∧ s'.sender = s.sender ∧ s'.tail = s.tail) ∧
    ((ev = [] ∧ s'.out = s.out ∧ s'.active = s'.wtail ∧ s'.wtail = s'.tail) ∨ ∃ p n l, ev = [.packet p n l] ∧ s'.out = s.out ++ [⟨p, s.start, l⟩]) := by
  have hadv : ∀ (s1 : Sq H π) sl cur p, (s1.fin = s.fin ∧ s1.calling = s.calling ∧ s1.waking = s.waking ∧ s1.wk = s.wk ∧ s1.sender = s.sender ∧ s1.tail = s.tail) → s1.out = s.out → s1.start = s.start →
      s1.advance env sl cur p = some (s', ev) →
      (s'.fin = s.fin ∧ s'.calling = s.calling ∧ s'.waking = s.waking ∧ s'.wk = s.wk ∧ s'.sender = s.sender ∧ s'.tail = s.tail) ∧
      ((ev = [] ∧ s'.out = s.out ∧ s'.active = s'.wtail ∧ s'.wtail = s'.tail) ∨ ∃ p n l, ev = [.packet p n l] ∧ s'.out = s.out ++ [⟨p, s.start, l⟩]) := by
    intro s1 sl cur p e1 e2 e3 ha
    unfold Sq.advance at ha
    rw [e2, e3] at ha
    split at ha
    · split at ha
      · cases ha
      · cases ha; exact ⟨e1, Or.inr ⟨_, _, _, rfl, rfl⟩⟩
      · split at ha
        · cases ha
        · cases ha; exact ⟨e1, Or.inr ⟨_, _, _, rfl, rfl⟩⟩
    · split at ha
      · cases ha
      · cases ha; exact ⟨e1, Or.inr ⟨_, _, _, rfl, rfl⟩⟩
      · cases ha; exact ⟨e1, Or.inr ⟨_, _, _, rfl, rfl⟩⟩
  have key : ∀ (s1 : Sq H π), (s1.fin = s.fin ∧ s1.calling = s.calling ∧ s1.waking = s.waking ∧ s1.wk = s.wk ∧ s1.sender = s.sender ∧ s1.tail = s.tail) → s1.out = s.out → s1.start = s.start →
      (s1.active = s1.wtail → s1.wtail = s1.tail) →
      (if s1.active = s1.wtail then some (s1, []) else
        match s1.slots (s1.active &&& env.mask) with
        | none => none
        | some cur =>
          match cur.pkts with
          | [] => none
          | p :: rest => s1.advance env (s1.slots.set (s1.active &&& env.mask) (some { cur with pkts := rest })) cur p) = some (s', ev) →
      (s'.fin = s.fin ∧ s'.calling = s.calling ∧ s'.waking = s.waking ∧ s'.wk = s.wk ∧ s'.sender = s.sender ∧ s'.tail = s.tail) ∧
      ((ev = [] ∧ s'.out = s.out ∧ s'.active = s'.wtail ∧ s'.wtail = s'.tail) ∨ ∃ p n l, ev = [.packet p n l] ∧ s'.out = s.out ++ [⟨p, s.start, l⟩]) := by
    intro s1 e1 e2 e3 e4 h
    split at h
    · rename_i ht
      cases h; exact ⟨e1, Or.inl ⟨rfl, e2, ht, e4 ht⟩⟩
    · split at h
      · cases h
      · split at h
        · cases h
        · exact hadv _ _ _ _ e1 e2 e3 h
  refine key (if s.active = s.wtail then { s with wtail := s.tail } else s) ?_ ?_ ?_ ?_ h
  · split <;> exact ⟨rfl, rfl, rfl, rfl, rfl, rfl⟩
  · split <;> rfl
  · split <;> rfl
  · split
    · exact fun _ => rfl
    · rename_i hne
      exact fun h => absurd h hne

theorem completeLoop_writer {env : SqEnv H π} : ∀ {k : Nat} {s s' : Sq H π}, completeLoop env k s = some s' →
    s'.active = s.active ∧ s'.wtail = s.wtail ∧ s'.out = s.out ∧ s'.sender = s.sender
  | 0, s, s', h => by cases h; exact ⟨rfl, rfl, rfl, rfl⟩
  | k + 1, s, s', h => by
    unfold completeLoop at h
    split at h
    · cases h
    · split at h
      · cases h
      · split at h
        · cases h
        · split at h
          · cases h
          · obtain ⟨h1, h2, h3, h4⟩ := completeLoop_writer h
            exact ⟨h1, h2, h3, h4⟩

/-- `complete` in terms of the writer's part of the state. -/
theorem complete_writer {env : SqEnv H π} {s s' : Sq H π} {k : Nat} {ev : List (SqEv π)} (h : s.complete env k = some (s', ev)) (hk : k ≤ s.fin) :
    s'.active = s.active ∧ s'.wtail = s.wtail ∧ s'.out = s.out ∧ s'.sender = s.sender ∧ s'.fin = s.fin - k ∧ ev = [] ∧ s'.wk = s.wk ∧ s'.tail = s.tail ∧ s'.flushes = s.flushes := by
  unfold Sq.complete at h
  rw [if_pos hk] at h
  split at h
  · cases h
  · rename_i hl
    cases h
    obtain ⟨h1, h2, h3, h4⟩ := completeLoop_writer hl
    obtain ⟨k1, _, _, k4, _, k6⟩ := completeLoop_keep hl
    exact ⟨h1, h2, h3, h4, rfl, rfl, k6, k1, k4⟩

/-- The writer does nothing that the queue does not expect of it. -/
structure Free (s : Sq H π) (g : Nat) : Prop where
  run : s.wk = .running
  out : s.out = []
  fin : s.fin = g
  calling : s.calling = []
  waking : s.waking = []

theorem Free.ready {s : Sq H π} {g : Nat} (h : Free s g) : s.ready = true := by
  unfold Sq.ready
  rw [h.run, h.calling, h.waking]
  rfl

/-- Before `request_wakeup` the writer has read up to the tail that it knows. -/
def NextOk (s : Sq H π) (nx : WNext) : Prop := nx = .request → s.active = s.wtail

def WPcOk (kind : WKind) (w : WSt H π) : Prop :=
  match w.pc with
  | .rest => w.sq.wk ≠ .running ∧ w.sq.out = [] ∧ w.sq.fin = 0 ∧ w.sq.calling = [] ∧ w.sq.waking = []
  | .loop _ g => Free w.sq g ∧ (kind ≠ .streambuf → g = 0)
  | .sending _ g p _ last =>
    (w.sq.wk = .running ∧ (∃ st, w.sq.out = [⟨p, st, last⟩]) ∧ w.sq.fin = g ∧ w.sq.calling = [] ∧ w.sq.waking = []) ∧ (kind ≠ .streambuf → g = 0)
  | .report k nx => Free w.sq k ∧ 0 < k ∧ NextOk w.sq nx
  | .calling k nx => (w.sq.wk = .running ∧ w.sq.out = [] ∧ w.sq.fin = k) ∧ NextOk w.sq nx
  | .next nx => Free w.sq 0 ∧ NextOk w.sq nx

/-- The packet that the writer holds. -/
def WPc.held : WPc π → List ((π × Nat) × Bool)
  | .sending _ _ p sub last => [((p, sub), last)]
  | _ => []

theorem reportThen_held (k : Nat) (nx : WNext) : (reportThen k nx : WPc π).held = [] := by
  unfold reportThen; split <;> rfl

theorem reportThen_ok {kind : WKind} {s : Sq H π} {k : Nat} {nx : WNext} (h : Free s k) (hn : NextOk s nx) : WPcOk kind ⟨s, reportThen k nx⟩ := by
  unfold reportThen
  split
  · rename_i hk; exact ⟨h, hk, hn⟩
  · rename_i hk
    have : k = 0 := by omega
    subst this
    exact ⟨h, hn⟩

theorem after_held (kind : WKind) (i g : Nat) (last async : Bool) : (afterPacket kind i g last async : WPc π).held = [] := by
  unfold afterPacket
  cases kind with
  | tcp => exact reportThen_held _ _
  | inproc => exact reportThen_held _ _
  | udp => exact reportThen_held _ _
  | streambuf =>
    dsimp only
    split
    · rfl
    · exact reportThen_held _ _

theorem after_ok {kind : WKind} {s : Sq H π} {i g : Nat} {last async : Bool} (h : Free s (g + if last then 1 else 0)) (hg : kind ≠ .streambuf → g = 0) :
    WPcOk kind ⟨s, afterPacket kind i g last async⟩ := by
  unfold afterPacket
  cases kind with
  | tcp =>
    have h0 := hg (by decide)
    subst h0
    rw [Nat.zero_add] at h
    exact reportThen_ok h (fun h => by cases h)
  | inproc =>
    have h0 := hg (by decide)
    subst h0
    rw [Nat.zero_add] at h
    exact reportThen_ok h (fun h => by cases h)
  | udp =>
    have h0 := hg (by decide)
    subst h0
    rw [Nat.zero_add] at h
    refine reportThen_ok h (fun h => ?_)
    split at h
    · cases h
    · split at h <;> cases h
  | streambuf =>
    dsimp only
    split
    · exact ⟨h, fun hn => absurd rfl hn⟩
    · exact reportThen_ok h (fun h => by cases h)

/-- The invariant of a writer. `tr` is the history. -/
structure WInv (kind : WKind) (env : WEnv H π) (w : WSt H π) (tr : List (WEv π)) : Prop where
  pc : WPcOk kind w
  pend : ∃ done, fetched (queueEvs tr) = done ++ w.pc.held ∧ done.length = (outcomes (queueEvs tr)).length
  packets : kind.datagrams = true → leftWire tr = wantedPackets env.data (fetched (queueEvs tr)) (outcomes (queueEvs tr))
  bytes : kind.datagrams = false → leftBytes tr = wantedBytes env.data (fetched (queueEvs tr)) (outcomes (queueEvs tr))
  count : (∀ p, env.sq.bytes p = (env.data p).length) → (leftBytes tr).length = sentBytes env.sq.bytes ((fetched (queueEvs tr)).map Prod.fst) (outcomes (queueEvs tr))

theorem sentBytes_more (bytes : π → Nat) : ∀ (xs ys : List (π × Nat)) (rs : List (Option Nat)), xs.length = rs.length → sentBytes bytes (xs ++ ys) rs = sentBytes bytes xs rs
  | [], ys, [], _ => by cases ys <;> rfl
  | x :: xs, ys, r :: rs, h => by
    have := sentBytes_more bytes xs ys rs (by simpa using h)
    simp only [List.cons_append, sentBytes, this]

theorem sentBytes_step (bytes : π → Nat) (x : π × Nat) (r : Option Nat) : ∀ (xs : List (π × Nat)) (rs : List (Option Nat)), xs.length = rs.length →
    sentBytes bytes (xs ++ [x]) (rs ++ [r]) = sentBytes bytes xs rs + r.getD (bytes x.1)
  | [], [], _ => by simp [sentBytes]
  | y :: xs, s :: rs, h => by
    have := sentBytes_step bytes x r xs rs (by simpa using h)
    simp only [List.cons_append, sentBytes, this]
    omega

theorem wantedPackets_more (data : π → Bytes) : ∀ (xs ys : List ((π × Nat) × Bool)) (rs : List (Option Nat)), xs.length = rs.length →
    wantedPackets data (xs ++ ys) rs = wantedPackets data xs rs
  | [], ys, [], _ => by cases ys <;> rfl
  | x :: xs, ys, r :: rs, h => by
    have := wantedPackets_more data xs ys rs (by simpa using h)
    cases r <;> simp only [List.cons_append, wantedPackets, this]

theorem wantedBytes_more (data : π → Bytes) : ∀ (xs ys : List ((π × Nat) × Bool)) (rs : List (Option Nat)), xs.length = rs.length →
    wantedBytes data (xs ++ ys) rs = wantedBytes data xs rs
  | [], ys, [], _ => by cases ys <;> rfl
  | x :: xs, ys, r :: rs, h => by
    have := wantedBytes_more data xs ys rs (by simpa using h)
    cases r <;> simp only [List.cons_append, wantedBytes, this]

theorem wantedPackets_snoc (data : π → Bytes) (x : (π × Nat) × Bool) (r : Option Nat) : ∀ (xs : List ((π × Nat) × Bool)) (rs : List (Option Nat)), xs.length = rs.length →
    wantedPackets data (xs ++ [x]) (rs ++ [r]) = wantedPackets data xs rs ++ wantedPackets data [x] [r]
  | [], [], _ => rfl
  | y :: xs, s :: rs, h => by
    have := wantedPackets_snoc data x r xs rs (by simpa using h)
    cases s <;> simp only [List.cons_append, wantedPackets, this]

theorem wantedBytes_snoc (data : π → Bytes) (x : (π × Nat) × Bool) (r : Option Nat) : ∀ (xs : List ((π × Nat) × Bool)) (rs : List (Option Nat)), xs.length = rs.length →
    wantedBytes data (xs ++ [x]) (rs ++ [r]) = wantedBytes data xs rs ++ wantedBytes data [x] [r]
  | [], [], _ => rfl
  | y :: xs, s :: rs, h => by
    have := wantedBytes_snoc data x r xs rs (by simpa using h)
    cases s <;> simp only [List.cons_append, wantedBytes, this, List.append_assoc]

/-- What a stream buffer accepts is a prefix, and all of it if there is no error. -/
theorem sputAll_spec : ∀ (bs : List Bytes) (ks : List Nat), (sputAll bs ks).1 = bs.flatten.take (sputAll bs ks).1.length ∧ ((sputAll bs ks).2 = true → (sputAll bs ks).1 = bs.flatten)
  | [], ks => ⟨by simp [sputAll], fun _ => by simp [sputAll]⟩
  | b :: bs, [] => by
    obtain ⟨h1, h2⟩ := sputAll_spec bs []
    refine ⟨?_, fun h => ?_⟩
    · simp only [sputAll, List.flatten_cons, List.length_append, List.take_length_add_append]
      rw [← h1]
    · simp only [sputAll, List.flatten_cons] at h ⊢
      rw [h2 h]
  | b :: bs, k :: ks => by
    obtain ⟨h1, h2⟩ := sputAll_spec bs ks
    by_cases hk : b.length ≤ k
    · simp only [sputAll, if_pos hk, List.flatten_cons, List.length_append, List.take_length_add_append]
      refine ⟨by rw [← h1], fun h => by rw [h2 h]⟩
    · simp only [sputAll, if_neg hk, List.flatten_cons]
      refine ⟨?_, fun h => by cases h⟩
      rw [List.length_take, List.take_append_of_le_length (by omega), Nat.min_eq_left (by omega)]

/-- What leaves is what the recorded outcome says. -/
theorem transmit_datagram {kind : WKind} (hk : kind.datagrams = true) (env : WEnv H π) (p : π) (sub : Nat) (last : Bool) (r : WResp) :
    (transmit kind (env.bufs p) r).2.toList.map (fun d => (sub, d)) = wantedPackets env.data [((p, sub), last)] [(transmit kind (env.bufs p) r).1] := by
  cases kind with
  | tcp => cases hk
  | streambuf => cases hk
  | inproc => simp only [transmit]; split <;> rfl
  | udp => simp only [transmit]; split <;> rfl

theorem transmit_bytes {kind : WKind} (hk : kind.datagrams = false) (env : WEnv H π) (p : π) (sub : Nat) (last : Bool) (r : WResp) :
    ((transmit kind (env.bufs p) r).2.toList.map (fun d => (sub, d))).flatMap Prod.snd = wantedBytes env.data [((p, sub), last)] [(transmit kind (env.bufs p) r).1] := by
  cases kind with
  | inproc => cases hk
  | udp => cases hk
  | tcp =>
    simp only [transmit]
    split
    · simp only [Option.toList, List.map_cons, List.map_nil, List.flatMap_cons, List.flatMap_nil, wantedBytes, WEnv.data, List.append_nil]
      rw [List.take_eq_take_iff]
      omega
    · simp [wantedBytes, WEnv.data]
  | streambuf =>
    obtain ⟨h1, h2⟩ := sputAll_spec (env.bufs p) r.room
    simp only [transmit]
    split
    · rename_i h
      simp [wantedBytes, WEnv.data, h2 h]
    · simp only [Option.toList, List.map_cons, List.map_nil, List.flatMap_cons, List.flatMap_nil, wantedBytes, WEnv.data, List.append_nil]
      exact h1

/-- The number of bytes that leave is the recorded one. -/
theorem transmit_count (kind : WKind) (env : WEnv H π) (hb : ∀ p, env.sq.bytes p = (env.data p).length) (p : π) (sub : Nat) (r : WResp) :
    (((transmit kind (env.bufs p) r).2.toList.map (fun d => (sub, d))).flatMap Prod.snd).length = (transmit kind (env.bufs p) r).1.getD (env.sq.bytes p) := by
  rw [hb]
  unfold WEnv.data
  have h2 := (sputAll_spec (env.bufs p) r.room).2
  cases kind with
  | inproc => simp only [transmit]; split <;> simp
  | udp => simp only [transmit]; split <;> simp
  | tcp => simp only [transmit]; split <;> simp
  | streambuf =>
    simp only [transmit]
    split
    · rename_i h; simp [h2 h]
    · simp

theorem WInv.quiet {kind : WKind} {env : WEnv H π} {w w' : WSt H π} {tr ev : List (WEv π)} (inv : WInv kind env w tr) (hp : WPcOk kind w') (hh : w'.pc.held = w.pc.held)
    (h1 : fetched (queueEvs ev) = []) (h2 : outcomes (queueEvs ev) = []) (h3 : leftWire ev = []) : WInv kind env w' (tr ++ ev) := by
  have e1 : fetched (queueEvs (tr ++ ev)) = fetched (queueEvs tr) := by rw [queueEvs_append, fetched_append, h1, List.append_nil]
  have e2 : outcomes (queueEvs (tr ++ ev)) = outcomes (queueEvs tr) := by rw [queueEvs_append, outcomes_append, h2, List.append_nil]
  have e3 : leftWire (tr ++ ev) = leftWire tr := by rw [leftWire_append, h3, List.append_nil]
  refine ⟨hp, ?_, ?_, ?_, ?_⟩
  · rw [e1, e2, hh]; exact inv.pend
  · intro hk; rw [e1, e2, e3]; exact inv.packets hk
  · intro hk
    unfold leftBytes
    rw [e1, e2, e3]
    exact inv.bytes hk
  · intro hk
    unfold leftBytes
    rw [e1, e2, e3]
    exact inv.count hk

/-- What a step of a writer achieves. -/
def Steps (kind : WKind) (env : WEnv H π) (w : WSt H π) (tr : List (WEv π)) (r : Option (WSt H π × List (WEv π))) : Prop :=
  ∃ w' ev, r = some (w', ev) ∧ (∃ sops, Sq.run env.sq sops w.sq = some (w'.sq, queueEvs ev)) ∧
    (CleanRejects (queueEvs ev) → SqState env.sq w'.sq (queueEvs (tr ++ ev)) ∧ WInv kind env w' (tr ++ ev))

theorem sq_run_one {env : SqEnv H π} {s s' : Sq H π} {op : SqOp H} {ev : List (SqEv π)} (h : s.step env op = some (s', ev)) : Sq.run env [op] s = some (s', ev) := by
  simp only [Sq.run, h, List.append_nil]

/-- Nothing happens to the queue. -/
theorem Steps.still {kind : WKind} {env : WEnv H π} {w : WSt H π} {tr : List (WEv π)} (st : SqState env.sq w.sq (queueEvs tr)) (inv : WInv kind env w tr)
    {pc : WPc π} (hp : WPcOk kind ⟨w.sq, pc⟩) (hh : pc.held = w.pc.held) : Steps kind env w tr (some (⟨w.sq, pc⟩, [])) := by
  refine ⟨_, _, rfl, ⟨[], rfl⟩, fun _ => ⟨by rw [List.append_nil]; exact st, inv.quiet hp hh rfl rfl rfl⟩⟩

/-- A step of the queue. -/
theorem Steps.on {kind : WKind} {env : WEnv H π} (hv : Spec.SqEnv.Valid env.sq) {w : WSt H π} {tr : List (WEv π)} (st : SqState env.sq w.sq (queueEvs tr)) (inv : WInv kind env w tr)
    {op : SqOp H} {pc : WPc π}
    (hq : ∀ s ev, w.sq.step env.sq op = some (s, ev) → WPcOk kind ⟨s, pc⟩ ∧ fetched ev = [] ∧ outcomes ev = []) (hh : pc.held = w.pc.held) :
    Steps kind env w tr (w.on env op pc []) := by
  obtain ⟨s, ev, h1, h2⟩ := step_state hv st op
  obtain ⟨g1, g2, g3⟩ := hq s ev h1
  unfold WSt.on
  rw [h1]
  simp only [List.append_nil]
  refine ⟨_, _, rfl, ⟨[op], ?_⟩, fun hc => ⟨?_, inv.quiet g1 hh (by rw [queueEvs_sq]; exact g2) (by rw [queueEvs_sq]; exact g3) (leftWire_sq ev)⟩⟩
  · rw [queueEvs_sq]; exact sq_run_one h1
  · rw [queueEvs_sq] at hc
    rw [queueEvs_append, queueEvs_sq]
    exact h2 hc

theorem WPcOk.caller {kind : WKind} {s s' : Sq H π} {pc : WPc π} (hp : WPcOk kind ⟨s, pc⟩)
    (h : s'.active = s.active ∧ s'.wtail = s.wtail ∧ s'.out = s.out ∧ s'.fin = s.fin ∧ s'.calling = s.calling ∧ s'.waking = s.waking) (hw : s'.wk = s.wk ∨ s.wk = .need ∧ s'.wk = .queued) :
    WPcOk kind ⟨s', pc⟩ := by
  obtain ⟨e1, e2, e3, e4, e5, e6⟩ := h
  have hrun : s.wk = .running → s'.wk = .running := by
    intro hr
    rcases hw with h | ⟨h, -⟩
    · rw [h, hr]
    · rw [hr] at h; cases h
  have hfree : ∀ g, Free s g → Free s' g := fun g hf => ⟨hrun hf.run, by rw [e3]; exact hf.out, by rw [e4]; exact hf.fin, by rw [e5]; exact hf.calling, by rw [e6]; exact hf.waking⟩
  have hnx : ∀ nx, NextOk s nx → NextOk s' nx := fun nx hn h => by rw [e1, e2]; exact hn h
  cases pc with
  | rest =>
    obtain ⟨a, b, c, d, e⟩ := hp
    refine ⟨?_, by rw [e3]; exact b, by rw [e4]; exact c, by rw [e5]; exact d, by rw [e6]; exact e⟩
    rcases hw with h | ⟨-, h⟩
    · show s'.wk ≠ _; rw [h]; exact a
    · show s'.wk ≠ _; rw [h]; decide
  | loop i g => exact ⟨hfree _ hp.1, hp.2⟩
  | sending i g p sub last =>
    obtain ⟨⟨a, b, c, d, e⟩, f⟩ := hp
    exact ⟨⟨hrun a, by rw [e3]; exact b, by rw [e4]; exact c, by rw [e5]; exact d, by rw [e6]; exact e⟩, f⟩
  | report k nx => exact ⟨hfree _ hp.1, hp.2.1, hnx _ hp.2.2⟩
  | calling k nx =>
    obtain ⟨⟨a, b, c⟩, d⟩ := hp
    exact ⟨⟨hrun a, by rw [e3]; exact b, by rw [e4]; exact c⟩, hnx _ d⟩
  | next nx => exact ⟨hfree _ hp.1, hnx _ hp.2⟩

/-- Every step of the writer and of callers is a step of the queue, and keeps the invariant. -/
theorem wstep {kind : WKind} {env : WEnv H π} (hv : Spec.SqEnv.Valid env.sq) {w : WSt H π} {tr : List (WEv π)} (st : SqState env.sq w.sq (queueEvs tr)) (inv : WInv kind env w tr)
    (op : WOp H) : Steps kind env w tr (w.step kind env op) := by
  obtain ⟨s, pc⟩ := w
  have hpc := inv.pc
  cases op with
  | caller op =>
    simp only [WSt.step]
    by_cases ho : op.ofCaller = true
    · rw [if_pos ho]
      refine Steps.on hv st inv (fun s' ev h => ?_) rfl
      obtain ⟨a, b, c, d⟩ := caller_keep ho h
      exact ⟨hpc.caller a b, c, d⟩
    · rw [if_neg ho]
      exact Steps.still st inv hpc rfl
  | tick sleepy r =>
    simp only [WSt.step]
    cases pc with
    | rest =>
      simp only [WSt.tick]
      by_cases hw : s.wk = .queued
      · rw [if_pos hw]
        refine Steps.on hv st inv (fun s' ev h => ?_) rfl
        simp only [Sq.step] at h
        rw [if_pos hw] at h
        cases h
        obtain ⟨a, b, c, d, e⟩ := hpc
        exact ⟨⟨⟨rfl, b, c, d, e⟩, fun _ => rfl⟩, rfl, rfl⟩
      · rw [if_neg hw]
        exact Steps.still st inv hpc rfl
    | loop i g =>
      obtain ⟨hf, hg⟩ := hpc
      simp only [WSt.tick]
      by_cases hs : sleepy = true
      · rw [if_pos hs]
        exact Steps.still st inv (reportThen_ok hf (fun h => by cases h)) (reportThen_held _ _)
      · rw [if_neg hs]
        obtain ⟨s', ev, h1, h2⟩ := step_state hv st .get
        have hrun := sq_run_one h1
        rw [h1]
        simp only [Sq.step] at h1
        rw [if_pos hf.ready] at h1
        obtain ⟨⟨e1, e2, e3, e4, e5, e6⟩, hcase⟩ := get_writer h1
        rcases hcase with ⟨rfl, ho, ha, ht⟩ | ⟨p, n, l, rfl, ho⟩
        · simp only [WSt.got]
          have hf' : Free s' g := ⟨by rw [e4]; exact hf.run, by rw [ho]; exact hf.out, by rw [e1]; exact hf.fin, by rw [e2]; exact hf.calling, by rw [e3]; exact hf.waking⟩
          refine ⟨_, _, rfl, ⟨[.get], hrun⟩, fun hc => ⟨?_, inv.quiet (reportThen_ok hf' (fun _ => ha)) (reportThen_held _ _) rfl rfl rfl⟩⟩
          rw [queueEvs_append]
          exact h2 hc
        · simp only [WSt.got]
          refine ⟨_, _, rfl, ⟨[.get], hrun⟩, fun hc => ⟨by rw [queueEvs_append]; exact h2 hc, ?_⟩⟩
          obtain ⟨done, hd1, hd2⟩ := inv.pend
          rw [show (WPc.loop i g : WPc π).held = [] from rfl, List.append_nil] at hd1
          have ef : fetched (queueEvs (tr ++ [SqEv.packet p n l].map WEv.sq)) = done ++ [((p, n), l)] := by
            rw [queueEvs_append, fetched_append, hd1, queueEvs_sq]; rfl
          have eo : outcomes (queueEvs (tr ++ [SqEv.packet p n l].map WEv.sq)) = outcomes (queueEvs tr) := by
            rw [queueEvs_append, outcomes_append, queueEvs_sq]
            exact List.append_nil _
          have ew : leftWire (tr ++ [SqEv.packet p n l].map WEv.sq) = leftWire tr := by
            rw [leftWire_append, leftWire_sq, List.append_nil]
          refine ⟨⟨⟨by show s'.wk = _; rw [e4]; exact hf.run, ⟨s.start, by show s'.out = _; rw [ho, hf.out]; rfl⟩, by show s'.fin = _; rw [e1]; exact hf.fin,
            by show s'.calling = _; rw [e2]; exact hf.calling, by show s'.waking = _; rw [e3]; exact hf.waking⟩, hg⟩, ⟨done, ef, by rw [eo]; exact hd2⟩, ?_, ?_, ?_⟩
          · intro hk
            rw [ef, eo, ew, wantedPackets_more _ _ _ _ hd2, inv.packets hk, hd1]
          · intro hk
            unfold leftBytes
            rw [ef, eo, ew, wantedBytes_more _ _ _ _ hd2, ← hd1]
            exact inv.bytes hk
          · intro hk
            unfold leftBytes
            rw [ef, eo, ew, List.map_append, sentBytes_more _ _ _ _ (by simpa using hd2), ← hd1]
            exact inv.count hk
    | sending i g p sub last =>
      obtain ⟨⟨a, ⟨o, b⟩, c, d, e⟩, hg⟩ := hpc
      simp only at a b c d e
      simp only [WSt.tick, WSt.on]
      obtain ⟨s', ev, h1, h2⟩ := step_state hv st (.sent (transmit kind (env.bufs p) r).1)
      have hrun := sq_run_one h1
      simp only at h1 hrun
      rw [h1]
      simp only [Sq.step] at h1
      have hr : s.ready = true := by unfold Sq.ready; rw [a, d, e]; rfl
      rw [if_pos hr] at h1
      obtain ⟨⟨e1, e2, e3, e4, e5, e6, e7⟩, -⟩ := sent_keep h1
      unfold Sq.sent at h1
      rw [b] at h1
      simp only at h1
      split at h1
      · cases h1
      · rename_i sl hsl
        cases h1
        have hf : Free ({ s with slots := sl, out := [], fin := if last = true then s.fin + 1 else s.fin } : Sq H π) (g + if last then 1 else 0) := by
          refine ⟨a, rfl, ?_, d, e⟩
          show (if last = true then s.fin + 1 else s.fin) = _
          rw [c]
          cases last <;> rfl
        refine ⟨_, _, rfl, ⟨[.sent (transmit kind (env.bufs p) r).1], ?_⟩, fun hc => ⟨?_, ?_⟩⟩
        · rw [queueEvs_append, queueEvs_wire, List.append_nil, queueEvs_sq]
          exact hrun
        · rw [queueEvs_append, queueEvs_append, queueEvs_wire, List.append_nil, queueEvs_sq]
          refine h2 ?_
          rwa [queueEvs_append, queueEvs_wire, List.append_nil, queueEvs_sq] at hc
        · obtain ⟨done, hd1, hd2⟩ := inv.pend
          rw [show (WPc.sending i g p sub last : WPc π).held = [((p, sub), last)] from rfl] at hd1
          have ef : fetched (queueEvs (tr ++ ([SqEv.sent (transmit kind (env.bufs p) r).1].map WEv.sq ++ wireEvs sub (transmit kind (env.bufs p) r).2))) = done ++ [((p, sub), last)] := by
            rw [queueEvs_append, fetched_append, hd1, queueEvs_append, queueEvs_sq, queueEvs_wire, List.append_nil]
            exact List.append_nil _
          have eo : outcomes (queueEvs (tr ++ ([SqEv.sent (transmit kind (env.bufs p) r).1].map WEv.sq ++ wireEvs sub (transmit kind (env.bufs p) r).2))) =
              outcomes (queueEvs tr) ++ [(transmit kind (env.bufs p) r).1] := by
            rw [queueEvs_append, outcomes_append, queueEvs_append, queueEvs_sq, queueEvs_wire]
            rfl
          have ew : leftWire (tr ++ ([SqEv.sent (transmit kind (env.bufs p) r).1].map WEv.sq ++ wireEvs sub (transmit kind (env.bufs p) r).2)) =
              leftWire tr ++ (transmit kind (env.bufs p) r).2.toList.map (fun d => (sub, d)) := by
            rw [leftWire_append, leftWire_append, leftWire_sq, leftWire_wire, List.nil_append]
          refine ⟨after_ok hf hg, ⟨done ++ [((p, sub), last)], ?_, ?_⟩, ?_, ?_, ?_⟩
          · rw [ef, after_held, List.append_nil]
          · rw [eo]; simp [hd2]
          · intro hk
            rw [ef, eo, ew, wantedPackets_snoc _ _ _ _ _ hd2, inv.packets hk, transmit_datagram hk env p sub last r, hd1, wantedPackets_more _ _ _ _ hd2]
          · intro hk
            have hb := inv.bytes hk
            unfold leftBytes at hb ⊢
            rw [ef, eo, ew, wantedBytes_snoc _ _ _ _ _ hd2, List.flatMap_append, hb, transmit_bytes hk env p sub last r, hd1, wantedBytes_more _ _ _ _ hd2]
          · intro hk
            have hb := inv.count hk
            have hd3 : (done.map Prod.fst).length = (outcomes (queueEvs tr)).length := by simpa using hd2
            unfold leftBytes at hb ⊢
            rw [hd1, List.map_append, sentBytes_more _ _ _ _ hd3] at hb
            rw [ef, eo, ew, List.map_append, List.map_singleton, sentBytes_step _ _ _ _ _ hd3, List.flatMap_append, List.length_append, hb, transmit_count kind env hk p sub r]
    | report k nx =>
      obtain ⟨hf, hk, hn⟩ := hpc
      simp only [WSt.tick]
      refine Steps.on hv st inv (fun s' ev h => ?_) rfl
      simp only [Sq.step] at h
      rw [if_pos hf.ready] at h
      have hfin := hf.fin
      simp only at hfin
      obtain ⟨e1, e2, e3, e4, e5, e6, e7, -⟩ := complete_writer h (by omega)
      subst e6
      refine ⟨⟨⟨by show s'.wk = _; rw [e7]; exact hf.run, by show s'.out = _; rw [e3]; exact hf.out, ?_⟩, fun h => by show s'.active = s'.wtail; rw [e1, e2]; exact hn h⟩, rfl, rfl⟩
      show s'.fin = _
      rw [e5]
      omega
    | calling k nx =>
      obtain ⟨⟨a, b, c⟩, hn⟩ := hpc
      simp only at a b c
      simp only [WSt.tick]
      by_cases hc : s.calling = []
      · rw [if_neg (by simpa using hc)]
        by_cases hw : s.waking = []
        · rw [if_neg (by simpa using hw)]
          exact Steps.still st inv (reportThen_ok ⟨a, b, c, hc, hw⟩ hn) (reportThen_held _ _)
        · rw [if_pos hw]
          refine Steps.on hv st inv (fun s' ev h => ?_) rfl
          simp only [Sq.step] at h
          rw [hc] at h
          split at h
          · cases h; exact ⟨⟨⟨a, b, c⟩, hn⟩, rfl, rfl⟩
          · cases h; exact ⟨⟨⟨a, b, c⟩, hn⟩, rfl, rfl⟩
      · rw [if_pos hc]
        refine Steps.on hv st inv (fun s' ev h => ?_) rfl
        simp only [Sq.step] at h
        split at h
        · cases h; exact ⟨⟨⟨a, b, c⟩, hn⟩, rfl, rfl⟩
        · cases h; exact ⟨⟨⟨a, b, c⟩, hn⟩, rfl, rfl⟩
    | next nx =>
      obtain ⟨hf, hn⟩ := hpc
      cases nx with
      | loop i => exact Steps.still st inv ⟨hf, fun _ => rfl⟩ rfl
      | repost =>
        simp only [WSt.tick]
        refine Steps.on hv st inv (fun s' ev h => ?_) rfl
        simp only [Sq.step] at h
        rw [if_pos hf.ready] at h
        cases h
        exact ⟨⟨by show Wake.queued ≠ _; decide, hf.out, hf.fin, hf.calling, hf.waking⟩, rfl, rfl⟩
      | request =>
        simp only [WSt.tick]
        by_cases hs : s.sender.isSome = true
        · rw [if_pos hs]
          exact Steps.still st inv ⟨hf, hn⟩ rfl
        · rw [if_neg hs]
          refine Steps.on hv st inv (fun s' ev h => ?_) rfl
          simp only [Sq.step] at h
          rw [if_pos hf.ready] at h
          have ha := hn rfl
          have ho := hf.out
          have hfi := hf.fin
          simp only at ha ho hfi
          unfold Sq.request at h
          rw [if_neg (by rw [ho, hfi]; simp [hs, ha])] at h
          split at h
          · cases h; exact ⟨⟨by show Wake.need ≠ _; decide, ho, hfi, hf.calling, hf.waking⟩, rfl, rfl⟩
          · cases h; exact ⟨⟨by show Wake.queued ≠ _; decide, ho, hfi, hf.calling, hf.waking⟩, rfl, rfl⟩

/-! ## Progress -/

/-- What is still to be done after an iteration. -/
def nextWeight (s : Sq H π) (nx : WNext) : Nat := if nx = .request then (if s.tail = s.wtail then 2 else 12) else 8

/-- What is still to be done, apart from packets, handlers and calls of `flush`. -/
def WSt.weight (w : WSt H π) : Nat :=
  match w.pc with
  | .rest => if w.sq.wk = .need then 0 else 7
  | .loop _ g => 2 * g + 6
  | .sending _ g _ _ _ => 2 * g + 12
  | .report k nx => 2 * k + nextWeight w.sq nx + 1
  | .calling k nx => 2 * k + nextWeight w.sq nx + 2
  | .next nx => nextWeight w.sq nx

/-- What is still to be done. -/
def WSt.left (w : WSt H π) (tr : List (SqEv π)) : Nat :=
  20 * (((accepted tr).flatMap (fun a => markLast a.packets)).length - (fetched tr).length) + ((accepted tr).length - (completed tr).length) + (w.sq.flushes - (returned tr).length) + w.weight

theorem returned_le {env : SqEnv H π} {s : Sq H π} {tr : List (SqEv π)} (st : SqState env s tr) : (returned tr).length ≤ s.flushes := by
  obtain ⟨⟨old, gl, n, inv⟩, -⟩ := st
  have := inv.flp.length_eq
  simp only [List.length_append, List.length_range] at this
  omega

theorem left_lt {env : SqEnv H π} {w w' : WSt H π} {tr ev : List (SqEv π)} (st : SqState env w'.sq (tr ++ ev)) (ha : accepted ev = []) (hf : w'.sq.flushes = w.sq.flushes)
    (h : w'.weight < 20 * (fetched ev).length + (completed ev).length + (returned ev).length + w.weight) : w'.left (tr ++ ev) < w.left tr := by
  have hb := toDo_bounds st
  have hr := returned_le st
  unfold WSt.left
  rw [accepted_append, ha, List.append_nil, fetched_append, completed_append] at hb ⊢
  have hra : returned (tr ++ ev) = returned tr ++ returned ev := List.filterMap_append
  rw [hra] at hr ⊢
  simp only [List.length_append] at hb hr ⊢
  omega

theorem nextWeight_eq {s s' : Sq H π} (h1 : s'.tail = s.tail) (h2 : s'.wtail = s.wtail) (nx : WNext) : nextWeight s' nx = nextWeight s nx := by unfold nextWeight; rw [h1, h2]

theorem reportThen_weight (s : Sq H π) (k : Nat) (nx : WNext) : (⟨s, reportThen k nx⟩ : WSt H π).weight < 2 * k + nextWeight s nx + 2 := by
  unfold reportThen
  split
  · show 2 * k + nextWeight s nx + 1 < _; omega
  · show nextWeight s nx < _; omega

/-- A step of the queue by the writer. -/
theorem on_left {kind : WKind} {env : WEnv H π} (hv : Spec.SqEnv.Valid env.sq) {w w' : WSt H π} {tr ev : List (WEv π)} (st : SqState env.sq w.sq (queueEvs tr))
    {op : SqOp H} {pc : WPc π} {more : List (WEv π)} (h : w.on env op pc more = some (w', ev)) (hm : queueEvs more = []) (hw : op.ofCaller = false)
    (hq : ∀ s ev, w.sq.step env.sq op = some (s, ev) → s.flushes = w.sq.flushes ∧ (⟨s, pc⟩ : WSt H π).weight < 20 * (fetched ev).length + (completed ev).length + (returned ev).length + w.weight) :
    w'.left (queueEvs (tr ++ ev)) < w.left (queueEvs tr) ∧ w'.sq.sender = w.sq.sender ∧ accepted (queueEvs ev) = [] ∧ CleanRejects (queueEvs ev) ∧ w'.sq.flushes = w.sq.flushes := by
  obtain ⟨s, e, h1, h2⟩ := step_state hv st op
  unfold WSt.on at h
  rw [h1] at h
  cases h
  have hk := step_kept h1 (by rintro rfl; cases hw) (by rintro _ _ rfl; cases hw) (by rintro _ _ rfl; cases hw)
  have hr := step_unrejected h1 (by rintro rfl; cases hw) (by rintro _ _ rfl; cases hw)
  obtain ⟨hf, hl⟩ := hq s e h1
  have hst := h2 (clean_of_rejected hr)
  rw [queueEvs_append, queueEvs_append, queueEvs_sq, hm, List.append_nil]
  exact ⟨left_lt hst hk.acc hf hl, hk.sender, hk.acc, clean_of_rejected hr, hf⟩

/-- Every step of the writer that does not sleep brings it nearer to its end. -/
theorem tick_left {kind : WKind} {env : WEnv H π} (hv : Spec.SqEnv.Valid env.sq) {w w' : WSt H π} {tr ev : List (WEv π)} (st : SqState env.sq w.sq (queueEvs tr)) (inv : WInv kind env w tr)
    {r : WResp} (hs : w.sq.sender = none) (hi : ¬ w.idle) (h : w.tick kind env false r = some (w', ev)) :
    w'.left (queueEvs (tr ++ ev)) < w.left (queueEvs tr) ∧ w'.sq.sender = w.sq.sender ∧ accepted (queueEvs ev) = [] ∧ CleanRejects (queueEvs ev) ∧ w'.sq.flushes = w.sq.flushes := by
  obtain ⟨s, pc⟩ := w
  have hpc := inv.pc
  have hclean : CleanRejects ([] : List (SqEv π)) := fun _ _ _ h => by cases h
  have still : ∀ {pc' : WPc π}, (⟨s, pc'⟩ : WSt H π).weight < (⟨s, pc⟩ : WSt H π).weight → some ((⟨s, pc'⟩ : WSt H π), ([] : List (WEv π))) = some (w', ev) →
      w'.left (queueEvs (tr ++ ev)) < (⟨s, pc⟩ : WSt H π).left (queueEvs tr) ∧ w'.sq.sender = s.sender ∧ accepted (queueEvs ev) = [] ∧ CleanRejects (queueEvs ev) ∧ w'.sq.flushes = s.flushes := by
    intro pc' hl he
    cases he
    rw [queueEvs_append]
    refine ⟨left_lt (by rw [show queueEvs ([] : List (WEv π)) = [] from rfl, List.append_nil]; exact st) rfl rfl ?_, rfl, rfl, hclean, rfl⟩
    show _ < 0 + 0 + 0 + _
    omega
  cases pc with
  | rest =>
    simp only [WSt.tick] at h
    have hn : s.wk ≠ .need := fun hn => hi ⟨rfl, hn⟩
    have hq : s.wk = .queued := by
      cases hw : s.wk with
      | need => exact absurd hw hn
      | queued => rfl
      | running => exact absurd hw hpc.1
    rw [if_pos hq] at h
    refine on_left (kind := kind) hv st h rfl rfl (fun s' ev h => ?_)
    simp only [Sq.step] at h
    rw [if_pos hq] at h
    cases h
    refine ⟨rfl, ?_⟩
    show 2 * 0 + 6 < 0 + 0 + 0 + (if s.wk = .need then 0 else 7)
    rw [if_neg hn]; omega
  | loop i g =>
    obtain ⟨hf, hg⟩ := hpc
    simp only [WSt.tick] at h
    rw [if_neg (by decide)] at h
    obtain ⟨s', e, h1, h2⟩ := step_state hv st .get
    rw [h1] at h
    have hk := step_kept h1 (by intro h; cases h) (by intro _ _ h; cases h) (by intro _ _ h; cases h)
    simp only [Sq.step] at h1
    rw [if_pos hf.ready] at h1
    obtain ⟨⟨-, -, -, kf, -⟩, -⟩ := get_keep h1
    obtain ⟨-, hcase⟩ := get_writer h1
    rcases hcase with ⟨rfl, ho, ha, ht⟩ | ⟨p, n, l, rfl, ho⟩
    · simp only [WSt.got] at h
      cases h
      rw [queueEvs_append]
      refine ⟨left_lt (h2 hclean) rfl kf ?_, hk.sender, rfl, hclean, kf⟩
      show _ < 0 + 0 + 0 + (2 * g + 6)
      have := reportThen_weight s' g .request
      rw [show nextWeight s' .request = 2 by unfold nextWeight; rw [if_pos rfl, if_pos ht.symm]] at this
      omega
    · simp only [WSt.got] at h
      cases h
      have hcl : CleanRejects [SqEv.packet p n l] := clean_of_rejected rfl
      rw [queueEvs_append]
      refine ⟨left_lt (h2 hcl) rfl kf ?_, hk.sender, rfl, hcl, kf⟩
      show 2 * g + 12 < 20 * 1 + 0 + 0 + (2 * g + 6)
      omega
  | sending i g p sub last =>
    obtain ⟨⟨a, ⟨o, b⟩, c, d, e⟩, hg⟩ := hpc
    simp only at a b c d e
    simp only [WSt.tick] at h
    refine on_left (kind := kind) hv st h (queueEvs_wire _ _) rfl (fun s' ev h => ?_)
    have hr : s.ready = true := by unfold Sq.ready; rw [a, d, e]; rfl
    simp only [Sq.step] at h
    rw [if_pos hr] at h
    obtain ⟨⟨-, -, -, kf, -⟩, hev⟩ := sent_keep h
    refine ⟨kf, ?_⟩
    have hev' : ev = [.sent (transmit kind (env.bufs p) r).1] := by
      rcases hev with ⟨-, ho⟩ | hev
      · rw [b] at ho; cases ho
      · exact hev
    subst hev'
    show _ < 0 + 0 + 0 + (2 * g + 12)
    have hl : (if last = true then 1 else 0) ≤ 1 := by split <;> omega
    have h8 : ∀ nx : WNext, nx ≠ .request → nextWeight s' nx = 8 := fun nx hn => by unfold nextWeight; rw [if_neg hn]
    have hrt : ∀ (k : Nat) (nx : WNext), k ≤ g + 1 → nx ≠ .request → (⟨s', reportThen k nx⟩ : WSt H π).weight < 0 + 0 + 0 + (2 * g + 12) := by
      intro k nx hk hn
      have := reportThen_weight s' k nx
      rw [h8 nx hn] at this
      omega
    unfold afterPacket
    cases kind with
    | tcp => exact hrt _ _ (by omega) (by decide)
    | inproc => exact hrt _ _ (by omega) (by decide)
    | udp =>
      refine hrt _ _ (by omega) ?_
      split
      · exact fun h => by cases h
      · split
        · exact fun h => by cases h
        · decide
    | streambuf =>
      simp only
      split
      · show 2 * (g + if last then 1 else 0) + 6 < _
        omega
      · exact hrt _ _ (by omega) (by decide)
  | report k nx =>
    obtain ⟨hf, hk, hn⟩ := hpc
    simp only [WSt.tick] at h
    refine on_left (kind := kind) hv st h rfl rfl (fun s' ev h => ?_)
    simp only [Sq.step] at h
    rw [if_pos hf.ready] at h
    have hfin := hf.fin
    simp only at hfin
    obtain ⟨kt, -, -, kf, -⟩ := complete_keep h
    obtain ⟨e1, e2, e3, e4, e5, e6, e7, -⟩ := complete_writer h (by omega)
    refine ⟨kf, ?_⟩
    subst e6
    show 2 * (k - 16) + nextWeight s' nx + 2 < 0 + 0 + 0 + (2 * k + nextWeight s nx + 1)
    rw [nextWeight_eq kt e2]
    omega
  | calling k nx =>
    simp only [WSt.tick] at h
    by_cases hc : s.calling = []
    · rw [if_neg (by simpa using hc)] at h
      by_cases hw : s.waking = []
      · rw [if_neg (by simpa using hw)] at h
        exact still (reportThen_weight s k nx) h
      · rw [if_pos hw] at h
        refine on_left (kind := kind) hv st h rfl rfl (fun s' ev h => ?_)
        simp only [Sq.step] at h
        rw [hc] at h
        split at h
        · cases h
          refine ⟨rfl, ?_⟩
          show 2 * k + nextWeight s nx + 2 < 0 + 0 + 1 + (2 * k + nextWeight s nx + 2)
          omega
        · rename_i hx
          cases hwk : s.waking with
          | nil => exact absurd hwk hw
          | cons f fs => exact absurd hwk (fun hh => hx f fs rfl hh)
    · rw [if_pos hc] at h
      refine on_left (kind := kind) hv st h rfl rfl (fun s' ev h => ?_)
      simp only [Sq.step] at h
      split at h
      · rename_i he; exact absurd he hc
      · rename_i c r b rest he
        cases h
        refine ⟨rfl, ?_⟩
        have hh := completed_handler st he
        show 2 * k + nextWeight s nx + 2 < 0 + (completed [SqEv.handler c r b]).length + 0 + (2 * k + nextWeight s nx + 2)
        rw [hh]
        show _ < 0 + 1 + 0 + _
        omega
  | next nx =>
    obtain ⟨hf, hn⟩ := hpc
    cases nx with
    | loop i => exact still (by show 2 * 0 + 6 < 8; omega) h
    | repost =>
      simp only [WSt.tick] at h
      refine on_left (kind := kind) hv st h rfl rfl (fun s' ev h => ?_)
      simp only [Sq.step] at h
      rw [if_pos hf.ready] at h
      cases h
      refine ⟨rfl, ?_⟩
      show 7 < 0 + 0 + 0 + 8
      omega
    | request =>
      simp only [WSt.tick] at h
      simp only at hs
      rw [if_neg (by rw [hs]; simp)] at h
      refine on_left (kind := kind) hv st h rfl rfl (fun s' ev h => ?_)
      simp only [Sq.step] at h
      rw [if_pos hf.ready] at h
      have ha := hn rfl
      have ho := hf.out
      have hfi := hf.fin
      simp only at ha ho hfi
      unfold Sq.request at h
      rw [if_neg (by rw [ho, hfi, hs]; simp [ha])] at h
      split at h
      · rename_i ht
        cases h
        refine ⟨rfl, ?_⟩
        show 0 < 0 + 0 + 0 + nextWeight s .request
        unfold nextWeight
        split <;> (try split) <;> omega
      · rename_i ht
        cases h
        refine ⟨rfl, ?_⟩
        show 7 < 0 + 0 + 0 + nextWeight s .request
        unfold nextWeight
        rw [if_pos rfl, if_neg (by simpa [eq_comm] using ht)]
        omega

/-! ## Histories -/

theorem init_writer {kind : WKind} {env : WEnv H π} (c : Bool) : SqState env.sq (WSt.new c : WSt H π).sq (queueEvs []) ∧ WInv kind env (WSt.new c) [] ∧
    (WSt.new c : WSt H π).sq = { wk := if c then .queued else .running } := by
  cases c with
  | true =>
    refine ⟨init_state _, ⟨⟨by show Wake.queued ≠ _; decide, rfl, rfl, rfl, rfl⟩, ⟨[], rfl, rfl⟩, fun _ => rfl, fun _ => rfl, fun _ => rfl⟩, rfl⟩
  | false =>
    refine ⟨init_state _, ⟨⟨⟨rfl, rfl, rfl, rfl, rfl⟩, fun _ => rfl⟩, ⟨[], rfl, rfl⟩, fun _ => rfl, fun _ => rfl, fun _ => rfl⟩, rfl⟩

theorem wrun_cons {kind : WKind} {env : WEnv H π} {op : WOp H} {ops : List (WOp H)} {w w' : WSt H π} {ev : List (WEv π)} (h : WSt.run kind env (op :: ops) w = some (w', ev)) :
    ∃ w1 e1 e2, w.step kind env op = some (w1, e1) ∧ WSt.run kind env ops w1 = some (w', e2) ∧ ev = e1 ++ e2 := by
  unfold WSt.run at h
  split at h
  · cases h
  · rename_i w1 e1 h1
    split at h
    · cases h
    · rename_i w2 e2 h2
      cases h
      exact ⟨w1, e1, e2, h1, h2, rfl⟩

theorem wrun_snoc {kind : WKind} {env : WEnv H π} : ∀ (a : List (WOp H)) {b : List (WOp H)} {w w1 w2 : WSt H π} {e1 e2 : List (WEv π)}, WSt.run kind env a w = some (w1, e1) → WSt.run kind env b w1 = some (w2, e2) →
    WSt.run kind env (a ++ b) w = some (w2, e1 ++ e2)
  | [], b, w, w1, w2, e1, e2, h1, h2 => by cases h1; exact h2
  | op :: a, b, w, w1, w2, e1, e2, h1, h2 => by
    obtain ⟨w3, f1, f2, g1, g2, rfl⟩ := wrun_cons h1
    show WSt.run kind env (op :: (a ++ b)) w = _
    unfold WSt.run
    rw [g1]
    simp only [wrun_snoc a g2 h2, List.append_assoc]

theorem clean_append {a b : List (SqEv π)} : CleanRejects (a ++ b) ↔ CleanRejects a ∧ CleanRejects b := by
  constructor
  · exact fun h => ⟨fun c r n hm => h c r n (List.mem_append_left _ hm), fun c r n hm => h c r n (List.mem_append_right _ hm)⟩
  · rintro ⟨h1, h2⟩ c r n hm
    rcases List.mem_append.mp hm with h | h
    · exact h1 c r n h
    · exact h2 c r n h

theorem wrun_state {kind : WKind} {env : WEnv H π} (hv : Spec.SqEnv.Valid env.sq) : ∀ (ops : List (WOp H)) {w w' : WSt H π} {tr ev : List (WEv π)}, SqState env.sq w.sq (queueEvs tr) → WInv kind env w tr →
    WSt.run kind env ops w = some (w', ev) → CleanRejects (queueEvs ev) →
    SqState env.sq w'.sq (queueEvs (tr ++ ev)) ∧ WInv kind env w' (tr ++ ev) ∧ ∃ sops, Sq.run env.sq sops w.sq = some (w'.sq, queueEvs ev)
  | [], w, w', tr, ev, st, inv, h, _ => by
    cases h
    rw [List.append_nil]
    exact ⟨st, inv, [], rfl⟩
  | op :: ops, w, w', tr, ev, st, inv, h, hc => by
    obtain ⟨w1, e1, e2, h1, h2, rfl⟩ := wrun_cons h
    obtain ⟨w1', e1', h1', ⟨sops, hs⟩, hi⟩ := wstep hv st inv op
    rw [h1] at h1'
    cases h1'
    rw [queueEvs_append, clean_append] at hc
    obtain ⟨st1, inv1⟩ := hi hc.1
    obtain ⟨st2, inv2, sops2, hs2⟩ := wrun_state hv ops st1 inv1 h2 hc.2
    rw [← List.append_assoc]
    refine ⟨st2, inv2, sops ++ sops2, ?_⟩
    rw [queueEvs_append]
    exact run_snoc hs hs2

theorem wreach_state {kind : WKind} {env : WEnv H π} (hv : Spec.SqEnv.Valid env.sq) {c : Bool} {ops : List (WOp H)} {w : WSt H π} {tr : List (WEv π)} (h : WReach kind env c ops w tr) (hc : CleanRejects (queueEvs tr)) :
    SqState env.sq w.sq (queueEvs tr) ∧ WInv kind env w tr ∧ ∃ sops, SqReach env.sq (if c then .queued else .running) sops w.sq (queueEvs tr) := by
  obtain ⟨st0, inv0, e0⟩ := init_writer (kind := kind) (env := env) c
  obtain ⟨st, inv, sops, hs⟩ := wrun_state hv ops st0 inv0 h hc
  rw [e0] at hs
  exact ⟨st, inv, sops, hs⟩

theorem due_full (bytes : π → Nat) : ∀ (A : List (Accepted π)) (R : List (Option Nat)), (due bytes A R).length = A.length → (A.flatMap Accepted.packets).length ≤ R.length
  | [], R, _ => Nat.zero_le _
  | g :: A, R, h => by
    unfold due at h
    split at h
    · have := due_full bytes A (R.drop g.packets.length) (by simpa using h)
      rw [List.length_drop] at this
      rw [List.flatMap_cons, List.length_append]
      omega
    · simp at h

theorem markLast_fst {α : Type} : ∀ (l : List α), (markLast l).map Prod.fst = l
  | [] => rfl
  | [_] => rfl
  | x :: y :: l => by simp only [markLast, List.map_cons, markLast_fst (y :: l)]

theorem flatMap_markLast (A : List (Accepted π)) : (A.flatMap (fun a => markLast a.packets)).map Prod.fst = A.flatMap Accepted.packets := by
  induction A with
  | nil => rfl
  | cons g A ih => rw [List.flatMap_cons, List.map_append, ih, markLast_fst, List.flatMap_cons]

theorem sentBytes_cut (bytes : π → Nat) : ∀ (xs ys : List (π × Nat)) (rs : List (Option Nat)), xs.length ≤ rs.length →
    sentBytes bytes (xs ++ ys) rs = sentBytes bytes xs (rs.take xs.length) + sentBytes bytes ys (rs.drop xs.length)
  | [], ys, rs, _ => by simp [sentBytes]
  | x :: xs, ys, r :: rs, h => by
    have := sentBytes_cut bytes xs ys rs (by simpa using h)
    simp only [List.cons_append, List.length_cons, List.take_succ_cons, List.drop_succ_cons, sentBytes, this]
    omega

theorem due_bytes (bytes : π → Nat) : ∀ (A : List (Accepted π)) (R : List (Option Nat)), (due bytes A R).length = A.length →
    ((due bytes A R).map (fun x : Nat × SqResult × Nat => x.2.2)).sum = sentBytes bytes (A.flatMap Accepted.packets) R
  | [], R, _ => by cases R <;> rfl
  | g :: A, R, h => by
    unfold due at h ⊢
    split at h
    · rename_i hl
      have := due_bytes bytes A (R.drop g.packets.length) (by simpa using h)
      rw [if_pos hl, List.map_cons, List.sum_cons, this, List.flatMap_cons, sentBytes_cut _ _ _ _ hl]
      rfl
    · simp at h

theorem wanted_all (data : π → Bytes) : ∀ (xs : List ((π × Nat) × Bool)) (rs : List (Option Nat)), (∀ r ∈ rs, r = none) →
    wantedPackets data xs rs = ((xs.take rs.length).map Prod.fst).map (fun x : π × Nat => (x.2, data x.1)) ∧ wantedBytes data xs rs = ((xs.take rs.length).map Prod.fst).flatMap (fun x : π × Nat => data x.1)
  | [], rs, _ => by simp [wantedPackets, wantedBytes]
  | x :: xs, [], _ => by simp [wantedPackets, wantedBytes]
  | x :: xs, r :: rs, h => by
    obtain ⟨h1, h2⟩ := wanted_all data xs rs (fun r hr => h r (List.mem_cons_of_mem _ hr))
    have hr := h r List.mem_cons_self
    subst hr
    simp [wantedPackets, wantedBytes, h1, h2]

end Spead2
