import Verif.Lemmas.IbvSlots
import Verif.Props.IbvEndToEnd

/-!
# C87: the plain receive requests of an ibverbs reader
-/

namespace Spead2.Slots
open Spec

/-- **C87 (full statement).** For every maximal size that can be set, the constructor either refuses the card or prepares requests that take frames with a
payload of that size (there are 42 bytes of headers), and then, whatever happens, nothing goes wrong and the handler sees the frames that the card
has accepted.  False: the size with the headers may not fit into 64, or 32, bits. -/
def C87_statement : Prop :=
  ∀ (d : Caps) (bufferSize maxSize : Nat), 1 ≤ maxSize → maxSize < 2 ^ 64 → bufferSize < 2 ^ 64 → d.maxMr < 2 ^ 64 →
    ∃ r, shape d bufferSize maxSize = some r ∧ ∀ c, r = .ok c → maxSize + 42 ≤ c.len ∧
      ∀ (mem : Nat → UInt8) (ops : List Op), ∃ s, (St.init c mem).run c ops = some s ∧ Right c s

def exCaps : Caps := ⟨true, 2 ^ 40, 32768, 4194303⟩

theorem C87_violated : ¬ C87_statement := by
  intro h
  obtain ⟨r, hr, _⟩ := h exCaps (16 * 2 ^ 20) (2 ^ 64 - 42) (by decide) (by decide) (by decide) (by decide)
  have : shape exCaps (16 * 2 ^ 20) (2 ^ 64 - 42) = none := by decide +kernel
  rw [this] at hr
  cases hr

/-- A smaller size for which the constructor succeeds, and the card is told that the slots are empty: no frame is received. -/
theorem C87_deaf : ∃ c, shape exCaps (16 * 2 ^ 20) (2 ^ 32 - 42) = some (.ok c) ∧ c.n = 1 ∧
    ∀ (mem : Nat → UInt8) (data : List UInt8), data ≠ [] → (St.init c mem).step c (.frame data) = some (St.init c mem) := by
  refine ⟨⟨2 ^ 32, 0, 1⟩, by decide +kernel, rfl, ?_⟩
  intro mem data hd
  show (if 0 < data.length then _ else _) = _
  rw [if_pos (List.length_pos_iff.mpr hd)]

/-- **C87 (sizes).** The constructor fails only for the reason that it gives.  Otherwise each slot takes a frame with a payload of `maxSize` and there are as
many slots as fit into the buffer that was asked for, and at least one, as long as the card can do it. -/
theorem C87_sizes (d : Caps) (bufferSize maxSize : Nat) (h : maxSize + 42 < 2 ^ 32) :
    ∃ r, shape d bufferSize maxSize = some r ∧
      match r with
      | .error .steering => d.steering = false
      | .error .tooLarge => d.steering = true ∧ d.maxMr < maxSize + 42
      | .error .unusable => d.steering = true ∧ maxSize + 42 ≤ d.maxMr ∧ (d.maxQpWr = 0 ∨ d.maxCqe = 0)
      | .ok c => d.steering = true ∧ c.raw = maxSize + 42 ∧ c.len = maxSize + 42 ∧ 1 ≤ c.n ∧ c.n ≤ d.maxQpWr ∧ c.n ≤ d.maxCqe ∧
          c.n * (maxSize + 42) ≤ d.maxMr ∧ (c.n = 1 ∨ c.n * (maxSize + 42) ≤ bufferSize) ∧
          (c.n = d.maxQpWr ∨ c.n = d.maxCqe ∨ d.maxMr < (c.n + 1) * (maxSize + 42) ∨ bufferSize < (c.n + 1) * (maxSize + 42)) := by
  unfold shape
  have e1 : (maxSize + 42) % 2 ^ 64 = maxSize + 42 := Nat.mod_eq_of_lt (Nat.lt_trans h (by decide))
  have e2 : (maxSize + 42) % 2 ^ 32 = maxSize + 42 := Nat.mod_eq_of_lt h
  simp only [e1, e2]
  have hpos : 0 < maxSize + 42 := by omega
  generalize maxSize + 42 = raw at hpos
  unfold nSlots
  cases hst : d.steering
  · exact ⟨_, rfl, rfl⟩
  · simp only [Bool.not_true, Bool.false_eq_true, if_false]
    by_cases h1 : d.maxMr < raw
    · rw [if_pos h1]
      exact ⟨_, rfl, trivial, h1⟩
    · rw [if_neg h1, if_neg (Nat.pos_iff_ne_zero.mp hpos)]
      have hb : (if d.maxMr < bufferSize then d.maxMr else bufferSize) = min d.maxMr bufferSize := by
        split <;> omega
      rw [hb]
      by_cases h2 : min d.maxQpWr d.maxCqe = 0
      · rw [if_pos h2]
        exact ⟨_, rfl, trivial, by omega, by omega⟩
      · rw [if_neg h2]
        refine ⟨_, rfl, ?_⟩
        have hq1 : min d.maxMr bufferSize / raw * raw ≤ min d.maxMr bufferSize := Nat.div_mul_le_self _ _
        have hq2 : min d.maxMr bufferSize < (min d.maxMr bufferSize / raw + 1) * raw := by
          have := Nat.lt_mul_div_succ (min d.maxMr bufferSize) hpos
          rw [Nat.mul_comm] at this
          exact this
        generalize min d.maxMr bufferSize / raw = q at hq1 hq2
        have hn : (if min d.maxQpWr d.maxCqe < max 1 q then min d.maxQpWr d.maxCqe else max 1 q) = min (min d.maxQpWr d.maxCqe) (max 1 q) := by
          split <;> omega
        simp only [Except.map, hn, true_and]
        generalize hN : min (min d.maxQpWr d.maxCqe) (max 1 q) = N
        have hN1 : N = 1 ∨ N * raw ≤ min d.maxMr bufferSize := by
          by_cases hq : 1 ≤ q
          · right
            exact Nat.le_trans (Nat.mul_le_mul_right raw (show N ≤ q by omega)) hq1
          · left; omega
        refine ⟨by omega, by omega, by omega, ?_, ?_, ?_⟩
        · rcases hN1 with e | e
          · rw [e]; omega
          · omega
        · rcases hN1 with e | e
          · exact Or.inl e
          · right; omega
        · by_cases hlt : N = min d.maxQpWr d.maxCqe
          · omega
          · have hge : q ≤ N := by omega
            have := Nat.mul_le_mul_right raw (show q + 1 ≤ N + 1 by omega)
            omega

example : shape exCaps (16 * 2 ^ 20) 9200 = some (.ok ⟨9242, 9242, 1815⟩) ∧ shape ⟨true, 2 ^ 40, 100, 64⟩ (16 * 2 ^ 20) 9200 = some (.ok ⟨9242, 9242, 64⟩) ∧
    shape exCaps 5 9200 = some (.ok ⟨9242, 9242, 1⟩) ∧ shape ⟨false, 2 ^ 40, 100, 64⟩ 5 9200 = some (.error .steering) ∧
    shape ⟨true, 9241, 100, 64⟩ 5 9200 = some (.error .tooLarge) ∧ shape ⟨true, 9242, 100, 0⟩ 5 9200 = some (.error .unusable) := by decide

theorem shape_ok {d : Caps} {bufferSize maxSize : Nat} (h : maxSize + 42 < 2 ^ 32) {c : Shape} (hc : shape d bufferSize maxSize = some (.ok c)) :
    c.Ok ∧ c.len = maxSize + 42 := by
  obtain ⟨r, h1, h2⟩ := C87_sizes d bufferSize maxSize h
  rw [hc] at h1
  obtain rfl := Option.some.inj h1
  exact ⟨⟨by rw [h2.2.1, h2.2.2.1], h2.2.2.2.1⟩, h2.2.2.1⟩

/-- **C87 (requests).** Whatever frames arrive, requests fail, and completions are found in whatever portions, at every moment, also while the handler is at
work: the requests that the handler posts are ones that the card does not have, fit into its queue, and their completions into theirs; and the
handler has looked at the frames that the card has accepted, in order, unchanged and none left out, and the one that it is working on is not
overwritten. -/
theorem C87_queue (c : Shape) (ok : c.Ok) (mem : Nat → UInt8) (ops : List Op) :
    ∃ s, (St.init c mem).run c ops = some s ∧ s.rq.Nodup ∧ (∀ i ∈ s.rq, i < c.n ∧ s.pending ≠ some i) ∧ Right c s := by
  obtain ⟨s, chain, g1, g2, h1, h2⟩ := inv_run ok ops (Inv.init mem)
  refine ⟨s, h1, ?_, ?_, ⟨(g1 ++ g2).filterMap Prod.snd, h2.acc.symm⟩, ?_⟩
  · have := h2.nodup
    simp only [← List.append_assoc] at this
    exact (List.nodup_append.mp this).2.1
  · intro i hi
    refine ⟨h2.lt (by simp [hi]), ?_⟩
    intro e
    have := h2.nodup
    rw [e, ← List.append_assoc, ← List.append_assoc, ← List.append_assoc] at this
    exact (List.nodup_append.mp this).2.2 i (by simp) i hi rfl
  · intro p l hv
    obtain ⟨i, x, v1, v2, v3, v4, v5, v6⟩ := h2.view p l hv
    refine ⟨?_, by rw [v6, v5]⟩
    have hi : i < c.n := h2.lt (by rw [v1]; simp)
    have := Nat.mul_le_mul_right c.raw (show i + 1 ≤ c.n from hi)
    rw [Nat.succ_mul] at this
    have := ok.len
    omega

/-- **C87 (partial).** Missing from the full statement: sizes that are not less than 2^32 - 42. -/
theorem C87_partial (d : Caps) (bufferSize maxSize : Nat) (h : maxSize + 42 < 2 ^ 32) :
    ∃ r, shape d bufferSize maxSize = some r ∧ ∀ c, r = .ok c → maxSize + 42 ≤ c.len ∧
      ∀ (mem : Nat → UInt8) (ops : List Op), ∃ s, (St.init c mem).run c ops = some s ∧ Right c s := by
  obtain ⟨r, h1, _⟩ := C87_sizes d bufferSize maxSize h
  refine ⟨r, h1, ?_⟩
  rintro c rfl
  obtain ⟨ok, hl⟩ := shape_ok h h1
  refine ⟨by omega, fun mem ops => ?_⟩
  obtain ⟨s, q1, _, _, q2⟩ := C87_queue c ok mem ops
  exact ⟨s, q1, q2⟩

/-- **C87 (all).** When there are no completions left, the handler has looked at all frames that the card has accepted. -/
theorem C87_all (c : Shape) (ok : c.Ok) (mem : Nat → UInt8) (ops : List Op) (s : St) (hr : (St.init c mem).run c ops = some s)
    (hcq : s.cq = []) (hw : s.wcs = []) : s.out = s.accepted := by
  obtain ⟨s', chain, g1, g2, h1, h2⟩ := inv_run ok ops (Inv.init mem)
  rw [hr] at h1
  obtain rfl := Option.some.inj h1
  have e1 : g1 = [] := List.map_eq_nil_iff.mp (by rw [← h2.wcs, hw])
  have e2 : g2 = [] := List.map_eq_nil_iff.mp (by rw [← h2.cq, hcq])
  rw [h2.acc, e1, e2]
  simp

/-! ### Progress -/

/-- The loop of `poll_once` over `k` completions. -/
def loop : Nat → List Op
  | 0 => []
  | k + 1 => .look :: .done :: loop k

theorem run_append {c : Shape} : ∀ (a b : List Op) {s t : St}, s.run c a = some t → s.run c (a ++ b) = t.run c b
  | [], b, s, t, h => by
    obtain rfl := Option.some.inj h
    rfl
  | x :: a, b, s, t, h => by
    rw [St.run] at h
    rw [List.cons_append, St.run]
    cases hx : s.step c x with
    | none => rw [hx] at h; cases h
    | some s1 =>
      rw [hx] at h
      exact run_append a b h

theorem post_same {c : Shape} {s s' : St} (h : s.post c = some s') :
    s'.wcs = s.wcs ∧ s'.cq = s.cq ∧ s'.pending = s.pending ∧ s'.stopped = s.stopped ∧ s'.accepted = s.accepted ∧ s'.head = none := by
  unfold St.post at h
  cases ht : s.tail with
  | none => rw [ht] at h; cases h
  | some t =>
    rw [ht] at h
    simp only at h
    split at h
    · cases h
    · split at h
      · cases h
      · obtain rfl := Option.some.inj h
        exact ⟨rfl, rfl, rfl, rfl, rfl, rfl⟩

theorem look_same {c : Shape} {s s' : St} (h : s.step c .look = some s') (h1 : s.stopped = false) (h2 : s.pending = none) :
    s'.wcs = s.wcs.tail ∧ s'.cq = s.cq ∧ s'.stopped = false ∧ s'.accepted = s.accepted := by
  unfold St.step at h
  simp only at h
  rw [if_neg (by simp [h1, h2])] at h
  cases hw : s.wcs with
  | nil =>
    rw [hw] at h
    obtain rfl := Option.some.inj h
    exact ⟨hw, rfl, h1, rfl⟩
  | cons x xs =>
    obtain ⟨i, o⟩ := x
    rw [hw] at h
    cases o with
    | none =>
      simp only at h
      split at h
      · cases h
      · obtain rfl := Option.some.inj h
        exact ⟨rfl, rfl, h1, rfl⟩
    | some l =>
      simp only at h
      split at h
      · cases h
      · obtain rfl := Option.some.inj h
        exact ⟨rfl, rfl, h1, rfl⟩

theorem done_same {c : Shape} {s s' : St} (h : s.step c .done = some s') (h1 : s.stopped = false) :
    s'.wcs = s.wcs ∧ s'.cq = s.cq ∧ s'.pending = none ∧ s'.stopped = false ∧ s'.accepted = s.accepted := by
  unfold St.step at h
  simp only at h
  rw [if_neg (by simp [h1])] at h
  cases hp : s.pending with
  | none =>
    rw [hp] at h
    obtain rfl := Option.some.inj h
    exact ⟨rfl, rfl, hp, h1, rfl⟩
  | some i =>
    rw [hp] at h
    simp only at h
    have key : ∀ s1 : St, s1.wcs = s.wcs → s1.cq = s.cq → s1.pending = none → s1.stopped = false → s1.accepted = s.accepted →
        (if s1.cur = c.postBatch then s1.post c else some s1) = some s' →
        s'.wcs = s.wcs ∧ s'.cq = s.cq ∧ s'.pending = none ∧ s'.stopped = false ∧ s'.accepted = s.accepted := by
      intro s1 q1 q2 q3 q4 q5 q
      split at q
      · obtain ⟨p1, p2, p3, p4, p5, _⟩ := post_same q
        exact ⟨p1.trans q1, p2.trans q2, p3.trans q3, p4.trans q4, p5.trans q5⟩
      · obtain rfl := Option.some.inj q
        exact ⟨q1, q2, q3, q4, q5⟩
    cases ht : s.tail with
    | none =>
      simp only [ht] at h
      exact key { s with pending := none, view := none, head := some i, tail := some i, cur := s.cur + 1 } rfl rfl rfl h1 rfl h
    | some t =>
      simp only [ht] at h
      exact key { s with pending := none, view := none, next := setNext s.next t (some i), tail := some i, cur := s.cur + 1 } rfl rfl rfl h1 rfl h

theorem finish_same {c : Shape} {s s' : St} (h : s.step c .finish = some s') (h1 : s.stopped = false) (h2 : s.pending = none) (h3 : s.wcs = []) :
    s'.wcs = [] ∧ s'.cq = s.cq ∧ s'.pending = none ∧ s'.stopped = false ∧ s'.accepted = s.accepted ∧ s'.head = none := by
  unfold St.step at h
  simp only at h
  split at h
  · rename_i hh
    simp only [h1, h2, h3, Bool.or_false, Option.isSome_none, List.isEmpty_nil, Bool.not_true, Bool.false_or] at hh
    obtain rfl := Option.some.inj h
    exact ⟨h3, rfl, h2, h1, rfl, Option.isNone_iff_eq_none.mp hh⟩
  · obtain ⟨p1, p2, p3, p4, p5, p6⟩ := post_same h
    exact ⟨p1.trans h3, p2, p3.trans h2, p4.trans h1, p5, p6⟩

theorem loop_run {c : Shape} (ok : c.Ok) : ∀ (k : Nat) {s : St} {chain : List Nat} {g1 g2 : List (Nat × Option (List UInt8))}, Inv c s chain g1 g2 →
    s.stopped = false → s.pending = none → s.wcs.length = k →
    ∃ s' chain' g1' g2', s.run c (loop k) = some s' ∧ Inv c s' chain' g1' g2' ∧ s'.stopped = false ∧ s'.pending = none ∧ s'.wcs = [] ∧
      s'.cq = s.cq ∧ s'.accepted = s.accepted
  | 0, s, chain, g1, g2, h, h1, h2, h3 => ⟨s, chain, g1, g2, rfl, h, h1, h2, List.length_eq_zero_iff.mp h3, rfl, rfl⟩
  | k + 1, s, chain, g1, g2, h, h1, h2, h3 => by
    obtain ⟨s1, _, _, _, a1, i1⟩ := inv_step ok h .look
    obtain ⟨b1, b2, b3, b4⟩ := look_same a1 h1 h2
    obtain ⟨s2, _, _, _, a2, i2⟩ := inv_step ok i1 .done
    obtain ⟨d1, d2, d3, d4, d5⟩ := done_same a2 b3
    obtain ⟨s3, c3, x3, y3, r1, r2, r3, r4, r5, r6, r7⟩ := loop_run ok k i2 d4 d3 (by rw [d1, b1, List.length_tail, h3]; rfl)
    refine ⟨s3, c3, x3, y3, ?_, r2, r3, r4, r5, by rw [r6, d2, b2], by rw [r7, d5, b4]⟩
    show s.run c (.look :: .done :: loop k) = _
    rw [St.run, a1]
    simp only
    rw [St.run, a2]
    exact r1

/-- **C87 (progress).** Wherever the handler is, unless the stream was stopped: when it finishes the frame it is working on, looks at the other completions it
has found and comes to its end, and runs once more, it has looked at all frames that the card has accepted, and the card has the requests for all
slots; so the card then has room for as many frames as there are slots, whatever went before. -/
theorem C87_progress (c : Shape) (ok : c.Ok) (mem : Nat → UInt8) (ops : List Op) (s : St) (hr : (St.init c mem).run c ops = some s) (hs : s.stopped = false) :
    ∃ j k t, s.run c ([.done] ++ loop j ++ [.finish, .poll c.n] ++ loop k ++ [.finish]) = some t ∧ t.out = s.accepted ∧ t.accepted = s.accepted ∧
      t.cq = [] ∧ t.wcs = [] ∧ t.stopped = false ∧ t.rq.Perm (List.range c.n) ∧
      ∀ frames : List (List UInt8), frames.length ≤ c.n → (∀ f ∈ frames, f.length ≤ c.len) →
        ∃ u, t.run c (frames.map .frame) = some u ∧ u.accepted = s.accepted ++ frames ∧ u.stopped = false := by
  obtain ⟨s', chain, g1, g2, q1, q2⟩ := inv_run ok ops (Inv.init mem)
  rw [hr] at q1
  obtain rfl := Option.some.inj q1
  obtain ⟨s1, _, _, _, a1, i1⟩ := inv_step ok q2 .done
  obtain ⟨d1, d2, d3, d4, d5⟩ := done_same a1 hs
  obtain ⟨s2, _, _, _, a2, i2, e1, e2, e3, e4, e5⟩ := loop_run ok _ i1 d4 d3 rfl
  obtain ⟨s3, _, _, _, a3, i3⟩ := inv_step ok i2 .finish
  obtain ⟨f1, f2, f3, f4, f5, f6⟩ := finish_same a3 e1 e2 e3
  obtain ⟨s4, c4, x4, y4, a4, i4⟩ := inv_step ok i3 (.poll c.n)
  have hp : s4.wcs = s3.cq ∧ s4.cq = [] ∧ s4.pending = none ∧ s4.stopped = false ∧ s4.accepted = s3.accepted := by
    have hlen : s3.cq.length ≤ c.n := by
      have := i3.count
      rw [i3.cq, List.length_map]
      omega
    unfold St.step at a4
    simp only at a4
    rw [if_neg (by simp [f4, f3, f6, f1])] at a4
    obtain rfl := Option.some.inj a4
    refine ⟨?_, ?_, f3, f4, rfl⟩
    · show s3.cq.take (min c.n c.n) = _
      rw [Nat.min_self, List.take_of_length_le hlen]
    · show s3.cq.drop (min c.n c.n) = _
      rw [Nat.min_self, List.drop_eq_nil_of_le hlen]
  obtain ⟨p1, p2, p3, p4, p5⟩ := hp
  obtain ⟨s5, _, _, _, a5, i5, k1, k2, k3, k4, k5⟩ := loop_run ok _ i4 p4 p3 rfl
  obtain ⟨t, ch, x, y, a6, i6⟩ := inv_step ok i5 .finish
  obtain ⟨m1, m2, m3, m4, m5, m6⟩ := finish_same a6 k1 k2 k3
  have hcq : t.cq = [] := by rw [m2, k4, p2]
  have hacc : t.accepted = s.accepted := by rw [m5, k5, p5, f5, e5, d5]
  have hx : x = [] := List.map_eq_nil_iff.mp (by rw [← i6.wcs, m1])
  have hy : y = [] := List.map_eq_nil_iff.mp (by rw [← i6.cq, hcq])
  have hch : ch = [] := by
    have := i6.head
    rw [m6] at this
    exact List.head?_eq_none_iff.mp this.symm
  subst hx hy hch
  have hrun : s.run c ([.done] ++ loop s1.wcs.length ++ [.finish, .poll c.n] ++ loop s4.wcs.length ++ [.finish]) = some t := by
    have r1 : s.run c [.done] = some s1 := by rw [St.run, a1]; rfl
    have r2 : s.run c ([.done] ++ loop s1.wcs.length) = some s2 := by rw [run_append _ _ r1]; exact a2
    have r3 : s.run c ([.done] ++ loop s1.wcs.length ++ [.finish, .poll c.n]) = some s4 := by
      rw [run_append _ _ r2, St.run, a3]
      simp only
      rw [St.run, a4]
      rfl
    have r4 : s.run c ([.done] ++ loop s1.wcs.length ++ [.finish, .poll c.n] ++ loop s4.wcs.length) = some s5 := by rw [run_append _ _ r3]; exact a5
    rw [run_append _ _ r4, St.run, a6]
    rfl
  have hperm : t.rq.Perm (List.range c.n) := by
    have := i6.all
    rw [m3] at this
    simpa using this
  refine ⟨s1.wcs.length, s4.wcs.length, t, hrun, ?_, hacc, hcq, m1, m4, hperm, ?_⟩
  · have := i6.acc
    rw [hacc] at this
    simpa using this.symm
  · intro frames hn hf
    rw [← hacc]
    have hlen : t.rq.length = c.n := by rw [hperm.length_eq, List.length_range]
    have hroom : frames.length ≤ t.rq.length := by omega
    -- one frame after the other
    have key : ∀ (frames : List (List UInt8)) (t : St) (ch : List Nat) (x y : List (Nat × Option (List UInt8))), Inv c t ch x y →
        frames.length ≤ t.rq.length → (∀ f ∈ frames, f.length ≤ c.len) →
        ∃ u, t.run c (frames.map .frame) = some u ∧ u.accepted = t.accepted ++ frames ∧ u.stopped = t.stopped := by
      intro frames
      induction frames with
      | nil => intro t _ _ _ _ _ _; exact ⟨t, rfl, by simp, rfl⟩
      | cons f fs ih =>
        intro t ch x y i hl hf
        obtain ⟨t1, _, _, _, b1, b2⟩ := inv_step ok i (.frame f)
        have hcnt := i.count
        have hone : t1.accepted = t.accepted ++ [f] ∧ t1.rq = t.rq.tail ∧ t1.stopped = t.stopped := by
          unfold St.step at b1
          simp only at b1
          cases hq : t.rq with
          | nil => rw [hq] at hl; simp at hl
          | cons j rq =>
            rw [hq] at b1
            simp only at b1
            rw [if_neg (Nat.not_lt.mpr (hf f (by simp)))] at b1
            split at b1
            · cases b1
            · obtain rfl := Option.some.inj b1
              exact ⟨rfl, rfl, rfl⟩
        obtain ⟨u, u1, u2, u3⟩ := ih t1 _ _ _ b2 (by rw [hone.2.1, List.length_tail]; simp only [List.length_cons] at hl; omega) (fun g hg => hf g (by simp [hg]))
        refine ⟨u, ?_, by rw [u2, hone.1]; simp, by rw [u3, hone.2.2]⟩
        rw [List.map_cons, St.run, b1]
        exact u1
    obtain ⟨u, u1, u2, u3⟩ := key frames t [] [] [] i6 hroom hf
    exact ⟨u, u1, u2, by rw [u3, m4]⟩

/-- Nine slots in batches of two, with frames that arrive while the handler is at work, a request that fails, one that does not fit, and slots that are used
again. -/
def exShape : Shape := ⟨4, 4, 9⟩

def exOps : List Op :=
  [.frame [1, 2], .frame [3], .fail, .frame [4, 5, 6, 7], .poll 9, .look, .frame [8], .done, .look, .done, .look, .frame [1, 2, 3, 4, 5], .done, .look, .frame [9, 9],
    .frame [1], .frame [2], .frame [3], .frame [4], .frame [5], .frame [6], .frame [7], .done, .finish, .poll 2, .look, .frame [1, 1], .done, .look]

theorem exShape_ok : exShape.Ok := ⟨by decide, by decide⟩

example : exShape.postBatch = 2 ∧
    ((St.init exShape (fun _ => 0)).run exShape exOps).map (fun s => (s.out, s.accepted, s.view, s.rq)) =
      some ([[1, 2], [3], [4, 5, 6, 7], [8], [9, 9]], [[1, 2], [3], [4, 5, 6, 7], [8], [9, 9], [1], [2], [3], [4], [5], [1, 1]], some (20, 2), [3]) := by
  decide +kernel

/-- The stream is stopped while the handler is at work: nothing more is looked at. -/
example : ((St.init exShape (fun _ => 0)).run exShape [.frame [1], .frame [2], .poll 9, .look, .stop, .done, .look, .finish, .poll 9, .look]).map (fun s => (s.out, s.accepted)) =
    some ([[1]], [[1], [2]]) := by decide +kernel

/-! ### From a sender to heaps -/

/-- **C87 (end to end).** `C86_end_to_end` for a reader that uses these requests: the card has accepted the frames that its rules take, and the handlers have
looked at all completions. -/
theorem C87_end_to_end {c : IbvCfg} {um : Nat → UInt8} {ops : List IOp} {w : IbvW} {evs : List IEv} (ex : IbvExec c um ops w evs) (hne : .err ∉ ops)
    (hd : w.sched = .requested) (hp : ∀ i ∈ c.endpoints, i.port < 65536) (hg : ∀ i ∈ c.endpoints, Flow.IsGroup i.addr) {n : Nat} {gs : List SentGroup}
    (hw : ((takenPkts evs).filter (fun p => p.sub = n)).map (ipktBytes um) = gs.flatMap SentGroup.wire)
    {ifs : List Flow.IfAddr} {es : List Flow.Endpoint} (eok : ∀ e ∈ es, e.Ok) {rules : List Flow.Rule} (hr : Flow.createFlows ifs es = some rules)
    (hs : ∀ (m : Nat) i, c.endpoints[m]? = some i → (Flow.Subscribes es i ↔ m = n)) {got : List Bytes} (hre : Flow.Reaches ifs es (wireFrames evs) got)
    (cfg : StreamConfig) (hm : 0 < cfg.maxHeaps) (hsub : 0 < cfg.substreams) (maxSize : Nat)
    (hok : ∀ x ∈ gs.flatMap SentGroup.heaps, x.Ok ∧ x.mps ≤ maxSize ∧ (NoEmpty x.width x.heap.items ∨ (heapPtrs x.mps x.heap).Nodup))
    (hdel : Deliverable cfg gs)
    {d : Caps} {bufferSize : Nat} (hmax : maxSize + 42 < 2 ^ 32) {sh : Shape} (hsh : shape d bufferSize maxSize = some (.ok sh))
    (mem : Nat → UInt8) (qops : List Op) {q : St}
    (hq : (St.init sh mem).run sh qops = some q) (hcq : q.cq = []) (hwc : q.wcs = []) (hacc : q.accepted = Flow.steered rules got)
    (handlers : List (List (List IbvWc))) (hc : ibvFrames handlers.flatten.flatten = q.out) :
    ∃ s outs, Flow.ibvRun cfg maxSize sh.n handlers (Stream.new cfg) = some (s, outs.flatten) ∧ List.Forall₂ Arrives gs outs ∧
      liveHeaps s = [] ∧ s.stopped = false := by
  rw [C87_all sh (shape_ok hmax hsh).1 mem qops q hq hcq hwc, hacc] at hc
  exact Flow.C86_end_to_end ex hne hd hp hg hw eok hr hs hre cfg hm hsub maxSize sh.n hok hdel handlers hc

/-- Frames that fit are received. -/
theorem serves (c : Shape) (ok : c.Ok) (mem : Nat → UInt8) (frames : List (List UInt8)) (hn : frames.length ≤ c.n) (hf : ∀ f ∈ frames, f.length ≤ c.len) :
    ∃ qops q, (St.init c mem).run c qops = some q ∧ q.cq = [] ∧ q.wcs = [] ∧ q.accepted = frames ∧ q.out = frames := by
  obtain ⟨j, k, t, h1, _, _, _, _, _, _, h2⟩ := C87_progress c ok mem [] (St.init c mem) rfl rfl
  obtain ⟨u, h3, h4, h5⟩ := h2 frames hn hf
  have hru : (St.init c mem).run c (([.done] ++ loop j ++ [.finish, .poll c.n] ++ loop k ++ [.finish]) ++ frames.map .frame) = some u := by
    rw [run_append _ _ h1]
    exact h3
  obtain ⟨j', k', q, g1, g2, g3, g4, g5, _⟩ := C87_progress c ok mem _ u hru h5
  refine ⟨_, q, (run_append _ _ hru).trans g1, g4, g5, g3.trans h4, g2.trans h4⟩

/-- The hypotheses of `C87_end_to_end` are met by a run of a sender to two endpoints and a reader of one of them. -/
example : ∃ w evs rules sh qops q, IbvExec Flow.netCfg (fun _ => 0) Flow.netOps w evs ∧ Flow.createFlows Flow.exIfs Flow.netEndpoints = some rules ∧
    shape ⟨true, 2 ^ 40, 100, 64⟩ (16 * 2 ^ 20) 64 = some (.ok sh) ∧ (St.init sh (fun _ => 0)).run sh qops = some q ∧
    q.accepted = Flow.steered rules ([1, 2, 3] :: wireFrames evs) ∧ q.accepted ≠ [] ∧
    ∃ s outs, Flow.ibvRun trafficCfg 64 sh.n [[q.out.map (fun f => ⟨0, some f⟩) ++ [⟨1, none⟩]]] (Stream.new trafficCfg) = some (s, outs.flatten) ∧
      List.Forall₂ Arrives Flow.netGroups outs ∧ liveHeaps s = [] ∧ s.stopped = false := by
  have key : (Flow.netPlay.map fun (r : IbvW × List IEv) => decide (r.1.sched = .requested) && decide (takenPkts r.2 = Flow.netPkts) &&
      match Flow.createFlows Flow.exIfs Flow.netEndpoints with
      | none => false
      | some rules => decide ((Flow.steered rules ([1, 2, 3] :: wireFrames r.2)).length ≤ 64 ∧ (∀ f ∈ Flow.steered rules ([1, 2, 3] :: wireFrames r.2), f.length ≤ 106) ∧
          Flow.steered rules ([1, 2, 3] :: wireFrames r.2) ≠ [])) = some true := by decide +kernel
  obtain ⟨⟨w, evs⟩, h1, h2⟩ := Option.map_eq_some_iff.mp key
  obtain ⟨rules, hr⟩ : ∃ rules, Flow.createFlows Flow.exIfs Flow.netEndpoints = some rules := Option.isSome_iff_exists.mp (by decide +kernel)
  rw [hr] at h2
  simp only [Bool.and_eq_true, decide_eq_true_eq] at h2
  obtain ⟨⟨h2, h3⟩, h4, h5, h6⟩ := h2
  rw [Flow.netPlay, Option.bind_eq_some_iff] at h1
  obtain ⟨w0, h0, h1⟩ := h1
  have hp : ∀ p ∈ Flow.netPkts, p.size ≤ Flow.netCfg.maxPacket ∧ p.sub < Flow.netCfg.endpoints.length := by decide +kernel
  have ex : IbvExec Flow.netCfg (fun _ => 0) Flow.netOps w evs := by
    refine ⟨⟨by decide, rfl, rfl, by decide, by decide⟩, fun p h => hp p ?_, w0, h0, ibvPlay_run h1⟩
    unfold Flow.netOps at h
    simpa using h
  have hne : IOp.err ∉ Flow.netOps := by
    unfold Flow.netOps
    simp
  have hw : ((takenPkts evs).filter (fun p => p.sub = 1)).map (ipktBytes (fun _ => 0)) = Flow.netGroups.flatMap SentGroup.wire := by
    rw [h3]
    decide +kernel
  have hsh : shape ⟨true, 2 ^ 40, 100, 64⟩ (16 * 2 ^ 20) 64 = some (.ok ⟨106, 106, 64⟩) := by decide +kernel
  obtain ⟨qops, q, q1, q2, q3, q4, q5⟩ := serves ⟨106, 106, 64⟩ ⟨by decide, by decide⟩ (fun _ => 0) _ h4 h5
  refine ⟨w, evs, rules, _, qops, q, ex, hr, hsh, q1, q4, by rw [q4]; exact h6, ?_⟩
  have hre : Flow.Reaches Flow.exIfs Flow.netEndpoints (wireFrames evs) ([1, 2, 3] :: wireFrames evs) := by
    refine .other ?_ (Flow.reaches_refl _ _ _)
    intro d p hf
    obtain ⟨v, h, -⟩ := Flow.frame_fields hf.1
    cases h
  refine C87_end_to_end ex hne h2 (by decide) (by decide) hw Flow.net_ok hr Flow.net_subscribes hre trafficCfg (by decide) (by decide) 64 Flow.net_heaps
    Flow.net_deliverable (by decide) hsh (fun _ => 0) qops q1 q2 q3 q4 _ ?_
  generalize q.out = l
  simp [ibvFrames, List.filterMap_map, Function.comp_def]

end Spead2.Slots
