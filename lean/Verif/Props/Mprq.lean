import Verif.Lemmas.MprqInv

/-!
# C85: the multi-packet receive queue hands over exactly the frames that the card accepted
-/

namespace Spead2.Mprq

/-- **C85 (full statement).** Whatever the order of what the card, `start` and the handler do: nothing goes wrong, and the
handler gets the frames that the card has accepted, unchanged and in their order. -/
def C85_statement : Prop :=
  ∀ (c : Shape), c.Ok → ∀ (mem : Nat → UInt8) (ops : List Op), ∃ s, (St.init c mem).run c ops = some s ∧ Right c s

/-- Three entries of two strides of 4 bytes. -/
def exShape : Shape := ⟨4, 2, 3, 4, 6, 0⟩

theorem exShape_ok : exShape.Ok := ⟨by decide, by decide, by decide, by decide, by decide, by decide, ⟨2, by decide, by decide⟩, by decide⟩

/-- The handler runs while `start` is still posting: the first entry is full and is posted again before the second one is
posted for the first time.  The card then uses the first entry twice, and the handler looks for the third frame in the second
entry. -/
def exRace : List Op :=
  [.start, .frame [1, 2, 3], .frame [4, 5], .poll, .poll, .repost, .start, .start, .frame [6, 7, 8, 9], .poll]

/-- **C85 is false**: the handler gets bytes that no card has written. -/
theorem C85_violated : ¬ C85_statement := by
  intro h
  obtain ⟨s, h1, h2, _⟩ := h exShape exShape_ok (fun _ => 0xee) exRace
  have h3 : ((St.init exShape (fun _ => 0xee)).run exShape exRace).map (fun s => (s.out, s.accepted)) =
      some ([[1, 2, 3], [4, 5], [0xee, 0xee, 0xee, 0xee]], [[1, 2, 3], [4, 5], [6, 7, 8, 9]]) := by decide +kernel
  rw [h1] at h3
  obtain ⟨h4, h5⟩ := Prod.mk.inj (Option.some.inj h3)
  rw [h4, h5] at h2
  revert h2
  decide

/-- **C85 (partial).** If the handler posts no entry again before `start` has posted all of them, then in every order of events
no queue overflows, the card writes only into the buffer, and the handler gets the frames that the card has accepted, in their
order, unchanged and without gaps; the frame it works on stays unchanged until it asks for the next one.  Missing: histories
in which the handler overtakes `start`, for which the statement is false (`C85_violated`). -/
theorem C85_partial (c : Shape) (ok : c.Ok) (mem : Nat → UInt8) (ops : List Op) (hc : Calm c (St.init c mem) ops) :
    ∃ s, (St.init c mem).run c ops = some s ∧ Right c s := by
  obtain ⟨s, H, T, pend, h1, inv⟩ := inv_run ok ops (Inv.init ok mem) hc
  refine ⟨s, h1, ⟨_, inv.acc.symm⟩, ?_⟩
  intro p l hv
  obtain ⟨g, data, a1, a2, a3, a4, a5, a6, a7⟩ := inv.view p l hv
  refine ⟨?_, by rw [a6, a7]⟩
  have hs := strides_hold ok.stride data.length
  have hm := mod_in ok.pos ok.wqe a3
  have := Nat.mul_le_mul_right c.stride hm
  rw [Nat.add_mul, Nat.mul_assoc] at this
  rw [a4, a5]
  show g % (c.wqe * c.n) * c.stride + c.shift + data.length ≤ c.wqe * (c.n * c.stride)
  omega

/-- **C85 (all).** When there are no completions left, the handler has got every frame. -/
theorem C85_all (c : Shape) (ok : c.Ok) (mem : Nat → UInt8) (ops : List Op) (hc : Calm c (St.init c mem) ops) (s : St)
    (hr : (St.init c mem).run c ops = some s) (he : s.cq = []) : s.out = s.accepted := by
  obtain ⟨s', H, T, pend, h1, inv⟩ := inv_run ok ops (Inv.init ok mem) hc
  rw [hr] at h1
  obtain rfl := Option.some.inj h1
  have hcq := inv.cq
  rw [he] at hcq
  have hp : pend = [] := List.map_eq_nil_iff.mp hcq.symm
  rw [inv.acc, hp]
  simp [frames]

/-- What the handler does: read a completion, and post the entry again if it was its last. -/
def handler : Nat → List Op
  | 0 => []
  | k + 1 => .poll :: .repost :: handler k

theorem drain {c : Shape} (ok : c.Ok) : ∀ (pend : List Comp) {s : St} {H T : Nat}, Inv c s H T pend → s.last = false →
    s.posted = c.wqe → ∃ s' H' T', s.run c (handler pend.length) = some s' ∧ Inv c s' H' T' [] ∧ s'.last = false ∧
      s'.posted = c.wqe ∧ s'.accepted = s.accepted ∧ s'.hw = s.hw ∧ s'.used = s.used
  | [], s, H, T, inv, hl, hp => ⟨s, H, T, rfl, inv, hl, hp, rfl, rfl, rfl⟩
  | x :: xs, s, H, T, inv, hl, hp => by
    obtain ⟨s1, T1, pend1, h1, inv1, hpend⟩ := inv_poll ok inv
    have hpend := hpend hl
    rw [List.tail_cons] at hpend
    subst hpend
    have hsame : s1.posted = s.posted ∧ s1.accepted = s.accepted ∧ s1.hw = s.hw ∧ s1.used = s.used := by
      have hcq := inv.cq
      unfold St.step at h1
      simp only [hl] at h1
      rw [hcq, List.map_cons] at h1
      simp only at h1
      rw [if_neg (by decide)] at h1
      split at h1
      · cases h1
      · split at h1
        · obtain rfl := Option.some.inj h1; exact ⟨rfl, rfl, rfl, rfl⟩
        · obtain rfl := Option.some.inj h1; exact ⟨rfl, rfl, rfl, rfl⟩
    obtain ⟨s2, H2, h2, inv2⟩ := inv_repost ok inv1 (fun _ => by rw [hsame.1]; exact hp)
    have hsame2 : s2.posted = s1.posted ∧ s2.accepted = s1.accepted ∧ s2.hw = s1.hw ∧ s2.used = s1.used ∧ s2.last = false := by
      unfold St.step at h2
      simp only at h2
      split at h2
      · obtain ⟨q, _, rfl⟩ := Option.map_eq_some_iff.mp h2
        exact ⟨rfl, rfl, rfl, rfl, rfl⟩
      · next hn =>
        obtain rfl := Option.some.inj h2
        exact ⟨rfl, rfl, rfl, rfl, by simpa using hn⟩
    obtain ⟨s', H', T', r1, r2, r3, r4, r5, r6, r7⟩ := drain ok pend1 inv2 hsame2.2.2.2.2 (by rw [hsame2.1, hsame.1]; exact hp)
    refine ⟨s', H', T', ?_, r2, r3, r4, by rw [r5, hsame2.2.1, hsame.2.1], by rw [r6, hsame2.2.2.1, hsame.2.2.1],
      by rw [r7, hsame2.2.2.2.1, hsame.2.2.2]⟩
    show s.run c (.poll :: .repost :: handler pend1.length) = _
    unfold St.run
    rw [h1]
    simp only
    unfold St.run
    rw [h2]
    exact r1

/-- **C85 (progress).** Once `start` has finished, a handler that reads all completions gets every frame, and then the card can
take any frame of at most 2^16-1 bytes that fits into an entry, either at once or after giving up the rest of the current entry:
as long as the handler keeps up, nothing is dropped. -/
theorem C85_progress (c : Shape) (ok : c.Ok) (mem : Nat → UInt8) (ops : List Op) (hc : Calm c (St.init c mem) ops) (s : St)
    (hr : (St.init c mem).run c ops = some s) (hp : s.posted = c.wqe) :
    ∃ k t, s.run c (.repost :: handler k) = some t ∧ t.out = s.accepted ∧ t.accepted = s.accepted ∧ t.cq = [] ∧
      ∀ data : List UInt8, c.strides data.length ≤ c.n → data.length + c.shift < 65536 →
        (t.used + c.strides data.length ≤ c.n → ∃ u, t.step c (.frame data) = some u ∧ u.accepted = s.accepted ++ [data]) ∧
        (2 ≤ c.wqe → ∃ u, t.run c [.filler, .frame data] = some u ∧ u.accepted = s.accepted ++ [data]) := by
  obtain ⟨s', H, T, pend, h1, inv⟩ := inv_run ok ops (Inv.init ok mem) hc
  rw [hr] at h1
  obtain rfl := Option.some.inj h1
  obtain ⟨s2, H2, h2, inv2⟩ := inv_repost ok inv (fun _ => hp)
  have hsame2 : s2.posted = s.posted ∧ s2.accepted = s.accepted ∧ s2.last = false := by
    unfold St.step at h2
    simp only at h2
    split at h2
    · obtain ⟨q, _, rfl⟩ := Option.map_eq_some_iff.mp h2
      exact ⟨rfl, rfl, rfl⟩
    · next hn =>
      obtain rfl := Option.some.inj h2
      exact ⟨rfl, rfl, by simpa using hn⟩
  obtain ⟨t, H', T', r1, r2, r3, r4, r5, _, _⟩ := drain ok pend inv2 hsame2.2.2 (by rw [hsame2.1]; exact hp)
  have hdue : t.due = 0 := by unfold St.due; rw [r3]; rfl
  have hH : H' = T' + c.wqe := by have := r2.late r4; omega
  have hgo : T' * c.n + t.q.tailStrides = t.hw * c.n + t.used := r2.walk
  have hhw : t.hw = T' := by
    have h3 := r2.le_hw
    have h4 : t.hw ≤ T' := mul_lt_succ (n := c.n) (u := t.q.tailStrides) (by omega) r2.ts
    omega
  have hwq := ok.wqe
  have hacc : t.accepted = s.accepted := by rw [r5, hsame2.2.1]
  have hout : t.out = s.accepted := by rw [← hacc, r2.acc]; simp [frames]
  refine ⟨pend.length, t, ?_, hout, hacc, r2.cq, ?_⟩
  · unfold St.run
    rw [h2]
    exact r1
  · intro data hd1 hd2
    refine ⟨fun hfit => ?_, fun h2w => ?_⟩
    · obtain ⟨u, _, hu1, _, hu2⟩ := inv_frame ok r2 data
      exact ⟨u, hu1, by rw [hu2 ⟨by omega, hfit, hd2⟩, hacc]⟩
    · obtain ⟨v, pv, hv1, hv2, hv3, hv4⟩ := inv_filler ok r2
      obtain ⟨e1, e2⟩ := hv4 (by omega)
      obtain ⟨u, _, hu1, _, hu2⟩ := inv_frame ok hv2 data
      refine ⟨u, ?_, by rw [hu2 ⟨by omega, by omega, hd2⟩, hv3, hacc]⟩
      unfold St.run
      rw [hv1]
      simp only
      unfold St.run
      rw [hu1]
      rfl

/-- `start` finishes first, then frames fill entries, one of them after a filler, and the buffer is used a second time. -/
def exOps : List Op :=
  [.start, .frame [1, 2, 3], .start, .start, .poll, .frame [4, 5], .frame [6, 7, 8, 9], .poll, .repost, .frame [1, 2, 3, 4, 5],
    .filler, .frame [1, 2, 3, 4, 5], .poll, .poll, .repost, .frame [9, 9], .poll, .repost, .release, .frame [7], .poll]

instance (c : Shape) : (s : St) → (ops : List Op) → Decidable (Calm c s ops)
  | _, [] => isTrue trivial
  | s, op :: ops => by
    unfold Calm
    have h1 : Decidable (op = .repost → s.last = true → s.posted = c.wqe) := by
      cases op with
      | repost => exact decidable_of_iff (s.last = true → s.posted = c.wqe) ⟨fun h _ => h, fun h => h rfl⟩
      | _ => exact isTrue (fun h => by cases h)
    cases h : s.step c op with
    | none => simp only; infer_instance
    | some s' =>
      simp only
      have := instDecidableCalm c s' ops
      infer_instance

example : Calm exShape (St.init exShape (fun _ => 0)) exOps ∧
    ((St.init exShape (fun _ => 0)).run exShape exOps).map (fun s => (s.out, s.accepted, s.view)) =
      some ([[1, 2, 3], [4, 5], [6, 7, 8, 9], [1, 2, 3, 4, 5], [9, 9]], [[1, 2, 3], [4, 5], [6, 7, 8, 9], [1, 2, 3, 4, 5], [9, 9], [7]], some (0, 2)) := by
  decide +kernel

theorem clamp_near {v lo hi : Nat} (h : lo ≤ hi) : Nearest v lo hi (clamp v lo hi) := by
  unfold Nearest clamp
  split
  · exact ⟨by omega, by omega, fun j h1 h2 => by omega⟩
  · split
    · exact ⟨by omega, by omega, fun j h1 h2 => by omega⟩
    · exact ⟨by omega, by omega, fun j h1 h2 => by omega⟩

/-- **C85 (sizes).** For every card that can do it and every buffer size, the strides have 64 bytes and an entry has 1 MiB, or as
near to that as the card can do.  The reader fails if the card has no room for two entries, or chooses sizes as above, with the
buffer of that size, within the limits of the card; one entry more would exceed a limit or the buffer size that was asked for. -/
theorem C85_sizes (bufferSize : Nat) (d : Caps) (cnt : Nat → Nat) (sane : d.Sane cnt) :
    ∃ a b, Nearest 6 d.minStrideLog d.maxStrideLog a ∧ Nearest (20 - a) d.minNumLog d.maxNumLog b ∧
    match sizes bufferSize d cnt with
    | none => d.maxCqe < 2 * 2 ^ b ∨ d.maxQpWr < 2
    | some (c, size) => c.Ok ∧ 2 ≤ c.wqe ∧ size = c.bufSize ∧ c.cqe ≤ d.maxCqe ∧ c.wqe ≤ d.maxQpWr ∧
        (size ≤ bufferSize ∨ size = 2 * c.wqeSize) ∧ c.stride = 2 ^ a ∧ c.n = 2 ^ b ∧ c.shift = 0 ∧
        (bufferSize < (c.wqe + 1) * c.wqeSize ∨ d.maxCqe < (c.wqe + 1) * c.n ∨ c.wqe = d.maxQpWr) := by
  have hS : d.minStrideLog ≤ clamp 6 d.minStrideLog d.maxStrideLog ∧ clamp 6 d.minStrideLog d.maxStrideLog ≤ d.maxStrideLog ∧
      6 ≤ clamp 6 d.minStrideLog d.maxStrideLog ∧ clamp 6 d.minStrideLog d.maxStrideLog ≤ 13 := by
    have := sane.stride
    have := sane.atLeast
    have := sane.small
    unfold clamp
    split
    · omega
    · split <;> omega
  unfold sizes
  simp only
  refine ⟨clamp 6 d.minStrideLog d.maxStrideLog, clamp (20 - clamp 6 d.minStrideLog d.maxStrideLog) d.minNumLog d.maxNumLog,
    clamp_near sane.stride, clamp_near sane.num, ?_⟩
  generalize clamp 6 d.minStrideLog d.maxStrideLog = a at hS ⊢
  have hN : d.minNumLog ≤ clamp (20 - a) d.minNumLog d.maxNumLog ∧ clamp (20 - a) d.minNumLog d.maxNumLog ≤ d.maxNumLog ∧
      clamp (20 - a) d.minNumLog d.maxNumLog ≤ 14 := by
    have := sane.num
    have := sane.few
    unfold clamp
    split
    · omega
    · split <;> omega
  generalize clamp (20 - a) d.minNumLog d.maxNumLog = b at hN ⊢
  have pa : 0 < 2 ^ a := Nat.two_pow_pos a
  have pb : 0 < 2 ^ b := Nat.two_pow_pos b
  generalize hbuf : (if bufferSize < 2 * 2 ^ (a + b) then 2 * 2 ^ (a + b) else bufferSize) = buf
  have hbuf1 : 2 * 2 ^ (a + b) ≤ buf ∧ (buf ≤ bufferSize ∨ buf = 2 * 2 ^ (a + b)) ∧ bufferSize ≤ buf := by
    rw [← hbuf]
    split <;> omega
  have hst : 2 * 2 ^ b ≤ buf >>> a ∧ (buf >>> a) * 2 ^ a ≤ buf ∧ buf < (buf >>> a + 1) * 2 ^ a := by
    rw [Nat.shiftRight_eq_div_pow]
    refine ⟨(Nat.le_div_iff_mul_le pa).mpr ?_, Nat.div_mul_le_self _ _, (Nat.div_lt_iff_lt_mul pa).mp (Nat.lt_succ_self _)⟩
    have e : 2 * 2 ^ b * 2 ^ a = 2 * 2 ^ (a + b) := by rw [Nat.pow_add, Nat.mul_assoc, Nat.mul_comm (2 ^ b)]
    omega
  generalize buf >>> a = st0 at hst
  generalize hst1 : (if d.maxCqe < st0 then d.maxCqe else st0) = st
  have hst2 : st ≤ d.maxCqe ∧ st ≤ st0 ∧ (st < 2 * 2 ^ b → d.maxCqe < 2 * 2 ^ b) ∧
      (st = st0 ∨ st = d.maxCqe) := by
    rw [← hst1]
    split <;> omega
  have hw0 : (st >>> b) * 2 ^ b ≤ st ∧ (st >>> b < 2 → st < 2 * 2 ^ b) ∧ st < (st >>> b + 1) * 2 ^ b := by
    rw [Nat.shiftRight_eq_div_pow]
    exact ⟨Nat.div_mul_le_self _ _, fun h => (Nat.div_lt_iff_lt_mul pb).mp h, (Nat.div_lt_iff_lt_mul pb).mp (Nat.lt_succ_self _)⟩
  generalize st >>> b = w0 at hw0
  generalize hw1 : (if d.maxQpWr < w0 then d.maxQpWr else w0) = w
  have hw2 : w ≤ d.maxQpWr ∧ w ≤ w0 ∧ (w < 2 → d.maxQpWr < 2 ∨ w0 < 2) ∧ (w = w0 ∨ w = d.maxQpWr) := by
    rw [← hw1]
    split <;> omega
  by_cases h2 : w < 2
  · rw [if_pos h2]
    simp only
    rcases hw2.2.2.1 h2 with h | h
    · exact Or.inr h
    · exact Or.inl (hst2.2.2.1 (hw0.2.1 h))
  · rw [if_neg h2]
    simp only
    have hwb : w * 2 ^ b ≤ st := Nat.le_trans (Nat.mul_le_mul_right _ hw2.2.1) hw0.1
    have hsz : 2 ^ (a + b) = 2 ^ b * 2 ^ a := by rw [Nat.pow_add, Nat.mul_comm]
    have hle : w * 2 ^ (a + b) ≤ buf := by
      rw [hsz, ← Nat.mul_assoc]
      exact Nat.le_trans (Nat.mul_le_mul_right _ (Nat.le_trans hwb hst2.2.1)) hst.2.1
    obtain ⟨c1, c2⟩ := sane.cnt w hw2.1
    refine ⟨⟨pa, pb, ?_, ?_, ?_, c1, c2, hwb⟩, by show 2 ≤ w; omega, ?_, hst2.1, hw2.1, ?_, trivial, trivial, trivial, ?_⟩
    · exact Nat.pow_lt_pow_right (by omega) (by omega)
    · show 2 ^ b * 2 ^ a ≤ 2 ^ 32
      rw [← Nat.pow_add]
      exact Nat.pow_le_pow_right (by omega) (by omega)
    · show 0 < w
      omega
    · show w * 2 ^ (a + b) = w * (2 ^ b * 2 ^ a)
      rw [hsz]
    · rcases hbuf1.2.1 with h | h
      · exact Or.inl (Nat.le_trans hle h)
      · right
        show w * 2 ^ (a + b) = 2 * (2 ^ b * 2 ^ a)
        rw [← hsz]
        refine Nat.le_antisymm (by rw [← h]; exact hle) (Nat.mul_le_mul_right _ (by omega))
    · show bufferSize < (w + 1) * (2 ^ b * 2 ^ a) ∨ d.maxCqe < (w + 1) * 2 ^ b ∨ w = d.maxQpWr
      rcases hw2.2.2.2 with h | h
      · rcases hst2.2.2.2 with h' | h'
        · left
          have h1 : st0 + 1 ≤ (w + 1) * 2 ^ b := by
            rw [h, ← h']
            exact hw0.2.2
          rw [← Nat.mul_assoc]
          have := Nat.mul_le_mul_right (2 ^ a) h1
          omega
        · right; left
          rw [h, ← h']
          exact hw0.2.2
      · exact Or.inr (Or.inr h)

/-- A card like a ConnectX-5, and the default buffer of 16 MiB. -/
def exCaps : Caps := ⟨6, 13, 9, 16, 4194303, 32768⟩

example : exCaps.Sane (fun _ => 2 ^ 15) ∧
    sizes 16777216 exCaps (fun _ => 2 ^ 15) = some (⟨64, 16384, 16, 2 ^ 15, 262144, 0⟩, 16777216) :=
  ⟨⟨by decide, by decide, by decide, by decide, by decide, by decide, fun _ h => ⟨h, 15, by decide, rfl⟩⟩, by decide +kernel⟩

end Spead2.Mprq
