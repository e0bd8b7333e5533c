import Verif.Lemmas.Mprq

/-!
# The invariant of the multi-packet receive queue

`H` entries were posted and `T` were used up, as the reader sees it; `pend` are the completions that it has not read.
-/

namespace Spead2.Mprq

/-- 1 if an entry was used up and not posted again. -/
def St.due (s : St) : Nat := if s.last then 1 else 0

structure Inv (c : Shape) (s : St) (H T : Nat) (pend : List Comp) : Prop where
  head : s.q.head = H % 2 ^ 32
  tail : s.q.tail = T % 2 ^ 32
  bell : s.q.doorbell = H % 65536
  ts : s.q.tailStrides < c.n
  dueT : s.due ≤ T
  ts0 : s.last = true → s.q.tailStrides = 0
  posted : s.posted ≤ c.wqe
  early : s.posted < c.wqe → H = s.posted ∧ T = s.due
  late : s.posted = c.wqe → H + s.due = T + c.wqe
  start : s.start = (T - s.due) % c.wqe * c.wqeSize
  len : s.q.ring.length = c.cnt
  ring : ∀ k, s.hw ≤ k → k < H → s.q.ring[k % c.cnt]? = some ⟨k % c.wqe * c.wqeSize, c.wqeSize⟩
  used : s.used < c.n
  room : s.hw * c.n + s.used ≤ H * c.n
  walk : Walk c s.mem (T * c.n + s.q.tailStrides) pend (s.hw * c.n + s.used)
  cq : s.cq = pend.map (Comp.word c)
  acc : s.accepted = s.out ++ frames pend
  view : ∀ p l, s.view = some (p, l) → ∃ g data, (T - s.due) * c.n ≤ g ∧
    g + c.strides data.length ≤ T * c.n + s.q.tailStrides ∧ g % c.n + c.strides data.length ≤ c.n ∧ p = c.at g ∧
    l = data.length ∧ s.out.getLast? = some data ∧ bytes s.mem p l = data
  polled : s.polled + (T - s.due) * c.n ≤ T * c.n + s.q.tailStrides

theorem Inv.init {c : Shape} (ok : c.Ok) (mem : Nat → UInt8) : Inv c (St.init c mem) 0 0 [] where
  head := rfl
  tail := rfl
  bell := rfl
  ts := ok.pos
  dueT := Nat.le_refl _
  ts0 := fun h => by cases h
  posted := Nat.zero_le _
  early := fun _ => ⟨rfl, rfl⟩
  late := fun h => by have := ok.wqe; change 0 = c.wqe at h; omega
  start := by show 0 = (0 - 0) % c.wqe * c.wqeSize; simp
  len := List.length_replicate ..
  ring := fun k _ h => by omega
  used := ok.pos
  room := by show 0 * c.n + 0 ≤ 0 * c.n; omega
  walk := rfl
  cq := rfl
  acc := rfl
  view := fun p l h => by cases h
  polled := by show 0 + (0 - 0) * c.n ≤ 0 * c.n + 0; omega

section
variable {c : Shape} {s : St} {H T : Nat} {pend : List Comp}

theorem mul_lt_succ {a b n u : Nat} (h : a * n ≤ b * n + u) (hu : u < n) : a ≤ b := by
  by_contra hh
  have : (b + 1) * n ≤ a * n := Nat.mul_le_mul_right _ (by omega)
  rw [Nat.add_mul, Nat.one_mul] at this
  omega

theorem Inv.le_hw (inv : Inv c s H T pend) : T ≤ s.hw := by
  have h := inv.walk.length
  exact mul_lt_succ (u := s.used) (n := c.n) (by omega) inv.used

theorem Inv.hw_le (ok : c.Ok) (inv : Inv c s H T pend) : s.hw ≤ H := by
  have h := inv.room
  exact mul_lt_succ (u := 0) (n := c.n) (by omega) ok.pos

/-- No entry is posted while it is in use. -/
theorem Inv.window (inv : Inv c s H T pend) : H ≤ T - s.due + c.wqe := by
  have h1 := inv.dueT
  rcases Nat.lt_or_ge s.posted c.wqe with h | h
  · have := inv.early h
    omega
  · have := inv.late (Nat.le_antisymm inv.posted h)
    omega

/-- The card sees an entry exactly if there is one. -/
theorem Inv.visible (ok : c.Ok) (inv : Inv c s H T pend) : s.q.doorbell = s.hw % 65536 ↔ s.hw = H := by
  have h1 := inv.window
  have h2 := inv.le_hw
  have h3 := inv.hw_le ok
  obtain ⟨k, hk, hc⟩ := ok.pow
  have h4 := ok.cnt
  have h5 : 2 ^ k ≤ 2 ^ 15 := Nat.pow_le_pow_right (by omega) hk
  rw [inv.bell]
  generalize s.due = d at *
  constructor
  · intro h; omega
  · intro h; rw [h]

theorem post_ok (ok : c.Ok) {q : Wq} {w : Wqe} (hh : q.head = H % 2 ^ 32) (ht : q.tail = T % 2 ^ 32) (h1 : T ≤ H)
    (h2 : H < T + c.wqe) :
    q.post c w = some { q with ring := q.ring.set (H % c.cnt) w, head := (H + 1) % 2 ^ 32, doorbell := (H + 1) % 65536 } := by
  obtain ⟨k, hk, hc⟩ := ok.pow
  have h4 := ok.cnt
  have h5 : 2 ^ k ≤ 2 ^ 15 := Nat.pow_le_pow_right (by omega) hk
  unfold Wq.post
  rw [if_neg (by rw [hh, ht]; omega)]
  simp only
  have e1 : q.head &&& (c.cnt - 1) = H % c.cnt := by
    rw [hh, hc, and_mask]
    exact Nat.mod_mod_of_dvd _ (Nat.pow_dvd_pow 2 (by omega))
  have e2 : (q.head + 1) % 2 ^ 32 = (H + 1) % 2 ^ 32 := by rw [hh]; omega
  have e3 : (H + 1) % 2 ^ 32 &&& 0xffff = (H + 1) % 65536 := by
    rw [show (0xffff : Nat) = 2 ^ 16 - 1 by decide, and_mask]; omega
  rw [e1, e2, e3]

/-- After posting, the card will find the entries. -/
theorem ring_post (ok : c.Ok) (inv : Inv c s H T pend) (h2 : H < T + c.wqe) :
    ∀ k, s.hw ≤ k → k < H + 1 → (s.q.ring.set (H % c.cnt) ⟨H % c.wqe * c.wqeSize, c.wqeSize⟩)[k % c.cnt]? =
      some ⟨k % c.wqe * c.wqeSize, c.wqeSize⟩ := by
  intro k hk1 hk2
  have h4 := ok.cnt
  have hw := ok.wqe
  have hT := inv.le_hw
  by_cases e : k = H
  · subst e
    rw [List.getElem?_set_self]
    rw [inv.len]
    exact Nat.mod_lt _ (by omega)
  · have hne : H % c.cnt ≠ k % c.cnt := by
      intro he
      have hd : H = k + (H - k) := by omega
      rw [hd] at he
      have hd2 : H - k < c.cnt := by omega
      rw [← Nat.mod_add_mod] at he
      have hr : k % c.cnt < c.cnt := Nat.mod_lt _ (by omega)
      generalize k % c.cnt = r at *
      by_cases h6 : r + (H - k) < c.cnt
      · rw [Nat.mod_eq_of_lt h6] at he; omega
      · rw [Nat.mod_eq_sub_mod (by omega), Nat.mod_eq_of_lt (by omega)] at he; omega
    rw [List.getElem?_set_ne hne]
    exact inv.ring k hk1 (by omega)

/-- `start` posts an entry. -/
theorem inv_start (ok : c.Ok) (inv : Inv c s H T pend) : ∃ s' H', s.step c .start = some s' ∧ Inv c s' H' T pend := by
  unfold St.step
  by_cases h : s.posted < c.wqe
  · simp only
    rw [if_pos h]
    obtain ⟨e1, e2⟩ := inv.early h
    have hTH : T ≤ H := Nat.le_trans inv.le_hw (inv.hw_le ok)
    have hlt : H < T + c.wqe := by omega
    have haddr : (⟨s.posted * c.wqeSize, c.wqeSize⟩ : Wqe) = ⟨H % c.wqe * c.wqeSize, c.wqeSize⟩ := by
      rw [e1, Nat.mod_eq_of_lt h]
    rw [haddr, post_ok ok inv.head inv.tail hTH hlt]
    refine ⟨_, H + 1, rfl, ?_⟩
    exact { inv with
      head := rfl
      bell := rfl
      posted := by show s.posted + 1 ≤ c.wqe; omega
      early := fun h' => by
        refine ⟨?_, e2⟩
        show H + 1 = s.posted + 1
        omega
      late := fun h' => by
        change s.posted + 1 = c.wqe at h'
        show H + 1 + s.due = T + c.wqe
        omega
      len := by
        show (s.q.ring.set _ _).length = _
        rw [List.length_set]; exact inv.len
      ring := ring_post ok inv hlt
      room := by
        show s.hw * c.n + s.used ≤ (H + 1) * c.n
        have := inv.room
        rw [Nat.add_mul]; omega }
  · simp only
    rw [if_neg h]
    exact ⟨s, H, rfl, inv⟩

/-- The handler posts an entry again, after `start` has finished. -/
theorem inv_repost (ok : c.Ok) (inv : Inv c s H T pend) (hp : s.last = true → s.posted = c.wqe) :
    ∃ s' H', s.step c .repost = some s' ∧ Inv c s' H' T pend := by
  unfold St.step
  by_cases h : s.last = true
  · simp only
    rw [if_pos h]
    have hdue : s.due = 1 := by unfold St.due; rw [if_pos h]
    have hl := inv.late (hp h)
    have hdT := inv.dueT
    rw [hdue] at hl hdT
    have hTH : T ≤ H := Nat.le_trans inv.le_hw (inv.hw_le ok)
    have hlt : H < T + c.wqe := by omega
    have haddr : (⟨s.start, c.wqeSize⟩ : Wqe) = ⟨H % c.wqe * c.wqeSize, c.wqeSize⟩ := by
      rw [inv.start, hdue, show H = T - 1 + c.wqe by omega, Nat.add_mod_right]
    rw [haddr, post_ok ok inv.head inv.tail hTH hlt]
    refine ⟨_, H + 1, rfl, ?_⟩
    have hdue' : ∀ (q : Wq) (x : Nat), St.due { s with q := q, last := false, view := none, polled := 0, start := x } = 0 := fun q x => rfl
    exact { inv with
      head := rfl
      bell := rfl
      ts := inv.ts
      dueT := by rw [hdue']; omega
      ts0 := fun h' => by cases h'
      early := fun h' => by
        have := hp h
        change s.posted < c.wqe at h'
        omega
      late := fun h' => by rw [hdue']; omega
      start := by
        show (if s.start + c.wqeSize = c.bufSize then 0 else s.start + c.wqeSize) = _
        rw [hdue', inv.start, hdue, Nat.sub_zero]
        have hw := ok.wqe
        have hr : (T - 1) % c.wqe < c.wqe := Nat.mod_lt _ hw
        have hT : T % c.wqe = if (T - 1) % c.wqe + 1 = c.wqe then 0 else (T - 1) % c.wqe + 1 := by
          conv_lhs => rw [show T = T - 1 + 1 by omega]
          rw [← Nat.mod_add_mod]
          split
          · next e => rw [e, Nat.mod_self]
          · exact Nat.mod_eq_of_lt (by omega)
        have hpos : 0 < c.wqeSize := Nat.mul_pos ok.pos (by have := ok.stride; omega)
        rw [hT, ← Nat.succ_mul]
        unfold Shape.bufSize
        by_cases e : (T - 1) % c.wqe + 1 = c.wqe
        · rw [if_pos e, if_pos (by rw [Nat.succ_eq_add_one, e]), Nat.zero_mul]
        · rw [if_neg e, if_neg (fun h' => e (Nat.eq_of_mul_eq_mul_right hpos h'))]
      len := by
        show (s.q.ring.set _ _).length = _
        rw [List.length_set]; exact inv.len
      ring := ring_post ok inv hlt
      room := by
        show s.hw * c.n + s.used ≤ (H + 1) * c.n
        have := inv.room
        rw [Nat.add_mul]; omega
      view := fun p l h' => by cases h'
      polled := by
        show 0 + (T - 0) * c.n ≤ T * c.n + s.q.tailStrides
        rw [Nat.sub_zero]; omega }
  · simp only
    rw [if_neg h]
    exact ⟨s, H, rfl, inv⟩

/-- The handler ends. -/
theorem inv_release (inv : Inv c s H T pend) : ∃ s', s.step c .release = some s' ∧ Inv c s' H T pend := by
  unfold St.step
  by_cases h : s.last = true
  · simp only
    rw [if_pos h]
    exact ⟨s, rfl, inv⟩
  · simp only
    rw [if_neg h]
    have hd : s.due = 0 := by unfold St.due; rw [if_neg h]
    refine ⟨_, rfl, ?_⟩
    exact { inv with
      view := fun p l h' => by cases h'
      polled := by
        show 0 + (T - s.due) * c.n ≤ T * c.n + s.q.tailStrides
        rw [hd, Nat.sub_zero]; omega }

/-- Where strides of the buffer are. -/
theorem stride_mod (ok : c.Ok) {a u : Nat} (hu : u < c.n) : (a * c.n + u) % (c.wqe * c.n) = a % c.wqe * c.n + u := by
  have h1 := Nat.div_add_mod a c.wqe
  have h2 : a % c.wqe < c.wqe := Nat.mod_lt _ ok.wqe
  have e : a * c.n + u = a % c.wqe * c.n + u + c.wqe * c.n * (a / c.wqe) := by
    conv_lhs => rw [← h1]
    ring
  rw [e, Nat.add_mul_mod_self_left]
  refine Nat.mod_eq_of_lt ?_
  have h3 : (a % c.wqe + 1) * c.n ≤ c.wqe * c.n := Nat.mul_le_mul_right _ h2
  rw [Nat.add_mul, Nat.one_mul] at h3
  omega

theorem at_eq (ok : c.Ok) {a u : Nat} (hu : u < c.n) : c.at (a * c.n + u) = a % c.wqe * c.wqeSize + u * c.stride + c.shift := by
  unfold Shape.at Shape.wqeSize
  rw [stride_mod ok hu, Nat.add_mul, Nat.mul_assoc]

theorem mod_n {a u : Nat} (hu : u < c.n) : (a * c.n + u) % c.n = u := by
  rw [Nat.mul_comm, Nat.mul_add_mod]; exact Nat.mod_eq_of_lt hu

/-- The handler reads a completion. -/
theorem inv_poll (ok : c.Ok) (inv : Inv c s H T pend) : ∃ s' T' pend', s.step c .poll = some s' ∧ Inv c s' H T' pend' ∧
    (s.last = false → pend' = pend.tail) := by
  unfold St.step
  by_cases h : s.last = true
  · simp only
    rw [if_pos h]
    exact ⟨s, T, pend, rfl, inv, fun h' => by rw [h] at h'; cases h'⟩
  · simp only
    rw [if_neg h]
    have hd : s.due = 0 := by unfold St.due; rw [if_neg h]
    have hcq := inv.cq
    cases pend with
    | nil =>
      rw [List.map_nil] at hcq
      rw [hcq]
      exact ⟨s, T, [], rfl, inv, fun _ => rfl⟩
    | cons x xs =>
      rw [List.map_cons] at hcq
      rw [hcq]
      simp only
      obtain ⟨w1, w2, w3, w4⟩ := inv.walk
      rw [mod_n inv.ts] at w1
      obtain ⟨len, hr, hlen⟩ := readWc_eq ok s.q x inv.ts w1 (fun data e => by subst e; exact w3.1)
      rw [hr]
      simp only
      have hpos : c.at (T * c.n + s.q.tailStrides) = s.start + (s.q.tailStrides * c.stride + c.shift) := by
        rw [at_eq ok inv.ts, inv.start, hd, Nat.sub_zero]; omega
      have hpl := inv.polled
      rw [hd, Nat.sub_zero] at hpl
      -- the new counters
      have hnew : ∃ Q : Wq, ∃ T' : Nat, (if s.q.tailStrides + x.strides c = c.n then { s.q with tail := (s.q.tail + 1) % 2 ^ 32, tailStrides := 0 }
          else { s.q with tailStrides := s.q.tailStrides + x.strides c }) = Q ∧
          Q.head = s.q.head ∧ Q.doorbell = s.q.doorbell ∧ Q.ring = s.q.ring ∧ Q.tail = T' % 2 ^ 32 ∧ Q.tailStrides < c.n ∧
          T' * c.n + Q.tailStrides = T * c.n + s.q.tailStrides + x.strides c ∧
          T' = T + (if decide (s.q.tailStrides + x.strides c = c.n) = true then 1 else 0) ∧
          (decide (s.q.tailStrides + x.strides c = c.n) = true → Q.tailStrides = 0) := by
        by_cases hl : s.q.tailStrides + x.strides c = c.n
        · rw [if_pos hl, decide_eq_true hl]
          refine ⟨_, T + 1, rfl, rfl, rfl, rfl, ?_, ok.pos, ?_, rfl, fun _ => rfl⟩
          · show (s.q.tail + 1) % 2 ^ 32 = _
            rw [inv.tail]; omega
          · show (T + 1) * c.n + 0 = _
            rw [Nat.add_mul]; omega
        · rw [if_neg hl, decide_eq_false hl]
          refine ⟨_, T, rfl, rfl, rfl, rfl, inv.tail, ?_, ?_, rfl, fun e => by cases e⟩
          · show s.q.tailStrides + x.strides c < c.n
            omega
          · show T * c.n + (s.q.tailStrides + x.strides c) = _
            omega
      obtain ⟨Q, T', hQ, q1, q2, q3, q4, q5, q6, q7, q8⟩ := hnew
      rw [hQ]
      generalize decide (s.q.tailStrides + x.strides c = c.n) = full at q7 q8
      have key : ∀ (v : Option (Nat × Nat)) (o : List (List UInt8)), s.accepted = o ++ frames xs →
          (∀ p l, v = some (p, l) → ∃ data, x = .frame data ∧ p = c.at (T * c.n + s.q.tailStrides) ∧ l = data.length ∧
            o.getLast? = some data) →
          Inv c { s with cq := xs.map (Comp.word c), q := Q, polled := s.polled + 1, last := full, view := v, out := o } H T' xs := by
        intro v o ho hv
        have hD : St.due { s with cq := xs.map (Comp.word c), q := Q, polled := s.polled + 1, last := full, view := v, out := o } =
            if full = true then 1 else 0 := rfl
        have hTD : T' - (if full = true then 1 else 0) = T := by omega
        exact { inv with
          head := by rw [q1]; exact inv.head
          tail := q4
          bell := by rw [q2]; exact inv.bell
          ts := q5
          dueT := by rw [hD]; omega
          ts0 := q8
          early := fun h' => by
            rw [hD]
            have := inv.early h'
            rw [hd] at this
            exact ⟨this.1, by omega⟩
          late := fun h' => by
            rw [hD]
            have := inv.late h'
            rw [hd] at this
            omega
          start := by
            rw [hD, hTD]
            have := inv.start
            rwa [hd, Nat.sub_zero] at this
          len := by rw [q3]; exact inv.len
          ring := by rw [q3]; exact inv.ring
          walk := by
            show Walk c s.mem (T' * c.n + Q.tailStrides) xs _
            rw [q6]; exact w4
          cq := rfl
          acc := ho
          view := by
            intro p l hvl
            obtain ⟨data, rfl, hp, hll, hlast⟩ := hv p l hvl
            refine ⟨T * c.n + s.q.tailStrides, data, ?_, ?_, ?_, hp, hll, hlast, ?_⟩
            · rw [hD, hTD]; omega
            · show _ ≤ T' * c.n + Q.tailStrides
              rw [q6]; exact Nat.le_refl _
            · rw [mod_n inv.ts]; exact w1
            · rw [hp, hll]; exact w3.2
          polled := by
            rw [hD, hTD]
            show s.polled + 1 + T * c.n ≤ T' * c.n + Q.tailStrides
            omega }
      cases x with
      | filler k =>
        refine ⟨_, T', xs, rfl, key none s.out inv.acc (fun p l e => by cases e), fun _ => rfl⟩
      | frame data =>
        have hlen' := hlen data rfl
        subst hlen'
        have hb : bytes s.mem (s.start + (s.q.tailStrides * c.stride + c.shift)) data.length = data := by
          rw [← hpos]; exact w3.2
        refine ⟨_, T', xs, rfl, ?_, fun _ => rfl⟩
        refine key _ _ ?_ ?_
        · rw [hb, inv.acc]
          show _ ++ (data :: frames xs) = _
          simp
        · intro p l e
          obtain ⟨rfl, rfl⟩ := Prod.mk.inj (Option.some.inj e)
          exact ⟨data, rfl, hpos.symm, rfl, by rw [hb]; simp⟩

/-- The card uses strides. -/
theorem inv_complete (ok : c.Ok) (inv : Inv c s H T pend) (hlt : s.hw < H) (x : Comp) (mem : Nat → UInt8)
    (acc : List (List UInt8)) (h1 : s.used + x.strides c ≤ c.n) (h2 : 1 ≤ x.strides c)
    (hst : Stored c mem (s.hw * c.n + s.used) x)
    (hwalk : Walk c mem (T * c.n + s.q.tailStrides) pend (s.hw * c.n + s.used))
    (hacc : acc = s.accepted ++ frames [x])
    (hview : ∀ p l, s.view = some (p, l) → bytes mem p l = bytes s.mem p l) :
    ∃ t, s.complete c ⟨s.hw % c.wqe * c.wqeSize, c.wqeSize⟩ (x.strides c) (x.word c) = some t ∧
      Inv c { t with mem := mem, accepted := acc } H T (pend ++ [x]) := by
  have hwin := inv.window
  have hpl := inv.polled
  have hwl := inv.walk.length
  have hTle : T - s.due ≤ T := Nat.sub_le _ _
  have hHn : (s.hw + 1) * c.n ≤ H * c.n := Nat.mul_le_mul_right _ hlt
  have hWn : H * c.n ≤ (T - s.due + c.wqe) * c.n := Nat.mul_le_mul_right _ hwin
  rw [Nat.add_mul, Nat.one_mul] at hHn
  rw [Nat.add_mul] at hWn
  unfold St.complete
  rw [if_neg, if_neg]
  · have hw' := hwalk.append (x := x) (by rw [mod_n inv.used]; exact h1) h2 hst
    have hcq : s.cq ++ [x.word c] = (pend ++ [x]).map (Comp.word c) := by rw [inv.cq]; simp
    have hac : acc = s.out ++ frames (pend ++ [x]) := by rw [hacc, inv.acc, frames_append]; simp
    simp only
    by_cases hf : s.used + x.strides c = c.n
    · rw [if_pos hf]
      refine ⟨_, rfl, ?_⟩
      exact { inv with
        ring := fun k hk1 hk2 => inv.ring k (by change s.hw + 1 ≤ k at hk1; omega) hk2
        used := ok.pos
        room := by show (s.hw + 1) * c.n + 0 ≤ H * c.n; rw [Nat.add_mul]; omega
        walk := by
          show Walk c mem _ _ ((s.hw + 1) * c.n + 0)
          have e : (s.hw + 1) * c.n + 0 = s.hw * c.n + s.used + x.strides c := by rw [Nat.add_mul]; omega
          rw [e]; exact hw'
        cq := hcq
        acc := hac
        view := fun p l hv => by
          obtain ⟨g, data, a1, a2, a3, a4, a5, a6, a7⟩ := inv.view p l hv
          exact ⟨g, data, a1, a2, a3, a4, a5, a6, by rw [← a7]; exact hview p l hv⟩ }
    · rw [if_neg hf]
      refine ⟨_, rfl, ?_⟩
      exact { inv with
        used := by show s.used + x.strides c < c.n; omega
        room := by show s.hw * c.n + (s.used + x.strides c) ≤ H * c.n; omega
        walk := by
          show Walk c mem _ _ (s.hw * c.n + (s.used + x.strides c))
          rw [← Nat.add_assoc]; exact hw'
        cq := hcq
        acc := hac
        view := fun p l hv => by
          obtain ⟨g, data, a1, a2, a3, a4, a5, a6, a7⟩ := inv.view p l hv
          exact ⟨g, data, a1, a2, a3, a4, a5, a6, by rw [← a7]; exact hview p l hv⟩ }
  · rw [inv.cq, List.length_map]
    have := ok.cqe
    have := inv.used
    omega
  · have hs : (s.used + x.strides c) * c.stride ≤ c.wqeSize := Nat.mul_le_mul_right _ h1
    have hb : s.hw % c.wqe * c.wqeSize + c.wqeSize ≤ c.bufSize := by
      rw [← Nat.succ_mul]
      exact Nat.mul_le_mul_right _ (Nat.mod_lt _ ok.wqe)
    show ¬ (c.wqeSize < (s.used + x.strides c) * c.stride ∨ c.bufSize < s.hw % c.wqe * c.wqeSize + c.wqeSize)
    omega

/-- A frame arrives.  It is accepted exactly if there is an entry and it fits. -/
theorem inv_frame (ok : c.Ok) (inv : Inv c s H T pend) (data : List UInt8) : ∃ s' pend', s.step c (.frame data) = some s' ∧
    Inv c s' H T pend' ∧
    (s.hw < H ∧ s.used + c.strides data.length ≤ c.n ∧ data.length + c.shift < 65536 → s'.accepted = s.accepted ++ [data]) := by
  unfold St.step
  simp only
  by_cases hv : s.q.doorbell = s.hw % 65536
  · rw [if_pos hv]
    refine ⟨s, pend, rfl, inv, fun h => ?_⟩
    have := (inv.visible ok).mp hv
    omega
  · rw [if_neg hv]
    have hlt : s.hw < H := by
      have h1 := inv.hw_le ok
      have h2 : s.hw ≠ H := fun e => hv ((inv.visible ok).mpr e)
      omega
    rw [inv.ring s.hw (Nat.le_refl _) hlt]
    simp only
    by_cases hf : c.n < s.used + c.strides data.length ∨ 65536 ≤ data.length + c.shift
    · rw [if_pos hf]
      exact ⟨s, pend, rfl, inv, fun h => by omega⟩
    · rw [if_neg hf]
      have hs := strides_hold ok.stride data.length
      have hwin := inv.window
      have hHn : (s.hw + 1) * c.n ≤ H * c.n := Nat.mul_le_mul_right _ hlt
      have hWn : H * c.n ≤ (T - s.due + c.wqe) * c.n := Nat.mul_le_mul_right _ hwin
      have hTn : (T - s.due) * c.n ≤ T * c.n := Nat.mul_le_mul_right _ (Nat.sub_le _ _)
      rw [Nat.add_mul, Nat.one_mul] at hHn
      rw [Nat.add_mul] at hWn
      have hat : s.hw % c.wqe * c.wqeSize + s.used * c.stride + c.shift = c.at (s.hw * c.n + s.used) := (at_eq ok inv.used).symm
      rw [hat]
      have hbound : s.hw * c.n + s.used + c.strides data.length ≤ (T - s.due) * c.n + c.wqe * c.n := by omega
      obtain ⟨t, ht, hinv⟩ := inv_complete ok inv hlt (.frame data) (write s.mem (c.at (s.hw * c.n + s.used)) data)
        (s.accepted ++ [data]) (by show s.used + c.strides data.length ≤ c.n; omega) hs.2
        ⟨by omega, bytes_write_self _ _ _⟩ (inv.walk.write ok (g0 := (T - s.due) * c.n) (by omega) hbound) rfl (by
          intro p l hpl
          obtain ⟨g, d, a1, a2, a3, rfl, rfl, _, _⟩ := inv.view p l hpl
          have hs' := strides_hold ok.stride d.length
          have hwl := inv.walk.length
          refine bytes_write_other _ ?_
          have := at_apart (c := c) (g := g) (g' := s.hw * c.n + s.used) (k := c.strides d.length) (k' := c.strides data.length)
            (l := d.length) (l' := data.length) (by omega) (by omega) hs.2 hs'.1 hs.1
          omega)
      have ht' : s.complete c ⟨s.hw % c.wqe * c.wqeSize, c.wqeSize⟩ (c.strides data.length)
          (data.length + c.shift + c.strides data.length * 65536) = some t := ht
      rw [ht']
      exact ⟨_, _, rfl, hinv, fun _ => rfl⟩

/-- The card gives up the rest of an entry. -/
theorem inv_filler (ok : c.Ok) (inv : Inv c s H T pend) : ∃ s' pend', s.step c .filler = some s' ∧ Inv c s' H T pend' ∧
    s'.accepted = s.accepted ∧ (s.hw < H → s'.hw = s.hw + 1 ∧ s'.used = 0) := by
  unfold St.step
  simp only
  by_cases hv : s.q.doorbell = s.hw % 65536
  · rw [if_pos hv]
    refine ⟨s, pend, rfl, inv, rfl, fun h => ?_⟩
    have := (inv.visible ok).mp hv
    omega
  · rw [if_neg hv]
    have hlt : s.hw < H := by
      have h1 := inv.hw_le ok
      have h2 : s.hw ≠ H := fun e => hv ((inv.visible ok).mpr e)
      omega
    rw [inv.ring s.hw (Nat.le_refl _) hlt]
    simp only
    have hu := inv.used
    obtain ⟨t, ht, hinv⟩ := inv_complete ok inv hlt (.filler (c.n - s.used)) s.mem s.accepted
      (by show s.used + (c.n - s.used) ≤ c.n; omega) (by show 1 ≤ c.n - s.used; omega) trivial inv.walk (by simp [frames])
      (fun _ _ _ => rfl)
    have ht' : s.complete c ⟨s.hw % c.wqe * c.wqeSize, c.wqeSize⟩ (c.n - s.used) ((c.n - s.used) * 65536 + 0x80000000) = some t := ht
    refine ⟨t, pend ++ [.filler (c.n - s.used)], ht', ?_⟩
    have hte : t = { s with cq := s.cq ++ [(c.n - s.used) * 65536 + 0x80000000], hw := s.hw + 1, used := 0 } := by
      unfold St.complete at ht'
      split at ht'
      · cases ht'
      · split at ht'
        · cases ht'
        · simp only at ht'
          rw [if_pos (show s.used + (c.n - s.used) = c.n by omega)] at ht'
          exact (Option.some.inj ht').symm
    subst hte
    exact ⟨hinv, rfl, fun _ => ⟨rfl, rfl⟩⟩

end

/-- Every step, if the handler waits for `start`. -/
theorem inv_step {c : Shape} (ok : c.Ok) {s : St} {H T : Nat} {pend : List Comp} (inv : Inv c s H T pend) (op : Op)
    (hp : op = .repost → s.last = true → s.posted = c.wqe) :
    ∃ s' H' T' pend', s.step c op = some s' ∧ Inv c s' H' T' pend' := by
  cases op with
  | start => obtain ⟨s', H', h1, h2⟩ := inv_start ok inv; exact ⟨s', H', T, pend, h1, h2⟩
  | frame data => obtain ⟨s', p', h1, h2, _⟩ := inv_frame ok inv data; exact ⟨s', H, T, p', h1, h2⟩
  | filler => obtain ⟨s', p', h1, h2, _⟩ := inv_filler ok inv; exact ⟨s', H, T, p', h1, h2⟩
  | poll => obtain ⟨s', T', p', h1, h2, _⟩ := inv_poll ok inv; exact ⟨s', H, T', p', h1, h2⟩
  | repost => obtain ⟨s', H', h1, h2⟩ := inv_repost ok inv (hp rfl); exact ⟨s', H', T, pend, h1, h2⟩
  | release => obtain ⟨s', h1, h2⟩ := inv_release inv; exact ⟨s', H, T, pend, h1, h2⟩

theorem inv_run {c : Shape} (ok : c.Ok) : ∀ (ops : List Op) {s : St} {H T : Nat} {pend : List Comp}, Inv c s H T pend →
    Calm c s ops → ∃ s' H' T' pend', s.run c ops = some s' ∧ Inv c s' H' T' pend'
  | [], s, H, T, pend, inv, _ => ⟨s, H, T, pend, rfl, inv⟩
  | op :: ops, s, H, T, pend, inv, hc => by
    obtain ⟨hc1, hc2⟩ := hc
    obtain ⟨s', H', T', pend', h1, h2⟩ := inv_step ok inv op hc1
    rw [h1] at hc2
    obtain ⟨t, H2, T2, p2, h3, h4⟩ := inv_run ok ops h2 hc2
    exact ⟨t, H2, T2, p2, by unfold St.run; rw [h1]; exact h3, h4⟩

end Spead2.Mprq
