import Verif.Lemmas.SendIbv
import Verif.Spec.SendIbvRing
import Mathlib.Data.List.Forall2

/-! # Lemmas about the ring of slots -/

namespace Spead2

open Spec

/-- A packet that has been put in a slot: its entries and its frame. -/
structure IRec where
  p : IPkt
  sges : List Sge
  frame : Bytes

/-- `k` requests have been sent since the last completion; each signaled request completes all since the last one, and itself. -/
def Batches : Nat → List Wqe → Prop
  | k, [] => k = 0
  | k, q :: wq => if q.signaled then q.wrId = k + 1 ∧ Batches 0 wq else Batches (k + 1) wq

theorem Batches.append : ∀ {k : Nat} {a b : List Wqe}, Batches k a → Batches 0 b → Batches k (a ++ b)
  | k, [], b, h, hb => by cases h; exact hb
  | k, q :: a, b, h, hb => by
    simp only [List.cons_append, Batches] at h ⊢
    split
    · rename_i hs
      rw [if_pos hs] at h
      exact ⟨h.1, h.2.append hb⟩
    · rename_i hs
      rw [if_neg hs] at h
      exact h.append hb

/-- The ring: `a` packets are reported, `b` are completed, `s` are sent, `q` are posted. -/
structure IbvRing (c : IbvCfg) (um : Nat → UInt8) (w : IbvW) (G : List IRec) (a b s q : Nat) : Prop where
  sb : b ≤ s
  sq : s ≤ q
  qG : q ≤ G.length
  len : w.slots.length = c.nSlots
  payload : ∀ (i : Nat) (sl : ISlot), w.slots[i]? = some sl → sl.payload = i * c.maxRaw + 42
  buf : BufInv c w.buf
  avail : w.avail + G.length = c.nSlots + a
  head : w.head = a % c.nSlots
  tail : w.tail = G.length % c.nSlots
  fly : ∀ (k : Nat) (r : IRec), a ≤ k → G[k]? = some r → ∃ sl, w.slots[k % c.nSlots]? = some sl ∧ sl.sges = r.sges ∧ sl.item = some r.p.item ∧ sl.last = r.p.last
  mem : ∀ (k : Nat) (r : IRec), a ≤ k → G[k]? = some r →
    ∀ d : Bytes, d.length = w.buf.length → slotBytes c d (k % c.nSlots) = slotBytes c w.buf (k % c.nSlots) → c.gather um d r.sges = some r.frame
  frames : ∀ r ∈ G, IsFrameOf c um r.p r.frame ∧ (r.sges.map (·.len)).sum = 42 + r.p.size
  ok : ∀ x ∈ w.cq, x.2 = true ∧ 0 < x.1
  cq : a + (w.cq.map (·.1)).sum = b
  wqs : w.wq.map (·.sges) = ((G.drop s).take (q - s)).map (·.sges)
  wqb : Batches (s - b) w.wq
  chain : w.chain = (List.range (G.length - q)).map (fun j => (q + j) % c.nSlots)

theorem nSlots_pos (c : IbvCfg) : 0 < c.nSlots := by unfold IbvCfg.nSlots; omega

theorem next_mod (c : IbvCfg) (a : Nat) : c.next (a % c.nSlots) = (a + 1) % c.nSlots := by
  have hn := nSlots_pos c
  have hlt := Nat.mod_lt a hn
  unfold IbvCfg.next
  rw [Nat.add_mod a 1]
  split
  · rename_i h
    by_cases h1 : c.nSlots = 1
    · rw [h1]; exact (Nat.mod_one _).symm
    · rw [Nat.mod_eq_of_lt (a := 1) (by omega), h, Nat.mod_self]
  · rename_i h
    rw [Nat.mod_eq_of_lt (a := 1) (by omega), Nat.mod_eq_of_lt (a := a % c.nSlots + 1) (by omega)]

theorem mod_ne {n k m : Nat} (h1 : k < m) (h2 : m < k + n) : k % n ≠ m % n := by
  intro h
  have h3 : n ∣ m - k := Nat.dvd_of_mod_eq_zero (Nat.sub_mod_eq_zero_of_mod_eq h.symm)
  have := Nat.le_of_dvd (by omega) h3
  omega

theorem targetBatch_pos {c : IbvCfg} (hv : IbvValid c) : 0 < c.targetBatch := by
  have := hv.fits
  have h1 : 0 < 262144 / c.maxRaw := Nat.div_pos (by unfold IbvCfg.maxRaw ibvHeader; omega) (by unfold IbvCfg.maxRaw ibvHeader; omega)
  unfold IbvCfg.targetBatch
  omega

theorem targetBatch_le (c : IbvCfg) : c.targetBatch ≤ c.nSlots := by
  have := nSlots_pos c
  unfold IbvCfg.targetBatch
  omega

/-- The events of `reap` for these packets. -/
def sentEvs (l : List IRec) : List IEv := l.map (fun r => .sent r.p.item r.p.size)

def ibvLastCount (l : List IRec) : Nat := l.countP (fun r => r.p.last)

theorem reapSlots_eq {c : IbvCfg} {um : Nat → UInt8} {G : List IRec}
    (hf : ∀ r ∈ G, IsFrameOf c um r.p r.frame ∧ (r.sges.map (·.len)).sum = 42 + r.p.size) : ∀ (m : Nat) {w : IbvW} {a : Nat}, w.head = a % c.nSlots →
    a + m ≤ G.length →
    (∀ (k : Nat) (r : IRec), a ≤ k → G[k]? = some r → ∃ sl, w.slots[k % c.nSlots]? = some sl ∧ sl.sges = r.sges ∧ sl.item = some r.p.item ∧ sl.last = r.p.last) →
    IbvW.reapSlots c true m w = some ({ w with head := (a + m) % c.nSlots }, sentEvs ((G.drop a).take m), ibvLastCount ((G.drop a).take m))
  | 0, w, a, h1, _, _ => by
    cases w
    simp only [IbvW.reapSlots, sentEvs, ibvLastCount, List.take_zero, List.map_nil, List.countP_nil, Nat.add_zero]
    rw [← h1]
  | m + 1, w, a, h1, h2, h3 => by
    obtain ⟨r, hr⟩ : ∃ r, G[a]? = some r := ⟨_, List.getElem?_eq_getElem (by omega)⟩
    obtain ⟨sl, e1, e2, e3, e4⟩ := h3 a r (Nat.le_refl _) hr
    have ih := reapSlots_eq hf m (w := { w with head := c.next w.head }) (a := a + 1) (by show c.next w.head = _; rw [h1, next_mod])
      (by omega) (fun k r hk => h3 k r (by omega))
    have hd : G.drop a = r :: G.drop (a + 1) := by
      obtain ⟨hlt, hx⟩ := List.getElem?_eq_some_iff.mp hr
      rw [List.drop_eq_getElem_cons hlt, hx]
    have hsz := (hf r (List.mem_of_getElem? hr)).2
    rw [IbvW.reapSlots, h1, e1]
    simp only [e3]
    rw [← h1, ih, hd]
    simp only [sentEvs, ibvLastCount, List.take_succ_cons, List.map_cons, List.countP_cons, e2, hsz, e4, ibvHeader, if_true, Nat.add_sub_cancel_left]
    rw [Nat.add_comm (List.countP _ _), show a + 1 + m = a + (m + 1) by omega]

/-- One completion. -/
theorem IbvRing.reapOne {c : IbvCfg} {um : Nat → UInt8} {w : IbvW} {G : List IRec} {a b s q n : Nat} {cq : List (Nat × Bool)} {ok : Bool}
    (h : IbvRing c um w G a b s q) (hc : w.cq = (n, ok) :: cq) : ok = true ∧ a + n ≤ b ∧
    IbvW.reapSlots c ok n { w with cq := cq } =
      some ({ { w with cq := cq } with head := (a + n) % c.nSlots }, sentEvs ((G.drop a).take n), ibvLastCount ((G.drop a).take n)) ∧
    IbvRing c um { w with cq := cq, head := (a + n) % c.nSlots, avail := w.avail + n } G (a + n) b s q := by
  have hok : ok = true := (h.ok (n, ok) (by rw [hc]; simp)).1
  have hcq := h.cq
  rw [hc, List.map_cons, List.sum_cons] at hcq
  dsimp only at hcq
  have h1 := h.sb; have h2 := h.sq; have h3 := h.qG
  refine ⟨hok, by omega, ?_, ?_⟩
  · rw [hok]
    exact reapSlots_eq h.frames n (w := { w with cq := cq }) h.head (by omega) h.fly
  · have hav := h.avail
    exact { h with
      avail := by show w.avail + n + G.length = _; omega
      head := rfl
      fly := fun k r hk => h.fly k r (by omega)
      mem := fun k r hk => h.mem k r (by omega)
      ok := fun x hx => h.ok x (by rw [hc]; exact List.mem_cons_of_mem _ hx)
      cq := by show a + n + (cq.map (·.1)).sum = b; omega }

theorem drop_take_add {α : Type} (G : List α) (a m k : Nat) : (G.drop a).take (m + k) = (G.drop a).take m ++ (G.drop (a + m)).take k := by
  rw [List.take_add, List.drop_drop]

/-- The loop of `reap` takes some completions. -/
theorem IbvRing.reapLoop {c : IbvCfg} {um : Nat → UInt8} {G : List IRec} {b s q lim : Nat} : ∀ (polls : List Bool) (ret : Nat) {w : IbvW} {a : Nat},
    IbvRing c um w G a b s q → ∃ m av cq r, IbvW.reapLoop c lim polls ret w =
      some ({ w with head := (a + m) % c.nSlots, avail := av, cq := cq }, sentEvs ((G.drop a).take m), ibvLastCount ((G.drop a).take m), r) ∧
      IbvRing c um { w with head := (a + m) % c.nSlots, avail := av, cq := cq } G (a + m) b s q := by
  intro polls
  have stop : ∀ {w : IbvW} {a r : Nat}, IbvRing c um w G a b s q → ∃ m av cq r', some (w, ([] : List IEv), 0, r) =
      some ({ w with head := (a + m) % c.nSlots, avail := av, cq := cq }, sentEvs ((G.drop a).take m), ibvLastCount ((G.drop a).take m), r') ∧
      IbvRing c um { w with head := (a + m) % c.nSlots, avail := av, cq := cq } G (a + m) b s q := by
    intro w a r h
    have e : ({ w with head := (a + 0) % c.nSlots, avail := w.avail, cq := w.cq } : IbvW) = w := by
      cases w; simp only [Nat.add_zero]; rw [← h.head]
    exact ⟨0, w.avail, w.cq, r, by rw [e]; simp [sentEvs, ibvLastCount], by rw [e]; exact h⟩
  induction polls with
  | nil =>
    intro ret w a h
    rw [IbvW.reapLoop]
    split
    · exact stop h
    · exact stop h
  | cons x polls ih =>
    intro ret w a h
    rw [IbvW.reapLoop]
    split
    · exact stop h
    · cases hc : w.cq with
      | nil =>
        dsimp only
        split
        · exact stop h
        · exact ih _ h
      | cons y cq =>
        obtain ⟨n, ok⟩ := y
        dsimp only
        split
        · obtain ⟨_, _, h3, h4⟩ := h.reapOne hc
          rw [h3]
          dsimp only
          obtain ⟨m, av, cq', r, i1, i2⟩ := ih ret h4
          rw [i1]
          refine ⟨n + m, av, cq', r, ?_, ?_⟩
          · dsimp only
            rw [drop_take_add, ← Nat.add_assoc]
            simp only [sentEvs, ibvLastCount, List.map_append, List.countP_append]
          · rw [← Nat.add_assoc]
            exact i2
        · split
          · exact stop h
          · exact ih _ h

theorem takenPkts_append (x y : List IEv) : takenPkts (x ++ y) = takenPkts x ++ takenPkts y := List.filterMap_append

theorem wireFrames_append (x y : List IEv) : wireFrames (x ++ y) = wireFrames x ++ wireFrames y := List.filterMap_append

theorem reports_append (x y : List IEv) : reports (x ++ y) = reports x ++ reports y := List.filterMap_append

theorem groupCount_append (x y : List IEv) : groupCount (x ++ y) = groupCount x + groupCount y := by simp [groupCount]

/-- What has been observed. -/
structure Seen (evs : List IEv) (G : List IRec) (a s : Nat) : Prop where
  got : takenPkts evs = G.map (·.p)
  wire : wireFrames evs = (G.take s).map (·.frame)
  rep : reports evs = (G.take a).map (fun r => (r.p.item, some r.p.size))
  groups : groupCount evs = ibvLastCount (G.take a)

theorem sentEvs_seen (l : List IRec) : takenPkts (sentEvs l) = [] ∧ wireFrames (sentEvs l) = [] ∧
    reports (sentEvs l) = l.map (fun r => (r.p.item, some r.p.size)) ∧ groupCount (sentEvs l) = 0 := by
  induction l with
  | nil => exact ⟨rfl, rfl, rfl, rfl⟩
  | cons r l ih =>
    obtain ⟨h1, h2, h3, h4⟩ := ih
    refine ⟨?_, ?_, ?_, ?_⟩
    · simpa [sentEvs, takenPkts] using h1
    · simpa [sentEvs, wireFrames] using h2
    · simpa [sentEvs, reports] using h3
    · simpa [sentEvs, groupCount] using h4

theorem Seen.reap {evs : List IEv} {G : List IRec} {a s : Nat} (h : Seen evs G a s) (m : Nat) :
    Seen (evs ++ (sentEvs ((G.drop a).take m) ++ (if 0 < ibvLastCount ((G.drop a).take m) then [.groups (ibvLastCount ((G.drop a).take m))] else []))) G (a + m) s := by
  obtain ⟨h1, h2, h3, h4⟩ := sentEvs_seen ((G.drop a).take m)
  have hg : ∀ n : Nat, takenPkts (if 0 < n then [IEv.groups n] else []) = [] ∧ wireFrames (if 0 < n then [IEv.groups n] else []) = [] ∧
      reports (if 0 < n then [IEv.groups n] else []) = [] ∧ groupCount (if 0 < n then [IEv.groups n] else []) = n := by
    intro n
    split
    · exact ⟨rfl, rfl, rfl, by simp [groupCount]⟩
    · exact ⟨rfl, rfl, rfl, by simp [groupCount]; omega⟩
  obtain ⟨g1, g2, g3, g4⟩ := hg (ibvLastCount ((G.drop a).take m))
  refine ⟨?_, ?_, ?_, ?_⟩
  · rw [takenPkts_append, takenPkts_append, h1, g1, h.got]; simp
  · rw [wireFrames_append, wireFrames_append, h2, g2, h.wire]; simp
  · rw [reports_append, reports_append, h3, g3, h.rep, List.take_add]; simp
  · rw [groupCount_append, groupCount_append, h4, g4, h.groups, List.take_add]; simp [ibvLastCount]

/-- Where the thread is, and what will wake it up. -/
structure Ctl (c : IbvCfg) (w : IbvW) (L a q : Nat) : Prop where
  build : ∀ i more, w.pc = .building i more → q + i = L ∧ i ≤ c.targetBatch ∧ c.targetBatch ≤ w.avail + i
  other : (∀ i more, w.pc ≠ .building i more) → q = L
  idle : w.pc = .idle ↔ w.sched ≠ .running
  req : w.sched = .requested → a = L
  wait : w.sched = .waiting ∨ w.pc = .toArm → a < L ∧ c.channel = true
  pend : c.pending = true → w.sched = .waiting → w.event = true ∨ w.armed = true ∧ w.cq = []
  dead : w.dead = false

/-- The state and what has been observed belong together. -/
def IbvInv (c : IbvCfg) (um : Nat → UInt8) (w : IbvW) (evs : List IEv) : Prop :=
  ∃ G a b s q, IbvRing c um w G a b s q ∧ Ctl c w G.length a q ∧ Seen evs G a s

theorem IbvRing.cong {c : IbvCfg} {um : Nat → UInt8} {w : IbvW} {G : List IRec} {a b s q : Nat} (h : IbvRing c um w G a b s q) {w' : IbvW}
    (h1 : w'.buf = w.buf) (h2 : w'.slots = w.slots) (h3 : w'.head = w.head) (h4 : w'.tail = w.tail) (h5 : w'.avail = w.avail) (h6 : w'.chain = w.chain)
    (h7 : w'.wq = w.wq) (h8 : w'.cq = w.cq) : IbvRing c um w' G a b s q := by
  obtain ⟨a1, a2, a3, a4, a5, a6, a7, a8, a9, a10, a11, a12, a13, a14, a15, a16, a17⟩ := h
  rw [← h1] at a6 a11
  rw [← h2] at a4 a5 a10
  rw [← h3] at a8
  rw [← h4] at a9
  rw [← h5] at a7
  rw [← h6] at a17
  rw [← h7] at a15 a16
  rw [← h8] at a13 a14
  exact ⟨a1, a2, a3, a4, a5, a6, a7, a8, a9, a10, a11, a12, a13, a14, a15, a16, a17⟩

theorem IbvInv.start {c : IbvCfg} (hv : IbvValid c) (um : Nat → UInt8) : ∃ w, c.start = some w ∧ IbvInv c um w [] := by
  obtain ⟨d, h1, h2⟩ := BufInv.init hv
  have hd : ¬ 262144 / c.maxRaw < 1 := by
    have := hv.fits
    have h1 : 0 < 262144 / c.maxRaw := Nat.div_pos (by unfold IbvCfg.maxRaw ibvHeader; omega) (by unfold IbvCfg.maxRaw ibvHeader; omega)
    omega
  refine ⟨_, by rw [IbvCfg.start, if_neg hd, h1]; rfl, [], 0, 0, 0, 0, ?_, ?_, ⟨rfl, rfl, rfl, rfl⟩⟩
  · refine ⟨Nat.le_refl _, Nat.le_refl _, Nat.le_refl _, by simp, ?_, h2, rfl, (Nat.zero_mod _).symm, (Nat.zero_mod _).symm, by simp, by simp, by simp, by simp, rfl, rfl, rfl, rfl⟩
    intro i sl hi
    simp only [List.map_map, List.getElem?_map, Option.map_eq_some_iff] at hi
    obtain ⟨x, hx, rfl⟩ := hi
    obtain ⟨hl, hx⟩ := List.getElem?_eq_some_iff.mp hx
    rw [List.getElem_range] at hx
    subst hx
    rfl
  · exact ⟨(fun i more h => by cases h), fun _ => rfl, ⟨(fun _ h => by cases h), fun _ => rfl⟩, fun _ => rfl, (by rintro (h | h) <;> cases h), (fun _ h => by cases h), rfl⟩

/-- After `wait_for_space`. -/
theorem Ctl.waitForSpace {c : IbvCfg} {w : IbvW} {L a q : Nat} (hq : q = L) (ha : a < L) (hr : w.sched = .running) (hd : w.dead = false) :
    Ctl c (w.waitForSpace c) L a q := by
  unfold IbvW.waitForSpace
  split
  · rename_i hch
    refine ⟨(fun i more h => by cases h), fun _ => hq, ?_, ?_, fun _ => ⟨ha, hch⟩, ?_, hd⟩
    · simp [hr]
    · intro h; rw [show _ = w.sched from rfl, hr] at h; cases h
    · intro _ h; rw [show _ = w.sched from rfl, hr] at h; cases h
  · exact ⟨(fun i more h => by cases h), fun _ => hq, (by simp), (fun h => by cases h), (by rintro (h | h) <;> cases h), (fun _ h => by cases h), hd⟩

theorem IbvRing.waitForSpace {c : IbvCfg} {um : Nat → UInt8} {w : IbvW} {G : List IRec} {a b s q : Nat} (h : IbvRing c um w G a b s q) :
    IbvRing c um (w.waitForSpace c) G a b s q := by
  unfold IbvW.waitForSpace
  split
  · exact h.cong rfl rfl rfl rfl rfl rfl rfl rfl
  · exact h.cong rfl rfl rfl rfl rfl rfl rfl rfl

theorem IbvInv.wake {c : IbvCfg} {um : Nat → UInt8} {w : IbvW} {evs : List IEv} (h : IbvInv c um w evs) (polls : List Bool)
    (hs : w.sched ≠ .running) : ∃ w' evs', w.wake c polls = some (w', evs') ∧ IbvInv c um w' (evs ++ evs') := by
  obtain ⟨G, a, b, s, q, hr, hc, hseen⟩ := h
  have hq : q = G.length := hc.other (fun i more e => by rw [hc.idle.mpr hs] at e; cases e)
  have hr0 : IbvRing c um { w with sched := .running, event := false } G a b s q := hr.cong rfl rfl rfl rfl rfl rfl rfl rfl
  obtain ⟨m, av, cq, r, h1, h2⟩ := hr0.reapLoop (lim := min c.nSlots (w.avail + c.targetBatch)) polls c.maxPoll
  have hav := h2.avail
  have hle := targetBatch_le c
  refine ⟨_, _, by rw [IbvW.wake, IbvW.reap]; dsimp only; rw [h1]; rfl, G, a + m, b, s, q, ?_, ?_, hseen.reap m⟩
  · dsimp only
    split
    · exact h2.waitForSpace
    · have hch := h2.chain
      rw [hq, Nat.sub_self] at hch
      exact h2.cong rfl rfl rfl rfl rfl hch.symm rfl rfl
  · dsimp only at hav ⊢
    split
    · exact Ctl.waitForSpace hq (by omega) rfl hc.dead
    · rename_i hn
      refine ⟨?_, ?_, (by simp), (fun h => by cases h), (by rintro (h | h) <;> cases h), (fun _ h => by cases h), hc.dead⟩
      · intro i more e
        cases e
        exact ⟨hq, Nat.zero_le _, by dsimp only; omega⟩
      · intro h
        exact absurd rfl (h 0 _)

theorem gather_length {c : IbvCfg} {um : Nat → UInt8} {d : Bytes} : ∀ {ss : List Sge} {x : Bytes}, c.gather um d ss = some x → x.length = (ss.map (·.len)).sum
  | [], x, h => by cases h; rfl
  | s :: ss, x, h => by
    obtain ⟨y, z, h1, h2, rfl⟩ := gather_cons.mp h
    have := gather_length h2
    have hy : y.length = s.len := by
      unfold IbvCfg.gatherOne at h1
      split at h1
      · split at h1
        · unfold slice? at h1
          split at h1
          · cases Option.some.inj h1
            simp only [List.length_take, List.length_drop]
            omega
          · cases h1
        · cases h1
      · split at h1
        · cases Option.some.inj h1
          simp [memBytes]
        · cases h1
    simp only [List.length_append, List.map_cons, List.sum_cons]
    omega

theorem frameTo_length {c : IbvCfg} (hv : IbvValid c) {e : IEndpoint} (he : e ∈ c.endpoints) {pl f : Bytes} (h : IsFrameTo c e pl f) :
    f.length = 42 + pl.length := by
  obtain ⟨sum, h1, h2, _⟩ := h
  rw [h2]
  simp only [List.length_append, groupMac, ipHeader, udpHeader, beBytes_length, hv.mac, hv.src, hv.dst e he, h1, List.length_cons, List.length_nil]

theorem IbvInv.packet {c : IbvCfg} (hv : IbvValid c) {um : Nat → UInt8} {w : IbvW} {evs : List IEv} (h : IbvInv c um w evs) {i : Nat} {more : Bool}
    (hpc : w.pc = .building i more) (hi : i < c.targetBatch) {p : IPkt} (hp : IPktOk c p) :
    ∃ w' evs', w.packet c um i more p = some (w', evs') ∧ IbvInv c um w' (evs ++ evs') := by
  obtain ⟨G, a, b, s, q, hr, hc, hseen⟩ := h
  obtain ⟨hb1, hb2, hb3⟩ := hc.build i more hpc
  have hav := hr.avail
  have hn := nSlots_pos c
  have hpos : w.avail ≠ 0 := by omega
  have htl : w.tail < c.nSlots := by rw [hr.tail]; exact Nat.mod_lt _ hn
  obtain ⟨sl, hsl⟩ : ∃ sl, w.slots[w.tail]? = some sl := ⟨_, List.getElem?_eq_getElem (by rw [hr.len]; exact htl)⟩
  have hpl := hr.payload _ _ hsl
  obtain ⟨e, he⟩ : ∃ e, c.endpoints[p.sub]? = some e := ⟨_, List.getElem?_eq_getElem hp.2⟩
  obtain ⟨d', sges, frame, f1, f2, _, f4, f5, f6⟩ := hr.buf.fill hv (um := um) htl hp he
  have hd' : d'.length = w.buf.length := by rw [f2.len, hr.buf.len]
  have hlen : (sges.map (·.len)).sum = 42 + p.size := by
    rw [← gather_length (f6 d' hd' rfl), frameTo_length hv (List.mem_of_getElem? he) f4, ipktBytes_length]
  have h1 := hr.sb; have h2 := hr.sq; have h3 := hr.qG
  have hcq := hr.cq
  have hab : a ≤ G.length := by omega
  have hne : ∀ k, a ≤ k → k < G.length → k % c.nSlots ≠ w.tail := by
    intro k k1 k2
    rw [hr.tail]
    exact mod_ne k2 (by omega)
  have hG : ∀ (k : Nat) (r : IRec), (G ++ [⟨p, sges, frame⟩])[k]? = some r → (k < G.length ∧ G[k]? = some r) ∨ (k = G.length ∧ r = ⟨p, sges, frame⟩) := by
    intro k r hk
    rcases Nat.lt_trichotomy k G.length with hlt | heq | hgt
    · rw [List.getElem?_append_left hlt] at hk
      exact Or.inl ⟨hlt, hk⟩
    · subst heq
      rw [List.getElem?_append_right (Nat.le_refl _), Nat.sub_self] at hk
      exact Or.inr ⟨rfl, (Option.some.inj hk).symm⟩
    · rw [List.getElem?_eq_none (by simp; omega)] at hk
      cases hk
  refine ⟨_, _, by rw [IbvW.packet, hsl]; dsimp only; rw [hpl, f1]; dsimp only; rw [if_neg hpos], G ++ [⟨p, sges, frame⟩], a, b, s, q, ?_, ?_, ?_⟩
  · refine ⟨h1, h2, by rw [List.length_append]; omega, by simp [hr.len], ?_, f2, ?_, hr.head, ?_, ?_, ?_, ?_, hr.ok, hcq, ?_, hr.wqb, ?_⟩
    · intro j sl' hj
      by_cases hjt : j = w.tail
      · subst hjt
        rw [List.getElem?_set_self (by rw [hr.len]; exact htl)] at hj
        cases Option.some.inj hj
        rfl
      · rw [List.getElem?_set_ne (Ne.symm hjt)] at hj
        exact hr.payload j sl' hj
    · rw [List.length_append, List.length_singleton]
      show w.avail - 1 + (G.length + 1) = _
      omega
    · rw [List.length_append, List.length_singleton]
      show c.next w.tail = _
      rw [hr.tail, next_mod]
    · intro k r hk hkr
      rcases hG k r hkr with ⟨k1, k2⟩ | ⟨rfl, rfl⟩
      · obtain ⟨sl', e1, e2⟩ := hr.fly k r hk k2
        exact ⟨sl', by rw [List.getElem?_set_ne (Ne.symm (hne k hk k1))]; exact e1, e2⟩
      · refine ⟨_, by rw [← hr.tail]; exact List.getElem?_set_self (by rw [hr.len]; exact htl), rfl, rfl, rfl⟩
    · intro k r hk hkr d hd hds
      rcases hG k r hkr with ⟨k1, k2⟩ | ⟨rfl, rfl⟩
      · refine hr.mem k r hk k2 d (by rw [hd]; exact hd') ?_
        rw [hds]
        exact f5 _ (hne k hk k1)
      · refine f6 d (by rw [hd]; exact hd') ?_
        rw [← hr.tail] at hds
        exact hds
    · intro r hr'
      rcases List.mem_append.mp hr' with hm | hm
      · exact hr.frames r hm
      · rw [List.mem_singleton] at hm
        subst hm
        exact ⟨⟨e, he, f4⟩, hlen⟩
    · rw [List.drop_append_of_le_length (by omega), List.take_append_of_le_length (by rw [List.length_drop]; omega)]
      exact hr.wqs
    · show w.chain ++ [w.tail] = _
      rw [List.length_append, List.length_singleton, show G.length + 1 - q = (G.length - q) + 1 by omega, List.range_succ, List.map_append, ← hr.chain,
        hr.tail, List.map_singleton, show q + (G.length - q) = G.length by omega]
  · rw [List.length_append, List.length_singleton]
    refine ⟨?_, fun h => absurd rfl (h (i + 1) more), ?_, ?_, ?_, ?_, hc.dead⟩
    · intro j m e
      cases e
      refine ⟨by omega, by omega, ?_⟩
      show _ ≤ w.avail - 1 + (i + 1)
      omega
    · have := hc.idle
      rw [hpc] at this
      simpa using this
    · intro hq
      have hq : w.sched = .requested := hq
      have := hc.idle.mpr (by rw [hq]; decide)
      rw [hpc] at this
      cases this
    · rintro (hq | hq)
      · have hq : w.sched = .waiting := hq
        have := hc.idle.mpr (by rw [hq]; decide)
        rw [hpc] at this
        cases this
      · cases hq
    · intro _ hq
      have hq : w.sched = .waiting := hq
      have := hc.idle.mpr (by rw [hq]; decide)
      rw [hpc] at this
      cases this
  · have e1 : (G ++ [(⟨p, sges, frame⟩ : IRec)]).take a = G.take a := List.take_append_of_le_length hab
    have e2 : (G ++ [(⟨p, sges, frame⟩ : IRec)]).take s = G.take s := List.take_append_of_le_length (by omega)
    refine ⟨?_, ?_, ?_, ?_⟩
    · rw [takenPkts_append, hseen.got]; simp [takenPkts]
    · rw [wireFrames_append, hseen.wire, e2]; simp [wireFrames]
    · rw [reports_append, hseen.rep, e1]; simp [reports]
    · rw [groupCount_append, hseen.groups, e1]; simp [groupCount]

theorem Ctl.complete {c : IbvCfg} {w : IbvW} {L a q : Nat} (h : Ctl c w L a q) (x : Nat × Bool) (wq : List Wqe) :
    Ctl c (({ w with wq := wq } : IbvW).complete x) L a q := by
  refine ⟨h.build, h.other, h.idle, h.req, h.wait, ?_, h.dead⟩
  intro h1 h2
  rcases h.pend h1 h2 with h3 | ⟨h3, _⟩
  · exact Or.inl (by show (w.event || w.armed) = true; rw [h3]; rfl)
  · exact Or.inl (by show (w.event || w.armed) = true; rw [h3]; exact Bool.or_true _)

theorem IbvInv.send {c : IbvCfg} {um : Nat → UInt8} {w : IbvW} {evs : List IEv} (h : IbvInv c um w evs) (hw : w.wq ≠ []) :
    ∃ w' evs', w.exec c um .send = some (w', evs') ∧ IbvInv c um w' (evs ++ evs') := by
  obtain ⟨G, a, b, s, q, hr, hc, hseen⟩ := h
  cases hwq : w.wq with
  | nil => exact absurd hwq hw
  | cons x wq =>
    have hwqs := hr.wqs
    rw [hwq, List.map_cons] at hwqs
    have h1 := hr.sb; have h2 := hr.sq; have h3 := hr.qG; have hcq := hr.cq
    have hsq : s < q := by
      rcases Nat.lt_or_ge s q with h | h
      · exact h
      · rw [show q - s = 0 by omega] at hwqs
        cases hwqs
    have hsG : s < G.length := by omega
    rw [List.drop_eq_getElem_cons hsG, show q - s = (q - (s + 1)) + 1 by omega, List.take_succ_cons, List.map_cons] at hwqs
    injection hwqs with hx hrest
    have hgs : G[s]? = some G[s] := List.getElem?_eq_getElem hsG
    have hg := hr.mem s G[s] (by omega) hgs w.buf rfl rfl
    rw [← hx] at hg
    have hbt := hr.wqb
    rw [hwq, Batches] at hbt
    have hseen' : Seen (evs ++ [.wire G[s].frame]) G a (s + 1) := by
      refine ⟨?_, ?_, ?_, ?_⟩
      · rw [takenPkts_append, hseen.got]; simp [takenPkts]
      · rw [wireFrames_append, hseen.wire, List.take_succ, hgs, List.map_append]; rfl
      · rw [reports_append, hseen.rep]; simp [reports]
      · rw [groupCount_append, hseen.groups]; simp [groupCount]
    refine ⟨_, _, by rw [IbvW.exec, hwq]; dsimp only; rw [hg]; rfl, G, a, if x.signaled then s + 1 else b, s + 1, q, ?_, ?_, hseen'⟩
    · cases hsig : x.signaled with
      | true =>
        rw [if_pos hsig] at hbt
        refine { hr with sb := Nat.le_refl _, sq := hsq, ok := ?_, cq := ?_, wqs := hrest, wqb := ?_ }
        · intro y hy
          rcases List.mem_append.mp hy with hy | hy
          · exact hr.ok y hy
          · rw [List.mem_singleton] at hy
            rw [hy]
            exact ⟨rfl, by rw [hbt.1]; exact Nat.succ_pos _⟩
        · show a + ((w.cq ++ [(x.wrId, true)]).map (·.1)).sum = s + 1
          rw [List.map_append, List.sum_append, hbt.1]
          simp only [List.map_cons, List.map_nil, List.sum_cons, List.sum_nil]
          omega
        · show Batches (s + 1 - (s + 1)) wq
          rw [Nat.sub_self]
          exact hbt.2
      | false =>
        rw [if_neg (by rw [hsig]; decide)] at hbt
        refine { hr with sb := ?_, sq := hsq, wqs := hrest, wqb := ?_ }
        · show b ≤ s + 1
          omega
        · show Batches (s + 1 - b) wq
          rw [show s + 1 - b = s - b + 1 by omega]
          exact hbt
    · split
      · exact hc.complete _ _
      · exact ⟨hc.build, hc.other, hc.idle, hc.req, hc.wait, hc.pend, hc.dead⟩

theorem wqes_eq {slots : List ISlot} {K : Nat} : ∀ {chain : List Nat} {ss : List (List Sge)}, chain ≠ [] →
    List.Forall₂ (fun (j : Nat) (x : List Sge) => ∃ sl, slots[j]? = some sl ∧ sl.sges = x) chain ss →
    (∀ j, chain.getLast? = some j → ∃ sl, slots[j]? = some sl ∧ sl.wrId = K) → chain.length ≤ K →
    ∃ l, wqes slots chain = some l ∧ l.map (·.sges) = ss ∧ Batches (K - chain.length) l
  | [], _, h, _, _, _ => absurd rfl h
  | [j], ss, _, hf, hl, hK => by
    cases hf with
    | cons h1 h2 =>
      cases h2
      obtain ⟨sl, e1, e2⟩ := h1
      obtain ⟨sl', e3, e4⟩ := hl j rfl
      rw [e1] at e3
      cases Option.some.inj e3
      refine ⟨[⟨sl.sges, sl.wrId, true⟩], by simp [wqes, e1], by simp [e2], ?_⟩
      simp only [List.length_singleton] at hK
      simp only [Batches, e4, List.length_singleton, if_true, and_true]
      omega
  | j :: j' :: chain, ss, _, hf, hl, hK => by
    cases hf with
    | cons h1 h2 =>
      obtain ⟨sl, e1, e2⟩ := h1
      obtain ⟨l, i1, i2, i3⟩ := wqes_eq (K := K) (by simp) h2 (by simpa using hl) (by simp at hK ⊢; omega)
      refine ⟨⟨sl.sges, sl.wrId, false⟩ :: l, by rw [wqes, e1, i1]; rfl, by rw [List.map_cons, i2, e2], ?_⟩
      simp only [List.length_cons] at hK i3 ⊢
      simp only [Batches, Bool.false_eq_true, if_false]
      rw [show K - (chain.length + 1 + 1) + 1 = K - (chain.length + 1) by omega]
      exact i3

theorem IbvRing.post {c : IbvCfg} {um : Nat → UInt8} {w : IbvW} {G : List IRec} {a b s q : Nat} (h : IbvRing c um w G a b s q) :
    ∃ slots wq, w.post (G.length - q) = some { w with slots := slots, wq := wq, chain := [] } ∧
      IbvRing c um { w with slots := slots, wq := wq, chain := [] } G a b s G.length := by
  have h1 := h.sb; have h2 := h.sq; have h3 := h.qG; have hcq := h.cq
  have hn := nSlots_pos c
  by_cases hq : q = G.length
  · have hch : w.chain = [] := by rw [h.chain, hq, Nat.sub_self]; rfl
    have e : ({ w with slots := w.slots, wq := w.wq, chain := [] } : IbvW) = w := by
      cases w
      dsimp only at hch ⊢
      rw [hch]
    exact ⟨w.slots, w.wq, by rw [e]; simp [IbvW.post, hch], by rw [e]; subst hq; exact h⟩
  · obtain ⟨n, hnq⟩ : ∃ n, G.length - q = n + 1 := ⟨G.length - q - 1, by omega⟩
    have hch := h.chain
    have hlast : w.chain.getLast? = some ((q + n) % c.nSlots) := by
      rw [hch, hnq, List.range_succ, List.map_append, List.map_singleton, List.getLast?_concat]
    have hlt : (q + n) % c.nSlots < w.slots.length := by rw [h.len]; exact Nat.mod_lt _ hn
    have hsl : w.slots[(q + n) % c.nSlots]? = some w.slots[(q + n) % c.nSlots] := List.getElem?_eq_getElem hlt
    generalize hsle : w.slots[(q + n) % c.nSlots] = sl at hsl
    generalize hse : w.slots.set ((q + n) % c.nSlots) { sl with wrId := G.length - q } = slots
    have key : ∀ (j : Nat) (x : ISlot), w.slots[j]? = some x →
        ∃ y, slots[j]? = some y ∧ y.sges = x.sges ∧ y.item = x.item ∧ y.last = x.last := by
      intro j x hx
      by_cases hj : j = (q + n) % c.nSlots
      · subst hj
        rw [hsl] at hx
        cases Option.some.inj hx
        exact ⟨{ sl with wrId := G.length - q }, by rw [← hse]; exact List.getElem?_set_self hlt, rfl, rfl, rfl⟩
      · exact ⟨x, by rw [← hse, List.getElem?_set_ne (Ne.symm hj)]; exact hx, rfl, rfl, rfl⟩
    have hf : List.Forall₂ (fun (j : Nat) (x : List Sge) => ∃ sl, slots[j]? = some sl ∧ sl.sges = x) w.chain ((G.drop q).map (·.sges)) := by
      rw [List.forall₂_iff_get]
      refine ⟨by rw [hch]; simp, ?_⟩
      intro k k1 k2
      simp only [List.length_map, List.length_drop] at k2
      simp only [hch, List.get_eq_getElem, List.getElem_map, List.getElem_range, List.getElem_drop]
      obtain ⟨x, e1, e2, _⟩ := h.fly (q + k) G[q + k] (by omega) (List.getElem?_eq_getElem (by omega))
      obtain ⟨y, y1, y2, _⟩ := key _ _ e1
      exact ⟨y, y1, by rw [y2, e2]⟩
    have hcl : w.chain.length = G.length - q := by rw [hch]; simp
    obtain ⟨l, l1, l2, l3⟩ := wqes_eq (slots := slots) (K := G.length - q) (by intro h0; rw [h0] at hcl; simp at hcl; omega) hf
      (by
        intro j hj
        rw [hlast] at hj
        cases Option.some.inj hj
        exact ⟨_, by rw [← hse]; exact List.getElem?_set_self hlt, rfl⟩) (by omega)
    rw [hcl, Nat.sub_self] at l3
    refine ⟨slots, w.wq ++ l, ?_, ?_⟩
    · rw [IbvW.post, hlast]
      dsimp only
      rw [hsl]
      dsimp only
      rw [hse, l1]
      rfl
    · refine { h with sq := by omega, qG := Nat.le_refl _, len := ?_, payload := ?_, fly := ?_, wqs := ?_, wqb := h.wqb.append l3, chain := ?_ }
      · rw [← hse]; simpa using h.len
      · intro j x hx
        dsimp only at hx
        rw [← hse] at hx
        by_cases hj : j = (q + n) % c.nSlots
        · subst hj
          rw [List.getElem?_set_self hlt] at hx
          cases Option.some.inj hx
          exact h.payload _ sl hsl
        · rw [List.getElem?_set_ne (Ne.symm hj)] at hx
          exact h.payload j x hx
      · intro k r hk hkr
        obtain ⟨x, e1, e2, e3, e4⟩ := h.fly k r hk hkr
        obtain ⟨y, y1, y2, y3, y4⟩ := key _ _ e1
        exact ⟨y, y1, by rw [y2, e2], by rw [y3, e3], by rw [y4, e4]⟩
      · show (w.wq ++ l).map (·.sges) = _
        rw [List.map_append, h.wqs, l2, show G.length - s = (q - s) + (G.length - q) by omega, drop_take_add, show s + (q - s) = q by omega, List.map_append,
          List.take_of_length_le (by rw [List.length_drop]; omega : (G.drop q).length ≤ G.length - q)]
      · show [] = _
        rw [Nat.sub_self]; rfl

theorem IbvInv.finish {c : IbvCfg} (hv : IbvValid c) {um : Nat → UInt8} {w : IbvW} {evs : List IEv} (h : IbvInv c um w evs) {i : Nat} {more : Bool} {r : IEnd}
    (hpc : w.pc = .building i more) : ∃ w', w.finish c i more r = some w' ∧ IbvInv c um w' evs := by
  obtain ⟨G, a, b, s, q, hr, hc, hseen⟩ := h
  obtain ⟨hb1, hb2, hb3⟩ := hc.build i more hpc
  have hrun : w.sched = .running := by
    have := hc.idle
    rw [hpc] at this
    simpa using this
  obtain ⟨slots, wq, p1, p2⟩ := hr.post
  rw [show G.length - q = i by omega] at p1
  have hav : w.avail + G.length = c.nSlots + a := hr.avail
  refine ⟨_, by rw [IbvW.finish, p1]; rfl, G, a, b, s, G.length, ?_, ?_, hseen⟩
  · split
    · exact p2.cong rfl rfl rfl rfl rfl rfl rfl rfl
    · split
      · exact p2.cong rfl rfl rfl rfl rfl rfl rfl rfl
      · dsimp only
        split
        · exact p2.waitForSpace
        · exact p2.cong rfl rfl rfl rfl rfl rfl rfl rfl
  · split
    · exact ⟨(fun i more h => by cases h), fun _ => rfl, (by simp), (fun h => by cases h), (by rintro (h | h) <;> cases h), (fun _ h => by cases h), hc.dead⟩
    · split
      · exact ⟨(fun i more h => by cases h), fun _ => rfl, (by simp), (fun h => by cases h), (by rintro (h | h) <;> cases h), (fun _ h => by cases h), hc.dead⟩
      · dsimp only
        split
        · rename_i hlt
          exact Ctl.waitForSpace rfl (by omega) hrun hc.dead
        · rename_i hlt
          have h1 := hr.sb; have h2 := hr.sq; have h3 := hr.qG; have hcq := hr.cq
          exact ⟨(fun i more h => by cases h), fun _ => rfl, (by simp), (fun _ => by omega), (by rintro (h | h) <;> cases h), (fun _ h => by cases h), hc.dead⟩

/-- Nothing that may happen, except a failure of the card, fails or destroys the invariant. -/
theorem IbvInv.step {c : IbvCfg} (hv : IbvValid c) {um : Nat → UInt8} {w : IbvW} {evs : List IEv} (h : IbvInv c um w evs) {op : IOp} (en : w.enabled c op)
    (hne : op ≠ .err) (hp : ∀ p, op = .packet p → IPktOk c p) : ∃ w' evs', w.exec c um op = some (w', evs') ∧ IbvInv c um w' (evs ++ evs') := by
  have post : w.sched ≠ .running → w.sched ≠ .waiting → IbvInv c um { w with sched := .posted } evs := by
    intro h1 _
    obtain ⟨G, a, b, s, q, hr, hc, hseen⟩ := h
    have hid := hc.idle.mpr h1
    refine ⟨G, a, b, s, q, hr.cong rfl rfl rfl rfl rfl rfl rfl rfl, ⟨hc.build, hc.other, (by simp [hid]), (fun h => by cases h), ?_, (fun _ h => by cases h), hc.dead⟩, hseen⟩
    rintro (h | h)
    · cases h
    · have h : w.pc = .toArm := h
      rw [hid] at h; cases h
  cases op with
  | heap =>
    have en : w.sched = .requested := en
    exact ⟨_, [], rfl, by rw [List.append_nil]; exact post (by rw [en]; decide) (by rw [en]; decide)⟩
  | timer =>
    have en : w.sched = .sleeping := en
    exact ⟨_, [], rfl, by rw [List.append_nil]; exact post (by rw [en]; decide) (by rw [en]; decide)⟩
  | wake polls =>
    refine h.wake polls ?_
    rcases en with en | ⟨en, _⟩ <;> (rw [en]; decide)
  | packet p =>
    obtain ⟨i, more, h1, h2⟩ := en
    obtain ⟨w', evs', h3⟩ := h.packet hv h1 h2 (hp p rfl)
    exact ⟨w', evs', by rw [IbvW.exec, h1]; exact h3.1, h3.2⟩
  | finish r =>
    obtain ⟨i, more, h1, h2⟩ := en
    obtain ⟨w', h3, h4⟩ := h.finish hv (r := r) h1
    exact ⟨w', [], by rw [IbvW.exec, h1]; dsimp only; rw [h3]; rfl, by rw [List.append_nil]; exact h4⟩
  | arm =>
    have en : w.pc = .toArm := en
    obtain ⟨G, a, b, s, q, hr, hc, hseen⟩ := h
    refine ⟨_, [], rfl, G, a, b, s, q, hr.cong rfl rfl rfl rfl rfl rfl rfl rfl, ?_, by rw [List.append_nil]; exact hseen⟩
    refine ⟨(fun i more h => by cases h), fun _ => hc.other (by rw [en]; simp), (by simp [IbvW.arm]), (fun h => by cases h), fun _ => hc.wait (Or.inr en), ?_, hc.dead⟩
    intro hpd _
    simp only [IbvW.arm, hpd, Bool.true_and]
    cases w.cq <;> simp
  | send => exact h.send en.1
  | err => exact absurd rfl hne

end Spead2
