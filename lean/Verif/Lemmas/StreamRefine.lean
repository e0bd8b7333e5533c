import Verif.Lemmas.Stream

namespace Spead2
open Spec

/-! ### Invariant of the abstract stream -/

/-- The heap of an entry results from giving its packets, all valid and with its heap cnt, to a new heap. -/
def EntryOk (ooo : Bool) (e : Entry) : Prop :=
  ∃ p0 acc, (∀ q, e.pkts.head? = some q → q = p0) ∧ p0.heapCnt = e.heap.cnt ∧
    (∀ q ∈ e.pkts, q.heapCnt = e.heap.cnt ∧ PktValid q) ∧
    (LiveHeap.new p0).run ooo e.pkts = some (e.heap, acc) ∧ LInv ooo e.heap acc

/-- `f` is the serial number of a heap that may have no packets yet. -/
structure AInv (cfg : StreamConfig) (a : AStream) (f : Option Nat) : Prop where
  sub : ∀ r ∈ a.live, r.sub = r.entry.heap.cnt % cfg.substreams
  lo : ∀ r ∈ a.live, r.seq < a.started r.sub
  hi : ∀ r ∈ a.live, a.started r.sub ≤ r.seq + cfg.maxHeaps
  order : a.live.Pairwise (fun x y => x.sub = y.sub → y.seq < x.seq)
  ok : ∀ r ∈ a.live, EntryOk cfg.allowOoo r.entry ∧ (r.entry.pkts = [] → f = some r.entry.uid) ∧ r.entry.heap.isComplete = false
  uid : ∀ r ∈ a.live, r.entry.uid < a.created
  uids : a.live.Pairwise (fun x y => y.entry.uid < x.entry.uid)

/-- Entry number of a live heap. -/
def posOf (cfg : StreamConfig) (r : LiveRec) : Nat := r.sub * cfg.maxHeaps + (r.seq + 1) % cfg.maxHeaps

def table (cfg : StreamConfig) (live : List LiveRec) : List (Nat × Entry) := live.map (fun r => (posOf cfg r, r.entry))

theorem mod_window {m a b s : Nat} (hb : b < s) (hb' : s ≤ b + m) (ha' : s ≤ a + m) (ha : a ≤ s)
    (h : (a + 1) % m = (b + 1) % m) : a = b ∨ (a = s ∧ b + m = s) := by
  have hm : 0 < m := by omega
  have key : ∀ u v : Nat, u ≤ v → v ≤ u + m → u % m = v % m → v = u ∨ v = u + m := by
    intro u v h1 h2 h3
    have h4 : (v - u) % m = 0 := Nat.sub_mod_eq_zero_of_mod_eq h3.symm
    obtain ⟨k, hk⟩ := Nat.dvd_of_mod_eq_zero h4
    match k, hk with
    | 0, hk => left; simp at hk; omega
    | 1, hk => right; simp at hk; omega
    | k + 2, hk =>
      exfalso
      have : m * (k + 2) = m * k + 2 * m := by rw [Nat.mul_add]; omega
      omega
  rcases Nat.le_total a b with hle | hle
  · rcases key (a + 1) (b + 1) (by omega) (by omega) h with h1 | h1
    · left; omega
    · exfalso; omega
  · rcases key (b + 1) (a + 1) (by omega) (by omega) h.symm with h1 | h1
    · left; omega
    · right; omega

theorem posOf_eq {cfg : StreamConfig} (hm : 0 < cfg.maxHeaps) {r : LiveRec} {sub c : Nat}
    (h : posOf cfg r = sub * cfg.maxHeaps + c % cfg.maxHeaps) : r.sub = sub ∧ (r.seq + 1) % cfg.maxHeaps = c % cfg.maxHeaps := by
  unfold posOf at h
  have h1 := Nat.mod_lt (r.seq + 1) hm
  have h2 := Nat.mod_lt c hm
  have e1 : (r.sub * cfg.maxHeaps + (r.seq + 1) % cfg.maxHeaps) / cfg.maxHeaps = r.sub := by
    rw [Nat.mul_comm, Nat.mul_add_div hm, Nat.div_eq_of_lt h1]; omega
  have e2 : (sub * cfg.maxHeaps + c % cfg.maxHeaps) / cfg.maxHeaps = sub := by
    rw [Nat.mul_comm, Nat.mul_add_div hm, Nat.div_eq_of_lt h2]; omega
  have hs : r.sub = sub := by rw [← e1, h, e2]
  subst hs
  exact ⟨rfl, by omega⟩

theorem AInv.pos_inj {cfg : StreamConfig} {a : AStream} {f : Option Nat} (inv : AInv cfg a f) (hm : 0 < cfg.maxHeaps) {r r' : LiveRec}
    (hr : r ∈ a.live) (hr' : r' ∈ a.live) (h : posOf cfg r = posOf cfg r') : r.sub = r'.sub ∧ r.seq = r'.seq := by
  obtain ⟨h1, h2⟩ := posOf_eq hm h
  refine ⟨h1, ?_⟩
  have a1 := inv.lo r hr
  have a2 := inv.hi r hr
  have a3 := inv.lo r' hr'
  have a4 := inv.hi r' hr'
  rw [← h1] at a3 a4
  rcases mod_window (s := a.started r.sub) a3 a4 a2 (by omega) h2 with h | h
  · exact h
  · omega

theorem pairwise_eq_of_key {R : List LiveRec} (h : R.Pairwise (fun x y => x.sub = y.sub → y.seq < x.seq)) {r r' : LiveRec}
    (hr : r ∈ R) (hr' : r' ∈ R) (h1 : r.sub = r'.sub) (h2 : r.seq = r'.seq) : r = r' := by
  induction R with
  | nil => simp at hr
  | cons x R ih =>
    rw [List.pairwise_cons] at h
    rcases List.mem_cons.1 hr with e1 | hr1 <;> rcases List.mem_cons.1 hr' with e2 | hr2
    · rw [e1, e2]
    · have := h.1 r' hr2 (by rw [← e1, h1]); rw [← e1] at this; omega
    · have := h.1 r hr1 (by rw [← e2, h1]); rw [← e2] at this; omega
    · exact ih h.2 hr1 hr2

theorem AInv.eq_of_key {cfg : StreamConfig} {a : AStream} {f : Option Nat} (inv : AInv cfg a f) {r r' : LiveRec} (hr : r ∈ a.live) (hr' : r' ∈ a.live)
    (h1 : r.sub = r'.sub) (h2 : r.seq = r'.seq) : r = r' := pairwise_eq_of_key inv.order hr hr' h1 h2

theorem AInv.pos_iff {cfg : StreamConfig} {a : AStream} {f : Option Nat} (inv : AInv cfg a f) (hm : 0 < cfg.maxHeaps) {r r' : LiveRec}
    (hr : r ∈ a.live) (hr' : r' ∈ a.live) : posOf cfg r' = posOf cfg r ↔ (r'.sub = r.sub ∧ r'.seq = r.seq) := by
  constructor
  · exact inv.pos_inj hm hr' hr
  · rintro ⟨h1, h2⟩; simp [posOf, h1, h2]

/-- The heap at the entry that a substream uses next. -/
theorem AInv.victim_pos {cfg : StreamConfig} {a : AStream} {f : Option Nat} (inv : AInv cfg a f) (hm : 0 < cfg.maxHeaps) {r : LiveRec}
    (hr : r ∈ a.live) (sub : Nat) :
    posOf cfg r = sub * cfg.maxHeaps + (a.started sub + 1) % cfg.maxHeaps ↔ (r.sub = sub ∧ r.seq + cfg.maxHeaps = a.started sub) := by
  constructor
  · intro h
    obtain ⟨h1, h2⟩ := posOf_eq hm h
    subst h1
    refine ⟨rfl, ?_⟩
    have a1 := inv.lo r hr
    have a2 := inv.hi r hr
    rcases mod_window (s := a.started r.sub) a1 a2 (by omega) (Nat.le_refl _) h2.symm with h | h
    · omega
    · exact h.2
  · rintro ⟨h1, h2⟩
    subst h1
    rw [← h2, posOf]
    rw [show r.seq + cfg.maxHeaps + 1 = r.seq + 1 + cfg.maxHeaps by omega, Nat.add_mod_right]

theorem AInv.remove {cfg : StreamConfig} {a : AStream} {f : Option Nat} (inv : AInv cfg a f) (r : LiveRec) : AInv cfg (a.remove r) f := by
  have hm : ∀ x ∈ (a.remove r).live, x ∈ a.live := fun x hx => (List.mem_filter.1 hx).1
  exact ⟨fun x hx => inv.sub x (hm x hx), fun x hx => inv.lo x (hm x hx), fun x hx => inv.hi x (hm x hx),
    inv.order.sublist List.filter_sublist, fun x hx => inv.ok x (hm x hx), fun x hx => inv.uid x (hm x hx),
    inv.uids.sublist List.filter_sublist⟩

theorem table_remove {cfg : StreamConfig} {a : AStream} {f : Option Nat} (inv : AInv cfg a f) (hm : 0 < cfg.maxHeaps) {r : LiveRec} (hr : r ∈ a.live) :
    (table cfg a.live).filter (fun y => y.1 ≠ posOf cfg r) = table cfg (a.remove r).live := by
  unfold table AStream.remove
  rw [List.filter_map]
  congr 1
  apply List.filter_congr
  intro x hx
  have := inv.pos_iff hm hr hx
  exact decide_eq_decide.2 (not_congr this)

theorem EntryOk.new (ooo : Bool) (u : Nat) (p : Pkt) : EntryOk ooo ⟨u, [], LiveHeap.new p⟩ :=
  ⟨p, [], by simp, rfl, by simp, rfl, LInv.new ooo p⟩

theorem run_append_one {ooo : Bool} : ∀ {ps : List Pkt} {s s' s'' : LiveHeap} {acc : List Pkt} {p : Pkt} {b : Bool},
    s.run ooo ps = some (s', acc) → s'.addPacket p ooo = some (s'', b) →
    s.run ooo (ps ++ [p]) = some (s'', acc ++ if b then [p] else [])
  | [], s, s', s'', acc, p, b, h, h2 => by
    simp only [LiveHeap.run, Option.some.injEq, Prod.mk.injEq] at h
    obtain ⟨rfl, rfl⟩ := h
    simp only [List.nil_append, LiveHeap.run, h2]
  | q :: ps, s, s', s'', acc, p, b, h, h2 => by
    simp only [LiveHeap.run, List.cons_append] at h ⊢
    cases hq : s.addPacket q ooo with
    | none => rw [hq] at h; simp at h
    | some r =>
      obtain ⟨s1, b1⟩ := r
      rw [hq] at h
      simp only at h ⊢
      cases hr : s1.run ooo ps with
      | none => rw [hr] at h; simp at h
      | some r =>
        obtain ⟨s2, l⟩ := r
        rw [hr] at h
        simp only [Option.some.injEq, Prod.mk.injEq] at h
        obtain ⟨rfl, rfl⟩ := h
        rw [run_append_one hr h2]
        cases b1 <;> simp

theorem EntryOk.add {ooo : Bool} {e : Entry} (h : EntryOk ooo e) {p : Pkt} (hv : PktValid p) (hc : p.heapCnt = e.heap.cnt)
    (hfirst : e.pkts = [] → e.heap = LiveHeap.new p) :
    ∃ h' b, e.heap.addPacket p ooo = some (h', b) ∧ h'.cnt = e.heap.cnt ∧ (b = false → h' = e.heap) ∧
      EntryOk ooo { e with pkts := e.pkts ++ [p], heap := h' } := by
  obtain ⟨p0, acc, h1, h2, h3, h4, h5⟩ := h
  obtain ⟨h', b, a1, a2, a3, a4, a5, a6⟩ := addPacket_spec h5 hv
  refine ⟨h', b, a1, a2, a5, ?_⟩
  by_cases he : e.pkts = []
  · have hn := hfirst he
    have hinv : LInv ooo h' (if b then [p] else []) := by
      rw [hn] at a1
      obtain ⟨s', b', c1, _, _, _, c5, c6⟩ := addPacket_spec (LInv.new ooo p) hv
      rw [a1] at c1
      simp only [Option.some.injEq, Prod.mk.injEq] at c1
      obtain ⟨rfl, rfl⟩ := c1
      cases b with
      | false => rw [c5 rfl]; exact LInv.new ooo p
      | true => simpa using (c6 rfl).1
    refine ⟨p, if b then [p] else [], ?_, ?_, ?_, ?_, hinv⟩
    · intro q hq; rw [he] at hq; simpa using hq.symm
    · simp only [a2, hc]
    · intro q hq
      rw [he] at hq
      simp only [List.nil_append, List.mem_singleton] at hq
      subst hq
      exact ⟨by simp only [a2, hc], hv⟩
    · rw [he]
      rw [hn] at a1
      simpa using run_append_one (ps := []) (s := LiveHeap.new p) (acc := []) rfl a1
  · refine ⟨p0, acc ++ if b then [p] else [], ?_, by simp only [a2, h2], ?_, run_append_one h4 a1, ?_⟩
    · intro q hq
      apply h1
      cases hp : e.pkts with
      | nil => exact absurd hp he
      | cons x xs => rw [hp] at hq; simpa using hq
    · intro q hq
      rcases List.mem_append.1 hq with hq | hq
      · simp only [a2]; exact h3 q hq
      · rw [List.mem_singleton] at hq
        subst hq
        exact ⟨by simp only [a2, hc], hv⟩
    · cases b with
      | false => rw [a5 rfl]; simpa using h5
      | true => simpa using (a6 rfl).1

theorem AInv.remove_fresh {cfg : StreamConfig} {a : AStream} {r : LiveRec} (inv : AInv cfg a (some r.entry.uid)) (hr : r ∈ a.live) :
    AInv cfg (a.remove r) none := by
  have h := inv.remove r
  refine ⟨h.sub, h.lo, h.hi, h.order, ?_, h.uid, h.uids⟩
  intro x hx
  obtain ⟨h1, h2, h3⟩ := h.ok x hx
  refine ⟨h1, ?_, h3⟩
  intro he
  have hu := h2 he
  simp only [Option.some.injEq] at hu
  obtain ⟨hxl, hxne⟩ := List.mem_filter.1 hx
  have hxne := of_decide_eq_true hxne
  exfalso
  -- equal serial numbers: the same heap
  have huniq : ∀ {l : List LiveRec}, l.Pairwise (fun x y => y.entry.uid < x.entry.uid) → r ∈ l → x ∈ l → x = r := by
    intro l hl h1 h2
    induction l with
    | nil => simp at h1
    | cons z l ih =>
      rw [List.pairwise_cons] at hl
      rcases List.mem_cons.1 h1 with e1 | h1' <;> rcases List.mem_cons.1 h2 with e2 | h2'
      · rw [e1, e2]
      · have := hl.1 x h2'; rw [← e1] at this; omega
      · have := hl.1 r h1'; rw [← e2] at this; omega
      · exact ih hl.2 h1' h2'
  have := huniq inv.uids hr hxl
  subst this
  exact hxne ⟨rfl, rfl⟩

theorem update_mem {a : AStream} {r : LiveRec} {e : Entry} {x : LiveRec} (hx : x ∈ (a.update r e).live) :
    ∃ y ∈ a.live, x.sub = y.sub ∧ x.seq = y.seq ∧ ((y.sub = r.sub ∧ y.seq = r.seq ∧ x.entry = e) ∨ (¬ (y.sub = r.sub ∧ y.seq = r.seq) ∧ x = y)) := by
  obtain ⟨y, hy, rfl⟩ := List.mem_map.1 hx
  refine ⟨y, hy, ?_⟩
  by_cases h : y.sub = r.sub ∧ y.seq = r.seq
  · rw [if_pos h]; exact ⟨rfl, rfl, Or.inl ⟨h.1, h.2, rfl⟩⟩
  · rw [if_neg h]; exact ⟨rfl, rfl, Or.inr ⟨h, rfl⟩⟩

theorem AInv.update {cfg : StreamConfig} {a : AStream} {f : Option Nat} (inv : AInv cfg a f) {r : LiveRec} (hr : r ∈ a.live)
    {e : Entry} (hcnt : e.heap.cnt = r.entry.heap.cnt) (huid : e.uid = r.entry.uid) (hok : EntryOk cfg.allowOoo e) (hne : e.pkts ≠ [])
    (hnc : e.heap.isComplete = false) (hf : f = none ∨ f = some r.entry.uid) : AInv cfg (a.update r e) none := by
  have hu : ∀ x y : LiveRec, x ∈ a.live → y ∈ a.live → y.entry.uid < x.entry.uid →
      (if y.sub = r.sub ∧ y.seq = r.seq then { y with entry := e } else y).entry.uid <
      (if x.sub = r.sub ∧ x.seq = r.seq then { x with entry := e } else x).entry.uid := by
    have key : ∀ x ∈ a.live, (if x.sub = r.sub ∧ x.seq = r.seq then ({ x with entry := e } : LiveRec) else x).entry.uid = x.entry.uid := by
      intro x hx
      by_cases h : x.sub = r.sub ∧ x.seq = r.seq
      · rw [if_pos h, inv.eq_of_key hx hr h.1 h.2]; exact huid
      · rw [if_neg h]
    intro x y hx hy hlt
    rw [key x hx, key y hy]
    exact hlt
  refine ⟨?_, ?_, ?_, ?_, ?_, ?_, ?_⟩
  · intro x hx
    obtain ⟨y, hy, h1, h2, h3⟩ := update_mem hx
    rcases h3 with ⟨a1, a2, a3⟩ | ⟨_, rfl⟩
    · rw [h1, a3, hcnt, inv.eq_of_key hy hr a1 a2]; exact inv.sub r hr
    · exact inv.sub x hy
  · intro x hx
    obtain ⟨y, hy, h1, h2, h3⟩ := update_mem hx
    have := inv.lo y hy
    rw [h1, h2]; exact this
  · intro x hx
    obtain ⟨y, hy, h1, h2, h3⟩ := update_mem hx
    have := inv.hi y hy
    rw [h1, h2]; exact this
  · refine (List.pairwise_map).2 (inv.order.imp ?_)
    intro x y h
    have e1 : ∀ x : LiveRec, (if x.sub = r.sub ∧ x.seq = r.seq then ({ x with entry := e } : LiveRec) else x).sub = x.sub := by
      intro x; split <;> rfl
    have e2 : ∀ x : LiveRec, (if x.sub = r.sub ∧ x.seq = r.seq then ({ x with entry := e } : LiveRec) else x).seq = x.seq := by
      intro x; split <;> rfl
    rw [e1, e1, e2, e2]
    exact h
  · intro x hx
    obtain ⟨y, hy, h1, h2, h3⟩ := update_mem hx
    rcases h3 with ⟨a1, a2, a3⟩ | ⟨hk, rfl⟩
    · rw [a3]; exact ⟨hok, fun h => absurd h hne, hnc⟩
    · obtain ⟨b1, b2, b3⟩ := inv.ok x hy
      refine ⟨b1, ?_, b3⟩
      intro hp
      have := b2 hp
      exfalso
      rcases hf with hf | hf
      · rw [hf] at this; simp at this
      · rw [hf] at this
        simp only [Option.some.injEq] at this
        have huniq : ∀ {l : List LiveRec}, l.Pairwise (fun x y => y.entry.uid < x.entry.uid) → r ∈ l → x ∈ l → x = r := by
          intro l hl h1 h2
          induction l with
          | nil => simp at h1
          | cons z l ih =>
            rw [List.pairwise_cons] at hl
            rcases List.mem_cons.1 h1 with e1 | h1' <;> rcases List.mem_cons.1 h2 with e2 | h2'
            · rw [e1, e2]
            · have := hl.1 x h2'; rw [← e1] at this; omega
            · have := hl.1 r h1'; rw [← e2] at this; omega
            · exact ih hl.2 h1' h2'
        have := huniq inv.uids hr hy
        subst this
        exact hk ⟨rfl, rfl⟩
  · intro x hx
    obtain ⟨y, hy, h1, h2, h3⟩ := update_mem hx
    rcases h3 with ⟨a1, a2, a3⟩ | ⟨_, rfl⟩
    · rw [a3, huid]; exact inv.uid r hr
    · exact inv.uid x hy
  · refine (List.pairwise_map).2 (inv.uids.imp_of_mem ?_)
    intro x y hx hy h
    exact hu x y hx hy h

theorem victim_mem {cfg : StreamConfig} {a : AStream} {sub : Nat} {v : LiveRec} (h : a.victim cfg sub = some v) :
    v ∈ a.live ∧ v.sub = sub ∧ v.seq + cfg.maxHeaps = a.started sub := by
  refine ⟨List.mem_of_find?_eq_some h, ?_⟩
  have := List.find?_some (p := fun r : LiveRec => decide (r.sub = sub ∧ r.seq + cfg.maxHeaps = a.started sub)) h
  exact of_decide_eq_true this

theorem EntryOk.notComplete_new (p : Pkt) : (LiveHeap.new p).isComplete = false := rfl

theorem AInv.startHeap {cfg : StreamConfig} {a : AStream} (inv : AInv cfg a none) (hm : 0 < cfg.maxHeaps) (p : Pkt) :
    AInv cfg (a.startHeap cfg p).1 (some a.created) := by
  unfold AStream.startHeap
  have hlive : ∀ x, x ∈ (a.evict cfg (p.heapCnt % cfg.substreams)).live →
      x ∈ a.live ∧ ¬ (x.sub = p.heapCnt % cfg.substreams ∧ x.seq + cfg.maxHeaps = a.started (p.heapCnt % cfg.substreams)) := by
    intro x hx
    cases hv : a.victim cfg (p.heapCnt % cfg.substreams) with
    | none =>
      rw [AStream.evict, hv] at hx
      refine ⟨hx, ?_⟩
      have := List.find?_eq_none.1 hv x hx
      intro h
      exact this (decide_eq_true h)
    | some v =>
      rw [AStream.evict, hv] at hx
      obtain ⟨h1, h2⟩ := List.mem_filter.1 hx
      have h2 := of_decide_eq_true h2
      obtain ⟨v1, v2, v3⟩ := victim_mem hv
      refine ⟨h1, fun h => h2 ⟨?_, ?_⟩⟩
      · rw [h.1, v2]
      · omega
  have hinv : AInv cfg (a.evict cfg (p.heapCnt % cfg.substreams)) none := by
    unfold AStream.evict
    cases hv : a.victim cfg (p.heapCnt % cfg.substreams) with
    | none => exact inv
    | some v => exact inv.remove v
  have hst : (a.evict cfg (p.heapCnt % cfg.substreams)).started = a.started := by
    unfold AStream.evict
    cases hv : a.victim cfg (p.heapCnt % cfg.substreams) <;> rfl
  have hcr : (a.evict cfg (p.heapCnt % cfg.substreams)).created = a.created := by
    unfold AStream.evict
    cases hv : a.victim cfg (p.heapCnt % cfg.substreams) <;> rfl
  refine ⟨?_, ?_, ?_, ?_, ?_, ?_, ?_⟩
  · intro x hx
    rcases List.mem_cons.1 hx with rfl | hx
    · rfl
    · exact hinv.sub x hx
  · intro x hx
    rcases List.mem_cons.1 hx with rfl | hx
    · simp
    · have := hinv.lo x hx
      rw [hst] at this
      simp only
      split
      · next h => rw [h] at this; omega
      · exact this
  · intro x hx
    rcases List.mem_cons.1 hx with rfl | hx
    · simp only [if_true]; omega
    · have := hinv.hi x hx
      rw [hst] at this
      have h2 := (hlive x hx).2
      simp only
      split
      · next h => rw [h] at this; have := fun e => h2 ⟨h, e⟩; omega
      · exact this
  · refine List.pairwise_cons.2 ⟨?_, hinv.order⟩
    intro x hx h
    have := hinv.lo x hx
    rw [hst] at this
    simp only at h ⊢
    rw [← h] at this
    exact this
  · intro x hx
    rcases List.mem_cons.1 hx with rfl | hx
    · exact ⟨EntryOk.new _ _ _, fun _ => rfl, rfl⟩
    · obtain ⟨h1, h2, h3⟩ := hinv.ok x hx
      exact ⟨h1, fun h => by have := h2 h; simp at this, h3⟩
  · intro x hx
    rcases List.mem_cons.1 hx with rfl | hx
    · simp
    · have := hinv.uid x hx
      rw [hcr] at this
      simp only
      omega
  · refine List.pairwise_cons.2 ⟨?_, hinv.uids⟩
    intro x hx
    have := hinv.uid x hx
    rw [hcr] at this
    exact this

/-- What a packet given to a live heap does. -/
theorem AInv.deliver {cfg : StreamConfig} {a : AStream} {f : Option Nat} (inv : AInv cfg a f) {r : LiveRec} (hr : r ∈ a.live)
    (hf : f = none ∨ f = some r.entry.uid) {p : Pkt} (hv : PktValid p) (hc : p.heapCnt = r.entry.heap.cnt)
    (hfirst : r.entry.pkts = [] → r.entry.heap = LiveHeap.new p) (ev : List Entry) :
    ∃ h' b, r.entry.heap.addPacket p cfg.allowOoo = some (h', b) ∧ h'.cnt = r.entry.heap.cnt ∧
      EntryOk cfg.allowOoo { r.entry with pkts := r.entry.pkts ++ [p], heap := h' } ∧
      (b = false → h'.isComplete = false) ∧
      (b = true ∧ h'.isComplete = true → AInv cfg (a.remove r) none) ∧
      (¬ (b = true ∧ h'.isComplete = true) → AInv cfg (a.update r { r.entry with pkts := r.entry.pkts ++ [p], heap := h' }) none) := by
  obtain ⟨h', b, h1, h2, h3, h4⟩ := (inv.ok r hr).1.add hv hc hfirst
  have hnc : b = false → h'.isComplete = false := fun h => by rw [h3 h]; exact (inv.ok r hr).2.2
  refine ⟨h', b, h1, h2, h4, hnc, ?_, ?_⟩
  · intro _
    rcases hf with hf | hf
    · subst hf; exact inv.remove r
    · subst hf; exact inv.remove_fresh hr
  · intro h
    refine inv.update hr h2 rfl h4 (by simp) ?_ hf
    cases b with
    | false => exact hnc rfl
    | true =>
      cases hb : h'.isComplete with
      | false => rfl
      | true => exact absurd ⟨rfl, hb⟩ h


attribute [local irreducible] StreamConfig.bucketOf StreamConfig.bucketCount

/-! ### Refinement -/

structure Rel (cfg : StreamConfig) (s : Stream) (a : AStream) : Prop where
  core : Core cfg s (table cfg a.live)
  nheads : s.heads.length = cfg.substreams + 1
  heads : ∀ i, i < cfg.substreams → s.heads[i]? = some (cfg.start i + a.started i % cfg.maxHeaps)
  created : s.created = a.created
  stopped : s.stopped = a.stopped

theorem mem_table {cfg : StreamConfig} {live : List LiveRec} {r : LiveRec} (h : r ∈ live) : (posOf cfg r, r.entry) ∈ table cfg live :=
  List.mem_map.2 ⟨r, h, rfl⟩

theorem table_update {cfg : StreamConfig} {a : AStream} {f : Option Nat} (inv : AInv cfg a f) (hm : 0 < cfg.maxHeaps) {r : LiveRec}
    (hr : r ∈ a.live) (e' : Entry) :
    (table cfg a.live).map (fun y => if y.1 = posOf cfg r then (y.1, e') else y) = table cfg (a.update r e').live := by
  unfold table AStream.update
  rw [List.map_map, List.map_map]
  apply List.map_congr_left
  intro x hx
  have hk := inv.pos_iff hm hr hx
  simp only [Function.comp]
  by_cases h : x.sub = r.sub ∧ x.seq = r.seq
  · rw [if_pos (hk.2 h), if_pos h]; rfl
  · rw [if_neg (fun e => h (hk.1 e)), if_neg h]

theorem filter_map_key (L : List (Nat × Entry)) (k : Nat) (e' : Entry) :
    (L.map (fun y => if y.1 = k then (y.1, e') else y)).filter (fun y => y.1 ≠ k) = L.filter (fun y => y.1 ≠ k) := by
  induction L with
  | nil => rfl
  | cons y L ih =>
    rw [List.map_cons]
    by_cases h : y.1 = k
    · rw [if_pos h, List.filter_cons, if_neg (by simpa using h), ih, List.filter_cons, if_neg (by simpa using h)]
    · rw [if_neg h, List.filter_cons, if_pos (by simpa using h), ih, List.filter_cons, if_pos (by simpa using h)]

theorem SameRest.trans {s s' s'' : Stream} (h1 : SameRest s s') (h2 : SameRest s' s'') : SameRest s s'' :=
  ⟨h2.1.trans h1.1, h2.2.1.trans h1.2.1, h2.2.2.1.trans h1.2.2.1, h2.2.2.2.trans h1.2.2.2⟩

theorem deliver_refine {cfg : StreamConfig} (hm : 0 < cfg.maxHeaps) {s : Stream} {a : AStream} {f : Option Nat}
    (hc : Core cfg s (table cfg a.live)) (inv : AInv cfg a f) {r : LiveRec} (hr : r ∈ a.live)
    (hf : f = none ∨ f = some r.entry.uid) {p : Pkt} (hv : PktValid p) (hcnt : p.heapCnt = r.entry.heap.cnt)
    (hfirst : r.entry.pkts = [] → r.entry.heap = LiveHeap.new p) (ev : List Entry) (st : Batch) (out : List Entry) :
    ∃ res s', a.deliver cfg ev r p = some res ∧
      s.deliver cfg st out (posOf cfg r) p = some ⟨s', { st with stopped := st.stopped || res.ended, complete := st.complete + res.completed.length }, out ++ res.completed, res.accepted⟩ ∧
      Core cfg s' (table cfg res.stream.live) ∧ SameRest s s' ∧ AInv cfg res.stream none ∧
      res.stream.started = a.started ∧ res.stream.created = a.created ∧ res.stream.stopped = a.stopped ∧ res.evicted = ev := by
  obtain ⟨h', b, h1, h2, h3, h4, h5, h6⟩ := inv.deliver hr hf hv hcnt hfirst ev
  obtain ⟨nx, hsl, hnx⟩ := hc.used _ (mem_table hr)
  simp only at hsl
  obtain ⟨s1, p1, p2, p3⟩ := putHeap_spec hc (mem_table hr) (e' := { r.entry with pkts := r.entry.pkts ++ [p], heap := h' }) h2
  have hmem : (posOf cfg r, ({ r.entry with pkts := r.entry.pkts ++ [p], heap := h' } : Entry)) ∈
      (table cfg a.live).map (fun y => if y.1 = (posOf cfg r, r.entry).1 then
        (y.1, ({ r.entry with pkts := r.entry.pkts ++ [p], heap := h' } : Entry)) else y) := by
    refine List.mem_map.2 ⟨_, mem_table hr, ?_⟩
    rw [if_pos rfl]
  obtain ⟨s2, s3, q1, q2, q3, q4⟩ := remove_spec p2 (bucketOf_lt cfg) hmem
  simp only at p1 q1 q2 q3
  rw [filter_map_key, table_remove inv hm hr] at q3
  rw [table_update inv hm hr] at p2
  unfold AStream.deliver
  rw [h1]
  simp only
  unfold Stream.deliver
  rw [hsl]
  simp only [Option.bind_eq_bind, Option.bind_some, h1, p1]
  cases b with
  | false =>
    have := h4 rfl
    refine ⟨_, s1, by simp only [Bool.false_and, Bool.false_eq_true, if_false]; rfl, ?_, p2, p3, h6 (by simp), rfl, rfl, rfl, rfl⟩
    simp
  | true =>
    cases hcomp : h'.isComplete with
    | false =>
      refine ⟨_, s1, by simp only [Bool.and_false, Bool.false_eq_true, if_false]; rfl, ?_, p2, p3, h6 (by simp [hcomp]), rfl, rfl, rfl, rfl⟩
      simp only [if_true, Bool.true_and, List.length_nil, Nat.add_zero, List.append_nil, Bool.false_eq_true, if_false]
      cases cfg.stopOnStopItem <;> cases h'.endOfStream <;> simp
    | true =>
      refine ⟨_, s3, by simp only [Bool.and_true, if_true]; rfl, ?_, q3, p3.trans q4, h5 ⟨rfl, hcomp⟩, rfl, rfl, rfl, rfl⟩
      simp only [if_true, Bool.true_and, q1, q2, Option.bind_some]
      cases cfg.stopOnStopItem <;> cases h'.endOfStream <;> simp

theorem advance_spec {cfg : StreamConfig} (hm : 0 < cfg.maxHeaps) {s : Stream} {sub c : Nat}
    (h : s.heads[sub]? = some (cfg.start sub + c % cfg.maxHeaps)) :
    s.advance cfg sub = some ({ s with heads := s.heads.set sub (cfg.start sub + (c + 1) % cfg.maxHeaps) },
      cfg.start sub + (c + 1) % cfg.maxHeaps) := by
  have key : (if cfg.start sub + c % cfg.maxHeaps + 1 = cfg.start (sub + 1) then cfg.start sub else cfg.start sub + c % cfg.maxHeaps + 1) =
      cfg.start sub + (c + 1) % cfg.maxHeaps := by
    have h1 : cfg.start (sub + 1) = cfg.start sub + cfg.maxHeaps := by
      unfold StreamConfig.start; rw [Nat.add_mul]; omega
    have h2 := Nat.mod_lt c hm
    rw [h1, Nat.add_mod]
    by_cases h3 : c % cfg.maxHeaps + 1 = cfg.maxHeaps
    · rw [if_pos (by omega)]
      by_cases h4 : cfg.maxHeaps = 1
      · rw [h4]; simp [Nat.mod_one]
      · rw [Nat.mod_eq_of_lt (show 1 < cfg.maxHeaps by omega), h3, Nat.mod_self]; rfl
    · rw [if_neg (by omega), Nat.mod_eq_of_lt (show 1 < cfg.maxHeaps by omega),
        Nat.mod_eq_of_lt (show c % cfg.maxHeaps + 1 < cfg.maxHeaps by omega)]
      omega
  unfold Stream.advance
  rw [Option.bind_eq_bind, h, Option.bind_some, key]

theorem substreamOf_eq (cfg : StreamConfig) (cnt : Nat) : cfg.substreamOf cnt = cnt % cfg.substreams := by
  unfold StreamConfig.substreamOf
  have := Nat.div_add_mod cnt cfg.substreams
  rw [Nat.mul_comm] at this
  omega

theorem find?_table {cfg : StreamConfig} (live : List LiveRec) (g : Nat × Entry → Bool) :
    (table cfg live).find? g = (live.find? (fun r => g (posOf cfg r, r.entry))).map (fun r => (posOf cfg r, r.entry)) := by
  unfold table
  rw [List.find?_map]
  rfl

theorem slot_lt {cfg : StreamConfig} (hm : 0 < cfg.maxHeaps) {s : Stream} {L : List (Nat × Entry)} (h : Core cfg s L) {sub : Nat}
    (hs : sub < cfg.substreams) (c : Nat) : cfg.start sub + c % cfg.maxHeaps < s.slots.length := by
  rw [h.nslots]
  have := Nat.mod_lt c hm
  unfold StreamConfig.start
  have h1 : (sub + 1) * cfg.maxHeaps ≤ cfg.maxHeaps * cfg.substreams := by
    rw [Nat.mul_comm cfg.maxHeaps]; exact Nat.mul_le_mul_right _ hs
  rw [Nat.add_mul] at h1
  omega

theorem find?_congr' {α : Type} {l : List α} {f g : α → Bool} (h : ∀ x ∈ l, f x = g x) : l.find? f = l.find? g := by
  induction l with
  | nil => rfl
  | cons x l ih =>
    rw [List.find?_cons, List.find?_cons, h x List.mem_cons_self, ih (fun y hy => h y (List.mem_cons_of_mem _ hy))]

/-- Advance a substream and remove the heap that is in the way. -/
theorem turn_refine {cfg : StreamConfig} (hm : 0 < cfg.maxHeaps) {s : Stream} {a : AStream} {f : Option Nat}
    (hc : Core cfg s (table cfg a.live)) (inv : AInv cfg a f) {sub : Nat} (hs : sub < cfg.substreams) (hh : s.heads.length = cfg.substreams + 1)
    (h : s.heads[sub]? = some (cfg.start sub + a.started sub % cfg.maxHeaps)) :
    ∃ s1 s2, s.advance cfg sub = some (s1, cfg.start sub + (a.started sub + 1) % cfg.maxHeaps) ∧
      s1.eject cfg (cfg.start sub + (a.started sub + 1) % cfg.maxHeaps) = some (s2, (a.victim cfg sub).toList.map LiveRec.entry) ∧
      Core cfg s2 (table cfg (a.evict cfg sub).live) ∧ s2.heads = s.heads.set sub (cfg.start sub + (a.started sub + 1) % cfg.maxHeaps) ∧
      s2.stopped = s.stopped ∧ s2.stats = s.stats ∧ s2.created = s.created ∧
      cfg.start sub + (a.started sub + 1) % cfg.maxHeaps < s2.slots.length ∧
      cfg.start sub + (a.started sub + 1) % cfg.maxHeaps ∉ (table cfg (a.evict cfg sub).live).map Prod.fst := by
  have hadv := advance_spec hm h
  have hc1 : Core cfg { s with heads := s.heads.set sub (cfg.start sub + (a.started sub + 1) % cfg.maxHeaps) } (table cfg a.live) :=
    ⟨hc.nslots, hc.nbuckets, hc.nodup, hc.used, hc.free, hc.chain⟩
  have hlt := slot_lt hm hc1 hs (a.started sub + 1)
  obtain ⟨s2, e1, e2, e3⟩ := eject_spec hc1 (bucketOf_lt cfg) hlt
  have hvic : (table cfg a.live).find? (fun x => decide (x.1 = cfg.start sub + (a.started sub + 1) % cfg.maxHeaps)) =
      (a.victim cfg sub).map (fun r => (posOf cfg r, r.entry)) := by
    rw [find?_table]
    congr 1
    apply find?_congr'
    intro r hr
    exact decide_eq_decide.2 (inv.victim_pos hm hr sub)
  have hev : (table cfg a.live).filter (fun y => decide (y.1 ≠ cfg.start sub + (a.started sub + 1) % cfg.maxHeaps)) =
      table cfg (a.evict cfg sub).live := by
    unfold AStream.evict
    cases hv : a.victim cfg sub with
    | none =>
      rw [hv, Option.map_none, List.find?_eq_none] at hvic
      rw [List.filter_eq_self.2]
      intro y hy
      have := hvic y hy
      simpa using this
    | some v =>
      obtain ⟨v1, v2, v3⟩ := victim_mem hv
      have hp := (inv.victim_pos hm v1 sub).2 ⟨v2, v3⟩
      have := table_remove inv hm v1
      rw [hp] at this
      exact this
  rw [hev] at e2
  refine ⟨_, s2, hadv, ?_, e2, e3.1, e3.2.1, e3.2.2.1, e3.2.2.2, ?_, ?_⟩
  · rw [e1, hvic]
    cases a.victim cfg sub <;> rfl
  · have := e2.nslots
    have h2 := hc1.nslots
    omega
  · rw [← hev]
    intro hmem
    obtain ⟨y, hy, hyk⟩ := List.mem_map.1 hmem
    have := of_decide_eq_true (List.mem_filter.1 hy).2
    exact this hyk

theorem addPacket_refine {cfg : StreamConfig} (hm : 0 < cfg.maxHeaps) (hsub : 0 < cfg.substreams) {s : Stream} {a : AStream}
    (rel : Rel cfg s a) (inv : AInv cfg a none) {p : Pkt} (hv : PktValid p) (st : Batch) :
    ∃ res s' d, a.addPacket cfg p = some res ∧
      s.addPacket cfg st p = some ⟨s', { packets := st.packets + 1, complete := st.complete + res.completed.length, evicted := st.evicted + res.evicted.length, single := st.single + (if p.heapLength = some p.payload.length then 1 else 0), searchDist := d, stopped := st.stopped || res.ended }, res.evicted ++ res.completed, res.accepted⟩ ∧
      Rel cfg s' res.stream ∧ AInv cfg res.stream none ∧ s'.stats = s.stats := by
  unfold AStream.addPacket Stream.addPacket
  by_cases hu : p.heapLength = none ∧ cfg.allowUnsized = false
  · rw [if_pos hu, if_pos hu]
    refine ⟨_, s, st.searchDist, rfl, ?_, rel, inv, rfl⟩
    simp [hu.1]
  · rw [if_neg hu, if_neg hu]
    -- lookup
    have hfound : ∃ d, s.lookup cfg { st with packets := st.packets + 1 } p =
        some ((a.find p).map (posOf cfg), { st with packets := st.packets + 1, single := st.single + (if p.heapLength = some p.payload.length then 1 else 0), searchDist := d }) := by
      unfold Stream.lookup
      unfold AStream.find
      by_cases hs : p.heapLength = some p.payload.length
      · exact ⟨st.searchDist, by rw [if_pos hs, if_pos hs, if_pos hs]; rfl⟩
      · obtain ⟨l, d, h1, h2⟩ := bucket_search_spec rel.core (bucketOf_lt cfg) p.heapCnt
        refine ⟨st.searchDist + d, ?_⟩
        rw [if_neg hs, if_neg hs, if_neg hs, Option.bind_eq_bind, h1, Option.bind_some, h2, Option.bind_eq_bind, Option.bind_some, find?_table,
          Option.map_map]
        rfl
    obtain ⟨d, hfound⟩ := hfound
    simp only [hfound, Option.bind_eq_bind, Option.bind_some]
    cases hf : a.find p with
    | some r =>
      have hr : r ∈ a.live ∧ r.entry.heap.cnt = p.heapCnt := by
        unfold AStream.find at hf
        by_cases hs : p.heapLength = some p.payload.length
        · rw [if_pos hs] at hf; simp at hf
        · rw [if_neg hs] at hf
          exact ⟨List.mem_of_find?_eq_some hf, by simpa using List.find?_some hf⟩
      simp only [Option.map_some]
      obtain ⟨res, s', h1, h2, h3, h4, h5, h6, h7, h8, h9⟩ := deliver_refine hm rel.core inv hr.1 (Or.inl rfl) hv hr.2.symm
        (fun he => absurd ((inv.ok r hr.1).2.1 he) (by simp)) []
        { st with packets := st.packets + 1, single := st.single + (if p.heapLength = some p.payload.length then 1 else 0), searchDist := d } []
      refine ⟨res, s', d, h1, ?_, ⟨h3, ?_, ?_, ?_, ?_⟩, h5, h4.2.2.1⟩
      · rw [h2, h9]; simp
      · rw [h4.1]; exact rel.nheads
      · rw [h4.1, h6]; exact rel.heads
      · rw [h4.2.2.2, h7]; exact rel.created
      · rw [h4.2.1, h8]; exact rel.stopped
    | none =>
      simp only [Option.map_none]
      by_cases ho : cfg.allowOoo = false ∧ p.payloadOffset ≠ 0
      · rw [if_pos ho, if_pos ho]
        exact ⟨_, s, d, rfl, by simp, rel, inv, rfl⟩
      · rw [if_neg ho, if_neg ho]
        have hslt := Nat.mod_lt p.heapCnt hsub
        obtain ⟨s1, s2, t1, t2, t3, t4, t5, t6, t7, t8, t9⟩ := turn_refine hm rel.core inv hslt rel.nheads
          (rel.heads _ hslt)
        obtain ⟨s3, c1, c2, c3, c4, c5, c6⟩ := construct_spec t3 (bucketOf_lt cfg) t8 t9 p
        have inv' := inv.startHeap hm p
        have hlive : (a.startHeap cfg p).1.live = (a.startHeap cfg p).2 :: (a.evict cfg (p.heapCnt % cfg.substreams)).live := rfl
        have hr2 : (a.startHeap cfg p).2 = ⟨p.heapCnt % cfg.substreams, a.started (p.heapCnt % cfg.substreams), ⟨a.created, [], LiveHeap.new p⟩⟩ := rfl
        have hcore3 : Core cfg s3 (table cfg (a.startHeap cfg p).1.live) := by
          rw [hlive, hr2]
          rw [t7, rel.created] at c2
          exact c2
        obtain ⟨res, s', h1, h2, h3, h4, h5, h6, h7, h8, h9⟩ := deliver_refine hm hcore3 inv' (by rw [hlive]; exact List.mem_cons_self)
          (Or.inr rfl) hv rfl (fun _ => rfl) ((a.victim cfg (p.heapCnt % cfg.substreams)).toList.map LiveRec.entry)
          { st with packets := st.packets + 1, single := st.single + (if p.heapLength = some p.payload.length then 1 else 0), searchDist := d, evicted := st.evicted + ((a.victim cfg (p.heapCnt % cfg.substreams)).toList.map LiveRec.entry).length }
          ((a.victim cfg (p.heapCnt % cfg.substreams)).toList.map LiveRec.entry)
        have hpos : posOf cfg (a.startHeap cfg p).2 = cfg.start (p.heapCnt % cfg.substreams) + (a.started (p.heapCnt % cfg.substreams) + 1) % cfg.maxHeaps := rfl
        rw [hpos] at h2
        refine ⟨res, s', d, h1, ?_, ⟨h3, ?_, ?_, ?_, ?_⟩, h5, ?_⟩
        · rw [substreamOf_eq, t1, Option.bind_some]
          simp only
          rw [t2, Option.bind_some]
          simp only
          rw [c1, Option.bind_some, h2, h9]
        · rw [h4.1, c3, t4]; simpa using rel.nheads
        · intro i hi
          rw [h4.1, c3, t4, h6]
          have hn := rel.nheads
          rw [List.getElem?_set]
          by_cases hie : p.heapCnt % cfg.substreams = i
          · subst hie
            rw [if_pos rfl, if_pos (by omega)]
            simp [AStream.startHeap]
          · rw [if_neg hie, rel.heads i hi]
            simp only [AStream.startHeap]
            rw [if_neg (fun e => hie e.symm)]
        · rw [h4.2.2.2, c6, t7, h7, rel.created]; rfl
        · rw [h4.2.1, c4, t5, h8, rel.stopped]
          simp only [AStream.startHeap, AStream.evict]
          cases a.victim cfg (p.heapCnt % cfg.substreams) <;> rfl
        · rw [h4.2.2.1, c5, t6]


theorem deliver_stopped {cfg : StreamConfig} {a : AStream} {ev : List Entry} {r : LiveRec} {p : Pkt} {res : AResult}
    (h : a.deliver cfg ev r p = some res) : res.stream.stopped = a.stopped := by
  unfold AStream.deliver at h
  cases hp : r.entry.heap.addPacket p cfg.allowOoo with
  | none => rw [hp] at h; simp at h
  | some x =>
    obtain ⟨h', b⟩ := x
    rw [hp] at h
    simp only at h
    split at h
    · simp only [Option.some.injEq] at h; subst h; rfl
    · simp only [Option.some.injEq] at h; subst h; rfl

theorem addPacket_stopped {cfg : StreamConfig} {a : AStream} {p : Pkt} {res : AResult} (h : a.addPacket cfg p = some res) :
    res.stream.stopped = a.stopped := by
  unfold AStream.addPacket at h
  by_cases hu : p.heapLength = none ∧ cfg.allowUnsized = false
  · rw [if_pos hu] at h; simp only [Option.some.injEq] at h; subst h; rfl
  · rw [if_neg hu] at h
    cases hf : a.find p with
    | some r => rw [hf] at h; exact deliver_stopped h
    | none =>
      rw [hf] at h
      simp only at h
      by_cases ho : cfg.allowOoo = false ∧ p.payloadOffset ≠ 0
      · rw [if_pos ho] at h; simp only [Option.some.injEq] at h; subst h; rfl
      · rw [if_neg ho] at h
        rw [deliver_stopped h]
        simp only [AStream.startHeap, AStream.evict]
        cases a.victim cfg (p.heapCnt % cfg.substreams) <;> rfl

theorem packets_stopped {cfg : StreamConfig} : ∀ {ops : List BatchOp} {a a' : AStream} {t : List Ev} {e : Bool},
    AStream.packets cfg ops a = some (a', t, e) → a'.stopped = a.stopped
  | [], a, a', t, e, h => by simp only [AStream.packets, Option.some.injEq, Prod.mk.injEq] at h; rw [h.1]
  | .stop :: _, a, a', t, e, h => by simp only [AStream.packets, Option.some.injEq, Prod.mk.injEq] at h; rw [h.1]
  | .packet p :: ops, a, a', t, e, h => by
    rw [AStream.packets] at h
    cases hp : a.addPacket cfg p with
    | none => rw [hp] at h; simp at h
    | some r =>
      rw [hp] at h
      simp only at h
      have h1 := addPacket_stopped hp
      by_cases he : r.ended = true
      · rw [if_pos he] at h
        simp only [Option.some.injEq, Prod.mk.injEq] at h
        rw [← h.1, h1]
      · rw [if_neg he] at h
        cases hr : AStream.packets cfg ops r.stream with
        | none => rw [hr] at h; simp at h
        | some x =>
          obtain ⟨a2, t2, e2⟩ := x
          rw [hr] at h
          simp only [Option.some.injEq, Prod.mk.injEq] at h
          rw [← h.1, packets_stopped hr, h1]

/-! ### Flushing -/

theorem AInv.sublist {cfg : StreamConfig} {a : AStream} {f : Option Nat} (inv : AInv cfg a f) {l : List LiveRec} (h : l.Sublist a.live) :
    AInv cfg { a with live := l } f :=
  ⟨fun x hx => inv.sub x (h.subset hx), fun x hx => inv.lo x (h.subset hx), fun x hx => inv.hi x (h.subset hx),
    inv.order.sublist h, fun x hx => inv.ok x (h.subset hx), fun x hx => inv.uid x (h.subset hx), inv.uids.sublist h⟩

theorem evict_mem {cfg : StreamConfig} {a : AStream} {sub : Nat} {x : LiveRec} (hx : x ∈ (a.evict cfg sub).live) :
    x ∈ a.live ∧ ¬ (x.sub = sub ∧ x.seq + cfg.maxHeaps = a.started sub) := by
  cases hv : a.victim cfg sub with
  | none =>
    rw [AStream.evict, hv] at hx
    refine ⟨hx, ?_⟩
    have := List.find?_eq_none.1 hv x hx
    intro h
    exact this (decide_eq_true h)
  | some v =>
    rw [AStream.evict, hv] at hx
    obtain ⟨h1, h2⟩ := List.mem_filter.1 hx
    have h2 := of_decide_eq_true h2
    obtain ⟨v1, v2, v3⟩ := victim_mem hv
    refine ⟨h1, fun h => h2 ⟨?_, ?_⟩⟩
    · rw [h.1, v2]
    · omega

theorem evict_sublist (cfg : StreamConfig) (a : AStream) (sub : Nat) : (a.evict cfg sub).live.Sublist a.live := by
  unfold AStream.evict
  cases a.victim cfg sub with
  | none => exact List.Sublist.refl _
  | some v => exact List.filter_sublist

/-- The stream after substream `sub` has turned by one without starting a heap. -/
def turned (cfg : StreamConfig) (a : AStream) (sub : Nat) : AStream :=
  { a with live := (a.evict cfg sub).live, started := fun i => if i = sub then a.started sub + 1 else a.started i }

theorem AInv.turned {cfg : StreamConfig} {a : AStream} {f : Option Nat} (inv : AInv cfg a f) (sub : Nat) :
    AInv cfg (turned cfg a sub) f := by
  have h := inv.sublist (evict_sublist cfg a sub)
  refine ⟨h.sub, ?_, ?_, h.order, h.ok, h.uid, h.uids⟩
  · intro x hx
    have := h.lo x hx
    simp only at this
    show x.seq < if x.sub = sub then a.started sub + 1 else a.started x.sub
    split
    · next e => rw [e] at this; omega
    · exact this
  · intro x hx
    have := h.hi x hx
    simp only at this
    have h2 := (evict_mem hx).2
    show (if x.sub = sub then a.started sub + 1 else a.started x.sub) ≤ _
    split
    · next e => rw [e] at this; have := fun e' => h2 ⟨e, e'⟩; omega
    · exact this

/-- The victim is the oldest live heap of its substream. -/
theorem oldest_last {cfg : StreamConfig} {a : AStream} {f : Option Nat} (inv : AInv cfg a f) (sub : Nat) :
    a.live.filter (fun r => r.sub = sub) = (a.evict cfg sub).live.filter (fun r => r.sub = sub) ++ (a.victim cfg sub).toList := by
  unfold AStream.evict
  cases hv : a.victim cfg sub with
  | none => simp
  | some v =>
    obtain ⟨v1, v2, v3⟩ := victim_mem hv
    simp only [AStream.remove, Option.toList_some]
    obtain ⟨A, B, hAB⟩ := List.append_of_mem v1
    have hord := inv.order
    rw [hAB, List.pairwise_append] at hord
    obtain ⟨o1, o2, o3⟩ := hord
    rw [List.pairwise_cons] at o2
    have hB : B.filter (fun r => r.sub = sub) = [] := by
      rw [List.filter_eq_nil_iff]
      intro x hx hs
      have hs := of_decide_eq_true hs
      have h1 := o2.1 x hx (by rw [v2, hs])
      have h2 := inv.hi x (by rw [hAB]; simp [hx])
      rw [hs] at h2
      omega
    rw [hAB, List.filter_filter]
    have hA : A.filter (fun r => decide (r.sub = sub) && decide ¬ (r.sub = v.sub ∧ r.seq = v.seq)) = A.filter (fun r => r.sub = sub) := by
      apply List.filter_congr
      intro x hx
      have : ¬ (x.sub = v.sub ∧ x.seq = v.seq) := by
        rintro ⟨h1, h2⟩
        have := o3 x hx v (by simp) h1
        omega
      rw [decide_eq_true this, Bool.and_true]
    have hB2 : B.filter (fun r => decide (r.sub = sub) && decide ¬ (r.sub = v.sub ∧ r.seq = v.seq)) = [] := by
      rw [List.filter_eq_nil_iff] at hB ⊢
      intro x hx hs
      rw [Bool.and_eq_true] at hs
      exact hB x hx hs.1
    rw [List.filter_append, List.filter_append, List.filter_cons, List.filter_cons, hA, hB, hB2, if_pos (decide_eq_true v2), if_neg]
    · simp
    · simp

theorem evict_other (cfg : StreamConfig) (a : AStream) (sub : Nat) :
    (a.evict cfg sub).live.filter (fun r => r.sub ≠ sub) = a.live.filter (fun r => r.sub ≠ sub) := by
  unfold AStream.evict
  cases hv : a.victim cfg sub with
  | none => rfl
  | some v =>
    obtain ⟨v1, v2, v3⟩ := victim_mem hv
    simp only [AStream.remove]
    rw [List.filter_filter]
    apply List.filter_congr
    intro x _
    by_cases h : x.sub = sub
    · simp [h]
    · have h2 : ¬ (x.sub = v.sub ∧ x.seq = v.seq) := fun e => h (by rw [e.1, v2])
      rw [decide_eq_true h2, Bool.and_true]

theorem flushSub_refine {cfg : StreamConfig} (hm : 0 < cfg.maxHeaps) {sub : Nat} (hs : sub < cfg.substreams) :
    ∀ (n : Nat) {s : Stream} {a : AStream} {f : Option Nat}, Core cfg s (table cfg a.live) → AInv cfg a f →
      s.heads.length = cfg.substreams + 1 → s.heads[sub]? = some (cfg.start sub + a.started sub % cfg.maxHeaps) →
      (∀ r ∈ a.live, r.sub = sub → r.seq + cfg.maxHeaps < a.started sub + n) →
      ∃ s', Stream.flushSub cfg sub n s = some (s', ((a.live.filter (fun r => r.sub = sub)).reverse).map LiveRec.entry) ∧
        Core cfg s' (table cfg (a.live.filter (fun r => r.sub ≠ sub))) ∧
        s'.heads = s.heads.set sub (cfg.start sub + (a.started sub + n) % cfg.maxHeaps) ∧
        s'.stopped = s.stopped ∧ s'.stats = s.stats ∧ s'.created = s.created
  | 0, s, a, f, hc, inv, hlen, hh, hn => by
    have hno : ∀ r ∈ a.live, r.sub ≠ sub := by
      intro r hr e
      have h1 := hn r hr e
      have h2 := inv.hi r hr
      rw [e] at h2
      omega
    have h1 : a.live.filter (fun r => r.sub = sub) = [] := by
      rw [List.filter_eq_nil_iff]; intro r hr; simpa using hno r hr
    have h2 : a.live.filter (fun r => r.sub ≠ sub) = a.live := by
      rw [List.filter_eq_self]; intro r hr; simpa using hno r hr
    refine ⟨s, by rw [h1]; rfl, by rw [h2]; exact hc, ?_, rfl, rfl, rfl⟩
    obtain ⟨hlt, hval⟩ := List.getElem?_eq_some_iff.1 hh
    rw [Nat.add_zero, ← hval, List.set_getElem_self]
  | n + 1, s, a, f, hc, inv, hlen, hh, hn => by
    obtain ⟨s1, s2, t1, t2, t3, t4, t5, t6, t7, t8, t9⟩ := turn_refine hm hc inv hs hlen hh
    have hst : (turned cfg a sub).started sub = a.started sub + 1 := by simp [turned]
    obtain ⟨s', r1, r2, r3, r4, r5, r6⟩ := flushSub_refine hm hs n (s := s2) (a := turned cfg a sub) (f := f) t3 (inv.turned sub)
      (by rw [t4]; simpa using hlen)
      (by rw [t4, hst, List.getElem?_set_self (by omega)])
      (by
        intro r hr he
        have := hn r (evict_mem hr).1 he
        rw [hst]
        omega)
    refine ⟨s', ?_, ?_, ?_, r4.trans t5, r5.trans t6, r6.trans t7⟩
    · unfold Stream.flushSub
      rw [Option.bind_eq_bind, t1, Option.bind_some, Option.bind_eq_bind]
      simp only
      rw [t2, Option.bind_some]
      simp only
      rw [r1, Option.bind_some, oldest_last inv sub]
      simp only [List.reverse_append, List.map_append]
      cases a.victim cfg sub <;> rfl
    · rw [show (turned cfg a sub).live = (a.evict cfg sub).live from rfl, evict_other] at r2
      exact r2
    · rw [r3, t4, hst, List.set_set, show a.started sub + 1 + n = a.started sub + (n + 1) by omega]

theorem flatMap_congr' {α β : Type} {l : List α} {f g : α → List β} (h : ∀ x ∈ l, f x = g x) : l.flatMap f = l.flatMap g := by
  induction l with
  | nil => rfl
  | cons x l ih =>
    rw [List.flatMap_cons, List.flatMap_cons, h x List.mem_cons_self, ih (fun y hy => h y (List.mem_cons_of_mem _ hy))]

theorem flushSubs_refine {cfg : StreamConfig} (hm : 0 < cfg.maxHeaps) :
    ∀ (l : List Nat), l.Nodup → (∀ i ∈ l, i < cfg.substreams) → ∀ {s : Stream} {a : AStream} {f : Option Nat},
      Core cfg s (table cfg a.live) → AInv cfg a f → s.heads.length = cfg.substreams + 1 →
      (∀ i, i < cfg.substreams → s.heads[i]? = some (cfg.start i + a.started i % cfg.maxHeaps)) →
      ∃ s', Stream.flushSubs cfg l s = some (s', l.flatMap (fun i => ((a.live.filter (fun r => r.sub = i)).reverse).map LiveRec.entry)) ∧
        Core cfg s' (table cfg (a.live.filter (fun r => r.sub ∉ l))) ∧
        s'.heads = s.heads ∧ s'.stopped = s.stopped ∧ s'.stats = s.stats ∧ s'.created = s.created
  | [], _, _, s, a, f, hc, inv, hlen, hh => by
    refine ⟨s, rfl, ?_, rfl, rfl, rfl, rfl⟩
    rw [List.filter_eq_self.2 (by intro r _; simp)]
    exact hc
  | i :: l, hnd, hl, s, a, f, hc, inv, hlen, hh => by
    rw [List.nodup_cons] at hnd
    have hi := hl i List.mem_cons_self
    obtain ⟨s1, r1, r2, r3, r4, r5, r6⟩ := flushSub_refine hm hi cfg.maxHeaps hc inv hlen (hh i hi) (by
      intro r hr he
      have := inv.lo r hr
      rw [he] at this
      omega)
    have hheads : s1.heads = s.heads := by
      obtain ⟨hlt, hval⟩ := List.getElem?_eq_some_iff.1 (hh i hi)
      rw [r3, Nat.add_mod_right, ← hval, List.set_getElem_self]
    obtain ⟨s2, q1, q2, q3, q4, q5, q6⟩ := flushSubs_refine hm l hnd.2 (fun j hj => hl j (List.mem_cons_of_mem _ hj))
      (s := s1) (a := { a with live := a.live.filter (fun r => r.sub ≠ i) }) (f := f) r2 (inv.sublist List.filter_sublist)
      (by rw [hheads]; exact hlen) (by rw [hheads]; exact hh)
    refine ⟨s2, ?_, ?_, q3.trans hheads, q4.trans r4, q5.trans r5, q6.trans r6⟩
    · unfold Stream.flushSubs
      rw [Option.bind_eq_bind, r1, Option.bind_some]
      simp only
      rw [q1, Option.bind_some, List.flatMap_cons]
      congr 3
      apply flatMap_congr'
      intro j hj
      congr 2
      rw [List.filter_filter]
      apply List.filter_congr
      intro r _
      have : i ≠ j := fun e => hnd.1 (e ▸ hj)
      by_cases hr : r.sub = j
      · simp [hr]; exact fun e => this e.symm
      · simp [hr]
    · rw [List.filter_filter] at q2
      have : (fun r : LiveRec => decide (r.sub ∉ i :: l)) = (fun r => decide (r.sub ∉ l) && decide (r.sub ≠ i)) := by
        funext r
        by_cases h1 : r.sub = i <;> by_cases h2 : r.sub ∈ l <;> simp [h1, h2]
      rw [this]
      exact q2

theorem AInv.clear (cfg : StreamConfig) (a : AStream) (b : Bool) :
    AInv cfg { a with live := [], stopped := b } none :=
  ⟨by simp, by simp, by simp, by simp, by simp, by simp, by simp⟩

/-- Flushing hands over the live heaps substream by substream, oldest first. -/
theorem flush_refine {cfg : StreamConfig} (hm : 0 < cfg.maxHeaps) (hsub : 0 < cfg.substreams) {s : Stream} {a : AStream}
    (rel : Rel cfg s a) (inv : AInv cfg a none) :
    ∃ s', s.flush cfg = some (s', a.flushed cfg) ∧ Rel cfg s' a.clear ∧
      s'.stats = { s.stats with heaps := s.stats.heaps + (a.flushed cfg).length, flushed := s.stats.flushed + (a.flushed cfg).length } := by
  obtain ⟨s1, r1, r2, r3, r4, r5, r6⟩ := flushSubs_refine hm (List.range cfg.substreams) List.nodup_range
    (fun i hi => List.mem_range.1 hi) rel.core inv rel.nheads rel.heads
  have hall : a.live.filter (fun r => r.sub ∉ List.range cfg.substreams) = [] := by
    rw [List.filter_eq_nil_iff]
    intro r hr h
    have h := of_decide_eq_true h
    apply h
    rw [List.mem_range, inv.sub r hr]
    exact Nat.mod_lt _ hsub
  rw [hall] at r2
  refine ⟨{ s1 with stats := { s1.stats with heaps := s1.stats.heaps + (a.flushed cfg).length, flushed := s1.stats.flushed + (a.flushed cfg).length } }, ?_, ?_, ?_⟩
  · unfold Stream.flush
    rw [Option.bind_eq_bind, r1, Option.bind_some]
    rfl
  · refine ⟨⟨r2.nslots, r2.nbuckets, r2.nodup, r2.used, r2.free, r2.chain⟩, ?_, ?_, ?_, ?_⟩
    · show s1.heads.length = _; rw [r3]; exact rel.nheads
    · show ∀ i, i < cfg.substreams → s1.heads[i]? = _; rw [r3]; exact rel.heads
    · exact r6.trans rel.created
    · exact r4.trans rel.stopped
  · simp only [r5]

end Spead2
