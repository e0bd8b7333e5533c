import Verif.Lemmas.StreamRun

namespace Spead2
open Spec

/-! ### What becomes of every heap -/

theorem EntryOk.assembled {ooo : Bool} {e : Entry} (h : EntryOk ooo e) (hne : e.pkts ≠ []) : Assembled ooo e := by
  obtain ⟨p0, acc, h1, h2, h3, h4, h5⟩ := h
  cases hp : e.pkts with
  | nil => exact absurd hp hne
  | cons q rest =>
    have : q = p0 := h1 q (by rw [hp]; rfl)
    subst this
    exact ⟨q, rest, acc, hp, fun x hx => (h3 x hx).1, h4⟩

/-- `e'` is `e` after it was given `p`. -/
structure Given (ooo : Bool) (e e' : Entry) (p : Pkt) (b : Bool) : Prop where
  uid : e'.uid = e.uid
  cnt : e'.heap.cnt = e.heap.cnt
  pcnt : p.heapCnt = e.heap.cnt
  pkts : e'.pkts = e.pkts ++ [p]
  heap : e.heap.addPacket p ooo = some (e'.heap, b)
  first : e.pkts = [] → e.heap = LiveHeap.new p
  ok : EntryOk ooo e
  ok' : EntryOk ooo e'

theorem Given.accepted {ooo : Bool} {e e' : Entry} {p : Pkt} {b : Bool} (h : Given ooo e e' p b) :
    acceptedBy ooo e' = acceptedBy ooo e ++ if b then [p] else [] := by
  obtain ⟨p0, acc, h1, h2, h3, h4, h5⟩ := h.ok
  cases hp : e.pkts with
  | nil =>
    have hn := h.first hp
    have hh := h.heap
    rw [hn] at hh
    unfold acceptedBy
    rw [h.pkts, hp]
    simp only [List.nil_append]
    rw [show [p] = [] ++ [p] from rfl, run_append_one (acc := []) (s := LiveHeap.new p) rfl hh]
    simp
  | cons q rest =>
    have : q = p0 := h1 q (by rw [hp]; rfl)
    subst this
    unfold acceptedBy
    rw [h.pkts, hp]
    rw [hp] at h4
    simp only [List.cons_append]
    rw [← List.cons_append, run_append_one h4 h.heap, h4]
    simp

/-- The list of live heaps around one of them. -/
theorem AInv.split {cfg : StreamConfig} {a : AStream} {f : Option Nat} (inv : AInv cfg a f) {r : LiveRec} (hr : r ∈ a.live) :
    ∃ A B, a.live = A ++ r :: B ∧ (a.remove r).live = A ++ B ∧ ∀ e, (a.update r e).live = A ++ { r with entry := e } :: B := by
  obtain ⟨A, B, hAB⟩ := List.append_of_mem hr
  have hord := inv.order
  rw [hAB, List.pairwise_append] at hord
  obtain ⟨o1, o2, o3⟩ := hord
  rw [List.pairwise_cons] at o2
  have hA : ∀ x ∈ A, ¬ (x.sub = r.sub ∧ x.seq = r.seq) := by
    rintro x hx ⟨h1, h2⟩
    have := o3 x hx r (by simp) h1
    omega
  have hB : ∀ x ∈ B, ¬ (x.sub = r.sub ∧ x.seq = r.seq) := by
    rintro x hx ⟨h1, h2⟩
    have := o2.1 x hx h1.symm
    omega
  refine ⟨A, B, hAB, ?_, ?_⟩
  · unfold AStream.remove
    rw [hAB]
    simp only
    rw [List.filter_append, List.filter_cons, if_neg (by simp), List.filter_eq_self.2, List.filter_eq_self.2]
    · exact fun x hx => decide_eq_true (hB x hx)
    · exact fun x hx => decide_eq_true (hA x hx)
  · intro e
    unfold AStream.update
    rw [hAB]
    simp only
    rw [List.map_append, List.map_cons, if_pos ⟨rfl, rfl⟩]
    congr 1
    · conv => rhs; rw [← List.map_id A]
      apply List.map_congr_left
      intro x hx
      rw [if_neg (hA x hx)]; rfl
    · congr 1
      conv => rhs; rw [← List.map_id B]
      apply List.map_congr_left
      intro x hx
      rw [if_neg (hB x hx)]; rfl

def entries (a : AStream) : List Entry := a.live.map LiveRec.entry

theorem AInv.perm_remove {cfg : StreamConfig} {a : AStream} {f : Option Nat} (inv : AInv cfg a f) {r : LiveRec} (hr : r ∈ a.live) :
    (entries a).Perm (r.entry :: entries (a.remove r)) := by
  obtain ⟨A, B, h1, h2, _⟩ := inv.split hr
  unfold entries
  rw [h1, h2, List.map_append, List.map_append, List.map_cons]
  exact List.perm_middle

theorem AInv.perm_update {cfg : StreamConfig} {a : AStream} {f : Option Nat} (inv : AInv cfg a f) {r : LiveRec} (hr : r ∈ a.live) (e : Entry) :
    (entries (a.update r e)).Perm (e :: entries (a.remove r)) := by
  obtain ⟨A, B, h1, h2, h3⟩ := inv.split hr
  unfold entries
  rw [h3, h2, List.map_append, List.map_append, List.map_cons]
  exact List.perm_middle

/-- The same heap, possibly with more packets. -/
def SameHeap (x y : LiveRec) : Prop := x.sub = y.sub ∧ x.seq = y.seq ∧ x.entry.uid = y.entry.uid

theorem deliver_account {cfg : StreamConfig} {a : AStream} {f : Option Nat} (inv : AInv cfg a f) {r : LiveRec} (hr : r ∈ a.live)
    (hf : f = none ∨ f = some r.entry.uid) {p : Pkt} (hv : PktValid p) (hcnt : p.heapCnt = r.entry.heap.cnt)
    (hfirst : r.entry.pkts = [] → r.entry.heap = LiveHeap.new p) {ev : List Entry} {res : AResult}
    (h : a.deliver cfg ev r p = some res) :
    ∃ e' drop, (Given cfg.allowOoo r.entry e' p res.accepted ∧ res.ended = (res.accepted && cfg.stopOnStopItem && e'.heap.endOfStream)) ∧
      (res.completed ++ drop ++ entries res.stream).Perm (e' :: entries (a.remove r)) ∧ res.evicted = ev ∧
      (∀ e ∈ res.completed, e = e' ∧ e.heap.isComplete = true ∧ ¬ (cfg.stopOnStopItem = true ∧ e.heap.endOfStream = true)) ∧
      (∀ e ∈ drop, e = e' ∧ e.heap.isComplete = true ∧ cfg.stopOnStopItem = true ∧ e.heap.endOfStream = true ∧ res.ended = true) ∧
      drop.length ≤ 1 ∧ AInv cfg res.stream none ∧
      res.stream.started = a.started ∧ res.stream.created = a.created ∧
      (∀ x ∈ res.stream.live, ∃ y ∈ a.live, SameHeap x y) := by
  obtain ⟨h', b, h1, h2, h3, h4, h5, h6⟩ := inv.deliver hr hf hv hcnt hfirst ev
  unfold AStream.deliver at h
  rw [h1] at h
  simp only at h
  have hg : Given cfg.allowOoo r.entry { r.entry with pkts := r.entry.pkts ++ [p], heap := h' } p b :=
    ⟨rfl, h2, hcnt, rfl, h1, hfirst, (inv.ok r hr).1, h3⟩
  by_cases hc : b = true ∧ h'.isComplete = true
  · obtain ⟨hb, hcomp⟩ := hc
    subst hb
    rw [hcomp] at h
    simp only [Bool.true_and, if_true, Option.some.injEq] at h
    subst h
    refine ⟨_, if cfg.stopOnStopItem && h'.endOfStream then [{ r.entry with pkts := r.entry.pkts ++ [p], heap := h' }] else [],
      ⟨hg, rfl⟩, ?_, rfl, ?_, ?_, ?_, h5 ⟨rfl, hcomp⟩, rfl, rfl, fun x hx => ⟨x, (List.mem_filter.1 hx).1, rfl, rfl, rfl⟩⟩
    · cases cfg.stopOnStopItem && h'.endOfStream <;> simp
    · intro e he
      cases hse : cfg.stopOnStopItem && h'.endOfStream with
      | true => simp [hse] at he
      | false =>
        simp [hse] at he
        subst he
        refine ⟨rfl, hcomp, ?_⟩
        rintro ⟨g1, g2⟩
        simp only at g2
        rw [g1, g2] at hse
        simp at hse
    · intro e he
      cases hse : cfg.stopOnStopItem && h'.endOfStream with
      | false => simp [hse] at he
      | true =>
        simp [hse] at he
        subst he
        rw [Bool.and_eq_true] at hse
        exact ⟨rfl, hcomp, hse.1, hse.2, rfl⟩
    · cases cfg.stopOnStopItem && h'.endOfStream <;> simp
  · have hc' : ¬ ((b && h'.isComplete) = true) := by rw [Bool.and_eq_true]; exact hc
    rw [if_neg hc'] at h
    simp only [Option.some.injEq] at h
    subst h
    refine ⟨_, [], ⟨hg, rfl⟩, by simpa using inv.perm_update hr _, rfl, by simp, by simp, by simp, h6 hc, rfl, rfl, ?_⟩
    intro x hx
    obtain ⟨y, hy, y1, y2, y3⟩ := update_mem hx
    refine ⟨y, hy, y1, y2, ?_⟩
    rcases y3 with ⟨k1, k2, k3⟩ | ⟨_, k3⟩
    · rw [inv.eq_of_key hy hr k1 k2, k3]
    · rw [k3]

/-- Accounting for one packet. -/
theorem addPacket_account {cfg : StreamConfig} (hm : 0 < cfg.maxHeaps) {a : AStream} (inv : AInv cfg a none) {p : Pkt} (hv : PktValid p)
    {res : AResult} (h : a.addPacket cfg p = some res) :
    (res.stream = a ∧ res.evicted = [] ∧ res.completed = [] ∧ res.accepted = false ∧ res.ended = false) ∨
    ∃ e e' drop, (Given cfg.allowOoo e e' p res.accepted ∧ res.ended = (res.accepted && cfg.stopOnStopItem && e'.heap.endOfStream)) ∧
      (∀ x ∈ res.completed, x = e' ∧ x.heap.isComplete = true ∧ ¬ (cfg.stopOnStopItem = true ∧ x.heap.endOfStream = true)) ∧
      (∀ x ∈ drop, x = e' ∧ x.heap.isComplete = true ∧ cfg.stopOnStopItem = true ∧ x.heap.endOfStream = true ∧ res.ended = true) ∧
      drop.length ≤ 1 ∧ AInv cfg res.stream none ∧
      (a.find p ≠ none ∧ res.evicted = [] ∧
        (∃ X, (entries a).Perm (e :: X) ∧ (res.completed ++ drop ++ entries res.stream).Perm (e' :: X)) ∧
        res.stream.started = a.started ∧ res.stream.created = a.created ∧ (∀ x ∈ res.stream.live, ∃ y ∈ a.live, SameHeap x y) ∨
       a.find p = none ∧ e.uid = a.created ∧ e.pkts = [] ∧ res.evicted = (a.victim cfg (p.heapCnt % cfg.substreams)).toList.map LiveRec.entry ∧
        (res.evicted ++ res.completed ++ drop ++ entries res.stream).Perm (e' :: entries a) ∧
        res.stream.created = a.created + 1 ∧
        res.stream.started = (fun i => if i = p.heapCnt % cfg.substreams then a.started (p.heapCnt % cfg.substreams) + 1 else a.started i) ∧
        (∀ x ∈ res.stream.live, (∃ y ∈ a.live, SameHeap x y) ∨
          (x.sub = p.heapCnt % cfg.substreams ∧ x.seq = a.started (p.heapCnt % cfg.substreams) ∧ x.entry.uid = a.created))) := by
  unfold AStream.addPacket at h
  by_cases hu : p.heapLength = none ∧ cfg.allowUnsized = false
  · rw [if_pos hu] at h; simp only [Option.some.injEq] at h; subst h; exact Or.inl ⟨rfl, rfl, rfl, rfl, rfl⟩
  · rw [if_neg hu] at h
    cases hf : a.find p with
    | some r =>
      rw [hf] at h
      simp only at h
      have hr : r ∈ a.live ∧ r.entry.heap.cnt = p.heapCnt := by
        unfold AStream.find at hf
        by_cases hs : p.heapLength = some p.payload.length
        · rw [if_pos hs] at hf; simp at hf
        · rw [if_neg hs] at hf
          exact ⟨List.mem_of_find?_eq_some hf, by simpa using List.find?_some hf⟩
      obtain ⟨e', drop, d1, d2, d3, d4, d5, d6, d7, d8, d9, d10⟩ := deliver_account inv hr.1 (Or.inl rfl) hv hr.2.symm
        (fun he => absurd ((inv.ok r hr.1).2.1 he) (by simp)) h
      right
      exact ⟨r.entry, e', drop, d1, d4, d5, d6, d7, Or.inl ⟨by simp, d3, ⟨_, inv.perm_remove hr.1, d2⟩, d8, d9, d10⟩⟩
    | none =>
      rw [hf] at h
      simp only at h
      by_cases ho : cfg.allowOoo = false ∧ p.payloadOffset ≠ 0
      · rw [if_pos ho] at h; simp only [Option.some.injEq] at h; subst h; exact Or.inl ⟨rfl, rfl, rfl, rfl, rfl⟩
      · rw [if_neg ho] at h
        have inv' := inv.startHeap hm p
        have hlive : (a.startHeap cfg p).1.live = (a.startHeap cfg p).2 :: (a.evict cfg (p.heapCnt % cfg.substreams)).live := rfl
        obtain ⟨e', drop, d1, d2, d3, d4, d5, d6, d7, d8, d9, d10⟩ := deliver_account inv' (r := (a.startHeap cfg p).2)
          (by rw [hlive]; exact List.mem_cons_self) (Or.inr rfl) hv rfl (fun _ => rfl) h
        right
        refine ⟨_, e', drop, d1, d4, d5, d6, d7, Or.inr ⟨rfl, rfl, rfl, d3, ?_, d9, d8, ?_⟩⟩
        rotate_left
        · intro x hx
          obtain ⟨y, hy, k1, k2, k3⟩ := d10 x hx
          rw [hlive] at hy
          rcases List.mem_cons.1 hy with rfl | hy
          · exact Or.inr ⟨k1, k2, k3⟩
          · exact Or.inl ⟨y, (evict_sublist cfg a _).subset hy, k1, k2, k3⟩
        have hrem := inv'.perm_remove (r := (a.startHeap cfg p).2) (by rw [hlive]; exact List.mem_cons_self)
        have hent : entries (a.startHeap cfg p).1 = (a.startHeap cfg p).2.entry :: entries (a.evict cfg (p.heapCnt % cfg.substreams)) := by
          unfold entries; rw [hlive]; rfl
        rw [hent] at hrem
        have hrem' := hrem.cons_inv
        have hev : (entries a).Perm ((a.victim cfg (p.heapCnt % cfg.substreams)).toList.map LiveRec.entry ++
            entries (a.evict cfg (p.heapCnt % cfg.substreams))) := by
          unfold AStream.evict
          cases hvv : a.victim cfg (p.heapCnt % cfg.substreams) with
          | none => exact List.Perm.refl _
          | some v => exact inv.perm_remove (victim_mem hvv).1
        rw [d3]
        have h1 : ((a.victim cfg (p.heapCnt % cfg.substreams)).toList.map LiveRec.entry ++ (res.completed ++ drop ++ entries res.stream)).Perm
            ((a.victim cfg (p.heapCnt % cfg.substreams)).toList.map LiveRec.entry ++ (e' :: entries (a.evict cfg (p.heapCnt % cfg.substreams)))) :=
          List.Perm.append_left _ (d2.trans (hrem'.symm.cons _))
        have h2 : ((a.victim cfg (p.heapCnt % cfg.substreams)).toList.map LiveRec.entry ++ (e' :: entries (a.evict cfg (p.heapCnt % cfg.substreams)))).Perm
            (e' :: entries a) := List.perm_middle.trans (hev.symm.cons _)
        have h3 := h1.trans h2
        simpa only [List.append_assoc] using h3

/-! ### Accounting for a whole history -/

/-- Every heap ever started: handed over, dropped or live. -/
def allHeaps (t : List Ev) (d : List Entry) (a : AStream) : List Entry := handedOver t ++ d ++ entries a

structure Account (cfg : StreamConfig) (t : List Ev) (d : List Entry) (a : AStream) : Prop where
  uids : ((allHeaps t d a).map Entry.uid).Perm (List.range a.created)
  packets : (t.filterMap Ev.accepted?).Perm ((allHeaps t d a).flatMap (acceptedBy cfg.allowOoo))
  done : ∀ e ∈ handedOver t ++ d, EntryOk cfg.allowOoo e ∧ e.pkts ≠ []
  dropped : ∀ e ∈ d, e.heap.isComplete = true ∧ cfg.stopOnStopItem = true ∧ e.heap.endOfStream = true
  evicted : ∀ e, Ev.evicted e ∈ t → e.heap.isComplete = false
  flushed : ∀ e, Ev.flushed e ∈ t → e.heap.isComplete = false
  completed : ∀ e, Ev.completed e ∈ t → e.heap.isComplete = true ∧ ¬ (cfg.stopOnStopItem = true ∧ e.heap.endOfStream = true)
  started : ∀ i, a.started i = (allHeaps t d a).countP (fun e => e.heap.cnt % cfg.substreams = i)
  seq : ∀ r ∈ a.live, r.seq = (allHeaps t d a).countP (fun e => decide (e.heap.cnt % cfg.substreams = r.sub) && decide (e.uid < r.entry.uid))
  given : ∀ q, ((allHeaps t d a).flatMap Entry.pkts).count q ≤ (t.filterMap Ev.packet?).count q

theorem Account.new (cfg : StreamConfig) : Account cfg [] [] {} :=
  ⟨by simp [allHeaps, handedOver, entries], by simp [allHeaps, handedOver, entries], by simp [handedOver], by simp, by simp, by simp, by simp,
    by simp [allHeaps, handedOver, entries], by simp, by simp [allHeaps, handedOver, entries]⟩

theorem Account.uid_lt {cfg : StreamConfig} {t : List Ev} {d : List Entry} {a : AStream} (h : Account cfg t d a) {e : Entry}
    (he : e ∈ allHeaps t d a) : e.uid < a.created := by
  have := h.uids.subset (List.mem_map_of_mem he)
  simpa using this

theorem events_accepted (p : Pkt) (r : AResult) : (r.events p).filterMap Ev.accepted? = if r.accepted then [p] else [] := by
  unfold AResult.events
  rw [List.filterMap_cons, List.filterMap_append, filterMap_map_const _ _ (fun _ => rfl), filterMap_map_const _ _ (fun _ => rfl)]
  cases r.accepted <;> rfl

theorem events_packet (p : Pkt) (r : AResult) : (r.events p).filterMap Ev.packet? = [p] := by
  unfold AResult.events
  rw [List.filterMap_cons, List.filterMap_append, filterMap_map_const _ _ (fun _ => rfl), filterMap_map_const _ _ (fun _ => rfl)]
  rfl

theorem account_packet {cfg : StreamConfig} (hm : 0 < cfg.maxHeaps) {t : List Ev} {d : List Entry} {a : AStream} (acc : Account cfg t d a)
    (inv : AInv cfg a none) {p : Pkt} (hv : PktValid p) {res : AResult} (h : a.addPacket cfg p = some res) :
    ∃ drop, Account cfg (t ++ res.events p) (d ++ drop) res.stream ∧ drop.length ≤ 1 ∧ (drop ≠ [] → res.ended = true) := by
  have hho : handedOver (res.events p) = res.evicted ++ res.completed := (events_counts p res).2.1
  rcases addPacket_account hm inv hv h with ⟨h1, h2, h3, h4, h5⟩ | ⟨e, e', drop, ⟨g, hend⟩, hcomp, hdrop, hlen, inv', hcase⟩
  · refine ⟨[], ?_, by simp, by simp⟩
    have hev : res.events p = [.packet p false] := by unfold AResult.events; rw [h2, h3, h4]; rfl
    have hall : allHeaps (t ++ res.events p) (d ++ []) res.stream = allHeaps t d a := by
      unfold allHeaps; rw [handedOver_append, hho, h2, h3, h1]; simp
    refine ⟨?_, ?_, ?_, ?_, ?_, ?_, ?_, ?_, ?_, ?_⟩
    rotate_right
    · intro q
      rw [hall, List.filterMap_append, events_packet, List.count_append]
      exact Nat.le_trans (acc.given q) (Nat.le_add_right _ _)
    · rw [hall, h1]; exact acc.uids
    · rw [hall, List.filterMap_append, events_accepted, h4]; simpa using acc.packets
    · rw [handedOver_append, hho, h2, h3]; simpa using acc.done
    · simpa using acc.dropped
    · rw [hev]; simpa using acc.evicted
    · rw [hev]; simpa using acc.flushed
    · rw [hev]; simpa using acc.completed
    · rw [hall, h1]; exact acc.started
    · rw [hall, h1]; exact acc.seq
  · refine ⟨drop, ?_, hlen, ?_⟩
    rotate_left
    · intro hne
      obtain ⟨x, hx⟩ := List.exists_mem_of_ne_nil _ hne
      exact (hdrop x hx).2.2.2.2
    have hpk' : e'.pkts ≠ [] := by rw [g.pkts]; simp
    have hsub : e.heap.cnt % cfg.substreams = p.heapCnt % cfg.substreams := by rw [g.pcnt]
    have hsub' : e'.heap.cnt % cfg.substreams = p.heapCnt % cfg.substreams := by rw [g.cnt, g.pcnt]
    have hevic : ∀ x ∈ res.evicted, x ∈ entries a := by
      intro x hx
      rcases hcase with ⟨_, h2, _⟩ | ⟨_, _, _, h2, _⟩
      · rw [h2] at hx; simp at hx
      · rw [h2] at hx
        obtain ⟨r, hr, rfl⟩ := List.mem_map.1 hx
        exact List.mem_map_of_mem (victim_mem (Option.mem_toList.1 hr)).1
    have hall : (allHeaps (t ++ res.events p) (d ++ drop) res.stream).Perm (handedOver t ++ d ++ (res.evicted ++ res.completed ++ drop ++ entries res.stream)) := by
      unfold allHeaps
      rw [handedOver_append, hho]
      simp only [List.append_assoc]
      apply List.Perm.append_left
      have : ∀ (A B C D E : List Entry), (A ++ (B ++ (C ++ (D ++ E)))).Perm (C ++ (A ++ (B ++ (D ++ E)))) := by
        intro A B C D E
        rw [← List.append_assoc A B, ← List.append_assoc A B]
        exact List.perm_append_comm_assoc _ _ _
      exact this _ _ _ _ _
    have hfin : ∃ X, (allHeaps (t ++ res.events p) (d ++ drop) res.stream).Perm (e' :: X) ∧
        ((allHeaps t d a).Perm (e :: X) ∧ res.stream.created = a.created ∧ res.stream.started = a.started ∧ (∀ x ∈ res.stream.live, ∃ y ∈ a.live, SameHeap x y) ∨
         allHeaps t d a = X ∧ e.uid = a.created ∧ e.pkts = [] ∧ res.stream.created = a.created + 1 ∧
          res.stream.started = (fun i => if i = p.heapCnt % cfg.substreams then a.started (p.heapCnt % cfg.substreams) + 1 else a.started i) ∧
          (∀ x ∈ res.stream.live, (∃ y ∈ a.live, SameHeap x y) ∨
            (x.sub = p.heapCnt % cfg.substreams ∧ x.seq = a.started (p.heapCnt % cfg.substreams) ∧ x.entry.uid = a.created))) := by
      rcases hcase with ⟨_, h2, ⟨X, h3, h4⟩, h5, h6, h7⟩ | ⟨_, h2, h3, h4, h5, h6, h7, h8⟩
      · refine ⟨handedOver t ++ d ++ X, ?_, Or.inl ⟨?_, h6, h5, h7⟩⟩
        · refine hall.trans ?_
          rw [h2, List.nil_append]
          exact (List.Perm.append_left _ h4).trans List.perm_middle
        · exact (List.Perm.append_left _ h3).trans List.perm_middle
      · exact ⟨allHeaps t d a, hall.trans ((List.Perm.append_left _ h5).trans List.perm_middle), Or.inr ⟨rfl, h2, h3, h6, h7, h8⟩⟩
    obtain ⟨X, hX', hX⟩ := hfin
    have hacc := g.accepted
    have hmid : (acceptedBy cfg.allowOoo e = [] ∨ True) := Or.inr trivial
    refine ⟨?_, ?_, ?_, ?_, ?_, ?_, ?_, ?_, ?_, ?_⟩
    rotate_right
    · intro q
      have hgv := acc.given q
      rw [(hX'.flatMap_right _).count_eq, List.flatMap_cons, g.pkts, List.filterMap_append, events_packet, List.count_append, List.count_append, List.count_append]
      rcases hX with ⟨k1, _⟩ | ⟨k1, _, k2, _⟩
      · rw [(k1.flatMap_right _).count_eq, List.flatMap_cons, List.count_append] at hgv
        omega
      · rw [k2, List.count_nil]
        rw [k1] at hgv
        omega
    · refine (hX'.map _).trans ?_
      rcases hX with ⟨k1, k2, _⟩ | ⟨k1, k2, _, k3, _⟩
      · rw [k2]
        refine List.Perm.trans ?_ acc.uids
        refine List.Perm.trans ?_ (k1.map _).symm
        rw [List.map_cons, List.map_cons, g.uid]
      · rw [k3, List.range_succ, List.map_cons, g.uid, k2]
        refine List.Perm.trans ?_ List.perm_append_comm
        rw [List.singleton_append, ← k1]
        exact acc.uids.cons _
    · rw [List.filterMap_append, events_accepted]
      refine List.Perm.trans ?_ (hX'.flatMap_right _).symm
      rw [List.flatMap_cons, hacc]
      rcases hX with ⟨k1, _⟩ | ⟨k1, _, k2, _⟩
      · have h1 := acc.packets.trans (k1.flatMap_right _)
        rw [List.flatMap_cons] at h1
        refine (List.Perm.append_right _ h1).trans ?_
        rw [List.append_assoc, List.append_assoc]
        exact List.Perm.append_left _ List.perm_append_comm
      · have h0 : acceptedBy cfg.allowOoo e = [] := by unfold acceptedBy; rw [k2]
        rw [h0, List.nil_append, ← k1]
        exact (List.Perm.append_right _ acc.packets).trans List.perm_append_comm
    · intro x hx
      rw [handedOver_append, hho] at hx
      simp only [List.mem_append] at hx
      rcases hx with (hx | hx | hx) | hx | hx
      · exact acc.done x (by simp [hx])
      · obtain ⟨r, hr, rfl⟩ := List.mem_map.1 (hevic x hx)
        exact ⟨(inv.ok r hr).1, fun he => absurd ((inv.ok r hr).2.1 he) (by simp)⟩
      · rw [(hcomp x hx).1]; exact ⟨g.ok', hpk'⟩
      · exact acc.done x (by simp [hx])
      · rw [(hdrop x hx).1]; exact ⟨g.ok', hpk'⟩
    · intro x hx
      rcases List.mem_append.1 hx with hx | hx
      · exact acc.dropped x hx
      · have := hdrop x hx; exact ⟨this.2.1, this.2.2.1, this.2.2.2.1⟩
    · intro x hx
      rcases List.mem_append.1 hx with hx | hx
      · exact acc.evicted x hx
      · have : x ∈ res.evicted := by
          simpa [AResult.events] using hx
        obtain ⟨r, hr, rfl⟩ := List.mem_map.1 (hevic x this)
        exact (inv.ok r hr).2.2
    · intro x hx
      rcases List.mem_append.1 hx with hx | hx
      · exact acc.flushed x hx
      · simp [AResult.events] at hx
    · intro x hx
      rcases List.mem_append.1 hx with hx | hx
      · exact acc.completed x hx
      · have : x ∈ res.completed := by
          simpa [AResult.events] using hx
        exact (hcomp x this).2
    · intro i
      rw [hX'.countP_eq, List.countP_cons]
      rcases hX with ⟨k1, _, k3, _⟩ | ⟨k1, _, _, _, k4, _⟩
      · rw [k3, acc.started i, k1.countP_eq, List.countP_cons, g.cnt]
      · rw [k4, ← k1, ← acc.started i]
        simp only
        by_cases hi : i = p.heapCnt % cfg.substreams
        · rw [if_pos hi, if_pos (by rw [hsub', hi]; simp), hi]
        · rw [if_neg hi, if_neg (by rw [hsub']; simpa using fun e => hi e.symm)]; rfl
    · intro r hr
      rw [hX'.countP_eq, List.countP_cons]
      have hold : ∀ y ∈ a.live, SameHeap r y → r.seq = (allHeaps t d a).countP (fun e => decide (e.heap.cnt % cfg.substreams = r.sub) && decide (e.uid < r.entry.uid)) := by
        rintro y hy ⟨e1, e2, e3⟩
        rw [e1, e2, e3]; exact acc.seq y hy
      rcases hX with ⟨k1, _, k3, k4⟩ | ⟨k1, k2, _, _, _, k5⟩
      · obtain ⟨y, hy, hs⟩ := k4 r hr
        rw [hold y hy hs, k1.countP_eq, List.countP_cons, g.cnt, g.uid]
      · rw [← k1]
        rcases k5 r hr with ⟨y, hy, hs⟩ | ⟨n1, n2, n3⟩
        · rw [hold y hy hs]
          have hlt := inv.uid y hy
          rw [← hs.2.2] at hlt
          rw [if_neg]
          · rfl
          · rw [g.uid, k2]
            simp only [Bool.and_eq_true, decide_eq_true_eq, not_and]
            intro _; omega
        · rw [n2, acc.started, if_neg]
          · rw [Nat.add_zero]
            apply List.countP_congr
            intro x hx
            rw [n1, n3]
            have := acc.uid_lt hx
            simp [this]
          · rw [g.uid, k2, n3]; simp

theorem account_batchEvent {cfg : StreamConfig} {t : List Ev} {d : List Entry} {a : AStream} (acc : Account cfg t d a) (n : Nat) (e : Bool) :
    Account cfg (t ++ batchEvent n e) d a := by
  unfold batchEvent
  split
  · simpa using acc
  · have hho : handedOver (t ++ [Ev.batch n]) = handedOver t := by rw [handedOver_append]; simp [handedOver, Ev.heap?]
    have hall : allHeaps (t ++ [Ev.batch n]) d a = allHeaps t d a := by unfold allHeaps; rw [hho]
    refine ⟨?_, ?_, ?_, acc.dropped, ?_, ?_, ?_, ?_, ?_, ?_⟩
    rotate_right
    · intro q
      rw [hall, List.filterMap_append, show [Ev.batch n].filterMap Ev.packet? = [] from rfl, List.append_nil]; exact acc.given q
    · rw [hall]; exact acc.uids
    · rw [hall, List.filterMap_append, show [Ev.batch n].filterMap Ev.accepted? = [] from rfl, List.append_nil]; exact acc.packets
    · rw [hho]; exact acc.done
    · simpa using acc.evicted
    · simpa using acc.flushed
    · simpa using acc.completed
    · rw [hall]; exact acc.started
    · rw [hall]; exact acc.seq

theorem account_packets {cfg : StreamConfig} (hm : 0 < cfg.maxHeaps) (hsub : 0 < cfg.substreams) :
    ∀ (ops : List BatchOp) (_ : OpsValid ops) {t : List Ev} {d : List Entry} {a : AStream} (_ : Account cfg t d a) (_ : AInv cfg a none)
      {a' : AStream} {t' : List Ev} {en : Bool} (_ : AStream.packets cfg ops a = some (a', t', en)),
    ∃ drop, Account cfg (t ++ t') (d ++ drop) a' ∧ AInv cfg a' none ∧ drop.length ≤ 1 ∧ (drop ≠ [] → en = true)
  | [], _, t, d, a, acc, inv, a', t', en, h => by
    simp only [AStream.packets, Option.some.injEq, Prod.mk.injEq] at h
    obtain ⟨rfl, rfl, rfl⟩ := h
    exact ⟨[], by simpa using acc, inv, by simp, by simp⟩
  | .stop :: ops, _, t, d, a, acc, inv, a', t', en, h => by
    simp only [AStream.packets, Option.some.injEq, Prod.mk.injEq] at h
    obtain ⟨rfl, rfl, rfl⟩ := h
    exact ⟨[], by simpa using acc, inv, by simp, by simp⟩
  | .packet p :: ops, hv, t, d, a, acc, inv, a', t', en, h => by
    have hvp := hv p List.mem_cons_self
    rw [AStream.packets] at h
    cases hr : a.addPacket cfg p with
    | none => rw [hr] at h; simp at h
    | some res =>
      rw [hr] at h
      simp only at h
      obtain ⟨drop, a1, a2, a3⟩ := account_packet hm acc inv hvp hr
      have inv' : AInv cfg res.stream none := by
        rcases addPacket_account hm inv hvp hr with ⟨h1, _⟩ | ⟨e, e', drop, ⟨g, hend⟩, hcomp, hdrop, hlen, inv', hcase⟩
        · rw [h1]; exact inv
        · exact inv'
      cases he : res.ended with
      | true =>
        rw [he, if_pos rfl] at h
        simp only [Option.some.injEq, Prod.mk.injEq] at h
        obtain ⟨rfl, rfl, rfl⟩ := h
        exact ⟨drop, a1, inv', a2, fun _ => rfl⟩
      | false =>
        rw [he, if_neg (by simp)] at h
        have hd : drop = [] := by
          by_cases hd : drop = []
          · exact hd
          · rw [he] at a3; exact absurd (a3 hd) (by simp)
        subst hd
        cases hr2 : AStream.packets cfg ops res.stream with
        | none => rw [hr2] at h; simp at h
        | some x =>
          obtain ⟨a2', t2, e2⟩ := x
          rw [hr2] at h
          simp only [Option.some.injEq, Prod.mk.injEq] at h
          obtain ⟨rfl, rfl, rfl⟩ := h
          obtain ⟨drop2, b1, b2, b3, b4⟩ := account_packets hm hsub ops (fun q hq => hv q (List.mem_cons_of_mem _ hq)) a1 inv' hr2
          refine ⟨drop2, ?_, b2, b3, b4⟩
          rw [← List.append_assoc]
          simpa using b1

theorem flushed_perm_aux (live : List LiveRec) : ∀ n,
    ((List.range n).flatMap (fun i => ((live.filter (fun r => r.sub = i)).reverse).map LiveRec.entry)).Perm
      ((live.filter (fun r => r.sub < n)).map LiveRec.entry)
  | 0 => by simp
  | n + 1 => by
    rw [List.range_succ, List.flatMap_append]
    have ih := flushed_perm_aux live n
    have h1 : ((live.filter (fun r => r.sub < n)) ++ (live.filter (fun r => r.sub = n))).Perm (live.filter (fun r => r.sub < n + 1)) := by
      have := List.filter_append_perm (fun r : LiveRec => decide (r.sub < n)) (live.filter (fun r => r.sub < n + 1))
      rw [List.filter_filter, List.filter_filter] at this
      have e1 : live.filter (fun r => decide (r.sub < n) && decide (r.sub < n + 1)) = live.filter (fun r => r.sub < n) := by
        apply List.filter_congr
        intro x _
        by_cases h : x.sub < n
        · have : x.sub < n + 1 := by omega
          simp [h, this]
        · simp [h]
      have e2 : live.filter (fun r => (!decide (r.sub < n)) && decide (r.sub < n + 1)) = live.filter (fun r => r.sub = n) := by
        apply List.filter_congr
        intro x _
        by_cases h : x.sub = n
        · simp [h]
        · by_cases h2 : x.sub < n
          · simp [h, h2]
          · have : ¬ x.sub < n + 1 := by omega
            rw [decide_eq_false this, decide_eq_false h, Bool.and_false]
      rw [e1, e2] at this
      exact this
    refine List.Perm.trans ?_ (h1.map _)
    rw [List.map_append]
    refine ih.append ?_
    simp only [List.flatMap_cons, List.flatMap_nil, List.append_nil]
    exact (List.reverse_perm _).map _

theorem AInv.flushed_perm {cfg : StreamConfig} {a : AStream} {f : Option Nat} (inv : AInv cfg a f) (hsub : 0 < cfg.substreams) :
    (a.flushed cfg).Perm (entries a) := by
  have := flushed_perm_aux a.live cfg.substreams
  rw [List.filter_eq_self.2 (fun r hr => by rw [inv.sub r hr]; exact decide_eq_true (Nat.mod_lt _ hsub))] at this
  exact this

theorem account_flush {cfg : StreamConfig} (hsub : 0 < cfg.substreams) {t : List Ev} {d : List Entry} {a : AStream} (acc : Account cfg t d a)
    (inv : AInv cfg a none) (b : Bool) : Account cfg (t ++ (a.flushed cfg).map .flushed) d { a with live := [], stopped := b } := by
  have hfl : ∀ x ∈ a.flushed cfg, ∃ r ∈ a.live, r.entry = x := by
    intro x hx
    have := (inv.flushed_perm hsub).subset hx
    obtain ⟨r, hr, h⟩ := List.mem_map.1 this
    exact ⟨r, hr, h⟩
  have hho : handedOver (t ++ (a.flushed cfg).map .flushed) = handedOver t ++ a.flushed cfg := by
    rw [handedOver_append, (flushed_counts _).2.1]
  have hall : (allHeaps (t ++ (a.flushed cfg).map .flushed) d { a with live := [], stopped := b }).Perm (allHeaps t d a) := by
    unfold allHeaps
    rw [hho]
    simp only [entries, List.map_nil, List.append_nil]
    rw [List.append_assoc, List.append_assoc]
    refine List.Perm.append_left _ (List.perm_append_comm.trans (List.Perm.append_left _ ?_))
    exact inv.flushed_perm hsub
  have hmem : ∀ x : Entry, Ev.evicted x ∉ (a.flushed cfg).map Ev.flushed ∧ Ev.completed x ∉ (a.flushed cfg).map Ev.flushed := by
    intro x
    simp
  refine ⟨?_, ?_, ?_, acc.dropped, ?_, ?_, ?_, ?_, ?_, ?_⟩
  rotate_right
  · intro q
    rw [(hall.flatMap_right _).count_eq, List.filterMap_append, filterMap_map_const _ _ (fun _ => rfl), List.append_nil]
    exact acc.given q
  · exact (hall.map _).trans acc.uids
  · refine List.Perm.trans ?_ (hall.flatMap_right _).symm
    rw [List.filterMap_append, filterMap_map_const _ _ (fun _ => rfl), List.append_nil]
    exact acc.packets
  · intro x hx
    rw [hho] at hx
    simp only [List.mem_append] at hx
    rcases hx with (hx | hx) | hx
    · exact acc.done x (by simp [hx])
    · obtain ⟨r, hr, rfl⟩ := hfl x hx
      exact ⟨(inv.ok r hr).1, fun he => absurd ((inv.ok r hr).2.1 he) (by simp)⟩
    · exact acc.done x (by simp [hx])
  · intro x hx
    rcases List.mem_append.1 hx with hx | hx
    · exact acc.evicted x hx
    · exact absurd hx (hmem x).1
  · intro x hx
    rcases List.mem_append.1 hx with hx | hx
    · exact acc.flushed x hx
    · obtain ⟨y, hy, h⟩ := List.mem_map.1 hx
      simp only [Ev.flushed.injEq] at h
      subst h
      obtain ⟨r, hr, rfl⟩ := hfl y hy
      exact (inv.ok r hr).2.2
  · intro x hx
    rcases List.mem_append.1 hx with hx | hx
    · exact acc.completed x hx
    · exact absurd hx (hmem x).2
  · intro i
    rw [hall.countP_eq]; exact acc.started i
  · simp

theorem account_step {cfg : StreamConfig} (hm : 0 < cfg.maxHeaps) (hsub : 0 < cfg.substreams) {t : List Ev} {d : List Entry} {a : AStream}
    (acc : Account cfg t d a) (inv : AInv cfg a none) (hd : d.length ≤ 1 ∧ (d ≠ [] → a.stopped = true)) {op : StreamOp} (hv : op.Valid)
    {a' : AStream} {t' : List Ev} (h : a.step cfg op = some (a', t')) :
    ∃ d', Account cfg (t ++ t') d' a' ∧ AInv cfg a' none ∧ d'.length ≤ 1 ∧ (d' ≠ [] → a'.stopped = true) := by
  cases op with
  | flush =>
    simp only [AStream.step, Option.some.injEq, Prod.mk.injEq] at h
    obtain ⟨rfl, rfl⟩ := h
    exact ⟨d, account_flush hsub acc inv a.stopped, AInv.clear cfg a a.stopped, hd⟩
  | stop =>
    simp only [AStream.step] at h
    cases hs : a.stopped with
    | true =>
      simp only [hs, if_true, Option.some.injEq, Prod.mk.injEq] at h
      obtain ⟨rfl, rfl⟩ := h
      exact ⟨d, by simpa using acc, inv, hd.1, fun _ => hs⟩
    | false =>
      simp only [hs, AStream.halt, Bool.false_eq_true, if_false, Option.some.injEq, Prod.mk.injEq] at h
      obtain ⟨rfl, rfl⟩ := h
      exact ⟨d, account_flush hsub acc inv true, AInv.clear cfg a true, hd.1, fun _ => rfl⟩
  | batch ops =>
    simp only [AStream.step] at h
    cases hs : a.stopped with
    | true =>
      simp only [hs, if_true, Option.some.injEq, Prod.mk.injEq] at h
      obtain ⟨rfl, rfl⟩ := h
      exact ⟨d, by simpa using acc, inv, hd.1, fun _ => hs⟩
    | false =>
      have hd0 : d = [] := by
        by_cases h0 : d = []
        · exact h0
        · rw [hs] at hd; exact absurd (hd.2 h0) (by simp)
      subst hd0
      rw [hs, if_neg (by simp)] at h
      cases hp : AStream.packets cfg ops a with
      | none => rw [hp] at h; simp at h
      | some x =>
        obtain ⟨a1, t1, en⟩ := x
        rw [hp] at h
        obtain ⟨drop, b1, b2, b3, b4⟩ := account_packets hm hsub ops hv acc inv hp
        rw [List.nil_append] at b1
        cases en with
        | false =>
          simp only [Option.some.injEq, Prod.mk.injEq] at h
          obtain ⟨rfl, rfl⟩ := h
          have hdr : drop = [] := by
            by_cases h0 : drop = []
            · exact h0
            · exact absurd (b4 h0) (by simp)
          subst hdr
          refine ⟨[], ?_, b2, by simp, by simp⟩
          rw [← List.append_assoc]
          exact account_batchEvent b1 _ _
        | true =>
          simp only [AStream.halt, Option.some.injEq, Prod.mk.injEq] at h
          obtain ⟨rfl, rfl⟩ := h
          refine ⟨drop, ?_, AInv.clear cfg a1 true, b3, fun _ => rfl⟩
          rw [← List.append_assoc, ← List.append_assoc]
          exact account_batchEvent (account_flush hsub b1 b2 true) _ _

theorem account_run {cfg : StreamConfig} (hm : 0 < cfg.maxHeaps) (hsub : 0 < cfg.substreams) :
    ∀ (ops : List StreamOp) (_ : ∀ op ∈ ops, op.Valid) {t : List Ev} {d : List Entry} {a : AStream}
      (_ : Account cfg t d a) (_ : AInv cfg a none) (_ : d.length ≤ 1 ∧ (d ≠ [] → a.stopped = true))
      {a' : AStream} {t' : List Ev} (_ : AStream.run cfg ops a = some (a', t')),
    ∃ d', Account cfg (t ++ t') d' a' ∧ AInv cfg a' none ∧ d'.length ≤ 1 ∧ (d' ≠ [] → a'.stopped = true)
  | [], _, t, d, a, acc, inv, hd, a', t', h => by
    simp only [AStream.run, Option.some.injEq, Prod.mk.injEq] at h
    obtain ⟨rfl, rfl⟩ := h
    exact ⟨d, by simpa using acc, inv, hd⟩
  | op :: ops, hv, t, d, a, acc, inv, hd, a', t', h => by
    rw [AStream.run] at h
    cases h1 : a.step cfg op with
    | none => rw [h1] at h; simp at h
    | some x =>
      obtain ⟨a1, t1⟩ := x
      rw [h1] at h
      simp only at h
      cases h2 : AStream.run cfg ops a1 with
      | none => rw [h2] at h; simp at h
      | some y =>
        obtain ⟨a2, t2⟩ := y
        rw [h2] at h
        simp only [Option.some.injEq, Prod.mk.injEq] at h
        obtain ⟨rfl, rfl⟩ := h
        obtain ⟨d1, c1, c2, c3⟩ := account_step hm hsub acc inv hd (hv op List.mem_cons_self) h1
        obtain ⟨d2, e1, e2⟩ := account_run hm hsub ops (fun o ho => hv o (List.mem_cons_of_mem _ ho)) c1 c2 c3 h2
        exact ⟨d2, by rw [← List.append_assoc]; exact e1, e2⟩

/-! ### The live heaps of the concrete stream -/

theorem pairwise_eq_of_uid {R : List LiveRec} (h : R.Pairwise (fun x y => y.entry.uid < x.entry.uid)) {r r' : LiveRec}
    (hr : r ∈ R) (hr' : r' ∈ R) (h1 : r.entry.uid = r'.entry.uid) : r = r' := by
  induction R with
  | nil => simp at hr
  | cons x R ih =>
    rw [List.pairwise_cons] at h
    rcases List.mem_cons.1 hr with e1 | hr1 <;> rcases List.mem_cons.1 hr' with e2 | hr2
    · rw [e1, e2]
    · have := h.1 r' hr2; rw [← e1] at this; omega
    · have := h.1 r hr1; rw [← e2] at this; omega
    · exact ih h.2 hr1 hr2

theorem liveHeaps_perm {cfg : StreamConfig} (hm : 0 < cfg.maxHeaps) {s : Stream} {a : AStream} (rel : Rel cfg s a) (inv : AInv cfg a none) :
    (s.slots.filterMap Slot.heap).Perm (entries a) := by
  have hmem : ∀ e i, s.slots[i]?.bind Slot.heap = some e → ∃ r ∈ a.live, posOf cfg r = i ∧ r.entry = e := by
    intro e i h
    by_cases hi : i < s.slots.length
    · by_cases hk : i ∈ (table cfg a.live).map Prod.fst
      · obtain ⟨x, hx, rfl⟩ := List.mem_map.1 hk
        obtain ⟨nx, h1, _⟩ := rel.core.used x hx
        rw [h1] at h
        simp at h
        obtain ⟨r, hr, rfl⟩ := List.mem_map.1 hx
        exact ⟨r, hr, rfl, h⟩
      · have := rel.core.free i hi hk
        rw [this] at h; simp at h
    · rw [List.getElem?_eq_none (by omega)] at h; simp at h
  have huniq : ∀ r ∈ a.live, ∀ r' ∈ a.live, r.entry = r'.entry → r = r' := by
    intro r hr r' hr' he
    exact pairwise_eq_of_uid inv.uids hr hr' (by rw [he])
  have hnd1 : (entries a).Nodup := by
    unfold entries
    rw [List.nodup_iff_pairwise_ne, List.pairwise_map]
    exact inv.uids.imp (fun h e => by rw [e] at h; omega)
  have hnd2 : (s.slots.filterMap Slot.heap).Nodup := by
    rw [List.nodup_iff_pairwise_ne, List.pairwise_filterMap, List.pairwise_iff_getElem]
    intro i j hi hj hij b hb b' hb' he
    subst he
    obtain ⟨r, hr, h1, h2⟩ := hmem b i (by rw [List.getElem?_eq_getElem hi]; exact hb)
    obtain ⟨r', hr', h1', h2'⟩ := hmem b j (by rw [List.getElem?_eq_getElem hj]; exact hb')
    have := huniq r hr r' hr' (by rw [h2, h2'])
    subst this
    omega
  rw [List.perm_ext_iff_of_nodup hnd2 hnd1]
  intro e
  rw [List.mem_filterMap]
  constructor
  · rintro ⟨sl, hsl, he⟩
    obtain ⟨i, hi, rfl⟩ := List.getElem_of_mem hsl
    obtain ⟨r, hr, _, h2⟩ := hmem e i (by rw [List.getElem?_eq_getElem hi]; exact he)
    exact h2 ▸ List.mem_map_of_mem hr
  · intro he
    obtain ⟨r, hr, rfl⟩ := List.mem_map.1 he
    obtain ⟨nx, h1, _⟩ := rel.core.used _ (mem_table hr)
    exact ⟨_, List.mem_of_getElem? h1, rfl⟩

/-- A substream's live heaps fit in its window. -/
theorem AInv.length_sub {cfg : StreamConfig} {a : AStream} {f : Option Nat} (inv : AInv cfg a f) (i : Nat) :
    (a.live.filter (fun r => r.sub = i)).length ≤ cfg.maxHeaps := by
  have hnd : ((a.live.filter (fun r => r.sub = i)).map (fun r => r.seq + cfg.maxHeaps - a.started i)).Nodup := by
    rw [List.nodup_iff_pairwise_ne, List.pairwise_map]
    have h1 := inv.order.sublist (List.filter_sublist (p := fun r : LiveRec => decide (r.sub = i)))
    refine List.Pairwise.imp_of_mem ?_ h1
    intro x y hx hy h he
    have hx1 := of_decide_eq_true (List.mem_filter.1 hx).2
    have hy1 := of_decide_eq_true (List.mem_filter.1 hy).2
    have h2 := h (by rw [hx1, hy1])
    have h3 := inv.hi y (List.mem_filter.1 hy).1
    have h4 := inv.hi x (List.mem_filter.1 hx).1
    rw [hy1] at h3
    rw [hx1] at h4
    omega
  have := length_le_of_nodup_lt cfg.maxHeaps _ hnd (by
    intro k hk
    obtain ⟨x, hx, rfl⟩ := List.mem_map.1 hk
    have hx1 := of_decide_eq_true (List.mem_filter.1 hx).2
    have h3 := inv.lo x (List.mem_filter.1 hx).1
    rw [hx1] at h3
    have h4 := inv.hi x (List.mem_filter.1 hx).1
    rw [hx1] at h4
    omega)
  simpa using this

/-! ### Which packets were presented -/

theorem packetCount_eq (t : List Ev) : packetCount t = (t.filterMap Ev.packet?).length := by
  unfold packetCount
  induction t with
  | nil => rfl
  | cons x t ih =>
    rw [List.countP_cons, List.filterMap_cons, ih]
    cases x <;> simp [Ev.isPacket, Ev.packet?]

theorem single_eq (t : List Ev) : t.countP Ev.isSingle = (t.filterMap Ev.packet?).countP (fun p => p.heapLength = some p.payload.length) := by
  induction t with
  | nil => rfl
  | cons x t ih =>
    rw [List.countP_cons, List.filterMap_cons, ih]
    cases x <;> simp [Ev.isSingle, Ev.packet?, List.countP_cons]

theorem batches_eq (t : List Ev) : t.countP Ev.isBatch = (t.filterMap Ev.batch?).length := by
  induction t with
  | nil => rfl
  | cons x t ih =>
    rw [List.countP_cons, List.filterMap_cons, ih]
    cases x <;> simp [Ev.isBatch, Ev.batch?]

theorem events_packets (p : Pkt) (r : AResult) : (r.events p).filterMap Ev.packet? = [p] ∧ (r.events p).filterMap Ev.batch? = [] := by
  unfold AResult.events
  constructor
  · rw [List.filterMap_cons, List.filterMap_append, filterMap_map_const _ _ (fun _ => rfl), filterMap_map_const _ _ (fun _ => rfl)]; rfl
  · rw [List.filterMap_cons, List.filterMap_append, filterMap_map_const _ _ (fun _ => rfl), filterMap_map_const _ _ (fun _ => rfl)]; rfl

theorem packets_prefix {cfg : StreamConfig} : ∀ {ops : List BatchOp} {a a' : AStream} {t : List Ev} {e : Bool},
    AStream.packets cfg ops a = some (a', t, e) →
    t.filterMap Ev.packet? <+: batchPackets ops ∧ (e = false → t.filterMap Ev.packet? = batchPackets ops) ∧ t.filterMap Ev.batch? = []
  | [], a, a', t, e, h => by
    simp only [AStream.packets, Option.some.injEq, Prod.mk.injEq] at h
    obtain ⟨_, rfl, rfl⟩ := h
    exact ⟨List.prefix_rfl, fun _ => rfl, rfl⟩
  | .stop :: ops, a, a', t, e, h => by
    simp only [AStream.packets, Option.some.injEq, Prod.mk.injEq] at h
    obtain ⟨_, rfl, rfl⟩ := h
    exact ⟨List.nil_prefix, by simp, rfl⟩
  | .packet p :: ops, a, a', t, e, h => by
    rw [AStream.packets] at h
    have hb : batchPackets (.packet p :: ops) = p :: batchPackets ops := rfl
    cases hr : a.addPacket cfg p with
    | none => rw [hr] at h; simp at h
    | some res =>
      obtain ⟨e1, e2⟩ := events_packets p res
      rw [hr] at h
      simp only at h
      cases he : res.ended with
      | true =>
        rw [he, if_pos rfl] at h
        simp only [Option.some.injEq, Prod.mk.injEq] at h
        obtain ⟨_, rfl, rfl⟩ := h
        rw [e1, e2, hb]
        exact ⟨by simp, by simp, rfl⟩
      | false =>
        rw [he, if_neg (by simp)] at h
        cases hr2 : AStream.packets cfg ops res.stream with
        | none => rw [hr2] at h; simp at h
        | some x =>
          obtain ⟨a2', t2, e2'⟩ := x
          rw [hr2] at h
          simp only [Option.some.injEq, Prod.mk.injEq] at h
          obtain ⟨_, rfl, rfl⟩ := h
          obtain ⟨i1, i2, i3⟩ := packets_prefix hr2
          rw [List.filterMap_append, List.filterMap_append, e1, e2, i3, hb]
          refine ⟨?_, ?_, rfl⟩
          · simpa using i1
          · intro hf; rw [i2 hf]; rfl

theorem flushed_packets (l : List Entry) : (l.map Ev.flushed).filterMap Ev.packet? = [] ∧ (l.map Ev.flushed).filterMap Ev.batch? = [] :=
  ⟨filterMap_map_const _ _ (fun _ => rfl) l, filterMap_map_const _ _ (fun _ => rfl) l⟩

theorem batchEvent_packets (n : Nat) (e : Bool) : (batchEvent n e).filterMap Ev.packet? = [] ∧
    (batchEvent n e).filterMap Ev.batch? = if n = 0 ∧ e = true then [] else [n] := by
  unfold batchEvent
  split <;> exact ⟨rfl, rfl⟩

theorem step_stopped {cfg : StreamConfig} {a a' : AStream} {op : StreamOp} {t : List Ev} (h : a.step cfg op = some (a', t)) :
    (a.stopped = true → a'.stopped = true ∧ t.filterMap Ev.packet? = [] ∧ t.filterMap Ev.batch? = []) ∧
    (a.stopped = false → t.filterMap Ev.packet? <+: presented [op] ∧ (t.filterMap Ev.batch?).sum = (t.filterMap Ev.packet?).length ∧
      (a'.stopped = false → t.filterMap Ev.packet? = presented [op] ∧ t.filterMap Ev.batch? = batchSizes [op])) := by
  cases op with
  | flush =>
    simp only [AStream.step, Option.some.injEq, Prod.mk.injEq] at h
    obtain ⟨rfl, rfl⟩ := h
    obtain ⟨f1, f2⟩ := flushed_packets (a.flushed cfg)
    rw [f1, f2]
    exact ⟨fun hs => ⟨hs, rfl, rfl⟩, fun _ => ⟨List.nil_prefix, rfl, fun _ => ⟨rfl, rfl⟩⟩⟩
  | stop =>
    simp only [AStream.step] at h
    cases hs : a.stopped with
    | true =>
      simp only [hs, if_true, Option.some.injEq, Prod.mk.injEq] at h
      obtain ⟨rfl, rfl⟩ := h
      exact ⟨fun _ => ⟨hs, rfl, rfl⟩, by simp⟩
    | false =>
      simp only [hs, AStream.halt, Bool.false_eq_true, if_false, Option.some.injEq, Prod.mk.injEq] at h
      obtain ⟨rfl, rfl⟩ := h
      obtain ⟨f1, f2⟩ := flushed_packets (a.flushed cfg)
      rw [f1, f2]
      exact ⟨by simp, fun _ => ⟨List.nil_prefix, rfl, fun _ => ⟨rfl, rfl⟩⟩⟩
  | batch ops =>
    simp only [AStream.step] at h
    cases hs : a.stopped with
    | true =>
      simp only [hs, if_true, Option.some.injEq, Prod.mk.injEq] at h
      obtain ⟨rfl, rfl⟩ := h
      exact ⟨fun _ => ⟨hs, rfl, rfl⟩, by simp⟩
    | false =>
      refine ⟨by simp, fun _ => ?_⟩
      rw [hs, if_neg (by simp)] at h
      have hpr : presented [.batch ops] = batchPackets ops := by simp [presented]
      cases hp : AStream.packets cfg ops a with
      | none => rw [hp] at h; simp at h
      | some x =>
        obtain ⟨a1, t1, en⟩ := x
        rw [hp] at h
        obtain ⟨p1, p2, p3⟩ := packets_prefix hp
        cases en with
        | false =>
          simp only [Option.some.injEq, Prod.mk.injEq] at h
          obtain ⟨rfl, rfl⟩ := h
          obtain ⟨b1, b2⟩ := batchEvent_packets (packetCount t1) false
          rw [List.filterMap_append, List.filterMap_append, b1, b2, p3, hpr, List.append_nil, List.nil_append, if_neg (by simp)]
          refine ⟨p1, by simp [packetCount_eq], fun _ => ⟨p2 rfl, ?_⟩⟩
          rw [packetCount_eq, p2 rfl]
          rfl
        | true =>
          simp only [AStream.halt, Option.some.injEq, Prod.mk.injEq] at h
          obtain ⟨rfl, rfl⟩ := h
          obtain ⟨f1, f2⟩ := flushed_packets (a1.flushed cfg)
          obtain ⟨b1, b2⟩ := batchEvent_packets (packetCount t1) true
          rw [List.filterMap_append, List.filterMap_append, List.filterMap_append, List.filterMap_append, f1, f2, b1, b2, p3, hpr,
            List.append_nil, List.append_nil, List.nil_append, List.nil_append]
          refine ⟨p1, ?_, by simp⟩
          by_cases hz : packetCount t1 = 0
          · rw [if_pos ⟨hz, rfl⟩, ← packetCount_eq, hz]; rfl
          · rw [if_neg (fun h => hz h.1), ← packetCount_eq]; simp

theorem presented_cons (op : StreamOp) (ops : List StreamOp) : presented (op :: ops) = presented [op] ++ presented ops := by
  simp [presented]

theorem batchSizes_cons (op : StreamOp) (ops : List StreamOp) : batchSizes (op :: ops) = batchSizes [op] ++ batchSizes ops := by
  unfold batchSizes; rw [← List.filterMap_append]; rfl

theorem run_presented {cfg : StreamConfig} : ∀ {ops : List StreamOp} {a a' : AStream} {t : List Ev}, AStream.run cfg ops a = some (a', t) →
    (a.stopped = true → a'.stopped = true ∧ t.filterMap Ev.packet? = [] ∧ t.filterMap Ev.batch? = []) ∧
    (a.stopped = false → t.filterMap Ev.packet? <+: presented ops ∧ (t.filterMap Ev.batch?).sum = (t.filterMap Ev.packet?).length ∧
      (a'.stopped = false → t.filterMap Ev.packet? = presented ops ∧ t.filterMap Ev.batch? = batchSizes ops))
  | [], a, a', t, h => by
    simp only [AStream.run, Option.some.injEq, Prod.mk.injEq] at h
    obtain ⟨rfl, rfl⟩ := h
    exact ⟨fun hs => ⟨hs, rfl, rfl⟩, fun _ => ⟨List.nil_prefix, rfl, fun _ => ⟨rfl, rfl⟩⟩⟩
  | op :: ops, a, a', t, h => by
    rw [AStream.run] at h
    cases h1 : a.step cfg op with
    | none => rw [h1] at h; simp at h
    | some x =>
      obtain ⟨a1, t1⟩ := x
      rw [h1] at h
      simp only at h
      cases h2 : AStream.run cfg ops a1 with
      | none => rw [h2] at h; simp at h
      | some y =>
        obtain ⟨a2, t2⟩ := y
        rw [h2] at h
        simp only [Option.some.injEq, Prod.mk.injEq] at h
        obtain ⟨rfl, rfl⟩ := h
        obtain ⟨s1, s2⟩ := step_stopped h1
        obtain ⟨r1, r2⟩ := run_presented h2
        rw [List.filterMap_append, List.filterMap_append, presented_cons, batchSizes_cons]
        constructor
        · intro hs
          obtain ⟨k1, k2, k3⟩ := s1 hs
          obtain ⟨l1, l2, l3⟩ := r1 k1
          rw [k2, k3, l2, l3]
          exact ⟨l1, rfl, rfl⟩
        · intro hs
          obtain ⟨k1, k2, k3⟩ := s2 hs
          cases hs1 : a1.stopped with
          | true =>
            obtain ⟨l1, l2, l3⟩ := r1 hs1
            rw [l2, l3, List.append_nil, List.append_nil]
            refine ⟨k1.trans (List.prefix_append _ _), k2, fun h => ?_⟩
            rw [l1] at h; simp at h
          | false =>
            obtain ⟨l1, l2, l3⟩ := r2 hs1
            obtain ⟨m1, m2⟩ := k3 hs1
            rw [m1] at k2 ⊢
            refine ⟨?_, ?_, ?_⟩
            · exact (List.prefix_append_right_inj _).2 l1
            · rw [List.sum_append, k2, l2, List.length_append]
            · intro h
              obtain ⟨n1, n2⟩ := l3 h
              rw [m2, n1, n2]; exact ⟨rfl, rfl⟩

theorem step_live {cfg : StreamConfig} {a a' : AStream} {op : StreamOp} {t : List Ev} (h : a.step cfg op = some (a', t))
    (hl : a.stopped = true → a.live = []) : (a'.stopped = true → a'.live = []) ∧ (a.stopped = true → t = [] ∧ a'.created = a.created) := by
  cases op with
  | flush =>
    simp only [AStream.step, Option.some.injEq, Prod.mk.injEq] at h
    obtain ⟨rfl, rfl⟩ := h
    refine ⟨fun _ => rfl, fun hs => ?_⟩
    simp [AStream.flushed, AStream.clear, hl hs]
  | stop =>
    simp only [AStream.step] at h
    cases hs : a.stopped with
    | true =>
      simp only [hs, if_true, Option.some.injEq, Prod.mk.injEq] at h
      obtain ⟨rfl, rfl⟩ := h
      exact ⟨hl, fun _ => ⟨rfl, rfl⟩⟩
    | false =>
      simp only [hs, AStream.halt, Bool.false_eq_true, if_false, Option.some.injEq, Prod.mk.injEq] at h
      obtain ⟨rfl, rfl⟩ := h
      exact ⟨fun _ => rfl, by simp⟩
  | batch ops =>
    simp only [AStream.step] at h
    cases hs : a.stopped with
    | true =>
      simp only [hs, if_true, Option.some.injEq, Prod.mk.injEq] at h
      obtain ⟨rfl, rfl⟩ := h
      exact ⟨hl, fun _ => ⟨rfl, rfl⟩⟩
    | false =>
      refine ⟨?_, by simp⟩
      rw [hs, if_neg (by simp)] at h
      cases hp : AStream.packets cfg ops a with
      | none => rw [hp] at h; simp at h
      | some x =>
        obtain ⟨a1, t1, en⟩ := x
        rw [hp] at h
        have hst := packets_stopped hp
        cases en with
        | false =>
          simp only [Option.some.injEq, Prod.mk.injEq] at h
          obtain ⟨rfl, rfl⟩ := h
          rw [hst, hs]; simp
        | true =>
          simp only [AStream.halt, Option.some.injEq, Prod.mk.injEq] at h
          obtain ⟨rfl, rfl⟩ := h
          exact fun _ => rfl

theorem run_live {cfg : StreamConfig} : ∀ {ops : List StreamOp} {a a' : AStream} {t : List Ev}, AStream.run cfg ops a = some (a', t) →
    (a.stopped = true → a.live = []) → (a'.stopped = true → a'.live = []) ∧ (a.stopped = true → t = [] ∧ a'.created = a.created)
  | [], a, a', t, h, hl => by
    simp only [AStream.run, Option.some.injEq, Prod.mk.injEq] at h
    obtain ⟨rfl, rfl⟩ := h
    exact ⟨hl, fun _ => ⟨rfl, rfl⟩⟩
  | op :: ops, a, a', t, h, hl => by
    rw [AStream.run] at h
    cases h1 : a.step cfg op with
    | none => rw [h1] at h; simp at h
    | some x =>
      obtain ⟨a1, t1⟩ := x
      rw [h1] at h
      simp only at h
      cases h2 : AStream.run cfg ops a1 with
      | none => rw [h2] at h; simp at h
      | some y =>
        obtain ⟨a2, t2⟩ := y
        rw [h2] at h
        simp only [Option.some.injEq, Prod.mk.injEq] at h
        obtain ⟨rfl, rfl⟩ := h
        obtain ⟨k1, k2⟩ := step_live h1 hl
        obtain ⟨l1, l2⟩ := run_live h2 k1
        refine ⟨l1, fun hs => ?_⟩
        obtain ⟨m1, m2⟩ := l2 ((step_stopped h1).1 hs).1
        rw [(k2 hs).1, m1, m2, (k2 hs).2]; exact ⟨rfl, rfl⟩

/-- The order of a flush: by substream, then by age. -/
theorem AInv.flushed_sorted {cfg : StreamConfig} {a : AStream} {f : Option Nat} (inv : AInv cfg a f) :
    (a.flushed cfg).Pairwise (fun x y => x.heap.cnt % cfg.substreams < y.heap.cnt % cfg.substreams ∨
      (x.heap.cnt % cfg.substreams = y.heap.cnt % cfg.substreams ∧ x.uid < y.uid)) := by
  have hsub : ∀ i, ∀ x ∈ ((a.live.filter (fun r => r.sub = i)).reverse).map LiveRec.entry, x.heap.cnt % cfg.substreams = i := by
    intro i x hx
    obtain ⟨r, hr, rfl⟩ := List.mem_map.1 hx
    rw [List.mem_reverse] at hr
    rw [← inv.sub r (List.mem_filter.1 hr).1]
    exact of_decide_eq_true (List.mem_filter.1 hr).2
  unfold AStream.flushed
  rw [List.pairwise_flatMap]
  constructor
  · intro i _
    rw [List.pairwise_map, List.pairwise_reverse]
    refine List.Pairwise.imp_of_mem ?_ (inv.uids.sublist List.filter_sublist)
    intro x y hx hy h
    right
    refine ⟨?_, h⟩
    rw [← inv.sub x (List.mem_filter.1 hx).1, ← inv.sub y (List.mem_filter.1 hy).1,
      of_decide_eq_true (List.mem_filter.1 hx).2, of_decide_eq_true (List.mem_filter.1 hy).2]
  · refine List.pairwise_lt_range.imp ?_
    intro i j hij x hx y hy
    left
    rw [hsub i x hx, hsub j y hy]; exact hij

theorem packets_stop_mem {cfg : StreamConfig} : ∀ {ops : List BatchOp} {a a' : AStream} {t : List Ev} {e : Bool},
    AStream.packets cfg ops a = some (a', t, e) → .stop ∈ ops → e = true
  | [], _, _, _, _, _, hm => by simp at hm
  | .stop :: ops, a, a', t, e, h, _ => by
    simp only [AStream.packets, Option.some.injEq, Prod.mk.injEq] at h
    exact h.2.2.symm
  | .packet p :: ops, a, a', t, e, h, hm => by
    have hm' : BatchOp.stop ∈ ops := by simpa using hm
    rw [AStream.packets] at h
    cases hr : a.addPacket cfg p with
    | none => rw [hr] at h; simp at h
    | some res =>
      rw [hr] at h
      simp only at h
      cases he : res.ended with
      | true =>
        rw [he, if_pos rfl] at h
        simp only [Option.some.injEq, Prod.mk.injEq] at h
        exact h.2.2.symm
      | false =>
        rw [he, if_neg (by simp)] at h
        cases hr2 : AStream.packets cfg ops res.stream with
        | none => rw [hr2] at h; simp at h
        | some x =>
          obtain ⟨a2', t2, e2'⟩ := x
          rw [hr2] at h
          simp only [Option.some.injEq, Prod.mk.injEq] at h
          rw [← h.2.2]
          exact packets_stop_mem hr2 hm'

end Spead2
