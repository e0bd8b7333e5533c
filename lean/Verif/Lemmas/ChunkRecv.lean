import Verif.Lemmas.StreamAccount
import Verif.Lemmas.ChunkStream
import Verif.Spec.ChunkRecv

namespace Spead2
open Spec

/-! ### Calls for one heap -/

theorem callsOf_append (u : Nat) (a b : List MemCall) : callsOf u (a ++ b) = callsOf u a ++ callsOf u b := List.filter_append ..

theorem copiesOf_append (u : Nat) (a b : List Pkt) : copiesOf u (a ++ b) = copiesOf u a ++ copiesOf u b := List.filterMap_append

theorem callsOf_heap (u : Nat) (h : LiveHeap) (p : Pkt) (pl : Place) (b : Bool) : callsOf u (heapCalls u h p pl b) = heapCalls u h p pl b := by
  unfold callsOf
  rw [List.filter_eq_self]
  intro c hc
  unfold heapCalls reserveCalls copyCalls at hc
  cases b with
  | false => simp at hc
  | true =>
    cases hl : p.heapLength with
    | none =>
      simp only [hl, if_true, List.nil_append] at hc
      split at hc <;> simp_all [MemCall.uid?]
    | some n =>
      simp only [hl, if_true] at hc
      rcases List.mem_append.1 hc with hc | hc <;> split at hc <;> simp_all [MemCall.uid?]

theorem callsOf_heap_ne {u v : Nat} (hne : u ≠ v) (h : LiveHeap) (p : Pkt) (pl : Place) (b : Bool) : callsOf u (heapCalls v h p pl b) = [] := by
  rw [← callsOf_heap v h p pl b]
  unfold callsOf
  rw [List.filter_filter, List.filter_eq_nil_iff]
  intro c _ hc
  rw [Bool.and_eq_true, decide_eq_true_eq, decide_eq_true_eq] at hc
  rw [hc.1] at hc
  exact hne (Option.some.inj hc.2)

theorem callsOf_ready_none {u : Nat} {l : List Entry} (h : ∀ x ∈ l, x.uid ≠ u) : callsOf u (readyCalls l) = [] := by
  unfold callsOf readyCalls
  rw [List.filter_eq_nil_iff]
  intro c hc he
  obtain ⟨x, hx, rfl⟩ := List.mem_map.1 hc
  simp only [MemCall.uid?, decide_eq_true_eq, Option.some.injEq] at he
  exact h x hx he

theorem callsOf_ready_mem : ∀ {l : List Entry}, (l.map Entry.uid).Nodup → ∀ {e : Entry}, e ∈ l →
    callsOf e.uid (readyCalls l) = [.ready e.uid e.heap.isComplete]
  | [], _, e, h => by cases h
  | x :: l, hn, e, h => by
    rw [List.map_cons, List.nodup_cons] at hn
    have hcons : readyCalls (x :: l) = [.ready x.uid x.heap.isComplete] ++ readyCalls l := rfl
    rw [hcons, callsOf_append]
    rcases List.mem_cons.1 h with rfl | h
    · rw [callsOf_ready_none (l := l) (fun y hy he => hn.1 (List.mem_map.2 ⟨y, hy, he⟩))]
      simp [callsOf, MemCall.uid?]
    · have : x.uid ≠ e.uid := fun he => hn.1 (List.mem_map.2 ⟨e, h, he.symm⟩)
      rw [callsOf_ready_mem hn.2 h]
      simp [callsOf, MemCall.uid?, this]

theorem callsOf_flush (u : Nat) : callsOf u [.flush] = [] := by simp [callsOf, MemCall.uid?]

/-! ### Entries -/

theorem EntryOk.inv {ooo : Bool} {e : Entry} (h : EntryOk ooo e) : LInv ooo e.heap (acceptedBy ooo e) := by
  obtain ⟨p0, acc, h1, h2, h3, h4, h5⟩ := h
  unfold acceptedBy
  cases hp : e.pkts with
  | nil =>
    rw [hp] at h4
    simp only [LiveHeap.run, Option.some.injEq, Prod.mk.injEq] at h4
    rw [← h4.2] at h5
    exact h5
  | cons q rest =>
    have : q = p0 := h1 q (by rw [hp]; rfl)
    subst this
    simp only
    rw [← hp, h4]
    exact h5

theorem EntryOk.acc_subset {ooo : Bool} {e : Entry} (h : EntryOk ooo e) {q : Pkt} (hq : q ∈ acceptedBy ooo e) : q ∈ e.pkts ∧ PktValid q := by
  obtain ⟨p0, acc, h1, h2, h3, h4, h5⟩ := h
  unfold acceptedBy at hq
  cases hp : e.pkts with
  | nil => rw [hp] at hq; cases hq
  | cons r rest =>
    have : r = p0 := h1 r (by rw [hp]; rfl)
    subst this
    rw [hp] at hq
    simp only at hq
    obtain ⟨s', l, g1, _, hsub, _⟩ := run_inv (LInv.new ooo r) e.pkts (fun x hx => (h3 x hx).2)
    rw [hp] at g1 hsub
    rw [g1] at hq
    have := hsub.subset hq
    rw [← hp]
    exact ⟨by rw [hp]; exact this, (h3 q (by rw [hp]; exact this)).2⟩

theorem addPacket_rejected {h h' : LiveHeap} {p : Pkt} {ooo : Bool} (hh : h.addPacket p ooo = some (h', false)) : h' = h := by
  unfold LiveHeap.addPacket at hh
  cases ha : h.admit p ooo with
  | none => rw [ha] at hh; simp only [Option.some.injEq, Prod.mk.injEq] at hh; exact hh.1.symm
  | some m =>
    rw [ha] at hh
    simp only at hh
    split at hh
    · split at hh <;> simp at hh
    · simp at hh

theorem addPacket_first {p : Pkt} {ooo : Bool} {h' : LiveHeap} {b : Bool} (hh : (LiveHeap.new p).addPacket p ooo = some (h', b))
    (ho : ooo = true ∨ p.payloadOffset = 0) : b = true := by
  have hne : (LiveHeap.new p).admit p ooo ≠ none := by
    unfold LiveHeap.admit
    have h1 : lengthConflict (LiveHeap.new p).heapLength p.heapLength = false := rfl
    have h2 : lengthTooSmall (LiveHeap.new p).minLength p.heapLength = false := by
      show lengthTooSmall 0 p.heapLength = false
      cases p.heapLength <;> simp [lengthTooSmall]
    rw [h1, h2]
    simp only [Bool.false_eq_true, if_false, LiveHeap.new, ne_eq, not_true_eq_false]
    cases ooo with
    | true => simp [addRange]
    | false =>
      rcases ho with h | h
      · cases h
      · simp [h]
  unfold LiveHeap.addPacket at hh
  cases ha : (LiveHeap.new p).admit p ooo with
  | none => exact absurd ha hne
  | some m =>
    rw [ha] at hh
    simp only at hh
    split at hh
    · split at hh
      · simp at hh
      · simp only [Option.some.injEq, Prod.mk.injEq] at hh; exact hh.2.symm
    · simp only [Option.some.injEq, Prod.mk.injEq] at hh; exact hh.2.symm

/-- The heap length stays what it is. -/
theorem Given.length {ooo : Bool} {e e' : Entry} {p : Pkt} {b : Bool} (g : Given ooo e e' p b) {n : Nat} (h : e.heap.heapLength = some n) :
    e'.heap.heapLength = some n := by
  obtain ⟨q, hq, hl⟩ := g.ok.inv.hlsome n h
  refine g.ok'.inv.hlall q ?_ n hl
  rw [g.accepted]
  exact List.mem_append_left _ hq

theorem Given.length_new {ooo : Bool} {e e' : Entry} {p : Pkt} (g : Given ooo e e' p true) {n : Nat} (h : p.heapLength = some n) :
    e'.heap.heapLength = some n := by
  refine g.ok'.inv.hlall p ?_ n h
  rw [g.accepted]
  simp

theorem copyCalls_eq (u : Nat) (p : Pkt) : copyCalls u p = copiesOf u [p] := by
  unfold copyCalls copiesOf
  cases hp : p.payload <;> simp [hp]

/-- The calls for an old heap. -/
theorem Given.mem_old {ooo : Bool} {e e' : Entry} {p : Pkt} {b : Bool} (g : Given ooo e e' p b) (hl : e.heap.heapLength ≠ none)
    (pl pl' : Place) : memCalls ooo pl e ++ heapCalls e.uid e.heap p pl' b = memCalls ooo pl e' := by
  obtain ⟨n, hn⟩ := Option.ne_none_iff_exists'.1 hl
  unfold memCalls
  rw [g.length hn, hn, g.accepted, g.uid]
  cases b with
  | false => simp [heapCalls]
  | true =>
    have : reserveCalls e.uid e.heap p pl' = [] := by
      unfold reserveCalls
      cases p.heapLength with
      | none => rfl
      | some m => simp [hn]
    simp only [heapCalls, if_true]
    rw [this, copiesOf_append, copyCalls_eq]
    simp

/-- The calls for a new heap. -/
theorem Given.mem_new {ooo : Bool} {e e' : Entry} {p : Pkt} {b : Bool} (g : Given ooo e e' p b) (he : e.pkts = [])
    (ho : ooo = true ∨ p.payloadOffset = 0) {n : Nat} (hl : p.heapLength = some n) (pl : Place) :
    heapCalls e.uid e.heap p pl b = memCalls ooo pl e' := by
  have hh := g.heap
  rw [g.first he] at hh
  have hb := addPacket_first hh ho
  subst hb
  unfold memCalls
  rw [g.length_new hl, g.accepted, g.uid]
  have ha : acceptedBy ooo e = [] := by unfold acceptedBy; rw [he]
  rw [ha, g.first he]
  simp only [heapCalls, if_true, List.nil_append]
  rw [copyCalls_eq]
  congr 1
  unfold reserveCalls
  rw [hl]
  simp [LiveHeap.new]

/-! ### One packet -/

theorem lookup_refine {cfg : StreamConfig} {s : Stream} {a : AStream} (rel : Rel cfg s a) (p : Pkt) (st : Batch) :
    ∃ st', s.lookup cfg st p = some ((a.find p).map (posOf cfg), st') := by
  unfold Stream.lookup AStream.find
  by_cases hs : p.heapLength = some p.payload.length
  · exact ⟨_, by rw [if_pos hs, if_pos hs]; rfl⟩
  · obtain ⟨l, d, h1, h2⟩ := bucket_search_spec rel.core (bucketOf_lt cfg) p.heapCnt
    refine ⟨{ st with searchDist := st.searchDist + d }, ?_⟩
    rw [if_neg hs, if_neg hs, Option.bind_eq_bind, h1, Option.bind_some, h2, Option.bind_eq_bind, Option.bind_some, find?_table,
      Option.map_map]
    rfl

theorem deliver_completed {cfg : StreamConfig} {a : AStream} {ev : List Entry} {r : LiveRec} {p : Pkt} {res : AResult}
    (h : a.deliver cfg ev r p = some res) : res.completed.length ≤ 1 := by
  unfold AStream.deliver at h
  split at h
  · cases h
  · split at h <;> simp only [Option.some.injEq] at h <;> subst h
    · dsimp only
      split <;> simp
    · simp

/-- What one packet does to the heaps, and the calls that are made for it. -/
theorem packetCalls_spec {cfg : StreamConfig} (hm : 0 < cfg.maxHeaps) (hsub : 0 < cfg.substreams) {s : Stream} {a : AStream}
    (rel : Rel cfg s a) (inv : AInv cfg a none) {p : Pkt} (hv : PktValid p) {res : AResult} (h : a.addPacket cfg p = some res)
    (st : Batch) (pl : Place) {r : AddResult} (hout : r.out = res.evicted ++ res.completed) (hacc : r.accepted = res.accepted) :
    ∃ cs, s.packetCalls cfg st p pl r = some cs ∧
    ((res.stream = a ∧ res.evicted = [] ∧ res.completed = [] ∧ cs = []) ∨
    ∃ e e' drop X, ¬ (p.heapLength = none ∧ cfg.allowUnsized = false) ∧ Given cfg.allowOoo e e' p res.accepted ∧
      cs = readyCalls res.evicted ++ heapCalls e.uid e.heap p pl res.accepted ++ readyCalls res.completed ∧
      (∀ x ∈ res.completed, x = e') ∧ res.completed.length ≤ 1 ∧ (∀ x ∈ drop, x = e') ∧
      (res.evicted ++ res.completed ++ drop ++ entries res.stream).Perm (e' :: X) ∧ (∀ x ∈ res.evicted, x ∈ X) ∧
      (((entries a).Perm (e :: X) ∧ res.stream.created = a.created) ∨
       (e.uid = a.created ∧ e.pkts = [] ∧ (cfg.allowOoo = true ∨ p.payloadOffset = 0) ∧ (entries a).Perm X ∧ res.stream.created = a.created + 1))) := by
  unfold AStream.addPacket at h
  unfold Stream.packetCalls
  by_cases hu : p.heapLength = none ∧ cfg.allowUnsized = false
  · rw [if_pos hu] at h; simp only [Option.some.injEq] at h; subst h
    rw [if_pos hu]
    exact ⟨[], rfl, Or.inl ⟨rfl, rfl, rfl, rfl⟩⟩
  · rw [if_neg hu] at h
    rw [if_neg hu]
    obtain ⟨st', hlk⟩ := lookup_refine rel p st
    simp only [hlk, Option.bind_eq_bind, Option.bind_some]
    cases hf : a.find p with
    | some x =>
      rw [hf] at h
      simp only [Option.map_some] at h ⊢
      have hr : x ∈ a.live ∧ x.entry.heap.cnt = p.heapCnt := by
        unfold AStream.find at hf
        by_cases hs : p.heapLength = some p.payload.length
        · rw [if_pos hs] at hf; simp at hf
        · rw [if_neg hs] at hf
          exact ⟨List.mem_of_find?_eq_some hf, by simpa using List.find?_some hf⟩
      obtain ⟨nx, hsl, hnx⟩ := rel.core.used _ (mem_table hr.1)
      simp only at hsl
      obtain ⟨e', drop, d1, d2, d3, d4, d5, d6, d7, d8, d9, d10⟩ := deliver_account inv hr.1 (Or.inl rfl) hv hr.2.symm
        (fun he => absurd ((inv.ok x hr.1).2.1 he) (by simp)) h
      rw [hsl]
      simp only [Option.bind_some]
      refine ⟨_, rfl, Or.inr ⟨x.entry, e', drop, entries (a.remove x), hu, d1.1, ?_, fun y hy => (d4 y hy).1, deliver_completed h,
        fun y hy => (d5 y hy).1, ?_, ?_, Or.inl ⟨inv.perm_remove hr.1, d9⟩⟩⟩
      · rw [hout, hacc, d3]; simp [readyCalls]
      · rw [d3]; simpa using d2
      · rw [d3]; simp
    | none =>
      rw [hf] at h
      simp only [Option.map_none] at h ⊢
      by_cases ho : cfg.allowOoo = false ∧ p.payloadOffset ≠ 0
      · rw [if_pos ho] at h; simp only [Option.some.injEq] at h; subst h
        rw [if_pos ho]
        exact ⟨[], rfl, Or.inl ⟨rfl, rfl, rfl, rfl⟩⟩
      · rw [if_neg ho] at h
        rw [if_neg ho]
        have hslt := Nat.mod_lt p.heapCnt hsub
        obtain ⟨s1, s2, t1, t2, -⟩ := turn_refine hm rel.core inv hslt rel.nheads (rel.heads _ hslt)
        have inv' := inv.startHeap hm p
        have hlive : (a.startHeap cfg p).1.live = (a.startHeap cfg p).2 :: (a.evict cfg (p.heapCnt % cfg.substreams)).live := rfl
        have hent0 : (a.startHeap cfg p).2.entry = ⟨a.created, [], LiveHeap.new p⟩ := rfl
        obtain ⟨e', drop, d1, d2, d3, d4, d5, d6, d7, d8, d9, d10⟩ := deliver_account inv' (r := (a.startHeap cfg p).2)
          (by rw [hlive]; exact List.mem_cons_self) (Or.inr rfl) hv rfl (fun _ => rfl) h
        have hrem := inv'.perm_remove (r := (a.startHeap cfg p).2) (by rw [hlive]; exact List.mem_cons_self)
        have hent : entries (a.startHeap cfg p).1 = (a.startHeap cfg p).2.entry :: entries (a.evict cfg (p.heapCnt % cfg.substreams)) := by
          unfold entries; rw [hlive]; rfl
        rw [hent] at hrem
        have hrem' := hrem.cons_inv
        have hev : (entries a).Perm ((a.victim cfg (p.heapCnt % cfg.substreams)).toList.map LiveRec.entry ++
            entries (a.evict cfg (p.heapCnt % cfg.substreams))) := by
          unfold AStream.evict
          cases hvv : a.victim cfg (p.heapCnt % cfg.substreams) with
          | none => exact List.Perm.refl _
          | some v => exact inv.perm_remove (victim_mem hvv).1
        rw [substreamOf_eq, t1, Option.bind_some]
        simp only
        rw [t2, Option.bind_some]
        simp only
        refine ⟨_, rfl, Or.inr ⟨(a.startHeap cfg p).2.entry, e', drop, entries a, hu, d1.1, ?_, fun y hy => (d4 y hy).1, deliver_completed h,
          fun y hy => (d5 y hy).1, ?_, ?_, Or.inr ⟨rfl, rfl, ?_, List.Perm.refl _, d9⟩⟩⟩
        · rw [hout, hacc, d3, List.drop_left, rel.created, hent0]
        · rw [d3]
          have h1 : ((a.victim cfg (p.heapCnt % cfg.substreams)).toList.map LiveRec.entry ++ (res.completed ++ drop ++ entries res.stream)).Perm
              ((a.victim cfg (p.heapCnt % cfg.substreams)).toList.map LiveRec.entry ++ (e' :: entries (a.evict cfg (p.heapCnt % cfg.substreams)))) :=
            List.Perm.append_left _ (d2.trans (hrem'.symm.cons _))
          have h3 := h1.trans (List.perm_middle.trans (hev.symm.cons _))
          simpa only [List.append_assoc] using h3
        · rw [d3]
          intro y hy
          exact hev.symm.subset (List.mem_append_left _ hy)
        · by_cases h0 : cfg.allowOoo = true
          · exact Or.inl h0
          · right
            apply Classical.byContradiction
            intro h1
            exact ho ⟨by simpa using h0, h1⟩

/-! ### What was called for every heap -/

/-- The place callback's answer for the heap's first packet. -/
def FirstAt (offs : List (Pkt × Place)) (e : Entry) (pl : Place) : Prop :=
  ∃ p rest, e.pkts = p :: rest ∧ (p, pl) ∈ offs ∧ p.heapLength = e.heap.heapLength ∧
    ∀ q ∈ e.pkts, q.heapLength ≠ none ∧ ∃ pl', (q, pl') ∈ offs

theorem FirstAt.mono {offs : List (Pkt × Place)} {e : Entry} {pl : Place} (h : FirstAt offs e pl) (more : List (Pkt × Place)) :
    FirstAt (offs ++ more) e pl := by
  obtain ⟨p, rest, h1, h2, h3, h4⟩ := h
  exact ⟨p, rest, h1, List.mem_append_left _ h2, h3, fun q hq => ⟨(h4 q hq).1, (h4 q hq).2.imp (fun _ h => List.mem_append_left _ h)⟩⟩

theorem Given.firstAt {ooo : Bool} {e e' : Entry} {p : Pkt} {b : Bool} (g : Given ooo e e' p b) {offs : List (Pkt × Place)} {pl : Place}
    (h : FirstAt offs e pl) (hl : e.heap.heapLength ≠ none)
    (hp : p.heapLength ≠ none) {pl' : Place} (ho : (p, pl') ∈ offs) : FirstAt offs e' pl := by
  obtain ⟨q, rest, h1, h2, h3, h4⟩ := h
  obtain ⟨n, hn⟩ := Option.ne_none_iff_exists'.1 hl
  refine ⟨q, rest ++ [p], by rw [g.pkts, h1]; rfl, h2, by rw [h3, hn, g.length hn], fun x hx => ?_⟩
  rw [g.pkts] at hx
  rcases List.mem_append.1 hx with hx | hx
  · exact h4 x hx
  · rw [List.mem_singleton] at hx
    rw [hx]
    exact ⟨hp, pl', ho⟩

/-- Everything known about the calls made so far: `done` are the heaps passed to `heap_ready`, `d` those that were
dropped. -/
structure Called (cfg : StreamConfig) (offs : List (Pkt × Place)) (calls : List MemCall) (done d : List Entry) (a : AStream) : Prop where
  uids : ((done ++ d ++ entries a).map Entry.uid).Perm (List.range a.created)
  ok : ∀ e ∈ done ++ d ++ entries a, EntryOk cfg.allowOoo e ∧ e.pkts ≠ [] ∧ e.heap.heapLength ≠ none
  mem : ∀ e ∈ d ++ entries a, ∃ pl, FirstAt offs e pl ∧ callsOf e.uid calls = memCalls cfg.allowOoo pl e
  ended : ∀ e ∈ done, ∃ pl, FirstAt offs e pl ∧ callsOf e.uid calls = memCalls cfg.allowOoo pl e ++ [.ready e.uid e.heap.isComplete]
  fresh : ∀ u, a.created ≤ u → callsOf u calls = []

theorem Called.new (cfg : StreamConfig) : Called cfg [] [] [] [] {} :=
  ⟨by simp [entries], by simp [entries], by simp [entries], by simp, by simp [callsOf]⟩

theorem Called.more {cfg : StreamConfig} {offs : List (Pkt × Place)} {calls : List MemCall} {done d : List Entry} {a : AStream}
    (c : Called cfg offs calls done d a) (more : List (Pkt × Place)) : Called cfg (offs ++ more) calls done d a :=
  ⟨c.uids, c.ok, fun e he => (c.mem e he).imp (fun _ h => ⟨h.1.mono _, h.2⟩), fun e he => (c.ended e he).imp (fun _ h => ⟨h.1.mono _, h.2⟩), c.fresh⟩

theorem Called.nodup {cfg : StreamConfig} {offs : List (Pkt × Place)} {calls : List MemCall} {done d : List Entry} {a : AStream}
    (c : Called cfg offs calls done d a) : ((done ++ d ++ entries a).map Entry.uid).Nodup := c.uids.nodup_iff.2 List.nodup_range

theorem Called.flush {cfg : StreamConfig} {offs : List (Pkt × Place)} {calls : List MemCall} {done d : List Entry} {a : AStream}
    (c : Called cfg offs calls done d a) : Called cfg offs (calls ++ [.flush]) done d a := by
  have h : ∀ u, callsOf u (calls ++ [.flush]) = callsOf u calls := fun u => by rw [callsOf_append, callsOf_flush, List.append_nil]
  exact ⟨c.uids, c.ok, fun e he => by rw [h]; exact c.mem e he, fun e he => by rw [h]; exact c.ended e he, fun u hu => by rw [h]; exact c.fresh u hu⟩

theorem uid_ne_of_nodup {A B : List Entry} (h : ((A ++ B).map Entry.uid).Nodup) {x y : Entry} (hx : x ∈ A) (hy : y ∈ B) : x.uid ≠ y.uid := by
  rw [List.map_append, List.nodup_append] at h
  exact h.2.2 _ (List.mem_map_of_mem hx) _ (List.mem_map_of_mem hy)

/-- All live heaps are passed to `heap_ready`. -/
theorem Called.flushed {cfg : StreamConfig} {offs : List (Pkt × Place)} {calls : List MemCall} {done d : List Entry} {a : AStream}
    (c : Called cfg offs calls done d a) {out : List Entry} (hp : out.Perm (entries a)) (b : Bool) :
    Called cfg offs (calls ++ readyCalls out) (done ++ out) d { a with live := [], stopped := b } := by
  have hperm : ((done ++ out) ++ d ++ entries { a with live := [], stopped := b }).Perm (done ++ d ++ entries a) := by
    have : entries { a with live := [], stopped := b } = [] := rfl
    rw [this, List.append_nil, List.append_assoc, List.append_assoc]
    exact List.Perm.append_left _ (List.perm_append_comm.trans (List.Perm.append_left _ hp))
  have hnd := c.nodup
  have hout : (out.map Entry.uid).Nodup := by
    rw [(hp.map _).nodup_iff]
    rw [List.map_append] at hnd
    exact (List.nodup_append.1 hnd).2.1
  refine ⟨(hperm.map _).trans c.uids, fun e he => c.ok e (hperm.subset he), ?_, ?_, ?_⟩
  · intro e he
    have : entries { a with live := [], stopped := b } = [] := rfl
    rw [this, List.append_nil] at he
    obtain ⟨pl, h1, h2⟩ := c.mem e (List.mem_append_left _ he)
    refine ⟨pl, h1, ?_⟩
    rw [callsOf_append, h2, callsOf_ready_none, List.append_nil]
    intro x hx hxe
    exact uid_ne_of_nodup hnd (List.mem_append_right _ he) (hp.subset hx) hxe.symm
  · intro e he
    rcases List.mem_append.1 he with he | he
    · obtain ⟨pl, h1, h2⟩ := c.ended e he
      refine ⟨pl, h1, ?_⟩
      rw [callsOf_append, h2, callsOf_ready_none, List.append_nil]
      intro x hx hxe
      exact uid_ne_of_nodup hnd (List.mem_append_left _ he) (hp.subset hx) hxe.symm
    · obtain ⟨pl, h1, h2⟩ := c.mem e (List.mem_append_right _ (hp.subset he))
      exact ⟨pl, h1, by rw [callsOf_append, h2, callsOf_ready_mem hout he]⟩
  · intro u hu
    have hu : a.created ≤ u := hu
    rw [callsOf_append, c.fresh u hu, callsOf_ready_none]
    · rfl
    · intro x hx hxu
      have : x.uid ∈ List.range a.created := c.uids.subset (List.mem_map_of_mem (List.mem_append_right _ (hp.subset hx)))
      rw [List.mem_range] at this
      omega

/-- One packet. -/
theorem Called.packet {cfg : StreamConfig} {offs : List (Pkt × Place)} {calls : List MemCall} {done d : List Entry} {a a' : AStream}
    (c : Called cfg offs calls done d a) {e e' : Entry} {ev comp drop X : List Entry} {cs : List MemCall}
    (hok : EntryOk cfg.allowOoo e' ∧ e'.pkts ≠ [] ∧ e'.heap.heapLength ≠ none) (hX : ∀ x ∈ X, x ∈ entries a)
    (hperm : (ev ++ comp ++ drop ++ entries a').Perm (e' :: X)) (hev : ∀ x ∈ ev, x ∈ X) (hc1 : ∀ x ∈ comp, x = e') (hc2 : comp.length ≤ 1)
    (hd : ∀ x ∈ drop, x = e') (hcr : a.created ≤ a'.created) {hc : List MemCall} (hcs : cs = readyCalls ev ++ hc ++ readyCalls comp)
    (hself : callsOf e'.uid hc = hc) (hother : ∀ u, u ≠ e'.uid → callsOf u hc = [])
    (hmem : ∃ pl, FirstAt offs e' pl ∧ callsOf e'.uid calls ++ hc = memCalls cfg.allowOoo pl e')
    (huids : (((done ++ ev ++ comp) ++ (d ++ drop) ++ entries a').map Entry.uid).Perm (List.range a'.created))
    (hdX : ∀ x ∈ done ++ d ++ X, x.uid ≠ e'.uid) (hlt : e'.uid < a'.created) :
    Called cfg offs (calls ++ cs) (done ++ ev ++ comp) (d ++ drop) a' := by
  have hnd : (((done ++ ev ++ comp) ++ (d ++ drop) ++ entries a').map Entry.uid).Nodup := huids.nodup_iff.2 List.nodup_range
  have hmemX : ∀ x, x ∈ ev ++ comp ++ drop ++ entries a' → x = e' ∨ x ∈ X := fun x hx => List.mem_cons.1 (hperm.subset hx)
  have hevnd : (ev.map Entry.uid).Nodup := by
    simp only [List.map_append] at hnd
    exact (List.nodup_append.1 (List.nodup_append.1 (List.nodup_append.1 (List.nodup_append.1 hnd).1).1).1).2.1
  -- calls for other heaps
  have ho : ∀ u, u ≠ e'.uid → callsOf u cs = callsOf u (readyCalls ev) := by
    intro u hu
    rw [hcs, callsOf_append, callsOf_append, hother u hu, callsOf_ready_none (l := comp), List.append_nil, List.append_nil]
    intro x hx hxe
    rw [hc1 x hx] at hxe
    exact hu hxe.symm
  have hs : callsOf e'.uid cs = hc ++ readyCalls comp := by
    rw [hcs, callsOf_append, callsOf_append, hself, callsOf_ready_none (l := ev) (fun x hx => hdX x (List.mem_append_right _ (hev x hx))), List.nil_append]
    congr 1
    unfold callsOf
    rw [List.filter_eq_self]
    intro y hy
    obtain ⟨x, hx, rfl⟩ := List.mem_map.1 hy
    rw [hc1 x hx]
    simp [MemCall.uid?]
  have hcomp : ∀ x ∈ d ++ drop ++ entries a', x = e' → comp = [] := by
    intro x hx hxe
    cases comp with
    | nil => rfl
    | cons y l =>
      exfalso
      have hy := hc1 y List.mem_cons_self
      rw [List.append_assoc] at hnd
      exact uid_ne_of_nodup hnd (List.mem_append_right _ List.mem_cons_self) (y := x) (by simpa using hx) (by rw [hy, hxe])
  refine ⟨huids, ?_, ?_, ?_, ?_⟩
  · intro x hx
    have : x ∈ done ++ d ∨ x ∈ ev ++ comp ++ drop ++ entries a' := by
      simp only [List.mem_append] at hx ⊢
      rcases hx with (((h | h) | h) | h | h) | h <;> simp [h]
    rcases this with h | h
    · exact c.ok x (List.mem_append_left _ h)
    · rcases hmemX x h with rfl | h
      · exact hok
      · exact c.ok x (List.mem_append_right _ (hX x h))
  · intro x hx
    by_cases hxe : x = e'
    · subst hxe
      have hcn := hcomp x (by simpa [or_assoc] using hx) rfl
      obtain ⟨pl, h1, h2⟩ := hmem
      refine ⟨pl, h1, ?_⟩
      rw [callsOf_append, hs, hcn]
      simpa [readyCalls] using h2
    · have hxX : x ∈ d ++ X := by
        rcases List.mem_append.1 hx with h | h
        · rcases List.mem_append.1 h with h | h
          · exact List.mem_append_left _ h
          · exact absurd (hd x h) hxe
        · rcases hmemX x (List.mem_append_right _ h) with h | h
          · exact absurd h hxe
          · exact List.mem_append_right _ h
      obtain ⟨pl, h1, h2⟩ := c.mem x (by
        rcases List.mem_append.1 hxX with h | h
        · exact List.mem_append_left _ h
        · exact List.mem_append_right _ (hX x h))
      refine ⟨pl, h1, ?_⟩
      have hne := hdX x (by
        rcases List.mem_append.1 hxX with h | h
        · exact List.mem_append_left _ (List.mem_append_right _ h)
        · exact List.mem_append_right _ h)
      rw [callsOf_append, ho _ hne, h2, callsOf_ready_none, List.append_nil]
      intro y hy hye
      rw [List.append_assoc] at hnd
      exact uid_ne_of_nodup hnd (List.mem_append_left _ (List.mem_append_right _ hy)) (y := x) (by simpa using hx) hye
  · intro x hx
    rcases List.mem_append.1 hx with hx | hx
    · rcases List.mem_append.1 hx with hx | hx
      · obtain ⟨pl, h1, h2⟩ := c.ended x hx
        refine ⟨pl, h1, ?_⟩
        have hne := hdX x (List.mem_append_left _ (List.mem_append_left _ hx))
        rw [callsOf_append, ho _ hne, h2, callsOf_ready_none, List.append_nil]
        intro y hy hye
        have h' : ((done ++ (ev ++ comp ++ (d ++ drop) ++ entries a')).map Entry.uid).Nodup := by
          simpa only [List.append_assoc] using hnd
        exact uid_ne_of_nodup h' hx (y := y) (by simp [hy]) hye.symm
      · obtain ⟨pl, h1, h2⟩ := c.mem x (List.mem_append_right _ (hX x (hev x hx)))
        refine ⟨pl, h1, ?_⟩
        have hne := hdX x (List.mem_append_right _ (hev x hx))
        rw [callsOf_append, ho _ hne, h2, callsOf_ready_mem hevnd hx]
    · have hxe := hc1 x hx
      subst hxe
      have hcn : comp = [x] := by
        cases comp with
        | nil => cases hx
        | cons y l =>
          have := hc1 y List.mem_cons_self
          cases l with
          | nil => rw [this]
          | cons z l => simp at hc2
      obtain ⟨pl, h1, h2⟩ := hmem
      refine ⟨pl, h1, ?_⟩
      rw [callsOf_append, hs, ← List.append_assoc, h2, hcn]
      rfl
  · intro u hu
    have hne : u ≠ e'.uid := by omega
    rw [callsOf_append, c.fresh u (by omega), ho u hne, callsOf_ready_none]
    · rfl
    · intro x hx hxu
      have : x.uid ∈ List.range a.created := c.uids.subset (List.mem_map_of_mem (List.mem_append_right _ (hX x (hev x hx))))
      rw [List.mem_range] at this
      omega

/-- One packet, on the stream. -/
theorem called_packet {cfg : StreamConfig} (hm : 0 < cfg.maxHeaps) (hsub : 0 < cfg.substreams) (hz : cfg.allowUnsized = false)
    {s : Stream} {a : AStream} (rel : Rel cfg s a) (inv : AInv cfg a none) {p : Pkt} (hv : PktValid p) (pl : Place) (st : Batch)
    {offs : List (Pkt × Place)} {calls : List MemCall} {done d : List Entry} (c : Called cfg offs calls done d a) :
    ∃ res r cs d', a.addPacket cfg p = some res ∧ s.addPacket cfg st p = some r ∧ s.packetCalls cfg st p pl r = some cs ∧
      Rel cfg r.stream res.stream ∧ AInv cfg res.stream none ∧ r.batch.stopped = (st.stopped || res.ended) ∧
      Called cfg (offs ++ [(p, pl)]) (calls ++ cs) (done ++ r.out) d' res.stream := by
  obtain ⟨res, s', dd, h1, h2, h3, h4, h5⟩ := addPacket_refine hm hsub rel inv hv st
  obtain ⟨cs, k1, k2⟩ := packetCalls_spec hm hsub rel inv hv h1 st pl (r := ⟨s', { packets := st.packets + 1, complete := st.complete + res.completed.length, evicted := st.evicted + res.evicted.length, single := st.single + (if p.heapLength = some p.payload.length then 1 else 0), searchDist := dd, stopped := st.stopped || res.ended }, res.evicted ++ res.completed, res.accepted⟩) rfl rfl
  have c' := c.more [(p, pl)]
  rcases k2 with ⟨q1, q2, q3, q4⟩ | ⟨e, e', drop, X, hu, g, q1, q2, q3, q4, q5, q6, hcase⟩
  · refine ⟨res, _, cs, d, h1, h2, k1, h3, h4, rfl, ?_⟩
    rw [q4, q1, q2, q3]
    simpa using c'
  · refine ⟨res, _, cs, d ++ drop, h1, h2, k1, h3, h4, rfl, ?_⟩
    obtain ⟨n, hn⟩ : ∃ n, p.heapLength = some n := by
      cases hl : p.heapLength with
      | none => exact absurd ⟨hl, hz⟩ hu
      | some n => exact ⟨n, rfl⟩
    have hne' : e'.pkts ≠ [] := by rw [g.pkts]; simp
    have hnd := c.nodup
    simp only
    rw [← List.append_assoc]
    -- all heaps, before and after
    have hall : ((done ++ res.evicted ++ res.completed) ++ (d ++ drop) ++ entries res.stream).Perm (done ++ d ++ (e' :: X)) := by
      have e1 : ((done ++ res.evicted ++ res.completed) ++ (d ++ drop) ++ entries res.stream).Perm
          (done ++ d ++ (res.evicted ++ res.completed ++ drop ++ entries res.stream)) := by
        rw [List.perm_iff_count]
        intro x
        simp only [List.count_append]
        omega
      exact e1.trans (List.Perm.append_left _ q5)
    rcases hcase with ⟨x1, x2⟩ | ⟨x1, x2, x3, x4, x5⟩
    · have he : e ∈ entries a := x1.symm.subset List.mem_cons_self
      obtain ⟨-, he2, he3⟩ := c.ok e (List.mem_append_right _ he)
      obtain ⟨pl', f1, f2⟩ := c'.mem e (List.mem_append_right _ he)
      have hold : ((done ++ d ++ entries a).map Entry.uid).Perm ((done ++ d ++ (e :: X)).map Entry.uid) := (List.Perm.append_left _ x1).map _
      have hnd' := (hold.nodup_iff).1 hnd
      refine c'.packet (e := e) (e' := e') (X := X) (hc := heapCalls e.uid e.heap p pl res.accepted) ⟨g.ok', hne', ?_⟩
        (fun x hx => x1.symm.subset (List.mem_cons_of_mem _ hx)) q5 q6 q2 q3 q4 (by omega) q1 ?_ ?_ ?_ ?_ ?_ ?_
      · obtain ⟨m, hm'⟩ := Option.ne_none_iff_exists'.1 he3
        rw [g.length hm']; simp
      · rw [g.uid]; exact callsOf_heap _ _ _ _ _
      · intro u hu'; rw [g.uid] at hu'; exact callsOf_heap_ne hu' _ _ _ _
      · exact ⟨pl', g.firstAt f1 he3 (by simp [hn]) (pl' := pl) (by simp), by rw [g.uid, f2]; exact g.mem_old he3 pl' pl⟩
      · refine (hall.map _).trans ?_
        rw [x2]
        refine List.Perm.trans ?_ c.uids
        refine List.Perm.trans ?_ hold.symm
        simp only [List.map_append, List.map_cons, g.uid]
        exact List.Perm.refl _
      · intro x hx
        rw [g.uid]
        have h' : (((done ++ d ++ X) ++ [e]).map Entry.uid).Nodup := by
          refine ((List.Perm.map _ ?_).nodup_iff).1 hnd'
          rw [List.perm_iff_count]
          intro x
          simp only [List.count_append, List.count_cons, List.count_nil]
          omega
        exact uid_ne_of_nodup h' hx List.mem_cons_self
      · have : e.uid ∈ List.range a.created := c.uids.subset (List.mem_map_of_mem (List.mem_append_right _ he))
        rw [List.mem_range] at this
        rw [g.uid]; omega
    · have hfr : ∀ x ∈ done ++ d ++ X, x.uid ≠ e'.uid := by
        intro x hx
        have : x.uid ∈ List.range a.created := by
          refine c.uids.subset (List.mem_map_of_mem ?_)
          rcases List.mem_append.1 hx with h | h
          · exact List.mem_append_left _ h
          · exact List.mem_append_right _ (x4.symm.subset h)
        rw [List.mem_range] at this
        rw [g.uid, x1]; omega
      have hb : res.accepted = true := by
        have hh := g.heap
        rw [g.first x2] at hh
        exact addPacket_first hh x3
      refine c'.packet (e := e) (e' := e') (X := X) (hc := heapCalls e.uid e.heap p pl res.accepted) ⟨g.ok', hne', ?_⟩
        (fun x hx => x4.symm.subset hx) q5 q6 q2 q3 q4 (by omega) q1 ?_ ?_ ?_ ?_ hfr ?_
      · rw [hb] at g
        rw [g.length_new hn]; simp
      · rw [g.uid]; exact callsOf_heap _ _ _ _ _
      · intro u hu'; rw [g.uid] at hu'; exact callsOf_heap_ne hu' _ _ _ _
      · refine ⟨pl, ⟨p, [], by rw [g.pkts, x2]; rfl, by simp, (by rw [hb] at g; rw [g.length_new hn, hn]), (fun q hq => by rw [g.pkts, x2] at hq; simp at hq; subst hq; exact ⟨by simp [hn], pl, by simp⟩)⟩, ?_⟩
        rw [g.uid, c.fresh e.uid (by omega), List.nil_append]
        exact g.mem_new x2 x3 hn pl
      · refine (hall.map _).trans ?_
        rw [x5, List.range_succ]
        have e1 : ((done ++ d ++ (e' :: X)).map Entry.uid).Perm ((done ++ d ++ entries a).map Entry.uid ++ [e'.uid]) := by
          have : (done ++ d ++ (e' :: X)).Perm ((done ++ d ++ entries a) ++ [e']) := by
            rw [List.append_assoc (done ++ d)]
            refine List.Perm.append_left _ ?_
            exact (x4.symm.cons e').trans (List.perm_append_comm (l₁ := [e']))
          simpa using this.map Entry.uid
        refine e1.trans ?_
        rw [g.uid, x1]
        exact List.Perm.append_right _ c.uids
      · rw [g.uid, x1, x5]; omega

/-! ### Histories -/

theorem batchCalls_stopped (cfg : StreamConfig) (s : Stream) {st : Batch} (h : st.stopped = true) (l : List ChunkBatchOp) :
    Stream.batchCalls cfg l s st = some (s, st, [], []) ∧ Stream.batchLoop cfg (l.map ChunkBatchOp.plain) s st = some (s, st, []) := by
  cases l with
  | nil => exact ⟨rfl, rfl⟩
  | cons x l => simp [Stream.batchCalls, Stream.batchLoop, h]

theorem called_batch {cfg : StreamConfig} (hm : 0 < cfg.maxHeaps) (hsub : 0 < cfg.substreams) (hz : cfg.allowUnsized = false) :
    ∀ (ops : List ChunkBatchOp) (_ : ∀ x ∈ batchOffers ops, PktValid x.1) {s : Stream} {a : AStream} (_ : Rel cfg s a) (_ : AInv cfg a none)
      (st : Batch) (_ : st.stopped = false) {offs : List (Pkt × Place)} {calls : List MemCall} {done d : List Entry} (_ : Called cfg offs calls done d a),
    ∃ a' s' st' out cs d', Stream.batchCalls cfg ops s st = some (s', st', out, cs) ∧
      Stream.batchLoop cfg (ops.map ChunkBatchOp.plain) s st = some (s', st', out) ∧ Rel cfg s' a' ∧ AInv cfg a' none ∧ a'.stopped = a.stopped ∧
      Called cfg (offs ++ batchOffers ops) (calls ++ cs) (done ++ out) d' a'
  | [], _, s, a, rel, inv, st, _, offs, calls, done, d, c => by
    refine ⟨a, s, st, [], [], d, rfl, rfl, rel, inv, rfl, ?_⟩
    simpa [batchOffers] using c
  | .stop :: ops, hv, s, a, rel, inv, st, hst, offs, calls, done, d, c => by
    obtain ⟨h1, h2⟩ := batchCalls_stopped cfg s (st := { st with stopped := true }) rfl ops
    refine ⟨a, s, { st with stopped := true }, [], [], d, ?_, ?_, rel, inv, rfl, ?_⟩
    · rw [Stream.batchCalls, if_neg (by simp [hst])]; exact h1
    · rw [List.map_cons, ChunkBatchOp.plain, Stream.batchLoop, if_neg (by simp [hst])]; exact h2
    · simpa using c.more (batchOffers (.stop :: ops))
  | .packet p pl :: ops, hv, s, a, rel, inv, st, hst, offs, calls, done, d, c => by
    have hof : batchOffers (.packet p pl :: ops) = (p, pl) :: batchOffers ops := rfl
    rw [hof] at hv
    obtain ⟨res, r, cs, d1, h1, h2, h3, h4, h5, h6, h7⟩ := called_packet hm hsub hz rel inv (hv (p, pl) List.mem_cons_self) pl st c
    have hs1 := addPacket_stopped h1
    rw [Stream.batchCalls, if_neg (by simp [hst]), List.map_cons, ChunkBatchOp.plain, Stream.batchLoop, if_neg (by simp [hst])]
    simp only [h2, h3, Option.bind_eq_bind, Option.bind_some]
    cases hb : r.batch.stopped with
    | true =>
      obtain ⟨q1, q2⟩ := batchCalls_stopped cfg r.stream hb ops
      rw [q1, q2]
      refine ⟨res.stream, r.stream, r.batch, r.out, cs, d1, by simp, by simp, h4, h5, hs1, ?_⟩
      rw [hof]
      simpa using h7.more (batchOffers ops)
    | false =>
      obtain ⟨a', s', st', out, cs', d', q1, q2, q3, q4, q5, q6⟩ := called_batch hm hsub hz ops (fun x hx => hv x (List.mem_cons_of_mem _ hx)) h4 h5 r.batch hb h7
      rw [q1, q2]
      refine ⟨a', s', st', r.out ++ out, cs ++ cs', d', by simp, by simp, q3, q4, q5.trans hs1, ?_⟩
      rw [hof]
      simpa using q6

theorem endBatch_refine {cfg : StreamConfig} (hm : 0 < cfg.maxHeaps) (hsub : 0 < cfg.substreams) {s : Stream} {a : AStream}
    (rel : Rel cfg s a) (inv : AInv cfg a none) (hs : a.stopped = false) (st : Batch) :
    ∃ s', s.endBatch cfg st = some (s', if st.stopped then a.flushed cfg else []) ∧
      Rel cfg s' (if st.stopped then (a.halt cfg).1 else a) := by
  unfold Stream.endBatch
  cases hb : st.stopped with
  | false =>
    simp only [Bool.false_eq_true, if_false, and_false, Option.bind_eq_bind, Option.bind_some]
    exact ⟨_, rfl, rel.withStats _⟩
  | true =>
    obtain ⟨s', h1, h2, h3⟩ := stopReceived_refine hm hsub rel inv hs
    simp only [if_true, h1, Option.bind_eq_bind, Option.bind_some, and_true]
    by_cases hp : st.packets = 0
    · rw [if_pos hp]; exact ⟨_, rfl, h2⟩
    · rw [if_neg hp]; exact ⟨_, rfl, h2.withStats _⟩

theorem offers_cons (op : ChunkRecvOp) (ops : List ChunkRecvOp) : offers (op :: ops) = offers [op] ++ offers ops := by
  simp [offers]

/-- One operation. -/
theorem called_step {cfg : StreamConfig} (hm : 0 < cfg.maxHeaps) (hsub : 0 < cfg.substreams) (hz : cfg.allowUnsized = false)
    (op : ChunkRecvOp) (hv : ∀ x ∈ offers [op], PktValid x.1) {s : Stream} {a : AStream} (rel : Rel cfg s a) (inv : AInv cfg a none)
    {offs : List (Pkt × Place)} {calls : List MemCall} {done d : List Entry} (c : Called cfg offs calls done d a) :
    ∃ a' s' out cs d', s.callStep cfg op = some (s', out, cs) ∧ Stream.run cfg (plainOp op) s = some (s', out) ∧ Rel cfg s' a' ∧ AInv cfg a' none ∧
      Called cfg (offs ++ offers [op]) (calls ++ cs) (done ++ out) d' a' := by
  have hrun : ∀ (o : StreamOp) (s' : Stream) (out : List Entry), s.step cfg o = some (s', out) → Stream.run cfg [o] s = some (s', out) := by
    intro o s' out h
    simp [Stream.run, h]
  cases op with
  | flush =>
    obtain ⟨s', h1, h2, h3⟩ := flush_refine hm hsub rel inv
    refine ⟨a.clear, s', a.flushed cfg, readyCalls (a.flushed cfg), d, ?_, hrun .flush _ _ h1, h2, AInv.clear cfg a a.stopped, ?_⟩
    · simp [Stream.callStep, h1]
    · simpa [offers, AStream.clear] using c.flushed (inv.flushed_perm hsub) a.stopped
  | flushChunks =>
    refine ⟨a, s, [], [.flush], d, rfl, rfl, rel, inv, ?_⟩
    simpa [offers] using c.flush
  | stop =>
    cases hs : a.stopped with
    | true =>
      refine ⟨a, s, [], [], d, by simp [Stream.callStep, rel.stopped, hs], hrun .stop _ _ ?_, rel, inv, by simpa [offers] using c⟩
      show s.stop cfg = _
      simp [Stream.stop, rel.stopped, hs]
    | false =>
      obtain ⟨s', h1, h2, h3⟩ := stopReceived_refine hm hsub rel inv hs
      refine ⟨_, s', a.flushed cfg, stopCalls (a.flushed cfg), d, by simp [Stream.callStep, rel.stopped, hs, h1], hrun .stop _ _ ?_, h2,
        AInv.clear cfg a true, ?_⟩
      · show s.stop cfg = _
        simp [Stream.stop, rel.stopped, hs, h1]
      · have := (c.flushed (inv.flushed_perm hsub) true).flush
        simpa [offers, stopCalls, AStream.halt, AStream.clear] using this
  | batch ops =>
    have hof : offers [.batch ops] = batchOffers ops := by simp [offers]
    rw [hof] at hv ⊢
    cases hs : a.stopped with
    | true =>
      refine ⟨a, s, [], [], d, by simp [Stream.callStep, Stream.wholeBatchCalls, rel.stopped, hs], hrun _ _ _ ?_, rel, inv, ?_⟩
      · show s.batch cfg _ = _
        simp [Stream.batch, rel.stopped, hs]
      · simpa using c.more (batchOffers ops)
    | false =>
      obtain ⟨a1, s1, st1, out, cs, d', q1, q2, q3, q4, q5, q6⟩ := called_batch hm hsub hz ops hv rel inv {} rfl c
      obtain ⟨s2, e1, e2⟩ := endBatch_refine hm hsub q3 q4 (by rw [q5, hs]) st1
      have hss : s.stopped = false := by rw [rel.stopped, hs]
      have hstep : s.callStep cfg (.batch ops) = some (s2, out ++ (if st1.stopped then a1.flushed cfg else []),
          cs ++ if st1.stopped then stopCalls (if st1.stopped then a1.flushed cfg else []) else []) := by
        show s.wholeBatchCalls cfg ops = _
        simp [Stream.wholeBatchCalls, hss, q1, e1]
      have hplain : Stream.run cfg (plainOp (.batch ops)) s = some (s2, out ++ (if st1.stopped then a1.flushed cfg else [])) := by
        refine hrun _ _ _ ?_
        show s.batch cfg _ = _
        simp [Stream.batch, hss, q2, e1]
      cases hb : st1.stopped with
      | false =>
        rw [hb] at hstep hplain e2
        simp only [Bool.false_eq_true, if_false, List.append_nil] at hstep hplain e2
        exact ⟨a1, s2, out, cs, d', hstep, hplain, e2, q4, q6⟩
      | true =>
        rw [hb] at hstep hplain e2
        simp only [if_true] at hstep hplain e2
        refine ⟨_, s2, _, _, d', hstep, hplain, e2, AInv.clear cfg a1 true, ?_⟩
        have := (q6.flushed (q4.flushed_perm hsub) true).flush
        simpa [stopCalls, AStream.halt, AStream.clear] using this

theorem streamRun_append {cfg : StreamConfig} : ∀ {a b : List StreamOp} {s s1 s2 : Stream} {o1 o2 : List Entry}, Stream.run cfg a s = some (s1, o1) →
    Stream.run cfg b s1 = some (s2, o2) → Stream.run cfg (a ++ b) s = some (s2, o1 ++ o2)
  | [], b, s, s1, s2, o1, o2, h1, h2 => by
    simp only [Stream.run, Option.some.injEq, Prod.mk.injEq] at h1
    obtain ⟨rfl, rfl⟩ := h1
    simpa using h2
  | op :: a, b, s, s1, s2, o1, o2, h1, h2 => by
    simp only [List.cons_append, Stream.run, Option.bind_eq_bind] at h1 ⊢
    cases hs : s.step cfg op with
    | none => rw [hs] at h1; cases h1
    | some r =>
      rw [hs] at h1
      simp only [Option.bind_some] at h1 ⊢
      cases hr : Stream.run cfg a r.1 with
      | none => rw [hr] at h1; cases h1
      | some q =>
        obtain ⟨q1, q2⟩ := q
        rw [hr] at h1
        simp only [Option.bind_some, Option.some.injEq, Prod.mk.injEq] at h1
        obtain ⟨rfl, rfl⟩ := h1
        rw [streamRun_append hr h2]
        simp

/-- Whole histories. -/
theorem called_run {cfg : StreamConfig} (hm : 0 < cfg.maxHeaps) (hsub : 0 < cfg.substreams) (hz : cfg.allowUnsized = false) :
    ∀ (ops : List ChunkRecvOp) (_ : ∀ x ∈ offers ops, PktValid x.1) {s : Stream} {a : AStream} (_ : Rel cfg s a) (_ : AInv cfg a none)
    {offs : List (Pkt × Place)} {calls : List MemCall} {done d : List Entry} (_ : Called cfg offs calls done d a),
    ∃ a' s' out cs d', s.callRun cfg ops = some (s', out, cs) ∧ Stream.run cfg (plainOps ops) s = some (s', out) ∧ Rel cfg s' a' ∧ AInv cfg a' none ∧
      Called cfg (offs ++ offers ops) (calls ++ cs) (done ++ out) d' a'
  | [], _, s, a, rel, inv, offs, calls, done, d, c => ⟨a, s, [], [], d, rfl, rfl, rel, inv, by simpa [offers] using c⟩
  | op :: ops, hv, s, a, rel, inv, offs, calls, done, d, c => by
    rw [offers_cons] at hv
    obtain ⟨a1, s1, out1, cs1, d1, h1, h2, h3, h4, h5⟩ := called_step hm hsub hz op (fun x hx => hv x (List.mem_append_left _ hx)) rel inv c
    obtain ⟨a2, s2, out2, cs2, d2, q1, q2, q3, q4, q5⟩ := called_run hm hsub hz ops (fun x hx => hv x (List.mem_append_right _ hx)) h3 h4 h5
    refine ⟨a2, s2, out1 ++ out2, cs1 ++ cs2, d2, ?_, ?_, q3, q4, ?_⟩
    · simp [Stream.callRun, h1, q1]
    · have hp : plainOps (op :: ops) = plainOp op ++ plainOps ops := rfl
      rw [hp]
      exact streamRun_append h2 q2
    · rw [offers_cons]
      simpa using q5

/-! ### From calls to operations of the chunk layer -/

/-- The allocations made by some calls. -/
def placedPairs (cs : List MemCall) : List (Nat × Place) := cs.filterMap (fun c => match c with | .place u pl => some (u, pl) | _ => none)

theorem placedPairs_append (a b : List MemCall) : placedPairs (a ++ b) = placedPairs a ++ placedPairs b := List.filterMap_append

theorem placed_eq (c : MemCall) : c.placed = (placedPairs [c]).map Prod.fst := by
  cases c <;> rfl

theorem mem_placedPairs {cs : List MemCall} {u : Nat} {pl : Place} : (u, pl) ∈ placedPairs cs ↔ .place u pl ∈ cs := by
  unfold placedPairs
  rw [List.mem_filterMap]
  constructor
  · rintro ⟨c, hc, he⟩
    cases c <;> simp at he
    obtain ⟨rfl, rfl⟩ := he
    exact hc
  · intro h
    exact ⟨_, h, rfl⟩

theorem op?_shape {mem : List Nat} {c : MemCall} {l : List ChunkOp} (h : c.op? mem = some l) :
    (l = [] ∨ ∃ x, l = [x]) ∧ placements l = (placedPairs [c]).map Prod.snd := by
  cases c with
  | place u pl => simp [MemCall.op?] at h; subst h; exact ⟨Or.inr ⟨_, rfl⟩, rfl⟩
  | copy u off data =>
    simp only [MemCall.op?, Option.map_eq_some_iff] at h
    obtain ⟨x, -, rfl⟩ := h
    exact ⟨Or.inr ⟨_, rfl⟩, rfl⟩
  | ready u b =>
    simp only [MemCall.op?] at h
    split at h
    · simp at h; subst h; exact ⟨Or.inl rfl, rfl⟩
    · simp at h; subst h; exact ⟨Or.inr ⟨_, rfl⟩, rfl⟩
  | flush => simp [MemCall.op?] at h; subst h; exact ⟨Or.inr ⟨_, rfl⟩, rfl⟩

theorem chunkOps_cons {mem : List Nat} {c : MemCall} {cs : List MemCall} {o : List ChunkOp} (h : chunkOps mem (c :: cs) = some o) :
    ∃ a b, c.op? mem = some a ∧ chunkOps (mem ++ c.placed) cs = some b ∧ o = a ++ b := by
  simp only [chunkOps, Option.bind_eq_bind, Option.bind_eq_some_iff] at h
  obtain ⟨a, h1, b, h2, h3⟩ := h
  simp only [Option.some.injEq] at h3
  exact ⟨a, b, h1, h2, h3.symm⟩

theorem chunkOps_append : ∀ {a b : List MemCall} {mem : List Nat} {o : List ChunkOp}, chunkOps mem (a ++ b) = some o →
    ∃ oa ob, chunkOps mem a = some oa ∧ chunkOps (mem ++ (placedPairs a).map Prod.fst) b = some ob ∧ o = oa ++ ob
  | [], b, mem, o, h => ⟨[], o, rfl, by simpa [placedPairs] using h, rfl⟩
  | c :: a, b, mem, o, h => by
    obtain ⟨x, y, h1, h2, h3⟩ := chunkOps_cons h
    obtain ⟨oa, ob, k1, k2, k3⟩ := chunkOps_append h2
    refine ⟨x ++ oa, ob, ?_, ?_, by rw [h3, k3, List.append_assoc]⟩
    · simp [chunkOps, h1, k1]
    · rw [show c :: a = [c] ++ a from rfl, placedPairs_append, List.map_append, ← placed_eq, ← List.append_assoc]
      exact k2

theorem chunkOps_placements : ∀ {cs : List MemCall} {mem : List Nat} {o : List ChunkOp}, chunkOps mem cs = some o →
    placements o = (placedPairs cs).map Prod.snd
  | [], mem, o, h => by simp [chunkOps] at h; subst h; rfl
  | c :: cs, mem, o, h => by
    obtain ⟨x, y, h1, h2, h3⟩ := chunkOps_cons h
    rw [h3, placements_append, (op?_shape h1).2, chunkOps_placements h2, show c :: cs = [c] ++ cs from rfl, placedPairs_append, List.map_append]

/-- Which call an operation comes from. -/
theorem chunkOps_split : ∀ {cs : List MemCall} {mem : List Nat} {o1 : List ChunkOp} {op : ChunkOp} {o2 : List ChunkOp},
    chunkOps mem cs = some (o1 ++ op :: o2) →
    ∃ c1 call c2, cs = c1 ++ call :: c2 ∧ chunkOps mem c1 = some o1 ∧ call.op? (mem ++ (placedPairs c1).map Prod.fst) = some [op]
  | [], mem, o1, op, o2, h => by simp [chunkOps] at h
  | c :: cs, mem, o1, op, o2, h => by
    obtain ⟨x, y, h1, h2, h3⟩ := chunkOps_cons h
    rcases (op?_shape h1).1 with rfl | ⟨z, rfl⟩
    · rw [List.nil_append] at h3
      rw [← h3] at h2
      obtain ⟨c1, call, c2, k1, k2, k3⟩ := chunkOps_split h2
      refine ⟨c :: c1, call, c2, by rw [k1]; rfl, by simp [chunkOps, h1, k2], ?_⟩
      rw [show c :: c1 = [c] ++ c1 from rfl, placedPairs_append, List.map_append, ← placed_eq, ← List.append_assoc]
      exact k3
    · cases o1 with
      | nil =>
        rw [List.nil_append, List.cons_append, List.nil_append, List.cons.injEq] at h3
        refine ⟨[], c, cs, rfl, rfl, ?_⟩
        rw [h3.1]
        simpa [placedPairs] using h1
      | cons w o1 =>
        rw [List.cons_append, List.cons_append, List.nil_append, List.cons.injEq] at h3
        obtain ⟨rfl, h3⟩ := h3
        rw [← h3] at h2
        obtain ⟨c1, call, c2, k1, k2, k3⟩ := chunkOps_split h2
        refine ⟨c :: c1, call, c2, by rw [k1]; rfl, by simp [chunkOps, h1, k2], ?_⟩
        rw [show c :: c1 = [c] ++ c1 from rfl, placedPairs_append, List.map_append, ← placed_eq, ← List.append_assoc]
        exact k3

/-- The allocation found for a heap. -/
theorem idxOf?_pairs : ∀ {l : List (Nat × Place)} {u h : Nat}, (l.map Prod.fst).idxOf? u = some h → ∃ pl, l[h]? = some (u, pl)
  | [], u, h, e => by simp at e
  | (v, pl) :: l, u, h, e => by
    rw [List.map_cons, List.idxOf?_cons] at e
    by_cases hv : v = u
    · simp [hv] at e
      subst e
      exact ⟨pl, by simp [hv]⟩
    · simp [hv] at e
      obtain ⟨k, hk, rfl⟩ := e
      obtain ⟨pl', h'⟩ := idxOf?_pairs (l := l) (u := u) (h := k) (by simpa using hk)
      exact ⟨pl', by simpa using h'⟩

theorem idxOf?_isSome {l : List Nat} {u : Nat} (h : u ∈ l) : ∃ k, l.idxOf? u = some k := by
  cases he : l.idxOf? u with
  | none => rw [List.idxOf?_eq_none_iff] at he; exact absurd h he
  | some k => exact ⟨k, rfl⟩

/-! ### The calls for one heap -/

theorem mem_callsOf {u : Nat} {c : MemCall} {cs : List MemCall} : c ∈ callsOf u cs ↔ c ∈ cs ∧ MemCall.uid? c = some u := by
  unfold callsOf
  rw [List.mem_filter]
  simp

theorem mem_copiesOf {u : Nat} {c : MemCall} {ps : List Pkt} (h : c ∈ copiesOf u ps) :
    ∃ p ∈ ps, p.payload ≠ [] ∧ c = .copy u p.payloadOffset p.payload := by
  unfold copiesOf at h
  rw [List.mem_filterMap] at h
  obtain ⟨p, hp, he⟩ := h
  split at he
  · cases he
  · next hn => exact ⟨p, hp, hn, (Option.some.inj he).symm⟩

/-- The heap for which a call was made. -/
theorem Called.call {cfg : StreamConfig} {offs : List (Pkt × Place)} {calls : List MemCall} {done d : List Entry} {a : AStream}
    (c : Called cfg offs calls done d a) {x : MemCall} (hx : x ∈ calls) {u : Nat} (hu : MemCall.uid? x = some u) :
    ∃ e pl tail, e ∈ done ++ d ++ entries a ∧ e.uid = u ∧ FirstAt offs e pl ∧ callsOf u calls = memCalls cfg.allowOoo pl e ++ tail ∧
      (tail = [] ∨ (e ∈ done ∧ tail = [.ready u e.heap.isComplete])) := by
  have hlt : u < a.created := by
    apply Classical.byContradiction
    intro hn
    have := c.fresh u (by omega)
    have hm : x ∈ callsOf u calls := mem_callsOf.2 ⟨hx, hu⟩
    rw [this] at hm
    cases hm
  have hmem : u ∈ (done ++ d ++ entries a).map Entry.uid := c.uids.symm.subset (List.mem_range.2 hlt)
  obtain ⟨e, he, rfl⟩ := List.mem_map.1 hmem
  by_cases hd : e ∈ done
  · obtain ⟨pl, h1, h2⟩ := c.ended e hd
    exact ⟨e, pl, _, he, rfl, h1, h2, Or.inr ⟨hd, rfl⟩⟩
  · have : e ∈ d ++ entries a := by
      rw [List.append_assoc] at he
      exact (List.mem_append.1 he).resolve_left hd
    obtain ⟨pl, h1, h2⟩ := c.mem e this
    exact ⟨e, pl, [], he, rfl, h1, by rw [h2, List.append_nil], Or.inl rfl⟩

/-- The packets a heap accepted are inside the heap. -/
theorem Called.acc {cfg : StreamConfig} {offs : List (Pkt × Place)} {calls : List MemCall} {done d : List Entry} {a : AStream}
    (c : Called cfg offs calls done d a) {e : Entry} (he : e ∈ done ++ d ++ entries a) {pl : Place} (hf : FirstAt offs e pl)
    {p : Pkt} (hp : p ∈ acceptedBy cfg.allowOoo e) :
    p ∈ e.pkts ∧ (∃ pl', (p, pl') ∈ offs) ∧ ∃ n, e.heap.heapLength = some n ∧ p.payloadOffset + p.payload.length ≤ n := by
  have hok := (c.ok e he).1
  obtain ⟨h1, h2⟩ := hok.acc_subset hp
  obtain ⟨q, rest, k1, k2, k3, k4⟩ := hf
  obtain ⟨n, hn⟩ := Option.ne_none_iff_exists'.1 (k4 p h1).1
  exact ⟨h1, (k4 p h1).2, n, hok.inv.hlall p hp n hn, h2 n hn⟩

theorem Called.copied {cfg : StreamConfig} {offs : List (Pkt × Place)} {calls : List MemCall} {done d : List Entry} {a : AStream}
    (c : Called cfg offs calls done d a) {c1 c2 : List MemCall} {u off : Nat} {data : Bytes} (hc : calls = c1 ++ .copy u off data :: c2) :
    ∃ e pl p, e ∈ done ++ d ++ entries a ∧ e.uid = u ∧ FirstAt offs e pl ∧ p ∈ acceptedBy cfg.allowOoo e ∧ p.payload ≠ [] ∧
      p.payloadOffset = off ∧ p.payload = data ∧ .place u pl ∈ c1 := by
  obtain ⟨e, pl, tail, h1, h2, h3, h4, h5⟩ := c.call (x := .copy u off data) (by rw [hc]; simp) rfl
  have hm : MemCall.copy u off data ∈ callsOf u calls := mem_callsOf.2 ⟨by rw [hc]; simp, rfl⟩
  have hcop : ∃ p ∈ acceptedBy cfg.allowOoo e, p.payload ≠ [] ∧ MemCall.copy u off data = .copy e.uid p.payloadOffset p.payload := by
    rw [h4] at hm
    rcases List.mem_append.1 hm with hm | hm
    · unfold memCalls at hm
      rcases List.mem_append.1 hm with hm | hm
      · split at hm
        · simp at hm
        · cases hm
      · exact mem_copiesOf hm
    · rcases h5 with rfl | ⟨-, rfl⟩
      · cases hm
      · simp at hm
  obtain ⟨p, hp, hpe, hpc⟩ := hcop
  simp only [MemCall.copy.injEq] at hpc
  obtain ⟨-, hpo, hpd⟩ := hpc
  obtain ⟨-, -, n, hn, hle⟩ := c.acc h1 h3 hp
  have hpos : 0 < p.payload.length := List.length_pos_iff.2 hpe
  refine ⟨e, pl, p, h1, h2, h3, hp, hpe, hpo.symm, hpd.symm, ?_⟩
  rw [memCalls, hn, if_pos (show 0 < (some n).getD 0 by simp; omega), hc, callsOf_append] at h4
  have hcons : callsOf u (.copy u off data :: c2) = .copy u off data :: callsOf u c2 := by
    simp [callsOf, MemCall.uid?]
  rw [hcons] at h4
  have hin : MemCall.place u pl ∈ callsOf u c1 := by
    cases hq : callsOf u c1 with
    | nil => rw [hq] at h4; simp at h4
    | cons y ys =>
      rw [hq] at h4
      simp only [List.cons_append, List.nil_append, List.append_assoc, List.cons.injEq] at h4
      rw [h4.1, h2]
      exact List.mem_cons_self
  exact (mem_callsOf.1 hin).1

theorem Called.placed {cfg : StreamConfig} {offs : List (Pkt × Place)} {calls : List MemCall} {done d : List Entry} {a : AStream}
    (c : Called cfg offs calls done d a) {u : Nat} {pl : Place} (hx : .place u pl ∈ calls) :
    ∃ e, e ∈ done ++ d ++ entries a ∧ e.uid = u ∧ FirstAt offs e pl ∧ 0 < e.heap.heapLength.getD 0 := by
  obtain ⟨e, pl', tail, h1, h2, h3, h4, h5⟩ := c.call hx rfl
  have hm : MemCall.place u pl ∈ callsOf u calls := mem_callsOf.2 ⟨hx, rfl⟩
  rw [h4] at hm
  rcases List.mem_append.1 hm with hm | hm
  · unfold memCalls at hm
    rcases List.mem_append.1 hm with hm | hm
    · split at hm
      · next hlen =>
        simp only [List.mem_singleton, MemCall.place.injEq] at hm
        rw [hm.2]
        exact ⟨e, h1, h2, h3, hlen⟩
      · cases hm
    · obtain ⟨p, -, -, hp⟩ := mem_copiesOf hm
      cases hp
  · rcases h5 with rfl | ⟨-, rfl⟩
    · cases hm
    · simp at hm

theorem Called.placed_eq {cfg : StreamConfig} {offs : List (Pkt × Place)} {calls : List MemCall} {done d : List Entry} {a : AStream}
    (c : Called cfg offs calls done d a) {e : Entry} {pl pl' : Place} (h : callsOf e.uid calls = memCalls cfg.allowOoo pl e ∨
      callsOf e.uid calls = memCalls cfg.allowOoo pl e ++ [.ready e.uid e.heap.isComplete]) (hx : .place e.uid pl' ∈ calls) : pl' = pl := by
  have hm : MemCall.place e.uid pl' ∈ callsOf e.uid calls := mem_callsOf.2 ⟨hx, rfl⟩
  have hm' : MemCall.place e.uid pl' ∈ memCalls cfg.allowOoo pl e := by
    rcases h with h | h
    · rwa [h] at hm
    · rw [h] at hm
      rcases List.mem_append.1 hm with hm | hm
      · exact hm
      · simp at hm
  unfold memCalls at hm'
  rcases List.mem_append.1 hm' with hm | hm
  · split at hm
    · simp only [List.mem_singleton, MemCall.place.injEq] at hm
      exact hm.2
    · cases hm
  · obtain ⟨p, -, -, hp⟩ := mem_copiesOf hm
    cases hp

theorem Called.readied {cfg : StreamConfig} {offs : List (Pkt × Place)} {calls : List MemCall} {done d : List Entry} {a : AStream}
    (c : Called cfg offs calls done d a) {c1 c2 : List MemCall} {u : Nat} {b : Bool} (hc : calls = c1 ++ .ready u b :: c2) :
    ∃ e pl, e ∈ done ∧ e.uid = u ∧ b = e.heap.isComplete ∧ FirstAt offs e pl ∧ callsOf u c1 = memCalls cfg.allowOoo pl e ∧ callsOf u c2 = [] := by
  obtain ⟨e, pl, tail, h1, h2, h3, h4, h5⟩ := c.call (x := .ready u b) (by rw [hc]; simp) rfl
  have hno : ∀ b', MemCall.ready u b' ∉ memCalls cfg.allowOoo pl e := by
    intro b' hm
    unfold memCalls at hm
    rcases List.mem_append.1 hm with hm | hm
    · split at hm
      · simp at hm
      · cases hm
    · obtain ⟨p, -, -, hp⟩ := mem_copiesOf hm
      cases hp
  have hcons : callsOf u (.ready u b :: c2) = .ready u b :: callsOf u c2 := by
    simp [callsOf, MemCall.uid?]
  rw [hc, callsOf_append, hcons] at h4
  rcases h5 with rfl | ⟨h5, rfl⟩
  · rw [List.append_nil] at h4
    exact absurd (by rw [← h4]; simp) (hno b)
  · have hsplit : ∀ (A B M : List MemCall) (x y : MemCall), x ∉ M → A ++ x :: B = M ++ [y] → A = M ∧ x = y ∧ B = [] := by
      intro A
      induction A with
      | nil =>
        intro B M x y hx he
        cases M with
        | nil => simp at he; exact ⟨rfl, he.1, he.2⟩
        | cons z M => simp at he; exact absurd (by rw [he.1]; exact List.mem_cons_self) hx
      | cons w A ih =>
        intro B M x y hx he
        cases M with
        | nil => simp at he
        | cons z M =>
          simp only [List.cons_append, List.cons.injEq] at he
          obtain ⟨r1, r2, r3⟩ := ih B M x y (fun h => hx (List.mem_cons_of_mem _ h)) he.2
          exact ⟨by rw [he.1, r1], r2, r3⟩
    obtain ⟨r1, r2, r3⟩ := hsplit _ _ _ _ _ (hno b) h4
    exact ⟨e, pl, h5, h2, by cases r2; rfl, h3, r1, r3⟩

theorem chunkOps_total : ∀ (cs : List MemCall) (mem : List Nat),
    (∀ c1 u off data c2, cs = c1 ++ .copy u off data :: c2 → u ∈ mem ++ (placedPairs c1).map Prod.fst) → ∃ o, chunkOps mem cs = some o
  | [], mem, _ => ⟨[], rfl⟩
  | c :: cs, mem, h => by
    obtain ⟨b, hb⟩ := chunkOps_total cs (mem ++ c.placed) (fun c1 u off data c2 he => by
      have := h (c :: c1) u off data c2 (by rw [he]; rfl)
      rw [show c :: c1 = [c] ++ c1 from rfl, placedPairs_append, List.map_append, ← placed_eq, ← List.append_assoc] at this
      exact this)
    have ha : ∃ a, c.op? mem = some a := by
      cases c with
      | place u pl => exact ⟨_, rfl⟩
      | copy u off data =>
        have := h [] u off data cs rfl
        obtain ⟨k, hk⟩ := idxOf?_isSome (l := mem) (u := u) (by simpa [placedPairs] using this)
        exact ⟨[.copy k off data], by simp [MemCall.op?, hk]⟩
      | ready u b =>
        cases hk : mem.idxOf? u with
        | none => exact ⟨[], by simp [MemCall.op?, hk]⟩
        | some k => exact ⟨[.heapReady k b], by simp [MemCall.op?, hk]⟩
      | flush => exact ⟨_, rfl⟩
    obtain ⟨a, ha⟩ := ha
    exact ⟨a ++ b, by simp [chunkOps, ha, hb]⟩

theorem uid_inj : ∀ {l : List Entry}, (l.map Entry.uid).Nodup → ∀ {x y : Entry}, x ∈ l → y ∈ l → x.uid = y.uid → x = y
  | [], _, x, y, hx, _, _ => by cases hx
  | z :: l, hn, x, y, hx, hy, h => by
    rw [List.map_cons, List.nodup_cons] at hn
    rcases List.mem_cons.1 hx with rfl | hx'
    · rcases List.mem_cons.1 hy with rfl | hy'
      · rfl
      · exact absurd (List.mem_map.2 ⟨y, hy', h.symm⟩) hn.1
    · rcases List.mem_cons.1 hy with rfl | hy'
      · exact absurd (List.mem_map.2 ⟨x, hx', h⟩) hn.1
      · exact uid_inj hn.2 hx' hy' h

/-- The heap to which an operation of the chunk layer refers. -/
theorem place_of_idx {c1 : List MemCall} {o1 : List ChunkOp} (h1 : chunkOps [] c1 = some o1) {u h : Nat}
    (hk : ([] ++ (placedPairs c1).map Prod.fst).idxOf? u = some h) : ∃ pl, .place u pl ∈ c1 ∧ (placements o1)[h]? = some pl := by
  rw [List.nil_append] at hk
  obtain ⟨pl, hp⟩ := idxOf?_pairs hk
  refine ⟨pl, mem_placedPairs.1 (List.mem_of_getElem? hp), ?_⟩
  rw [chunkOps_placements h1, List.getElem?_map, hp]
  rfl

theorem Called.good {cfg : StreamConfig} {ccfg : ChunkConfig} {offs : List (Pkt × Place)} {calls : List MemCall} {done d : List Entry} {a : AStream}
    (_ : Called cfg offs calls done d a) (hg : ∀ x ∈ offs, PktValid x.1 ∧ GoodPlace ccfg x.1 x.2) {e : Entry} {pl : Place} (hf : FirstAt offs e pl) :
    ∃ p, p.heapLength = e.heap.heapLength ∧ GoodPlace ccfg p pl := by
  obtain ⟨p, rest, h1, h2, h3, h4⟩ := hf
  exact ⟨p, h3, (hg _ h2).2⟩

/-- The calls are operations that the chunk layer allows. -/
theorem Called.valid {cfg : StreamConfig} {ccfg : ChunkConfig} {offs : List (Pkt × Place)} {calls : List MemCall} {done d : List Entry} {a : AStream}
    (c : Called cfg offs calls done d a) (hg : ∀ x ∈ offs, PktValid x.1 ∧ GoodPlace ccfg x.1 x.2) :
    ∃ o, chunkOps [] calls = some o ∧ ValidOps ccfg o := by
  obtain ⟨o, ho⟩ := chunkOps_total calls [] (fun c1 u off data c2 he => by
    obtain ⟨e, pl, p, -, -, -, -, -, -, -, h⟩ := c.copied he
    rw [List.nil_append]
    exact List.mem_map.2 ⟨(u, pl), mem_placedPairs.2 h, rfl⟩)
  refine ⟨o, ho, ?_⟩
  intro o1 op o2 hs
  rw [hs] at ho
  obtain ⟨c1, call, c2, h1, h2, h3⟩ := chunkOps_split ho
  cases call with
  | place u pl =>
    simp only [MemCall.op?, Option.some.injEq, List.cons.injEq, and_true] at h3
    subst h3
    obtain ⟨e, -, -, hf, -⟩ := c.placed (u := u) (pl := pl) (by rw [h1]; simp)
    obtain ⟨p, -, gp⟩ := c.good hg hf
    exact ⟨gp.id, gp.extra⟩
  | copy u off data =>
    simp only [MemCall.op?, Option.map_eq_some_iff] at h3
    obtain ⟨h, hk, h3⟩ := h3
    simp only [List.cons.injEq, and_true] at h3
    subst h3
    obtain ⟨pl, hp1, hp2⟩ := place_of_idx h2 hk
    obtain ⟨e, pl', p, k1, k2, k3, k4, k5, k6, k7, k8⟩ := c.copied h1
    obtain ⟨-, -, n, hn, hle⟩ := c.acc k1 k3 k4
    obtain ⟨e', m1, m2, m3, -⟩ := c.placed (u := u) (pl := pl) (by rw [h1]; exact List.mem_append_left _ hp1)
    have hee : e' = e := uid_inj c.nodup m1 k1 (by rw [m2, k2])
    subst hee
    obtain ⟨q, hq, gp⟩ := c.good hg m3
    rw [hn] at hq
    have hpos : 0 < p.payload.length := List.length_pos_iff.2 k5
    refine ⟨pl, hp2, fun hs => ?_, fun hs hz => ?_⟩
    · have := gp.data hs n hq
      rw [← k6, ← k7]; omega
    · exact gp.flags hs hz n hq off (by omega)
  | ready u b =>
    simp only [MemCall.op?] at h3
    split at h3
    · simp at h3
    · next h hk =>
      simp only [Option.some.injEq, List.cons.injEq, and_true] at h3
      subst h3
      obtain ⟨pl, hp1, hp2⟩ := place_of_idx h2 hk
      obtain ⟨e', m1, m2, m3, -⟩ := c.placed (u := u) (pl := pl) (by rw [h1]; exact List.mem_append_left _ hp1)
      obtain ⟨q, hq, gp⟩ := c.good hg m3
      exact ⟨pl, hp2, gp.flag⟩
  | flush =>
    simp only [MemCall.op?, Option.some.injEq, List.cons.injEq, and_true] at h3
    subst h3
    trivial

/-! ### Events of the chunk layer -/

theorem chunkRun_event {cfg : ChunkConfig} : ∀ {ops : List ChunkOp} {s s' : ChunkStream} {before after : List ChunkEv} {e : ChunkEv},
    ChunkStream.run cfg ops s = some (s', before ++ e :: after) →
    ∃ o1 op o2 s1 t1 s2 e1 e2, ops = o1 ++ op :: o2 ∧ ChunkStream.run cfg o1 s = some (s1, t1) ∧ s1.step cfg op = some (s2, e1 ++ e :: e2) ∧
      before = t1 ++ e1
  | [], s, s', before, after, e, h => by simp [ChunkStream.run] at h
  | op :: ops, s, s', before, after, e, h => by
    rw [ChunkStream.run] at h
    split at h
    · cases h
    · next s1 ev hstep =>
      split at h
      · cases h
      · next s2 ev' hrun =>
        simp only [Option.some.injEq, Prod.mk.injEq] at h
        obtain ⟨rfl, h⟩ := h
        rcases List.append_eq_append_iff.1 h with ⟨l, h1, h2⟩ | ⟨l, h1, h2⟩
        · rw [h2] at hrun
          obtain ⟨o1, op', o2, sa, t1, sb, e1, e2, k1, k2, k3, k4⟩ := chunkRun_event hrun
          refine ⟨op :: o1, op', o2, sa, ev ++ t1, sb, e1, e2, by rw [k1]; rfl, ?_, k3, by rw [h1, k4, List.append_assoc]⟩
          rw [ChunkStream.run, hstep]
          simp only
          rw [k2]
        · cases l with
          | nil =>
            rw [List.nil_append] at h2
            rw [← h2] at hrun
            obtain ⟨o1, op', o2, sa, t1, sb, e1, e2, k1, k2, k3, k4⟩ := chunkRun_event (before := []) hrun
            refine ⟨op :: o1, op', o2, sa, ev ++ t1, sb, e1, e2, by rw [k1]; rfl, ?_, k3, by rw [List.append_assoc, ← k4, h1]; simp⟩
            rw [ChunkStream.run, hstep]
            simp only
            rw [k2]
          | cons x l =>
            simp only [List.cons_append, List.cons.injEq] at h2
            obtain ⟨rfl, h2⟩ := h2
            exact ⟨[], op, ops, s, [], s1, before, l, rfl, rfl, by rw [hstep, h1], rfl⟩

end Spead2
