import Verif.Lemmas.ChunkFlow

/-!
# C29: the window of chunks
-/

namespace Spead2
open Spec

/-- C29 (no undefined behaviour). Whatever heaps arrive, and whether or not the user supplies the chunks that are
requested, no operation on the window reads or writes outside its storage and none of its loops fails to end. -/
theorem C29_total {max : Nat} (hmax : 0 < max) (alloc : Nat → Bool) {ops : List WinOp} (hv : ∀ op ∈ ops, op.Valid) :
    ∃ w ev, Window.run alloc ops (Window.new max) = some (w, ev) := by
  obtain ⟨w, ev, _, _, h, _⟩ := winRun_rel hmax alloc ops (WRel.new hmax) (by simp) hv
  exact ⟨w, ev, h⟩

/-- C29 (order). At any time, the chunks handed over so far followed by those in the window are exactly those the
user supplied, in the order in which they were requested. Requests are made for strictly increasing ids, and every
chunk carries the id for which it was requested. So chunks are handed over in strictly increasing order of id, each
exactly once, and none that the user supplied is lost. -/
theorem C29_order {max : Nat} (hmax : 0 < max) (alloc : Nat → Bool) {ops : List WinOp} (hv : ∀ op ∈ ops, op.Valid)
    {w : Window} {ev : List WinEv} (h : Window.run alloc ops (Window.new max) = some (w, ev)) :
    readied ev ++ inWindow w = supplied alloc ev ∧ (requested ev).Pairwise (· < ·) ∧
      ((readied ev ++ inWindow w).map Chunk.chunkId) = (requested ev).filter alloc ∧
      ((readied ev ++ inWindow w).map Chunk.chunkId).Pairwise (· < ·) ∧
      (∀ c ∈ readied ev, c.chunkId < w.headChunk) ∧ (∀ c ∈ inWindow w, w.headChunk ≤ c.chunkId ∧ c.chunkId < w.tailChunk) := by
  obtain ⟨w', ev', h', win', q1, r, st, ht⟩ := winRun_rel hmax alloc ops (WRel.new hmax) (by simp) hv
  rw [h] at q1; cases q1
  have hflow := st.flow
  rw [← inWindow_rel r] at hflow
  simp only [List.filterMap_nil, List.nil_append] at hflow
  have hids : (readied ev ++ inWindow w).map Chunk.chunkId = (requested ev).filter alloc := by
    rw [hflow, ← supplied_allocFor]
    exact List.map_congr_left (supplied_ids alloc ev)
  have hsort : ((readied ev ++ inWindow w).map Chunk.chunkId).Pairwise (· < ·) := by
    rw [hids]; exact st.reqSorted.filter _
  have hin : ∀ c ∈ inWindow w, w.headChunk ≤ c.chunkId ∧ c.chunkId < w.tailChunk := by
    intro c hc
    rw [inWindow_rel r, List.mem_filterMap] at hc
    obtain ⟨x, hx, rfl⟩ := hc
    obtain ⟨i, hi, hxi⟩ := List.getElem_of_mem hx
    have hw : win'[i]? = some (some c) := by rw [List.getElem?_eq_getElem hi, hxi]
    rcases st.ids (fun i x h => by simp at h) i _ hw with ⟨h, _⟩ | ⟨s, h, _⟩
    · cases h
    · cases h
      rw [r.head, r.tail]
      constructor
      · simp
      · simp only; omega
  refine ⟨hflow, st.reqSorted, hids, hsort, ?_, hin⟩
  intro c hc
  rw [r.head]
  exact (st.readyRange (fun i x h => by simp at h) c hc).2

/-- C29 (window). At most `max_chunks` ids lie in the window. -/
theorem C29_window {max : Nat} (hmax : 0 < max) (alloc : Nat → Bool) {ops : List WinOp} (hv : ∀ op ∈ ops, op.Valid)
    {w : Window} {ev : List WinEv} (h : Window.run alloc ops (Window.new max) = some (w, ev)) :
    w.headChunk ≤ w.tailChunk ∧ w.tailChunk ≤ w.headChunk + max := by
  obtain ⟨w', ev', h', win', q1, r, st, ht⟩ := winRun_rel hmax alloc ops (WRel.new hmax) (by simp) hv
  rw [h] at q1; cases q1
  have := r.fits
  rw [r.head, r.tail]
  omega

/-- C29 (the head never moves back). The values reported as new head are strictly increasing, and the last is the
current head; if there is none, the head is still 0. -/
theorem C29_head {max : Nat} (hmax : 0 < max) (alloc : Nat → Bool) {ops : List WinOp} (hv : ∀ op ∈ ops, op.Valid)
    {w : Window} {ev : List WinEv} (h : Window.run alloc ops (Window.new max) = some (w, ev)) :
    (headsOf ev).Pairwise (· < ·) ∧ w.headChunk = (headsOf ev).getLastD 0 := by
  obtain ⟨w', ev', h', win', q1, r, st, ht⟩ := winRun_rel hmax alloc ops (WRel.new hmax) (by simp) hv
  rw [h] at q1; cases q1
  refine ⟨st.headSorted, ?_⟩
  rw [r.head, List.getLastD_eq_getLast?]
  by_cases h0 : 0 = h'
  · subst h0
    have : headsOf ev = [] := by
      rw [List.eq_nil_iff_forall_not_mem]
      intro x hx
      have := st.headRange x hx
      omega
    rw [this]; rfl
  · rw [st.headLast h0]; rfl

/-- C29 (no operation moves the head or the tail back), after any history. -/
theorem C29_monotone {max : Nat} (hmax : 0 < max) (alloc : Nat → Bool) {ops : List WinOp} (hv : ∀ op ∈ ops, op.Valid)
    {w : Window} {ev : List WinEv} (h : Window.run alloc ops (Window.new max) = some (w, ev))
    (op : WinOp) (ho : op.Valid) {w' : Window} {ev' : List WinEv} (h' : w.step alloc op = some (w', ev')) :
    w.headChunk ≤ w'.headChunk ∧ w.tailChunk ≤ w'.tailChunk := by
  obtain ⟨w1, ev1, h1, win1, q1, r, st, ht⟩ := winRun_rel hmax alloc ops (WRel.new hmax) (by simp) hv
  rw [h] at q1; cases q1
  obtain ⟨w2, ev2, h2, win2, q2, r2, st2, _⟩ := winStep_rel hmax alloc r ht op ho
  rw [h'] at q2; cases q2
  rw [r.head, r.tail, r2.head, r2.tail]
  exact ⟨st2.headLe, st2.tailLe⟩

/-- C29 (requesting a chunk). After any history, a heap for chunk `id`:
* if `id` is below the head, nothing happens and there is no chunk for the heap;
* otherwise the window afterwards contains `id`. The head moves only as far as needed for that, the tail ends just
  past `id` or does not move, the chunks that drop out of the window are handed over, in order, and no others; the
  ids newly in the window are requested from the user, in order. The heap gets the chunk with that id, if the user
  supplied it, and none otherwise. -/
theorem C29_get {max : Nat} (hmax : 0 < max) (alloc : Nat → Bool) {ops : List WinOp} (hv : ∀ op ∈ ops, op.Valid)
    {w : Window} {ev : List WinEv} (h : Window.run alloc ops (Window.new max) = some (w, ev))
    (id sid : Nat) (hid : id < 2 ^ 63) :
    ∃ w' c ev', w.getChunk alloc id sid = some (w', c, ev') ∧
      (id < w.headChunk → w' = w ∧ c = none ∧ ev' = []) ∧
      (w.headChunk ≤ id →
        w'.headChunk = Max.max w.headChunk (id + 1 - max) ∧ w'.tailChunk = Max.max w.tailChunk (id + 1) ∧
        readied ev' ++ inWindow w' = inWindow w ++ supplied alloc ev' ∧
        (∀ x ∈ readied ev', w.headChunk ≤ x.chunkId ∧ x.chunkId < w'.headChunk) ∧
        requested ev' = idsFrom (Max.max w.tailChunk w'.headChunk) w'.tailChunk ∧
        (alloc id = false → c = none) ∧ (alloc id = true → ∃ x ∈ inWindow w', c = some x ∧ x.chunkId = id)) := by
  obtain ⟨w1, ev1, h1, win1, q1, r, st, ht⟩ := winRun_rel hmax alloc ops (WRel.new hmax) (by simp) hv
  rw [h] at q1; cases q1
  obtain ⟨w', ev', h', win', c, g1, g2, g3, g4, g5, g6⟩ := getChunk_rel hmax alloc r id sid hid
  have hids := st.ids (fun i x h => by simp at h)
  refine ⟨w', c, ev', g1, fun hlt => ?_, fun hge => ?_⟩
  · rw [r.head] at hlt
    obtain ⟨-, -, g4c, g4d⟩ := g4 hlt
    refine ⟨?_, g4c, g4d⟩
    unfold Window.getChunk at g1
    rw [if_pos hid, if_neg (by rw [r.head]; omega)] at g1
    cases g1; rfl
  · rw [r.head] at hge ⊢
    obtain ⟨k1, k2, k3, k4⟩ := g6 hge
    have hids' := g3.ids hids
    rw [g2.head, g2.tail, r.tail, inWindow_rel g2, inWindow_rel r]
    refine ⟨g5 hge, k2, g3.flow, ?_, k4, ?_, ?_⟩
    · exact g3.readyRange hids
    · intro ha
      have hlt : id - h' < win'.length := by omega
      rcases hids' (id - h') _ (List.getElem?_eq_getElem hlt) with ⟨e, _⟩ | ⟨s, _, e⟩
      · rw [k3, List.getElem?_eq_getElem hlt, e]; rfl
      · rw [show h' + (id - h') = id by omega, ha] at e; cases e
    · intro ha
      have hlt : id - h' < win'.length := by omega
      rcases hids' (id - h') _ (List.getElem?_eq_getElem hlt) with ⟨_, e⟩ | ⟨s, e, _⟩
      · rw [show h' + (id - h') = id by omega, ha] at e; cases e
      · rw [show h' + (id - h') = id by omega] at e
        refine ⟨_, List.mem_filterMap.2 ⟨_, List.getElem_mem hlt, by rw [e]; rfl⟩, ?_, rfl⟩
        rw [k3, List.getElem?_eq_getElem hlt, e]; rfl

/-- C29 (at every point). Also in the middle of an operation: the chunks handed over so far are the first of those supplied so
far, no more than `max_chunks` of the user's chunks are held, and when a chunk is requested fewer than `max_chunks` are
held (the oldest one is handed over first, to make room). -/
theorem C29_every {max : Nat} (hmax : 0 < max) (alloc : Nat → Bool) {ops : List WinOp} (hv : ∀ op ∈ ops, op.Valid)
    {w : Window} {ev : List WinEv} (h : Window.run alloc ops (Window.new max) = some (w, ev)) {a b : List WinEv} (he : ev = a ++ b) :
    readied a <+: supplied alloc a ∧ (supplied alloc a).length ≤ (readied a).length + max ∧
      ∀ n s b', b = .alloc n s :: b' → (supplied alloc a).length < (readied a).length + max := by
  have hf := winRun_flow hmax alloc ops (WRel.new hmax) (by simp) hv h
  rw [inWindow_rel (WRel.new hmax), he] at hf
  exact flowRun_every hf

/-- A history with a jump, a chunk that the user did not supply, and a final flush. -/
example : Window.run (fun n => n != 4) [.get 1 0, .get 3 0, .get 4 0, .get 2 0, .until 4, .get 9 0, .all] (Window.new 3) =
    some (⟨[none, none, none], 2 ^ 64 - 1, 2 ^ 64 - 1, 2, 2⟩,
      [.alloc 0 0, .alloc 1 0, .alloc 2 0, .ready ⟨0, 0, 0⟩, .head 1, .alloc 3 0, .ready ⟨1, 1, 0⟩, .head 2, .alloc 4 0,
       .ready ⟨2, 2, 0⟩, .ready ⟨3, 3, 0⟩, .head 4, .head 7, .alloc 7 0, .alloc 8 0, .alloc 9 0,
       .ready ⟨7, 7, 0⟩, .ready ⟨8, 8, 0⟩, .ready ⟨9, 9, 0⟩, .head (2 ^ 64 - 1)]) := by decide +kernel

example : ∀ op ∈ [WinOp.get 1 0, .get 3 0, .get 4 0, .get 2 0, .until 4, .get 9 0, .all], op.Valid := by
  simp [WinOp.Valid]

end Spead2
