import Verif.Lemmas.DeliveryStream
import Verif.Lemmas.RecvUdp
import Verif.Lemmas.Tcp

/-!
# Stopping a stream that holds no heaps
-/

namespace Spead2
open Spec

variable {cfg : StreamConfig}

theorem quiet_slot {s : Stream} (h : liveHeaps s = []) {i : Nat} {sl : Slot} (hi : s.slots[i]? = some sl) : sl.heap = none := by
  cases he : sl.heap with
  | none => rfl
  | some e =>
    have : e ∈ liveHeaps s := List.mem_filterMap.2 ⟨sl, List.mem_of_getElem? hi, he⟩
    rw [h] at this
    cases this

theorem quiet_eject {s : Stream} (h : liveHeaps s = []) {i : Nat} {r : Stream × List Entry} (hr : s.eject cfg i = some r) : r = (s, []) := by
  unfold Stream.eject at hr
  simp only [Option.bind_eq_bind, Option.bind_eq_some_iff] at hr
  obtain ⟨sl, h1, hr⟩ := hr
  split at hr
  · cases hr; rfl
  · rw [quiet_slot h h1] at hr
    simp at hr

theorem quiet_flushSub {sub : Nat} : ∀ (n : Nat) {s : Stream} {r : Stream × List Entry}, liveHeaps s = [] → Stream.flushSub cfg sub n s = some r → r.2 = [] ∧ liveHeaps r.1 = []
  | 0, s, r, h, hr => by cases hr; exact ⟨rfl, h⟩
  | n + 1, s, r, h, hr => by
    rw [Stream.flushSub] at hr
    simp only [Option.bind_eq_bind, Option.bind_eq_some_iff] at hr
    obtain ⟨a, h1, ev, h2, r', h3, hr⟩ := hr
    cases hr
    have ha : liveHeaps a.1 = [] := by
      unfold Stream.advance at h1
      simp only [Option.bind_eq_bind, Option.bind_eq_some_iff] at h1
      obtain ⟨x, -, h1⟩ := h1
      cases h1
      exact h
    have := quiet_eject ha h2
    subst this
    have := quiet_flushSub n ha h3
    exact ⟨by rw [List.nil_append]; exact this.1, this.2⟩

theorem quiet_flushSubs : ∀ (l : List Nat) {s : Stream} {r : Stream × List Entry}, liveHeaps s = [] → Stream.flushSubs cfg l s = some r → r.2 = [] ∧ liveHeaps r.1 = []
  | [], s, r, h, hr => by cases hr; exact ⟨rfl, h⟩
  | i :: l, s, r, h, hr => by
    rw [Stream.flushSubs] at hr
    simp only [Option.bind_eq_bind, Option.bind_eq_some_iff] at hr
    obtain ⟨a, h1, b, h2, hr⟩ := hr
    cases hr
    obtain ⟨e1, e2⟩ := quiet_flushSub _ h h1
    obtain ⟨e3, e4⟩ := quiet_flushSubs l e2 h2
    exact ⟨by rw [e1, e3]; rfl, e4⟩

theorem quiet_stop {s : Stream} {r : Stream × List Entry} (h : liveHeaps s = []) (hr : s.stopReceived cfg = some r) : r.2 = [] ∧ liveHeaps r.1 = [] ∧ r.1.stopped = true := by
  unfold Stream.stopReceived at hr
  split at hr
  · cases hr
  · unfold Stream.flush at hr
    simp only [Option.bind_eq_bind, Option.bind_eq_some_iff] at hr
    obtain ⟨x, h1, hr⟩ := hr
    cases hr
    obtain ⟨e1, e2⟩ := quiet_flushSubs (s := { s with stopped := true }) _ h h1
    exact ⟨e1, e2, by have := flushSubs_keeps _ h1; simpa using this⟩

theorem quiet_end {s : Stream} {st : Batch} {r : Stream × List Entry} (h : liveHeaps s = []) (hst : st.stopped = true) (hr : s.endBatch cfg st = some r) : r.2 = [] ∧ liveHeaps r.1 = [] ∧ r.1.stopped = true := by
  unfold Stream.endBatch at hr
  rw [if_pos hst] at hr
  simp only [Option.bind_eq_bind, Option.bind_eq_some_iff] at hr
  obtain ⟨x, h1, hr⟩ := hr
  have := quiet_stop h h1
  split at hr <;> cases hr <;> exact this

/-- A stop at the end of a batch after which no heap is left. -/
theorem quiet_batch {s s1 s2 : Stream} {l : List BatchOp} {o1 o2 : List Entry} (h1 : s.batch cfg l = some (s1, o1)) (hs : s1.stopped = false) (hl : liveHeaps s1 = []) (h2 : s.batch cfg (l ++ [.stop]) = some (s2, o2)) :
    o2 = o1 ∧ s2.stopped = true ∧ liveHeaps s2 = [] := by
  unfold Stream.batch at h1 h2
  split at h1
  · rename_i h
    cases h1
    rw [h] at hs; cases hs
  · rename_i h
    rw [if_neg h] at h2
    simp only [Option.bind_eq_bind, Option.bind_eq_some_iff] at h1 h2
    obtain ⟨⟨a, st, o⟩, g1, y, g2, g3⟩ := h1
    obtain ⟨b, k1, z, k2, k3⟩ := h2
    rw [batchLoop_append, g1, Option.bind_some] at k1
    cases g3
    cases k3
    simp only at g2 hs hl k1
    have hns : st.stopped = false := by
      cases hst : st.stopped with
      | false => rfl
      | true =>
        exfalso
        unfold Stream.endBatch at g2
        rw [if_pos hst] at g2
        simp only [Option.bind_eq_bind, Option.bind_eq_some_iff] at g2
        obtain ⟨x, h1, g2⟩ := g2
        have hx : x.1.stopped = true := by
          unfold Stream.stopReceived at h1
          split at h1
          · cases h1
          · unfold Stream.flush at h1
            simp only [Option.bind_eq_bind, Option.bind_eq_some_iff] at h1
            obtain ⟨w, h3, h1⟩ := h1
            cases h1
            have := flushSubs_keeps _ h3
            simpa using this
        split at g2 <;> cases g2 <;> simp_all
    have hy : liveHeaps a = [] ∧ y.2 = [] := by
      unfold Stream.endBatch at g2
      rw [if_neg (by simp [hns])] at g2
      simp only [Option.bind_eq_bind, Option.bind_some] at g2
      rw [if_neg (by simp [hns])] at g2
      cases g2
      exact ⟨hl, rfl⟩
    simp only [Stream.batchLoop, hns, Bool.false_eq_true, if_false, Option.map_some, Option.some.injEq] at k1
    subst k1
    simp only at k2
    obtain ⟨q1, q2, q3⟩ := quiet_end hy.1 rfl k2
    exact ⟨by simp only [q1, hy.2, List.append_nil], q3, q2⟩

end Spead2
