import Verif.Spec.Ring
import Verif.Lemmas.ChunkWindow

/-!
# Invariants of the ring buffer
-/

namespace Spead2
open Spec

variable {α : Type}

theorem pushed_append (a b : List (REv α)) : pushed (a ++ b) = pushed a ++ pushed b := List.filterMap_append
theorem popped_append (a b : List (REv α)) : popped (a ++ b) = popped a ++ popped b := List.filterMap_append
theorem isClosed_append (a b : List (REv α)) : isClosed (a ++ b) = (isClosed a || isClosed b) := List.any_append
theorem isSealed_append (a b : List (REv α)) : isSealed (a ++ b) = (isSealed a || isSealed b) := List.any_append
theorem removals_append (a b : List (REv α)) : removals (a ++ b) = removals a + removals b := List.countP_append
theorem additions_append (a b : List (REv α)) : additions (a ++ b) = additions a + additions b := List.countP_append
theorem eventsOf_append (t : Nat) (a b : List (REv α)) : eventsOf t (a ++ b) = eventsOf t a ++ eventsOf t b := List.filter_append ..

/-- Units of the semaphores held by a thread, its part in waking up others, and pending removals of a producer. -/
def spaceW : RPc α → Nat
  | .emplace _ => 1 | .backSpace => 1 | .putSpace _ => 1 | _ => 0
def dataW : RPc α → Nat
  | .popInternal => 1 | .backData => 1 | .putData => 1 | _ => 0
def wakeSpaceW : RPc α → Nat
  | .stopHead _ => 1 | .stopSpace => 1 | _ => 0
def wakeDataW : RPc α → Nat
  | .stopHead _ => 1 | .stopSpace => 1 | .stopData => 1 | _ => 0
def removeW : RPc α → Nat
  | .stopTail true => 1 | _ => 0

/-- The invariant of the buffer, given the sums of the weights of the threads. `q` are the items in the buffer, `e` and
`e'` the units that calls of `stop` have added to the semaphores. -/
structure RInv (cap : Nat) (r : Ring α) (tr : List (REv α)) (q : List α) (e e' sw dw w1 w2 rw : Nat) : Prop where
  pos : 0 < cap
  len : r.storage.length = cap + 1
  hd : r.head < cap + 1
  qlen : q.length ≤ cap
  tl : r.tail = wrap (cap + 1) (r.head + q.length)
  slots : ∀ i, i < cap + 1 → r.storage[wrap (cap + 1) (r.head + i)]? = some q[i]?
  flow : popped tr ++ q = pushed tr
  space : r.spaceSem + sw + q.length = cap + e
  data : r.dataSem + dw = q.length + e'
  opened : r.stopped = false → e = 0
  unset : r.stopPos = cap + 1 → e' = 0
  stop : r.stopPos = cap + 1 ∨ (r.stopped = true ∧ r.stopPos = r.tail)
  closed : isClosed tr = r.stopped
  sealed' : isSealed tr = decide (r.stopPos ≠ cap + 1)
  wakeSpace : r.stopped = true → 1 ≤ e + w1
  wakeData : r.stopped = true → 1 ≤ e' + w2
  prod : r.producers + removals tr = additions tr + rw
  last : 0 < additions tr → r.producers = 0 → r.stopped = true

/-- What holds of a thread. -/
def ThOk (r : Ring α) : RPc α → Prop
  | .stopHead saved => r.stopped = true ∧ saved = r.tail
  | .stopSpace => r.stopped = true ∧ r.stopPos = r.tail
  | .stopData => r.stopped = true ∧ r.stopPos = r.tail
  | .backSpace => r.stopped = true
  | .backData => r.stopped = true ∧ r.stopPos = r.tail ∧ r.stopPos = r.head
  | _ => True

/-- What an action does not undo. -/
structure RStable (r r' : Ring α) : Prop where
  stopped : r.stopped = true → r'.stopped = true ∧ r'.tail = r.tail
  pos : r.stopped = true → r.stopPos = r.tail → r'.stopPos = r'.tail
  head : r.stopPos = r.head → r'.head = r.head

theorem RStable.refl (r : Ring α) : RStable r r := ⟨fun h => ⟨h, rfl⟩, fun _ h => h, fun _ => rfl⟩

theorem ThOk.stable {r r' : Ring α} (st : RStable r r') {pc : RPc α} (h : ThOk r pc) : ThOk r' pc := by
  cases pc with
  | stopHead saved => exact ⟨(st.stopped h.1).1, by rw [(st.stopped h.1).2]; exact h.2⟩
  | stopSpace => exact ⟨(st.stopped h.1).1, st.pos h.1 h.2⟩
  | stopData => exact ⟨(st.stopped h.1).1, st.pos h.1 h.2⟩
  | backSpace => exact (st.stopped h).1
  | backData =>
    obtain ⟨h1, h2, h3⟩ := h
    have a := st.pos h1 h2
    refine ⟨(st.stopped h1).1, a, ?_⟩
    rw [a, (st.stopped h1).2, st.head h3, ← h2, h3]
  | _ => trivial

/-- The phase of a thread. -/
def PhaseOk : RPc α → Phase α → Prop
  | .idle, p => p = .idle
  | .getSpace v b, p => p = .called (.push v b)
  | .emplace v, p => ∃ b, p = .called (.push v b)
  | .putData, p => p = .done .ok
  | .backSpace, p => ∃ v b, p = .called (.push v b)
  | .fullCheck, p => ∃ v, p = .called (.push v false)
  | .getData b, p => p = .called (.pop b)
  | .popInternal, p => ∃ b, p = .called (.pop b)
  | .putSpace v, p => p = .done (.value v)
  | .backData, p => ∃ b, p = .called (.pop b)
  | .emptyCheck, p => p = .called (.pop false)
  | .stopTail rm, p => p = .called (if rm then .removeProducer else .stop)
  | .stopHead _, p => p = .closing
  | .stopSpace, p => p = .done (.flag true)
  | .stopData, p => p = .done (.flag true)
  | .addProducer, p => p = .called .addProducer
  | .size, p => p = .called .size

theorem Phase.after_append [DecidableEq α] (a b : List (REv α)) (p : Phase α) : Phase.after (a ++ b) p = (Phase.after a p).bind (Phase.after b) := by
  induction a generalizing p with
  | nil => rfl
  | cons e a ih =>
    simp only [List.cons_append, Phase.after]
    cases p.next e with
    | none => rfl
    | some q => exact ih q

/-- What holds of an event, given the history before it and the phase of its thread. -/
def EvOk (pre : List (REv α)) (p : Phase α) : REv α → Prop
  | .push _ _ => isClosed pre = false
  | .ret _ .stopped => isClosed pre = true ∧ (∀ b, p = .called (.pop b) → isSealed pre = true ∧ popped pre = pushed pre)
  | .ret _ .full => isClosed pre = false
  | .ret _ .empty => isSealed pre = true → popped pre ≠ pushed pre
  | .ret _ (.count n) => n + (popped pre).length = (pushed pre).length
  | .close _ => p = .called .removeProducer → additions pre ≤ removals pre
  | _ => True

theorem wrap_lt {m x : Nat} (h : x < 2 * m) : wrap m x < m := by unfold wrap; split <;> omega

theorem wrap_next {m x : Nat} (h : x < m) (hm : 0 < m) : (if x + 1 = m then 0 else x + 1) = wrap m (x + 1) := by
  unfold wrap
  split <;> split <;> omega

theorem wrap_add {m a b : Nat} (ha : a < m) (hb : b ≤ m) : wrap m (wrap m (a + 1) + b) = wrap m (a + (b + 1)) ∨ b = m := by
  unfold wrap
  split <;> split <;> (try split) <;> omega

/-- One action. -/
theorem act_spec {cap : Nat} {r : Ring α} {tr : List (REv α)} {q : List α} {e e' bs bd b1 b2 br : Nat} {pc : RPc α} (t : Nat)
    (inv : RInv cap r tr q e e' (bs + spaceW pc) (bd + dataW pc) (b1 + wakeSpaceW pc) (b2 + wakeDataW pc) (br + removeW pc))
    (ok : ThOk r pc) (hp : pc = .stopTail true → r.producers ≠ 0) :
    ∃ r' pc' ev q' f f', r.act t pc = some (r', pc', ev) ∧
      RInv cap r' (tr ++ ev) q' f f' (bs + spaceW pc') (bd + dataW pc') (b1 + wakeSpaceW pc') (b2 + wakeDataW pc') (br + removeW pc') ∧
      ThOk r' pc' ∧ RStable r r' := by
  have hpos := inv.pos
  have hlen := inv.len
  have hhd := inv.hd
  have hql := inv.qlen
  have htl := inv.tl
  have same : ∀ (ev : List (REv α)), pushed ev = [] → popped ev = [] → isClosed ev = false → isSealed ev = false → removals ev = 0 → additions ev = 0 →
      ∀ (pc' : RPc α), spaceW pc' = spaceW pc → dataW pc' = dataW pc → wakeSpaceW pc' = wakeSpaceW pc → wakeDataW pc' = wakeDataW pc → removeW pc' = removeW pc →
      RInv cap r (tr ++ ev) q e e' (bs + spaceW pc') (bd + dataW pc') (b1 + wakeSpaceW pc') (b2 + wakeDataW pc') (br + removeW pc') := by
    intro ev h1 h2 h3 h4 h5 h6 pc' k1 k2 k3 k4 k5
    rw [k1, k2, k3, k4, k5]
    exact { inv with
      flow := by rw [pushed_append, popped_append, h1, h2]; simpa using inv.flow
      closed := by rw [isClosed_append, h3]; simpa using inv.closed
      sealed' := by rw [isSealed_append, h4]; simpa using inv.sealed'
      prod := by rw [removals_append, additions_append, h5, h6]; exact inv.prod
      last := by rw [additions_append, h6]; exact inv.last }
  cases pc with
  | idle => exact ⟨r, _, _, q, e, e', rfl, same [] rfl rfl rfl rfl rfl rfl _ rfl rfl rfl rfl rfl, trivial, RStable.refl _⟩
  | getSpace v block =>
    simp only [Ring.act]
    by_cases hs : 0 < r.spaceSem
    · rw [if_pos hs]
      have := inv.space
      refine ⟨_, _, _, q, e, e', rfl, ?_, trivial, ⟨fun h => ⟨h, rfl⟩, fun _ h => h, fun _ => rfl⟩⟩
      exact { inv with
        flow := by simpa using inv.flow
        closed := by simpa using inv.closed
        sealed' := by simpa using inv.sealed'
        prod := by simpa [removeW] using inv.prod
        last := by simpa using inv.last
        space := by simp only [spaceW] at this ⊢; omega }
    · rw [if_neg hs]
      cases block with
      | true => exact ⟨r, _, _, q, e, e', rfl, same [] rfl rfl rfl rfl rfl rfl _ rfl rfl rfl rfl rfl, trivial, RStable.refl _⟩
      | false => exact ⟨r, _, _, q, e, e', rfl, same [] rfl rfl rfl rfl rfl rfl _ rfl rfl rfl rfl rfl, trivial, RStable.refl _⟩
  | emplace v =>
    simp only [Ring.act, Ring.emplace]
    by_cases hst : r.stopped = true
    · rw [if_pos hst]
      exact ⟨r, _, _, q, e, e', rfl, same [] rfl rfl rfl rfl rfl rfl _ rfl rfl rfl rfl rfl, hst, RStable.refl _⟩
    · rw [if_neg hst]
      have hst : r.stopped = false := by simpa using hst
      have he := inv.opened hst
      have hsp := inv.space
      simp only [spaceW] at hsp
      have hroom : q.length < cap := by omega
      have hslot := inv.slots q.length (by omega)
      rw [← htl, List.getElem?_eq_none (Nat.le_refl _)] at hslot
      rw [hslot]
      simp only
      have hstop : r.stopPos = cap + 1 := by
        rcases inv.stop with h | ⟨h, _⟩
        · exact h
        · rw [hst] at h; cases h
      have htlt : r.tail < cap + 1 := by rw [htl]; exact wrap_lt (by omega)
      refine ⟨_, _, _, q ++ [v], e, e', rfl, ?_, trivial, ⟨fun h => (by rw [hst] at h; cases h), fun h => (by rw [hst] at h; cases h), fun h => rfl⟩⟩
      refine { pos := hpos, len := by simpa using hlen, hd := hhd, qlen := by simp; omega, tl := ?_, slots := ?_, flow := ?_, space := ?_, data := ?_,
               opened := inv.opened, unset := inv.unset, stop := Or.inl hstop, closed := ?_, sealed' := ?_,
               wakeSpace := fun h => (by rw [hst] at h; cases h), wakeData := fun h => (by rw [hst] at h; cases h), prod := ?_, last := (by rw [additions_append]; exact inv.last) }
      · simp only [Ring.next, hlen, List.length_append, List.length_cons, List.length_nil]
        rw [wrap_next htlt (by omega), htl]
        unfold wrap
        split <;> split <;> (try split) <;> omega
      · intro i hi
        simp only
        rw [htl]
        by_cases hie : i = q.length
        · subst hie
          rw [List.getElem?_set_self (by rw [hlen]; exact wrap_lt (by omega)), List.getElem?_append_right (Nat.le_refl _)]
          simp
        · have hne : wrap (cap + 1) (r.head + q.length) ≠ wrap (cap + 1) (r.head + i) := by unfold wrap; split <;> split <;> omega
          rw [List.getElem?_set_ne hne, inv.slots i hi]
          by_cases hlt : i < q.length
          · rw [List.getElem?_append_left hlt]
          · rw [List.getElem?_eq_none (by omega), List.getElem?_eq_none (by simp; omega)]
      · rw [pushed_append, popped_append, ← inv.flow]
        simp [pushed, popped]
      · simp only [spaceW, List.length_append, List.length_cons, List.length_nil]; omega
      · have := inv.data
        simp only [dataW, List.length_append, List.length_cons, List.length_nil] at this ⊢; omega
      · rw [isClosed_append, inv.closed]; simp [isClosed]
      · rw [isSealed_append, inv.sealed']; simp [isSealed]
      · rw [removals_append, additions_append]
        have := inv.prod
        simpa [removals, additions, removeW] using this
  | putData =>
    refine ⟨_, _, _, q, e, e', rfl, ?_, trivial, ⟨fun h => ⟨h, rfl⟩, fun _ h => h, fun _ => rfl⟩⟩
    have h := same [.ret t .ok] rfl rfl rfl rfl rfl rfl .putData rfl rfl rfl rfl rfl
    have := inv.data
    exact { h with data := by simp only [dataW] at this ⊢; omega }
  | backSpace =>
    refine ⟨_, _, _, q, e, e', rfl, ?_, trivial, ⟨fun h => ⟨h, rfl⟩, fun _ h => h, fun _ => rfl⟩⟩
    have h := same [.ret t .stopped] rfl rfl rfl rfl rfl rfl .backSpace rfl rfl rfl rfl rfl
    have := inv.space
    exact { h with space := by simp only [spaceW] at this ⊢; omega }
  | fullCheck => exact ⟨r, _, _, q, e, e', rfl, same _ rfl rfl rfl rfl rfl rfl .idle rfl rfl rfl rfl rfl, trivial, RStable.refl _⟩
  | getData block =>
    simp only [Ring.act]
    by_cases hs : 0 < r.dataSem
    · rw [if_pos hs]
      have := inv.data
      refine ⟨_, _, _, q, e, e', rfl, ?_, trivial, ⟨fun h => ⟨h, rfl⟩, fun _ h => h, fun _ => rfl⟩⟩
      exact { inv with
        flow := by simpa using inv.flow
        closed := by simpa using inv.closed
        sealed' := by simpa using inv.sealed'
        prod := by simpa [removeW] using inv.prod
        last := by simpa using inv.last
        data := by simp only [dataW] at this ⊢; omega }
    · rw [if_neg hs]
      cases block with
      | true => exact ⟨r, _, _, q, e, e', rfl, same [] rfl rfl rfl rfl rfl rfl _ rfl rfl rfl rfl rfl, trivial, RStable.refl _⟩
      | false => exact ⟨r, _, _, q, e, e', rfl, same [] rfl rfl rfl rfl rfl rfl _ rfl rfl rfl rfl rfl, trivial, RStable.refl _⟩
  | popInternal =>
    simp only [Ring.act, Ring.popInternal]
    by_cases hst : r.stopPos = r.head
    · rw [if_pos hst]
      have hs : r.stopped = true ∧ r.stopPos = r.tail := by
        rcases inv.stop with h | h
        · omega
        · exact h
      exact ⟨r, _, _, q, e, e', rfl, same [] rfl rfl rfl rfl rfl rfl _ rfl rfl rfl rfl rfl, ⟨hs.1, hs.2, hst⟩, RStable.refl _⟩
    · rw [if_neg hst]
      have hd := inv.data
      simp only [dataW] at hd
      have hne : q ≠ [] := by
        rintro rfl
        rcases inv.stop with h | ⟨_, h⟩
        · have := inv.unset h
          simp at hd; omega
        · rw [h, htl] at hst
          simp only [List.length_nil, Nat.add_zero] at hst
          unfold wrap at hst
          rw [if_neg (by omega)] at hst
          exact hst rfl
      cases q with
      | nil => exact absurd rfl hne
      | cons v q =>
        have hslot := inv.slots 0 (by omega)
        rw [show wrap (cap + 1) (r.head + 0) = r.head by unfold wrap; rw [if_neg (by omega)]; rfl] at hslot
        rw [hslot]
        simp only [List.getElem?_cons_zero]
        simp only [List.length_cons] at hql htl hd
        refine ⟨_, _, _, q, e, e', rfl, ?_, trivial, ⟨fun h => ⟨h, rfl⟩, fun _ h => h, fun h => absurd h hst⟩⟩
        refine { pos := hpos, len := by simpa using hlen, hd := ?_, qlen := by omega, tl := ?_, slots := ?_, flow := ?_, space := ?_, data := ?_,
                 opened := inv.opened, unset := inv.unset, stop := inv.stop, closed := ?_, sealed' := ?_,
                 wakeSpace := inv.wakeSpace, wakeData := inv.wakeData, prod := ?_, last := (by rw [additions_append]; exact inv.last) }
        · simp only [Ring.next, hlen]; split <;> omega
        · simp only [Ring.next, hlen]
          rw [htl]
          unfold wrap
          split <;> split <;> split <;> omega
        · intro i hi
          simp only [Ring.next, hlen]
          rw [wrap_next hhd (by omega)]
          by_cases hie : i = cap
          · subst hie
            have : wrap (i + 1) (wrap (i + 1) (r.head + 1) + i) = r.head := by unfold wrap; split <;> split <;> omega
            rw [this, List.getElem?_set_self (by omega), List.getElem?_eq_none (by omega)]
          · have e1 : wrap (cap + 1) (wrap (cap + 1) (r.head + 1) + i) = wrap (cap + 1) (r.head + (i + 1)) := by unfold wrap; split <;> split <;> (try split) <;> omega
            have e2 : r.head ≠ wrap (cap + 1) (r.head + (i + 1)) := by unfold wrap; split <;> omega
            rw [e1, List.getElem?_set_ne e2, inv.slots (i + 1) (by omega), List.getElem?_cons_succ]
        · rw [pushed_append, popped_append, ← inv.flow]
          simp [pushed, popped]
        · have := inv.space
          simp only [spaceW, List.length_cons] at this ⊢; omega
        · simp only [dataW]; omega
        · rw [isClosed_append, inv.closed]; simp [isClosed]
        · rw [isSealed_append, inv.sealed']; simp [isSealed]
        · rw [removals_append, additions_append]
          have := inv.prod
          simpa [removals, additions, removeW] using this
  | putSpace v =>
    refine ⟨_, _, _, q, e, e', rfl, ?_, trivial, ⟨fun h => ⟨h, rfl⟩, fun _ h => h, fun _ => rfl⟩⟩
    have h := same [.ret t (.value v)] rfl rfl rfl rfl rfl rfl (.putSpace v) rfl rfl rfl rfl rfl
    have := inv.space
    exact { h with space := by simp only [spaceW] at this ⊢; omega }
  | backData =>
    refine ⟨_, _, _, q, e, e', rfl, ?_, trivial, ⟨fun h => ⟨h, rfl⟩, fun _ h => h, fun _ => rfl⟩⟩
    have h := same [.ret t .stopped] rfl rfl rfl rfl rfl rfl .backData rfl rfl rfl rfl rfl
    have := inv.data
    exact { h with data := by simp only [dataW] at this ⊢; omega }
  | emptyCheck => exact ⟨r, _, _, q, e, e', rfl, same _ rfl rfl rfl rfl rfl rfl .idle rfl rfl rfl rfl rfl, trivial, RStable.refl _⟩
  | stopTail remove =>
    have hclose : ∀ (p : Nat), p + removals tr = additions tr + br →
        RInv cap { r with producers := p, stopped := true } (tr ++ [.close t]) q e e' (bs + 0) (bd + 0) (b1 + 1) (b2 + 1) br := by
      intro p hpp
      exact { inv with
        flow := by rw [pushed_append, popped_append]; simpa [pushed, popped] using inv.flow
        opened := fun h => by cases h
        stop := by
          rcases inv.stop with h | ⟨_, h⟩
          · exact Or.inl h
          · exact Or.inr ⟨rfl, h⟩
        closed := by rw [isClosed_append]; simp [isClosed]
        sealed' := by rw [isSealed_append]; simpa [isSealed] using inv.sealed'
        wakeSpace := fun _ => by omega
        wakeData := fun _ => by omega
        prod := by rw [removals_append, additions_append]; simpa [removals, additions] using hpp
        last := fun _ _ => rfl }
    have hpr := inv.prod
    simp only [Ring.act]
    cases remove with
    | true =>
      simp only [removeW] at hpr
      rw [if_pos rfl, if_neg (hp rfl)]
      have hp0 := hp rfl
      by_cases h1 : r.producers - 1 = 0
      · rw [if_pos h1]
        exact ⟨_, _, _, q, e, e', rfl, hclose _ (by omega), ⟨rfl, rfl⟩, ⟨fun _ => ⟨rfl, rfl⟩, fun _ h => h, fun _ => rfl⟩⟩
      · rw [if_neg h1]
        refine ⟨_, _, _, q, e, e', rfl, ?_, trivial, ⟨fun h => ⟨h, rfl⟩, fun _ h => h, fun _ => rfl⟩⟩
        have h := same [.ret t (.flag false)] rfl rfl rfl rfl rfl rfl (.stopTail true) rfl rfl rfl rfl rfl
        exact { h with
          prod := by have := h.prod; simp only [removeW] at this ⊢; omega
          last := fun _ h0 => absurd h0 h1 }
    | false =>
      simp only [removeW] at hpr
      rw [if_neg (by simp)]
      exact ⟨_, _, _, q, e, e', rfl, hclose _ (by omega), ⟨rfl, rfl⟩, ⟨fun _ => ⟨rfl, rfl⟩, fun _ h => h, fun _ => rfl⟩⟩
  | stopHead saved =>
    obtain ⟨o1, o2⟩ := ok
    subst o2
    have htlt : r.tail < cap + 1 := by rw [htl]; exact wrap_lt (by omega)
    refine ⟨_, _, _, q, e, e', rfl, ?_, ⟨o1, rfl⟩, ⟨fun h => ⟨h, rfl⟩, fun _ _ => rfl, fun _ => rfl⟩⟩
    exact { inv with
      flow := by rw [pushed_append, popped_append]; simpa [pushed, popped] using inv.flow
      unset := fun h => by simp only at h; omega
      stop := Or.inr ⟨o1, rfl⟩
      closed := by rw [isClosed_append]; simpa [isClosed] using inv.closed
      sealed' := by
        rw [isSealed_append]
        simp only [isSealed, List.any_cons, Bool.true_or, Bool.or_true]
        rw [eq_comm, decide_eq_true_eq]
        omega
      prod := by rw [removals_append, additions_append]; simpa [removals, additions, removeW] using inv.prod
      last := by rw [additions_append]; exact inv.last }
  | stopSpace =>
    refine ⟨_, _, _, q, e + 1, e', rfl, ?_, ok, ⟨fun h => ⟨h, rfl⟩, fun _ h => h, fun _ => rfl⟩⟩
    have h := same [] rfl rfl rfl rfl rfl rfl .stopSpace rfl rfl rfl rfl rfl
    have := inv.space
    exact { h with
      space := by simp only [spaceW] at this ⊢; omega
      opened := fun hx => by rw [ok.1] at hx; cases hx
      wakeSpace := fun _ => by omega }
  | stopData =>
    have htlt : r.tail < cap + 1 := by rw [htl]; exact wrap_lt (by omega)
    refine ⟨_, _, _, q, e, e' + 1, rfl, ?_, trivial, ⟨fun h => ⟨h, rfl⟩, fun _ h => h, fun _ => rfl⟩⟩
    have h := same [.ret t (.flag true)] rfl rfl rfl rfl rfl rfl .stopData rfl rfl rfl rfl rfl
    have := inv.data
    exact { h with
      data := by simp only [dataW] at this ⊢; omega
      unset := fun hx => by have := ok.2; simp only at hx; omega
      wakeData := fun _ => by omega }
  | addProducer =>
    refine ⟨_, _, _, q, e, e', rfl, ?_, trivial, ⟨fun h => ⟨h, rfl⟩, fun _ h => h, fun _ => rfl⟩⟩
    exact { inv with
      flow := by rw [pushed_append, popped_append]; simpa [pushed, popped] using inv.flow
      closed := by rw [isClosed_append]; simpa [isClosed] using inv.closed
      sealed' := by rw [isSealed_append]; simpa [isSealed] using inv.sealed'
      prod := by
        have := inv.prod
        rw [removals_append, additions_append]
        simp only [removals, additions, removeW, List.countP_cons, List.countP_nil] at this ⊢
        simp
        omega
      last := fun _ h0 => absurd h0 (Nat.succ_ne_zero _) }
  | size => exact ⟨r, _, _, q, e, e', rfl, same _ rfl rfl rfl rfl rfl rfl .idle rfl rfl rfl rfl rfl, trivial, RStable.refl _⟩

theorem EvOk.trivial' {pre : List (REv α)} {p : Phase α} (e : REv α) (h : match e with | .push _ _ => False | .ret _ .stopped => False | .ret _ .full => False | .ret _ .empty => False | .ret _ (.count _) => False | .close _ => False | _ => True) :
    EvOk pre p e := by
  unfold EvOk
  split <;> first | trivial | exact h.elim

/-- Every event of the second list is as it should be, after the first. -/
def HistOk [DecidableEq α] : List (REv α) → List (REv α) → Prop
  | _, [] => True
  | pre, e :: l => (∃ p, Phase.after (eventsOf e.thread pre) .idle = some p ∧ EvOk pre p e) ∧ HistOk (pre ++ [e]) l

theorem HistOk.append [DecidableEq α] : ∀ {pre a b : List (REv α)}, HistOk pre a → HistOk (pre ++ a) b → HistOk pre (a ++ b)
  | pre, [], b, _, h => by simpa using h
  | pre, e :: a, b, ⟨h1, h2⟩, h => ⟨h1, HistOk.append h2 (by simpa using h)⟩

theorem HistOk.split [DecidableEq α] : ∀ {pre tr : List (REv α)}, HistOk pre tr → ∀ {a : List (REv α)} {e : REv α} {b : List (REv α)}, tr = a ++ e :: b →
    ∃ p, Phase.after (eventsOf e.thread (pre ++ a)) .idle = some p ∧ EvOk (pre ++ a) p e
  | pre, [], _, a, e, b, he => by simp at he
  | pre, x :: tr, ⟨h1, h2⟩, [], e, b, he => by
    rw [List.nil_append, List.cons.injEq] at he
    obtain ⟨rfl, rfl⟩ := he
    simpa using h1
  | pre, x :: tr, ⟨h1, h2⟩, y :: a, e, b, he => by
    rw [List.cons_append, List.cons.injEq] at he
    obtain ⟨rfl, he⟩ := he
    have := HistOk.split h2 he
    simpa using this

theorem RInv.size {cap : Nat} {r : Ring α} {tr : List (REv α)} {q : List α} {e e' sw dw w1 w2 rw : Nat} (inv : RInv cap r tr q e e' sw dw w1 w2 rw) :
    r.size = q.length := by
  have hhd := inv.hd
  have hql := inv.qlen
  unfold Ring.size
  rw [inv.len, inv.tl]
  unfold wrap
  split <;> split <;> omega

theorem RInv.empty {cap : Nat} {r : Ring α} {tr : List (REv α)} {q : List α} {e e' sw dw w1 w2 rw : Nat} (inv : RInv cap r tr q e e' sw dw w1 w2 rw) :
    r.head = r.tail ↔ q = [] := by
  have hhd := inv.hd
  have hql := inv.qlen
  have hpos := inv.pos
  rw [inv.tl]
  constructor
  · intro h
    unfold wrap at h
    exact List.length_eq_zero_iff.mp (by split at h <;> omega)
  · rintro rfl
    unfold wrap
    simp only [List.length_nil, Nat.add_zero]
    rw [if_neg (by omega)]

/-- One action, as seen by its thread. -/
theorem act_hist [DecidableEq α] {cap : Nat} {r r' : Ring α} {tr ev : List (REv α)} {q : List α} {e e' sw dw w1 w2 rw t : Nat} {pc pc' : RPc α}
    (inv : RInv cap r tr q e e' sw dw w1 w2 rw) (ok : ThOk r pc) {p : Phase α} (hp : Phase.after (eventsOf t tr) .idle = some p) (hpc : PhaseOk pc p)
    (hrw : pc = .stopTail true → 1 ≤ rw) (h : r.act t pc = some (r', pc', ev)) :
    (∀ x ∈ ev, x.thread = t) ∧ (∃ p', Phase.after ev p = some p' ∧ PhaseOk pc' p') ∧ HistOk tr ev := by
  have hst : ∀ (t' : Nat) (r : REv α), r.thread = t' → t' = t → ((∃ p, Phase.after (eventsOf r.thread tr) .idle = some p ∧ EvOk tr p r) ↔ EvOk tr p r) := by
    intro t' r h1 h2
    subst h2; subst h1
    constructor
    · rintro ⟨p', h1, h2⟩
      rw [hp] at h1; cases h1; exact h2
    · intro h; exact ⟨p, hp, h⟩
  have one : ∀ (x : REv α), x.thread = t → EvOk tr p x → HistOk tr [x] := fun x h1 h2 => ⟨(hst t x h1 rfl).mpr h2, trivial⟩
  cases pc with
  | idle => cases h; exact ⟨by simp, ⟨p, rfl, hpc⟩, trivial⟩
  | getSpace v block =>
    simp only [Ring.act] at h
    split at h
    · cases h; exact ⟨by simp, ⟨p, rfl, block, hpc⟩, trivial⟩
    · cases block with
      | true => cases h; exact ⟨by simp, ⟨p, rfl, hpc⟩, trivial⟩
      | false => cases h; exact ⟨by simp, ⟨p, rfl, v, hpc⟩, trivial⟩
  | emplace v =>
    obtain ⟨b, rfl⟩ := hpc
    simp only [Ring.act, Ring.emplace] at h
    by_cases hs : r.stopped = true
    · rw [if_pos hs] at h
      cases h; exact ⟨by simp, ⟨_, rfl, v, b, rfl⟩, trivial⟩
    · rw [if_neg hs] at h
      split at h
      · cases h
      · cases h; exact ⟨by simp, ⟨_, rfl, v, b, rfl⟩, trivial⟩
      · rename_i r1 hr1
        cases h
        refine ⟨by simp [REv.thread], ⟨.done .ok, by simp [Phase.after, Phase.next], rfl⟩, one _ rfl ?_⟩
        show isClosed tr = false
        rw [inv.closed]
        simpa using hs
  | putData =>
    cases h
    have hpc : p = .done .ok := hpc
    subst hpc
    exact ⟨by simp [REv.thread], ⟨.idle, by simp [Phase.after, Phase.next], rfl⟩, one _ rfl trivial⟩
  | backSpace =>
    cases h
    obtain ⟨v, b, rfl⟩ := hpc
    refine ⟨by simp [REv.thread], ⟨.idle, by simp [Phase.after, Phase.next], rfl⟩, one _ rfl ⟨?_, fun b hb => by cases hb⟩⟩
    rw [inv.closed]; exact ok
  | fullCheck =>
    cases h
    obtain ⟨v, rfl⟩ := hpc
    by_cases hs : r.stopped = true
    · rw [if_pos hs]
      exact ⟨by simp [REv.thread], ⟨.idle, by simp [Phase.after, Phase.next], rfl⟩, one _ rfl ⟨by rw [inv.closed]; exact hs, fun b hb => by cases hb⟩⟩
    · rw [if_neg hs]
      exact ⟨by simp [REv.thread], ⟨.idle, by simp [Phase.after, Phase.next], rfl⟩, one _ rfl (show isClosed tr = false by rw [inv.closed]; simpa using hs)⟩
  | getData block =>
    simp only [Ring.act] at h
    split at h
    · cases h; exact ⟨by simp, ⟨p, rfl, block, hpc⟩, trivial⟩
    · cases block with
      | true => cases h; exact ⟨by simp, ⟨p, rfl, hpc⟩, trivial⟩
      | false => cases h; exact ⟨by simp, ⟨p, rfl, hpc⟩, trivial⟩
  | popInternal =>
    obtain ⟨b, rfl⟩ := hpc
    simp only [Ring.act] at h
    split at h
    · cases h
    · cases h; exact ⟨by simp, ⟨_, rfl, b, rfl⟩, trivial⟩
    · cases h
      exact ⟨by simp [REv.thread], ⟨.done (.value _), by simp [Phase.after, Phase.next], rfl⟩, one _ rfl trivial⟩
  | putSpace v =>
    cases h
    have hpc : p = .done (.value v) := hpc
    subst hpc
    exact ⟨by simp [REv.thread], ⟨.idle, by simp [Phase.after, Phase.next], rfl⟩, one _ rfl trivial⟩
  | backData =>
    cases h
    obtain ⟨b, rfl⟩ := hpc
    obtain ⟨o1, o2, o3⟩ := ok
    have hq := inv.empty.mp (by rw [← o2, ← o3])
    subst hq
    have hhd := inv.hd
    refine ⟨by simp [REv.thread], ⟨.idle, by simp [Phase.after, Phase.next], rfl⟩, one _ rfl ⟨by rw [inv.closed]; exact o1, fun _ _ => ⟨?_, ?_⟩⟩⟩
    · rw [inv.sealed', decide_eq_true_eq]; omega
    · simpa using inv.flow
  | emptyCheck =>
    cases h
    have hpc : p = .called (.pop false) := hpc
    subst hpc
    have hhd := inv.hd
    by_cases hs : r.head = r.stopPos
    · rw [if_pos hs]
      have hstop : r.stopped = true ∧ r.stopPos = r.tail := by
        rcases inv.stop with h | h
        · omega
        · exact h
      have hq := inv.empty.mp (by rw [hs]; exact hstop.2)
      subst hq
      refine ⟨by simp [REv.thread], ⟨.idle, by simp [Phase.after, Phase.next], rfl⟩, one _ rfl ⟨by rw [inv.closed]; exact hstop.1, fun _ _ => ⟨?_, ?_⟩⟩⟩
      · rw [inv.sealed', decide_eq_true_eq]; omega
      · simpa using inv.flow
    · rw [if_neg hs]
      refine ⟨by simp [REv.thread], ⟨.idle, by simp [Phase.after, Phase.next], rfl⟩, one _ rfl ?_⟩
      intro hsl heq
      rw [inv.sealed', decide_eq_true_eq] at hsl
      rcases inv.stop with h | h
      · exact hsl h
      · apply hs
        rw [h.2]
        refine inv.empty.mpr ?_
        have := inv.flow
        rw [heq] at this
        simpa using this
  | stopTail remove =>
    simp only [Ring.act] at h
    have hpc : p = .called (if remove then .removeProducer else .stop) := hpc
    subst hpc
    cases remove with
    | true =>
      rw [if_pos rfl] at h
      split at h
      · cases h
      · split at h
        · cases h
          exact ⟨by simp [REv.thread], ⟨.closing, by simp [Phase.after, Phase.next], rfl⟩, one _ rfl (fun _ => by have := inv.prod; have := hrw rfl; omega)⟩
        · cases h
          exact ⟨by simp [REv.thread], ⟨.idle, by simp [Phase.after, Phase.next], rfl⟩, one _ rfl trivial⟩
    | false =>
      rw [if_neg (by simp)] at h
      cases h
      exact ⟨by simp [REv.thread], ⟨.closing, by simp [Phase.after, Phase.next], rfl⟩, one _ rfl (fun h => by simp at h)⟩
  | stopHead saved =>
    cases h
    have hpc : p = .closing := hpc
    subst hpc
    exact ⟨by simp [REv.thread], ⟨.done (.flag true), by simp [Phase.after, Phase.next], rfl⟩, one _ rfl trivial⟩
  | stopSpace => cases h; exact ⟨by simp, ⟨p, rfl, hpc⟩, trivial⟩
  | stopData =>
    cases h
    have hpc : p = .done (.flag true) := hpc
    subst hpc
    exact ⟨by simp [REv.thread], ⟨.idle, by simp [Phase.after, Phase.next], rfl⟩, one _ rfl trivial⟩
  | addProducer =>
    cases h
    have hpc : p = .called .addProducer := hpc
    subst hpc
    refine ⟨by simp [REv.thread], ⟨.idle, by simp [Phase.after, Phase.next], rfl⟩, (hst t _ rfl rfl).mpr trivial, ⟨.done .ok, ?_, trivial⟩, trivial⟩
    rw [eventsOf_append, Phase.after_append]
    show (Phase.after (eventsOf t tr) .idle).bind _ = _
    rw [hp]
    simp [eventsOf, REv.thread, Phase.after, Phase.next]
  | size =>
    cases h
    have hpc : p = .called .size := hpc
    subst hpc
    refine ⟨by simp [REv.thread], ⟨.idle, by simp [Phase.after, Phase.next], rfl⟩, one _ rfl ?_⟩
    show r.size + (popped tr).length = (pushed tr).length
    rw [inv.size, ← inv.flow, List.length_append]
    omega

/-! ### All threads -/

def total (f : RPc α → Nat) (l : List (RPc α)) : Nat := (l.map f).sum

theorem total_set {f : RPc α → Nat} (h0 : f .idle = 0) : ∀ {l : List (RPc α)} {i : Nat} {x : RPc α}, l[i]? = some x → ∀ y, total f (l.set i y) = total f (l.set i .idle) + f y
  | [], i, x, h, y => by simp at h
  | a :: l, 0, x, h, y => by simp [total, h0]; omega
  | a :: l, i + 1, x, h, y => by
    rw [List.getElem?_cons_succ] at h
    have := total_set h0 h y
    simp only [total, List.set_cons_succ, List.map_cons, List.sum_cons] at this ⊢
    omega

theorem ring_set_self {β : Type} {l : List β} {i : Nat} {x : β} (h : l[i]? = some x) : l.set i x = l := by
  apply List.ext_getElem?
  intro j
  by_cases he : i = j
  · subst he
    have hlt : i < l.length := by
      rw [List.getElem?_eq_some_iff] at h
      exact h.1
    rw [List.getElem?_set_self hlt, h]
  · rw [List.getElem?_set_ne he]

theorem total_self {f : RPc α → Nat} (h0 : f .idle = 0) {l : List (RPc α)} {i : Nat} {x : RPc α} (h : l[i]? = some x) : total f l = total f (l.set i .idle) + f x := by
  have := total_set h0 h x
  rw [ring_set_self h] at this
  exact this

/-- The invariant of the buffer and its threads. -/
structure RSys [DecidableEq α] (cap : Nat) (s : RState α) (tr : List (REv α)) (q : List α) (e e' : Nat) : Prop where
  inv : RInv cap s.ring tr q e e' (total spaceW s.threads) (total dataW s.threads) (total wakeSpaceW s.threads) (total wakeDataW s.threads) (total removeW s.threads)
  ths : ∀ pc ∈ s.threads, ThOk s.ring pc
  phase : ∀ (t : Nat) (pc : RPc α), s.threads[t]? = some pc → ∃ p, Phase.after (eventsOf t tr) .idle = some p ∧ PhaseOk pc p
  hist : HistOk [] tr

theorem eventsOf_same {t : Nat} {ev : List (REv α)} (h : ∀ x ∈ ev, x.thread = t) : eventsOf t ev = ev := by
  unfold eventsOf
  rw [List.filter_eq_self]
  intro x hx
  simp [h x hx]

theorem eventsOf_other {t t' : Nat} {ev : List (REv α)} (h : ∀ x ∈ ev, x.thread = t) (hne : t' ≠ t) : eventsOf t' ev = [] := by
  unfold eventsOf
  rw [List.filter_eq_nil_iff]
  intro x hx
  rw [h x hx]
  simp [Ne.symm hne]

theorem rset_cases {β : Type} {l : List β} {i j : Nat} {x y : β} (h : (l.set i x)[j]? = some y) : (j = i ∧ y = x) ∨ (j ≠ i ∧ l[j]? = some y) := by
  by_cases he : j = i
  · subst he
    have hlt : j < l.length := by
      have := (List.getElem?_eq_some_iff.mp h).1
      simpa using this
    rw [List.getElem?_set_self hlt] at h
    cases h
    exact Or.inl ⟨rfl, rfl⟩
  · rw [List.getElem?_set_ne (Ne.symm he)] at h
    exact Or.inr ⟨he, h⟩

/-- Put the pieces together after a transition of thread `t`. -/
theorem RSys.update [DecidableEq α] {cap : Nat} {s : RState α} {tr : List (REv α)} {q : List α} {e e' : Nat} (sys : RSys cap s tr q e e')
    {t : Nat} {pc pc' : RPc α} (hpc : s.threads[t]? = some pc) {r' : Ring α} {ev : List (REv α)} {q' : List α} {f f' : Nat}
    (inv' : RInv cap r' (tr ++ ev) q' f f' (total spaceW (s.threads.set t .idle) + spaceW pc') (total dataW (s.threads.set t .idle) + dataW pc')
      (total wakeSpaceW (s.threads.set t .idle) + wakeSpaceW pc') (total wakeDataW (s.threads.set t .idle) + wakeDataW pc') (total removeW (s.threads.set t .idle) + removeW pc'))
    (ok' : ThOk r' pc') (st : RStable s.ring r') (hth : ∀ x ∈ ev, x.thread = t)
    (hph : ∀ p, Phase.after (eventsOf t tr) .idle = some p → PhaseOk pc p → ∃ p', Phase.after ev p = some p' ∧ PhaseOk pc' p') (hh : HistOk tr ev) :
    RSys cap { ring := r', threads := s.threads.set t pc' } (tr ++ ev) q' f f' := by
  refine ⟨?_, ?_, ?_, sys.hist.append (by simpa using hh)⟩
  · simp only
    rw [total_set (f := spaceW) rfl hpc pc', total_set (f := dataW) rfl hpc pc', total_set (f := wakeSpaceW) rfl hpc pc', total_set (f := wakeDataW) rfl hpc pc', total_set (f := removeW) rfl hpc pc']
    exact inv'
  · intro x hx
    rcases List.mem_or_eq_of_mem_set hx with hx | rfl
    · exact (sys.ths x hx).stable st
    · exact ok'
  · intro t' x hx
    rw [eventsOf_append, Phase.after_append]
    rcases rset_cases hx with ⟨rfl, rfl⟩ | ⟨hne, hx⟩
    · obtain ⟨p, h1, h2⟩ := sys.phase t' pc hpc
      obtain ⟨p', h3, h4⟩ := hph p h1 h2
      exact ⟨p', by rw [h1, eventsOf_same hth]; exact h3, h4⟩
    · obtain ⟨p, h1, h2⟩ := sys.phase t' x hx
      exact ⟨p, by rw [h1, eventsOf_other hth hne]; rfl, h2⟩

/-- One transition. -/
theorem ring_step_spec [DecidableEq α] {cap : Nat} {s : RState α} {tr : List (REv α)} {q : List α} {e e' : Nat} (sys : RSys cap s tr q e e')
    (op : RingOp α) (hb : ∀ t, op = .act t → s.threads[t]? = some (.stopTail true) → s.ring.producers ≠ 0) :
    ∃ s' ev q' f f', s.step op = some (s', ev) ∧ RSys cap s' (tr ++ ev) q' f f' := by
  have stay : ∃ s' ev q' f f', some (s, ([] : List (REv α))) = some (s', ev) ∧ RSys cap s' (tr ++ ev) q' f f' :=
    ⟨s, [], q, e, e', rfl, by simpa using sys⟩
  have quiet : ∀ {t : Nat} {pc pc' : RPc α}, s.threads[t]? = some pc → spaceW pc' = spaceW pc → dataW pc' = dataW pc → wakeSpaceW pc' = wakeSpaceW pc →
      wakeDataW pc' = wakeDataW pc → removeW pc' = removeW pc → ThOk s.ring pc' → (∀ p, PhaseOk pc p → PhaseOk pc' p) →
      ∃ s' ev q' f f', some ({ s with threads := s.threads.set t pc' }, ([] : List (REv α))) = some (s', ev) ∧ RSys cap s' (tr ++ ev) q' f f' := by
    intro t pc pc' hpc k1 k2 k3 k4 k5 hok hph
    refine ⟨_, _, q, e, e', rfl, sys.update hpc ?_ hok (RStable.refl _) (by simp) (fun p _ h => ⟨p, rfl, hph p h⟩) trivial⟩
    rw [k1, k2, k3, k4, k5, ← total_self rfl hpc, ← total_self rfl hpc, ← total_self rfl hpc, ← total_self rfl hpc, ← total_self rfl hpc]
    simpa using sys.inv
  cases op with
  | call t c =>
    simp only [RState.step]
    cases hpc : s.threads[t]? with
    | none => exact stay
    | some pc =>
      cases pc with
      | idle =>
        simp only
        refine ⟨_, _, q, e, e', rfl, sys.update hpc ?_ (by cases c <;> trivial) (RStable.refl _) (by simp [REv.thread]) ?_ ?_⟩
        · have inv := sys.inv
          rw [total_self rfl hpc, total_self (f := dataW) rfl hpc, total_self (f := wakeSpaceW) rfl hpc, total_self (f := wakeDataW) rfl hpc, total_self (f := removeW) rfl hpc] at inv
          have hsp : spaceW c.start = 0 := by cases c <;> rfl
          have hdt : dataW c.start = 0 := by cases c <;> rfl
          have hw1 : wakeSpaceW c.start = 0 := by cases c <;> rfl
          have hw2 : wakeDataW c.start = 0 := by cases c <;> rfl
          rw [hsp, hdt, hw1, hw2]
          exact { inv with
            flow := by rw [pushed_append, popped_append]; simpa [pushed, popped] using inv.flow
            closed := by rw [isClosed_append]; simpa [isClosed] using inv.closed
            sealed' := by rw [isSealed_append]; simpa [isSealed] using inv.sealed'
            prod := by
              have := inv.prod
              rw [removals_append, additions_append]
              cases c <;> simp [removals, additions, removeW, Call.start] at this ⊢ <;> omega
            last := by rw [additions_append]; exact inv.last }
        · intro p _ hp
          have hp : p = .idle := hp
          subst hp
          exact ⟨.called c, rfl, by cases c <;> rfl⟩
        · obtain ⟨p, h1, -⟩ := sys.phase t _ hpc
          exact ⟨⟨p, h1, trivial⟩, trivial⟩
      | _ => exact stay
  | act t =>
    simp only [RState.step]
    cases hpc : s.threads[t]? with
    | none => exact stay
    | some pc =>
      simp only
      have inv := sys.inv
      have inv0 := inv
      rw [total_self rfl hpc, total_self (f := dataW) rfl hpc, total_self (f := wakeSpaceW) rfl hpc, total_self (f := wakeDataW) rfl hpc, total_self (f := removeW) rfl hpc] at inv
      have hok := sys.ths pc (List.mem_of_getElem? hpc)
      obtain ⟨r', pc', ev, q', f, f', h1, h2, h3, h4⟩ := act_spec t inv hok (fun h => hb t rfl (by rw [hpc, h]))
      rw [h1]
      obtain ⟨p, hp1, hp2⟩ := sys.phase t pc hpc
      have hrw : pc = .stopTail true → 1 ≤ total removeW s.threads := by
        rintro rfl
        rw [total_self (f := removeW) rfl hpc]
        exact Nat.le_add_left _ _
      obtain ⟨k1, -, k3⟩ := act_hist inv0 hok hp1 hp2 hrw h1
      exact ⟨_, _, q', f, f', rfl, sys.update hpc h2 h3 h4 k1 (fun p a b => (act_hist inv0 hok a b hrw h1).2.1) k3⟩
  | fail t =>
    simp only [RState.step]
    cases hpc : s.threads[t]? with
    | none => exact stay
    | some pc =>
      cases pc with
      | getSpace v b =>
        cases b with
        | true => exact stay
        | false => exact quiet hpc rfl rfl rfl rfl rfl trivial (fun p h => ⟨v, h⟩)
      | getData b =>
        cases b with
        | true => exact stay
        | false => exact quiet hpc rfl rfl rfl rfl rfl trivial (fun p h => h)
      | _ => exact stay

theorem ring_new_spec [DecidableEq α] {cap : Nat} (hc : 0 < cap) (n : Nat) : RSys cap (RState.new α cap n) [] [] 0 0 := by
  have hz : ∀ (f : RPc α → Nat), f .idle = 0 → total f (List.replicate n .idle) = 0 := by
    intro f hf
    unfold total
    induction n with
    | zero => rfl
    | succ n ih => rw [List.replicate_succ, List.map_cons, List.sum_cons, ih, hf]
  refine ⟨?_, ?_, ?_, trivial⟩
  · simp only [RState.new]
    rw [hz spaceW rfl, hz dataW rfl, hz wakeSpaceW rfl, hz wakeDataW rfl, hz removeW rfl]
    refine { pos := hc, len := by simp [Ring.new], hd := by simp [Ring.new], qlen := by simp, tl := ?_, slots := ?_, flow := rfl, space := rfl, data := rfl,
             opened := fun _ => rfl, unset := fun _ => rfl, stop := Or.inl rfl, closed := rfl, sealed' := ?_, wakeSpace := fun h => (by cases h),
             wakeData := fun h => (by cases h), prod := rfl, last := fun h => (by cases h) }
    · simp [Ring.new, wrap]
    · intro i hi
      simp only [Ring.new, Nat.zero_add, List.getElem?_nil]
      rw [List.getElem?_replicate, if_pos (by unfold wrap; split <;> omega)]
    · simp [Ring.new, isSealed]
  · intro pc hpc
    simp only [RState.new, List.mem_replicate] at hpc
    rw [hpc.2]; trivial
  · intro t pc hpc
    have := List.mem_of_getElem? hpc
    simp only [RState.new, List.mem_replicate] at this
    exact ⟨.idle, rfl, by rw [this.2]; trivial⟩

theorem ring_step_some [DecidableEq α] {cap : Nat} {s s' : RState α} {tr ev : List (REv α)} {q : List α} {e e' : Nat} (sys : RSys cap s tr q e e')
    {op : RingOp α} (h : s.step op = some (s', ev)) : ∃ q' f f', RSys cap s' (tr ++ ev) q' f f' := by
  obtain ⟨s1, ev1, q', f, f', h1, h2⟩ := ring_step_spec sys op (by
    intro t he hpc hz
    subst he
    simp only [RState.step, hpc, Ring.act, hz, if_true] at h
    cases h)
  rw [h] at h1; cases h1
  exact ⟨q', f, f', h2⟩

theorem ring_step_balanced [DecidableEq α] {cap : Nat} {s : RState α} {tr : List (REv α)} {q : List α} {e e' : Nat} (sys : RSys cap s tr q e e')
    (hb : removals tr ≤ additions tr) (op : RingOp α) : s.step op ≠ none := by
  obtain ⟨s1, ev1, q', f, f', h1, h2⟩ := ring_step_spec sys op (by
    intro t _ hpc
    have hp := sys.inv.prod
    rw [total_self (f := removeW) rfl hpc] at hp
    simp only [removeW] at hp
    omega)
  rw [h1]; simp

theorem ring_run_some [DecidableEq α] {cap : Nat} : ∀ {ops : List (RingOp α)} {s s' : RState α} {tr ev : List (REv α)} {q : List α} {e e' : Nat}, RSys cap s tr q e e' →
    RState.run ops s = some (s', ev) → ∃ q' f f', RSys cap s' (tr ++ ev) q' f f'
  | [], s, s', tr, ev, q, e, e', sys, h => by cases h; exact ⟨q, e, e', by simpa using sys⟩
  | op :: ops, s, s', tr, ev, q, e, e', sys, h => by
    simp only [RState.run] at h
    cases hs : s.step op with
    | none => rw [hs] at h; cases h
    | some p =>
      obtain ⟨s1, e1⟩ := p
      rw [hs] at h
      simp only at h
      cases hr : RState.run ops s1 with
      | none => rw [hr] at h; cases h
      | some p =>
        obtain ⟨s2, e2⟩ := p
        rw [hr] at h
        cases h
        obtain ⟨q1, f1, f1', h1⟩ := ring_step_some sys hs
        obtain ⟨q2, f2, f2', h2⟩ := ring_run_some h1 hr
        exact ⟨q2, f2, f2', by rw [← List.append_assoc]; exact h2⟩

theorem ring_reach [DecidableEq α] {cap n : Nat} (hc : 0 < cap) {ops : List (RingOp α)} {s : RState α} {tr : List (REv α)} (h : RingReach cap n ops s tr) :
    ∃ q e e', RSys cap s tr q e e' := by
  obtain ⟨q, e, e', h⟩ := ring_run_some (ring_new_spec hc n) h
  exact ⟨q, e, e', by simpa using h⟩

theorem wrap_mod {m x : Nat} (h : x < 2 * m) : x % m = wrap m x := by
  unfold wrap
  split
  · rw [Nat.mod_eq_sub_mod (by assumption), Nat.mod_eq_of_lt (by omega)]
  · exact Nat.mod_eq_of_lt (by omega)

theorem filterMap_same {β γ : Type} {f g : β → Option γ} : ∀ {l : List β}, (∀ x ∈ l, f x = g x) → l.filterMap f = l.filterMap g
  | [], _ => rfl
  | x :: l, h => by
    rw [List.filterMap_cons, List.filterMap_cons, h x (by simp), filterMap_same (fun y hy => h y (by simp [hy]))]

theorem sum_zero : ∀ {l : List Nat}, (∀ x ∈ l, x = 0) → l.sum = 0
  | [], _ => rfl
  | x :: l, h => by
    rw [List.sum_cons, h x (by simp), sum_zero (fun y hy => h y (by simp [hy]))]

theorem range_filterMap (q : List α) : (List.range q.length).filterMap (fun i => q[i]?) = q := by
  induction q with
  | nil => rfl
  | cons v q ih =>
    rw [List.length_cons, List.range_succ_eq_map, List.filterMap_cons, List.getElem?_cons_zero, List.filterMap_map]
    simp only
    congr 1

theorem RInv.contents {cap : Nat} {r : Ring α} {tr : List (REv α)} {q : List α} {e e' sw dw w1 w2 rw : Nat} (inv : RInv cap r tr q e e' sw dw w1 w2 rw) :
    Spec.contents r = q := by
  have hhd := inv.hd
  have hql := inv.qlen
  unfold Spec.contents
  rw [inv.size, inv.len]
  have : ∀ i ∈ List.range q.length, (r.storage[(r.head + i) % (cap + 1)]?).join = q[i]? := by
    intro i hi
    rw [List.mem_range] at hi
    rw [wrap_mod (by omega), inv.slots i (by omega)]
    rfl
  rw [filterMap_same this]
  exact range_filterMap q

theorem RInv.drain {cap : Nat} : ∀ (q : List α) (fuel : Nat) {r : Ring α}, q.length < fuel → r.storage.length = cap + 1 → r.head < cap + 1 → q.length ≤ cap →
    r.tail = wrap (cap + 1) (r.head + q.length) → (∀ i, i < cap + 1 → r.storage[wrap (cap + 1) (r.head + i)]? = some q[i]?) → Ring.drain fuel r = some q := by
  intro q
  induction q with
  | nil =>
    intro fuel r hf hlen hhd hql htl hslots
    cases fuel with
    | zero => cases hf
    | succ fuel =>
      unfold Ring.drain
      rw [if_pos]
      rw [htl]
      unfold wrap
      rw [if_neg (by simp; omega)]
      rfl
  | cons v q ih =>
    intro fuel r hf hlen hhd hql htl hslots
    cases fuel with
    | zero => cases hf
    | succ fuel =>
      unfold Ring.drain
      simp only [List.length_cons] at hf hql htl
      rw [if_neg (by rw [htl]; unfold wrap; split <;> omega)]
      have hslot := hslots 0 (by omega)
      rw [show wrap (cap + 1) (r.head + 0) = r.head by unfold wrap; rw [if_neg (by omega)]; rfl] at hslot
      rw [hslot]
      simp only [List.getElem?_cons_zero]
      rw [ih fuel (by omega) (by simpa using hlen) (by simp only [Ring.next, hlen]; split <;> omega) (by omega)]
      · simp only [Ring.next, hlen]
        rw [htl]
        unfold wrap
        split <;> split <;> split <;> omega
      · intro i hi
        simp only [Ring.next, hlen]
        rw [wrap_next hhd (by omega)]
        by_cases hie : i = cap
        · subst hie
          have : wrap (i + 1) (wrap (i + 1) (r.head + 1) + i) = r.head := by unfold wrap; split <;> split <;> omega
          rw [this, List.getElem?_set_self (by omega), List.getElem?_eq_none (by omega)]
        · have e1 : wrap (cap + 1) (wrap (cap + 1) (r.head + 1) + i) = wrap (cap + 1) (r.head + (i + 1)) := by unfold wrap; split <;> split <;> (try split) <;> omega
          have e2 : r.head ≠ wrap (cap + 1) (r.head + (i + 1)) := by unfold wrap; split <;> omega
          rw [e1, List.getElem?_set_ne e2, hslots (i + 1) (by omega), List.getElem?_cons_succ]

/-! ### Progress -/

/-- Actions left in a call. -/
def rank : RPc α → Nat
  | .idle => 0
  | .getSpace _ _ => 3 | .emplace _ => 2 | .putData => 1 | .backSpace => 1 | .fullCheck => 1
  | .getData _ => 3 | .popInternal => 2 | .putSpace _ => 1 | .backData => 1 | .emptyCheck => 1
  | .stopTail _ => 4 | .stopHead _ => 3 | .stopSpace => 2 | .stopData => 1
  | .addProducer => 1 | .size => 1

/-- The thread waits for a semaphore that is not available. -/
def Waits (r : Ring α) : RPc α → Prop
  | .getSpace _ true => r.spaceSem = 0
  | .getData true => r.dataSem = 0
  | _ => False

theorem act_rank {r r' : Ring α} {t : Nat} {pc pc' : RPc α} {ev : List (REv α)} (h : r.act t pc = some (r', pc', ev)) :
    (r' = r ∧ pc' = pc ∧ ev = [] ∧ (pc = .idle ∨ Waits r pc)) ∨ (rank pc' < rank pc ∧ ¬ Waits r pc ∧ pc ≠ .idle) := by
  cases pc with
  | idle => cases h; exact Or.inl ⟨rfl, rfl, rfl, Or.inl rfl⟩
  | getSpace v block =>
    simp only [Ring.act] at h
    split at h
    · cases h; exact Or.inr ⟨by simp [rank], by cases block <;> simp [Waits]; omega, by simp⟩
    · cases block with
      | true => cases h; exact Or.inl ⟨rfl, rfl, rfl, Or.inr (by simp only [Waits]; omega)⟩
      | false => cases h; exact Or.inr ⟨by simp [rank], by simp [Waits], by simp⟩
  | getData block =>
    simp only [Ring.act] at h
    split at h
    · cases h; exact Or.inr ⟨by simp [rank], by cases block <;> simp [Waits]; omega, by simp⟩
    · cases block with
      | true => cases h; exact Or.inl ⟨rfl, rfl, rfl, Or.inr (by simp only [Waits]; omega)⟩
      | false => cases h; exact Or.inr ⟨by simp [rank], by simp [Waits], by simp⟩
  | emplace v =>
    simp only [Ring.act] at h
    split at h
    · cases h
    · cases h; exact Or.inr ⟨by simp [rank], by simp [Waits], by simp⟩
    · cases h; exact Or.inr ⟨by simp [rank], by simp [Waits], by simp⟩
  | popInternal =>
    simp only [Ring.act] at h
    split at h
    · cases h
    · cases h; exact Or.inr ⟨by simp [rank], by simp [Waits], by simp⟩
    · cases h; exact Or.inr ⟨by simp [rank], by simp [Waits], by simp⟩
  | stopTail rm =>
    simp only [Ring.act] at h
    split at h
    · split at h
      · cases h
      · split at h
        · cases h; exact Or.inr ⟨by simp [rank], by simp [Waits], by simp⟩
        · cases h; exact Or.inr ⟨by simp [rank], by simp [Waits], by simp⟩
    · cases h; exact Or.inr ⟨by simp [rank], by simp [Waits], by simp⟩
  | putData => cases h; exact Or.inr ⟨by simp [rank], by simp [Waits], by simp⟩
  | backSpace => cases h; exact Or.inr ⟨by simp [rank], by simp [Waits], by simp⟩
  | fullCheck => cases h; exact Or.inr ⟨by simp [rank], by simp [Waits], by simp⟩
  | putSpace v => cases h; exact Or.inr ⟨by simp [rank], by simp [Waits], by simp⟩
  | backData => cases h; exact Or.inr ⟨by simp [rank], by simp [Waits], by simp⟩
  | emptyCheck => cases h; exact Or.inr ⟨by simp [rank], by simp [Waits], by simp⟩
  | stopHead saved => cases h; exact Or.inr ⟨by simp [rank], by simp [Waits], by simp⟩
  | stopSpace => cases h; exact Or.inr ⟨by simp [rank], by simp [Waits], by simp⟩
  | stopData => cases h; exact Or.inr ⟨by simp [rank], by simp [Waits], by simp⟩
  | addProducer => cases h; exact Or.inr ⟨by simp [rank], by simp [Waits], by simp⟩
  | size => cases h; exact Or.inr ⟨by simp [rank], by simp [Waits], by simp⟩

/-- When all threads are idle or wait, the semaphores count the slots. -/
theorem RSys.settled [DecidableEq α] {cap : Nat} {s : RState α} {tr : List (REv α)} {q : List α} {e e' : Nat} (sys : RSys cap s tr q e e')
    (h : ∀ pc ∈ s.threads, pc = .idle ∨ Waits s.ring pc) :
    s.ring.spaceSem + q.length = cap + e ∧ s.ring.dataSem = q.length + e' ∧ (s.ring.stopped = true → 1 ≤ e ∧ 1 ≤ e') := by
  have hz : ∀ (f : RPc α → Nat), f .idle = 0 → (∀ v, f (.getSpace v true) = 0) → f (.getData true) = 0 → total f s.threads = 0 := by
    intro f h0 h1 h2
    unfold total
    apply sum_zero
    intro x hx
    rw [List.mem_map] at hx
    obtain ⟨pc, hpc, rfl⟩ := hx
    rcases h pc hpc with rfl | hw
    · exact h0
    · unfold Waits at hw
      split at hw
      · exact h1 _
      · exact h2
      · exact hw.elim
  have inv := sys.inv
  have a := inv.space
  have b := inv.data
  have c := inv.wakeSpace
  have d := inv.wakeData
  rw [hz _ rfl (fun _ => rfl) rfl] at a b c d
  exact ⟨by omega, by omega, fun hs => ⟨by have := c hs; omega, by have := d hs; omega⟩⟩

theorem total_lt {s : RState α} {t : Nat} {pc pc' : RPc α} (hpc : s.threads[t]? = some pc) (h : rank pc' < rank pc) :
    total rank (s.threads.set t pc') < total rank s.threads := by
  rw [total_self (f := rank) rfl hpc, total_set (f := rank) rfl hpc]
  omega

theorem ring_run_append : ∀ {a b : List (RingOp α)} {s s1 s2 : RState α} {e1 e2 : List (REv α)}, RState.run a s = some (s1, e1) → RState.run b s1 = some (s2, e2) →
    RState.run (a ++ b) s = some (s2, e1 ++ e2)
  | [], b, s, s1, s2, e1, e2, h1, h2 => by cases h1; exact h2
  | op :: a, b, s, s1, s2, e1, e2, h1, h2 => by
    simp only [RState.run, List.cons_append] at h1 ⊢
    cases hs : s.step op with
    | none => rw [hs] at h1; cases h1
    | some p =>
      obtain ⟨s', e'⟩ := p
      rw [hs] at h1
      simp only at h1 ⊢
      cases hr : RState.run a s' with
      | none => rw [hr] at h1; cases h1
      | some p =>
        obtain ⟨s'', e''⟩ := p
        rw [hr] at h1
        cases h1
        rw [ring_run_append hr h2]
        simp

theorem actsOf_succ (sched : Nat → Nat) (n : Nat) : (actsOf sched (n + 1) : List (RingOp α)) = .act (sched 0) :: actsOf (fun k => sched (k + 1)) n := by
  unfold actsOf
  rw [List.range_succ_eq_map, List.map_cons, List.map_map]
  rfl

theorem actsOf_add (sched : Nat → Nat) (n k : Nat) : (actsOf sched (n + k) : List (RingOp α)) = actsOf sched n ++ actsOf (fun x => sched (n + x)) k := by
  unfold actsOf
  rw [List.range_add, List.map_append, List.map_map]
  rfl

/-- What stays the same while calls continue. -/
structure Going (s s' : RState α) (tr ev : List (REv α)) : Prop where
  len : s'.threads.length = s.threads.length
  stopped : s.ring.stopped = true → s'.ring.stopped = true
  balanced : removals tr ≤ additions tr → removals (tr ++ ev) ≤ additions (tr ++ ev)

theorem act_going {cap : Nat} [DecidableEq α] {s s' : RState α} {tr ev : List (REv α)} {q : List α} {e e' t : Nat} (sys : RSys cap s tr q e e')
    (h : s.step (.act t) = some (s', ev)) : Going s s' tr ev := by
  simp only [RState.step] at h
  cases hpc : s.threads[t]? with
  | none => rw [hpc] at h; cases h; exact ⟨rfl, id, by simp⟩
  | some pc =>
    rw [hpc] at h
    simp only at h
    cases ha : s.ring.act t pc with
    | none => rw [ha] at h; cases h
    | some p =>
      obtain ⟨r', pc', ev'⟩ := p
      rw [ha] at h
      cases h
      have inv := sys.inv
      rw [total_self rfl hpc, total_self (f := dataW) rfl hpc, total_self (f := wakeSpaceW) rfl hpc, total_self (f := wakeDataW) rfl hpc, total_self (f := removeW) rfl hpc] at inv
      obtain ⟨r1, pc1, ev1, q1, f1, f1', h1, h2, h3, h4⟩ := act_spec t inv (sys.ths pc (List.mem_of_getElem? hpc)) (by
        rintro rfl hz
        simp only [Ring.act, hz, if_true] at ha
        cases ha)
      rw [ha] at h1; cases h1
      refine ⟨by simp, fun hs => (h4.stopped hs).1, fun hb => ?_⟩
      have hrem : removals ev = 0 := by
        have : ∀ x ∈ ev, ∀ t, x ≠ .call t .removeProducer := by
          obtain ⟨p, hp1, hp2⟩ := sys.phase t pc hpc
          intro x hx t' hxe
          subst hxe
          cases pc <;> simp only [Ring.act] at ha <;> (repeat' split at ha) <;> cases ha <;> simp at hx
        unfold removals
        rw [List.countP_eq_zero]
        intro x hx
        split
        · exact absurd rfl (this _ hx _)
        · simp
      rw [removals_append, additions_append, hrem]
      omega

/-- A step of a thread: nothing happens, or the remaining work decreases. -/
theorem ring_act_cases [DecidableEq α] {cap : Nat} {s : RState α} {tr : List (REv α)} {q : List α} {e e' : Nat} (sys : RSys cap s tr q e e')
    (hb : removals tr ≤ additions tr) (t : Nat) :
    ((∀ pc, s.threads[t]? = some pc → pc = .idle ∨ Waits s.ring pc) ∧ s.step (.act t) = some (s, [])) ∨
    ((∃ pc, s.threads[t]? = some pc ∧ pc ≠ .idle ∧ ¬ Waits s.ring pc) ∧
      ∃ s' ev, s.step (.act t) = some (s', ev) ∧ total rank s'.threads < total rank s.threads) := by
  cases hpc : s.threads[t]? with
  | none => exact Or.inl ⟨by simp, by simp only [RState.step, hpc]⟩
  | some pc =>
    cases hs : s.step (.act t) with
    | none => exact absurd hs (ring_step_balanced sys hb _)
    | some p =>
      obtain ⟨s', ev⟩ := p
      have hs' := hs
      simp only [RState.step, hpc] at hs
      cases ha : s.ring.act t pc with
      | none => rw [ha] at hs; cases hs
      | some p =>
        obtain ⟨r', pc', ev'⟩ := p
        rw [ha] at hs
        cases hs
        rcases act_rank ha with ⟨h1, h2, h3, h4⟩ | ⟨h1, h2, h3⟩
        · subst h1 h2 h3
          left
          refine ⟨fun p hp => by cases hp; exact h4, ?_⟩
          rw [ring_set_self hpc]
        · exact Or.inr ⟨⟨pc, rfl, h3, h2⟩, _, _, rfl, total_lt hpc h1⟩

theorem ring_first_effective [DecidableEq α] {cap : Nat} {s : RState α} {tr : List (REv α)} {q : List α} {e e' : Nat} (sys : RSys cap s tr q e e')
    (hb : removals tr ≤ additions tr) : ∀ (k : Nat) (sched : Nat → Nat),
    (∃ pc, s.threads[sched k]? = some pc ∧ pc ≠ .idle ∧ ¬ Waits s.ring pc) →
    ∃ n s' ev, RState.run (actsOf sched n) s = some (s', ev) ∧ total rank s'.threads < total rank s.threads ∧ Going s s' tr ev
  | 0, sched, h => by
    rcases ring_act_cases sys hb (sched 0) with ⟨h1, h2⟩ | ⟨-, s', ev, h1, h2⟩
    · obtain ⟨pc, ha, hb', hc⟩ := h
      rcases h1 pc ha with h | h
      · exact absurd h hb'
      · exact absurd h hc
    · exact ⟨1, s', ev, by rw [actsOf_succ]; simp [RState.run, h1, actsOf], h2, act_going sys h1⟩
  | k + 1, sched, h => by
    rcases ring_act_cases sys hb (sched 0) with ⟨h1, h2⟩ | ⟨-, s', ev, h1, h2⟩
    · obtain ⟨n, s', ev, h3, h4⟩ := ring_first_effective sys hb k (fun x => sched (x + 1)) h
      refine ⟨n + 1, s', ev, ?_, h4⟩
      rw [actsOf_succ]
      simp only [RState.run, h2, h3, List.nil_append]
    · exact ⟨1, s', ev, by rw [actsOf_succ]; simp [RState.run, h1, actsOf], h2, act_going sys h1⟩

theorem Going.trans {s s1 s2 : RState α} {tr e1 e2 : List (REv α)} (a : Going s s1 tr e1) (b : Going s1 s2 (tr ++ e1) e2) : Going s s2 tr (e1 ++ e2) :=
  ⟨b.len.trans a.len, fun h => b.stopped (a.stopped h), fun h => by rw [← List.append_assoc]; exact b.balanced (a.balanced h)⟩

theorem ring_fair [DecidableEq α] {cap : Nat} : ∀ (w : Nat) {s : RState α} {tr : List (REv α)} {q : List α} {e e' : Nat}, RSys cap s tr q e e' →
    removals tr ≤ additions tr → total rank s.threads ≤ w → ∀ (sched : Nat → Nat), FairTo s.threads.length sched →
    ∃ n s' ev q' f f', RState.run (actsOf sched n) s = some (s', ev) ∧ RSys cap s' (tr ++ ev) q' f f' ∧ Going s s' tr ev ∧
      ∀ pc ∈ s'.threads, pc = .idle ∨ Waits s'.ring pc := by
  intro w
  induction w with
  | zero =>
    intro s tr q e e' sys hb hw sched hf
    refine ⟨0, s, [], q, e, e', rfl, by simpa using sys, ⟨rfl, id, by simp⟩, ?_⟩
    intro pc hpc
    obtain ⟨t, ht⟩ := List.getElem?_of_mem hpc
    rcases ring_act_cases sys hb t with ⟨h1, -⟩ | ⟨-, s', ev, -, h2⟩
    · exact h1 pc ht
    · omega
  | succ w ih =>
    intro s tr q e e' sys hb hw sched hf
    by_cases hall : ∀ pc ∈ s.threads, pc = .idle ∨ Waits s.ring pc
    · exact ⟨0, s, [], q, e, e', rfl, by simpa using sys, ⟨rfl, id, by simp⟩, hall⟩
    · simp only [Classical.not_forall, not_or] at hall
      obtain ⟨pc, hmem, h1, h2⟩ := hall
      obtain ⟨t, ht⟩ := List.getElem?_of_mem hmem
      obtain ⟨k, -, hk⟩ := hf t (List.getElem?_eq_some_iff.mp ht).1 0
      obtain ⟨n, s1, e1, hr, hw1, hg⟩ := ring_first_effective sys hb k sched ⟨pc, by rw [hk]; exact ht, h1, h2⟩
      obtain ⟨q1, f1, f1', sys1⟩ := ring_run_some sys hr
      obtain ⟨n2, s2, e2, q2, f2, f2', r1, r2, r3, r4⟩ := ih sys1 (hg.balanced hb) (by omega) (fun x => sched (n + x)) (by
        intro i hi x
        obtain ⟨a, ha1, ha⟩ := hf i (by rw [← hg.len]; exact hi) (n + x)
        exact ⟨a - n, by omega, by show sched (n + (a - n)) = _; rw [show n + (a - n) = a by omega]; exact ha⟩)
      exact ⟨n + n2, s2, e1 ++ e2, q2, f2, f2', by rw [actsOf_add]; exact ring_run_append hr r1, by rw [← List.append_assoc]; exact r2, hg.trans r3, r4⟩

theorem ring_step_length {s s' : RState α} {op : RingOp α} {ev : List (REv α)} (h : s.step op = some (s', ev)) : s'.threads.length = s.threads.length := by
  cases op with
  | call t c => simp only [RState.step] at h; split at h <;> cases h <;> simp
  | act t =>
    simp only [RState.step] at h
    split at h
    · cases h; rfl
    · split at h
      · cases h
      · cases h; simp
  | fail t => simp only [RState.step] at h; split at h <;> cases h <;> simp

theorem ring_run_length : ∀ {ops : List (RingOp α)} {s s' : RState α} {ev : List (REv α)}, RState.run ops s = some (s', ev) → s'.threads.length = s.threads.length
  | [], s, s', ev, h => by cases h; rfl
  | op :: ops, s, s', ev, h => by
    simp only [RState.run] at h
    cases hs : s.step op with
    | none => rw [hs] at h; cases h
    | some p =>
      obtain ⟨s1, e1⟩ := p
      rw [hs] at h
      simp only at h
      cases hr : RState.run ops s1 with
      | none => rw [hr] at h; cases h
      | some p =>
        obtain ⟨s2, e2⟩ := p
        rw [hr] at h
        cases h
        rw [ring_run_length hr, ring_step_length hs]

theorem ring_step_removals {s s' : RState α} {op : RingOp α} {ev : List (REv α)} (h : s.step op = some (s', ev)) (ho : ∀ t, op ≠ .call t .removeProducer) : removals ev = 0 := by
  have key : ∀ x ∈ ev, ∀ t, x ≠ .call t .removeProducer := by
    intro x hx t' hxe
    subst hxe
    cases op with
    | call t c =>
      simp only [RState.step] at h
      split at h <;> cases h
      · simp only [List.mem_singleton, REv.call.injEq] at hx
        exact ho t (by rw [hx.2])
      · cases hx
    | fail t => simp only [RState.step] at h; split at h <;> cases h <;> cases hx
    | act t =>
      simp only [RState.step] at h
      split at h
      · cases h; cases hx
      · rename_i pc hpc
        split at h
        · cases h
        · rename_i ha
          cases h
          cases pc <;> simp only [Ring.act] at ha <;> (repeat' split at ha) <;> cases ha <;> simp at hx
  unfold removals
  rw [List.countP_eq_zero]
  intro x hx
  split
  · exact absurd rfl (key _ hx _)
  · simp

theorem ring_run_total [DecidableEq α] {cap : Nat} : ∀ {ops : List (RingOp α)} {s : RState α} {tr : List (REv α)} {q : List α} {e e' : Nat}, RSys cap s tr q e e' →
    removals tr ≤ additions tr → (∀ t, RingOp.call t .removeProducer ∉ ops) → ∃ s' ev, RState.run ops s = some (s', ev) ∧ removals (tr ++ ev) ≤ additions (tr ++ ev)
  | [], s, tr, q, e, e', sys, hb, ho => ⟨s, [], rfl, by simpa using hb⟩
  | op :: ops, s, tr, q, e, e', sys, hb, ho => by
    cases hs : s.step op with
    | none => exact absurd hs (ring_step_balanced sys hb op)
    | some p =>
      obtain ⟨s1, e1⟩ := p
      have hr := ring_step_removals hs (fun t h => ho t (by rw [h]; simp))
      obtain ⟨q1, f, f', sys1⟩ := ring_step_some sys hs
      obtain ⟨s2, e2, h1, h2⟩ := ring_run_total (ops := ops) sys1 (by rw [removals_append, additions_append, hr]; omega) (fun t h => ho t (by simp [h]))
      exact ⟨s2, e1 ++ e2, by simp only [RState.run, hs, h1], by rw [← List.append_assoc]; exact h2⟩

theorem waits_cases {r : Ring α} {pc : RPc α} (h : Waits r pc) : (∃ v, pc = .getSpace v true) ∨ pc = .getData true := by
  unfold Waits at h
  split at h
  · exact Or.inl ⟨_, rfl⟩
  · exact Or.inr rfl
  · exact h.elim

theorem quiescent_settled {s : RState α} (h : Quiescent s) : ∀ pc ∈ s.threads, pc = .idle ∨ Waits s.ring pc := by
  intro pc hpc
  obtain ⟨t, ht⟩ := List.getElem?_of_mem hpc
  have hs := h t
  simp only [RState.step, ht] at hs
  cases ha : s.ring.act t pc with
  | none => rw [ha] at hs; cases hs
  | some p =>
    obtain ⟨r', pc', ev⟩ := p
    rw [ha] at hs
    simp only [Option.some.injEq, Prod.mk.injEq] at hs
    rcases act_rank ha with ⟨-, -, -, h4⟩ | ⟨h1, -, -⟩
    · exact h4
    · have := congrArg RState.threads hs.1
      simp only at this
      have hx : (s.threads.set t pc')[t]? = some pc := by rw [this, ht]
      rw [List.getElem?_set_self (List.getElem?_eq_some_iff.mp ht).1, Option.some.injEq] at hx
      rw [hx] at h1
      omega

theorem RSys.no_lost_wakeup [DecidableEq α] {cap : Nat} {s : RState α} {tr : List (REv α)} {q : List α} {e e' : Nat} (sys : RSys cap s tr q e e')
    (h : ∀ pc ∈ s.threads, pc = .idle ∨ Waits s.ring pc) :
    (∀ t, waitsForSpace s t → (contents s.ring).length = cap ∧ isClosed tr = false) ∧ (∀ t, waitsForData s t → contents s.ring = [] ∧ isClosed tr = false) := by
  obtain ⟨h1, h2, h3⟩ := sys.settled h
  have inv := sys.inv
  have hq := inv.qlen
  rw [inv.contents, inv.closed]
  refine ⟨?_, ?_⟩
  · rintro t ⟨v, ht⟩
    rcases h _ (List.mem_of_getElem? ht) with hi | hw
    · cases hi
    · simp only [Waits] at hw
      cases hs : s.ring.stopped with
      | false => have := inv.opened hs; exact ⟨by omega, rfl⟩
      | true => have := h3 hs; omega
  · intro t ht
    rcases h _ (List.mem_of_getElem? ht) with hi | hw
    · cases hi
    · simp only [Waits] at hw
      cases hs : s.ring.stopped with
      | false => exact ⟨List.eq_nil_of_length_eq_zero (by omega), rfl⟩
      | true => have := h3 hs; omega

end Spead2
