import Verif.Spec.ChunkWindow

/-!
# The chunk window refines a list of chunks
-/

namespace Spead2
open Spec

/-- Position in circular storage. -/
def wrap (max x : Nat) : Nat := if x ≥ max then x - max else x

/-- The window represents the chunks `win` of the ids from `h`. -/
structure WRel (max : Nat) (w : Window) (h : Nat) (win : List (Option Chunk)) : Prop where
  len : w.chunks.length = max
  hp : w.headPos < max
  head : w.headChunk = h
  tail : w.tailChunk = h + win.length
  fits : win.length ≤ max
  tp : w.tailPos = wrap max (w.headPos + win.length)
  slots : ∀ i, i < max → w.chunks[wrap max (w.headPos + i)]? = some (win[i]?.join)

/-- The chunk for id `h + i` is at position `i`, and is there iff the allocation callback supplied it. -/
def WIds (alloc : Nat → Bool) (h : Nat) (win : List (Option Chunk)) : Prop :=
  ∀ i x, win[i]? = some x → (x = none ∧ alloc (h + i) = false) ∨ ∃ s, x = some ⟨h + i, h + i, s⟩ ∧ alloc (h + i) = true

/-- What a piece of execution does to the abstract window. -/
structure WStep (alloc : Nat → Bool) (h : Nat) (win : List (Option Chunk)) (h' : Nat) (win' : List (Option Chunk)) (ev : List WinEv) : Prop where
  flow : readied ev ++ win'.filterMap id = win.filterMap id ++ supplied alloc ev
  headLe : h ≤ h'
  tailLe : h + win.length ≤ h' + win'.length
  reqSorted : (requested ev).Pairwise (· < ·)
  reqRange : ∀ x ∈ requested ev, h + win.length ≤ x ∧ x < h' + win'.length
  headSorted : (headsOf ev).Pairwise (· < ·)
  headRange : ∀ x ∈ headsOf ev, h < x ∧ x ≤ h'
  headLast : h ≠ h' → (headsOf ev).getLast? = some h'
  ids : WIds alloc h win → WIds alloc h' win'
  readyRange : WIds alloc h win → ∀ c ∈ readied ev, h ≤ c.chunkId ∧ c.chunkId < h'
  keep : ∀ i x, win[i]? = some x → h' ≤ h + i → win'[h + i - h']? = some x
  shrink : requested ev = [] → ∀ i x, win'[i]? = some x → win[h' + i - h]? = some x

theorem WRel.new {max : Nat} (h : 0 < max) : WRel max (Window.new max) 0 [] where
  len := by simp [Window.new]
  hp := h
  head := rfl
  tail := rfl
  fits := Nat.zero_le _
  tp := by simp [Window.new, wrap]
  slots := by
    intro i hi
    have : wrap max ((Window.new max).headPos + i) = i := by simp [Window.new, wrap]; omega
    rw [this]
    simp [Window.new, hi]

theorem readied_append (a b : List WinEv) : readied (a ++ b) = readied a ++ readied b := List.filterMap_append
theorem headsOf_append (a b : List WinEv) : headsOf (a ++ b) = headsOf a ++ headsOf b := List.filterMap_append
theorem requested_append (a b : List WinEv) : requested (a ++ b) = requested a ++ requested b := List.filterMap_append
theorem supplied_append (f : Nat → Bool) (a b : List WinEv) : supplied f (a ++ b) = supplied f a ++ supplied f b := List.filterMap_append

theorem WStep.refl (alloc : Nat → Bool) (h : Nat) (win : List (Option Chunk)) : WStep alloc h win h win [] where
  flow := by simp [readied, supplied]
  headLe := Nat.le_refl _
  tailLe := Nat.le_refl _
  reqSorted := by simp [requested]
  reqRange := by simp [requested]
  headSorted := by simp [headsOf]
  headRange := by simp [headsOf]
  headLast := fun h => absurd rfl h
  ids := fun h => h
  readyRange := by simp [readied]
  keep := fun i x hx _ => by rw [Nat.add_sub_cancel_left]; exact hx
  shrink := fun _ i x hx => by rw [Nat.add_sub_cancel_left]; exact hx

theorem WStep.trans {alloc : Nat → Bool} {h h' h'' : Nat} {win win' win'' : List (Option Chunk)} {e e' : List WinEv}
    (a : WStep alloc h win h' win' e) (b : WStep alloc h' win' h'' win'' e') : WStep alloc h win h'' win'' (e ++ e') where
  flow := by
    rw [readied_append, supplied_append, List.append_assoc, b.flow, ← List.append_assoc, a.flow, List.append_assoc]
  headLe := Nat.le_trans a.headLe b.headLe
  tailLe := Nat.le_trans a.tailLe b.tailLe
  reqSorted := by
    rw [requested_append, List.pairwise_append]
    refine ⟨a.reqSorted, b.reqSorted, fun x hx y hy => ?_⟩
    have := a.reqRange x hx
    have := b.reqRange y hy
    omega
  reqRange := by
    intro x hx
    rw [requested_append] at hx
    have := a.tailLe
    have := b.tailLe
    rcases List.mem_append.1 hx with hx | hx
    · have := a.reqRange x hx; omega
    · have := b.reqRange x hx; omega
  headSorted := by
    rw [headsOf_append, List.pairwise_append]
    refine ⟨a.headSorted, b.headSorted, fun x hx y hy => ?_⟩
    have := a.headRange x hx
    have := b.headRange y hy
    omega
  headRange := by
    intro x hx
    rw [headsOf_append] at hx
    have := a.headLe
    have := b.headLe
    rcases List.mem_append.1 hx with hx | hx
    · have := a.headRange x hx; omega
    · have := b.headRange x hx; omega
  headLast := by
    intro hne
    rw [headsOf_append]
    by_cases h1 : h' = h''
    · subst h1
      have hb : headsOf e' = [] := by
        rw [List.eq_nil_iff_forall_not_mem]
        intro x hx
        have := b.headRange x hx
        omega
      rw [hb, List.append_nil]
      exact a.headLast hne
    · rw [List.getLast?_append, b.headLast h1]
      rfl
  ids := fun h => b.ids (a.ids h)
  readyRange := by
    intro hi c hc
    rw [readied_append] at hc
    have := a.headLe
    have := b.headLe
    rcases List.mem_append.1 hc with hc | hc
    · have := a.readyRange hi c hc; omega
    · have := b.readyRange (a.ids hi) c hc; omega
  keep := by
    intro i x hx hle
    have := a.headLe
    have := b.headLe
    have h1 := a.keep i x hx (by omega)
    have h2 := b.keep _ x h1 (by omega)
    rw [show h' + (h + i - h') - h'' = h + i - h'' by omega] at h2
    exact h2
  shrink := by
    intro hr i x hx
    rw [requested_append, List.append_eq_nil_iff] at hr
    have := a.headLe
    have := b.headLe
    have h2 := b.shrink hr.2 i x hx
    have h1 := a.shrink hr.1 _ x h2
    rw [show h' + (h'' + i - h') - h = h'' + i - h by omega] at h1
    exact h1

theorem join_cons_succ {α : Type} (c : Option α) (l : List (Option α)) (i : Nat) : (c :: l)[i + 1]?.join = l[i]?.join := by
  rw [List.getElem?_cons_succ]

theorem flushHead_rel {max : Nat} {w : Window} {h : Nat} {c : Option Chunk} {win : List (Option Chunk)} (r : WRel max w h (c :: win)) :
    ∃ w', w.flushHead = some (w', readyEv c) ∧ WRel max w' (h + 1) win := by
  obtain ⟨len, hp, head, tail, fits, tp, slots⟩ := r
  have hlen : (c :: win).length = win.length + 1 := rfl
  have h0 := slots 0 (by omega)
  have hw0 : wrap max (w.headPos + 0) = w.headPos := by unfold wrap; rw [if_neg (by omega)]; rfl
  rw [hw0] at h0
  simp only [List.getElem?_cons_zero, Option.join_some] at h0
  unfold Window.flushHead
  rw [if_pos (by omega), h0]
  refine ⟨_, rfl, ?_⟩
  have hnp : (if w.headPos + 1 = w.chunks.length then 0 else w.headPos + 1) = wrap max (w.headPos + 1) := by
    unfold wrap; rw [len]
    by_cases hc : w.headPos + 1 = max
    · rw [if_pos hc, if_pos (by omega)]; omega
    · rw [if_neg hc, if_neg (by omega)]
  refine ⟨by simpa using len, ?_, by simp only; omega, by simp only; omega, by omega, ?_, ?_⟩
  · simp only; rw [hnp]; unfold wrap; split <;> omega
  · simp only
    rw [tp, hnp]
    unfold wrap
    rw [hlen]
    split <;> split <;> (try split) <;> omega
  · intro i hi
    simp only
    rw [hnp]
    by_cases hlast : i + 1 = max
    · have hidx : wrap max (wrap max (w.headPos + 1) + i) = w.headPos := by
        unfold wrap; split <;> split <;> omega
      rw [hidx, List.getElem?_set_self (by omega)]
      have : win[i]? = none := List.getElem?_eq_none (by omega)
      rw [this]
      rfl
    · have hidx : wrap max (wrap max (w.headPos + 1) + i) = wrap max (w.headPos + (i + 1)) := by
        unfold wrap; split <;> split <;> (try split) <;> omega
      have hne : w.headPos ≠ wrap max (w.headPos + (i + 1)) := by unfold wrap; split <;> omega
      rw [hidx, List.getElem?_set_ne hne, slots (i + 1) (by omega), join_cons_succ]

theorem readied_readyEv (c : Option Chunk) : readied (readyEv c) = c.toList := by cases c <;> rfl
theorem headsOf_readyEv (c : Option Chunk) : headsOf (readyEv c) = [] := by cases c <;> rfl
theorem requested_readyEv (c : Option Chunk) : requested (readyEv c) = [] := by cases c <;> rfl
theorem supplied_readyEv (f : Nat → Bool) (c : Option Chunk) : supplied f (readyEv c) = [] := by cases c <;> rfl

theorem toList_filterMap {α : Type} (c : Option α) (l : List (Option α)) : (c :: l).filterMap id = c.toList ++ l.filterMap id := by
  cases c <;> rfl

/-- Events of handing over the chunks of `l`. -/
def readyEvs (l : List (Option Chunk)) : List WinEv := l.flatMap readyEv

theorem readied_readyEvs (l : List (Option Chunk)) : readied (readyEvs l) = l.filterMap id := by
  induction l with
  | nil => rfl
  | cons c l ih => rw [readyEvs, List.flatMap_cons, readied_append, readied_readyEv, toList_filterMap, ← ih]; rfl

theorem others_readyEvs (l : List (Option Chunk)) (f : Nat → Bool) :
    headsOf (readyEvs l) = [] ∧ requested (readyEvs l) = [] ∧ supplied f (readyEvs l) = [] := by
  induction l with
  | nil => exact ⟨rfl, rfl, rfl⟩
  | cons c l ih =>
    rw [readyEvs, List.flatMap_cons, headsOf_append, requested_append, supplied_append, headsOf_readyEv, requested_readyEv, supplied_readyEv]
    exact ih

/-- Handing over the first `n` chunks and reporting the new head. -/
theorem WStep.flush (alloc : Nat → Bool) (h n h' : Nat) (win : List (Option Chunk)) (hn : n ≤ win.length) (hh : h < h')
    (hle : h + win.length ≤ h' + (win.drop n).length) (hi : h' = h + n ∨ n = win.length) :
    WStep alloc h win h' (win.drop n) (readyEvs (win.take n) ++ [.head h']) := by
  obtain ⟨o1, o2, o3⟩ := others_readyEvs (win.take n) alloc
  have hd : headsOf (readyEvs (win.take n) ++ [.head h']) = [h'] := by rw [headsOf_append, o1]; rfl
  have hq : requested (readyEvs (win.take n) ++ [.head h']) = [] := by rw [requested_append, o2]; rfl
  refine ⟨?_, Nat.le_of_lt hh, hle, by rw [hq]; simp, by rw [hq]; simp, by rw [hd]; simp, by rw [hd]; simp; exact hh, fun _ => by rw [hd]; rfl, ?_, ?_, ?_, ?_⟩
  · rw [readied_append, readied_readyEvs, supplied_append, o3]
    simp only [readied, supplied, List.filterMap_cons, List.filterMap_nil, List.append_nil]
    rw [← List.filterMap_append, List.take_append_drop]
  · intro ho i x hx
    rcases hi with rfl | rfl
    · rw [List.getElem?_drop] at hx
      rw [Nat.add_assoc]
      exact ho (n + i) x hx
    · simp at hx
  · intro ho c hc
    rw [readied_append, readied_readyEvs] at hc
    simp only [readied, List.filterMap_cons, List.filterMap_nil, List.append_nil, List.mem_filterMap] at hc
    obtain ⟨x, hx, rfl⟩ := hc
    obtain ⟨i, hi', hxi⟩ := List.getElem_of_mem hx
    have hi2 : i < n := by rw [List.length_take] at hi'; omega
    rw [List.getElem_take] at hxi
    rw [List.length_drop] at hle
    have hil : i < win.length := by omega
    have hw : win[i]? = some (some c) := by rw [List.getElem?_eq_getElem hil, hxi]
    rcases ho i _ hw with ⟨h, _⟩ | ⟨s, h, _⟩
    · cases h
    · cases h
      simp only
      omega
  · intro i x hx hle'
    rw [List.getElem?_drop]
    rcases hi with rfl | rfl
    · rw [show n + (h + i - (h + n)) = i by omega]; exact hx
    · have : i < win.length := by
        by_cases hc : i < win.length
        · exact hc
        · rw [List.getElem?_eq_none (by omega)] at hx; cases hx
      rw [List.length_drop] at hle
      omega
  · intro _ i x hx
    rw [List.getElem?_drop] at hx
    rcases hi with rfl | rfl
    · rw [show h + n + i - h = n + i by omega]; exact hx
    · rw [List.getElem?_eq_none (by omega)] at hx; cases hx

theorem flushHead2_rel {max : Nat} {w : Window} {h : Nat} {c : Option Chunk} {win : List (Option Chunk)} (alloc : Nat → Bool) (r : WRel max w h (c :: win)) :
    ∃ w' ev, w.flushHead2 = some (w', ev) ∧ WRel max w' (h + 1) win ∧ WStep alloc h (c :: win) (h + 1) win ev ∧ requested ev = [] := by
  obtain ⟨w', h1, h2⟩ := flushHead_rel r
  refine ⟨w', readyEv c ++ [.head (h + 1)], ?_, h2, ?_, ?_⟩
  · unfold Window.flushHead2
    rw [h1]
    simp only
    rw [h2.head]
  · have := WStep.flush alloc h 1 (h + 1) (c :: win) (by simp) (by omega) (by simp; omega) (Or.inl rfl)
    simpa [readyEvs] using this
  · rw [requested_append, requested_readyEv]; rfl

theorem push_rel {max : Nat} {w : Window} {h : Nat} {win : List (Option Chunk)} (alloc : Nat → Bool) (sid : Nat) (r : WRel max w h win)
    (hl : win.length < max) :
    ∃ w' ev, w.push alloc sid = some (w', ev) ∧
      WRel max w' h (win ++ [if alloc (h + win.length) then some ⟨h + win.length, h + win.length, sid⟩ else none]) ∧
      WStep alloc h win h (win ++ [if alloc (h + win.length) then some ⟨h + win.length, h + win.length, sid⟩ else none]) ev ∧
      requested ev = [h + win.length] := by
  obtain ⟨len, hp, head, tail, fits, tp, slots⟩ := r
  have htp : w.tailPos < w.chunks.length := by rw [tp, len]; unfold wrap; split <;> omega
  unfold Window.push
  rw [if_pos htp]
  refine ⟨_, _, rfl, ?_, ?_, ?_⟩
  · rw [tail]
    refine ⟨by simpa using len, hp, head, by simp only [List.length_append, List.length_cons, List.length_nil]; omega, by simp; omega, ?_, ?_⟩
    · simp only [List.length_append, List.length_cons, List.length_nil]
      rw [tp, len]
      unfold wrap
      split <;> split <;> (try split) <;> omega
    · intro i hi
      simp only
      rw [tp]
      by_cases he : i = win.length
      · subst he
        rw [List.getElem?_set_self (by rw [len]; unfold wrap; split <;> omega), List.getElem?_append_right (Nat.le_refl _)]
        simp
      · have hne : wrap max (w.headPos + win.length) ≠ wrap max (w.headPos + i) := by unfold wrap; split <;> split <;> omega
        rw [List.getElem?_set_ne hne, slots i hi]
        by_cases hlt : i < win.length
        · rw [List.getElem?_append_left hlt]
        · rw [List.getElem?_eq_none (by omega), List.getElem?_eq_none (by simp; omega)]
  · rw [tail]
    have hq : requested [WinEv.alloc (h + win.length) sid] = [h + win.length] := rfl
    refine ⟨?_, Nat.le_refl _, by simp, by rw [hq]; simp, by rw [hq]; simp, by simp [headsOf], by simp [headsOf], fun h => absurd rfl h, ?_, by simp [readied], ?_, by rw [hq]; simp⟩
    · rw [List.filterMap_append]
      cases ha : alloc (h + win.length) <;> simp [readied, supplied, ha]
    · intro ho i x hx
      by_cases hlt : i < win.length
      · rw [List.getElem?_append_left hlt] at hx
        exact ho i x hx
      · rw [List.getElem?_append_right (by omega)] at hx
        have hi : i = win.length := by
          by_cases he : i = win.length
          · exact he
          · rw [List.getElem?_eq_none (by simp; omega)] at hx
            cases hx
        subst hi
        simp only [Nat.sub_self, List.getElem?_cons_zero, Option.some.injEq] at hx
        subst hx
        cases ha : alloc (h + win.length)
        · exact Or.inl ⟨rfl, rfl⟩
        · exact Or.inr ⟨sid, rfl, rfl⟩
    · intro i x hx _
      rw [Nat.add_sub_cancel_left]
      have : i < win.length := by
        by_cases hc : i < win.length
        · exact hc
        · rw [List.getElem?_eq_none (by omega)] at hx; cases hx
      rw [List.getElem?_append_left this]
      exact hx
  · rw [tail]; rfl

theorem extend_rel {max : Nat} {w : Window} {h : Nat} {win : List (Option Chunk)} (hmax : 0 < max) (alloc : Nat → Bool) (sid : Nat) (r : WRel max w h win) :
    ∃ w' ev h' win', w.extend alloc sid = some (w', ev) ∧ WRel max w' h' win' ∧ WStep alloc h win h' win' ev ∧
      h' + win'.length = h + win.length + 1 ∧ h' = Max.max h (h + win.length + 1 - max) ∧ requested ev = [h + win.length] := by
  unfold Window.extend
  by_cases hfull : win.length = max
  · rw [if_pos (by rw [r.tail, r.head, r.len]; omega)]
    cases win with
    | nil => simp at hfull; omega
    | cons c win =>
      obtain ⟨w1, ev1, h1, h2, h3, hr1⟩ := flushHead2_rel alloc r
      simp only [List.length_cons] at hfull
      obtain ⟨w2, ev2, h4, h5, h6, hr2⟩ := push_rel alloc sid h2 (by omega)
      rw [h1]
      simp only
      rw [h4]
      refine ⟨_, _, _, _, rfl, h5, h3.trans h6, ?_, ?_, ?_⟩
      · simp; omega
      · simp only [List.length_cons]; omega
      · rw [requested_append, hr1, hr2]; simp; omega
  · rw [if_neg (by rw [r.tail, r.head, r.len]; omega)]
    have := r.fits
    obtain ⟨w2, ev2, h4, h5, h6, hr2⟩ := push_rel alloc sid r (by omega)
    refine ⟨_, _, _, _, h4, h5, h6, ?_, ?_, hr2⟩
    · simp; omega
    · omega

theorem idsFrom_self (a : Nat) : idsFrom a a = [] := by simp [idsFrom]

theorem idsFrom_cons {a b : Nat} (h : a < b) : idsFrom a b = a :: idsFrom (a + 1) b := by
  unfold idsFrom
  rw [show b - a = (b - (a + 1)) + 1 by omega, List.range'_succ]

theorem extendLoop_rel {max : Nat} (hmax : 0 < max) (alloc : Nat → Bool) (sid id : Nat) : ∀ (fuel : Nat) {w : Window} {h : Nat} {win : List (Option Chunk)},
    WRel max w h win → id + 1 < h + win.length + fuel → 0 < fuel → h ≤ id →
    ∃ w' ev h' win', Window.extendLoop alloc sid id fuel w = some (w', ev) ∧ WRel max w' h' win' ∧ WStep alloc h win h' win' ev ∧
      h' + win'.length = Max.max (h + win.length) (id + 1) ∧ (h + win.length ≤ id → h' = Max.max h (id + 1 - max)) ∧
      (id < h + win.length → h' = h) ∧ requested ev = idsFrom (h + win.length) (Max.max (h + win.length) (id + 1)) := by
  intro fuel
  induction fuel with
  | zero =>
    intro w h win r hf h0 hid
    omega
  | succ fuel ih =>
    intro w h win r hf h0 hid
    rw [Window.extendLoop]
    by_cases hge : id ≥ w.tailChunk
    · rw [if_pos hge]
      rw [r.tail] at hge
      obtain ⟨w1, ev1, h1, win1, e1, e2, e3, e4, e5, e6⟩ := extend_rel hmax alloc sid r
      rw [e1]
      simp only
      have hh1 : h1 ≤ id := by
        rw [e5]; omega
      obtain ⟨w2, ev2, h2, win2, g1, g2, g3, g4, g5, g6, g7⟩ := ih e2 (by omega) (by omega) hh1
      rw [g1]
      refine ⟨w2, ev1 ++ ev2, h2, win2, rfl, g2, e3.trans g3, ?_, ?_, fun h => by omega, ?_⟩
      · rw [g4, e4]; omega
      · intro _
        by_cases hlt : h1 + win1.length ≤ id
        · rw [g5 hlt, e5]; omega
        · rw [g6 (by omega), e5]; omega
      · rw [requested_append, e6, g7, e4]
        have m1 : Max.max (h + win.length) (id + 1) = id + 1 := by omega
        have m2 : Max.max (h + win.length + 1) (id + 1) = id + 1 := by omega
        rw [m1, m2, idsFrom_cons (show h + win.length < id + 1 by omega)]
        rfl
    · rw [if_neg hge]
      rw [r.tail] at hge
      have m1 : Max.max (h + win.length) (id + 1) = h + win.length := by omega
      refine ⟨w, [], h, win, rfl, r, WStep.refl _ _ _, by rw [m1], fun h => by omega, fun _ => rfl, ?_⟩
      rw [m1, idsFrom_self]
      rfl

theorem flushLoop_rel {max : Nat} : ∀ (fuel : Nat) {w : Window} {h : Nat} {win : List (Option Chunk)}, WRel max w h win → win.length < fuel →
    ∃ w', Window.flushLoop fuel w = some (w', readyEvs win) ∧ WRel max w' (h + win.length) [] := by
  intro fuel
  induction fuel with
  | zero => intro w h win r hf; omega
  | succ fuel ih =>
    intro w h win r hf
    rw [Window.flushLoop]
    cases win with
    | nil =>
      rw [if_pos (by rw [r.head, r.tail]; rfl)]
      exact ⟨w, rfl, r⟩
    | cons c win =>
      rw [if_neg (by rw [r.head, r.tail]; simp)]
      obtain ⟨w1, h1, h2⟩ := flushHead_rel r
      obtain ⟨w2, h3, h4⟩ := ih h2 (by simp only [List.length_cons] at hf; omega)
      rw [h1]
      simp only
      rw [h3]
      refine ⟨w2, rfl, ?_⟩
      rw [List.length_cons, show h + (win.length + 1) = h + 1 + win.length by omega]
      exact h4

theorem WRel.rebase {max : Nat} {w : Window} {h : Nat} (r : WRel max w h []) (next : Nat) :
    WRel max { w with headChunk := next, tailChunk := next } next [] :=
  ⟨r.len, r.hp, rfl, rfl, r.fits, r.tp, r.slots⟩

theorem flushAll_rel {max : Nat} (alloc : Nat → Bool) {w : Window} {h : Nat} {win : List (Option Chunk)} (r : WRel max w h win) (next : Nat) (hn : h + win.length ≤ next) :
    ∃ w' ev, w.flushAll next = some (w', ev) ∧ WRel max w' next [] ∧ WStep alloc h win next [] ev ∧ requested ev = [] := by
  unfold Window.flushAll
  have := r.fits
  obtain ⟨w1, h1, h2⟩ := flushLoop_rel (w.chunks.length + 1) r (by rw [r.len]; omega)
  rw [h1]
  refine ⟨_, _, rfl, h2.rebase next, ?_, ?_⟩
  · rw [r.head]
    by_cases he : next = h
    · have hw : win = [] := List.length_eq_zero_iff.1 (by omega)
      subst he hw
      rw [if_neg (by simp)]
      exact WStep.refl _ _ _
    · rw [if_pos he]
      have := WStep.flush alloc h win.length next win (Nat.le_refl _) (by omega) (by simp; omega) (Or.inr rfl)
      simpa using this
  · rw [requested_append, (others_readyEvs win alloc).2.1]; split <;> rfl

theorem jump_rel {max : Nat} (hmax : 0 < max) (alloc : Nat → Bool) {w : Window} {h : Nat} {win : List (Option Chunk)} (r : WRel max w h win) (id : Nat) (hid : h ≤ id) :
    ∃ w' ev h' win', w.jump id = some (w', ev) ∧ WRel max w' h' win' ∧ WStep alloc h win h' win' ev ∧ requested ev = [] ∧
      ((id < h + win.length + max ∧ h' = h ∧ win' = win) ∨ (h + win.length + max ≤ id ∧ h' = id + 1 - max ∧ win' = [])) := by
  unfold Window.jump
  by_cases hj : h + win.length + max ≤ id
  · rw [if_pos (by rw [r.tail, r.len]; omega), r.len]
    obtain ⟨w1, ev, h1, h2, h3, h4⟩ := flushAll_rel alloc r (id - (max - 1)) (by omega)
    refine ⟨w1, ev, _, _, h1, h2, h3, h4, Or.inr ⟨hj, by omega, rfl⟩⟩
  · rw [if_neg (by rw [r.tail, r.len]; omega)]
    exact ⟨w, [], h, win, rfl, r, WStep.refl _ _ _, rfl, Or.inl ⟨by omega, rfl, rfl⟩⟩

theorem lookup_rel {max : Nat} {w : Window} {h : Nat} {win : List (Option Chunk)} (r : WRel max w h win) (id : Nat) (h1 : h ≤ id) (h2 : id < h + win.length) :
    w.chunks[w.pos id]? = some (win[id - h]?.join) := by
  have hf := r.fits
  have := r.slots (id - h) (by omega)
  rw [← this]
  congr 1
  unfold Window.pos wrap
  rw [r.len, r.head]
  split <;> split <;> omega

theorem get_rel {max : Nat} {w : Window} {h : Nat} {win : List (Option Chunk)} (r : WRel max w h win) (id : Nat) :
    w.get id = some (if h ≤ id then win[id - h]?.join else none) := by
  unfold Window.get
  rw [r.head, r.tail]
  by_cases h1 : id ≥ h ∧ id < h + win.length
  · rw [if_pos h1, lookup_rel r id h1.1 h1.2, if_pos h1.1]
  · rw [if_neg h1]
    by_cases h2 : h ≤ id
    · rw [if_pos h2, List.getElem?_eq_none (by omega)]; rfl
    · rw [if_neg h2]

/-- Everything about `get_chunk`. -/
theorem getChunk_rel {max : Nat} (hmax : 0 < max) (alloc : Nat → Bool) {w : Window} {h : Nat} {win : List (Option Chunk)} (r : WRel max w h win) (id sid : Nat) (hid : id < 2 ^ 63) :
    ∃ w' ev h' win' c, w.getChunk alloc id sid = some (w', c, ev) ∧ WRel max w' h' win' ∧ WStep alloc h win h' win' ev ∧
      (id < h → h' = h ∧ win' = win ∧ c = none ∧ ev = []) ∧
      (h ≤ id → h' = Max.max h (id + 1 - max)) ∧
      (h ≤ id → h' ≤ id ∧ h' + win'.length = Max.max (h + win.length) (id + 1) ∧ c = win'[id - h']?.join ∧
        requested ev = idsFrom (Max.max (h + win.length) h') (h' + win'.length)) := by
  unfold Window.getChunk
  rw [if_pos hid]
  by_cases hge : h ≤ id
  · rw [if_pos (by rw [r.head]; exact hge)]
    obtain ⟨w1, ev1, h1, win1, j1, j2, j3, j4, j5⟩ := jump_rel hmax alloc r id hge
    have hh1 : h1 ≤ id := by rcases j5 with ⟨_, rfl, _⟩ | ⟨_, rfl, _⟩ <;> omega
    rw [j1]
    simp only
    obtain ⟨w2, ev2, h2, win2, g1, g2, g3, g4, g5, g6, g7⟩ := extendLoop_rel hmax alloc sid id (w1.chunks.length + 1) j2 (by
      rw [j2.len]; rcases j5 with ⟨q, rfl, rfl⟩ | ⟨q, rfl, rfl⟩
      · omega
      · simp only [List.length_nil]; omega) (by omega) hh1
    rw [g1]
    simp only
    have hh2 : h2 ≤ id := by
      by_cases hc : h1 + win1.length ≤ id
      · rw [g5 hc]; omega
      · rw [g6 (by omega)]; exact hh1
    have hlt : id < h2 + win2.length := by rw [g4]; omega
    rw [lookup_rel g2 id hh2 hlt]
    refine ⟨w2, _, h2, win2, _, rfl, g2, j3.trans g3, fun h => by omega, fun _ => ?_, fun _ => ⟨hh2, ?_, rfl, ?_⟩⟩
    · rcases j5 with ⟨q, rfl, rfl⟩ | ⟨q, rfl, rfl⟩
      · by_cases hc : h1 + win1.length ≤ id
        · exact g5 hc
        · have := r.fits
          rw [g6 (by omega)]
          omega
      · simp only [List.length_nil, Nat.add_zero] at g5
        rw [g5 (by omega)]
        omega
    · rw [g4]
      rcases j5 with ⟨q, rfl, rfl⟩ | ⟨q, rfl, rfl⟩
      · rfl
      · simp only [List.length_nil]; omega
    · rw [requested_append, j4, g7, List.nil_append, g4]
      rcases j5 with ⟨q, rfl, rfl⟩ | ⟨q, rfl, rfl⟩
      · congr 1
        by_cases hc : h1 + win1.length ≤ id
        · rw [g5 hc]; omega
        · rw [g6 (by omega)]; omega
      · simp only [List.length_nil, Nat.add_zero] at g5 ⊢
        rw [g5 (by omega)]
        congr 1
        omega
  · rw [if_neg (by rw [r.head]; exact hge)]
    exact ⟨w, [], h, win, none, rfl, r, WStep.refl _ _ _, fun _ => ⟨rfl, rfl, rfl, rfl⟩, fun h => absurd h hge, fun h => absurd h hge⟩

theorem untilLoop_rel {max : Nat} (target : Nat) : ∀ (fuel : Nat) {w : Window} {h : Nat} {win : List (Option Chunk)}, WRel max w h win → win.length < fuel →
    ∃ w', Window.untilLoop target fuel w = some (w', readyEvs (win.take (target - h))) ∧
      WRel max w' (h + Min.min win.length (target - h)) (win.drop (target - h)) := by
  intro fuel
  induction fuel with
  | zero => intro w h win r hf; omega
  | succ fuel ih =>
    intro w h win r hf
    rw [Window.untilLoop]
    cases win with
    | nil =>
      rw [if_neg (by rw [r.head, r.tail]; simp)]
      refine ⟨w, by simp [readyEvs], ?_⟩
      simpa using r
    | cons c win =>
      by_cases ht : h < target
      · rw [if_pos ⟨by rw [r.head, r.tail]; simp, by rw [r.head]; exact ht⟩]
        obtain ⟨w1, h1, h2⟩ := flushHead_rel r
        obtain ⟨w2, h3, h4⟩ := ih h2 (by simp only [List.length_cons] at hf; omega)
        rw [h1]
        simp only
        rw [h3]
        have e : target - h = (target - (h + 1)) + 1 := by omega
        refine ⟨w2, ?_, ?_⟩
        · rw [e, List.take_succ_cons]; rfl
        · rw [e, List.drop_succ_cons]
          have : h + Min.min (c :: win).length (target - (h + 1) + 1) = h + 1 + Min.min win.length (target - (h + 1)) := by
            simp only [List.length_cons]; omega
          rw [this]
          exact h4
      · rw [if_neg (by rw [r.head]; intro hc; exact ht hc.2)]
        have e : target - h = 0 := by omega
        rw [e]
        refine ⟨w, by simp [readyEvs], ?_⟩
        simpa using r

theorem flushUntil_rel {max : Nat} (alloc : Nat → Bool) {w : Window} {h : Nat} {win : List (Option Chunk)} (r : WRel max w h win) (target : Nat) :
    ∃ w' ev, w.flushUntil target = some (w', ev) ∧ WRel max w' (Max.max h target) (win.drop (target - h)) ∧
      WStep alloc h win (Max.max h target) (win.drop (target - h)) ev ∧ requested ev = [] ∧
      readied ev = (win.take (target - h)).filterMap id ∧ headsOf ev = if h < target then [target] else [] := by
  unfold Window.flushUntil
  rw [r.head]
  by_cases ht : h < target
  · rw [if_pos ht, if_pos ht]
    have := r.fits
    obtain ⟨w1, h1, h2⟩ := untilLoop_rel target (w.chunks.length + 1) r (by rw [r.len]; omega)
    rw [h1]
    simp only
    have hmx : Max.max h target = target := by omega
    obtain ⟨o1, o2, o3⟩ := others_readyEvs (win.take (target - h)) alloc
    refine ⟨_, _, rfl, ?_, ?_, by rw [requested_append, o2]; rfl, ?_, by rw [headsOf_append, o1]; rfl⟩
    · rw [hmx]
      by_cases hl : win.length < target - h
      · have hd : win.drop (target - h) = [] := List.drop_of_length_le (by omega)
        rw [hd] at h2 ⊢
        rw [if_pos (by rw [h2.head]; simp only [Nat.min_def]; split <;> omega)]
        exact h2.rebase target
      · have hm : h + Min.min win.length (target - h) = target := by omega
        rw [hm] at h2
        rw [if_neg (by rw [h2.head]; omega)]
        exact h2
    · rw [hmx]
      by_cases hl : win.length < target - h
      · have := WStep.flush alloc h win.length target win (Nat.le_refl _) ht (by simp; omega) (Or.inr rfl)
        rw [List.take_of_length_le (by omega), List.drop_of_length_le (by omega)]
        simpa using this
      · exact WStep.flush alloc h (target - h) target win (by omega) ht (by rw [List.length_drop]; omega) (Or.inl (by omega))
    · rw [readied_append, readied_readyEvs]; simp [readied]
  · rw [if_neg ht, if_neg ht]
    have hmx : Max.max h target = h := by omega
    have e : target - h = 0 := by omega
    rw [hmx, e]
    refine ⟨w, [], rfl, by simpa using r, by simpa using WStep.refl alloc h win, rfl, by simp [readied], rfl⟩

theorem supplied_allocFor (alloc : Nat → Bool) (ev : List WinEv) : (supplied alloc ev).map Chunk.allocFor = (requested ev).filter alloc := by
  induction ev with
  | nil => rfl
  | cons e ev ih =>
    have h1 : supplied alloc (e :: ev) = supplied alloc [e] ++ supplied alloc ev := supplied_append alloc [e] ev
    have h2 : requested (e :: ev) = requested [e] ++ requested ev := requested_append [e] ev
    rw [h1, h2, List.map_append, List.filter_append, ih]
    congr 1
    cases e with
    | alloc n s => cases ha : alloc n <;> simp [supplied, requested, ha]
    | _ => rfl

theorem supplied_ids (alloc : Nat → Bool) (ev : List WinEv) : ∀ c ∈ supplied alloc ev, c.chunkId = c.allocFor := by
  intro c hc
  unfold supplied at hc
  rw [List.mem_filterMap] at hc
  obtain ⟨e, -, he⟩ := hc
  cases e with
  | alloc n s =>
    simp only at he
    split at he
    · cases he; rfl
    · cases he
  | _ => cases he

theorem range'_join {α : Type} (f : Nat → Option α) : ∀ (win : List (Option α)) (h : Nat), (∀ i, i < win.length → f (h + i) = win[i]?.join) →
    (List.range' h win.length).filterMap f = win.filterMap id
  | [], h, _ => rfl
  | c :: win, h, hf => by
    have h0 := hf 0 (by simp)
    simp only [Nat.add_zero, List.getElem?_cons_zero, Option.join_some] at h0
    have hrest := range'_join f win (h + 1) (fun i hi => by
      have := hf (i + 1) (by simp; omega)
      rw [show h + 1 + i = h + (i + 1) by omega, this, join_cons_succ])
    rw [toList_filterMap, List.length_cons, List.range'_succ, List.filterMap_cons, h0, hrest]
    cases c <;> rfl

theorem inWindow_rel {max : Nat} {w : Window} {h : Nat} {win : List (Option Chunk)} (r : WRel max w h win) : inWindow w = win.filterMap id := by
  unfold inWindow idsFrom
  rw [r.head, r.tail, show h + win.length - h = win.length by omega]
  refine range'_join _ win h (fun i hi => ?_)
  rw [get_rel r, if_pos (by omega), show h + i - h = i by omega]
  rfl

/-- Everything about one operation. -/
theorem winStep_rel {max : Nat} (hmax : 0 < max) (alloc : Nat → Bool) {w : Window} {h : Nat} {win : List (Option Chunk)} (r : WRel max w h win)
    (ht : h + win.length < 2 ^ 64) (op : WinOp) (hv : op.Valid) :
    ∃ w' ev h' win', w.step alloc op = some (w', ev) ∧ WRel max w' h' win' ∧ WStep alloc h win h' win' ev ∧ h' + win'.length < 2 ^ 64 := by
  cases op with
  | get id sid =>
    obtain ⟨w', ev, h', win', c, g1, g2, g3, g4, g5, g6⟩ := getChunk_rel hmax alloc r id sid hv
    refine ⟨w', ev, h', win', ?_, g2, g3, ?_⟩
    · show (w.getChunk alloc id sid).map _ = _
      rw [g1]; rfl
    · have hv' : id < 2 ^ 63 := hv
      by_cases hc : id < h
      · obtain ⟨rfl, rfl, -⟩ := g4 hc; exact ht
      · have := (g6 (by omega)).2.1
        omega
  | «until» t =>
    obtain ⟨w', ev, g1, g2, g3, g4, -⟩ := flushUntil_rel alloc r t
    refine ⟨w', ev, _, _, g1, g2, g3, ?_⟩
    have hv' : t < 2 ^ 64 := hv
    rw [List.length_drop]
    omega
  | all =>
    obtain ⟨w', ev, g1, g2, g3, g4⟩ := flushAll_rel alloc r (2 ^ 64 - 1) (by omega)
    exact ⟨w', ev, _, _, g1, g2, g3, by simp⟩

theorem winRun_rel {max : Nat} (hmax : 0 < max) (alloc : Nat → Bool) : ∀ (ops : List WinOp) {w : Window} {h : Nat} {win : List (Option Chunk)}, WRel max w h win →
    h + win.length < 2 ^ 64 → (∀ op ∈ ops, op.Valid) →
    ∃ w' ev h' win', Window.run alloc ops w = some (w', ev) ∧ WRel max w' h' win' ∧ WStep alloc h win h' win' ev ∧ h' + win'.length < 2 ^ 64
  | [], w, h, win, r, ht, _ => ⟨w, [], h, win, rfl, r, WStep.refl _ _ _, ht⟩
  | op :: ops, w, h, win, r, ht, hv => by
    obtain ⟨w1, e1, h1, win1, a1, a2, a3, a4⟩ := winStep_rel hmax alloc r ht op (hv op (by simp))
    obtain ⟨w2, e2, h2, win2, b1, b2, b3, b4⟩ := winRun_rel hmax alloc ops a2 a4 (fun o ho => hv o (by simp [ho]))
    refine ⟨w2, e1 ++ e2, h2, win2, ?_, b2, a3.trans b3, b4⟩
    unfold Window.run
    rw [a1]
    simp only
    rw [b1]

end Spead2
