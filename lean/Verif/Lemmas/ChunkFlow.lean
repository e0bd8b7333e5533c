import Verif.Lemmas.ChunkWindow

/-!
# The chunks in the window at every point of an operation

`WStep.flow` relates chunks before and after a whole operation; the lemmas here do it for every single callback.
-/

namespace Spead2
open Spec

/-- The chunks held after a callback, when `l` were held before, oldest first. `none` if the callback must not be made: only the
oldest chunk is handed over, and no chunk is requested when `max` are held. -/
def flowStep (max : Nat) (alloc : Nat → Bool) (l : List Chunk) : WinEv → Option (List Chunk)
  | .ready c =>
    match l with
    | [] => none
    | d :: l => if c = d then some l else none
  | .head _ => some l
  | .alloc n s => if l.length < max then some (l ++ if alloc n then [⟨n, n, s⟩] else []) else none

/-- The chunks held after a sequence of callbacks. -/
def flowRun (max : Nat) (alloc : Nat → Bool) : List Chunk → List WinEv → Option (List Chunk)
  | l, [] => some l
  | l, e :: es =>
    match flowStep max alloc l e with
    | none => none
    | some l => flowRun max alloc l es

theorem flowRun_append (max : Nat) (alloc : Nat → Bool) : ∀ (a b : List WinEv) (l : List Chunk),
    flowRun max alloc l (a ++ b) = (flowRun max alloc l a).bind (fun l => flowRun max alloc l b)
  | [], b, l => rfl
  | e :: a, b, l => by
    simp only [List.cons_append, flowRun]
    cases flowStep max alloc l e with
    | none => rfl
    | some l => exact flowRun_append max alloc a b l

theorem flowRun_prefix {max : Nat} {alloc : Nat → Bool} {l r : List Chunk} {a b : List WinEv} (h : flowRun max alloc l (a ++ b) = some r) :
    ∃ m, flowRun max alloc l a = some m ∧ flowRun max alloc m b = some r := by
  rw [flowRun_append] at h
  cases hm : flowRun max alloc l a with
  | none => rw [hm] at h; cases h
  | some m => rw [hm] at h; exact ⟨m, rfl, h⟩

theorem flowRun_trans {max : Nat} {alloc : Nat → Bool} {l m r : List Chunk} {a b : List WinEv} (h : flowRun max alloc l a = some m)
    (h' : flowRun max alloc m b = some r) : flowRun max alloc l (a ++ b) = some r := by
  rw [flowRun_append, h]; exact h'

/-- Nothing is lost or invented. -/
theorem flowRun_flow {max : Nat} {alloc : Nat → Bool} : ∀ {ev : List WinEv} {l r : List Chunk}, flowRun max alloc l ev = some r →
    l ++ supplied alloc ev = readied ev ++ r
  | [], l, r, h => by cases h; simp [supplied, readied]
  | e :: ev, l, r, h => by
    simp only [flowRun] at h
    cases hs : flowStep max alloc l e with
    | none => rw [hs] at h; cases h
    | some m =>
      rw [hs] at h
      have ih := flowRun_flow h
      have h1 : supplied alloc (e :: ev) = supplied alloc [e] ++ supplied alloc ev := supplied_append alloc [e] ev
      have h2 : readied (e :: ev) = readied [e] ++ readied ev := readied_append [e] ev
      rw [h1, h2, List.append_assoc, ← ih, ← List.append_assoc, ← List.append_assoc]
      congr 1
      cases e with
      | ready c =>
        cases l with
        | nil => cases hs
        | cons d l =>
          simp only [flowStep] at hs
          split at hs
          · next he => cases hs; subst he; simp [supplied, readied]
          · cases hs
      | head n => cases hs; simp [supplied, readied]
      | alloc n s =>
        simp only [flowStep] at hs
        split at hs
        · cases hs
          cases ha : alloc n <;> simp [supplied, readied, ha]
        · cases hs

/-- No more than `max` chunks are held. -/
theorem flowRun_len {max : Nat} {alloc : Nat → Bool} : ∀ {ev : List WinEv} {l r : List Chunk}, flowRun max alloc l ev = some r →
    l.length ≤ max → r.length ≤ max
  | [], l, r, h, hl => by cases h; exact hl
  | e :: ev, l, r, h, hl => by
    simp only [flowRun] at h
    cases hs : flowStep max alloc l e with
    | none => rw [hs] at h; cases h
    | some m =>
      rw [hs] at h
      refine flowRun_len h ?_
      cases e with
      | ready c =>
        cases l with
        | nil => cases hs
        | cons d l =>
          simp only [flowStep] at hs
          split at hs
          · cases hs; simp at hl; omega
          · cases hs
      | head n => cases hs; exact hl
      | alloc n s =>
        simp only [flowStep] at hs
        split at hs
        · cases hs
          cases ha : alloc n <;> simp <;> omega
        · cases hs

/-- Callbacks that do not request chunks hand over the oldest ones. -/
theorem flowRun_quiet (max : Nat) (alloc : Nat → Bool) : ∀ (ev : List WinEv) (r : List Chunk), requested ev = [] →
    flowRun max alloc (readied ev ++ r) ev = some r
  | [], r, _ => rfl
  | e :: ev, r, h => by
    have h1 : requested (e :: ev) = requested [e] ++ requested ev := requested_append [e] ev
    have h2 : readied (e :: ev) = readied [e] ++ readied ev := readied_append [e] ev
    rw [h1] at h
    obtain ⟨ha, hb⟩ := List.append_eq_nil_iff.1 h
    rw [h2]
    cases e with
    | ready c =>
      have : readied [WinEv.ready c] = [c] := rfl
      rw [this]
      simp only [List.cons_append, List.nil_append, flowRun, flowStep, if_pos]
      exact flowRun_quiet max alloc ev r hb
    | head n =>
      have : readied [WinEv.head n] = [] := rfl
      rw [this]
      exact flowRun_quiet max alloc ev r hb
    | alloc n s => cases ha

theorem WStep.quiet {alloc : Nat → Bool} {h h' : Nat} {win win' : List (Option Chunk)} {ev : List WinEv} (max : Nat) (st : WStep alloc h win h' win' ev)
    (hq : requested ev = []) : flowRun max alloc (win.filterMap id) ev = some (win'.filterMap id) := by
  have hf := st.flow
  have hs : supplied alloc ev = [] := by
    have := supplied_allocFor alloc ev
    rw [hq] at this
    exact List.map_eq_nil_iff.1 this
  rw [hs, List.append_nil] at hf
  rw [← hf]
  exact flowRun_quiet max alloc ev _ hq

theorem push_flow {max : Nat} {w : Window} {h : Nat} {win : List (Option Chunk)} (alloc : Nat → Bool) (sid : Nat) (r : WRel max w h win)
    (hl : win.length < max) :
    ∃ w' ev win', w.push alloc sid = some (w', ev) ∧ WRel max w' h win' ∧ win'.length = win.length + 1 ∧
      flowRun max alloc (win.filterMap id) ev = some (win'.filterMap id) := by
  obtain ⟨w', ev, h1, h2, h3, h4⟩ := push_rel alloc sid r hl
  refine ⟨w', ev, _, h1, h2, by simp, ?_⟩
  unfold Window.push at h1
  split at h1
  · cases h1
    simp only [flowRun, flowStep]
    have : (win.filterMap id).length ≤ win.length := List.length_filterMap_le _ _
    rw [if_pos (by omega), r.tail, List.filterMap_append]
    cases alloc (h + win.length) <;> rfl
  · cases h1

theorem extend_flow {max : Nat} {w : Window} {h : Nat} {win : List (Option Chunk)} (hmax : 0 < max) (alloc : Nat → Bool) (sid : Nat) (r : WRel max w h win) :
    ∃ w' ev h' win', w.extend alloc sid = some (w', ev) ∧ WRel max w' h' win' ∧ h' + win'.length = h + win.length + 1 ∧
      h' = Max.max h (h + win.length + 1 - max) ∧ flowRun max alloc (win.filterMap id) ev = some (win'.filterMap id) := by
  unfold Window.extend
  by_cases hfull : win.length = max
  · rw [if_pos (by rw [r.tail, r.head, r.len]; omega)]
    cases win with
    | nil => simp at hfull; omega
    | cons c win =>
      obtain ⟨w1, ev1, h1, h2, h3, hr1⟩ := flushHead2_rel alloc r
      simp only [List.length_cons] at hfull
      obtain ⟨w2, ev2, win2, h4, h5, h6, h7⟩ := push_flow alloc sid h2 (by omega)
      rw [h1]
      simp only
      rw [h4]
      refine ⟨_, _, _, _, rfl, h5, ?_, ?_, flowRun_trans (h3.quiet max hr1) h7⟩
      · simp only [List.length_cons]; omega
      · simp only [List.length_cons]; omega
  · rw [if_neg (by rw [r.tail, r.head, r.len]; omega)]
    have := r.fits
    obtain ⟨w2, ev2, win2, h4, h5, h6, h7⟩ := push_flow alloc sid r (by omega)
    exact ⟨_, _, _, _, h4, h5, by omega, by omega, h7⟩

theorem extendLoop_flow {max : Nat} (hmax : 0 < max) (alloc : Nat → Bool) (sid cid : Nat) : ∀ (fuel : Nat) {w w' : Window} {h : Nat} {win : List (Option Chunk)} {ev : List WinEv},
    WRel max w h win → Window.extendLoop alloc sid cid fuel w = some (w', ev) →
    ∃ h' win', WRel max w' h' win' ∧ flowRun max alloc (win.filterMap id) ev = some (win'.filterMap id)
  | 0, w, w', h, win, ev, r, he => by cases he
  | fuel + 1, w, w', h, win, ev, r, he => by
    rw [Window.extendLoop] at he
    split at he
    · obtain ⟨w1, ev1, h1, win1, a1, a2, -, -, a5⟩ := extend_flow hmax alloc sid r
      rw [a1] at he
      simp only at he
      cases hl : Window.extendLoop alloc sid cid fuel w1 with
      | none => rw [hl] at he; cases he
      | some q =>
        rw [hl] at he
        cases he
        obtain ⟨h2, win2, b1, b2⟩ := extendLoop_flow hmax alloc sid cid fuel a2 hl
        exact ⟨h2, win2, b1, flowRun_trans a5 b2⟩
    · cases he
      exact ⟨h, win, r, rfl⟩

theorem getChunk_flow {max : Nat} (hmax : 0 < max) (alloc : Nat → Bool) {w w' : Window} {h : Nat} {win : List (Option Chunk)} {c : Option Chunk} {ev : List WinEv}
    {cid sid : Nat} (r : WRel max w h win) (he : w.getChunk alloc cid sid = some (w', c, ev)) :
    flowRun max alloc (inWindow w) ev = some (inWindow w') := by
  rw [inWindow_rel r]
  unfold Window.getChunk at he
  split at he
  · split at he
    · next hge =>
      rw [r.head] at hge
      obtain ⟨w1, ev1, h1, win1, j1, j2, j3, j4, -⟩ := jump_rel hmax alloc r cid hge
      rw [j1] at he
      simp only at he
      cases hl : Window.extendLoop alloc sid cid (w1.chunks.length + 1) w1 with
      | none => rw [hl] at he; cases he
      | some q =>
        rw [hl] at he
        simp only at he
        obtain ⟨h2, win2, b1, b2⟩ := extendLoop_flow hmax alloc sid cid _ j2 hl
        split at he
        · cases he
        · cases he
          rw [inWindow_rel b1]
          exact flowRun_trans (j3.quiet max j4) b2
    · cases he
      rw [inWindow_rel r]; rfl
  · cases he

theorem winStep_flow {max : Nat} (hmax : 0 < max) (alloc : Nat → Bool) {w w' : Window} {h : Nat} {win : List (Option Chunk)} (r : WRel max w h win)
    (ht : h + win.length < 2 ^ 64) {op : WinOp} {ev : List WinEv} (he : w.step alloc op = some (w', ev)) :
    flowRun max alloc (inWindow w) ev = some (inWindow w') := by
  cases op with
  | get cid sid =>
    simp only [Window.step, Option.map_eq_some_iff] at he
    obtain ⟨q, hq, he⟩ := he
    cases he
    exact getChunk_flow hmax alloc r hq
  | «until» t =>
    obtain ⟨w1, ev1, a1, a2, a3, a4, -⟩ := flushUntil_rel alloc r t
    simp only [Window.step] at he
    rw [a1] at he
    cases he
    rw [inWindow_rel r, inWindow_rel a2]
    exact a3.quiet max a4
  | all =>
    obtain ⟨w1, ev1, a1, a2, a3, a4⟩ := flushAll_rel alloc r (2 ^ 64 - 1) (by omega)
    simp only [Window.step] at he
    rw [a1] at he
    cases he
    rw [inWindow_rel r, inWindow_rel a2]
    exact a3.quiet max a4

theorem winRun_flow {max : Nat} (hmax : 0 < max) (alloc : Nat → Bool) : ∀ (ops : List WinOp) {w w' : Window} {h : Nat} {win : List (Option Chunk)} {ev : List WinEv},
    WRel max w h win → h + win.length < 2 ^ 64 → (∀ op ∈ ops, op.Valid) → Window.run alloc ops w = some (w', ev) →
    flowRun max alloc (inWindow w) ev = some (inWindow w')
  | [], w, w', h, win, ev, r, ht, _, he => by cases he; rfl
  | op :: ops, w, w', h, win, ev, r, ht, hv, he => by
    obtain ⟨w1, e1, h1, win1, a1, a2, a3, a4⟩ := winStep_rel hmax alloc r ht op (hv op (by simp))
    have f1 := winStep_flow hmax alloc r ht a1
    unfold Window.run at he
    rw [a1] at he
    simp only at he
    cases hr : Window.run alloc ops w1 with
    | none => rw [hr] at he; cases he
    | some q =>
      rw [hr] at he
      cases he
      exact flowRun_trans f1 (winRun_flow hmax alloc ops a2 a4 (fun o ho => hv o (by simp [ho])) hr)

/-- At every point: chunks are handed over in the order in which they were supplied, after they were supplied, and no more than
`max` are held; and when a chunk is requested there is room for it. -/
theorem flowRun_every {max : Nat} {alloc : Nat → Bool} {r : List Chunk} {a b : List WinEv} (h : flowRun max alloc [] (a ++ b) = some r) :
    readied a <+: supplied alloc a ∧ (supplied alloc a).length ≤ (readied a).length + max ∧
      ∀ n s b', b = .alloc n s :: b' → (supplied alloc a).length < (readied a).length + max := by
  obtain ⟨m, h1, h2⟩ := flowRun_prefix h
  have hf := flowRun_flow h1
  rw [List.nil_append] at hf
  have hl := flowRun_len h1 (by simp)
  refine ⟨⟨m, hf.symm⟩, by rw [hf, List.length_append]; omega, ?_⟩
  rintro n s b' rfl
  simp only [flowRun, flowStep] at h2
  split at h2
  · cases h2
  · next hs =>
    split at hs
    · rw [hf, List.length_append]; omega
    · cases hs

end Spead2
