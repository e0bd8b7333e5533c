import Verif.Spec.Bench

/-!
# The invariant of the sender of spead2_bench
-/

namespace Spead2.Bench

/-- The first error. -/
def first (l : List (Option Nat × Nat)) : Option Nat := l.findSome? (·.1)

theorem first_snoc (l : List (Option Nat × Nat)) (x : Option Nat × Nat) : first (l ++ [x]) = (first l).or x.1 := by
  simp only [first, List.findSome?_append]
  cases List.findSome? (·.1) l with
  | none => cases h : x.1 <;> simp [h]
  | some e => simp

theorem first_none {l : List (Option Nat × Nat)} : first l = none ↔ ∀ x ∈ l, x.1 = none := by
  simp only [first, List.findSome?_eq_none_iff]

theorem first_some {l : List (Option Nat × Nat)} {e : Nat} (h : first l = some e) : FirstError l e := by
  induction l with
  | nil => simp [first] at h
  | cons x l ih =>
    obtain ⟨ec, b⟩ := x
    cases ec with
    | some e' =>
      have : e' = e := by simpa [first] using h
      subst this
      exact ⟨[], b, l, rfl, by simp⟩
    | none =>
      obtain ⟨pre, b', post, h1, h2⟩ := ih (by simpa [first] using h)
      refine ⟨(none, b) :: pre, b', post, by rw [h1]; rfl, ?_⟩
      intro x hx
      rcases List.mem_cons.1 hx with hx | hx
      · rw [hx]
      · exact h2 x hx

theorem outcomes_snoc (evs : List SendEv) (e : SendEv) : outcomes (evs ++ [e]) = outcomes evs ++ outcomes [e] := by
  simp [outcomes]

def total (l : List (Option Nat × Nat)) : Nat := (l.map (·.2)).sum

/-- The heaps `k`, ..., `m - 1` are with the stream; `m` were passed to it. -/
structure Inv (c : SendCfg) (evs : List SendEv) (s : SendSt) (m : Nat) : Prop where
  started : s.started = true
  refused : s.refused = []
  sent : s.sent = List.range m
  queue : s.queue = List.range' (outcomes evs).length (m - (outcomes evs).length)
  le : (outcomes evs).length ≤ m
  m_le : m ≤ c.n
  puts : m - (outcomes evs).length + s.puts = c.w
  bytes : s.bytes = total (outcomes evs)
  error : s.error = first (outcomes evs)
  next : s.error = none → m = min c.n ((outcomes evs).length + c.w)

/-- Nothing has happened yet. -/
structure Fresh (evs : List SendEv) (s : SendSt) : Prop where
  state : s = {}
  evs : outcomes evs = []

theorem sendFirst_eq {c : SendCfg} (hcap : c.w ≤ c.cap) (j : Nat) (hj : j ≤ c.w) : (List.range j).foldl (SendSt.send c) { started := true } =
    { queue := List.range j, sent := List.range j, started := true } := by
  induction j with
  | zero => rfl
  | succ j ih =>
    rw [List.range_succ, List.foldl_append, ih (by omega)]
    simp only [List.foldl_cons, List.foldl_nil, SendSt.send, List.length_range]
    rw [if_pos (by omega)]

theorem Inv.start {c : SendCfg} (hcap : c.w ≤ c.cap) (hwn : c.w ≤ c.n) {evs : List SendEv} {s s' : SendSt} (hf : Fresh evs s) (h : s.step c .start = some s') :
    Inv c (evs ++ [.start]) s' c.w := by
  rw [hf.state] at h
  simp only [SendSt.step, SendSt.sendFirst, Bool.false_eq_true, if_false, Option.some.injEq] at h
  have h' := (sendFirst_eq hcap c.w (Nat.le_refl _)).symm.trans h
  have ho : outcomes (evs ++ [.start]) = [] := by rw [outcomes_snoc, hf.evs]; rfl
  rw [← h']
  refine ⟨rfl, rfl, rfl, ?_, ?_, hwn, ?_, ?_, ?_, ?_⟩
  · rw [ho]; simp [List.range_eq_range']
  · rw [ho]; simp
  · rw [ho]; simp
  · rw [ho]; rfl
  · rw [ho]; rfl
  · rw [ho]; intro _; simp; omega

theorem Inv.done {c : SendCfg} (hcap : c.w ≤ c.cap) {evs : List SendEv} {s s' : SendSt} {m : Nat} (hi : Inv c evs s m) {ec : Option Nat} {b : Nat}
    (h : s.step c (.done ec b) = some s') : ∃ m', Inv c (evs ++ [.done ec b]) s' m' := by
  have ho : outcomes (evs ++ [.done ec b]) = outcomes evs ++ [(ec, b)] := by rw [outcomes_snoc]; rfl
  have hlen : (outcomes (evs ++ [.done ec b])).length = (outcomes evs).length + 1 := by rw [ho]; simp
  have hlt : (outcomes evs).length < m := by
    rcases Nat.lt_or_ge (outcomes evs).length m with h1 | h1
    · exact h1
    · have : s.queue = [] := by rw [hi.queue, show m - (outcomes evs).length = 0 by omega]; rfl
      simp only [SendSt.step, this] at h
      cases h
  have hq : s.queue = (outcomes evs).length :: List.range' ((outcomes evs).length + 1) (m - ((outcomes evs).length + 1)) := by
    rw [hi.queue, show m - (outcomes evs).length = (m - ((outcomes evs).length + 1)) + 1 by omega, List.range'_succ]
  simp only [SendSt.step, hq, Option.some.injEq, SendSt.callback] at h
  have hbytes : s.bytes + b = total (outcomes (evs ++ [.done ec b])) := by rw [ho, hi.bytes]; simp [total]
  have herr : s.error.or ec = first (outcomes (evs ++ [.done ec b])) := by rw [ho, first_snoc, hi.error]
  have hputs := hi.puts
  have hmle := hi.m_le
  split at h
  · rename_i hc
    have hnone : s.error = none := by
      cases he : s.error with
      | none => rfl
      | some e => rw [he] at hc; simp at hc
    have hm := hi.next hnone
    have hmk : m = (outcomes evs).length + c.w := by omega
    refine ⟨m + 1, ?_⟩
    simp only [SendSt.send, List.length_range'] at h
    rw [if_pos (by omega)] at h
    subst h
    refine ⟨hi.started, hi.refused, ?_, ?_, ?_, ?_, ?_, hbytes, herr, ?_⟩
    · show s.sent ++ [(outcomes evs).length + c.w] = _
      rw [hi.sent, ← hmk, List.range_succ]
    · show List.range' ((outcomes evs).length + 1) (m - ((outcomes evs).length + 1)) ++ [(outcomes evs).length + c.w] = _
      rw [hlen, ← hmk, show m + 1 - ((outcomes evs).length + 1) = (m - ((outcomes evs).length + 1)) + 1 by omega, List.range'_concat]
      rw [show (outcomes evs).length + 1 + 1 * (m - ((outcomes evs).length + 1)) = m by omega]
    · rw [hlen]; omega
    · omega
    · rw [hlen]
      show m + 1 - ((outcomes evs).length + 1) + s.puts = c.w
      omega
    · intro _; rw [hlen]; omega
  · rename_i hc
    refine ⟨m, ?_⟩
    subst h
    refine ⟨hi.started, hi.refused, hi.sent, ?_, ?_, hmle, ?_, hbytes, herr, ?_⟩
    · show List.range' ((outcomes evs).length + 1) (m - ((outcomes evs).length + 1)) = _
      rw [hlen]
    · rw [hlen]; omega
    · rw [hlen]
      show m - ((outcomes evs).length + 1) + (s.puts + 1) = c.w
      omega
    · intro he
      change s.error.or ec = none at he
      have hnone : s.error = none := by
        cases he' : s.error with
        | none => rfl
        | some e => rw [he'] at he; simp at he
      have hm := hi.next hnone
      rw [hlen]
      have : ¬ (outcomes evs).length + c.w < c.n := fun h => hc ⟨he, h⟩
      omega

theorem run_inv {c : SendCfg} (hcap : c.w ≤ c.cap) (hwn : c.w ≤ c.n) (es : List SendEv) : ∀ {pre : List SendEv} {s s' : SendSt},
    (Fresh pre s ∨ ∃ m, Inv c pre s m) → SendSt.run c s es = some s' → Fresh (pre ++ es) s' ∨ ∃ m, Inv c (pre ++ es) s' m := by
  induction es with
  | nil =>
    intro pre s s' hi h
    simp only [SendSt.run, Option.some.injEq] at h
    subst h
    rw [List.append_nil]
    exact hi
  | cons e es ih =>
    intro pre s s' hi h
    simp only [SendSt.run] at h
    cases hs : s.step c e with
    | none => rw [hs] at h; cases h
    | some s1 =>
      rw [hs] at h
      have : Fresh (pre ++ [e]) s1 ∨ ∃ m, Inv c (pre ++ [e]) s1 m := by
        right
        rcases hi with hf | ⟨m, hi⟩
        · cases e with
          | start => exact ⟨c.w, Inv.start hcap hwn hf hs⟩
          | done ec b => rw [hf.state] at hs; cases hs
          | refuse => rw [hf.state] at hs; cases hs
        · cases e with
          | start => simp [SendSt.step, hi.started] at hs
          | done ec b => exact hi.done hcap hs
          | refuse => simp [SendSt.step, hi.refused] at hs
      have := ih this h
      rwa [List.append_assoc] at this

theorem reach_inv {n maxHeaps : Nat} {evs : List SendEv} {s : SendSt} (h : Reach n maxHeaps evs s) :
    Fresh evs s ∨ ∃ m, Inv (SendCfg.make n maxHeaps) evs s m := by
  have := run_inv (c := SendCfg.make n maxHeaps) (Nat.min_le_left _ _) (Nat.min_le_right _ _) evs (pre := []) (Or.inl ⟨rfl, rfl⟩) h
  rwa [List.nil_append] at this

end Spead2.Bench
