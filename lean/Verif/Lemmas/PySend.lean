import Verif.Spec.PySend

/-!
# Invariants of synchronous sends
-/

namespace Spead2.PySend

/-- What the stages of callback and call mean for the state that they share. -/
structure CallOk (x : Call) : Prop where
  owners : x.owners = (if x.phase = .waiting then 1 else 0) + (match x.handler with | .gone _ => 0 | _ => 1)
  data : match x.handler with
    | .queued => x.sem = 0 ∧ ∀ r, x.phase ≠ .returned r
    | .wroteEc r => x.ec = r.ec ∧ x.sem = 0 ∧ ∀ r, x.phase ≠ .returned r
    | .wroteBytes r => x.ec = r.ec ∧ x.bytes = r.bytes ∧ x.sem = 0 ∧ ∀ r, x.phase ≠ .returned r
    | .posted r | .gone r => x.ec = r.ec ∧ x.bytes = r.bytes ∧ (∀ q, x.phase = .returned q → q = r) ∧ (x.phase = .waiting → x.sem = 1)

/-- References that the arguments of a call are. -/
def hold (h : Nat) (x : Call) : Nat := if x.phase = .waiting then x.heaps.count h else 0

def held (cs : List Call) (h : Nat) : Nat := (cs.map (hold h)).sum

theorem held_set {cs : List Call} {c : Nat} {x : Call} (hx : cs[c]? = some x) (y : Call) (h : Nat) : held (cs.set c y) h + hold h x = held cs h + hold h y := by
  induction cs generalizing c with
  | nil => simp at hx
  | cons a cs ih =>
    cases c with
    | zero =>
      simp only [List.getElem?_cons_zero, Option.some.injEq] at hx
      subst hx
      simp only [held, List.set_cons_zero, List.map_cons, List.sum_cons]
      omega
    | succ c =>
      have := ih (c := c) (by simpa using hx)
      simp only [held, List.set_cons_succ, List.map_cons, List.sum_cons] at this ⊢
      omega

theorem held_append (cs : List Call) (y : Call) (h : Nat) : held (cs ++ [y]) h = held cs h + hold h y := by
  simp [held]

theorem hold_le {cs : List Call} {c : Nat} {x : Call} (hx : cs[c]? = some x) (h : Nat) : hold h x ≤ held cs h := by
  have := held_set hx { x with phase := .interrupted } h
  have e : hold h { x with phase := .interrupted } = 0 := rfl
  omega

/-- What the callback has been given. -/
def Handler.given : Handler → List Outcome
  | .queued => []
  | .wroteEc r | .wroteBytes r | .posted r | .gone r => [r]

structure Inv (evs : List Ev) (s : St) : Prop where
  call : ∀ (c : Nat) (x : Call), s.calls[c]? = some x → CallOk x
  refs : ∀ h, s.refs h = s.mine h + held s.calls h
  given : ∀ c, callbacks evs c = match s.calls[c]? with | none => [] | some x => x.handler.given

theorem Inv.init : Inv [] {} := ⟨by simp, by intro h; rfl, by intro c; rfl⟩

theorem callbacks_append (evs : List Ev) (e : Ev) (c : Nat) : callbacks (evs ++ [e]) c = callbacks evs c ++ callbacks [e] c := by
  simp [callbacks]

theorem callbacks_other {e : Ev} (h : ∀ c r, e ≠ .callback c r) (c : Nat) : callbacks [e] c = [] := by
  cases e <;> simp [callbacks] at h ⊢

theorem getElem?_lt {cs : List Call} {c : Nat} {x : Call} (h : cs[c]? = some x) : c < cs.length := by
  rw [List.getElem?_eq_some_iff] at h
  exact h.1

/-- A change of one call. -/
theorem Inv.setCall {evs : List Ev} {s : St} (hi : Inv evs s) {c : Nat} {x y : Call} (hx : s.calls[c]? = some x) (hy : CallOk y) {e : Ev} {refs : Nat → Nat}
    (hr : ∀ h, refs h + hold h x = s.refs h + hold h y) (hg : y.handler.given = x.handler.given ++ callbacks [e] c) (ho : ∀ c', c' ≠ c → callbacks [e] c' = []) :
    Inv (evs ++ [e]) { s.setCall c y with refs := refs } := by
  have hlt := getElem?_lt hx
  refine ⟨?_, ?_, ?_⟩
  · intro c' z hz
    change (s.calls.set c y)[c']? = some z at hz
    rw [List.getElem?_set] at hz
    split at hz
    · cases hz
      exact hy
    · exact hi.call c' z hz
  · intro h
    show refs h = s.mine h + held (s.calls.set c y) h
    have h1 := held_set hx y h
    have h2 := hi.refs h
    have h3 := hr h
    have h4 := hold_le hx h
    omega
  · intro c'
    show callbacks (evs ++ [e]) c' = match (s.calls.set c y)[c']? with | none => [] | some x => x.handler.given
    rw [callbacks_append, hi.given c', List.getElem?_set]
    by_cases he : c = c'
    · subst he
      rw [if_pos rfl, if_pos hlt, hx]
      exact hg.symm
    · rw [if_neg he, ho c' (Ne.symm he), List.append_nil]

/-- Leaving a call. -/
theorem Inv.leave {evs : List Ev} {s : St} (hi : Inv evs s) {c : Nat} {x : Call} (hx : s.calls[c]? = some x) (hw : x.phase = .waiting) {e : Ev} (he : ∀ c r, e ≠ .callback c r)
    {p : Phase} {y : Call} (hp : p ≠ .waiting) (hy : CallOk { y with phase := p, owners := y.owners - 1 }) (h1 : y.handler = x.handler) (h2 : y.heaps = x.heaps) : Inv (evs ++ [e]) (s.leave c y p) := by
  refine hi.setCall hx hy (refs := dropRefs s.refs y.heaps) ?_ ?_ ?_
  · intro h
    have h3 := hold_le hx h
    have h4 := hi.refs h
    have h5 : hold h x = x.heaps.count h := by simp only [hold, hw, if_true]
    have h6 : hold h { y with phase := p, owners := y.owners - 1 } = 0 := by simp only [hold, hp, if_false]
    rw [h6, dropRefs, h2]
    omega
  · rw [callbacks_other he, List.append_nil]
    exact congrArg Handler.given h1
  · intro c' _
    exact callbacks_other he c'

theorem Inv.same {evs : List Ev} {s : St} (hi : Inv evs s) {e : Ev} (he : ∀ c r, e ≠ .callback c r) : Inv (evs ++ [e]) s :=
  ⟨hi.call, hi.refs, by intro c; rw [callbacks_append, callbacks_other he, List.append_nil]; exact hi.given c⟩

theorem count_single (h k : Nat) : [h].count k = if h = k then 1 else 0 := by
  by_cases e : h = k
  · subst e; simp
  · simp [List.count_cons, e]

theorem step_inv {evs : List Ev} {s s' : St} (hi : Inv evs s) {e : Ev} (h : step s e = .ok s') : Inv (evs ++ [e]) s' := by
  cases e with
  | new =>
    simp only [step, Res.ok.injEq] at h
    subst h
    refine ⟨hi.call, ?_, (hi.same (e := .new) (by simp)).given⟩
    intro k
    show addRefs s.refs [s.heaps] k = addRefs s.mine [s.heaps] k + held s.calls k
    have := hi.refs k
    simp only [addRefs]
    omega
  | keep k =>
    simp only [step] at h
    split at h
    · cases h
    · simp only [Res.ok.injEq] at h
      subst h
      refine ⟨hi.call, ?_, (hi.same (e := .keep k) (by simp)).given⟩
      intro j
      show addRefs s.refs [k] j = addRefs s.mine [k] j + held s.calls j
      have := hi.refs j
      simp only [addRefs]
      omega
  | drop k =>
    simp only [step] at h
    split at h
    · cases h
    · rename_i hk
      simp only [Res.ok.injEq] at h
      subst h
      refine ⟨hi.call, ?_, (hi.same (e := .drop k) (by simp)).given⟩
      intro j
      show dropRefs s.refs [k] j = dropRefs s.mine [k] j + held s.calls j
      have := hi.refs j
      simp only [dropRefs, count_single]
      split
      · subst_vars; omega
      · omega
  | send hs a =>
    simp only [step] at h
    split at h
    · simp only [Res.ok.injEq] at h
      subst h
      have hg : ∀ c, callbacks (evs ++ [.send hs a]) c = callbacks evs c := by
        intro c; rw [callbacks_append, callbacks_other (by simp), List.append_nil]
      refine ⟨?_, ?_, ?_⟩
      · intro c x hx
        change (s.calls ++ [{ heaps := hs, accepted := a }])[c]? = some x at hx
        rw [List.getElem?_append] at hx
        split at hx
        · exact hi.call c x hx
        · rw [List.getElem?_singleton] at hx
          split at hx
          · cases hx; exact ⟨rfl, rfl, by simp⟩
          · cases hx
      · intro h
        show addRefs s.refs hs h = s.mine h + held (s.calls ++ [{ heaps := hs, accepted := a }]) h
        rw [held_append]
        have := hi.refs h
        have e : hold h { heaps := hs, accepted := a } = hs.count h := rfl
        simp only [addRefs]
        omega
      · intro c
        show callbacks (evs ++ [.send hs a]) c = match (s.calls ++ [{ heaps := hs, accepted := a }])[c]? with | none => [] | some x => x.handler.given
        rw [hg, hi.given c, List.getElem?_append]
        split
        · rename_i hn
          have : s.calls.length ≤ c := by simpa using hn
          rw [if_neg (by omega), List.getElem?_singleton]
          by_cases h0 : c - s.calls.length = 0
          · rw [if_pos h0]; rfl
          · rw [if_neg h0]
        · rename_i x hx
          rw [if_pos (getElem?_lt hx), hx]
    · cases h
  | read c =>
    simp only [step] at h
    split at h
    · cases h
    · split at h
      · split at h
        · simp only [Res.ok.injEq] at h
          subst h
          exact hi.same (by simp)
        · cases h
      · cases h
  | callback c r =>
    simp only [step] at h
    split at h
    · cases h
    · rename_i x hx
      split at h
      · rename_i hq
        split at h
        · cases h
        · simp only [Res.ok.injEq] at h
          subst h
          have hc := hi.call c x hx
          have ho := hc.owners
          have hd := hc.data
          rw [hq] at ho hd
          refine hi.setCall hx (y := { x with ec := r.ec, handler := .wroteEc r }) ⟨ho, rfl, hd.1, hd.2⟩ (refs := s.refs) ?_ ?_ ?_
          · intro h; rfl
          · show [r] = x.handler.given ++ _
            rw [hq]
            simp [callbacks, Handler.given]
          · intro c' hc'
            simp [callbacks, Ne.symm hc']
      · cases h
  | next c =>
    simp only [step] at h
    split at h
    · cases h
    · rename_i x hx
      have hc := hi.call c x hx
      have ho := hc.owners
      have hd := hc.data
      unfold callbackStep at h
      split at h
      · rename_i r hq
        rw [hq] at ho hd
        split at h
        · cases h
        · simp only [Res.ok.injEq] at h
          subst h
          refine hi.setCall hx (y := { x with bytes := r.bytes, handler := .wroteBytes r }) ⟨ho, hd.1, rfl, hd.2.1, hd.2.2⟩ (refs := s.refs) ?_ ?_ ?_
          · intro h; rfl
          · rw [hq]; rfl
          · intro c' _; rfl
      · rename_i r hq
        rw [hq] at ho hd
        split at h
        · cases h
        · simp only [Res.ok.injEq] at h
          subst h
          refine hi.setCall hx (y := { x with sem := x.sem + 1, handler := .posted r }) ⟨ho, hd.1, hd.2.1, ?_, ?_⟩ (refs := s.refs) ?_ ?_ ?_
          · intro q hq'; exact absurd hq' (hd.2.2.2 q)
          · intro _; show x.sem + 1 = 1; rw [hd.2.2.1]
          · intro h; rfl
          · rw [hq]; rfl
          · intro c' _; rfl
      · rename_i r hq
        rw [hq] at ho hd
        simp only [Res.ok.injEq] at h
        subst h
        refine hi.setCall hx (y := { x with owners := x.owners - 1, handler := .gone r }) ⟨?_, hd⟩ (refs := s.refs) ?_ ?_ ?_
        · show x.owners - 1 = (if x.phase = .waiting then 1 else 0) + 0
          rw [ho]
          simp
        · intro h; rfl
        · rw [hq]; rfl
        · intro c' _; rfl
      · cases h
  | wake c =>
    simp only [step] at h
    split at h
    · cases h
    · rename_i x hx
      split at h
      · rename_i hw
        split at h
        · cases h
        · split at h
          · cases h
          · rename_i hs
            simp only [Res.ok.injEq] at h
            subst h
            have hc := hi.call c x hx
            have ho := hc.owners
            have hd := hc.data
            refine hi.leave hx hw (y := { x with sem := x.sem - 1 }) (by simp) (by simp) ?_ rfl rfl
            cases hq : x.handler with
            | queued => rw [hq] at hd; exact absurd hd.1 hs
            | wroteEc r => rw [hq] at hd; exact absurd hd.2.1 hs
            | wroteBytes r => rw [hq] at hd; exact absurd hd.2.2.1 hs
            | posted r =>
              rw [hq, hw] at ho
              rw [hq] at hd
              refine ⟨?_, ?_⟩
              · show x.owners - 1 = _
                rw [ho]; rfl
              · refine ⟨hd.1, hd.2.1, ?_, by simp⟩
                intro q hq'
                cases hq'
                obtain ⟨a, b⟩ := r
                have h1 := hd.1; have h2 := hd.2.1
                simp only at h1 h2
                simp only [h1, h2]
            | gone r =>
              rw [hq, hw] at ho
              rw [hq] at hd
              refine ⟨?_, ?_⟩
              · show x.owners - 1 = _
                rw [ho]; rfl
              · refine ⟨hd.1, hd.2.1, ?_, by simp⟩
                intro q hq'
                cases hq'
                obtain ⟨a, b⟩ := r
                have h1 := hd.1; have h2 := hd.2.1
                simp only at h1 h2
                simp only [h1, h2]
      · cases h
  | signal c raises =>
    simp only [step] at h
    split at h
    · cases h
    · rename_i x hx
      split at h
      · rename_i hw
        split at h
        · simp only [Res.ok.injEq] at h
          subst h
          have hc := hi.call c x hx
          have ho := hc.owners
          have hd := hc.data
          refine hi.leave hx hw (by simp) (by simp) ⟨?_, ?_⟩ rfl rfl
          · show x.owners - 1 = 0 + match x.handler with | .gone _ => 0 | _ => 1
            rw [ho, hw]
            simp only [if_true]
            omega
          · show match x.handler with
              | .queued => x.sem = 0 ∧ ∀ r, Phase.interrupted ≠ .returned r
              | .wroteEc r => x.ec = r.ec ∧ x.sem = 0 ∧ ∀ r, Phase.interrupted ≠ .returned r
              | .wroteBytes r => x.ec = r.ec ∧ x.bytes = r.bytes ∧ x.sem = 0 ∧ ∀ r, Phase.interrupted ≠ .returned r
              | .posted r | .gone r => x.ec = r.ec ∧ x.bytes = r.bytes ∧ (∀ q, Phase.interrupted = .returned q → q = r) ∧ (Phase.interrupted = .waiting → x.sem = 1)
            cases hq : x.handler <;> rw [hq] at hd <;> simp_all
        · simp only [Res.ok.injEq] at h
          subst h
          exact hi.same (by simp)
      · cases h

theorem run_append (s : St) (a b : List Ev) : run s (a ++ b) = match run s a with | .ok s' => run s' b | r => r := by
  induction a generalizing s with
  | nil => rfl
  | cons e a ih =>
    simp only [List.cons_append, run]
    cases step s e with
    | ok s' => exact ih s'
    | disabled => rfl
    | undefined => rfl

theorem reach_snoc {evs : List Ev} {e : Ev} {s' : St} (h : Reach (evs ++ [e]) s') : ∃ s, Reach evs s ∧ step s e = .ok s' := by
  unfold Reach at h ⊢
  rw [run_append] at h
  cases hr : run {} evs with
  | ok s =>
    rw [hr] at h
    simp only [run] at h
    cases hs : step s e with
    | ok s2 => rw [hs] at h; simp only [Res.ok.injEq] at h; exact ⟨s, rfl, h ▸ hs⟩
    | disabled => rw [hs] at h; cases h
    | undefined => rw [hs] at h; cases h
  | disabled => rw [hr] at h; cases h
  | undefined => rw [hr] at h; cases h

theorem run_inv (evs : List Ev) : ∀ {pre : List Ev} {s s' : St}, Inv pre s → run s evs = .ok s' → Inv (pre ++ evs) s' := by
  induction evs with
  | nil =>
    intro pre s s' hi h
    simp only [run, Res.ok.injEq] at h
    subst h
    rw [List.append_nil]
    exact hi
  | cons e evs ih =>
    intro pre s s' hi h
    simp only [run] at h
    cases hs : step s e with
    | ok s1 =>
      rw [hs] at h
      have := ih (step_inv hi hs) h
      rwa [List.append_assoc] at this
    | disabled => rw [hs] at h; cases h
    | undefined => rw [hs] at h; cases h

theorem reach_inv {evs : List Ev} {s : St} (h : Reach evs s) : Inv evs s := by
  have := run_inv evs Inv.init h
  rwa [List.nil_append] at this

end Spead2.PySend
