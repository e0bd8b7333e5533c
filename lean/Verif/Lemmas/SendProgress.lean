import Verif.Lemmas.SendCommit

/-!
# What the invariant of the send queue says about histories
-/

namespace Spead2
open Spec

variable {H π : Type}

/-! ## Packets -/

theorem got_all {g : SGroup π} (h : g.got = g.P.length) : gotOf g = markLast g.acc.packets := by
  unfold gotOf
  rw [h]
  exact List.take_of_length_le (by rw [markLast_length]; exact Nat.le_refl _)

theorem got_prefix : ∀ (gl : List (SGroup π)) (n : Nat), (∀ (k : Nat) (g : SGroup π), gl[k]? = some g → k < n → g.got = g.P.length) → (∀ (k : Nat) (g : SGroup π), gl[k]? = some g → n < k → g.got = 0) →
    gl.flatMap gotOf <+: (gl.map SGroup.acc).flatMap (fun a => markLast a.packets)
  | [], _, _, _ => List.prefix_refl _
  | g :: gl, 0, _, h2 => by
    have : gl.flatMap gotOf = [] := by
      rw [List.flatMap_eq_nil_iff]
      intro x hx
      obtain ⟨k, hk⟩ := List.mem_iff_getElem?.mp hx
      unfold gotOf
      rw [h2 (k + 1) x hk (by omega)]
      rfl
    rw [List.flatMap_cons, this, List.append_nil, List.map_cons, List.flatMap_cons]
    exact (List.take_prefix _ _).trans (List.prefix_append _ _)
  | g :: gl, n + 1, h1, h2 => by
    rw [List.flatMap_cons, List.map_cons, List.flatMap_cons, got_all (h1 0 g rfl (by omega))]
    exact (List.prefix_append_right_inj _).mpr (got_prefix gl n (fun k x hk hn => h1 (k + 1) x hk (by omega)) (fun k x hk hn => h2 (k + 1) x hk (by omega)))

theorem fetched_prefix {env : SqEnv H π} {s : Sq H π} {tr : List (SqEv π)} {old gl : List (SGroup π)} {n : Nat} (inv : SqInv env s tr old gl n) :
    fetched tr <+: (accepted tr).flatMap (fun a => markLast a.packets) := by
  rw [inv.fet, inv.acc, List.flatMap_append, List.map_append, List.flatMap_append]
  have : old.flatMap gotOf = (old.map SGroup.acc).flatMap (fun a => markLast a.packets) := by
    rw [List.flatMap_map]
    have h := inv.oldk
    clear inv
    induction old with
    | nil => rfl
    | cons g old ih =>
      rw [List.flatMap_cons, List.flatMap_cons, got_all (h g List.mem_cons_self).1, ih (fun x hx => h x (List.mem_cons_of_mem _ hx))]
  rw [this]
  exact (List.prefix_append_right_inj _).mpr (got_prefix gl n inv.before (fun k g hk hn => (inv.after k g hk hn).1))

/-! ## Handlers -/

theorem due_append (bytes : π → Nat) : ∀ (old : List (SGroup π)), (∀ g ∈ old, g.results.length = g.P.length) → ∀ (A : List (Accepted π)) (R : List (Option Nat)),
    due bytes (old.map SGroup.acc ++ A) (old.flatMap SGroup.results ++ R) = old.map (fun g : SGroup π => completion bytes g.acc g.results) ++ due bytes A R
  | [], _, A, R => rfl
  | g :: old, h, A, R => by
    have hg : g.results.length = g.acc.packets.length := h g List.mem_cons_self
    rw [List.map_cons, List.cons_append, List.flatMap_cons, List.append_assoc, due]
    rw [if_pos (by rw [List.length_append]; omega), ← hg, List.take_left' rfl, List.drop_left' rfl, due_append bytes old (fun x hx => h x (List.mem_cons_of_mem _ hx)) A R]
    rfl

theorem due_split {env : SqEnv H π} {s : Sq H π} {tr : List (SqEv π)} {old gl : List (SGroup π)} {n : Nat} (inv : SqInv env s tr old gl n) :
    due env.bytes (accepted tr) (outcomes tr) = (completed tr ++ s.calling) ++ due env.bytes (gl.map SGroup.acc) (gl.flatMap SGroup.results) := by
  rw [inv.acc, inv.outc, inv.comp, List.map_append, List.flatMap_append]
  exact due_append _ _ (fun g hg => (inv.oldk g hg).2) _ _

theorem old_length {env : SqEnv H π} {s : Sq H π} {tr : List (SqEv π)} {old gl : List (SGroup π)} {n : Nat} (inv : SqInv env s tr old gl n) :
    (completed tr).length + s.calling.length = old.length := by
  have := congrArg List.length inv.comp
  rw [List.length_append, List.length_map] at this
  exact this

/-! ## Heaps in the queue -/

theorem heapCount_append (a b : List (Accepted π)) : heapCount (a ++ b) = heapCount a + heapCount b := by simp [heapCount]

theorem heapCount_drop {l : List (Accepted π)} {a b : Nat} (h : a ≤ b) : heapCount (l.drop b) ≤ heapCount (l.drop a) := by
  have h1 := heapCount_append ((l.drop a).take (b - a)) ((l.drop a).drop (b - a))
  rw [List.take_append_drop, List.drop_drop, show a + (b - a) = b by omega] at h1
  omega

theorem queue_heaps {env : SqEnv H π} {s : Sq H π} {tr : List (SqEv π)} {old gl : List (SGroup π)} {n : Nat} (inv : SqInv env s tr old gl n) :
    s.tail = s.whead + heapCount ((accepted tr).drop old.length) := by
  rw [inv.tail, inv.acc, List.map_append, List.drop_left' (by simp)]
  unfold heapCount heapTotal
  rw [List.map_map]
  rfl

theorem unsent_heaps {env : SqEnv H π} {s : Sq H π} {tr : List (SqEv π)} {old gl : List (SGroup π)} {n : Nat} (inv : SqInv env s tr old gl n) :
    heapCount ((accepted tr).drop (due env.bytes (accepted tr) (outcomes tr)).length) ≤ heapCount ((accepted tr).drop old.length) ∧
    heapCount ((accepted tr).drop old.length) ≤ heapCount ((accepted tr).drop (completed tr).length) := by
  have h1 := old_length inv
  have h2 := congrArg List.length (due_split inv)
  rw [List.length_append, List.length_append] at h2
  exact ⟨heapCount_drop (by omega), heapCount_drop (by omega)⟩

/-! ## A call that has the mutex -/

theorem get_keep {env : SqEnv H π} {s s' : Sq H π} {ev : List (SqEv π)} (h : s.get env = some (s', ev)) :
    (s'.tail = s.tail ∧ s'.nextCnt = s.nextCnt ∧ s'.stepCnt = s.stepCnt ∧ s'.flushes = s.flushes ∧ s'.calling = s.calling ∧ s'.waking = s.waking ∧ s'.wk = s.wk) ∧ (ev = [] ∧ s.active = s.tail ∨ ∃ p n l, ev = [.packet p n l]) := by
  have hadv : ∀ (s1 : Sq H π) sl cur p, (s1.tail = s.tail ∧ s1.nextCnt = s.nextCnt ∧ s1.stepCnt = s.stepCnt ∧ s1.flushes = s.flushes ∧ s1.calling = s.calling ∧ s1.waking = s.waking ∧ s1.wk = s.wk) → s1.advance env sl cur p = some (s', ev) →
      (s'.tail = s.tail ∧ s'.nextCnt = s.nextCnt ∧ s'.stepCnt = s.stepCnt ∧ s'.flushes = s.flushes ∧ s'.calling = s.calling ∧ s'.waking = s.waking ∧ s'.wk = s.wk) ∧ (ev = [] ∧ s.active = s.tail ∨ ∃ p n l, ev = [.packet p n l]) := by
    intro s1 sl cur p e1 ha
    unfold Sq.advance at ha
    split at ha
    · split at ha
      · cases ha
      · cases ha; exact ⟨e1, Or.inr ⟨_, _, _, rfl⟩⟩
      · split at ha
        · cases ha
        · cases ha; exact ⟨e1, Or.inr ⟨_, _, _, rfl⟩⟩
    · split at ha
      · cases ha
      · cases ha; exact ⟨e1, Or.inr ⟨_, _, _, rfl⟩⟩
      · cases ha; exact ⟨e1, Or.inr ⟨_, _, _, rfl⟩⟩
  have key : ∀ (s1 : Sq H π), (s1.tail = s.tail ∧ s1.nextCnt = s.nextCnt ∧ s1.stepCnt = s.stepCnt ∧ s1.flushes = s.flushes ∧ s1.calling = s.calling ∧ s1.waking = s.waking ∧ s1.wk = s.wk) → (s1.active = s1.wtail → s.active = s.tail) →
      (if s1.active = s1.wtail then some (s1, []) else
        match s1.slots (s1.active &&& env.mask) with
        | none => none
        | some cur =>
          match cur.pkts with
          | [] => none
          | p :: rest => s1.advance env (s1.slots.set (s1.active &&& env.mask) (some { cur with pkts := rest })) cur p) = some (s', ev) →
      (s'.tail = s.tail ∧ s'.nextCnt = s.nextCnt ∧ s'.stepCnt = s.stepCnt ∧ s'.flushes = s.flushes ∧ s'.calling = s.calling ∧ s'.waking = s.waking ∧ s'.wk = s.wk) ∧ (ev = [] ∧ s.active = s.tail ∨ ∃ p n l, ev = [.packet p n l]) := by
    intro s1 e1 e2 h
    split at h
    · rename_i ht
      cases h; exact ⟨e1, Or.inl ⟨rfl, e2 ht⟩⟩
    · split at h
      · cases h
      · split at h
        · cases h
        · exact hadv _ _ _ _ e1 h
  refine key (if s.active = s.wtail then { s with wtail := s.tail } else s) ?_ ?_ h
  · split <;> exact ⟨rfl, rfl, rfl, rfl, rfl, rfl, rfl⟩
  · split
    · exact fun h => h
    · rename_i hne
      exact fun h => absurd h hne

theorem sent_keep {env : SqEnv H π} {s s' : Sq H π} {r : Option Nat} {ev : List (SqEv π)} (h : s.sent env r = some (s', ev)) :
    (s'.tail = s.tail ∧ s'.nextCnt = s.nextCnt ∧ s'.stepCnt = s.stepCnt ∧ s'.flushes = s.flushes ∧ s'.calling = s.calling ∧ s'.waking = s.waking ∧ s'.wk = s.wk) ∧ (ev = [] ∧ s.out = [] ∨ ev = [.sent r]) := by
  unfold Sq.sent at h
  split at h
  · rename_i ho
    cases h; exact ⟨⟨rfl, rfl, rfl, rfl, rfl, rfl, rfl⟩, Or.inl ⟨rfl, ho⟩⟩
  · split at h
    · cases h
    · cases h; exact ⟨⟨rfl, rfl, rfl, rfl, rfl, rfl, rfl⟩, Or.inr rfl⟩

theorem completeLoop_keep {env : SqEnv H π} : ∀ {k : Nat} {s s' : Sq H π}, completeLoop env k s = some s' →
    s'.tail = s.tail ∧ s'.nextCnt = s.nextCnt ∧ s'.stepCnt = s.stepCnt ∧ s'.flushes = s.flushes ∧ s'.calling.length = s.calling.length + k ∧ s'.wk = s.wk
  | 0, s, s', h => by cases h; exact ⟨rfl, rfl, rfl, rfl, rfl, rfl⟩
  | k + 1, s, s', h => by
    unfold completeLoop at h
    split at h
    · cases h
    · split at h
      · cases h
      · split at h
        · cases h
        · split at h
          · cases h
          · obtain ⟨h1, h2, h3, h4, h5, h6⟩ := completeLoop_keep h
            refine ⟨h1, h2, h3, h4, ?_, h6⟩
            rw [h5, List.length_append, List.length_singleton]
            omega

theorem complete_keep {env : SqEnv H π} {s s' : Sq H π} {k : Nat} {ev : List (SqEv π)} (h : s.complete env k = some (s', ev)) :
    s'.tail = s.tail ∧ s'.nextCnt = s.nextCnt ∧ s'.stepCnt = s.stepCnt ∧ s'.flushes = s.flushes ∧ ev = [] ∧ (k ≤ s.fin → s'.calling.length = s.calling.length + k) ∧ s'.wk = s.wk := by
  unfold Sq.complete at h
  split at h
  · split at h
    · cases h
    · rename_i hl
      cases h
      obtain ⟨h1, h2, h3, h4, h5, h6⟩ := completeLoop_keep hl
      exact ⟨h1, h2, h3, h4, rfl, fun _ => h5, h6⟩
  · rename_i hk
    cases h; exact ⟨rfl, rfl, rfl, rfl, rfl, fun h => absurd h hk, rfl⟩

theorem flush_keep {env : SqEnv H π} {s s' : Sq H π} {ev : List (SqEv π)} (h : s.flush env = some (s', ev)) :
    s'.tail = s.tail ∧ s'.nextCnt = s.nextCnt ∧ s'.stepCnt = s.stepCnt ∧ s'.sender = s.sender ∧ s'.calls = s.calls ∧ accepted ev = [] := by
  unfold Sq.flush at h
  split at h
  · cases h; exact ⟨rfl, rfl, rfl, rfl, rfl, rfl⟩
  · split at h
    · cases h; exact ⟨rfl, rfl, rfl, rfl, rfl, rfl⟩
    · split at h
      · cases h
      · cases h; exact ⟨rfl, rfl, rfl, rfl, rfl, rfl⟩

/-- What other threads and the writer do while a call has the mutex, or do other than calls. -/
structure Kept (s s' : Sq H π) (ev : List (SqEv π)) : Prop where
  tail : s'.tail = s.tail
  next : s'.nextCnt = s.nextCnt
  step : s'.stepCnt = s.stepCnt
  sender : s'.sender = s.sender
  calls : s'.calls = s.calls
  acc : accepted ev = []

theorem step_kept {env : SqEnv H π} {s s' : Sq H π} {op : SqOp H} {ev : List (SqEv π)} (h : s.step env op = some (s', ev)) (h1 : op ≠ .commit) (h2 : ∀ refs mode, op = .enter refs mode → s.sender.isSome = true)
    (h3 : ∀ a b, op = .setCnt a b → s.sender.isSome = true) : Kept s s' ev := by
  have hrefl : Kept s s [] := ⟨rfl, rfl, rfl, rfl, rfl, rfl⟩
  cases op with
  | enter refs mode =>
    simp only [Sq.step] at h
    rw [if_pos (h2 _ _ rfl)] at h
    cases h; exact hrefl
  | commit => exact absurd rfl h1
  | unwind i =>
    simp only [Sq.step, Sq.unwind] at h
    split at h
    · cases h; exact hrefl
    · split at h
      · cases h
      · cases h; exact ⟨rfl, rfl, rfl, rfl, rfl, rfl⟩
  | flush =>
    obtain ⟨a, b, c, d, e, f⟩ := flush_keep h
    exact ⟨a, b, c, d, e, f⟩
  | setCnt a b =>
    simp only [Sq.step, Sq.setCnt] at h
    rw [if_pos (Or.inl (h3 _ _ rfl))] at h
    cases h; exact hrefl
  | dispatch i =>
    simp only [Sq.step] at h
    split at h
    · cases h; exact hrefl
    · cases h; exact ⟨rfl, rfl, rfl, rfl, rfl, rfl⟩
  | wake =>
    simp only [Sq.step] at h
    cases h
    split <;> exact ⟨rfl, rfl, rfl, rfl, rfl, rfl⟩
  | get =>
    simp only [Sq.step] at h
    split at h
    · obtain ⟨⟨a, b, c, -⟩, d⟩ := get_keep h
      obtain ⟨-, e, f, -⟩ := get_log h
      refine ⟨a, b, c, e, f, ?_⟩
      rcases d with ⟨rfl, -⟩ | ⟨_, _, _, rfl⟩ <;> rfl
    · cases h; exact hrefl
  | sent r =>
    simp only [Sq.step] at h
    split at h
    · obtain ⟨⟨a, b, c, -⟩, d⟩ := sent_keep h
      obtain ⟨-, e, f, -⟩ := sent_log h
      refine ⟨a, b, c, e, f, ?_⟩
      rcases d with ⟨rfl, -⟩ | rfl <;> rfl
    · cases h; exact hrefl
  | complete k =>
    simp only [Sq.step] at h
    split at h
    · obtain ⟨a, b, c, -, rfl, -⟩ := complete_keep h
      obtain ⟨-, e, f, -⟩ := complete_log h
      exact ⟨a, b, c, e, f, rfl⟩
    · cases h; exact hrefl
  | call =>
    simp only [Sq.step] at h
    split at h
    · cases h; exact hrefl
    · cases h; exact ⟨rfl, rfl, rfl, rfl, rfl, rfl⟩
  | notify =>
    simp only [Sq.step] at h
    split at h
    · cases h; exact ⟨rfl, rfl, rfl, rfl, rfl, rfl⟩
    · cases h; exact hrefl
  | repost =>
    simp only [Sq.step] at h
    cases h
    split <;> exact ⟨rfl, rfl, rfl, rfl, rfl, rfl⟩
  | request =>
    simp only [Sq.step] at h
    cases h
    split
    · unfold Sq.request
      split
      · exact hrefl
      · split <;> exact ⟨rfl, rfl, rfl, rfl, rfl, rfl⟩
    · exact hrefl

theorem Kept.trans {a b c : Sq H π} {e f : List (SqEv π)} (h : Kept a b e) (k : Kept b c f) : Kept a c (e ++ f) :=
  ⟨k.tail.trans h.tail, k.next.trans h.next, k.step.trans h.step, k.sender.trans h.sender, k.calls.trans h.calls, by rw [accepted_append, h.acc, k.acc]; rfl⟩

theorem run_kept {env : SqEnv H π} : ∀ (ops : List (SqOp H)) {s s' : Sq H π} {ev : List (SqEv π)}, Sq.run env ops s = some (s', ev) → SqOp.commit ∉ ops → s.sender.isSome = true → Kept s s' ev
  | [], s, s', ev, h, _, _ => by cases h; exact ⟨rfl, rfl, rfl, rfl, rfl, rfl⟩
  | op :: ops, s, s', ev, h, hc, hs => by
    unfold Sq.run at h
    split at h
    · cases h
    · rename_i s1 ev1 h1
      split at h
      · cases h
      · rename_i s2 ev2 h2
        cases h
        have k1 := step_kept h1 (fun hh => hc (by rw [hh]; exact List.mem_cons_self)) (fun _ _ _ => hs) (fun _ _ _ => hs)
        exact k1.trans (run_kept ops h2 (fun hh => hc (List.mem_cons_of_mem _ hh)) (by rw [k1.sender]; exact hs))

theorem sq_run_append {env : SqEnv H π} : ∀ (a : List (SqOp H)) {b : List (SqOp H)} {s : Sq H π}, Sq.run env (a ++ b) s =
    match Sq.run env a s with
    | none => none
    | some (s1, e1) => match Sq.run env b s1 with
      | none => none
      | some (s2, e2) => some (s2, e1 ++ e2)
  | [], b, s => by
    simp only [List.nil_append, Sq.run]
    cases Sq.run env b s with
    | none => rfl
    | some p => rfl
  | op :: a, b, s => by
    rw [List.cons_append]
    simp only [Sq.run]
    cases s.step env op with
    | none => rfl
    | some p =>
      obtain ⟨s1, e1⟩ := p
      simp only
      rw [sq_run_append a]
      cases Sq.run env a s1 with
      | none => rfl
      | some p =>
        obtain ⟨s2, e2⟩ := p
        simp only
        cases Sq.run env b s2 with
        | none => rfl
        | some p => simp [List.append_assoc]

theorem run_snoc {env : SqEnv H π} {a b : List (SqOp H)} {s s1 s2 : Sq H π} {e1 e2 : List (SqEv π)} (h1 : Sq.run env a s = some (s1, e1)) (h2 : Sq.run env b s1 = some (s2, e2)) : Sq.run env (a ++ b) s = some (s2, e1 ++ e2) := by
  rw [sq_run_append, h1]
  simp only
  rw [h2]

theorem run_split {env : SqEnv H π} {a b : List (SqOp H)} {s s2 : Sq H π} {e : List (SqEv π)} (h : Sq.run env (a ++ b) s = some (s2, e)) :
    ∃ s1 e1 e2, Sq.run env a s = some (s1, e1) ∧ Sq.run env b s1 = some (s2, e2) ∧ e = e1 ++ e2 := by
  rw [sq_run_append] at h
  split at h
  · cases h
  · rename_i s1 e1 h1
    split at h
    · cases h
    · rename_i s3 e2 h2
      cases h
      exact ⟨s1, e1, e2, h1, h2, rfl⟩

/-! ## Progress of the writer -/

theorem drained {env : SqEnv H π} {s : Sq H π} {tr : List (SqEv π)} {old gl : List (SGroup π)} {n : Nat} (inv : SqInv env s tr old gl n) (h1 : s.active = s.tail) (h2 : s.out = []) (h3 : s.fin = 0) : gl = [] := by
  cases hgl : gl with
  | nil => rfl
  | cons g gl' =>
    exfalso
    have hn : n = gl.length := by
      rcases Nat.eq_or_lt_of_le inv.nle with h | h
      · exact h
      · exfalso
        have hgn : gl[n]? = some gl[n] := List.getElem?_eq_getElem h
        obtain ⟨k1, k2⟩ := inv.cur _ hgn
        have hp := ((inv.grp n _ hgn).rest k1).1
        have hb := inv.group_bound hgn
        rw [← inv.start] at hb
        omega
    have hg : gl[0]? = some g := by rw [hgl]; rfl
    have h4 := inv.before 0 g hg (by rw [hn, hgl]; simp)
    have h5 := inv.resb g (by rw [h3]; exact hg)
    have h6 := inv.out
    rw [h2, hgl, walk] at h6
    have h7 : (outOf s.whead g).length = 0 := by
      have := congrArg List.length h6
      rw [List.length_append, List.length_nil] at this
      omega
    unfold outOf at h7
    rw [List.length_map, List.length_drop, gotOf_length (by omega)] at h7
    omega

/-- The steps of the writer when the transport succeeds. -/
def SqOp.isWriter : SqOp H → Bool
  | .wake | .get | .sent none | .complete _ | .call | .notify => true
  | _ => false

/-- What the writer has left to do, other than in `groups_completed`. -/
def toDo (s : Sq H π) (tr : List (SqEv π)) : Nat :=
  (((accepted tr).flatMap (fun a => markLast a.packets)).length - (fetched tr).length) + (((accepted tr).flatMap (fun a => markLast a.packets)).length - (outcomes tr).length) +
  ((accepted tr).length - ((completed tr).length + s.calling.length))

theorem clean_of_rejected {ev : List (SqEv π)} (h : rejected ev = []) : CleanRejects ev := by
  intro c r n hm
  have : (c, r) ∈ rejected ev := List.mem_filterMap.mpr ⟨_, hm, rfl⟩
  rw [h] at this
  cases this

/-- The writer reaches `s'` from `s`. -/
structure Led (env : SqEnv H π) (s : Sq H π) (tr : List (SqEv π)) (s' : Sq H π) (ev : List (SqEv π)) : Prop where
  by_writer : ∃ ops : List (SqOp H), (∀ op ∈ ops, op.isWriter = true) ∧ Sq.run env ops s = some (s', ev)
  state : SqState env s' (tr ++ ev)
  acc : accepted ev = []
  clean : CleanRejects ev
  flushes : s'.flushes = s.flushes

theorem Led.refl {env : SqEnv H π} {s : Sq H π} {tr : List (SqEv π)} (h : SqState env s tr) : Led env s tr s [] :=
  ⟨⟨[], fun _ h => (by cases h), rfl⟩, by rw [List.append_nil]; exact h, rfl, fun _ _ _ h => (by cases h), rfl⟩

theorem Led.trans {env : SqEnv H π} {s s1 s2 : Sq H π} {tr e1 e2 : List (SqEv π)} (h : Led env s tr s1 e1) (k : Led env s1 (tr ++ e1) s2 e2) : Led env s tr s2 (e1 ++ e2) := by
  obtain ⟨a, ha, ha'⟩ := h.by_writer
  obtain ⟨b, hb, hb'⟩ := k.by_writer
  refine ⟨⟨a ++ b, ?_, run_snoc ha' hb'⟩, by rw [← List.append_assoc]; exact k.state, by rw [accepted_append, h.acc, k.acc]; rfl, ?_, k.flushes.trans h.flushes⟩
  · intro op ho
    rcases List.mem_append.mp ho with h | h
    · exact ha op h
    · exact hb op h
  · intro c r n hm
    rcases List.mem_append.mp hm with h' | h'
    · exact h.clean c r n h'
    · exact k.clean c r n h'

theorem Led.one {env : SqEnv H π} (hv : Spec.SqEnv.Valid env) {s s' : Sq H π} {tr ev : List (SqEv π)} (st : SqState env s tr) {op : SqOp H} (ho : op.isWriter = true) (h : s.step env op = some (s', ev)) (hr : rejected ev = []) (ha : accepted ev = [])
    (hf : s'.flushes = s.flushes) : Led env s tr s' ev := by
  obtain ⟨s1, e1, h1, h2⟩ := step_state hv st op
  rw [h, Option.some.injEq] at h1
  cases h1
  refine ⟨⟨[op], ?_, ?_⟩, h2 (clean_of_rejected hr), ha, clean_of_rejected hr, hf⟩
  · intro o h
    rw [List.mem_singleton] at h
    rw [h]
    exact ho
  · unfold Sq.run
    rw [h]
    simp [Sq.run]

theorem completed_handler {env : SqEnv H π} {s : Sq H π} {tr : List (SqEv π)} (st : SqState env s tr) {c : Nat} {r : SqResult} {b : Nat} {rest : List (Nat × SqResult × Nat)} (hc : s.calling = (c, r, b) :: rest) :
    completed [SqEv.handler (π := π) c r b] = [(c, r, b)] := by
  obtain ⟨⟨old, gl, n, inv⟩, -⟩ := st
  have hcomp := inv.comp
  rw [hc] at hcomp
  have hr : r = .ok ∨ r = .failed := by
    have : (c, r, b) ∈ old.map (fun g : SGroup π => completion env.bytes g.acc g.results) := by
      rw [← hcomp]; exact List.mem_append_right _ List.mem_cons_self
    rw [List.mem_map] at this
    obtain ⟨g, -, hg⟩ := this
    unfold completion at hg
    simp only [Prod.mk.injEq] at hg
    rw [← hg.2.1]
    split
    · exact Or.inl rfl
    · exact Or.inr rfl
  rcases hr with rfl | rfl <;> rfl

/-- The writer finishes `groups_completed`: it calls the handlers, -/
theorem finish_calls {env : SqEnv H π} (hv : Spec.SqEnv.Valid env) : ∀ (l : List (Nat × SqResult × Nat)) {s : Sq H π} {tr : List (SqEv π)}, s.calling = l → SqState env s tr →
    ∃ s' ev, Led env s tr s' ev ∧ s'.calling = [] ∧ toDo s' (tr ++ ev) = toDo s tr ∧ s'.wk = s.wk
  | [], s, tr, hl, st => ⟨s, [], Led.refl st, hl, by rw [List.append_nil], rfl⟩
  | (c, r, b) :: l, s, tr, hl, st => by
    have h : s.step env .call = some ({ s with calling := l }, [.handler c r b]) := by simp only [Sq.step]; rw [hl]
    have led := Led.one hv st (op := .call) rfl h rfl rfl rfl
    obtain ⟨s', ev, k1, k2, k3, k4⟩ := finish_calls hv l (s := { s with calling := l }) rfl led.state
    refine ⟨s', _, led.trans k1, k2, ?_, k4⟩
    rw [← List.append_assoc, k3]
    unfold toDo
    rw [accepted_append, fetched_append, outcomes_append, completed_append, completed_handler st hl, hl]
    show _ - _ + _ + _ = _
    simp only [show accepted [SqEv.handler (π := π) c r b] = [] from rfl, show fetched [SqEv.handler (π := π) c r b] = [] from rfl, show outcomes [SqEv.handler (π := π) c r b] = [] from rfl, List.append_nil, List.length_append, List.length_cons, List.length_nil]
    omega

/-- and wakes the calls of `flush`. -/
theorem finish_wakes {env : SqEnv H π} (hv : Spec.SqEnv.Valid env) : ∀ (l : List Nat) {s : Sq H π} {tr : List (SqEv π)}, s.waking = l → s.calling = [] → SqState env s tr →
    ∃ s' ev, Led env s tr s' ev ∧ s'.calling = [] ∧ s'.waking = [] ∧ toDo s' (tr ++ ev) = toDo s tr ∧ s'.wk = s.wk
  | [], s, tr, hl, hc, st => ⟨s, [], Led.refl st, hc, hl, by rw [List.append_nil], rfl⟩
  | f :: l, s, tr, hl, hc, st => by
    have h : s.step env .notify = some ({ s with waking := l }, [.flushed f]) := by simp only [Sq.step]; rw [hl, hc]
    have led := Led.one hv st (op := .notify) rfl h rfl rfl rfl
    obtain ⟨s', ev, k1, k2, k3, k4, k5⟩ := finish_wakes hv l (s := { s with waking := l }) rfl hc led.state
    refine ⟨s', _, led.trans k1, k2, k3, ?_, k5⟩
    rw [← List.append_assoc, k4]
    unfold toDo
    rw [accepted_append, fetched_append, outcomes_append, completed_append]
    simp only [show accepted [SqEv.flushed (π := π) f] = [] from rfl, show fetched [SqEv.flushed (π := π) f] = [] from rfl, show outcomes [SqEv.flushed (π := π) f] = [] from rfl, show completed [SqEv.flushed (π := π) f] = [] from rfl, List.append_nil]

theorem results_le : ∀ (l : List (SGroup π)), (∀ g ∈ l, g.results.length ≤ g.P.length) → (l.flatMap SGroup.results).length ≤ ((l.map SGroup.acc).flatMap (fun a => markLast a.packets)).length
  | [], _ => Nat.le_refl _
  | g :: l, h => by
    rw [List.flatMap_cons, List.map_cons, List.flatMap_cons, List.length_append, List.length_append, markLast_length]
    have h1 := h g List.mem_cons_self
    have h2 := results_le l (fun x hx => h x (List.mem_cons_of_mem _ hx))
    replace h1 : g.results.length ≤ g.acc.packets.length := h1
    omega

theorem toDo_bounds {env : SqEnv H π} {s : Sq H π} {tr : List (SqEv π)} (st : SqState env s tr) :
    (fetched tr).length ≤ ((accepted tr).flatMap (fun a => markLast a.packets)).length ∧ (outcomes tr).length ≤ ((accepted tr).flatMap (fun a => markLast a.packets)).length ∧ (completed tr).length + s.calling.length ≤ (accepted tr).length := by
  obtain ⟨⟨old, gl, n, inv⟩, -⟩ := st
  refine ⟨(fetched_prefix inv).length_le, ?_, ?_⟩
  · rw [inv.outc, inv.acc]
    refine results_le _ ?_
    intro g hg
    rcases List.mem_append.mp hg with h | h
    · rw [(inv.oldk g h).2]; exact Nat.le_refl _
    · obtain ⟨k, hk⟩ := List.mem_iff_getElem?.mp h
      exact Nat.le_trans (inv.resl k g hk) (inv.got_le hk)
  · rw [old_length inv, inv.acc]
    simp

/-- An active writer that has something to do does some of it. -/
theorem writer_step {env : SqEnv H π} (hv : Spec.SqEnv.Valid env) {s : Sq H π} {tr : List (SqEv π)} (st : SqState env s tr) (hr : s.ready = true) :
    (s.active = s.tail ∧ s.out = [] ∧ s.fin = 0) ∨ ∃ s' ev, Led env s tr s' ev ∧ toDo s' (tr ++ ev) < toDo s tr ∧ s'.wk = .running := by
  have hw := (ready_running hr).1
  have hb0 := toDo_bounds st
  by_cases ho : s.out = []
  · by_cases hf : s.fin = 0
    · by_cases ha : s.active = s.tail
      · exact Or.inl ⟨ha, ho, hf⟩
      · right
        obtain ⟨s3, ev3, h3, -⟩ := step_state hv st .get
        have hg : s.get env = some (s3, ev3) := by simp only [Sq.step] at h3; rwa [if_pos hr] at h3
        obtain ⟨⟨-, -, -, k4, k5, k6, k8⟩, k7⟩ := get_keep hg
        rcases k7 with ⟨-, k7⟩ | ⟨p, x, b, rfl⟩
        · exact absurd k7 ha
        · have l3 := Led.one hv st (op := .get) rfl h3 rfl rfl k4
          have hb := toDo_bounds l3.state
          refine ⟨s3, _, l3, ?_, by rw [k8]; exact hw⟩
          unfold toDo
          rw [k5]
          rw [accepted_append _ [SqEv.packet p x b], fetched_append _ [SqEv.packet p x b], outcomes_append _ [SqEv.packet p x b], completed_append _ [SqEv.packet p x b]] at hb ⊢
          simp only [show accepted [SqEv.packet p x b] = [] from rfl, show fetched [SqEv.packet p x b] = [((p, x), b)] from rfl, show outcomes [SqEv.packet p x b] = [] from rfl, show completed [SqEv.packet p x b] = [] from rfl, List.append_nil, List.length_append, List.length_singleton] at hb ⊢
          omega
    · right
      obtain ⟨s3, ev3, h3, -⟩ := step_state hv st (.complete 1)
      have hg : s.complete env 1 = some (s3, ev3) := by simp only [Sq.step] at h3; rwa [if_pos hr] at h3
      obtain ⟨-, -, -, k4, rfl, k6, k7⟩ := complete_keep hg
      have l3 := Led.one hv st (op := .complete 1) rfl h3 rfl rfl k4
      have hb := toDo_bounds l3.state
      refine ⟨s3, _, l3, ?_, by rw [k7]; exact hw⟩
      rw [List.append_nil] at hb ⊢
      unfold toDo
      have := k6 (by omega)
      omega
  · right
    obtain ⟨s3, ev3, h3, -⟩ := step_state hv st (.sent none)
    have hg : s.sent env none = some (s3, ev3) := by simp only [Sq.step] at h3; rwa [if_pos hr] at h3
    obtain ⟨⟨-, -, -, k4, k5, k6, k8⟩, k7⟩ := sent_keep hg
    rcases k7 with ⟨-, k7⟩ | rfl
    · exact absurd k7 ho
    · have l3 := Led.one hv st (op := .sent none) rfl h3 rfl rfl k4
      have hb := toDo_bounds l3.state
      refine ⟨s3, _, l3, ?_, by rw [k8]; exact hw⟩
      unfold toDo
      rw [k5]
      rw [accepted_append _ [SqEv.sent none], fetched_append _ [SqEv.sent none], outcomes_append _ [SqEv.sent none], completed_append _ [SqEv.sent none]] at hb ⊢
      simp only [show accepted [SqEv.sent (π := π) none] = [] from rfl, show fetched [SqEv.sent (π := π) none] = [] from rfl, show outcomes [SqEv.sent (π := π) none] = [none] from rfl, show completed [SqEv.sent (π := π) none] = [] from rfl, List.append_nil, List.length_append, List.length_singleton] at hb ⊢
      omega

theorem run_out {env : SqEnv H π} (hv : Spec.SqEnv.Valid env) (N : Nat) : ∀ {s : Sq H π} {tr : List (SqEv π)}, toDo s tr < N → SqState env s tr → s.wk = .running → ∃ s' ev, Led env s tr s' ev ∧
    s'.calling = [] ∧ s'.waking = [] ∧ s'.active = s'.tail ∧ s'.out = [] ∧ s'.fin = 0 := by
  induction N with
  | zero => intro s tr hN; omega
  | succ N ih =>
    intro s tr hN st hw
    obtain ⟨s1, ev1, l1, c1, d1, w1⟩ := finish_calls hv s.calling rfl st
    obtain ⟨s2, ev2, l2, c2, c2', d2, w2⟩ := finish_wakes hv s1.waking rfl c1 l1.state
    have hr : s2.ready = true := by unfold Sq.ready; rw [c2, c2', w2, w1, hw]; rfl
    rcases writer_step hv l2.state hr with ⟨a, b, c⟩ | ⟨s3, ev3, l3, d3, w3⟩
    · exact ⟨s2, _, l1.trans l2, c2, c2', a, b, c⟩
    · rw [d2, d1] at d3
      obtain ⟨s4, ev4, l4, r⟩ := ih (by omega) l3.state w3
      exact ⟨s4, _, l1.trans (l2.trans (l3.trans l4)), r⟩

/-- The writer can always finish everything. -/
theorem writer_finishes {env : SqEnv H π} (hv : Spec.SqEnv.Valid env) {s : Sq H π} {tr : List (SqEv π)} (st : SqState env s tr) : ∃ s' ev, Led env s tr s' ev ∧
    s'.calling = [] ∧ s'.waking = [] ∧ s'.active = s'.tail ∧ s'.out = [] ∧ s'.fin = 0 := by
  cases hw : s.wk with
  | running => exact run_out hv _ (Nat.lt_succ_self _) st hw
  | queued =>
    have h : s.step env .wake = some ({ s with wk := .running }, []) := by simp only [Sq.step]; rw [if_pos hw]
    have l1 := Led.one hv st (op := .wake) rfl h rfl rfl rfl
    obtain ⟨s', ev, l2, r⟩ := run_out hv _ (Nat.lt_succ_self _) l1.state rfl
    exact ⟨s', _, l1.trans l2, r⟩
  | need =>
    obtain ⟨⟨old, gl, n, inv⟩, -⟩ := id st
    obtain ⟨a, b, c, d, e⟩ := inv.need hw
    exact ⟨s, [], Led.refl st, d, e, a, b, c⟩

/-- When nothing is left to do, every handler has been called and every call of `flush` can return. -/
theorem all_done {env : SqEnv H π} {s : Sq H π} {tr : List (SqEv π)} (st : SqState env s tr) (h1 : s.calling = []) (h2 : s.waking = []) (h3 : s.active = s.tail) (h4 : s.out = []) (h5 : s.fin = 0) :
    completed tr = due env.bytes (accepted tr) (outcomes tr) ∧ (completed tr).length = (accepted tr).length ∧ (returned tr).Perm (List.range s.flushes) ∧ s.head = s.tail := by
  obtain ⟨⟨old, gl, n, inv⟩, hd, -⟩ := st
  have hgl := drained inv h3 h4 h5
  subst hgl
  refine ⟨?_, ?_, ?_, ?_⟩
  · rw [due_split inv, h1]
    simp [due]
  · have := old_length inv
    rw [h1] at this
    rw [inv.acc]
    simp at this ⊢
    exact this
  · have := inv.flp
    rw [h2] at this
    simpa using this
  · rw [hd, inv.tail]; rfl

/-! ## Sequences of cnts -/

theorem allot_length {step : Nat} : ∀ {next : Nat} {refs : List (SendRef H)}, (allot step next refs).1.length = refs.length
  | next, [] => rfl
  | next, r :: rs => by
    unfold allot
    cases r.cnt with
    | some c => simp only [List.length_cons]; rw [allot_length]
    | none => simp only [List.length_cons]; rw [allot_length]

theorem admits_cnts {env : SqEnv H π} : ∀ {refs : List (SendRef H)} {cnts : List Nat} {hs : List (Admitted π)}, Admits env refs cnts hs → hs.map Admitted.cnt = cnts
  | [], [], [], _ => rfl
  | r :: rs, c :: cs, h :: hs, ha => by
    rw [List.map_cons, admits_cnts ha.2, ha.1.2.2.1]
  | [], [], _ :: _, h => h.elim
  | [], _ :: _, _, h => h.elim
  | _ :: _, [], _, h => h.elim
  | _ :: _, _ :: _, [], h => h.elim

/-- The sequence from `next` on. -/
def cntSeq (bits next step k : Nat) : List Nat := (List.range k).map (fun i => (next + i * step) % 2 ^ 64 % 2 ^ bits)

theorem cntSeq_succ (bits next step k : Nat) : cntSeq bits next step (k + 1) = next % 2 ^ 64 % 2 ^ bits :: cntSeq bits ((next + step) % 2 ^ 64) step k := by
  unfold cntSeq
  rw [List.range_succ_eq_map, List.map_cons, List.map_map, Nat.zero_mul, Nat.add_zero]
  congr 1
  apply List.map_congr_left
  intro i _
  show (next + (i + 1) * step) % 2 ^ 64 % 2 ^ bits = ((next + step) % 2 ^ 64 + i * step) % 2 ^ 64 % 2 ^ bits
  rw [Nat.mod_add_mod, Nat.succ_mul]
  congr 2
  omega

theorem cntSeq_append (bits next step : Nat) : ∀ (k l : Nat), cntSeq bits next step (k + l) = cntSeq bits next step k ++ cntSeq bits ((next + k * step) % 2 ^ 64) step l := by
  intro k l
  unfold cntSeq
  rw [List.range_add, List.map_append, List.map_map]
  congr 1
  apply List.map_congr_left
  intro i _
  show (next + (k + i) * step) % 2 ^ 64 % 2 ^ bits = _
  rw [Nat.mod_add_mod, Nat.add_mul]
  congr 2
  omega

theorem allot_auto {step bits : Nat} : ∀ {next : Nat} {refs : List (SendRef H)}, next < 2 ^ 64 → (∀ r ∈ refs, r.cnt = none ∧ r.bits = bits) →
    allot step next refs = (cntSeq bits next step refs.length, (next + refs.length * step) % 2 ^ 64)
  | next, [], hn, _ => by
    unfold allot cntSeq
    simp [Nat.mod_eq_of_lt hn]
  | next, r :: rs, hn, h => by
    obtain ⟨h1, h2⟩ := h r List.mem_cons_self
    unfold allot
    rw [h1]
    simp only
    rw [allot_auto (bits := bits) (Nat.mod_lt _ (Nat.two_pow_pos 64)) (fun x hx => h x (List.mem_cons_of_mem _ hx)), List.length_cons, cntSeq_succ, h2, Nat.mod_eq_of_lt hn, Nat.mod_add_mod, Nat.succ_mul]
    congr 2
    omega

theorem admits_unique {env : SqEnv H π} : ∀ {refs : List (SendRef H)} {cnts : List Nat} {a b : List (Admitted π)}, Admits env refs cnts a → Admits env refs cnts b → a = b
  | [], [], [], [], _, _ => rfl
  | r :: rs, c :: cs, x :: a, y :: b, h1, h2 => by
    rw [admits_unique h1.2 h2.2]
    obtain ⟨⟨-, g1, c1, s1⟩, -⟩ := h1
    obtain ⟨⟨-, g2, c2, s2⟩, -⟩ := h2
    rw [g1, Option.some.injEq] at g2
    obtain ⟨xc, xs, xp⟩ := x
    obtain ⟨yc, ys, yp⟩ := y
    simp only at g2 c1 c2 s1 s2
    subst c1 c2 s1 s2 g2
    rfl
  | [], [], _ :: _, _, h, _ => h.elim
  | [], [], [], _ :: _, _, h => h.elim
  | [], _ :: _, _, _, h, _ => h.elim
  | _ :: _, [], _, _, h, _ => h.elim
  | _ :: _, _ :: _, [], _, h, _ => h.elim
  | _ :: _, _ :: _, _ :: _, [], _, h => h.elim

theorem accepted_sublist : ∀ (tr : List (SqEv π)), ((accepted tr).map Accepted.call).Sublist (answers tr)
  | [] => List.Sublist.refl _
  | ev :: tr => by
    have h := accepted_sublist tr
    cases ev with
    | accept c m hs => exact h.cons_cons _
    | reject c r n => exact h.cons _
    | threw c => exact h.cons _
    | _ => exact h

/-- The decision about a group. -/
theorem commit_spec {env : SqEnv H π} (hv : Spec.SqEnv.Valid env) {s : Sq H π} {tr : List (SqEv π)} {old gl : List (SGroup π)} {n : Nat} (inv : SqInv env s tr old gl n) {c : SqCall H} (hs : s.sender = some c) :
    ∃ s' e, s.step env .commit = some (s', [e]) ∧ s'.sender = none ∧ s'.stepCnt = s.stepCnt ∧
      ((∃ hs, e = .accept c.id c.mode hs ∧ Admits env c.refs (allot s.stepCnt s.nextCnt c.refs).1 hs ∧ s'.nextCnt = (allot s.stepCnt s.nextCnt c.refs).2 ∧ s.tail + c.refs.length ≤ c.head + env.size) ∨
       (∃ k, e = .reject c.id .wouldBlock k ∧ c.head + env.size < s.tail + c.refs.length ∧ s'.tail = s.tail ∧ s'.nextCnt = s.nextCnt ∧ (k = 0 → s'.slots = s.slots)) ∨
       (∃ k, e = .reject c.id .invalid k ∧ (¬ ∃ hs, Admits env c.refs (allot s.stepCnt s.nextCnt c.refs).1 hs) ∧ s'.tail = s.tail ∧ s'.nextCnt = s.nextCnt ∧ (k = 0 → s'.slots = s.slots)) ∨
       (e = .threw c.id ∧ (¬ ∃ hs, Admits env c.refs (allot s.stepCnt s.nextCnt c.refs).1 hs) ∧ s'.tail = s.tail ∧ s'.nextCnt = s.nextCnt ∧ s'.slots = s.slots)) := by
  obtain ⟨a, e, h1, h2, h3⟩ := commit_cases hv inv hs
  have hbad : e ≠ .ok → e ≠ .full → ¬ ∃ hs, Admits env c.refs (allot s.stepCnt s.nextCnt c.refs).1 hs := by
    rintro he hf ⟨hs', ha⟩
    exact hf (h2.bad he hs' ha)
  rcases h3 with ⟨he, hne, h3⟩ | ⟨he, h3⟩ | ⟨he, he', h3, sl, h4, -, h6⟩
  · obtain ⟨s', k1, k2, k3, k4, -, k6, k7, k8, k9⟩ := accept_step hv inv hs h1 hne
    obtain ⟨hs', g1, g2, g3, g4⟩ := h2.ok he
    rw [List.nil_append] at g1
    refine ⟨s', _, by show s.commit env = _; rw [h3]; exact k1, k7, ?_, Or.inl ⟨a.heaps, rfl, by rw [g1]; exact g2, by rw [k6]; exact g3, g4⟩⟩
    rw [Sq.accept] at k1
    split at k1
    · cases k1
    · split at k1
      · cases k1
      · cases k1; rfl
  · exact ⟨_, _, h3, rfl, rfl, Or.inr (Or.inr (Or.inr ⟨rfl, hbad (by rw [he]; simp) (by rw [he]; simp), rfl, rfl, rfl⟩))⟩
  · have htl := h1.tail
    refine ⟨_, _, h3.trans h4, rfl, rfl, Or.inr ?_⟩
    by_cases hf : e = .full
    · subst hf
      exact Or.inl ⟨_, rfl, h2.full rfl, rfl, rfl, fun hk => h6 (by omega)⟩
    · refine Or.inr (Or.inl ⟨a.tail - s.tail, ?_, hbad he hf, rfl, rfl, fun hk => h6 (by omega)⟩)
      cases e <;> first | rfl | exact absurd rfl hf

theorem run_auto {env : SqEnv H π} (hv : Spec.SqEnv.Valid env) {bits : Nat} : ∀ (ops : List (SqOp H)) {s s' : Sq H π} {tr ev : List (SqEv π)}, SqState env s tr → s.nextCnt < 2 ^ 64 →
    (∀ c, s.sender = some c → ∀ r ∈ c.refs, r.cnt = none ∧ r.bits = bits) → Sq.run env ops s = some (s', ev) → CleanRejects ev → (∀ a b, .setCnt a b ∉ ops) →
    (∀ refs mode, .enter refs mode ∈ ops → ∀ r ∈ refs, r.cnt = none ∧ r.bits = bits) →
    (accepted ev).flatMap (fun g => g.hs.map Admitted.cnt) = cntSeq bits s.nextCnt s.stepCnt (heapCount (accepted ev))
  | [], s, s', tr, ev, st, hn, hs, h, hc, hno, hauto => by cases h; rfl
  | op :: ops, s, s', tr, ev, st, hn, hs, h, hc, hno, hauto => by
    unfold Sq.run at h
    split at h
    · cases h
    · rename_i s1 ev1 h1
      split at h
      · cases h
      · rename_i s2 ev2 h2
        cases h
        obtain ⟨s1', ev1', h1', st1⟩ := step_state hv st op
        rw [h1, Option.some.injEq] at h1'
        cases h1'
        have st1 := st1 (clean_left hc)
        have hno' : ∀ a b, SqOp.setCnt a b ∉ ops := fun a b hm => hno a b (List.mem_cons_of_mem _ hm)
        have hauto' : ∀ refs mode, SqOp.enter refs mode ∈ ops → ∀ r ∈ refs, r.cnt = none ∧ r.bits = bits := fun refs mode hm => hauto refs mode (List.mem_cons_of_mem _ hm)
        have simple : s1.nextCnt = s.nextCnt → s1.stepCnt = s.stepCnt → accepted ev1 = [] → (∀ c, s1.sender = some c → ∀ r ∈ c.refs, r.cnt = none ∧ r.bits = bits) →
            (accepted (ev1 ++ ev2)).flatMap (fun g => g.hs.map Admitted.cnt) = cntSeq bits s.nextCnt s.stepCnt (heapCount (accepted (ev1 ++ ev2))) := by
          intro e1 e2 e3 e4
          have := run_auto hv ops st1 (by rw [e1]; exact hn) e4 h2 (clean_right hc) hno' hauto'
          rw [accepted_append, e3, List.nil_append, this, e1, e2]
        by_cases hcm : op = .commit
        · subst hcm
          cases hsd : s.sender with
          | none =>
            have : s.step env .commit = some (s, []) := by show s.commit env = _; unfold Sq.commit; rw [hsd]
            rw [this, Option.some.injEq] at h1
            cases h1
            exact simple rfl rfl rfl hs
          | some c =>
            obtain ⟨⟨old, gl, n, inv⟩, -⟩ := st
            obtain ⟨s3, e, k1, k2, k3, k4⟩ := commit_spec hv inv hsd
            rw [h1, Option.some.injEq] at k1
            cases k1
            have hsn : ∀ c, s1.sender = some c → ∀ r ∈ c.refs, r.cnt = none ∧ r.bits = bits := by intro c hc'; rw [k2] at hc'; cases hc'
            rcases k4 with ⟨hs', a1, a2, a3, -⟩ | ⟨k, a1, -, -, a4, -⟩ | ⟨k, a1, -, -, a4, -⟩ | ⟨a1, -, -, a4, -⟩
            · subst a1
              have hal := allot_auto (step := s.stepCnt) (bits := bits) hn (hs c hsd)
              rw [hal] at a2 a3
              replace a3 : s1.nextCnt = (s.nextCnt + c.refs.length * s.stepCnt) % 2 ^ 64 := a3
              have hcn := admits_cnts a2
              have hlen : hs'.length = c.refs.length := by
                have := congrArg List.length hcn
                simpa [cntSeq] using this
              have := run_auto hv ops st1 (by rw [a3]; exact Nat.mod_lt _ (Nat.two_pow_pos 64)) hsn h2 (clean_right hc) hno' hauto'
              rw [accepted_append, List.flatMap_append, this, heapCount_append, show accepted [SqEv.accept c.id c.mode hs'] = [⟨c.id, c.mode, hs'⟩] from rfl, List.flatMap_singleton]
              show hs'.map Admitted.cnt ++ _ = _
              rw [hcn, show heapCount [(⟨c.id, c.mode, hs'⟩ : Accepted π)] = c.refs.length by simp [heapCount, hlen], cntSeq_append, a3, k3]
            · exact simple a4 k3 (by rw [a1]; rfl) hsn
            · exact simple a4 k3 (by rw [a1]; rfl) hsn
            · exact simple a4 k3 (by rw [a1]; rfl) hsn
        · cases op with
          | enter refs mode =>
            cases hsd : s.sender with
            | none =>
              simp only [Sq.step, hsd] at h1
              cases refs with
              | nil => cases h1; exact simple rfl rfl rfl hs
              | cons r rs =>
                cases h1
                refine simple rfl rfl rfl ?_
                intro c hc'
                cases hc'
                exact hauto _ mode List.mem_cons_self
            | some c =>
              have k := step_kept h1 hcm (fun _ _ _ => by rw [hsd]; rfl) (fun _ _ hh => nomatch hh)
              exact simple k.next k.step k.acc (by rw [k.sender]; exact hs)
          | setCnt a b => exact absurd List.mem_cons_self (hno a b)
          | _ =>
            have k := step_kept h1 hcm (fun _ _ hh => nomatch hh) (fun _ _ hh => nomatch hh)
            exact simple k.next k.step k.acc (by rw [k.sender]; exact hs)

theorem step_unrejected {env : SqEnv H π} {s s' : Sq H π} {op : SqOp H} {ev : List (SqEv π)} (h : s.step env op = some (s', ev)) (h1 : op ≠ .commit) (h2 : ∀ refs mode, op ≠ .enter refs mode) : rejected ev = [] := by
  cases op with
  | enter refs mode => exact absurd rfl (h2 _ _)
  | commit => exact absurd rfl h1
  | unwind i =>
    simp only [Sq.step, Sq.unwind] at h
    split at h
    · cases h; rfl
    · split at h
      · cases h
      · cases h; rfl
  | flush =>
    simp only [Sq.step, Sq.flush] at h
    split at h
    · cases h; rfl
    · split at h
      · cases h; rfl
      · split at h
        · cases h
        · cases h; rfl
  | dispatch i =>
    simp only [Sq.step] at h
    split at h <;> (cases h; rfl)
  | get =>
    simp only [Sq.step] at h
    split at h
    · exact (get_log h).2.2.2.2.1
    · cases h; rfl
  | sent r =>
    simp only [Sq.step] at h
    split at h
    · exact (sent_log h).2.2.2.2.1
    · cases h; rfl
  | complete k =>
    simp only [Sq.step] at h
    split at h
    · exact (complete_log h).2.2.2.2.1
    · cases h; rfl
  | call =>
    simp only [Sq.step] at h
    split at h <;> (cases h; rfl)
  | notify =>
    simp only [Sq.step] at h
    split at h <;> (cases h; rfl)
  | _ =>
    simp only [Sq.step] at h
    cases h; rfl

theorem step_single {env : SqEnv H π} (hv : Spec.SqEnv.Valid env) {s : Sq H π} {tr : List (SqEv π)} (st : SqState env s tr) (hs : ∀ c, s.sender = some c → c.refs.length ≤ 1) {op : SqOp H} (ho : ∀ refs mode, op = .enter refs mode → refs.length ≤ 1) :
    ∃ s' ev, s.step env op = some (s', ev) ∧ CleanRejects ev ∧ SqState env s' (tr ++ ev) ∧ ∀ c, s'.sender = some c → c.refs.length ≤ 1 := by
  obtain ⟨s', ev, h1, h2⟩ := step_state hv st op
  have hkey : CleanRejects ev ∧ ∀ c, s'.sender = some c → c.refs.length ≤ 1 := by
    by_cases hcm : op = .commit
    · subst hcm
      cases hsd : s.sender with
      | none =>
        have : s.step env .commit = some (s, []) := by show s.commit env = _; unfold Sq.commit; rw [hsd]
        rw [this, Option.some.injEq] at h1
        cases h1
        exact ⟨fun _ _ _ h => (by cases h), hs⟩
      | some c =>
        obtain ⟨⟨old, gl, n, inv⟩, -⟩ := st
        obtain ⟨a, e, k1, k2, k3⟩ := commit_cases hv inv hsd
        replace h1 : s.commit env = some (s', ev) := h1
        have hl := hs c hsd
        rcases k3 with ⟨-, hne, k3⟩ | ⟨-, k3⟩ | ⟨he, -, k3, sl, k4, -⟩
        · obtain ⟨s'', j1, -, -, -, -, -, j7, -⟩ := accept_step hv inv hsd k1 hne
          rw [k3, j1, Option.some.injEq] at h1
          cases h1
          exact ⟨clean_of_rejected rfl, fun c hc => by rw [j7] at hc; cases hc⟩
        · rw [k3, Option.some.injEq] at h1
          cases h1
          exact ⟨clean_of_rejected rfl, fun c hc => by cases hc⟩
        · rw [k3, k4, Option.some.injEq] at h1
          cases h1
          refine ⟨?_, fun c hc => by cases hc⟩
          intro c' r k hm
          rw [List.mem_singleton] at hm
          cases hm
          have := k2.less he
          have hz : a.tail < s.tail + c.refs.length := this
          omega
    · cases op with
      | enter refs mode =>
        have hr := ho refs mode rfl
        simp only [Sq.step] at h1
        split at h1
        · cases h1; exact ⟨fun _ _ _ h => (by cases h), hs⟩
        · cases refs with
          | nil =>
            cases h1
            refine ⟨?_, hs⟩
            intro c r n hm
            rw [List.mem_singleton] at hm
            cases hm
            rfl
          | cons r rs =>
            cases h1
            exact ⟨fun _ _ _ h => (by cases h), fun c hc => by cases hc; exact hr⟩
      | setCnt a b =>
        simp only [Sq.step, Option.some.injEq] at h1
        cases h1
        refine ⟨fun _ _ _ h => (by cases h), ?_⟩
        unfold Sq.setCnt
        split <;> exact hs
      | _ =>
        have k := step_kept h1 hcm (fun _ _ hh => nomatch hh) (fun _ _ hh => nomatch hh)
        exact ⟨clean_of_rejected (step_unrejected h1 hcm (fun _ _ hh => nomatch hh)), by rw [k.sender]; exact hs⟩
  exact ⟨s', ev, h1, hkey.1, h2 hkey.1, hkey.2⟩

theorem sq_run_single {env : SqEnv H π} (hv : Spec.SqEnv.Valid env) : ∀ (ops : List (SqOp H)) {s : Sq H π} {tr : List (SqEv π)}, SqState env s tr → (∀ c, s.sender = some c → c.refs.length ≤ 1) →
    (∀ refs mode, .enter refs mode ∈ ops → refs.length ≤ 1) → ∃ s' ev, Sq.run env ops s = some (s', ev) ∧ CleanRejects ev ∧ SqState env s' (tr ++ ev)
  | [], s, tr, st, _, _ => ⟨s, [], rfl, fun _ _ _ h => (by cases h), by rw [List.append_nil]; exact st⟩
  | op :: ops, s, tr, st, hs, ho => by
    obtain ⟨s1, e1, h1, h2, h3, h4⟩ := step_single hv st hs (op := op) (fun refs mode he => ho refs mode (by rw [he]; exact List.mem_cons_self))
    obtain ⟨s2, e2, k1, k2, k3⟩ := sq_run_single hv ops h3 h4 (fun refs mode hm => ho refs mode (List.mem_cons_of_mem _ hm))
    refine ⟨s2, e1 ++ e2, ?_, ?_, by rw [← List.append_assoc]; exact k3⟩
    · unfold Sq.run
      rw [h1]
      simp only
      rw [k1]
    · intro c r n hm
      rcases List.mem_append.mp hm with h | h
      · exact h2 c r n h
      · exact k2 c r n h

end Spead2
