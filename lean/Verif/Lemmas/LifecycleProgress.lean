import Verif.Lemmas.LifecycleReaders

/-! # What has been begun can be completed -/

namespace Spead2

open Spec

/-- The threads that may still add a reader. -/
def LcPc.mayAdd : LcPc → Bool
  | .emplaceLock | .emplaceCheck | .emplaceMake => true
  | _ => false

/-- An upper bound for the number of actions that are left, with `n` readers. -/
def LcPc.weight (n : Nat) : LcPc → Nat
  | .idle => 0
  | .emplaceLock => 5 | .emplaceCheck => 4 | .emplaceMake => 3 | .emplaceStart _ => 2 | .emplaceUnlock => 1
  | .startLock => n + 5 | .startCheck => n + 4 | .startEach i => (n - i) + 3 | .startSet => 2 | .startUnlock => 1
  | .flushLock => 3 | .flushRun => 2 | .flushUnlock => 1
  | .lossyLock => 3 | .lossyRead => 2 | .lossyUnlock => 1
  | .stats => 1
  | .stopOnce _ => n + 20 | .stopLock _ => n + 19 | .stopCheck _ => n + 18
  | .recvMark _ => n + 17 | .recvFlush _ => n + 16 | .recvLock _ => n + 15 | .recvStop _ i => (n - i) + 14 | .recvSet _ => 13
  | .recvUnlock _ => 12
  | .stopUnlock _ => 5 | .stopDone _ => 4 | .stopReturn _ => 3 | .free => 2
  | .hLock _ => n + 24 | .hEnter _ => n + 23 | .hBody _ => n + 22 | .hEnd _ _ => n + 21 | .hStats => 6 | .hUnlock _ => 5

/-- A step of thread `t` that brings it nearer to its end. -/
def Nearer (s s' : LcState) (t : Nat) : Prop :=
  (∀ u, u ≠ t → s'.pc u = s.pc u) ∧
  (((s.pc t).mayAdd = true ∧ (s'.pc t).mayAdd = false) ∨
   (s'.readers.length = s.readers.length ∧ (s'.pc t).mayAdd = (s.pc t).mayAdd ∧
    (s'.pc t).weight s.readers.length < (s.pc t).weight s.readers.length))

theorem nearer_go {s X : LcState} {t : Nat} {p p' : LcPc} (hp : s.pc t = p) (hx : X.pc = s.pc)
    (h : (p.mayAdd = true ∧ p'.mayAdd = false) ∨ (X.readers.length = s.readers.length ∧ p'.mayAdd = p.mayAdd ∧
      p'.weight s.readers.length < p.weight s.readers.length)) : Nearer s (X.go t p') t := by
  refine ⟨fun u e => by rw [go_pc_ne _ _ _ e, hx], ?_⟩
  rw [go_pc_self, hp]
  exact h

/-- The threads that wait for `reader_mutex`. -/
def LcPc.wantsR : LcPc → Bool
  | .emplaceLock | .startLock | .lossyLock | .recvLock _ => true
  | _ => false

/-- The threads that wait for `queue_mutex`. -/
def LcPc.wantsQ : LcPc → Bool
  | .flushLock | .stopLock _ | .hLock _ => true
  | _ => false

theorem can_step {cfg : LcConfig} {s : LcState} {t : Nat} (hi : s.pc t ≠ .idle) (hr : (s.pc t).wantsR = true → s.r = none)
    (hq : (s.pc t).wantsQ = true → s.q = none) (ho : ∀ d, s.pc t = .stopOnce d → ∀ u, s.once ≠ .running u) :
    ∃ s', LcCont cfg s s' ∧ Nearer s s' t := by
  generalize hp : s.pc t = p at hi hr hq ho
  cases p with
  | idle => exact absurd rfl hi
  | emplaceLock => exact ⟨_, .emplaceLock s t hp (hr rfl), nearer_go hp rfl (Or.inr ⟨rfl, rfl, by simp [LcPc.weight]⟩)⟩
  | emplaceCheck =>
    refine ⟨_, .emplaceCheck s t hp, nearer_go hp rfl ?_⟩
    split
    · exact Or.inl ⟨rfl, rfl⟩
    · split
      · exact Or.inl ⟨rfl, rfl⟩
      · exact Or.inr ⟨rfl, rfl, by simp [LcPc.weight]⟩
  | emplaceMake =>
    refine ⟨_, .emplaceMake s t hp, nearer_go hp rfl ?_⟩
    split
    · exact Or.inl ⟨rfl, rfl⟩
    · exact Or.inl ⟨rfl, rfl⟩
  | emplaceStart r =>
    exact ⟨_, .emplaceStart s t r hp, nearer_go hp rfl (Or.inr ⟨by simp [LcState.startReader], rfl, by simp [LcPc.weight]⟩)⟩
  | emplaceUnlock => exact ⟨_, .emplaceUnlock s t hp, nearer_go hp rfl (Or.inr ⟨rfl, rfl, by simp [LcPc.weight]⟩)⟩
  | startLock => exact ⟨_, .startLock s t hp (hr rfl), nearer_go hp rfl (Or.inr ⟨rfl, rfl, by simp [LcPc.weight]⟩)⟩
  | startCheck =>
    refine ⟨_, .startCheck s t hp, nearer_go hp rfl ?_⟩
    split
    · exact Or.inr ⟨rfl, rfl, by simp [LcPc.weight]⟩
    · exact Or.inr ⟨rfl, rfl, by simp [LcPc.weight]⟩
  | startEach i =>
    by_cases e : i < s.readers.length
    · exact ⟨_, .startEach s t i hp e, nearer_go hp rfl (Or.inr ⟨by simp [LcState.startReader], rfl, by simp only [LcPc.weight]; omega⟩)⟩
    · exact ⟨_, .startEnd s t i hp (by omega), nearer_go hp rfl (Or.inr ⟨rfl, rfl, by simp only [LcPc.weight]; omega⟩)⟩
  | startSet => exact ⟨_, .startSet s t hp, nearer_go hp rfl (Or.inr ⟨rfl, rfl, by simp [LcPc.weight]⟩)⟩
  | startUnlock => exact ⟨_, .startUnlock s t hp, nearer_go hp rfl (Or.inr ⟨rfl, rfl, by simp [LcPc.weight]⟩)⟩
  | flushLock => exact ⟨_, .flushLock s t hp (hq rfl), nearer_go hp rfl (Or.inr ⟨rfl, rfl, by simp [LcPc.weight]⟩)⟩
  | flushRun => exact ⟨_, .flushRun s t hp, nearer_go hp rfl (Or.inr ⟨rfl, rfl, by simp [LcPc.weight]⟩)⟩
  | flushUnlock => exact ⟨_, .flushUnlock s t hp, nearer_go hp rfl (Or.inr ⟨rfl, rfl, by simp [LcPc.weight]⟩)⟩
  | lossyLock => exact ⟨_, .lossyLock s t hp (hr rfl), nearer_go hp rfl (Or.inr ⟨rfl, rfl, by simp [LcPc.weight]⟩)⟩
  | lossyRead => exact ⟨_, .lossyRead s t hp, nearer_go hp rfl (Or.inr ⟨rfl, rfl, by simp [LcPc.weight]⟩)⟩
  | lossyUnlock => exact ⟨_, .lossyUnlock s t hp, nearer_go hp rfl (Or.inr ⟨rfl, rfl, by simp [LcPc.weight]⟩)⟩
  | stats => exact ⟨_, .stats s t hp, nearer_go hp rfl (Or.inr ⟨rfl, rfl, by simp [LcPc.weight]⟩)⟩
  | stopOnce d =>
    cases hc : s.once with
    | fresh => exact ⟨_, .stopOnce s t d hp hc, nearer_go hp rfl (Or.inr ⟨rfl, rfl, by simp [LcPc.weight]⟩)⟩
    | running u => exact absurd hc (ho d rfl u)
    | done => exact ⟨_, .stopAgain s t d hp hc, nearer_go hp rfl (Or.inr ⟨rfl, rfl, by simp only [LcPc.weight]; omega⟩)⟩
  | stopLock d => exact ⟨_, .stopLock s t d hp (hq rfl), nearer_go hp rfl (Or.inr ⟨rfl, rfl, by simp [LcPc.weight]⟩)⟩
  | stopCheck d =>
    refine ⟨_, .stopCheck s t d hp, nearer_go hp rfl ?_⟩
    split
    · exact Or.inr ⟨rfl, rfl, by simp only [LcPc.weight]; omega⟩
    · exact Or.inr ⟨rfl, rfl, by simp only [LcPc.weight]; omega⟩
  | stopUnlock d => exact ⟨_, .stopUnlock s t d hp, nearer_go hp rfl (Or.inr ⟨rfl, rfl, by simp [LcPc.weight]⟩)⟩
  | stopDone d => exact ⟨_, .stopDone s t d hp, nearer_go hp rfl (Or.inr ⟨rfl, rfl, by simp [LcPc.weight]⟩)⟩
  | stopReturn d =>
    refine ⟨_, .stopReturn s t d hp, nearer_go hp rfl ?_⟩
    split
    · exact Or.inr ⟨rfl, rfl, by simp only [LcPc.weight]; omega⟩
    · exact Or.inr ⟨rfl, rfl, by simp only [LcPc.weight]; omega⟩
  | free => exact ⟨_, .free s t hp, nearer_go hp rfl (Or.inr ⟨rfl, rfl, by simp [LcPc.weight]⟩)⟩
  | recvMark c => exact ⟨_, .recvMark s t c hp, nearer_go hp rfl (Or.inr ⟨rfl, rfl, by simp [LcPc.weight]⟩)⟩
  | recvFlush c => exact ⟨_, .recvFlush s t c hp, nearer_go hp rfl (Or.inr ⟨rfl, rfl, by simp [LcPc.weight]⟩)⟩
  | recvLock c => exact ⟨_, .recvLock s t c hp (hr rfl), nearer_go hp rfl (Or.inr ⟨rfl, rfl, by simp [LcPc.weight]⟩)⟩
  | recvStop c i =>
    by_cases e : i < s.readers.length
    · exact ⟨_, .recvStop s t c i hp e, nearer_go hp rfl (Or.inr ⟨by simp [LcState.stopReader], rfl, by simp only [LcPc.weight]; omega⟩)⟩
    · exact ⟨_, .recvEnd s t c i hp (by omega), nearer_go hp rfl (Or.inr ⟨rfl, rfl, by simp only [LcPc.weight]; omega⟩)⟩
  | recvSet c => exact ⟨_, .recvSet s t c hp, nearer_go hp rfl (Or.inr ⟨rfl, rfl, by simp [LcPc.weight]⟩)⟩
  | recvUnlock c =>
    refine ⟨_, .recvUnlock s t c true hp, nearer_go hp rfl ?_⟩
    cases c <;> exact Or.inr ⟨rfl, rfl, by simp [LcPc.weight, LcBy.back]⟩
  | hLock k => exact ⟨_, .hLock s t k hp (hq rfl), nearer_go hp rfl (Or.inr ⟨rfl, rfl, by simp [LcPc.weight]⟩)⟩
  | hEnter k =>
    refine ⟨_, .hEnter s t k hp, nearer_go hp rfl ?_⟩
    split
    · split
      · exact Or.inr ⟨rfl, rfl, by simp only [LcPc.weight]; omega⟩
      · exact Or.inr ⟨rfl, rfl, by simp only [LcPc.weight]; omega⟩
    · exact Or.inr ⟨rfl, rfl, by simp only [LcPc.weight]; omega⟩
  | hBody k => exact ⟨_, .hBody s t k false hp, nearer_go hp rfl (Or.inr ⟨rfl, rfl, by simp [LcPc.weight]⟩)⟩
  | hEnd k st =>
    refine ⟨_, .hEnd s t k st hp, nearer_go hp rfl ?_⟩
    split
    · exact Or.inr ⟨rfl, rfl, by simp only [LcPc.weight]; omega⟩
    · exact Or.inr ⟨rfl, rfl, by simp only [LcPc.weight]; omega⟩
  | hStats => exact ⟨_, .hStats s t hp, nearer_go hp rfl (Or.inr ⟨rfl, rfl, by simp [LcPc.weight]⟩)⟩
  | hUnlock c => exact ⟨_, .hUnlock s t c hp, nearer_go hp rfl (Or.inr ⟨rfl, rfl, by simp [LcPc.weight]⟩)⟩

theorem holdsR_not_wants {p : LcPc} (h : p.holdsR = true) : p.wantsR = false ∧ p.wantsQ = false ∧ ∀ d, p ≠ .stopOnce d := by
  cases p <;> simp_all [LcPc.holdsR, LcPc.wantsR, LcPc.wantsQ]

theorem holdsQ_not_wants {p : LcPc} (h : p.holdsQ = true) : p.wantsQ = false ∧ ∀ d, p ≠ .stopOnce d := by
  cases p <;> simp_all [LcPc.holdsQ, LcPc.wantsQ]

theorem inOnce_not_wants {p : LcPc} (h : p.inOnce = true) : ∀ d, p ≠ .stopOnce d := by
  intro d e; rw [e] at h; cases h

theorem inOnce_ne_idle {p : LcPc} (h : p.inOnce = true) : p ≠ .idle := by intro e; rw [e] at h; cases h

/-- Unless all threads are idle, some thread can go on. -/
theorem some_step {cfg : LcConfig} {s : LcState} (L : LcLocks s) {t : Nat} (hi : s.pc t ≠ .idle) :
    ∃ s' u, LcCont cfg s s' ∧ s.pc u ≠ .idle ∧ Nearer s s' u := by
  have mk : ∀ u, s.pc u ≠ .idle → (∃ s', LcCont cfg s s' ∧ Nearer s s' u) → ∃ s' u, LcCont cfg s s' ∧ s.pc u ≠ .idle ∧ Nearer s s' u :=
    fun u h ⟨s', a, b⟩ => ⟨s', u, a, h, b⟩
  cases hr : s.r with
  | some u =>
    have a := (L.r u).mpr hr
    have b := holdsR_not_wants a
    refine mk u (by intro e; rw [e] at a; cases a) (can_step (by intro e; rw [e] at a; cases a) (by rw [b.1]; simp) (by rw [b.2.1]; simp) fun d e => absurd e (b.2.2 d))
  | none =>
    cases hq : s.q with
    | some u =>
      have a := (L.q u).mpr hq
      have b := holdsQ_not_wants a
      exact mk u (by intro e; rw [e] at a; cases a) (can_step (by intro e; rw [e] at a; cases a) (fun _ => hr) (by rw [b.1]; simp) fun d e => absurd e (b.2 d))
    | none =>
      by_cases hd : ∃ u, s.once = .running u
      · obtain ⟨u, hu⟩ := hd
        have a := (L.once u).mpr hu
        exact mk u (inOnce_ne_idle a) (can_step (inOnce_ne_idle a) (fun _ => hr) (fun _ => hq) fun d e => absurd e (inOnce_not_wants a d))
      · exact mk t hi (can_step hi (fun _ => hr) (fun _ => hq) fun _ _ u hu => hd ⟨u, hu⟩)

/-- Sum over the threads below `N`. -/
def lcTotal (f : Nat → Nat) : Nat → Nat
  | 0 => 0
  | N + 1 => lcTotal f N + f N

theorem lcTotal_eq {f g : Nat → Nat} {N : Nat} (h : ∀ u, u < N → f u = g u) : lcTotal f N = lcTotal g N := by
  induction N with
  | zero => rfl
  | succ N ih => rw [lcTotal, lcTotal, ih fun u hu => h u (by omega), h N (by omega)]

theorem lcTotal_lt {f g : Nat → Nat} {N t : Nat} (ht : t < N) (h : ∀ u, u ≠ t → f u = g u) (hlt : f t < g t) : lcTotal f N < lcTotal g N := by
  induction N with
  | zero => omega
  | succ N ih =>
    rw [lcTotal, lcTotal]
    by_cases e : t = N
    · subst e
      rw [lcTotal_eq fun u hu => h u (by omega)]; omega
    · rw [h N (by omega)]; have := ih (by omega); omega

theorem LcConts.head {cfg : LcConfig} {s s' s3 : LcState} (h : LcConts cfg s' s3) (hc : LcCont cfg s s') : LcConts cfg s s3 := by
  induction h with
  | refl => exact .step (.refl s) hc
  | step _ x ih => exact .step ih x

theorem drain {cfg : LcConfig} (N : Nat) : ∀ (a b : Nat) (s : LcState), LcLocks s → (∀ t, N ≤ t → s.pc t = .idle) →
    lcTotal (fun t => if (s.pc t).mayAdd then 1 else 0) N = a → lcTotal (fun t => (s.pc t).weight s.readers.length) N = b →
    ∃ s', LcConts cfg s s' ∧ allIdle s' := by
  intro a
  induction a using Nat.strongRecOn with
  | _ a iha =>
  intro b
  induction b using Nat.strongRecOn with
  | _ b ihb =>
  intro s L hN ha hb
  by_cases hall : allIdle s
  · exact ⟨s, .refl s, hall⟩
  · have : ∃ t, s.pc t ≠ .idle := Classical.not_forall.mp hall
    obtain ⟨t, ht⟩ := this
    obtain ⟨s', u, hc, hu, hn⟩ := some_step (cfg := cfg) L ht
    have huN : u < N := by
      apply Nat.lt_of_not_le
      intro h; exact hu (hN u h)
    have hN' : ∀ t, N ≤ t → s'.pc t = .idle := fun t h => by rw [hn.1 t (by omega)]; exact hN t h
    have fin : (∃ s3, LcConts cfg s' s3 ∧ allIdle s3) → ∃ s3, LcConts cfg s s3 ∧ allIdle s3 := fun ⟨s3, h1, h2⟩ => ⟨s3, h1.head hc, h2⟩
    apply fin
    rcases hn.2 with ⟨h1, h2⟩ | ⟨h1, h2, h3⟩
    · refine iha _ ?_ _ s' (L.cont hc) hN' rfl rfl
      rw [← ha]
      exact lcTotal_lt huN (fun v e => by rw [hn.1 v e]) (by rw [h1, h2]; simp)
    · refine ihb _ ?_ s' (L.cont hc) hN' ?_ rfl
      · rw [← hb, h1]
        exact lcTotal_lt huN (fun v e => by rw [hn.1 v e]) h3
      · rw [← ha]
        refine lcTotal_eq fun v _ => ?_
        by_cases e : v = u
        · subst e; rw [h2]
        · rw [hn.1 v e]

/-- Only finitely many threads have begun something. -/
theorem finite_begin {s s' : LcState} (st : LcBegin s s') {N : Nat} (h : ∀ t, N ≤ t → s.pc t = .idle) : ∃ N, ∀ t, N ≤ t → s'.pc t = .idle := by
  have go : ∀ (X : LcState) (t : Nat) (p : LcPc), X.pc = s.pc → ∃ N, ∀ u, N ≤ u → (X.go t p).pc u = .idle := fun X t p hx =>
    ⟨max N (t + 1), fun u hu => by rw [go_pc_ne _ _ _ (by omega), hx]; exact h u (by omega)⟩
  cases st with
  | call t p => exact go _ _ _ rfl
  | destroy t => exact go _ _ _ rfl
  | run t k => exact go _ _ _ rfl
  | post => exact ⟨N, h⟩

theorem finite_cont {cfg : LcConfig} {s s' : LcState} (st : LcCont cfg s s') {N : Nat} (h : ∀ t, N ≤ t → s.pc t = .idle) :
    ∃ N, ∀ t, N ≤ t → s'.pc t = .idle := by
  have go : ∀ (X : LcState) (t : Nat) (p : LcPc), X.pc = s.pc → ∃ N, ∀ u, N ≤ u → (X.go t p).pc u = .idle := fun X t p hx =>
    ⟨max N (t + 1), fun u hu => by rw [go_pc_ne _ _ _ (by omega), hx]; exact h u (by omega)⟩
  cases st
  case emplacePost => exact ⟨N, h⟩
  case startPost => exact ⟨N, h⟩
  case hPost => exact ⟨N, h⟩
  all_goals exact go _ _ _ rfl

theorem reach_all {cfg : LcConfig} {s : LcState} (h : LcReachable cfg s) :
    LcLocks s ∧ LcSafe s ∧ LcRd cfg s ∧ ∃ N, ∀ t, N ≤ t → s.pc t = .idle := by
  unfold LcReachable at h
  generalize hi : LcState.init cfg = i at h
  induction h with
  | refl => subst hi; exact ⟨LcLocks.init cfg, LcSafe.init cfg, LcRd.init cfg, 0, fun _ _ => rfl⟩
  | start _ st ih =>
    obtain ⟨a, b, c, N, d⟩ := ih
    exact ⟨a.begin st, b.begin st, c.begin st, finite_begin st d⟩
  | step _ st ih =>
    obtain ⟨a, b, c, N, d⟩ := ih
    exact ⟨a.cont st, b.cont a st, c.cont a b st, finite_cont st d⟩

end Spead2
