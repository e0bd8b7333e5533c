import Verif.Spec.Lifecycle

/-! # Invariants of the life of a stream -/

namespace Spead2

open Spec

/-- The threads that have locked `queue_mutex`. -/
def LcPc.holdsQ : LcPc → Bool
  | .flushRun | .flushUnlock | .stopCheck _ | .stopUnlock _ | .recvMark _ | .recvFlush _ | .recvLock _ | .recvStop _ _ | .recvSet _
  | .recvUnlock _ | .hEnter _ | .hBody _ | .hEnd _ _ | .hStats | .hUnlock _ => true
  | _ => false

/-- The threads that have locked `reader_mutex`. -/
def LcPc.holdsR : LcPc → Bool
  | .emplaceCheck | .emplaceMake | .emplaceStart _ | .emplaceUnlock | .startCheck | .startEach _ | .startSet | .startUnlock
  | .lossyRead | .lossyUnlock | .recvStop _ _ | .recvSet _ | .recvUnlock _ => true
  | _ => false

/-- The thread that runs the function passed to `call_once`. -/
def LcPc.inOnce : LcPc → Bool
  | .stopLock _ | .stopCheck _ | .stopUnlock _ | .stopDone _ | .recvMark (.stop _) | .recvFlush (.stop _) | .recvLock (.stop _)
  | .recvStop (.stop _) _ | .recvSet (.stop _) | .recvUnlock (.stop _) => true
  | _ => false

/-- The thread that runs the destructor. -/
def LcPc.inDtor : LcPc → Bool
  | .stopOnce true | .stopLock true | .stopCheck true | .stopUnlock true | .stopDone true | .stopReturn true | .recvMark (.stop true)
  | .recvFlush (.stop true) | .recvLock (.stop true) | .recvStop (.stop true) _ | .recvSet (.stop true) | .recvUnlock (.stop true)
  | .free => true
  | _ => false

/-- The threads that run a call. -/
def LcPc.isUser (p : LcPc) : Bool := !(p.isHandler || decide (p = .idle))

/-- Mutual exclusion. -/
structure LcLocks (s : LcState) : Prop where
  q : ∀ t, (s.pc t).holdsQ = true ↔ s.q = some t
  r : ∀ t, (s.pc t).holdsR = true ↔ s.r = some t
  once : ∀ t, (s.pc t).inOnce = true ↔ s.once = .running t

theorem LcLocks.init (cfg : LcConfig) : LcLocks (LcState.init cfg) :=
  ⟨by simp [LcState.init, LcPc.holdsQ], by simp [LcState.init, LcPc.holdsR], by simp [LcState.init, LcPc.inOnce]⟩

@[simp] theorem go_pc_self (s : LcState) (t : Nat) (p : LcPc) : (s.go t p).pc t = p := by simp [LcState.go]

theorem go_pc_ne (s : LcState) (t : Nat) (p : LcPc) {u : Nat} (h : u ≠ t) : (s.go t p).pc u = s.pc u := by simp [LcState.go, h]

/-- What a step of thread `t` from `p` to `p'` has to do to keep mutual exclusion. -/
theorem LcLocks.go {s X : LcState} {t : Nat} {p p' : LcPc} (h : LcLocks s) (hp : s.pc t = p) (hx : X.pc = s.pc)
    (q : if p'.holdsQ then (X.q = some t ∧ (p.holdsQ = true ∨ s.q = none)) else X.q = if p.holdsQ then none else s.q)
    (r : if p'.holdsR then (X.r = some t ∧ (p.holdsR = true ∨ s.r = none)) else X.r = if p.holdsR then none else s.r)
    (o : if p'.inOnce then (X.once = .running t ∧ (p.inOnce = true ∨ s.once = .fresh))
      else if p.inOnce then (∀ u, X.once ≠ .running u) else X.once = s.once) : LcLocks (X.go t p') := by
  have a := h.q t; have b := h.r t; have c := h.once t
  rw [hp] at a b c
  refine ⟨fun u => ?_, fun u => ?_, fun u => ?_⟩ <;> by_cases e : u = t
  · subst e; rw [go_pc_self]; show _ ↔ X.q = some u; cases h1 : p'.holdsQ <;> cases h2 : p.holdsQ <;> simp_all
  · rw [go_pc_ne _ _ _ e, hx, h.q u]; show _ ↔ X.q = some u; cases h1 : p'.holdsQ <;> cases h2 : p.holdsQ <;> simp_all <;> omega
  · subst e; rw [go_pc_self]; show _ ↔ X.r = some u; cases h1 : p'.holdsR <;> cases h2 : p.holdsR <;> simp_all
  · rw [go_pc_ne _ _ _ e, hx, h.r u]; show _ ↔ X.r = some u; cases h1 : p'.holdsR <;> cases h2 : p.holdsR <;> simp_all <;> omega
  · subst e; rw [go_pc_self]; show _ ↔ X.once = .running u; cases h1 : p'.inOnce <;> cases h2 : p.inOnce <;> simp_all
  · rw [go_pc_ne _ _ _ e, hx, h.once u]; show _ ↔ X.once = .running u; cases h1 : p'.inOnce <;> cases h2 : p.inOnce <;> simp_all <;> omega

theorem LcLocks.begin {s s' : LcState} (h : LcLocks s) (st : LcBegin s s') : LcLocks s' := by
  cases st with
  | call t p h1 h2 h3 =>
    cases p <;> simp [LcPc.isCall] at h3 <;> exact h.go h1 rfl rfl rfl rfl
  | destroy t h1 h2 h3 => exact h.go h1 rfl rfl rfl rfl
  | run t k h1 h2 => exact h.go h1 rfl rfl rfl rfl
  | post h1 => exact ⟨h.q, h.r, h.once⟩

theorem LcLocks.cont {cfg : LcConfig} {s s' : LcState} (h : LcLocks s) (st : LcCont cfg s s') : LcLocks s' := by
  cases st
  case emplacePost => exact ⟨h.q, h.r, h.once⟩
  case startPost => exact ⟨h.q, h.r, h.once⟩
  case hPost => exact ⟨h.q, h.r, h.once⟩
  case' recvUnlock t c k hp => cases c <;> cases k
  case' recvMark t c hp => cases c
  case' recvFlush t c hp => cases c
  case' recvSet t c hp => cases c
  case' recvLock t c hp hr => cases c
  case' recvStop t c i hp hr => cases c
  case' recvEnd t c i hp hr => cases c
  all_goals
    repeat' split
    all_goals
    refine h.go ‹_› rfl ?_ ?_ ?_
    all_goals first
      | rfl
      | exact ⟨rfl, Or.inr ‹_›⟩
      | (refine ⟨(h.q _).mp ?_, Or.inl rfl⟩; simp only [‹s.pc _ = _›]; rfl)
      | (refine ⟨(h.r _).mp ?_, Or.inl rfl⟩; simp only [‹s.pc _ = _›]; rfl)
      | (refine ⟨(h.once _).mp ?_, Or.inl rfl⟩; simp only [‹s.pc _ = _›]; rfl)
      | (intro u; show (LcOnce.done : LcOnce) ≠ _; simp)

/-- The threads that rely on the stream not being stopped yet. -/
def LcPc.preMark : LcPc → Bool
  | .hBody _ | .hEnd _ _ | .recvMark _ => true
  | _ => false

/-- The threads that know that the stream is stopped. -/
def LcPc.postMark : LcPc → Bool
  | .recvFlush _ | .recvLock _ | .recvStop _ _ | .recvSet _ | .recvUnlock _ | .stopUnlock _ | .stopDone _ => true
  | _ => false

/-- The threads in which `call_once` has returned. -/
def LcPc.returned : LcPc → Bool
  | .stopReturn _ | .free => true
  | _ => false

/-- Who may use the stream. -/
structure LcSafe (s : LcState) : Prop where
  selfEq : s.self = !s.stopped
  pre : ∀ t, (s.pc t).preMark = true → s.stopped = false
  post : ∀ t, (s.pc t).postMark = true → s.stopped = true
  done : s.once = .done → s.stopped = true
  quiet : ∀ t, inHandlerBody (s.pc t) = true → s.once ≠ .done ∧ ∀ u d, s.pc u ≠ .stopDone d
  ret : ∀ t, (s.pc t).returned = true → s.once = .done
  dead : s.alive = false → s.once = .done ∧ s.dtor ≠ none
  user : ∀ t, (s.pc t).isUser = true → s.alive = true ∧ s.dtor = if (s.pc t).inDtor then some t else none
  dtorIn : ∀ t, s.dtor = some t → s.alive = true → (s.pc t).inDtor = true

theorem LcSafe.init (cfg : LcConfig) : LcSafe (LcState.init cfg) := by
  constructor <;> simp [LcState.init, LcPc.preMark, LcPc.postMark, LcPc.returned, inHandlerBody, LcPc.isUser]

theorem inHandlerBody_holdsQ {p : LcPc} (h : inHandlerBody p = true) : p.holdsQ = true := by
  cases p <;> simp_all [inHandlerBody, LcPc.holdsQ]

theorem preMark_holdsQ {p : LcPc} (h : p.preMark = true) : p.holdsQ = true := by
  cases p <;> simp_all [LcPc.preMark, LcPc.holdsQ]

/-- What a step of thread `t` from `p` to `p'` has to do to keep `LcSafe`. -/
theorem LcSafe.go {s X : LcState} {t : Nat} {p p' : LcPc} (L : LcLocks s) (h : LcSafe s) (hp : s.pc t = p) (hx : X.pc = s.pc)
    (selfEq : X.self = !X.stopped) (stopped : X.stopped = s.stopped ∨ (p.holdsQ = true ∧ X.stopped = true))
    (pre : p'.preMark = true → X.stopped = false) (post : p'.postMark = true → X.stopped = true)
    (once : X.once = s.once ∨ (X.once = .running t ∧ s.once = .fresh) ∨ (X.once = .done ∧ ∃ d, p = .stopDone d))
    (quiet : inHandlerBody p' = true → inHandlerBody p = true ∨ s.stopped = false)
    (sd : ∀ d, p' = .stopDone d → p.holdsQ = true)
    (ret : p'.returned = true → X.once = .done)
    (alive : X.alive = s.alive ∨ (p = .free ∧ X.alive = false))
    (dt : X.dtor = s.dtor) (user : p'.isUser = true → p.isUser = true ∧ p'.inDtor = p.inDtor ∧ p ≠ .free)
    (dtor : p.inDtor = true → p'.inDtor = true ∨ X.alive = false) : LcSafe (X.go t p') := by
  have mono : s.stopped = true → X.stopped = true := by rcases stopped with e | e <;> simp_all
  have sdst : ∀ d, p = .stopDone d → s.stopped = true := fun d e => h.post t (by rw [hp, e]; rfl)
  have odone : s.once = .done → X.once = .done := by
    rcases once with e | ⟨e, e'⟩ | ⟨e, _⟩
    · rw [e]; exact id
    · rw [e']; simp
    · exact fun _ => e
  constructor
  · exact selfEq
  · intro u hu
    by_cases e : u = t
    · subst e; rw [go_pc_self] at hu; exact pre hu
    · rw [go_pc_ne _ _ _ e, hx] at hu
      show X.stopped = false
      rcases stopped with e' | ⟨e', _⟩
      · rw [e']; exact h.pre u hu
      · have a := (L.q u).mp (preMark_holdsQ hu)
        have b := (L.q t).mp (by rw [hp]; exact e')
        rw [a] at b; exact absurd (Option.some.inj b) e
  · intro u hu
    by_cases e : u = t
    · subst e; rw [go_pc_self] at hu; exact post hu
    · rw [go_pc_ne _ _ _ e, hx] at hu
      exact mono (h.post u hu)
  · intro hd
    change X.once = .done at hd
    show X.stopped = true
    rcases once with e | ⟨e, _⟩ | ⟨_, d, e⟩
    · exact mono (h.done (by rw [← e]; exact hd))
    · rw [e] at hd; cases hd
    · exact mono (sdst d e)
  · intro u hu
    show X.once ≠ .done ∧ _
    have old : ∀ v, inHandlerBody (s.pc v) = true → X.once ≠ .done := fun v hv => by
      have q := h.quiet v hv
      rcases once with e | ⟨e, _⟩ | ⟨_, d, e⟩
      · rw [e]; exact q.1
      · rw [e]; simp
      · exact absurd (hp.trans e) (q.2 t d)
    by_cases e : u = t
    · subst e; rw [go_pc_self] at hu
      have nsd : ∀ d, p' ≠ .stopDone d := fun d e => by rw [e] at hu; simp [inHandlerBody] at hu
      rcases quiet hu with a | a
      · rw [← hp] at a
        refine ⟨old u a, fun v d => ?_⟩
        by_cases e : v = u
        · subst e; rw [go_pc_self]; exact nsd d
        · rw [go_pc_ne _ _ _ e, hx]; exact (h.quiet u a).2 v d
      · refine ⟨?_, fun v d => ?_⟩
        · rcases once with e | ⟨e, _⟩ | ⟨_, d, e⟩
          · rw [e]; intro c; rw [h.done c] at a; cases a
          · rw [e]; simp
          · rw [sdst d e] at a; cases a
        · by_cases e : v = u
          · subst e; rw [go_pc_self]; exact nsd d
          · rw [go_pc_ne _ _ _ e, hx]; intro c
            rw [h.post v (by rw [c]; rfl)] at a; cases a
    · rw [go_pc_ne _ _ _ e, hx] at hu
      refine ⟨old u hu, fun v d => ?_⟩
      by_cases e' : v = t
      · subst e'; rw [go_pc_self]; intro c
        have a := (L.q u).mp (inHandlerBody_holdsQ hu)
        have b := (L.q v).mp (by rw [hp]; exact sd d c)
        rw [a] at b; exact e (Option.some.inj b)
      · rw [go_pc_ne _ _ _ e', hx]; exact (h.quiet u hu).2 v d
  · intro u hu
    by_cases e : u = t
    · subst e; rw [go_pc_self] at hu; exact ret hu
    · rw [go_pc_ne _ _ _ e, hx] at hu
      exact odone (h.ret u hu)
  · intro ha
    change X.alive = false at ha
    show X.once = .done ∧ X.dtor ≠ none
    rw [dt]
    rcases alive with e | ⟨e, _⟩
    · rw [e] at ha; exact ⟨odone (h.dead ha).1, (h.dead ha).2⟩
    · refine ⟨odone (h.ret t (by rw [hp, e]; rfl)), ?_⟩
      rw [(h.user t (by rw [hp, e]; rfl)).2, hp, e]; simp [LcPc.inDtor]
  · intro u hu
    show X.alive = true ∧ X.dtor = _
    rw [dt]
    by_cases e : u = t
    · subst e; rw [go_pc_self] at hu ⊢
      obtain ⟨a, b, c⟩ := user hu
      have d := h.user u (by rw [hp]; exact a)
      rw [hp] at d
      refine ⟨?_, by rw [b]; exact d.2⟩
      rcases alive with e | e
      · rw [e]; exact d.1
      · exact absurd e.1 c
    · rw [go_pc_ne _ _ _ e, hx] at hu ⊢
      have d := h.user u hu
      refine ⟨?_, d.2⟩
      rcases alive with e' | ⟨e', _⟩
      · rw [e']; exact d.1
      · have f := (h.user t (by rw [hp, e']; rfl)).2
        rw [hp, e'] at f
        rw [d.2] at f
        change (if (s.pc u).inDtor = true then some u else none) = some t at f
        by_cases g : (s.pc u).inDtor = true
        · rw [if_pos g] at f; exact absurd (Option.some.inj f) e
        · rw [if_neg g] at f; cases f
  · intro u hu ha
    change X.dtor = some u at hu
    change X.alive = true at ha
    have ha' : s.alive = true := by
      rcases alive with e | e
      · rw [← e]; exact ha
      · rw [e.2] at ha; cases ha
    have a := h.dtorIn u (by rw [← dt]; exact hu) ha'
    by_cases e : u = t
    · subst e; rw [go_pc_self]
      rw [hp] at a
      rcases dtor a with b | b
      · exact b
      · rw [b] at ha; cases ha
    · rw [go_pc_ne _ _ _ e, hx]; exact a

/-- New handlers do not matter. -/
theorem LcSafe.pend {s : LcState} (h : LcSafe s) (l : List (Option Nat)) : LcSafe { s with pending := l } :=
  ⟨h.selfEq, h.pre, h.post, h.done, h.quiet, h.ret, h.dead, h.user, h.dtorIn⟩

theorem LcSafe.post' {s : LcState} (h : LcSafe s) {t : Nat} {p : LcPc} (hp : s.pc t = p) (hm : p.postMark = true) : s.stopped = true :=
  h.post t (by rw [hp]; exact hm)

theorem LcSafe.pre' {s : LcState} (h : LcSafe s) {t : Nat} {p : LcPc} (hp : s.pc t = p) (hm : p.preMark = true) : s.stopped = false :=
  h.pre t (by rw [hp]; exact hm)

theorem LcSafe.ret' {s : LcState} (h : LcSafe s) {t : Nat} {p : LcPc} (hp : s.pc t = p) (hm : p.returned = true) : s.once = .done :=
  h.ret t (by rw [hp]; exact hm)

theorem LcSafe.cont {cfg : LcConfig} {s s' : LcState} (L : LcLocks s) (h : LcSafe s) (st : LcCont cfg s s') : LcSafe s' := by
  cases st
  case emplacePost => exact h.pend _
  case startPost => exact h.pend _
  case hPost => exact h.pend _
  case' recvUnlock t c k hp => cases c <;> cases k
  case' recvMark t c hp => cases c
  case' recvFlush t c hp => cases c
  case' recvSet t c hp => cases c
  case' recvLock t c hp hr => cases c
  case' recvStop t c i hp hr => cases c
  case' stopReturn t d hp => cases d
  case' recvEnd t c i hp hr => cases c
  all_goals
    repeat' split
    all_goals (try cases ‹Bool›)
    all_goals
    refine LcSafe.go L h ‹_› rfl ?_ ?_ ?_ ?_ ?_ ?_ ?_ ?_ ?_ ?_ ?_ ?_
    all_goals first
      | exact h.selfEq
      | exact Or.inl rfl
      | (intro hc; cases hc; done)
      | exact fun _ => Or.inl rfl
      | (intro _ hc; cases hc; done)
      | (intro _; exact ⟨rfl, rfl, by simp⟩)
      | rfl
      | exact fun _ => ‹s.stopped = true›
      | exact fun _ => h.post' ‹s.pc _ = _› rfl
      | exact fun _ => h.pre' ‹s.pc _ = _› rfl
      | exact fun _ => h.ret' ‹s.pc _ = _› rfl
      | exact Or.inr ⟨rfl, rfl⟩
      | exact Or.inr (Or.inl ⟨rfl, ‹_›⟩)
      | exact Or.inr (Or.inr ⟨rfl, _, rfl⟩)
      | exact fun _ => rfl
      | exact fun _ => ‹_›
      | exact fun _ => Or.inr rfl
      | exact fun _ _ => rfl
      | exact fun _ => Bool.eq_false_iff.mpr ‹¬ s.stopped = true›
      | exact fun _ => Or.inr (Bool.eq_false_iff.mpr ‹¬ s.stopped = true›)
      | (exfalso; have := h.selfEq; simp_all; done)

/-- What it takes to keep `LcSafe` when an idle thread begins something. -/
theorem LcSafe.fresh {s : LcState} {t : Nat} {p : LcPc} (h : LcSafe s) (hi : s.pc t = .idle) {dt : Option Nat} {l : List (Option Nat)}
    (h1 : p.preMark = false) (h2 : p.postMark = false) (h3 : inHandlerBody p = false) (h4 : p.returned = false)
    (h5 : p.isUser = true → s.alive = true ∧ dt = if p.inDtor then some t else none)
    (h6 : dt = s.dtor ∨ (dt = some t ∧ (∀ u, (s.pc u).isUser = false) ∧ p.inDtor = true)) :
    LcSafe ({ s with dtor := dt, pending := l }.go t p) := by
  have nsd : ∀ d, p ≠ .stopDone d := fun d e => by rw [e] at h2; cases h2
  refine ⟨h.selfEq, fun u hu => ?_, fun u hu => ?_, h.done, fun u hu => ⟨?_, fun v d => ?_⟩, fun u hu => ?_, fun ha => ⟨(h.dead ha).1, ?_⟩, fun u hu => ?_,
    fun u hu ha => ?_⟩
  · by_cases e : u = t
    · subst e; rw [go_pc_self, h1] at hu; cases hu
    · rw [go_pc_ne _ _ _ e] at hu; exact h.pre u hu
  · by_cases e : u = t
    · subst e; rw [go_pc_self, h2] at hu; cases hu
    · rw [go_pc_ne _ _ _ e] at hu; exact h.post u hu
  · by_cases e : u = t
    · subst e; rw [go_pc_self, h3] at hu; cases hu
    · rw [go_pc_ne _ _ _ e] at hu; exact (h.quiet u hu).1
  · by_cases e : u = t
    · subst e; rw [go_pc_self, h3] at hu; cases hu
    · rw [go_pc_ne _ _ _ e] at hu
      by_cases e' : v = t
      · subst e'; rw [go_pc_self]; exact nsd d
      · rw [go_pc_ne _ _ _ e']; exact (h.quiet u hu).2 v d
  · by_cases e : u = t
    · subst e; rw [go_pc_self, h4] at hu; cases hu
    · rw [go_pc_ne _ _ _ e] at hu; exact h.ret u hu
  · show dt ≠ none
    rcases h6 with e | ⟨e, _⟩
    · rw [e]; exact (h.dead ha).2
    · rw [e]; simp
  · show s.alive = true ∧ dt = _
    by_cases e : u = t
    · subst e; rw [go_pc_self] at hu ⊢; exact h5 hu
    · rw [go_pc_ne _ _ _ e] at hu ⊢
      rcases h6 with e' | ⟨_, e', _⟩
      · rw [e']; exact h.user u hu
      · change (s.pc u).isUser = true at hu
        rw [e' u] at hu; cases hu
  · change dt = some u at hu
    by_cases e : u = t
    · subst e; rw [go_pc_self]
      rcases h6 with e' | e'
      · rw [e'] at hu
        have := h.dtorIn u hu ha
        rw [hi] at this; cases this
      · exact e'.2.2
    · rw [go_pc_ne _ _ _ e]
      rcases h6 with e' | e'
      · rw [e'] at hu; exact h.dtorIn u hu ha
      · rw [e'.1] at hu; exact absurd (Option.some.inj hu).symm e

theorem LcSafe.begin {s s' : LcState} (h : LcSafe s) (st : LcBegin s s') : LcSafe s' := by
  have al : s.dtor = none → s.alive = true := fun e => by
    cases ha : s.alive
    · exact absurd e (h.dead ha).2
    · rfl
  cases st with
  | call t p h1 h2 h3 =>
    cases p <;> (try (cases ‹Bool›)) <;> simp [LcPc.isCall] at h3 <;>
      exact h.fresh h1 rfl rfl rfl rfl (fun _ => ⟨al h2, h2⟩) (Or.inl rfl)
  | destroy t h1 h2 h3 =>
    refine h.fresh h1 rfl rfl rfl rfl (fun _ => ⟨al h2, rfl⟩) (Or.inr ⟨rfl, fun u => ?_, rfl⟩)
    rcases h3 u with e | e <;> simp [LcPc.isUser, e]
  | run t k h1 h2 => exact h.fresh h1 rfl rfl rfl rfl (fun hc => by cases hc) (Or.inl rfl)
  | post h1 => exact h.pend _

theorem reach_safe {cfg : LcConfig} {s : LcState} (h : LcReachable cfg s) : LcLocks s ∧ LcSafe s := by
  unfold LcReachable at h
  generalize hi : LcState.init cfg = i at h
  induction h with
  | refl => subst hi; exact ⟨LcLocks.init cfg, LcSafe.init cfg⟩
  | start _ st ih => exact ⟨ih.1.begin st, ih.2.begin st⟩
  | step _ st ih => exact ⟨ih.1.cont st, ih.2.cont ih.1 st⟩

end Spead2
