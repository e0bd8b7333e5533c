import Verif.Lemmas.Lifecycle

/-! # Invariants of the life of a stream: the readers -/

namespace Spead2

open Spec

/-- The reader that a thread deals with. -/
def LcPc.readerOf : LcPc → Option Nat
  | .emplaceStart i | .hLock (some i) | .hEnter (some i) | .hBody (some i) | .hEnd (some i) _ => some i
  | _ => none

/-- The threads that have set `stopped` but not `stop_readers`. -/
def LcPc.preSet : LcPc → Bool
  | .recvFlush _ | .recvLock _ | .recvStop _ _ | .recvSet _ => true
  | _ => false

/-- The threads that are adding a reader. -/
def LcPc.adding : LcPc → Bool
  | .emplaceMake | .emplaceStart _ => true
  | _ => false

/-- The threads that start all readers. -/
def LcPc.starting : LcPc → Bool
  | .startEach _ | .startSet => true
  | _ => false

/-- What is known about the readers. -/
structure LcRd (cfg : LcConfig) (s : LcState) : Prop where
  pend : ∀ i, some i ∈ s.pending → i < s.readers.length
  ref : ∀ t i, (s.pc t).readerOf = some i → i < s.readers.length
  fresh : s.noMore = false → (∀ t c i, s.pc t ≠ .recvStop c i) → (∀ t c, s.pc t ≠ .recvSet c) →
    ∀ (j : Nat) x, s.readers[j]? = some x → x.stops = 0
  mid : ∀ t c i, s.pc t = .recvStop c i → s.noMore = false ∧ ∀ (j : Nat) x, s.readers[j]? = some x → x.stops = if j < i then 1 else 0
  full : ∀ t c, s.pc t = .recvSet c → ∀ (j : Nat) x, s.readers[j]? = some x → x.stops = 1
  all : s.noMore = true → ∀ (j : Nat) x, s.readers[j]? = some x → x.stops = 1
  make : ∀ t, (s.pc t).adding = true → s.noMore = false
  op : ∀ t, (s.pc t).preSet = true → s.noMore = false
  early : s.stopped = false → s.noMore = false
  wait : s.stopped = true → s.noMore = false → ∃ t, (s.pc t).preSet = true
  impl : cfg.explicitStart = false → s.started = true ∧ (∀ t, (s.pc t).starting = false)
  imps : cfg.explicitStart = false → ∀ (j : Nat) x, s.readers[j]? = some x →
    x.late = false ∧ (x.starts = 1 ∨ (x.starts = 0 ∧ ∃ t, s.pc t = .emplaceStart j))
  zero : ∀ t (j : Nat), s.pc t = .emplaceStart j → ∀ x, s.readers[j]? = some x → x.starts = 0

theorem LcRd.init (cfg : LcConfig) : LcRd cfg (LcState.init cfg) := by
  constructor <;> simp [LcState.init, LcPc.readerOf, LcPc.adding, LcPc.starting, LcPc.preSet]

/-- Steps that do not matter to the readers. -/
theorem LcRd.frame {cfg : LcConfig} {s X : LcState} {t : Nat} {p p' : LcPc} (h : LcRd cfg s) (hp : s.pc t = p) (hx : X.pc = s.pc)
    (h1 : X.readers = s.readers) (h2 : X.noMore = s.noMore) (h3 : X.stopped = s.stopped) (h4 : X.started = s.started)
    (h5 : ∀ k, k ∈ X.pending → k ∈ s.pending) (h6 : p.preSet = false) (h7 : p'.preSet = false) (h8 : p'.adding = false)
    (h9 : p'.starting = false) (h10 : ∀ i, p'.readerOf = some i → p.readerOf = some i ∨ some i ∈ s.pending)
    (h11 : ∀ i, p ≠ .emplaceStart i) : LcRd cfg (X.go t p') := by
  have ne : ∀ {u}, u ≠ t → (X.go t p').pc u = s.pc u := fun e => by rw [go_pc_ne _ _ _ e, hx]
  have back : ∀ {P : LcPc → Prop} u, ¬ P p' → P ((X.go t p').pc u) → P (s.pc u) := fun {P} u hn hu => by
    by_cases e : u = t
    · subst e; rw [go_pc_self] at hu; exact absurd hu hn
    · rw [ne e] at hu; exact hu
  have forth : ∀ {P : LcPc → Prop} u, ¬ P p → P (s.pc u) → P ((X.go t p').pc u) := fun {P} u hn hu => by
    by_cases e : u = t
    · subst e; rw [hp] at hu; exact absurd hu hn
    · rw [ne e]; exact hu
  refine ⟨fun i hi => ?_, fun u i hu => ?_, fun a b c => ?_, fun u c i hu => ?_, fun u c hu => ?_, fun a => ?_, fun u hu => ?_, fun u hu => ?_, fun a => ?_, fun a b => ?_, fun a => ?_, fun a j x hj => ?_, fun u j hu x hj => ?_⟩
  · show _ < X.readers.length
    rw [h1]; exact h.pend i (h5 _ hi)
  · show _ < X.readers.length
    rw [h1]
    by_cases e : u = t
    · subst e; rw [go_pc_self] at hu
      rcases h10 i hu with a | a
      · exact h.ref u i (by rw [hp]; exact a)
      · exact h.pend i a
    · rw [ne e] at hu; exact h.ref u i hu
  · change X.noMore = false at a
    show ∀ (j : Nat) x, X.readers[j]? = some x → _
    rw [h1]
    rw [h2] at a
    refine h.fresh a (fun u c' i hu => ?_) (fun u c' hu => ?_)
    · exact b u c' i (forth (P := fun q => q = .recvStop c' i) u (fun e => by rw [e] at h6; cases h6) hu)
    · exact c u c' (forth (P := fun q => q = .recvSet c') u (fun e => by rw [e] at h6; cases h6) hu)
  · show X.noMore = false ∧ ∀ (j : Nat) x, X.readers[j]? = some x → _
    rw [h1, h2]
    exact h.mid u c i (back (P := fun q => q = .recvStop c i) u (fun e => by rw [e] at h7; cases h7) hu)
  · show ∀ (j : Nat) x, X.readers[j]? = some x → _
    rw [h1]
    exact h.full u c (back (P := fun q => q = .recvSet c) u (fun e => by rw [e] at h7; cases h7) hu)
  · show ∀ (j : Nat) x, X.readers[j]? = some x → _
    change X.noMore = true at a
    rw [h1]
    rw [h2] at a
    exact h.all a
  · show X.noMore = false
    rw [h2]
    exact h.make u (back (P := fun q => q.adding = true) u (by rw [h8]; simp) hu)
  · show X.noMore = false
    rw [h2]
    exact h.op u (back (P := fun q => q.preSet = true) u (by rw [h7]; simp) hu)
  · change X.stopped = false at a
    show X.noMore = false
    rw [h2]; rw [h3] at a; exact h.early a
  · change X.stopped = true at a
    change X.noMore = false at b
    rw [h3] at a; rw [h2] at b
    obtain ⟨u, hu⟩ := h.wait a b
    exact ⟨u, forth (P := fun q => q.preSet = true) u (by rw [h6]; simp) hu⟩
  · refine ⟨by show X.started = true; rw [h4]; exact (h.impl a).1, fun u => ?_⟩
    by_cases e : u = t
    · subst e; rw [go_pc_self]; exact h9
    · rw [ne e]; exact (h.impl a).2 u
  · change X.readers[j]? = some x at hj
    rw [h1] at hj
    refine ⟨(h.imps a j x hj).1, (h.imps a j x hj).2.imp id fun ⟨b, u, hu⟩ => ⟨b, u, ?_⟩⟩
    exact forth (P := fun q => q = .emplaceStart j) u (h11 j) hu
  · change X.readers[j]? = some x at hj
    rw [h1] at hj
    exact h.zero u j (back (P := fun q => q = .emplaceStart j) u (fun e => by rw [e] at h8; cases h8) hu) x hj

theorem LcRd.begin {cfg : LcConfig} {s s' : LcState} (h : LcRd cfg s) (st : LcBegin s s') : LcRd cfg s' := by
  cases st with
  | call t p h1 h2 h3 =>
    cases p <;> (try (cases ‹Bool›)) <;> simp [LcPc.isCall] at h3 <;>
      exact h.frame h1 rfl rfl rfl rfl rfl (fun _ => id) rfl rfl rfl rfl (fun _ hc => by cases hc) (fun _ hc => by cases hc)
  | destroy t h1 h2 h3 =>
    exact h.frame h1 rfl rfl rfl rfl rfl (fun _ => id) rfl rfl rfl rfl (fun _ hc => by cases hc) (fun _ hc => by cases hc)
  | run t k h1 h2 =>
    refine h.frame h1 rfl rfl rfl rfl rfl (fun _ => List.mem_of_mem_erase) rfl rfl rfl rfl ?_ (fun _ hc => by cases hc)
    intro i hi
    cases k with
    | none => cases hi
    | some j => exact Or.inr (by cases hi; exact h2)
  | post h1 =>
    exact ⟨fun i hi => h.pend i (by simpa using hi), h.ref, h.fresh, h.mid, h.full, h.all, h.make, h.op, h.early, h.wait, h.impl, h.imps, h.zero⟩

theorem LcRd.post {cfg : LcConfig} {s : LcState} (h : LcRd cfg s) {k : Option Nat} (hk : ∀ i, k = some i → i < s.readers.length) :
    LcRd cfg { s with pending := k :: s.pending } := by
  refine ⟨fun i hi => ?_, h.ref, h.fresh, h.mid, h.full, h.all, h.make, h.op, h.early, h.wait, h.impl, h.imps, h.zero⟩
  rcases List.mem_cons.mp hi with e | e
  · exact hk i e.symm
  · exact h.pend i e

set_option maxHeartbeats 2000000 in
theorem LcRd.cont {cfg : LcConfig} {s s' : LcState} (L : LcLocks s) (S : LcSafe s) (h : LcRd cfg s) (st : LcCont cfg s s') : LcRd cfg s' := by
  have fr : ∀ {X : LcState} {t : Nat} {p p' : LcPc}, s.pc t = p → X.pc = s.pc → X.readers = s.readers → X.noMore = s.noMore →
      X.stopped = s.stopped → X.started = s.started → X.pending = s.pending → p.preSet = false → p'.preSet = false → p'.adding = false →
      p'.starting = false → (p'.readerOf = none ∨ p'.readerOf = p.readerOf) → (∀ i, p ≠ .emplaceStart i) → LcRd cfg (X.go t p') :=
    fun a b c d e f g i j k l m n => h.frame a b c d e f (fun _ hk => by rw [g] at hk; exact hk) i j k l
      (fun i hi => by rcases m with m | m
                      · rw [m] at hi; cases hi
                      · rw [m] at hi; exact Or.inl hi) n
  have uniqR : ∀ {u v : Nat}, (s.pc u).holdsR = true → (s.pc v).holdsR = true → u = v := fun a b => by
    have a := (L.r _).mp a; have b := (L.r _).mp b; rw [a] at b; exact Option.some.inj b
  have uniqQ : ∀ {u v : Nat}, (s.pc u).holdsQ = true → (s.pc v).holdsQ = true → u = v := fun a b => by
    have a := (L.q _).mp a; have b := (L.q _).mp b; rw [a] at b; exact Option.some.inj b
  cases st
  case emplacePost t r hp => exact h.post fun i hi => h.ref t i (by rw [hp]; exact hi)
  case startPost t i hp hi => exact h.post fun j hj => by cases hj; exact hi
  case hPost t k k' hp hk =>
    refine h.post fun i hi => ?_
    rcases hk with e | e
    · subst e; subst hi; exact h.ref t i (by rw [hp]; rfl)
    · rw [e] at hi; cases hi
  case hEnter t k hp =>
    repeat' split
    all_goals cases k
    all_goals exact fr hp rfl rfl rfl rfl rfl rfl rfl rfl rfl rfl (by first | exact Or.inl rfl | exact Or.inr rfl) (fun _ hc => by cases hc)
  case hLock t k hp hq =>
    cases k
    all_goals exact fr hp rfl rfl rfl rfl rfl rfl rfl rfl rfl rfl (by first | exact Or.inl rfl | exact Or.inr rfl) (fun _ hc => by cases hc)
  case hBody t k st hp =>
    cases k
    all_goals exact fr hp rfl rfl rfl rfl rfl rfl rfl rfl rfl rfl (by first | exact Or.inl rfl | exact Or.inr rfl) (fun _ hc => by cases hc)
  case recvUnlock t c k hp =>
    cases c <;> cases k <;> exact fr hp rfl rfl rfl rfl rfl rfl rfl rfl rfl rfl (Or.inl rfl) (fun _ hc => by cases hc)
  case' stopReturn => split
  case' stopCheck => split
  case' hEnd => split
  case' emplaceCheck => split
  case' startCheck => split
  all_goals
    first
    | exact fr ‹_› rfl rfl rfl rfl rfl rfl rfl rfl rfl rfl (Or.inl rfl) (fun _ hc => by cases hc)
    | skip
  case emplaceCheck.isFalse t hp hc =>
    have r1 : ∀ u c i, s.pc u = .recvStop c i → u = t := fun u c i e => uniqR (by rw [e]; rfl) (by rw [hp]; rfl)
    have r2 : ∀ u c, s.pc u = .recvSet c → u = t := fun u c e => uniqR (by rw [e]; rfl) (by rw [hp]; rfl)
    have r4 : ∀ u j, s.pc u = .emplaceStart j → u = t := fun u c e => uniqR (by rw [e]; rfl) (by rw [hp]; rfl)
    have r3 : ∀ u, (s.pc u).adding = true → u = t := fun u e => uniqR (by revert e; cases s.pc u <;> simp [LcPc.adding, LcPc.holdsR]) (by rw [hp]; rfl)
    split
    · exact fr hp rfl rfl rfl rfl rfl rfl rfl rfl rfl rfl (Or.inl rfl) (fun _ hc => by cases hc)
    all_goals obtain ⟨f1, f2, f3, f4, f5, f6, f7, f12, f8, f9, f10, f11, f14⟩ := h
    all_goals constructor
    all_goals simp only [LcState.go, LcState.startReader, LcState.stopReader, List.getElem?_modify, List.length_modify]
    all_goals first | grind [LcPc.readerOf, LcPc.adding, LcPc.starting, LcPc.preSet] | skip
  case emplaceMake t hp =>
    have r1 : ∀ u c i, s.pc u = .recvStop c i → u = t := fun u c i e => uniqR (by rw [e]; rfl) (by rw [hp]; rfl)
    have r2 : ∀ u c, s.pc u = .recvSet c → u = t := fun u c e => uniqR (by rw [e]; rfl) (by rw [hp]; rfl)
    have r4 : ∀ u j, s.pc u = .emplaceStart j → u = t := fun u c e => uniqR (by rw [e]; rfl) (by rw [hp]; rfl)
    have r3 : ∀ u, (s.pc u).adding = true → u = t := fun u e => uniqR (by revert e; cases s.pc u <;> simp [LcPc.adding, LcPc.holdsR]) (by rw [hp]; rfl)
    split
    all_goals obtain ⟨f1, f2, f3, f4, f5, f6, f7, f12, f8, f9, f10, f11, f14⟩ := h
    all_goals constructor
    all_goals simp only [LcState.go, LcState.startReader, LcState.stopReader, List.getElem?_modify, List.length_modify]
    all_goals first | grind [LcPc.readerOf, LcPc.adding, LcPc.starting, LcPc.preSet] | skip
  case emplaceStart t r hp =>
    have nf : s.noMore = false := h.make t (by rw [hp]; rfl)
    have z : ∀ (j : Nat) x, s.readers[j]? = some x → x.stops = 0 := h.fresh nf
      (fun u c i e => by have := uniqR (u := u) (v := t) (by rw [e]; rfl) (by rw [hp]; rfl); subst this; rw [hp] at e; cases e)
      (fun u c e => by have := uniqR (u := u) (v := t) (by rw [e]; rfl) (by rw [hp]; rfl); subst this; rw [hp] at e; cases e)
    have us : ∀ u j, s.pc u = .emplaceStart j → u = t ∧ j = r := fun u j e => by
      have := uniqR (u := u) (v := t) (by rw [e]; rfl) (by rw [hp]; rfl); subst this; rw [hp] at e; cases e; exact ⟨rfl, rfl⟩
    have z0 := h.zero t r hp
    have r1 : ∀ u c i, s.pc u = .recvStop c i → u = t := fun u c i e => uniqR (by rw [e]; rfl) (by rw [hp]; rfl)
    have r2 : ∀ u c, s.pc u = .recvSet c → u = t := fun u c e => uniqR (by rw [e]; rfl) (by rw [hp]; rfl)
    have r4 : ∀ u j, s.pc u = .emplaceStart j → u = t := fun u c e => uniqR (by rw [e]; rfl) (by rw [hp]; rfl)
    have r3 : ∀ u, (s.pc u).adding = true → u = t := fun u e => uniqR (by revert e; cases s.pc u <;> simp [LcPc.adding, LcPc.holdsR]) (by rw [hp]; rfl)
    all_goals obtain ⟨f1, f2, f3, f4, f5, f6, f7, f12, f8, f9, f10, f11, f14⟩ := h
    all_goals constructor
    all_goals simp only [LcState.go, LcState.startReader, LcState.stopReader, List.getElem?_modify, List.length_modify]
    all_goals first | grind [LcPc.readerOf, LcPc.adding, LcPc.starting, LcPc.preSet] | skip
  case startCheck.isFalse t hp hc =>
    have r1 : ∀ u c i, s.pc u = .recvStop c i → u = t := fun u c i e => uniqR (by rw [e]; rfl) (by rw [hp]; rfl)
    have r2 : ∀ u c, s.pc u = .recvSet c → u = t := fun u c e => uniqR (by rw [e]; rfl) (by rw [hp]; rfl)
    have r4 : ∀ u j, s.pc u = .emplaceStart j → u = t := fun u c e => uniqR (by rw [e]; rfl) (by rw [hp]; rfl)
    have r3 : ∀ u, (s.pc u).adding = true → u = t := fun u e => uniqR (by revert e; cases s.pc u <;> simp [LcPc.adding, LcPc.holdsR]) (by rw [hp]; rfl)
    all_goals obtain ⟨f1, f2, f3, f4, f5, f6, f7, f12, f8, f9, f10, f11, f14⟩ := h
    all_goals constructor
    all_goals simp only [LcState.go, LcState.startReader, LcState.stopReader, List.getElem?_modify, List.length_modify]
    all_goals first | grind [LcPc.readerOf, LcPc.adding, LcPc.starting, LcPc.preSet] | skip
  case startEach t i hp hi =>
    have r1 : ∀ u c i, s.pc u = .recvStop c i → u = t := fun u c i e => uniqR (by rw [e]; rfl) (by rw [hp]; rfl)
    have r2 : ∀ u c, s.pc u = .recvSet c → u = t := fun u c e => uniqR (by rw [e]; rfl) (by rw [hp]; rfl)
    have r4 : ∀ u j, s.pc u = .emplaceStart j → u = t := fun u c e => uniqR (by rw [e]; rfl) (by rw [hp]; rfl)
    have r3 : ∀ u, (s.pc u).adding = true → u = t := fun u e => uniqR (by revert e; cases s.pc u <;> simp [LcPc.adding, LcPc.holdsR]) (by rw [hp]; rfl)
    all_goals obtain ⟨f1, f2, f3, f4, f5, f6, f7, f12, f8, f9, f10, f11, f14⟩ := h
    all_goals constructor
    all_goals simp only [LcState.go, LcState.startReader, LcState.stopReader, List.getElem?_modify, List.length_modify]
    all_goals first | grind [LcPc.readerOf, LcPc.adding, LcPc.starting, LcPc.preSet] | skip
  case startThrow t i hp hi =>
    have r1 : ∀ u c i, s.pc u = .recvStop c i → u = t := fun u c i e => uniqR (by rw [e]; rfl) (by rw [hp]; rfl)
    have r2 : ∀ u c, s.pc u = .recvSet c → u = t := fun u c e => uniqR (by rw [e]; rfl) (by rw [hp]; rfl)
    have r4 : ∀ u j, s.pc u = .emplaceStart j → u = t := fun u c e => uniqR (by rw [e]; rfl) (by rw [hp]; rfl)
    have r3 : ∀ u, (s.pc u).adding = true → u = t := fun u e => uniqR (by revert e; cases s.pc u <;> simp [LcPc.adding, LcPc.holdsR]) (by rw [hp]; rfl)
    all_goals obtain ⟨f1, f2, f3, f4, f5, f6, f7, f12, f8, f9, f10, f11, f14⟩ := h
    all_goals constructor
    all_goals simp only [LcState.go, LcState.startReader, LcState.stopReader, List.getElem?_modify, List.length_modify]
    all_goals first | grind [LcPc.readerOf, LcPc.adding, LcPc.starting, LcPc.preSet] | skip
  case startEnd t i hp hi =>
    have r1 : ∀ u c i, s.pc u = .recvStop c i → u = t := fun u c i e => uniqR (by rw [e]; rfl) (by rw [hp]; rfl)
    have r2 : ∀ u c, s.pc u = .recvSet c → u = t := fun u c e => uniqR (by rw [e]; rfl) (by rw [hp]; rfl)
    have r4 : ∀ u j, s.pc u = .emplaceStart j → u = t := fun u c e => uniqR (by rw [e]; rfl) (by rw [hp]; rfl)
    have r3 : ∀ u, (s.pc u).adding = true → u = t := fun u e => uniqR (by revert e; cases s.pc u <;> simp [LcPc.adding, LcPc.holdsR]) (by rw [hp]; rfl)
    all_goals obtain ⟨f1, f2, f3, f4, f5, f6, f7, f12, f8, f9, f10, f11, f14⟩ := h
    all_goals constructor
    all_goals simp only [LcState.go, LcState.startReader, LcState.stopReader, List.getElem?_modify, List.length_modify]
    all_goals first | grind [LcPc.readerOf, LcPc.adding, LcPc.starting, LcPc.preSet] | skip
  case startSet t hp =>
    have r1 : ∀ u c i, s.pc u = .recvStop c i → u = t := fun u c i e => uniqR (by rw [e]; rfl) (by rw [hp]; rfl)
    have r2 : ∀ u c, s.pc u = .recvSet c → u = t := fun u c e => uniqR (by rw [e]; rfl) (by rw [hp]; rfl)
    have r4 : ∀ u j, s.pc u = .emplaceStart j → u = t := fun u c e => uniqR (by rw [e]; rfl) (by rw [hp]; rfl)
    have r3 : ∀ u, (s.pc u).adding = true → u = t := fun u e => uniqR (by revert e; cases s.pc u <;> simp [LcPc.adding, LcPc.holdsR]) (by rw [hp]; rfl)
    all_goals obtain ⟨f1, f2, f3, f4, f5, f6, f7, f12, f8, f9, f10, f11, f14⟩ := h
    all_goals constructor
    all_goals simp only [LcState.go, LcState.startReader, LcState.stopReader, List.getElem?_modify, List.length_modify]
    all_goals first | grind [LcPc.readerOf, LcPc.adding, LcPc.starting, LcPc.preSet] | skip
  case recvMark t c hp =>
    have st := S.pre' hp rfl
    have q1 : ∀ u, (s.pc u).preSet = true → u = t := fun u e => uniqQ (by revert e; cases s.pc u <;> simp [LcPc.preSet, LcPc.holdsQ]) (by rw [hp]; rfl)
    all_goals obtain ⟨f1, f2, f3, f4, f5, f6, f7, f12, f8, f9, f10, f11, f14⟩ := h
    all_goals constructor
    all_goals simp only [LcState.go, LcState.startReader, LcState.stopReader, List.getElem?_modify, List.length_modify]
    all_goals first | grind [LcPc.readerOf, LcPc.adding, LcPc.starting, LcPc.preSet] | skip
  case recvFlush t c hp =>
    have st := S.post' hp rfl
    have q1 : ∀ u, (s.pc u).preSet = true → u = t := fun u e => uniqQ (by revert e; cases s.pc u <;> simp [LcPc.preSet, LcPc.holdsQ]) (by rw [hp]; rfl)
    all_goals obtain ⟨f1, f2, f3, f4, f5, f6, f7, f12, f8, f9, f10, f11, f14⟩ := h
    all_goals constructor
    all_goals simp only [LcState.go, LcState.startReader, LcState.stopReader, List.getElem?_modify, List.length_modify]
    all_goals first | grind [LcPc.readerOf, LcPc.adding, LcPc.starting, LcPc.preSet] | skip
  case recvLock t c hp hr =>
    have st := S.post' hp rfl
    have q1 : ∀ u, (s.pc u).preSet = true → u = t := fun u e => uniqQ (by revert e; cases s.pc u <;> simp [LcPc.preSet, LcPc.holdsQ]) (by rw [hp]; rfl)
    all_goals obtain ⟨f1, f2, f3, f4, f5, f6, f7, f12, f8, f9, f10, f11, f14⟩ := h
    all_goals constructor
    all_goals simp only [LcState.go, LcState.startReader, LcState.stopReader, List.getElem?_modify, List.length_modify]
    all_goals first | grind [LcPc.readerOf, LcPc.adding, LcPc.starting, LcPc.preSet] | skip
  case recvStop t c i hp hi =>
    have st := S.post' hp rfl
    have q1 : ∀ u, (s.pc u).preSet = true → u = t := fun u e => uniqQ (by revert e; cases s.pc u <;> simp [LcPc.preSet, LcPc.holdsQ]) (by rw [hp]; rfl)
    have r1 : ∀ u c i, s.pc u = .recvStop c i → u = t := fun u c i e => uniqR (by rw [e]; rfl) (by rw [hp]; rfl)
    have r2 : ∀ u c, s.pc u = .recvSet c → u = t := fun u c e => uniqR (by rw [e]; rfl) (by rw [hp]; rfl)
    have r4 : ∀ u j, s.pc u = .emplaceStart j → u = t := fun u c e => uniqR (by rw [e]; rfl) (by rw [hp]; rfl)
    have r3 : ∀ u, (s.pc u).adding = true → u = t := fun u e => uniqR (by revert e; cases s.pc u <;> simp [LcPc.adding, LcPc.holdsR]) (by rw [hp]; rfl)
    all_goals obtain ⟨f1, f2, f3, f4, f5, f6, f7, f12, f8, f9, f10, f11, f14⟩ := h
    all_goals constructor
    all_goals simp only [LcState.go, LcState.startReader, LcState.stopReader, List.getElem?_modify, List.length_modify]
    all_goals first | grind [LcPc.readerOf, LcPc.adding, LcPc.starting, LcPc.preSet] | skip
  case recvEnd t c i hp hi =>
    have st := S.post' hp rfl
    have q1 : ∀ u, (s.pc u).preSet = true → u = t := fun u e => uniqQ (by revert e; cases s.pc u <;> simp [LcPc.preSet, LcPc.holdsQ]) (by rw [hp]; rfl)
    have r1 : ∀ u c i, s.pc u = .recvStop c i → u = t := fun u c i e => uniqR (by rw [e]; rfl) (by rw [hp]; rfl)
    have r2 : ∀ u c, s.pc u = .recvSet c → u = t := fun u c e => uniqR (by rw [e]; rfl) (by rw [hp]; rfl)
    have r4 : ∀ u j, s.pc u = .emplaceStart j → u = t := fun u c e => uniqR (by rw [e]; rfl) (by rw [hp]; rfl)
    have r3 : ∀ u, (s.pc u).adding = true → u = t := fun u e => uniqR (by revert e; cases s.pc u <;> simp [LcPc.adding, LcPc.holdsR]) (by rw [hp]; rfl)
    all_goals obtain ⟨f1, f2, f3, f4, f5, f6, f7, f12, f8, f9, f10, f11, f14⟩ := h
    all_goals constructor
    all_goals simp only [LcState.go, LcState.startReader, LcState.stopReader, List.getElem?_modify, List.length_modify]
    all_goals first | grind [LcPc.readerOf, LcPc.adding, LcPc.starting, LcPc.preSet] | skip
  case recvSet t c hp =>
    have st := S.post' hp rfl
    have q1 : ∀ u, (s.pc u).preSet = true → u = t := fun u e => uniqQ (by revert e; cases s.pc u <;> simp [LcPc.preSet, LcPc.holdsQ]) (by rw [hp]; rfl)
    have r1 : ∀ u c i, s.pc u = .recvStop c i → u = t := fun u c i e => uniqR (by rw [e]; rfl) (by rw [hp]; rfl)
    have r2 : ∀ u c, s.pc u = .recvSet c → u = t := fun u c e => uniqR (by rw [e]; rfl) (by rw [hp]; rfl)
    have r4 : ∀ u j, s.pc u = .emplaceStart j → u = t := fun u c e => uniqR (by rw [e]; rfl) (by rw [hp]; rfl)
    have r3 : ∀ u, (s.pc u).adding = true → u = t := fun u e => uniqR (by revert e; cases s.pc u <;> simp [LcPc.adding, LcPc.holdsR]) (by rw [hp]; rfl)
    all_goals obtain ⟨f1, f2, f3, f4, f5, f6, f7, f12, f8, f9, f10, f11, f14⟩ := h
    all_goals constructor
    all_goals simp only [LcState.go, LcState.startReader, LcState.stopReader, List.getElem?_modify, List.length_modify]
    all_goals first | grind [LcPc.readerOf, LcPc.adding, LcPc.starting, LcPc.preSet] | skip

end Spead2
