import Verif.Spec.PyExit

/-!
# Invariants of objects and their stoppers
-/

namespace Spead2.PyExit

structure Inv (s : St) : Prop where
  sorted : s.entries.Pairwise (· > ·)
  mem : ∀ o, o ∈ s.entries ↔ Active s o
  dep : ∀ (o : Nat) (x : Obj) (p : Nat), s.objs[o]? = some x → x.kind.pool? = some p → p < o ∧ ∃ y, s.objs[p]? = some y ∧ y.kind = .pool ∧ (x.alive = true → y.alive = true)
  blk : ∀ (o : Nat) (x : Obj), s.objs[o]? = some x → x.blocked = true → x.stopped = false ∧ ∃ p, x.kind = .recv p ∧ s.running p = true
  dead : ∀ (o : Nat) (x : Obj), s.objs[o]? = some x → x.alive = false → (∀ p, x.kind ≠ .send p) → x.stopped = true

theorem getElem?_lt {α : Type} {l : List α} {c : Nat} {x : α} (h : l[c]? = some x) : c < l.length := (List.getElem?_eq_some_iff.1 h).1

theorem set_get {α : Type} {l : List α} {o : Nat} {x y : α} (hx : l[o]? = some x) (o' : Nat) : (l.set o y)[o']? = if o' = o then some y else l[o']? := by
  rw [List.getElem?_set]
  by_cases h : o = o'
  · subst h
    rw [if_pos rfl, if_pos rfl, if_pos (getElem?_lt hx)]
  · rw [if_neg h, if_neg (Ne.symm h)]

theorem Inv.init : Inv {} := by
  refine ⟨by simp, ?_, ?_, ?_, ?_⟩
  · intro o
    constructor
    · intro h
      cases List.mem_singleton.1 h
      exact ⟨{ kind := .log }, rfl, rfl, by simp⟩
    · intro ⟨x, hx, _, _⟩
      cases o with
      | zero => exact List.mem_singleton.2 rfl
      | succ o => simp at hx
  · intro o x p hx hp
    cases o with
    | zero => simp at hx; subst hx; simp [Kind.pool?] at hp
    | succ o => simp at hx
  · intro o x hx hb
    cases o with
    | zero => simp at hx; subst hx; simp at hb
    | succ o => simp at hx
  · intro o x hx ha
    cases o with
    | zero => simp at hx; subst hx; simp at ha
    | succ o => simp at hx

/-- A thread of the pool is in a handler of some stream. -/
theorem busy_iff {s : St} {p : Nat} : s.busy p = true ↔ ∃ (o : Nat) (x : Obj), s.objs[o]? = some x ∧ x.kind = .recv p ∧ x.blocked = true := by
  simp only [St.busy, List.any_eq_true, Bool.and_eq_true, beq_iff_eq]
  constructor
  · intro ⟨x, hm, h⟩
    obtain ⟨o, ho⟩ := List.getElem?_of_mem hm
    exact ⟨o, x, ho, h⟩
  · intro ⟨o, x, ho, h⟩
    exact ⟨x, List.mem_of_getElem? ho, h⟩

theorem used_iff {s : St} {p : Nat} : s.used p = true ↔ ∃ (o : Nat) (x : Obj), s.objs[o]? = some x ∧ x.alive = true ∧ x.kind.pool? = some p := by
  simp only [St.used, List.any_eq_true, Bool.and_eq_true, beq_iff_eq]
  constructor
  · intro ⟨x, hm, h⟩
    obtain ⟨o, ho⟩ := List.getElem?_of_mem hm
    exact ⟨o, x, ho, h⟩
  · intro ⟨o, x, ho, h⟩
    exact ⟨x, List.mem_of_getElem? ho, h⟩

theorem running_iff {s : St} {p : Nat} : s.running p = true ↔ ∃ x, s.objs[p]? = some x ∧ x.kind = .pool ∧ x.stopped = false := by
  simp only [St.running]
  cases s.objs[p]? with
  | none => simp
  | some x => simp

/-- A change of one object. -/
theorem Inv.change {s : St} (hi : Inv s) {o : Nat} {x y : Obj} (hx : s.objs[o]? = some x) (hk : y.kind = x.kind) {es : List Nat} {b : Bool} (hsorted : es.Pairwise (· > ·))
    (hmem : ∀ o', o' ≠ o → (o' ∈ es ↔ o' ∈ s.entries)) (hmemo : o ∈ es ↔ (y.stopped = false ∧ ∀ p, y.kind ≠ .send p)) (halive : y.alive = true → x.alive = true)
    (hpool : y.kind = .pool → y.alive = false → x.alive = true → s.used o = false) (hrun : y.kind = .pool → y.stopped = true → x.stopped = false → s.busy o = false)
    (hblk : y.blocked = true → y.stopped = false ∧ ∃ p, y.kind = .recv p ∧ s.running p = true)
    (hdead : y.alive = false → (∀ p, y.kind ≠ .send p) → y.stopped = true) : Inv ⟨s.objs.set o y, es, b⟩ := by
  have hg := set_get (y := y) hx
  refine ⟨hsorted, ?_, ?_, ?_, ?_⟩
  · intro o'
    show o' ∈ es ↔ ∃ z, (s.objs.set o y)[o']? = some z ∧ z.stopped = false ∧ ∀ p, z.kind ≠ .send p
    rw [hg o']
    by_cases he : o' = o
    · rw [if_pos he, he, hmemo]
      constructor
      · intro h; exact ⟨y, rfl, h⟩
      · intro ⟨z, hz, h⟩; cases hz; exact h
    · rw [if_neg he, hmem o' he, hi.mem o']
      exact Iff.rfl
  · intro o' z p hz hp
    change (s.objs.set o y)[o']? = some z at hz
    show p < o' ∧ ∃ w, (s.objs.set o y)[p]? = some w ∧ _
    rw [hg o'] at hz
    have key : ∃ z', s.objs[o']? = some z' ∧ z'.kind = z.kind ∧ (z.alive = true → z'.alive = true) := by
      by_cases he : o' = o
      · rw [if_pos he] at hz
        cases hz
        exact ⟨x, by rw [he]; exact hx, hk.symm, halive⟩
      · rw [if_neg he] at hz
        exact ⟨z, hz, rfl, id⟩
    obtain ⟨z', h1, h2, h3⟩ := key
    obtain ⟨hlt, w, hw, hwk, hwa⟩ := hi.dep o' z' p h1 (by rw [h2]; exact hp)
    refine ⟨hlt, ?_⟩
    rw [hg p]
    by_cases he : p = o
    · rw [if_pos he]
      rw [he, hx] at hw
      cases hw
      refine ⟨y, rfl, hk.trans hwk, ?_⟩
      intro hza
      cases hya : y.alive with
      | true => rfl
      | false =>
        have hxa := hwa (h3 hza)
        have hu := hpool (hk.trans hwk) hya hxa
        have : s.used o = true := used_iff.2 ⟨o', z', h1, h3 hza, by rw [h2, hp, he]⟩
        rw [this] at hu
        cases hu
    · rw [if_neg he]
      exact ⟨w, hw, hwk, fun h => hwa (h3 h)⟩
  · intro o' z hz hb
    change (s.objs.set o y)[o']? = some z at hz
    rw [hg o'] at hz
    have hr : ∀ p, s.running p = true → (p = o → ¬ (y.stopped = true ∧ x.stopped = false)) → (⟨s.objs.set o y, es, b⟩ : St).running p = true := by
      intro p hp hpo
      obtain ⟨w, hw, hwk, hws⟩ := running_iff.1 hp
      refine running_iff.2 ?_
      show ∃ w, (s.objs.set o y)[p]? = some w ∧ _
      rw [hg p]
      by_cases he : p = o
      · rw [if_pos he]
        rw [he, hx] at hw
        cases hw
        refine ⟨y, rfl, hk.trans hwk, ?_⟩
        cases hys : y.stopped with
        | false => rfl
        | true => exact absurd ⟨hys, hws⟩ (hpo he)
      · rw [if_neg he]
        exact ⟨w, hw, hwk, hws⟩
    by_cases he : o' = o
    · rw [if_pos he] at hz
      cases hz
      obtain ⟨h1, p, h2, h3⟩ := hblk hb
      refine ⟨h1, p, h2, hr p h3 ?_⟩
      intro hpo
      have := (hi.dep o x p hx (by rw [← hk, h2]; rfl)).1
      omega
    · rw [if_neg he] at hz
      obtain ⟨h1, p, h2, h3⟩ := hi.blk o' z hz hb
      refine ⟨h1, p, h2, hr p h3 ?_⟩
      intro hpo ⟨hys, hxs⟩
      rw [hpo] at h2 h3
      obtain ⟨w, hw, hwk, _⟩ := running_iff.1 h3
      rw [hx] at hw
      cases hw
      have := hrun (hk.trans hwk) hys hxs
      rw [busy_iff.2 ⟨o', z, hz, h2, hb⟩] at this
      cases this
  · intro o' z hz ha hn
    change (s.objs.set o y)[o']? = some z at hz
    rw [hg o'] at hz
    by_cases he : o' = o
    · rw [if_pos he] at hz
      cases hz
      exact hdead ha hn
    · rw [if_neg he] at hz
      exact hi.dead o' z hz ha hn

theorem Inv.nodup {s : St} (hi : Inv s) : s.entries.Nodup := hi.sorted.imp (fun h => by omega)

theorem Inv.erase_mem {s : St} (hi : Inv s) (o o' : Nat) : o' ∈ s.entries.erase o ↔ o' ≠ o ∧ o' ∈ s.entries := by
  rw [hi.nodup.mem_erase_iff]

/-- An object is stopped and leaves the list, and may be destroyed. -/
theorem Inv.stopped {s : St} (hi : Inv s) {o : Nat} {x y : Obj} (hx : s.objs[o]? = some x) (hk : y.kind = x.kind) (hs : y.stopped = true) (halive : y.alive = true → x.alive = true)
    (hpool : y.kind = .pool → y.alive = false → x.alive = true → s.used o = false) (hrun : y.kind = .pool → x.stopped = false → s.busy o = false) (hb : y.blocked = false) :
    Inv ((s.set o y).reset o) := by
  refine hi.change hx hk (es := s.entries.erase o) (hi.sorted.sublist List.erase_sublist) ?_ ?_ halive hpool (fun h _ => hrun h) ?_ (fun _ _ => hs)
  · intro o' ho'
    rw [hi.erase_mem]
    exact ⟨And.right, fun h => ⟨ho', h⟩⟩
  · rw [hi.erase_mem, hs]
    constructor
    · intro h; exact absurd rfl h.1
    · intro h; cases h.1
  · intro h; rw [hb] at h; cases h

/-- A change that leaves `stopped` alone. -/
theorem Inv.same {s : St} (hi : Inv s) {o : Nat} {x y : Obj} (hx : s.objs[o]? = some x) (hk : y.kind = x.kind) (hs : y.stopped = x.stopped) (halive : y.alive = true → x.alive = true)
    (hnp : y.alive = false → x.alive = true → y.kind ≠ .pool)
    (hblk : y.blocked = true → y.stopped = false ∧ ∃ p, y.kind = .recv p ∧ s.running p = true)
    (hdead : y.alive = false → (∀ p, y.kind ≠ .send p) → y.stopped = true) : Inv (s.set o y) := by
  refine hi.change hx hk (es := s.entries) hi.sorted (fun _ _ => Iff.rfl) ?_ halive (fun h h1 h2 => absurd h (hnp h1 h2)) ?_ hblk hdead
  · rw [hi.mem o, hs, hk]
    constructor
    · intro ⟨z, hz, h⟩
      rw [hx] at hz
      cases hz
      exact h
    · intro h; exact ⟨x, hx, h⟩
  · intro _ h1 h2
    rw [hs, h2] at h1
    cases h1

theorem add_get (s : St) (k : Kind) (o : Nat) : (s.add k).objs[o]? = if o = s.objs.length then some { kind := k } else s.objs[o]? := by
  show (s.objs ++ [({ kind := k } : Obj)])[o]? = _
  rw [List.getElem?_append]
  by_cases h : o = s.objs.length
  · rw [if_pos h, if_neg (by omega), h]
    simp
  · rw [if_neg h]
    split
    · rfl
    · rw [List.getElem?_eq_none (by simp; omega), List.getElem?_eq_none (by omega)]

theorem Inv.lt {s : St} (hi : Inv s) {o : Nat} (h : o ∈ s.entries) : o < s.objs.length := by
  obtain ⟨x, hx, _⟩ := (hi.mem o).1 h
  exact getElem?_lt hx

/-- A new object. -/
theorem Inv.add {s : St} (hi : Inv s) {k : Kind} (hk : ∀ p, k.pool? = some p → ∃ y, s.objs[p]? = some y ∧ y.kind = .pool ∧ y.alive = true) : Inv (s.add k) := by
  have hg := add_get s k
  have hold : ∀ {o : Nat} {x : Obj}, s.objs[o]? = some x → (s.add k).objs[o]? = some x := by
    intro o x hx
    have := getElem?_lt hx
    rw [hg, if_neg (by omega)]
    exact hx
  have hent : ∀ o, o ∈ (s.add k).entries ↔ o ∈ s.entries ∨ (o = s.objs.length ∧ ∀ p, k ≠ .send p) := by
    intro o
    cases k with
    | send p => simp [St.add]
    | log => simp [St.add, or_comm]
    | pool => simp [St.add, or_comm]
    | recv p => simp [St.add, or_comm]
  refine ⟨?_, ?_, ?_, ?_, ?_⟩
  · have : (s.objs.length :: s.entries).Pairwise (· > ·) := List.pairwise_cons.2 ⟨fun o ho => hi.lt ho, hi.sorted⟩
    cases k with
    | send p => exact hi.sorted
    | log => exact this
    | pool => exact this
    | recv p => exact this
  · intro o
    rw [hent]
    show _ ↔ ∃ z, (s.add k).objs[o]? = some z ∧ _
    rw [hg]
    by_cases he : o = s.objs.length
    · rw [if_pos he]
      constructor
      · rintro (h | h)
        · have := hi.lt h; omega
        · exact ⟨_, rfl, rfl, h.2⟩
      · intro ⟨z, hz, _, h⟩
        cases hz
        exact Or.inr ⟨he, h⟩
    · rw [if_neg he, hi.mem o]
      constructor
      · rintro (h | h)
        · exact h
        · exact absurd h.1 he
      · intro h; exact Or.inl h
  · intro o x p hx hp
    rw [hg] at hx
    by_cases he : o = s.objs.length
    · rw [if_pos he] at hx
      cases hx
      obtain ⟨y, hy, h1, h2⟩ := hk p hp
      exact ⟨by rw [he]; exact getElem?_lt hy, y, hold hy, h1, fun _ => h2⟩
    · rw [if_neg he] at hx
      obtain ⟨h1, y, hy, h2⟩ := hi.dep o x p hx hp
      exact ⟨h1, y, hold hy, h2⟩
  · intro o x hx hb
    rw [hg] at hx
    by_cases he : o = s.objs.length
    · rw [if_pos he] at hx
      cases hx
      cases hb
    · rw [if_neg he] at hx
      obtain ⟨h1, p, h2, h3⟩ := hi.blk o x hx hb
      refine ⟨h1, p, h2, ?_⟩
      obtain ⟨w, hw, h4⟩ := running_iff.1 h3
      exact running_iff.2 ⟨w, hold hw, h4⟩
  · intro o x hx ha hn
    rw [hg] at hx
    by_cases he : o = s.objs.length
    · rw [if_pos he] at hx
      cases hx
      cases ha
    · rw [if_neg he] at hx
      exact hi.dead o x hx ha hn

theorem Inv.exits {s : St} (hi : Inv s) (b : Bool) : Inv { s with exiting := b } := ⟨hi.sorted, hi.mem, hi.dep, hi.blk, hi.dead⟩

theorem stopObj_inv {s s' : St} (hi : Inv s) {o : Nat} (h : stopObj s o = some s') : Inv s' := by
  unfold stopObj at h
  split at h
  · cases h
  · rename_i x hx
    have hnb : (∀ p, x.kind ≠ .recv p) → x.blocked = false := by
      intro hn
      cases hb : x.blocked with
      | false => rfl
      | true =>
        obtain ⟨_, p, h2, _⟩ := hi.blk o x hx hb
        exact absurd h2 (hn p)
    split at h
    · rename_i hk
      cases h
      exact hi.stopped hx (y := { x with stopped := true }) rfl rfl id (fun h => by simp [hk] at h) (fun h => by simp [hk] at h) (hnb (by simp [hk]))
    · rename_i hk
      split at h
      · cases h
      · rename_i hb
        cases h
        exact hi.stopped hx (y := { x with stopped := true }) rfl rfl id (fun _ h1 h2 => by rw [h2] at h1; cases h1) (fun _ _ => by simpa using hb) (hnb (by simp [hk]))
    · rename_i p hk
      cases h
      exact hi.stopped hx (y := { x with stopped := true, blocked := false }) rfl rfl id (fun h => by simp [hk] at h) (fun h => by simp [hk] at h) rfl
    · cases h

theorem destroyObj_inv {s s' : St} (hi : Inv s) {o : Nat} (h : destroyObj s o = some s') : Inv s' := by
  unfold destroyObj at h
  split at h
  · cases h
  · rename_i x hx
    have hnb : (∀ p, x.kind ≠ .recv p) → x.blocked = false := by
      intro hn
      cases hb : x.blocked with
      | false => rfl
      | true =>
        obtain ⟨_, p, h2, _⟩ := hi.blk o x hx hb
        exact absurd h2 (hn p)
    split at h
    · rename_i ha
      split at h
      · rename_i hk
        split at h
        · rename_i he
          cases h
          simp only [Bool.and_eq_true, List.isEmpty_iff] at he
          have hst : x.stopped = true := by
            cases hs : x.stopped with
            | true => rfl
            | false =>
              have : o ∈ s.entries := (hi.mem o).2 ⟨x, hx, hs, by simp [hk]⟩
              rw [he.2] at this
              cases this
          refine hi.same hx (y := { x with alive := false }) rfl rfl (by simp) (by simp [hk]) ?_ (fun _ _ => hst)
          intro h
          exact absurd (show x.blocked = true from h) (by rw [hnb (by simp [hk])]; simp)
        · cases h
      · rename_i hk
        split at h
        · cases h
        · rename_i hu
          cases h
          simp only [Bool.or_eq_true, not_or, Bool.not_eq_true] at hu
          exact hi.stopped hx (y := { x with alive := false, stopped := true }) rfl rfl (by simp) (fun _ _ _ => hu.1) (fun _ _ => hu.2) (hnb (by simp [hk]))
      · rename_i p hk
        cases h
        exact hi.stopped hx (y := { x with alive := false, stopped := true, blocked := false }) rfl rfl (by simp) (fun h => by simp [hk] at h) (fun h => by simp [hk] at h) rfl
      · rename_i p hk
        split at h
        · cases h
          refine hi.same hx (y := { x with alive := false }) rfl rfl (by simp) (by simp [hk]) ?_ (fun _ h => absurd hk (h p))
          intro h
          exact absurd (show x.blocked = true from h) (by rw [hnb (by simp [hk])]; simp)
        · cases h
    · cases h

theorem step_inv {s s' : St} (hi : Inv s) {e : Ev} (h : step s e = some s') : Inv s' := by
  have hnew : ∀ {p k}, k = Kind.recv p ∨ k = Kind.send p → s.onPool p k = some s' → Inv s' := by
    intro p k hk h
    unfold St.onPool at h
    split at h
    · rename_i x hx
      split at h
      · rename_i hc
        cases h
        refine hi.add ?_
        intro q hq
        have : q = p := by rcases hk with hk | hk <;> rw [hk] at hq <;> simp [Kind.pool?] at hq <;> omega
        rw [this]
        exact ⟨x, hx, hc.1, hc.2.1⟩
      · cases h
    · cases h
  cases e with
  | newPool =>
    simp only [step] at h
    split at h
    · cases h
    · cases h
      exact hi.add (by simp [Kind.pool?])
  | newRecv p => exact hnew (Or.inl rfl) h
  | newSend p => exact hnew (Or.inr rfl) h
  | stop o =>
    simp only [step] at h
    split at h
    · split at h
      · cases h
      · exact stopObj_inv hi h
    · cases h
  | destroy o =>
    simp only [step] at h
    split at h
    · cases h
    · exact destroyObj_inv hi h
  | exit =>
    simp only [step] at h
    split at h
    · cases h
    · cases h
      exact hi.exits true
  | stopper =>
    simp only [step] at h
    split at h
    · split at h
      · exact stopObj_inv hi h
      · cases h
    · cases h
  | send o =>
    simp only [step] at h
    split at h
    · rename_i x hx
      split at h
      · rename_i p hk
        split at h
        · cases h
        · cases h
          exact hi.same hx (y := { x with queued := x.queued + 1, pending := true }) rfl rfl id (fun h1 h2 => by rw [show x.alive = false from h1] at h2; cases h2)
            (fun h => by obtain ⟨_, q, h2, _⟩ := hi.blk o x hx h; rw [hk] at h2; cases h2) (fun _ h => absurd hk (h p))
      · cases h
    · cases h
  | block o =>
    simp only [step] at h
    split at h
    · rename_i x hx
      split at h
      · rename_i p hk
        split at h
        · rename_i hc
          cases h
          simp only [Bool.and_eq_true, Bool.not_eq_true'] at hc
          exact hi.same hx (y := { x with blocked := true }) rfl rfl id (fun h1 h2 => by rw [show x.alive = false from h1] at h2; cases h2)
            (fun _ => ⟨hc.2, p, hk, hc.1.1⟩) (fun h => by rw [show x.alive = false from h] at hc; simp at hc)
        · cases h
      · cases h
    · cases h
  | unblock o =>
    simp only [step] at h
    split at h
    · rename_i x hx
      split at h
      · cases h
        exact hi.same hx (y := { x with blocked := false }) rfl rfl id (fun h1 h2 => by rw [show x.alive = false from h1] at h2; cases h2)
          (fun h => by cases h) (fun h1 h2 => hi.dead o x hx h1 h2)
      · cases h
    · cases h
  | work o n again =>
    simp only [step] at h
    split at h
    · rename_i x hx
      split at h
      · rename_i p hk
        split at h
        · cases h
          exact hi.same hx (y := { x with queued := x.queued - n, pending := again }) rfl rfl id (fun h1 h2 => by rw [show x.alive = false from h1] at h2; cases h2)
            (fun h => by obtain ⟨_, q, h2, _⟩ := hi.blk o x hx h; rw [hk] at h2; cases h2) (fun _ h => absurd hk (h p))
        · cases h
      · cases h
    · cases h

theorem run_inv (evs : List Ev) : ∀ {s s' : St}, Inv s → run s evs = some s' → Inv s' := by
  induction evs with
  | nil => intro s s' hi h; cases h; exact hi
  | cons e evs ih =>
    intro s s' hi h
    simp only [run] at h
    cases hs : step s e with
    | none => rw [hs] at h; cases h
    | some s1 => rw [hs] at h; exact ih (step_inv hi hs) h

theorem reach_inv {evs : List Ev} {s : St} (h : Reach evs s) : Inv s := run_inv evs Inv.init h

end Spead2.PyExit
