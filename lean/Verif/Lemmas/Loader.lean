import Verif.Spec.Loader

/-! # Invariants of the loader -/

namespace Spead2.Loader

def settled (l : Lib) (i : Nat) : Target := if l.has i then .real else .missing

def Fresh (s : St) : Prop :=
  (∀ i, s.ptr i = .first) ∧ s.mapped = false ∧ s.err = none ∧ s.opens = 0 ∧ s.closes = 0 ∧ s.logs = 0

def Failed (d : Decl) (l : Lib) (s : St) (k logs : Nat) : Prop :=
  k ≤ d.n ∧ (∃ e, Reason d l e ∧ s.err = some e) ∧ s.mapped = false ∧ s.opens = 1 ∧ s.closes = (if l.present then 1 else 0) ∧
  s.logs = logs ∧ ∀ i < k, s.ptr i = .stub

def Loading (d : Decl) (l : Lib) (s : St) (k : Nat) : Prop :=
  l.present = true ∧ (∀ j < k, ¬ Lacks d l j) ∧ s.mapped = true ∧ s.err = none ∧ s.opens = 1 ∧ s.closes = 0 ∧ s.logs = 0 ∧
  k ≤ d.n ∧ ∀ i < k, s.ptr i = settled l i

def OnceOk (d : Decl) (l : Lib) (s : St) : Once → Prop
  | .idle => Fresh s
  | .running _ .opening => Fresh s
  | .running _ (.sym k) => Loading d l s k
  | .running _ (.closing k) => Loading d l s k ∧ Lacks d l k
  | .running _ (.resetting k) => Failed d l s k 0
  | .done => (Works d l ∧ Loading d l s d.n) ∨ Failed d l s d.n 1

theorem reason_not_works {d : Decl} {l : Lib} {e : Err} (h : Reason d l e) : ¬ Works d l := by
  rintro ⟨hp, hl⟩
  rcases h with ⟨h, _⟩ | ⟨_, k, _, hk, _⟩
  · rw [hp] at h; cases h
  · exact hl k hk

theorem reason_unique {d : Decl} {l : Lib} {e f : Err} (h : Reason d l e) (h' : Reason d l f) : e = f := by
  rcases h with ⟨h, rfl⟩ | ⟨h, k, rfl, hk, hm⟩ <;> rcases h' with ⟨g, rfl⟩ | ⟨g, j, rfl, hj, hn⟩
  · rfl
  · rw [h] at g; cases g
  · rw [h] at g; cases g
  · rcases Nat.lt_trichotomy k j with c | c | c
    · exact absurd hk (hn k c)
    · rw [c]
    · exact absurd hj (hm j c)

/-- What a pointer can be, or have been. -/
def TgtOk (d : Decl) (l : Lib) (s : St) (i : Nat) : Target → Prop
  | .first => True
  | .stub => ∃ e, Reason d l e ∧ s.err = some e
  | .missing => l.present = true ∧ l.has i = false
  | .real => l.present = true ∧ l.has i = true ∧ (Works d l → s.mapped = true)

def ThrOk (d : Decl) (l : Lib) (s : St) : Thr → Prop
  | .idle => True
  | .loaded i tgt => i < d.n ∧ TgtOk d l s i tgt
  | .waiting (.call i) => i < d.n
  | .waiting (.query i) => i < d.n ∧ d.optional i = true

def OutOk (d : Decl) (l : Lib) : Op × Outcome → Prop
  | (.call i, .ran) => i < d.n ∧ l.present = true ∧ l.has i = true
  | (.call i, .raised e) => i < d.n ∧ (Reason d l e ∨ (e = .unsupported i ∧ l.present = true ∧ l.has i = false))
  | (.call i, .crashed) => i < d.n ∧ l.present = true ∧ ¬ Works d l
  | (.call _, .answered _) => False
  | (.query i, .answered b) => (Works d l → b = l.has i) ∧ (¬ Works d l → b = true)
  | (.query _, _) => False

structure Inv (d : Decl) (l : Lib) (s : St) : Prop where
  once : OnceOk d l s s.once
  ptr : ∀ i, TgtOk d l s i (s.ptr i)
  thr : ∀ x ∈ s.thr, ThrOk d l s x
  runner : ∀ t p, s.once = .running t p → ∃ op, s.thr[t]? = some (.waiting op)
  out : ∀ x ∈ s.out, OutOk d l x

theorem inv_start (d : Decl) (l : Lib) (m : Nat) : Inv d l (start m) where
  once := ⟨fun _ => rfl, rfl, rfl, rfl, rfl, rfl⟩
  ptr _ := trivial
  thr x hx := by
    rw [(List.mem_replicate.mp hx).2]; trivial
  runner t p h := by cases h
  out x hx := by cases hx

theorem mem_set {x y : Thr} {t : Nat} {thr : List Thr} (h : x ∈ thr.set t y) : x ∈ thr ∨ x = y := List.mem_or_eq_of_mem_set h

theorem get_set_other {thr : List Thr} {t t' : Nat} {op : Op} {x y : Thr} (h : thr[t]? = some (.waiting op)) (h' : thr[t']? = some x)
    (hx : ∀ o, x ≠ .waiting o) : (thr.set t' y)[t]? = some (.waiting op) := by
  by_cases c : t' = t
  · subst c; rw [h] at h'; cases h'; exact absurd rfl (hx op)
  · rw [List.getElem?_set_ne c]; exact h

/-- Steps of `init`. -/
theorem inv_init {d : Decl} {l : Lib} {s : St} {t : Nat} {p : Phase} (h : Inv d l s) (ho : s.once = .running t p) :
    Inv d l (initStep d l s t p) := by
  have honce := h.once
  rw [ho] at honce
  obtain ⟨op, hop⟩ := h.runner t p ho
  -- facts that carry over to a state with these fields
  have keep : ∀ s' : St, s'.thr = s.thr → s'.out = s.out → OnceOk d l s' s'.once → (∀ i, TgtOk d l s' i (s'.ptr i)) →
      (∀ i tgt, TgtOk d l s i tgt → TgtOk d l s' i tgt) → (∀ t' q, s'.once = .running t' q → t' = t) → Inv d l s' := by
    intro s' h1 h2 h3 h4 h5 h6
    refine ⟨h3, h4, ?_, ?_, ?_⟩
    · intro x hx
      rw [h1] at hx
      have := h.thr x hx
      match x, this with
      | .idle, _ => trivial
      | .loaded i tgt, ⟨a, b⟩ => exact ⟨a, h5 i tgt b⟩
      | .waiting (.call i), a => exact a
      | .waiting (.query i), a => exact a
    · intro t' q hq
      rw [h6 t' q hq, h1]; exact ⟨op, hop⟩
    · intro x hx; rw [h2] at hx; exact h.out x hx
  have mono : ∀ s' : St, s'.err = s.err → s'.mapped = s.mapped → ∀ i tgt, TgtOk d l s i tgt → TgtOk d l s' i tgt := by
    intro s' e m i tgt ht
    cases tgt with
    | first => trivial
    | stub => obtain ⟨x, hx, hy⟩ := ht; exact ⟨x, hx, by rw [e]; exact hy⟩
    | missing => exact ht
    | real => exact ⟨ht.1, ht.2.1, fun w => by rw [m]; exact ht.2.2 w⟩
  cases p with
  | opening =>
    obtain ⟨hp, hm, he, o1, o2, o3⟩ := honce
    simp only [initStep]
    by_cases c : l.present = true
    · rw [if_pos c]
      refine keep _ rfl rfl ?_ ?_ ?_ ?_
      · exact ⟨c, fun j hj => absurd hj (Nat.not_lt_zero j), rfl, he, by show s.opens + 1 = 1; omega, o2, o3, Nat.zero_le _, fun j hj => absurd hj (Nat.not_lt_zero j)⟩
      · intro i; show TgtOk d l _ i (s.ptr i); rw [hp i]; trivial
      · intro i tgt ht
        cases tgt with
        | first => trivial
        | stub => obtain ⟨x, hx, hy⟩ := ht; rw [he] at hy; cases hy
        | missing => exact ht
        | real => exact ⟨ht.1, ht.2.1, fun _ => rfl⟩
      · intro t' q hq; cases hq; rfl
    · have c' : l.present = false := by simpa using c
      rw [if_neg c]
      refine keep _ rfl rfl ?_ ?_ ?_ ?_
      · refine ⟨Nat.zero_le _, ⟨.library, Or.inl ⟨c', rfl⟩, rfl⟩, hm, by show s.opens + 1 = 1; omega, ?_, o3, fun j hj => absurd hj (Nat.not_lt_zero j)⟩
        show s.closes = _
        rw [o2, c']; rfl
      · intro i; show TgtOk d l _ i (s.ptr i); rw [hp i]; trivial
      · intro i tgt ht
        cases tgt with
        | first => trivial
        | stub => exact ⟨.library, Or.inl ⟨c', rfl⟩, rfl⟩
        | missing => exact ht
        | real => exact absurd ht.1 c
      · intro t' q hq; cases hq; rfl
  | sym k =>
    obtain ⟨hp, hl, hm, he, o1, o2, o3, hk, hs⟩ := honce
    simp only [initStep]
    by_cases c : k < d.n
    · rw [if_pos c]
      by_cases g : l.has k = true
      · rw [if_pos g]
        refine keep _ rfl rfl ?_ ?_ (mono _ rfl rfl) ?_
        · refine ⟨hp, ?_, hm, he, o1, o2, o3, c, ?_⟩
          · intro j hj lj
            by_cases e : j = k
            · subst e; rw [lj.2.1] at g; cases g
            · exact hl j (by omega) lj
          · intro i hi
            show (if i = k then Target.real else s.ptr i) = _
            by_cases e : i = k
            · subst e; rw [if_pos rfl]; unfold settled; rw [if_pos g]
            · rw [if_neg e]; exact hs i (by omega)
        · intro i
          show TgtOk d l _ i (if i = k then Target.real else s.ptr i)
          by_cases e : i = k
          · subst e; rw [if_pos rfl]; exact ⟨hp, g, fun _ => hm⟩
          · rw [if_neg e]; exact mono _ rfl rfl i _ (h.ptr i)
        · intro t' q hq; cases hq; rfl
      · have g' : l.has k = false := by simpa using g
        rw [if_neg g]
        by_cases q : d.optional k = true
        · rw [if_pos q]
          refine keep _ rfl rfl ?_ ?_ (mono _ rfl rfl) ?_
          · refine ⟨hp, ?_, hm, he, o1, o2, o3, c, ?_⟩
            · intro j hj lj
              by_cases e : j = k
              · subst e; rw [lj.2.2] at q; cases q
              · exact hl j (by omega) lj
            · intro i hi
              show (if i = k then Target.missing else s.ptr i) = _
              by_cases e : i = k
              · subst e; rw [if_pos rfl]; unfold settled; rw [if_neg g]
              · rw [if_neg e]; exact hs i (by omega)
          · intro i
            show TgtOk d l _ i (if i = k then Target.missing else s.ptr i)
            by_cases e : i = k
            · subst e; rw [if_pos rfl]; exact ⟨hp, g'⟩
            · rw [if_neg e]; exact mono _ rfl rfl i _ (h.ptr i)
          · intro t' q hq; cases hq; rfl
        · have q' : d.optional k = false := by simpa using q
          rw [if_neg q]
          refine keep _ rfl rfl ?_ (fun i => mono _ rfl rfl i _ (h.ptr i)) (mono _ rfl rfl) ?_
          · exact ⟨⟨hp, hl, hm, he, o1, o2, o3, hk, hs⟩, c, g', q'⟩
          · intro t' q hq; cases hq; rfl
    · rw [if_neg c]
      have e : k = d.n := by omega
      subst e
      refine keep _ rfl rfl ?_ (fun i => mono _ rfl rfl i _ (h.ptr i)) (mono _ rfl rfl) ?_
      · exact Or.inl ⟨⟨hp, fun j lj => hl j lj.1 lj⟩, hp, hl, hm, he, o1, o2, o3, hk, hs⟩
      · intro t' q hq; cases hq
  | closing k =>
    obtain ⟨⟨hp, hl, hm, he, o1, o2, o3, hk, hs⟩, hlk⟩ := honce
    have hr : Reason d l (.symbol k) := Or.inr ⟨hp, k, rfl, hlk, hl⟩
    have nw := reason_not_works hr
    have m : ∀ i tgt, TgtOk d l s i tgt → TgtOk d l (initStep d l s t (.closing k)) i tgt := by
      intro i tgt ht
      cases tgt with
      | first => trivial
      | stub => exact ⟨_, hr, rfl⟩
      | missing => exact ht
      | real => exact ⟨ht.1, ht.2.1, fun w => absurd w nw⟩
    refine keep _ rfl rfl ?_ (fun i => m i _ (h.ptr i)) m ?_
    · refine ⟨Nat.zero_le _, ⟨_, hr, rfl⟩, rfl, o1, ?_, o3, fun j hj => absurd hj (Nat.not_lt_zero j)⟩
      show s.closes + 1 = _
      rw [hp, o2]; rfl
    · intro t' q hq; cases hq; rfl
  | resetting k =>
    obtain ⟨hk, ⟨e, hr, he⟩, hm, o1, o2, o3, hs⟩ := honce
    simp only [initStep]
    by_cases c : k < d.n
    · rw [if_pos c]
      refine keep _ rfl rfl ?_ ?_ (mono _ rfl rfl) ?_
      · refine ⟨c, ⟨e, hr, he⟩, hm, o1, o2, o3, ?_⟩
        intro i hi
        show (if i = k then Target.stub else s.ptr i) = _
        by_cases x : i = k
        · rw [if_pos x]
        · rw [if_neg x]; exact hs i (by omega)
      · intro i
        show TgtOk d l _ i (if i = k then Target.stub else s.ptr i)
        by_cases x : i = k
        · rw [if_pos x]; exact ⟨e, hr, he⟩
        · rw [if_neg x]; exact mono _ rfl rfl i _ (h.ptr i)
      · intro t' q hq; cases hq; rfl
    · rw [if_neg c]
      have x : k = d.n := by omega
      subst x
      refine keep _ rfl rfl ?_ (fun i => mono _ rfl rfl i _ (h.ptr i)) (mono _ rfl rfl) ?_
      · exact Or.inr ⟨hk, ⟨e, hr, he⟩, hm, o1, o2, by show s.logs + 1 = 1; omega, hs⟩
      · intro t' q hq; cases hq

/-- Steps that change one thread and what was returned only. -/
theorem inv_thr {d : Decl} {l : Lib} {s : St} (h : Inv d l s) (t : Nat) (y : Thr) (new : List (Op × Outcome)) (x : Thr) (hx : s.thr[t]? = some x)
    (hw : (∀ o, x ≠ .waiting o) ∨ s.once = .done) (hy : ThrOk d l s y) (hn : ∀ z ∈ new, OutOk d l z) :
    Inv d l { s with thr := s.thr.set t y, out := new ++ s.out } where
  once := by
    have := h.once
    show OnceOk d l _ s.once
    match ho : s.once, this with
    | .idle, a => exact a
    | .running _ .opening, a => exact a
    | .running _ (.sym _), a => exact a
    | .running _ (.closing _), a => exact a
    | .running _ (.resetting _), a => exact a
    | .done, a => exact a
  ptr i := by
    have := h.ptr i
    show TgtOk d l _ i (s.ptr i)
    match s.ptr i, this with
    | .first, a => exact a
    | .stub, a => exact a
    | .missing, a => exact a
    | .real, a => exact a
  thr z hz := by
    rcases mem_set hz with hz | rfl
    · have := h.thr z hz
      match z, this with
      | .idle, _ => trivial
      | .loaded i .first, a => exact a
      | .loaded i .stub, a => exact a
      | .loaded i .missing, a => exact a
      | .loaded i .real, a => exact a
      | .waiting (.call i), a => exact a
      | .waiting (.query i), a => exact a
    · match z, hy with
      | .idle, _ => trivial
      | .loaded i .first, a => exact a
      | .loaded i .stub, a => exact a
      | .loaded i .missing, a => exact a
      | .loaded i .real, a => exact a
      | .waiting (.call i), a => exact a
      | .waiting (.query i), a => exact a
  runner t' p hp := by
    have hp : s.once = .running t' p := hp
    rcases hw with hw | hw
    · obtain ⟨op, ho⟩ := h.runner t' p hp
      exact ⟨op, get_set_other ho hx hw⟩
    · rw [hw] at hp; cases hp
  out z hz := by
    rcases List.mem_append.mp hz with hz | hz
    · exact hn z hz
    · exact h.out z hz

theorem done_ptr {d : Decl} {l : Lib} {s : St} (h : Inv d l s) (hd : s.once = .done) {i : Nat} (hi : i < d.n) :
    (Works d l ∧ s.ptr i = settled l i) ∨ (¬ Works d l ∧ s.ptr i = .stub) := by
  have := h.once
  rw [hd] at this
  rcases this with ⟨w, a⟩ | a
  · exact Or.inl ⟨w, a.2.2.2.2.2.2.2.2 i hi⟩
  · obtain ⟨_, ⟨e, hr, _⟩, _, _, _, _, hs⟩ := a
    exact Or.inr ⟨reason_not_works hr, hs i hi⟩

theorem jump_out {d : Decl} {l : Lib} {s : St} (h : Inv d l s) {t i : Nat} {tgt : Target} (hx : s.thr[t]? = some (.loaded i tgt)) :
    Inv d l (jump s t i tgt) := by
  have hok : ThrOk d l s (.loaded i tgt) := h.thr _ (List.mem_of_getElem? hx)
  have hne : (∀ o, Thr.loaded i tgt ≠ .waiting o) ∨ s.once = .done := Or.inl (fun o => by simp)
  cases tgt with
  | first => exact inv_thr h t _ [] _ hx hne hok.1 (fun z hz => by cases hz)
  | stub =>
    obtain ⟨hi, e, hr, he⟩ := hok
    refine inv_thr h t .idle [(.call i, _)] _ hx hne trivial ?_
    intro z hz
    rw [List.mem_singleton.mp hz, he]
    exact ⟨hi, Or.inl hr⟩
  | missing =>
    refine inv_thr h t .idle [(.call i, _)] _ hx hne trivial ?_
    intro z hz
    rw [List.mem_singleton.mp hz]
    exact ⟨hok.1, Or.inr ⟨rfl, hok.2⟩⟩
  | real =>
    refine inv_thr h t .idle [(.call i, _)] _ hx hne trivial ?_
    intro z hz
    rw [List.mem_singleton.mp hz]
    by_cases m : s.mapped = true
    · rw [if_pos m]; exact ⟨hok.1, hok.2.1, hok.2.2.1⟩
    · rw [if_neg m]; exact ⟨hok.1, hok.2.1, fun w => m (hok.2.2.2 w)⟩

theorem inv_step {d : Decl} {l : Lib} {s s' : St} {e : Ev} (h : Inv d l s) (hs : step d l s e = some s') : Inv d l s' := by
  cases e with
  | call t i =>
    simp only [step] at hs
    split at hs
    · rename_i c
      cases hs
      exact inv_thr h t _ [] _ c.1 (Or.inl (fun o => by simp)) ⟨c.2, h.ptr i⟩ (fun z hz => by cases hz)
    · cases hs
  | query t i =>
    simp only [step] at hs
    split at hs
    · rename_i c
      cases hs
      exact inv_thr h t _ [] _ c.1 (Or.inl (fun o => by simp)) c.2 (fun z hz => by cases hz)
    · cases hs
  | enter t =>
    simp only [step] at hs
    split at hs
    · rename_i op hx ho
      cases hs
      have honce := h.once
      rw [ho] at honce
      refine ⟨honce, ?_, ?_, ?_, h.out⟩
      · intro i; show TgtOk d l _ i (s.ptr i); rw [honce.1 i]; trivial
      · intro z hz
        have := h.thr z hz
        match z, this with
        | .idle, _ => trivial
        | .loaded i .first, a => exact a
        | .loaded i .stub, a => exact a
        | .loaded i .missing, a => exact a
        | .loaded i .real, a => exact a
        | .waiting (.call i), a => exact a
        | .waiting (.query i), a => exact a
      · intro t' p hp
        cases hp
        exact ⟨op, hx⟩
    · cases hs
  | init t =>
    simp only [step] at hs
    split at hs
    · rename_i t' p ho
      split at hs
      · rename_i c
        cases hs
        subst c
        exact inv_init h ho
      · cases hs
    · cases hs
  | resume t =>
    simp only [step] at hs
    split at hs
    · rename_i i hx ho
      cases hs
      have hi : i < d.n := h.thr _ (List.mem_of_getElem? hx)
      exact inv_thr h t _ [] _ hx (Or.inr ho) ⟨hi, h.ptr i⟩ (fun z hz => by cases hz)
    · rename_i i hx ho
      cases hs
      have hi : i < d.n ∧ _ := h.thr _ (List.mem_of_getElem? hx)
      refine inv_thr h t .idle [(.query i, _)] _ hx (Or.inr ho) trivial ?_
      intro z hz
      rw [List.mem_singleton.mp hz]
      rcases done_ptr h ho hi.1 with ⟨w, hp⟩ | ⟨w, hp⟩
      · refine ⟨fun _ => ?_, fun w' => absurd w w'⟩
        rw [hp]
        unfold settled
        cases l.has i <;> rfl
      · refine ⟨fun w' => absurd w' w, fun _ => ?_⟩
        rw [hp]; rfl
    · cases hs
  | jump t =>
    simp only [step] at hs
    split at hs
    · rename_i i tgt hx
      cases hs
      exact jump_out h hx
    · cases hs

theorem inv_run {d : Decl} {l : Lib} (evs : List Ev) : ∀ {s s' : St}, Inv d l s → run d l s evs = some s' → Inv d l s' := by
  induction evs with
  | nil => intro s s' h hr; cases hr; exact h
  | cons e es ih =>
    intro s s' h hr
    simp only [run] at hr
    split at hr
    · rename_i s1 h1; exact ih (inv_step h h1) hr
    · cases hr

/-- In calm runs, what threads have read is still there. -/
structure CalmInv (d : Decl) (l : Lib) (s : St) : Prop where
  late : ∀ i tgt, Thr.loaded i tgt ∈ s.thr → tgt = .first ∨ (s.once = .done ∧ tgt = s.ptr i)
  out : ∀ i o, (Op.call i, o) ∈ s.out → Expected d l i o

theorem done_expected {d : Decl} {l : Lib} {s : St} (h : Inv d l s) (hd : s.once = .done) {t i : Nat}
    (hx : s.thr[t]? = some (.loaded i (s.ptr i))) :
    ∃ o, jump s t i (s.ptr i) = finish s t (.call i) o ∧ Expected d l i o := by
  have hok : ThrOk d l s (.loaded i (s.ptr i)) := h.thr _ (List.mem_of_getElem? hx)
  rcases done_ptr h hd hok.1 with ⟨w, hp⟩ | ⟨w, hp⟩
  · unfold settled at hp
    by_cases g : l.has i = true
    · rw [if_pos g] at hp
      rw [hp] at hok ⊢
      refine ⟨_, rfl, Or.inl ⟨w, g, ?_⟩⟩
      rw [if_pos (hok.2.2.2 w)]
    · rw [if_neg g] at hp
      rw [hp]
      exact ⟨_, rfl, Or.inr (Or.inl ⟨w, by simpa using g, rfl⟩)⟩
  · rw [hp] at hok ⊢
    obtain ⟨_, e, hr, he⟩ := hok
    refine ⟨_, rfl, Or.inr (Or.inr ⟨w, e, hr, ?_⟩)⟩
    rw [he]

theorem initStep_thr (d : Decl) (l : Lib) (s : St) (t : Nat) (p : Phase) :
    (initStep d l s t p).thr = s.thr ∧ (initStep d l s t p).out = s.out := by
  cases p <;> unfold initStep <;> refine ⟨?_, ?_⟩ <;> dsimp only <;> (repeat' split) <;> rfl

theorem calm_step {d : Decl} {l : Lib} {s s' : St} {e : Ev} (h : Inv d l s) (c : CalmInv d l s) (hs : step d l s e = some s')
    (hq : ∀ t i, e = .call t i → ∀ t' p, s.once ≠ .running t' p) : CalmInv d l s' := by
  cases e with
  | call t i =>
    simp only [step] at hs
    split at hs
    · rename_i g
      cases hs
      refine ⟨?_, c.out⟩
      intro j tgt hj
      rcases mem_set hj with hj | hj
      · exact c.late j tgt hj
      · cases hj
        have hq := hq t i rfl
        have ho := h.once
        match hon : s.once with
        | .idle => rw [hon] at ho; exact Or.inl (ho.1 i)
        | .running t' p => exact absurd hon (hq t' p)
        | .done => exact Or.inr ⟨rfl, rfl⟩
    · cases hs
  | query t i =>
    simp only [step] at hs
    split at hs
    · cases hs
      refine ⟨?_, c.out⟩
      intro j tgt hj
      rcases mem_set hj with hj | hj
      · exact c.late j tgt hj
      · cases hj
    · cases hs
  | enter t =>
    simp only [step] at hs
    split at hs
    · rename_i op hx ho
      cases hs
      refine ⟨?_, c.out⟩
      intro j tgt hj
      rcases c.late j tgt hj with a | ⟨a, _⟩
      · exact Or.inl a
      · rw [ho] at a; cases a
    · cases hs
  | init t =>
    simp only [step] at hs
    split at hs
    · rename_i t' p ho
      split at hs
      · cases hs
        obtain ⟨h1, h2⟩ := initStep_thr d l s t p
        refine ⟨?_, by rw [h2]; exact c.out⟩
        intro j tgt hj
        rw [h1] at hj
        rcases c.late j tgt hj with a | ⟨a, _⟩
        · exact Or.inl a
        · rw [ho] at a; cases a
      · cases hs
    · cases hs
  | resume t =>
    simp only [step] at hs
    split at hs
    · rename_i i hx ho
      cases hs
      refine ⟨?_, c.out⟩
      intro j tgt hj
      rcases mem_set hj with hj | hj
      · exact c.late j tgt hj
      · cases hj; exact Or.inr ⟨ho, rfl⟩
    · rename_i i hx ho
      cases hs
      refine ⟨?_, ?_⟩
      · intro j tgt hj
        rcases mem_set hj with hj | hj
        · exact c.late j tgt hj
        · cases hj
      · intro j o hj
        rcases List.mem_cons.mp hj with hj | hj
        · cases hj
        · exact c.out j o hj
    · cases hs
  | jump t =>
    simp only [step] at hs
    split at hs
    · rename_i i tgt hx
      cases hs
      rcases c.late i tgt (List.mem_of_getElem? hx) with a | ⟨a, b⟩
      · subst a
        refine ⟨?_, c.out⟩
        intro j tgt hj
        rcases mem_set hj with hj | hj
        · exact c.late j tgt hj
        · cases hj
      · subst b
        obtain ⟨o, ho, hexp⟩ := done_expected h a hx
        rw [ho]
        refine ⟨?_, ?_⟩
        · intro j tgt hj
          rcases mem_set hj with hj | hj
          · exact c.late j tgt hj
          · cases hj
        · intro j q hj
          rcases List.mem_cons.mp hj with hj | hj
          · cases hj; exact hexp
          · exact c.out j q hj
    · cases hs

theorem calm_run {d : Decl} {l : Lib} (evs : List Ev) : ∀ {s s' : St}, Inv d l s → CalmInv d l s → Calm d l s evs → run d l s evs = some s' → CalmInv d l s' := by
  induction evs with
  | nil => intro s s' _ c _ hr; cases hr; exact c
  | cons e es ih =>
    intro s s' h c hc hr
    simp only [run] at hr
    split at hr
    · rename_i s1 h1; exact ih (inv_step h h1) (calm_step h c h1 hc.1) (hc.2 s1 h1) hr
    · cases hr

theorem step_len {d : Decl} {l : Lib} {s s' : St} {e : Ev} (hs : step d l s e = some s') : s'.thr.length = s.thr.length := by
  cases e with
  | call t i => simp only [step] at hs; split at hs <;> cases hs; exact List.length_set
  | query t i => simp only [step] at hs; split at hs <;> cases hs; exact List.length_set
  | enter t => simp only [step] at hs; split at hs <;> cases hs; rfl
  | init t =>
    simp only [step] at hs
    split at hs
    · split at hs <;> cases hs; rw [(initStep_thr d l s t _).1]
    · cases hs
  | resume t => simp only [step] at hs; split at hs <;> cases hs <;> exact List.length_set
  | jump t =>
    simp only [step] at hs
    split at hs
    · rename_i i tgt _
      cases hs
      cases tgt <;> exact List.length_set
    · cases hs

theorem calm_single {d : Decl} {l : Lib} (evs : List Ev) : ∀ {s s' : St}, Inv d l s → s.thr.length ≤ 1 → run d l s evs = some s' → Calm d l s evs := by
  induction evs with
  | nil => intro s s' _ _ _; trivial
  | cons e es ih =>
    intro s s' h hl hr
    simp only [run] at hr
    split at hr
    · rename_i s1 h1
      refine ⟨?_, ?_⟩
      · rintro t i rfl t' p hp
        obtain ⟨op, ho⟩ := h.runner t' p hp
        simp only [step] at h1
        split at h1
        · rename_i g
          have a := (List.getElem?_eq_some_iff.mp ho).1
          have b := (List.getElem?_eq_some_iff.mp g.1).1
          have : t = t' := by omega
          subst this
          rw [g.1] at ho; cases ho
        · cases h1
      · intro s2 h2
        rw [h1] at h2; cases h2
        exact ih (inv_step h h1) (by rw [step_len h1]; exact hl) hr
    · cases hr

/-! ## Calls return -/

/-- What is left of a call. -/
def weight : Thr → Nat
  | .idle => 0
  | .loaded _ .first => 3
  | .loaded _ _ => 1
  | .waiting _ => 2

/-- What is left of `init`. -/
def left (d : Decl) : Once → Nat
  | .idle => 2 * d.n + 6
  | .running _ .opening => 2 * d.n + 5
  | .running _ (.sym k) => (d.n - k) + d.n + 4
  | .running _ (.closing _) => d.n + 2
  | .running _ (.resetting k) => (d.n - k) + 1
  | .done => 0

def total (d : Decl) (s : St) : Nat := left d s.once + (s.thr.map weight).sum

theorem sum_set : ∀ (thr : List Thr) (t : Nat) (x y : Thr), thr[t]? = some x →
    ((thr.set t y).map weight).sum + weight x = (thr.map weight).sum + weight y
  | [], _, _, _, h => by simp at h
  | a :: as, 0, x, y, h => by
    simp only [List.getElem?_cons_zero, Option.some.injEq] at h
    subst h
    simp only [List.set_cons_zero, List.map_cons, List.sum_cons]; omega
  | a :: as, t + 1, x, y, h => by
    simp only [List.getElem?_cons_succ] at h
    have := sum_set as t x y h
    simp only [List.set_cons_succ, List.map_cons, List.sum_cons]; omega

theorem settled_ne (l : Lib) (i : Nat) : settled l i ≠ .first := by
  unfold settled; split <;> simp

theorem weight_loaded {i : Nat} {tgt : Target} (h : tgt ≠ .first) : weight (.loaded i tgt) = 1 := by
  cases tgt <;> first | rfl | exact absurd rfl h

theorem left_initStep {d : Decl} {l : Lib} {s : St} {t : Nat} {p : Phase} (h : OnceOk d l s (.running t p)) :
    left d (initStep d l s t p).once < left d (.running t p) := by
  cases p with
  | opening => simp only [initStep]; split <;> simp only [left] <;> omega
  | sym k => simp only [initStep]; (repeat' split) <;> simp only [left] <;> omega
  | closing k => simp only [initStep, left]; omega
  | resetting k => simp only [initStep]; split <;> simp only [left] <;> omega

theorem total_step {d : Decl} {l : Lib} {s s' : St} {e : Ev} (h : Inv d l s) (hs : step d l s e = some s')
    (hc : ∀ t i, e ≠ .call t i ∧ e ≠ .query t i) : total d s' < total d s := by
  cases e with
  | call t i => exact absurd rfl (hc t i).1
  | query t i => exact absurd rfl (hc t i).2
  | enter t =>
    simp only [step] at hs
    split at hs
    · rename_i ho; cases hs; unfold total; rw [ho]; simp only [left]; omega
    · cases hs
  | init t =>
    simp only [step] at hs
    split at hs
    · rename_i t' p ho
      split at hs
      · rename_i c
        cases hs
        subst c
        have a := h.once
        rw [ho] at a
        have b := left_initStep a
        unfold total
        rw [(initStep_thr d l s t p).1, ho]
        omega
      · cases hs
    · cases hs
  | resume t =>
    simp only [step] at hs
    split at hs
    · rename_i i hx ho
      cases hs
      have hi : i < d.n := h.thr _ (List.mem_of_getElem? hx)
      have hne : s.ptr i ≠ .first := by
        rcases done_ptr h ho hi with ⟨_, e⟩ | ⟨_, e⟩ <;> rw [e]
        · exact settled_ne l i
        · simp
      have a := sum_set s.thr t _ (.loaded i (s.ptr i)) hx
      have b : weight (.loaded i (s.ptr i)) = 1 := weight_loaded hne
      have c : weight (.waiting (.call i)) = 2 := rfl
      unfold total
      show left d s.once + ((s.thr.set t _).map weight).sum < _
      omega
    · rename_i i hx ho
      cases hs
      have a := sum_set s.thr t _ .idle hx
      have b : weight .idle = 0 := rfl
      have c : weight (.waiting (.query i)) = 2 := rfl
      unfold total
      show left d s.once + ((s.thr.set t _).map weight).sum < _
      omega
    · cases hs
  | jump t =>
    simp only [step] at hs
    split at hs
    · rename_i i tgt hx
      cases hs
      unfold total
      cases tgt with
      | first =>
        have a := sum_set s.thr t _ (.waiting (.call i)) hx
        have b : weight (.waiting (.call i)) = 2 := rfl
        have c : weight (.loaded i .first) = 3 := rfl
        show left d s.once + ((s.thr.set t _).map weight).sum < _
        omega
      | stub =>
        have a := sum_set s.thr t _ .idle hx
        have b : weight .idle = 0 := rfl
        have c : weight (.loaded i .stub) = 1 := rfl
        show left d s.once + ((s.thr.set t _).map weight).sum < _
        omega
      | missing =>
        have a := sum_set s.thr t _ .idle hx
        have b : weight .idle = 0 := rfl
        have c : weight (.loaded i .missing) = 1 := rfl
        show left d s.once + ((s.thr.set t _).map weight).sum < _
        omega
      | real =>
        have a := sum_set s.thr t _ .idle hx
        have b : weight .idle = 0 := rfl
        have c : weight (.loaded i .real) = 1 := rfl
        show left d s.once + ((s.thr.set t _).map weight).sum < _
        omega
    · cases hs

/-- If a thread is inside, something can happen that is not a new call. -/
theorem enabled {d : Decl} {l : Lib} {s : St} (t : Nat) (x : Thr) (hx : s.thr[t]? = some x) (hne : x ≠ .idle) :
    ∃ e s', (∀ t i, e ≠ Ev.call t i ∧ e ≠ Ev.query t i) ∧ step d l s e = some s' := by
  match x, hx with
  | .idle, _ => exact absurd rfl hne
  | .loaded i tgt, hx => exact ⟨.jump t, _, fun _ _ => by simp, by simp only [step, hx]; rfl⟩
  | .waiting op, hx =>
    match ho : s.once with
    | .idle => exact ⟨.enter t, _, fun _ _ => by simp, by simp only [step, hx, ho]; rfl⟩
    | .running t' p => exact ⟨.init t', _, fun _ _ => by simp, by simp only [step, ho]; rfl⟩
    | .done =>
      cases op with
      | call i => exact ⟨.resume t, _, fun _ _ => by simp, by simp only [step, hx, ho]; rfl⟩
      | query i => exact ⟨.resume t, _, fun _ _ => by simp, by simp only [step, hx, ho]; rfl⟩

end Spead2.Loader
