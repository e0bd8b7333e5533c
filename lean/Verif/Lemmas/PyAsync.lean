import Verif.Spec.PyAsync

/-!
# Lemmas about asynchronous gets and puts
-/

namespace Spead2.Aio

variable {σ α β ε : Type}

theorem put_self {γ : Type} (f : Nat → γ) (i : Nat) (b : γ) : put f i b i = b := by simp [put]

theorem put_ne {γ : Type} (f : Nat → γ) {i j : Nat} (b : γ) (h : j ≠ i) : put f i b j = f j := by
  simp [put, h]

theorem dropDone_sublist (fut : Nat → Fut β) (ws : List Nat) :
    (dropDone fut ws).Sublist ws := by
  induction ws with
  | nil => simp [dropDone]
  | cons w ws ih =>
    simp only [dropDone]
    split
    · exact ih.trans (List.sublist_cons_self ..)
    · exact List.Sublist.refl _

theorem dropDone_head (fut : Nat → Fut β) (ws : List Nat) {w : Nat} {rest : List Nat}
    (h : dropDone fut ws = w :: rest) : fut w = .pending := by
  induction ws with
  | nil => simp [dropDone] at h
  | cons x xs ih =>
    simp only [dropDone] at h
    split at h
    · exact ih h
    · rename_i hd
      cases h
      cases hf : fut w <;> simp_all [Fut.done]

theorem dropDone_pending (fut : Nat → Fut β) (ws : List Nat) {w : Nat} (hw : w ∈ ws)
    (hp : fut w = .pending) : w ∈ dropDone fut ws := by
  induction ws with
  | nil => cases hw
  | cons x xs ih =>
    simp only [dropDone]
    split
    · rename_i hd
      rcases List.mem_cons.mp hw with rfl | hw
      · simp [hp, Fut.done] at hd
      · exact ih hw
    · exact hw

theorem dropDone_length (fut : Nat → Fut β) (ws : List Nat) :
    (dropDone fut ws).length ≤ ws.length := (dropDone_sublist fut ws).length_le

/-- What holds in every state. -/
structure AInv (g : Gate σ α β ε) (s : St σ α β) : Prop where
  deque : s.isDeque = true ∨ (s.waiters = [] ∧ ∀ a, g.attempt s.res a = .stopped)
  sorted : s.waiters.Pairwise (· < ·)
  bound : ∀ w ∈ s.waiters, w < s.next
  args : ∀ i, i < s.next → ∃ a, s.arg i = some a
  fresh : ∀ i, s.next ≤ i → s.phase i = none
  mem : ∀ i, Waiting s i → i ∈ s.waiters
  noResult : ∀ w ∈ s.waiters, ∀ b, s.fut w ≠ .result b
  phases : ∀ w ∈ s.waiters, (∃ m, s.phase w = some (.awaiting m)) ∨
    (s.fut w ≠ .pending ∧ (s.phase w = some (.cancelled none) ∨ s.phase w = some .raised))
  later : ∀ w ∈ s.waiters, ∀ j, w < j → taken s j = none
  listen : s.waiters ≠ [] → s.listening = true

theorem AInv.init (g : Gate σ α β ε) (r : σ) : AInv g (St.init r) := by
  constructor <;> simp [St.init, Waiting]

theorem AInv.takenNone {g : Gate σ α β ε} {s : St σ α β} (h : AInv g s) {w : Nat}
    (hw : w ∈ s.waiters) : taken s w = none := by
  rcases h.phases w hw with ⟨m, hm⟩ | ⟨_, hp | hp⟩
  · simp only [taken, hm]
    cases hf : s.fut w <;> simp
    exact absurd hf (h.noResult w hw _)
  · simp [taken, hp]
  · simp [taken, hp]

theorem taken_congr {s t : St σ α β} {i : Nat} (hp : s.phase i = t.phase i)
    (hf : s.fut i = t.fut i) : taken s i = taken t i := by
  simp only [taken, hp, hf]

/-! ## clearing -/

theorem clearDone_some {g : Gate σ α β ε} {s : St σ α β} (h : AInv g s) :
    ∃ t, clearDone s = some t ∧ AInv g t ∧ t.waiters = dropDone s.fut s.waiters ∧ t.res = s.res ∧
      t.fut = s.fut ∧ t.phase = s.phase ∧ t.arg = s.arg ∧ t.next = s.next ∧
      t.isDeque = s.isDeque := by
  have hsub := dropDone_sublist s.fut s.waiters
  have hno : ¬ ((dropDone s.fut s.waiters).length < s.waiters.length ∧ s.isDeque = false) := by
    rintro ⟨hl, hd⟩
    rcases h.deque with h' | ⟨h', _⟩
    · simp [hd] at h'
    · simp [h'] at hl
  simp only [clearDone, if_neg hno]
  have common : ∀ (l : Bool) (hl : dropDone s.fut s.waiters ≠ [] → l = true),
      AInv g { s with waiters := dropDone s.fut s.waiters, listening := l } := by
    intro l hl
    constructor
    · rcases h.deque with h' | ⟨h', h''⟩
      · exact Or.inl h'
      · refine Or.inr ⟨?_, h''⟩
        simp [h', dropDone]
    · exact h.sorted.sublist hsub
    · exact fun w hw => h.bound w (hsub.subset hw)
    · exact h.args
    · exact h.fresh
    · intro i hi
      exact dropDone_pending s.fut s.waiters (h.mem i hi) hi.2
    · exact fun w hw => h.noResult w (hsub.subset hw)
    · exact fun w hw => h.phases w (hsub.subset hw)
    · exact fun w hw => h.later w (hsub.subset hw)
    · exact hl
  by_cases he : dropDone s.fut s.waiters = []
  · rw [if_pos he]
    exact ⟨_, rfl, common false (fun hne => absurd he hne), rfl, rfl, rfl, rfl, rfl, rfl, rfl⟩
  · rw [if_neg he]
    refine ⟨_, rfl, ?_, rfl, rfl, rfl, rfl, rfl, rfl, rfl⟩
    refine common s.listening (fun _ => h.listen ?_)
    intro hn
    apply he
    rw [hn]; rfl

/-! ## setting exceptions -/

theorem setExceptions_spec (ws : List Nat) (fut : Nat → Fut β) (hn : ws.Nodup) :
    ∀ i, (setExceptions ws fut).1 i = fut i ∨
      (i ∈ ws ∧ fut i = .pending ∧ (setExceptions ws fut).1 i = .exception) := by
  induction ws generalizing fut with
  | nil => intro i; exact Or.inl rfl
  | cons w ws ih =>
    intro i
    simp only [setExceptions]
    split
    · exact Or.inl rfl
    · rename_i hd
      have hw : fut w = .pending := by cases hf : fut w <;> simp_all [Fut.done]
      have hn' := List.nodup_cons.mp hn
      rcases ih (put fut w .exception) hn'.2 i with h | ⟨hi, hp, he⟩
      · by_cases hiw : i = w
        · subst hiw
          right
          refine ⟨by simp, hw, ?_⟩
          rw [h, put_self]
        · left
          rw [h, put_ne _ _ hiw]
      · by_cases hiw : i = w
        · subst hiw
          exact absurd hi hn'.1
        · right
          rw [put_ne _ _ hiw] at hp
          exact ⟨List.mem_cons_of_mem _ hi, hp, he⟩

theorem setExceptions_head (w : Nat) (ws : List Nat) (fut : Nat → Fut β) (hw : fut w = .pending)
    (hn : (w :: ws).Nodup) : (setExceptions (w :: ws) fut).1 w = .exception := by
  simp only [setExceptions, hw, Fut.done, Bool.false_eq_true, if_false]
  rcases setExceptions_spec ws (put fut w .exception) (List.nodup_cons.mp hn).2 w with h | ⟨_, _, h⟩
  · rw [h, put_self]
  · exact h

theorem setExceptions_true (ws : List Nat) (fut : Nat → Fut β) (hn : ws.Nodup)
    (ht : (setExceptions ws fut).2 = true) :
    ∀ i ∈ ws, (setExceptions ws fut).1 i = .exception := by
  induction ws generalizing fut with
  | nil => intro i hi; cases hi
  | cons w ws ih =>
    intro i hi
    by_cases hd : (fut w).done = true
    · simp [setExceptions, hd] at ht
    · have hw : fut w = .pending := by cases hf : fut w <;> simp_all [Fut.done]
      rcases List.mem_cons.mp hi with rfl | hi
      · exact setExceptions_head i ws fut hw hn
      · simp only [setExceptions, hd, if_false] at ht ⊢
        exact ih _ (List.nodup_cons.mp hn).2 ht i hi

/-- With nothing done in the queue the loop runs to its end. -/
theorem setExceptions_all (ws : List Nat) (fut : Nat → Fut β) (hn : ws.Nodup)
    (hp : ∀ i ∈ ws, fut i = .pending) : (setExceptions ws fut).2 = true := by
  induction ws generalizing fut with
  | nil => rfl
  | cons w ws ih =>
    have hw := hp w (by simp)
    simp only [setExceptions, hw, Fut.done, Bool.false_eq_true, if_false]
    apply ih _ (List.nodup_cons.mp hn).2
    intro i hi
    rw [put_ne _ _ (fun hiw : i = w => (List.nodup_cons.mp hn).1 (hiw ▸ hi))]
    exact hp i (List.mem_cons_of_mem _ hi)

theorem AInv.nodup {g : Gate σ α β ε} {s : St σ α β} (h : AInv g s) : s.waiters.Nodup :=
  h.sorted.imp (fun hlt => Nat.ne_of_lt hlt)

theorem taken_exc {g : Gate σ α β ε} {s : St σ α β} (h : AInv g s) (i : Nat) (t : St σ α β)
    (hf : t.fut = (setExceptions s.waiters s.fut).1) (hp : t.phase = s.phase) :
    taken t i = taken s i := by
  rcases setExceptions_spec s.waiters s.fut h.nodup i with he | ⟨hi, hpend, he⟩
  · exact taken_congr (by rw [hp]) (by rw [hf, he])
  · rw [h.takenNone hi]
    rcases h.phases i hi with ⟨m, hm⟩ | ⟨hne, _⟩
    · simp [taken, hp, hm, hf, he]
    · exact absurd hpend hne

theorem stopAll_inv {g : Gate σ α β ε} {s : St σ α β} (h : AInv g s)
    (hs : ∀ a, g.attempt s.res a = .stopped) : AInv g (stopAll s) := by
  have spec := setExceptions_spec s.waiters s.fut h.nodup
  rcases hse : setExceptions s.waiters s.fut with ⟨fut, b⟩
  have hf : (setExceptions s.waiters s.fut).1 = fut := by rw [hse]
  have hb : (setExceptions s.waiters s.fut).2 = b := by rw [hse]
  rw [hf] at spec
  have wait : ∀ i, (∃ m, s.phase i = some (.awaiting m)) ∧ fut i = .pending → Waiting s i := by
    rintro i ⟨hm, hp⟩
    refine ⟨hm, ?_⟩
    rcases spec i with he | ⟨_, _, he⟩
    · rw [← he, hp]
    · rw [hp] at he; cases he
  cases b
  · simp only [stopAll, hse]
    refine ⟨h.deque, h.sorted, h.bound, h.args, h.fresh, fun i hi => h.mem i (wait i hi), ?_, ?_, ?_,
      h.listen⟩
    · intro w hw b hc
      rcases spec w with he | ⟨_, _, he⟩
      · exact h.noResult w hw b (by rw [← he, ← hc])
      · have hc' : fut w = .result b := hc
        rw [he] at hc'; cases hc'
    · intro w hw
      rcases h.phases w hw with hm | ⟨hne, hp⟩
      · exact Or.inl hm
      · right
        refine ⟨?_, hp⟩
        intro hc
        have hc' : fut w = .pending := hc
        rcases spec w with he | ⟨_, _, he⟩
        · exact hne (by rw [← he, hc'])
        · rw [he] at hc'; cases hc'
    · intro w hw j hj
      rw [taken_exc h j { s with fut := fut } hf.symm rfl]
      exact h.later w hw j hj
  · simp only [stopAll, hse]
    refine ⟨Or.inr ⟨rfl, hs⟩, List.Pairwise.nil, by simp, h.args, h.fresh, ?_, by simp, by simp,
      by simp, by simp⟩
    intro i hi
    have hi' := h.mem i (wait i hi)
    have := setExceptions_true _ _ h.nodup hb i hi'
    rw [hf] at this
    have h2 : fut i = .pending := hi.2
    rw [this] at h2; cases h2

theorem stopAll_taken {g : Gate σ α β ε} {s : St σ α β} (h : AInv g s) (i : Nat) :
    taken (stopAll s) i = taken s i := by
  rcases hse : setExceptions s.waiters s.fut with ⟨fut, b⟩
  have hf : (setExceptions s.waiters s.fut).1 = fut := by rw [hse]
  cases b
  · simp only [stopAll, hse]
    exact taken_exc h i _ hf.symm rfl
  · simp only [stopAll, hse]
    exact taken_exc h i _ hf.symm rfl

theorem stopAll_same (s : St σ α β) :
    (stopAll s).res = s.res ∧ (stopAll s).arg = s.arg ∧ (stopAll s).next = s.next ∧
      (stopAll s).phase = s.phase ∧ (stopAll s).fut = (setExceptions s.waiters s.fut).1 := by
  rcases hse : setExceptions s.waiters s.fut with ⟨fut, b⟩
  cases b <;> simp [stopAll, hse]

/-! ## serving the first waiter -/

theorem serve_inv {g : Gate σ α β ε} {s t : St σ α β} (h : AInv g s) {w : Nat} {ws : List Nat}
    {r : σ} {b : β} (hw : s.waiters = w :: ws) (ht : serve s w ws r b = some t) : AInv g t := by
  simp only [serve] at ht
  split at ht
  · cases ht
  · rename_i hd
    have hd' : s.isDeque = true := by cases hx : s.isDeque <;> simp_all
    have hsort := h.sorted
    rw [hw] at hsort
    have hlt := (List.pairwise_cons.mp hsort).1
    have hin : ∀ x ∈ ws, x ∈ s.waiters := fun x hx => by rw [hw]; exact List.mem_cons_of_mem _ hx
    have hne : ∀ x ∈ ws, x ≠ w := fun x hx => Nat.ne_of_gt (hlt x hx)
    cases ht
    refine ⟨Or.inl hd', (List.pairwise_cons.mp hsort).2, fun x hx => h.bound x (hin x hx), h.args,
      h.fresh, ?_, ?_, ?_, ?_, ?_⟩
    · rintro i ⟨hm, hp⟩
      by_cases hiw : i = w
      · subst hiw
        simp [put] at hp
      · have hp' : put s.fut w (.result b) i = .pending := hp
        rw [put_ne _ _ hiw] at hp'
        have := h.mem i ⟨hm, hp'⟩
        rw [hw] at this
        rcases List.mem_cons.mp this with rfl | this
        · exact absurd rfl hiw
        · exact this
    · intro x hx c
      show put s.fut w (.result b) x ≠ _
      rw [put_ne _ _ (hne x hx)]
      exact h.noResult x (hin x hx) c
    · intro x hx
      show _ ∨ (put s.fut w (.result b) x ≠ _ ∧ _)
      rw [put_ne _ _ (hne x hx)]
      exact h.phases x (hin x hx)
    · intro x hx j hj
      have hjw : j ≠ w := by have := hlt x hx; omega
      refine Eq.trans (taken_congr (t := s) rfl ?_) (h.later x (hin x hx) j hj)
      exact put_ne _ _ hjw
    · intro hne'
      have hne'' : ws ≠ [] := hne'
      simp only [if_neg hne'']
      exact h.listen (by rw [hw]; simp)

theorem readyWith_inv {g : Gate σ α β ε} (hg : g.Lawful) {s : St σ α β} (h : AInv g s) :
    ∃ t, readyWith g s = some t ∧ AInv g t := by
  unfold readyWith
  cases hw : s.waiters with
  | nil => exact ⟨s, rfl, h⟩
  | cons w ws =>
    obtain ⟨a, ha⟩ := h.args w (h.bound w (by rw [hw]; simp))
    simp only [ha]
    cases ht : g.attempt s.res a with
    | blocked => exact ⟨s, rfl, h⟩
    | stopped => exact ⟨_, rfl, stopAll_inv h (hg.stopped_all _ _ ht)⟩
    | ok r b =>
      have hd : s.isDeque = true := by
        rcases h.deque with hd | ⟨hn, _⟩
        · exact hd
        · rw [hw] at hn; cases hn
      refine ⟨{ s with res := r, waiters := ws, fut := put s.fut w (.result b), listening := if ws = [] then false else s.listening }, by simp [serve, hd], ?_⟩
      exact serve_inv (r := r) (b := b) h hw (by simp [serve, hd])

theorem ready_inv {g : Gate σ α β ε} (hg : g.Lawful) {s : St σ α β} (h : AInv g s) :
    ∃ t, ready g s = some t ∧ AInv g t := by
  unfold ready
  split
  · obtain ⟨u, hu, iu, _⟩ := clearDone_some h
    rw [hu]
    exact readyWith_inv hg iu
  · exact ⟨s, rfl, h⟩

/-! ## a new call -/

theorem enqueue_inv {g : Gate σ α β ε} {s : St σ α β} {a : α} (h : AInv g s)
    (hd : s.isDeque = true) :
    AInv g (enqueue { s with arg := put s.arg s.next (some a) }) := by
  have hb : ∀ w ∈ s.waiters, w ≠ s.next := fun w hw => Nat.ne_of_lt (h.bound w hw)
  have hfresh : ∀ j, j ≠ s.next → ∀ w ∈ s.waiters, w < j →
      taken (enqueue { s with arg := put s.arg s.next (some a) }) j = none := by
    intro j hj w hw hwj
    rw [taken_congr (t := s) (put_ne _ _ hj) (put_ne _ _ hj)]
    exact h.later w hw j hwj
  have hnew : taken (enqueue { s with arg := put s.arg s.next (some a) }) s.next = none := by
    simp [taken, enqueue, put]
  constructor
  · exact Or.inl hd
  · show (s.waiters ++ [s.next]).Pairwise _
    rw [List.pairwise_append]
    refine ⟨h.sorted, List.pairwise_singleton .., ?_⟩
    intro x hx y hy
    have hy' := List.mem_singleton.mp hy
    subst hy'
    exact h.bound x hx
  · intro w hw
    show w < s.next + 1
    rcases List.mem_append.mp hw with hw | hw
    · have := h.bound w hw; omega
    · have hw' := List.mem_singleton.mp hw
      have hw'' : w = s.next := hw'
      omega
  · intro i hi
    have hi' : i < s.next + 1 := hi
    show ∃ x, put s.arg s.next (some a) i = some x
    by_cases hin : i = s.next
    · subst hin
      exact ⟨a, put_self _ _ _⟩
    · rw [put_ne _ _ hin]
      exact h.args i (by omega)
  · intro i hi
    have hi' : s.next + 1 ≤ i := hi
    show put s.phase s.next _ i = none
    rw [put_ne _ _ (by omega)]
    exact h.fresh i (by omega)
  · rintro i ⟨⟨m, hm⟩, hp⟩
    show i ∈ s.waiters ++ [s.next]
    by_cases hin : i = s.next
    · simp [hin]
    · have hm' : put s.phase s.next (some (.awaiting false)) i = some (.awaiting m) := hm
      have hp' : put s.fut s.next .pending i = .pending := hp
      rw [put_ne _ _ hin] at hm' hp'
      exact List.mem_append_left _ (h.mem i ⟨⟨m, hm'⟩, hp'⟩)
  · intro w hw b
    show put s.fut s.next .pending w ≠ _
    rcases List.mem_append.mp hw with hw | hw
    · rw [put_ne _ _ (hb w hw)]
      exact h.noResult w hw b
    · have hw' : w = s.next := List.mem_singleton.mp hw
      subst hw'
      rw [put_self]; simp
  · intro w hw
    show (∃ m, put s.phase s.next (some (.awaiting false)) w = _) ∨
      (put s.fut s.next .pending w ≠ _ ∧ (put s.phase s.next (some (.awaiting false)) w = _ ∨
        put s.phase s.next (some (.awaiting false)) w = _))
    rcases List.mem_append.mp hw with hw | hw
    · rw [put_ne _ _ (hb w hw), put_ne _ _ (hb w hw)]
      exact h.phases w hw
    · have hw' : w = s.next := List.mem_singleton.mp hw
      subst hw'
      exact Or.inl ⟨false, put_self _ _ _⟩
  · intro w hw j hj
    by_cases hjn : j = s.next
    · rw [hjn]; exact hnew
    · rcases List.mem_append.mp hw with hw | hw
      · exact hfresh j hjn w hw hj
      · have hw' : w = s.next := List.mem_singleton.mp hw
        have hj' : s.next < j := hw' ▸ hj
        have : (enqueue { s with arg := put s.arg s.next (some a) }).phase j = none := by
          show put s.phase s.next _ j = none
          rw [put_ne _ _ hjn]
          exact h.fresh j (by omega)
        simp [taken, this]
  · intro _; rfl

/-- A call that does not wait. -/
theorem direct_inv {g : Gate σ α β ε} {s : St σ α β} {a : α} {r : σ} {p : Phase β} (h : AInv g s)
    (hw : s.waiters = []) (hp : ∀ m, p ≠ .awaiting m)
    (hr : s.isDeque = true ∨ ∀ a, g.attempt r a = .stopped) :
    AInv g { s with res := r, arg := put s.arg s.next (some a), phase := put s.phase s.next (some p), next := s.next + 1 } := by
  constructor
  · rcases hr with hr | hr
    · exact Or.inl hr
    · exact Or.inr ⟨hw, hr⟩
  · exact h.sorted
  · intro w hw'
    have hw'' : w ∈ s.waiters := hw'
    rw [hw] at hw''; cases hw''
  · intro i hi
    have hi' : i < s.next + 1 := hi
    show ∃ x, put s.arg s.next (some a) i = some x
    by_cases hin : i = s.next
    · subst hin
      exact ⟨a, put_self _ _ _⟩
    · rw [put_ne _ _ hin]
      exact h.args i (by omega)
  · intro i hi
    have hi' : s.next + 1 ≤ i := hi
    show put s.phase s.next _ i = none
    rw [put_ne _ _ (by omega)]
    exact h.fresh i (by omega)
  · rintro i ⟨⟨m, hm⟩, hp'⟩
    have hm' : put s.phase s.next (some p) i = some (.awaiting m) := hm
    by_cases hin : i = s.next
    · subst hin
      rw [put_self] at hm'
      exact absurd (Option.some.inj hm') (hp m)
    · rw [put_ne _ _ hin] at hm'
      exact h.mem i ⟨⟨m, hm'⟩, hp'⟩
  · intro w hw'
    have hw'' : w ∈ s.waiters := hw'
    rw [hw] at hw''; cases hw''
  · intro w hw'
    have hw'' : w ∈ s.waiters := hw'
    rw [hw] at hw''; cases hw''
  · intro w hw'
    have hw'' : w ∈ s.waiters := hw'
    rw [hw] at hw''; cases hw''
  · exact h.listen

theorem waitFrom_inv {g : Gate σ α β ε} {s : St σ α β} {a : α} (h : AInv g s) :
    AInv g (waitFrom g { s with arg := put s.arg s.next (some a) } a) := by
  unfold waitFrom
  have hdq : s.waiters ≠ [] → s.isDeque = true := by
    intro hne
    rcases h.deque with hd | ⟨hn, _⟩
    · exact hd
    · exact absurd hn hne
  by_cases hw : s.waiters = []
  · rw [if_pos hw]
    cases ht : g.attempt s.res a with
    | blocked =>
      simp only [ht]
      apply enqueue_inv h
      rcases h.deque with hd | ⟨_, hs⟩
      · exact hd
      · rw [hs a] at ht; cases ht
    | stopped =>
      simp only [ht]
      have := direct_inv (a := a) (r := s.res) (p := Phase.raised) h hw (by simp) (by
        rcases h.deque with hd | ⟨_, hs⟩
        · exact Or.inl hd
        · exact Or.inr hs)
      exact this
    | ok r b =>
      simp only [ht]
      have := direct_inv (a := a) (r := r) (p := Phase.sleeping b false) h hw (by simp) (by
        rcases h.deque with hd | ⟨_, hs⟩
        · exact Or.inl hd
        · rw [hs a] at ht; cases ht)
      exact this
  · rw [if_neg hw]
    exact enqueue_inv h (hdq hw)

theorem call_inv {g : Gate σ α β ε} {s : St σ α β} {a : α} (h : AInv g s) :
    ∃ t, call g s a = some t ∧ AInv g t := by
  obtain ⟨u, hu, iu, _⟩ := clearDone_some h
  refine ⟨_, by rw [call, hu]; rfl, waitFrom_inv iu⟩

/-! ## cancelling and resuming -/

theorem cancel_same (s : St σ α β) (i : Nat) :
    (cancel s i).res = s.res ∧ (cancel s i).arg = s.arg ∧ (cancel s i).next = s.next ∧
      (cancel s i).waiters = s.waiters ∧ (cancel s i).isDeque = s.isDeque ∧
      (cancel s i).listening = s.listening := by
  unfold cancel
  split
  · simp
  · split <;> simp
  · simp

theorem resume_same (s : St σ α β) (i : Nat) :
    (resume s i).res = s.res ∧ (resume s i).arg = s.arg ∧ (resume s i).next = s.next ∧
      (resume s i).waiters = s.waiters ∧ (resume s i).isDeque = s.isDeque ∧
      (resume s i).listening = s.listening ∧ (resume s i).fut = s.fut := by
  unfold resume
  split <;> simp

theorem cancel_ne (s : St σ α β) {i j : Nat} (hj : j ≠ i) :
    (cancel s i).phase j = s.phase j ∧ (cancel s i).fut j = s.fut j := by
  unfold cancel
  split
  · simp [put, hj]
  · split <;> simp [put, hj]
  · simp

theorem resume_ne (s : St σ α β) {i j : Nat} (hj : j ≠ i) :
    (resume s i).phase j = s.phase j := by
  unfold resume
  split <;> simp [put, hj]

theorem cancel_taken (s : St σ α β) (i j : Nat) : taken (cancel s i) j = taken s j := by
  by_cases hj : j = i
  · subst hj
    unfold cancel
    split
    · rename_i b m hp
      simp [taken, put, hp]
    · rename_i m hp
      split
      · simp [taken, put, hp]
      · rename_i hd
        have : s.fut j = .pending := by cases hf : s.fut j <;> simp_all [Fut.done]
        simp [taken, put, hp, this]
    · rfl
  · obtain ⟨h1, h2⟩ := cancel_ne s hj
    exact taken_congr h1 h2

theorem resume_taken (s : St σ α β) (i j : Nat) : taken (resume s i) j = taken s j := by
  by_cases hj : j = i
  · subst hj
    unfold resume
    split
    · rename_i b hp; simp [taken, put, hp]
    · rename_i b hp; simp [taken, put, hp]
    · rename_i m hp
      cases hf : s.fut j <;> cases m <;> simp [taken, put, hp, hf, wake]
    · rfl
  · exact taken_congr (resume_ne s hj) (by rw [(resume_same s i).2.2.2.2.2.2])

theorem cancel_inv {g : Gate σ α β ε} {s : St σ α β} (h : AInv g s) (i : Nat) :
    AInv g (cancel s i) := by
  obtain ⟨hr, ha, hn, hw, hd, hl⟩ := cancel_same s i
  constructor
  · rw [hd, hw, hr]; exact h.deque
  · rw [hw]; exact h.sorted
  · rw [hw, hn]; exact h.bound
  · rw [hn, ha]; exact h.args
  · rw [hn]
    intro j hj
    by_cases hji : j = i
    · subst hji
      simp [cancel, h.fresh j hj]
    · rw [(cancel_ne s hji).1]
      exact h.fresh j hj
  · rw [hw]
    rintro j ⟨⟨m, hm⟩, hp⟩
    apply h.mem
    by_cases hji : j = i
    · subst hji
      revert hm hp
      unfold cancel
      split
      · simp [put]
      · rename_i m' hp'
        split
        · rename_i hd'
          intro hp hm
          have hp2 : s.fut j = .pending := hp
          simp [hp2, Fut.done] at hd'
        · simp [put]
      · rename_i h1 h2
        intro hp hm
        exact ⟨⟨m, hm⟩, hp⟩
    · rw [(cancel_ne s hji).1] at hm
      rw [(cancel_ne s hji).2] at hp
      exact ⟨⟨m, hm⟩, hp⟩
  · rw [hw]
    intro w hw' b
    by_cases hwi : w = i
    · subst hwi
      unfold cancel
      split
      · exact h.noResult w hw' b
      · split
        · exact h.noResult w hw' b
        · simp [put]
      · exact h.noResult w hw' b
    · rw [(cancel_ne s hwi).2]; exact h.noResult w hw' b
  · rw [hw]
    intro w hw'
    by_cases hwi : w = i
    · subst hwi
      rcases h.phases w hw' with ⟨m, hm⟩ | ⟨hne, hp | hp⟩
      · left
        unfold cancel
        simp only [hm]
        split
        · exact ⟨true, put_self _ _ _⟩
        · exact ⟨m, put_self _ _ _⟩
      · right
        simp [cancel, hp, hne]
      · right
        simp [cancel, hp, hne]
    · rw [(cancel_ne s hwi).1, (cancel_ne s hwi).2]
      exact h.phases w hw'
  · rw [hw]
    intro w hw' j hj
    rw [cancel_taken]
    exact h.later w hw' j hj
  · rw [hw, hl]; exact h.listen

theorem resume_inv {g : Gate σ α β ε} {s : St σ α β} (h : AInv g s) (i : Nat) :
    AInv g (resume s i) := by
  obtain ⟨hr, ha, hn, hw, hd, hl, hf⟩ := resume_same s i
  constructor
  · rw [hd, hw, hr]; exact h.deque
  · rw [hw]; exact h.sorted
  · rw [hw, hn]; exact h.bound
  · rw [hn, ha]; exact h.args
  · rw [hn]
    intro j hj
    by_cases hji : j = i
    · subst hji
      simp [resume, h.fresh j hj]
    · rw [resume_ne s hji]
      exact h.fresh j hj
  · rw [hw]
    rintro j ⟨⟨m, hm⟩, hp⟩
    rw [hf] at hp
    apply h.mem
    refine ⟨?_, hp⟩
    by_cases hji : j = i
    · subst hji
      revert hm
      unfold resume
      split
      · simp [put]
      · simp [put]
      · rename_i m' hp'
        intro _
        exact ⟨m', hp'⟩
      · intro hm
        exact ⟨m, hm⟩
    · rw [resume_ne s hji] at hm
      exact ⟨m, hm⟩
  · rw [hw, hf]; exact h.noResult
  · rw [hw, hf]
    intro w hw'
    by_cases hwi : w = i
    · subst hwi
      rcases h.phases w hw' with ⟨m, hm⟩ | ⟨hne, hp | hp⟩
      · have hph : (resume s w).phase w = some (wake (s.fut w) m) := by
          simp [resume, hm, put]
        rw [hph]
        cases hfw : s.fut w with
        | pending => left; exact ⟨m, rfl⟩
        | result b => exact absurd hfw (h.noResult w hw' b)
        | exception => cases m <;> simp [wake]
        | cancelled => simp [wake]
      · right
        simp [resume, hp, hne]
      · right
        simp [resume, hp, hne]
    · rw [resume_ne s hwi]
      exact h.phases w hw'
  · rw [hw]
    intro w hw' j hj
    rw [resume_taken]
    exact h.later w hw' j hj
  · rw [hw, hl]; exact h.listen

theorem env_inv {g : Gate σ α β ε} (hg : g.Lawful) {s : St σ α β} (h : AInv g s) (e : ε) :
    AInv g { s with res := g.env s.res e } := by
  refine ⟨?_, h.sorted, h.bound, h.args, h.fresh, h.mem, h.noResult, h.phases, h.later, h.listen⟩
  rcases h.deque with hd | ⟨hw, hs⟩
  · exact Or.inl hd
  · exact Or.inr ⟨hw, fun a => hg.stopped_env _ _ (hs a) e⟩

theorem step_inv {g : Gate σ α β ε} (hg : g.Lawful) {s : St σ α β} (h : AInv g s) (op : Op α ε) :
    ∃ t, step g s op = some t ∧ AInv g t := by
  cases op with
  | call a => exact call_inv h
  | ready => exact ready_inv hg h
  | cancel i => exact ⟨_, rfl, cancel_inv h i⟩
  | resume i => exact ⟨_, rfl, resume_inv h i⟩
  | env e => exact ⟨_, rfl, env_inv hg h e⟩

theorem run_inv {g : Gate σ α β ε} (hg : g.Lawful) (ops : List (Op α ε)) {s : St σ α β}
    (h : AInv g s) : ∃ t, run g s ops = some t ∧ AInv g t := by
  induction ops generalizing s with
  | nil => exact ⟨s, rfl, h⟩
  | cons op ops ih =>
    obtain ⟨t, ht, it⟩ := step_inv hg h op
    obtain ⟨u, hu, iu⟩ := ih it
    exact ⟨u, by rw [run, ht]; exact hu, iu⟩

theorem run_append {g : Gate σ α β ε} (s : St σ α β) (ops : List (Op α ε)) (op : Op α ε) :
    run g s (ops ++ [op]) = (run g s ops).bind fun t => step g t op := by
  induction ops generalizing s with
  | nil => simp [run]
  | cons o ops ih =>
    simp only [List.cons_append, run]
    cases hs : step g s o with
    | none => rfl
    | some t => exact ih t

end Spead2.Aio
