import Verif.Model.PyAsyncSend

/-!
# Lemmas about asynchronous sends
-/

namespace Spead2.AioSend

theorem upd_self {γ : Type} (f : Nat → γ) (i : Nat) (b : γ) : upd f i b i = b := by simp [upd]

theorem upd_ne {γ : Type} (f : Nat → γ) {i j : Nat} (b : γ) (h : j ≠ i) : upd f i b j = f j := by
  simp [upd, h]

/-- Sends whose callback has not been called, when `cur` is waiting to be processed. -/
def pend (s : St) (cur : List (Nat × Outcome)) : List Nat :=
  s.pipeline ++ s.rejected ++ cur.map Prod.fst

/-- Accepted sends whose callback has not been called, in order. -/
def line (s : St) (cur : List (Nat × Outcome)) : List Nat :=
  (cur.map Prod.fst).filter s.queued ++ s.pipeline

structure Inv0 (s : St) (cur : List (Nat × Outcome)) : Prop where
  nodup : (pend s cur).Nodup
  mem : ∀ i, i ∈ pend s cur ↔ i < s.n ∧ s.ran i = 0
  ranLe : ∀ i, s.ran i ≤ 1
  fresh : ∀ i, s.n ≤ i → s.ran i = 0 ∧ s.fut i = .pending ∧ s.held i = false
  active : s.active = (pend s cur).length
  reader : s.reader = true ↔ s.active ≠ 0
  pipeQ : ∀ i ∈ s.pipeline, s.queued i = true
  rejQ : ∀ i ∈ s.rejected, s.queued i = false
  order : (line s cur).Pairwise (· < ·)
  before : ∀ i j, i < s.n → s.queued i = true → s.ran i = 1 → j ∈ line s cur → i < j
  lastSome : ∀ i, s.last = some i → i < s.n ∧ s.queued i = true ∧ ∀ j, j < s.n → s.queued j = true → j ≤ i
  lastNone : s.last = none → ∀ j, j < s.n → s.queued j = true → s.ran j = 1
  futRan : ∀ i, s.ran i = 1 → s.fut i ≠ .pending
  futDone : ∀ i o, s.fut i = .done o → s.ran i = 1
  held : ∀ i, s.held i = true ↔ i < s.n ∧ s.ran i = 0

/-- What holds in every state. -/
structure PInv (s : St) : Prop where
  token : s.sem + s.putting + (if s.taking then 1 else 0) = if s.callbacks = [] then 0 else 1
  inv : Inv0 s s.callbacks

theorem PInv.init : PInv St.init := by
  constructor
  · simp [St.init]
  · constructor <;> simp [St.init, pend, line]

theorem line_sub_pend (s : St) (cur : List (Nat × Outcome)) {j : Nat} (hj : j ∈ line s cur) :
    j ∈ pend s cur := by
  simp only [line, pend, List.mem_append, List.mem_filter] at hj ⊢
  rcases hj with ⟨h, _⟩ | h
  · exact Or.inr h
  · exact Or.inl (Or.inl h)

theorem mem_line {s : St} {cur : List (Nat × Outcome)} (h : Inv0 s cur) {j : Nat}
    (hj : j < s.n) (hq : s.queued j = true) (hr : s.ran j = 0) : j ∈ line s cur := by
  have := (h.mem j).mpr ⟨hj, hr⟩
  simp only [line, pend, List.mem_append, List.mem_filter] at this ⊢
  rcases this with (hp | hp) | hp
  · exact Or.inr hp
  · rw [h.rejQ j hp] at hq; cases hq
  · exact Or.inl ⟨hp, hq⟩

/-! ## sending -/

theorem pend_send_perm (s : St) (a : Bool) (cur : List (Nat × Outcome)) :
    (pend (send s a) cur).Perm (s.n :: pend s cur) := by
  cases a
  · show (s.pipeline ++ (s.rejected ++ [s.n]) ++ cur.map Prod.fst).Perm _
    rw [List.perm_iff_count]
    intro x
    simp [pend, List.count_append, List.count_cons]
    omega
  · show ((s.pipeline ++ [s.n]) ++ s.rejected ++ cur.map Prod.fst).Perm _
    rw [List.perm_iff_count]
    intro x
    simp [pend, List.count_append, List.count_cons]
    omega

theorem send_inv {s : St} {cur : List (Nat × Outcome)} (h : Inv0 s cur) (a : Bool) :
    Inv0 (send s a) cur := by
  have hperm := pend_send_perm s a cur
  have hnew : s.n ∉ pend s cur := fun hc => absurd ((h.mem _).mp hc).1 (Nat.lt_irrefl _)
  have hlt : ∀ j ∈ pend s cur, j < s.n := fun j hj => ((h.mem j).mp hj).1
  have hqn : ∀ j, j ≠ s.n → (send s a).queued j = s.queued j := fun j hj => upd_ne _ _ hj
  have hqs : (send s a).queued s.n = a := upd_self _ _ _
  have hline : line (send s a) cur = if a then line s cur ++ [s.n] else line s cur := by
    have hf : (cur.map Prod.fst).filter (send s a).queued = (cur.map Prod.fst).filter s.queued := by
      apply List.filter_congr
      intro x hx
      apply hqn
      intro hxe
      apply hnew
      rw [← hxe]
      simp only [pend, List.mem_append]
      exact Or.inr hx
    simp only [line, hf]
    cases a <;> simp [send]
  have hact : (0 : Int) ≤ s.active := by rw [h.active]; omega
  constructor
  · rw [hperm.nodup_iff]
    exact List.nodup_cons.mpr ⟨hnew, h.nodup⟩
  · intro i
    rw [hperm.mem_iff, List.mem_cons, h.mem]
    show _ ↔ i < s.n + 1 ∧ s.ran i = 0
    constructor
    · rintro (rfl | ⟨h1, h2⟩)
      · exact ⟨by omega, (h.fresh _ (Nat.le_refl _)).1⟩
      · exact ⟨by omega, h2⟩
    · rintro ⟨h1, h2⟩
      by_cases hi : i = s.n
      · exact Or.inl hi
      · exact Or.inr ⟨by omega, h2⟩
  · exact h.ranLe
  · intro i hi
    have hi' : s.n + 1 ≤ i := hi
    obtain ⟨h1, h2, h3⟩ := h.fresh i (by omega)
    refine ⟨h1, h2, ?_⟩
    show upd s.held s.n true i = false
    rw [upd_ne _ _ (by omega)]; exact h3
  · rw [hperm.length_eq]
    show s.active + 1 = _
    rw [h.active]; simp
  · show (if s.active = 0 then true else s.reader) = true ↔ s.active + 1 ≠ 0
    have : s.active + 1 ≠ 0 := by omega
    by_cases h0 : s.active = 0
    · simp [h0]
    · simp [h0, h.reader.mpr h0, this]
  · intro i hi
    by_cases hin : i = s.n
    · subst hin
      rw [hqs]
      cases a
      · have hi' : s.n ∈ s.pipeline := by simpa [send] using hi
        exact absurd (by simp only [pend, List.mem_append]; exact Or.inl (Or.inl hi')) hnew
      · rfl
    · rw [hqn i hin]
      apply h.pipeQ
      cases a <;> simp [send, hin] at hi <;> exact hi
  · intro i hi
    by_cases hin : i = s.n
    · subst hin
      rw [hqs]
      cases a
      · rfl
      · have hi' : s.n ∈ s.rejected := by simpa [send] using hi
        exact absurd (by simp only [pend, List.mem_append]; exact Or.inl (Or.inr hi')) hnew
    · rw [hqn i hin]
      apply h.rejQ
      cases a <;> simp [send, hin] at hi <;> exact hi
  · rw [hline]
    cases a
    · exact h.order
    · simp only [if_true]
      rw [List.pairwise_append]
      refine ⟨h.order, List.pairwise_singleton .., ?_⟩
      intro x hx y hy
      rw [List.mem_singleton.mp hy]
      exact hlt x (line_sub_pend s cur hx)
  · intro i j hi hq hr hj
    have hi' : i < s.n + 1 := hi
    have hr' : s.ran i = 1 := hr
    have hin : i ≠ s.n := by
      intro hie
      rw [hie, (h.fresh _ (Nat.le_refl _)).1] at hr'
      cases hr'
    rw [hqn i hin] at hq
    rw [hline] at hj
    cases a
    · exact h.before i j (by omega) hq hr' hj
    · simp only [if_true, List.mem_append, List.mem_singleton] at hj
      rcases hj with hj | hj
      · exact h.before i j (by omega) hq hr' hj
      · omega
  · intro i hi
    show i < s.n + 1 ∧ _ ∧ ∀ j, j < s.n + 1 → _
    cases a
    · have hi' : s.last = some i := hi
      obtain ⟨h1, h2, h3⟩ := h.lastSome i hi'
      refine ⟨by omega, by rw [hqn i (by omega)]; exact h2, ?_⟩
      intro j hj hqj
      by_cases hjn : j = s.n
      · rw [hjn, hqs] at hqj; cases hqj
      · rw [hqn j hjn] at hqj
        exact h3 j (by omega) hqj
    · have hi' : s.n = i := by simpa [send] using hi
      subst hi'
      exact ⟨by omega, hqs, fun j hj _ => by omega⟩
  · intro hl j hj hq
    have hj' : j < s.n + 1 := hj
    cases a
    · have hl' : s.last = none := hl
      by_cases hjn : j = s.n
      · rw [hjn, hqs] at hq; cases hq
      · rw [hqn j hjn] at hq
        exact h.lastNone hl' j (by omega) hq
    · simp [send] at hl
  · exact h.futRan
  · exact h.futDone
  · intro i
    show upd s.held s.n true i = true ↔ i < s.n + 1 ∧ s.ran i = 0
    by_cases hi : i = s.n
    · subst hi
      rw [upd_self]
      simp [(h.fresh _ (Nat.le_refl _)).1]
    · rw [upd_ne _ _ hi, h.held]
      constructor
      · rintro ⟨h1, h2⟩; exact ⟨by omega, h2⟩
      · rintro ⟨h1, h2⟩; exact ⟨by omega, h2⟩

/-! ## handlers -/

/-- Moving one send from the stream to `callbacks`. -/
theorem move_inv {s : St} {i : Nat} {o : Outcome} {p r : List Nat} (h : Inv0 s s.callbacks)
    (hperm : (p ++ r ++ (s.callbacks ++ [(i, o)]).map Prod.fst).Perm (pend s s.callbacks))
    (hp : ∀ x ∈ p, x ∈ s.pipeline) (hr : ∀ x ∈ r, x ∈ s.rejected)
    (hline : ((s.callbacks ++ [(i, o)]).map Prod.fst).filter s.queued ++ p = line s s.callbacks)
    (k : Nat) :
    Inv0 { s with pipeline := p, rejected := r, callbacks := s.callbacks ++ [(i, o)], putting := k }
      (s.callbacks ++ [(i, o)]) := by
  constructor
  · exact hperm.nodup_iff.mpr h.nodup
  · intro x; exact hperm.mem_iff.trans (h.mem x)
  · exact h.ranLe
  · exact h.fresh
  · show s.active = _
    rw [h.active]
    have := hperm.length_eq
    simp only [pend] at this ⊢
    omega
  · exact h.reader
  · exact fun x hx => h.pipeQ x (hp x hx)
  · exact fun x hx => h.rejQ x (hr x hx)
  · show (((s.callbacks ++ [(i, o)]).map Prod.fst).filter s.queued ++ p).Pairwise _
    rw [hline]; exact h.order
  · intro x y hx hq hrn hy
    have hy' : y ∈ ((s.callbacks ++ [(i, o)]).map Prod.fst).filter s.queued ++ p := hy
    rw [hline] at hy'
    exact h.before x y hx hq hrn hy'
  · exact h.lastSome
  · exact h.lastNone
  · exact h.futRan
  · exact h.futDone
  · exact h.held

theorem push_token {s : St} (h : PInv s) (i : Nat) (o : Outcome) (p r : List Nat) :
    let t := push { s with pipeline := p, rejected := r } i o
    t.sem + t.putting + (if t.taking then 1 else 0) = if t.callbacks = [] then 0 else 1 := by
  have := h.token
  simp only [push]
  by_cases hc : s.callbacks = []
  · cases htk : s.taking <;> simp [hc, htk] at this ⊢ <;> omega
  · cases htk : s.taking <;> simp [hc, htk] at this ⊢ <;> omega

theorem complete_inv {s : St} (h : PInv s) (o : Outcome) : PInv (complete s o) := by
  unfold complete
  cases hp : s.pipeline with
  | nil => exact h
  | cons i rest =>
    refine ⟨push_token h i o rest s.rejected, ?_⟩
    refine move_inv h.inv ?_ ?_ (fun _ hx => hx) ?_ _
    · rw [List.perm_iff_count]
      intro x
      simp [pend, hp, List.count_append, List.count_cons]
      omega
    · intro x hx; rw [hp]; exact List.mem_cons_of_mem _ hx
    · have hq : s.queued i = true := h.inv.pipeQ i (by rw [hp]; simp)
      simp [line, hp, hq]

theorem refuse_inv {s : St} (h : PInv s) (i ec : Nat) : PInv (refuse s i ec) := by
  unfold refuse
  split
  · rename_i hi
    refine ⟨push_token h i (.error ec) s.pipeline (s.rejected.erase i), ?_⟩
    refine move_inv h.inv ?_ (fun _ hx => hx) (fun x hx => List.mem_of_mem_erase hx) ?_ _
    · rw [List.perm_iff_count]
      intro x
      have := (List.perm_cons_erase hi).count_eq x
      simp [pend, List.count_append, List.count_cons] at this ⊢
      omega
    · have hq : s.queued i = false := h.inv.rejQ i hi
      simp [line, hq]
  · exact h

theorem semPut_inv {s : St} (h : PInv s) : PInv (semPut s) := by
  unfold semPut
  cases hp : s.putting with
  | zero => exact h
  | succ k =>
    have ht := h.token
    rw [hp] at ht
    refine ⟨by simp only; omega, ?_⟩
    have i := h.inv
    exact ⟨i.nodup, i.mem, i.ranLe, i.fresh, i.active, i.reader, i.pipeQ, i.rejQ, i.order, i.before,
      i.lastSome, i.lastNone, i.futRan, i.futDone, i.held⟩

theorem poll_inv {s : St} (h : PInv s) : PInv (poll s) := by
  unfold poll
  cases hp : s.sem with
  | zero => exact h
  | succ k =>
    simp only
    split
    · rename_i hc
      have ht := h.token
      rw [hp, hc.2] at ht
      refine ⟨?_, ?_⟩
      · simp only [if_true]
        simp only [Bool.false_eq_true, if_false] at ht
        omega
      · have i := h.inv
        exact ⟨i.nodup, i.mem, i.ranLe, i.fresh, i.active, i.reader, i.pipeQ, i.rejQ, i.order,
          i.before, i.lastSome, i.lastNone, i.futRan, i.futDone, i.held⟩
    · exact h

/-! ## callbacks -/

theorem runCallback_inv {s : St} {i : Nat} {o : Outcome} {cur : List (Nat × Outcome)}
    (h : Inv0 s ((i, o) :: cur)) : Inv0 (runCallback s i o) cur := by
  have hperm : (pend s ((i, o) :: cur)).Perm (i :: pend s cur) := by
    rw [List.perm_iff_count]
    intro x
    simp [pend, List.count_append, List.count_cons]
    omega
  have hpe : pend (runCallback s i o) cur = pend s cur := rfl
  have hle : line (runCallback s i o) cur = line s cur := rfl
  have hnd := hperm.nodup_iff.mp h.nodup
  obtain ⟨hni, hnd'⟩ := List.nodup_cons.mp hnd
  have him : i < s.n ∧ s.ran i = 0 := (h.mem i).mp (hperm.mem_iff.mpr (by simp))
  have hlen : s.active = (pend s cur).length + 1 := by
    rw [h.active, hperm.length_eq]; simp
  have hline : line s ((i, o) :: cur) = if s.queued i then i :: line s cur else line s cur := by
    cases hq : s.queued i <;> simp [line, hq]
  have hran : ∀ j, j ≠ i → (runCallback s i o).ran j = s.ran j := fun j hj => upd_ne _ _ hj
  have hrani : (runCallback s i o).ran i = 1 := by
    show upd s.ran i (s.ran i + 1) i = 1
    rw [upd_self, him.2]
  have hord := h.order
  rw [hline] at hord
  constructor
  · rw [hpe]; exact hnd'
  · intro x
    rw [hpe]
    show _ ↔ x < s.n ∧ _
    by_cases hx : x = i
    · subst hx
      rw [hrani]
      simp [hni]
    · rw [hran x hx, ← h.mem x, hperm.mem_iff, List.mem_cons]
      simp [hx]
  · intro x
    by_cases hx : x = i
    · subst hx; rw [hrani]; exact Nat.le_refl _
    · rw [hran x hx]; exact h.ranLe x
  · intro x hx
    have hx' : s.n ≤ x := hx
    have hxi : x ≠ i := by have := him.1; omega
    obtain ⟨h1, h2, h3⟩ := h.fresh x hx'
    refine ⟨by rw [hran x hxi]; exact h1, ?_, ?_⟩
    · show upd s.fut i _ x = _
      rw [upd_ne _ _ hxi]; exact h2
    · show upd s.held i _ x = _
      rw [upd_ne _ _ hxi]; exact h3
  · rw [hpe]
    show s.active - 1 = _
    rw [hlen]; omega
  · show (if s.active - 1 = 0 then false else s.reader) = true ↔ s.active - 1 ≠ 0
    by_cases h0 : s.active - 1 = 0
    · simp [h0]
    · have : s.active ≠ 0 := by rw [hlen]; omega
      simp [h0, h.reader.mpr this]
  · exact h.pipeQ
  · exact h.rejQ
  · rw [hle]
    cases hq : s.queued i
    · simpa [hq] using hord
    · simp only [hq, if_true] at hord
      exact (List.pairwise_cons.mp hord).2
  · intro x y hx hq hr hy
    rw [hle] at hy
    by_cases hxi : x = i
    · subst hxi
      have hq' : s.queued x = true := hq
      simp only [hq', if_true] at hord
      exact (List.pairwise_cons.mp hord).1 y hy
    · rw [hran x hxi] at hr
      refine h.before x y hx hq hr ?_
      rw [hline]
      split
      · exact List.mem_cons_of_mem _ hy
      · exact hy
  · intro x hx
    have hx' : (if s.active - 1 = 0 then none else s.last) = some x := hx
    split at hx'
    · cases hx'
    · exact h.lastSome x hx'
  · intro hl j hj hq
    have hl' : (if s.active - 1 = 0 then none else s.last) = none := hl
    have hj' : j < s.n := hj
    split at hl'
    · rename_i h0
      have hz : (pend s cur).length = 0 := by omega
      have hz' := List.length_eq_zero_iff.mp hz
      by_cases hji : j = i
      · subst hji; exact hrani
      · rw [hran j hji]
        have hle1 := h.ranLe j
        rcases Nat.lt_or_ge (s.ran j) 1 with hlt | hge
        · have hmem := hperm.mem_iff.mp ((h.mem j).mpr ⟨hj', by omega⟩)
          rw [hz'] at hmem
          exact absurd (List.mem_singleton.mp hmem) hji
        · omega
    · by_cases hji : j = i
      · subst hji; exact hrani
      · rw [hran j hji]
        exact h.lastNone hl' j hj' hq
  · intro x hx
    show upd s.fut i (resolve (s.fut i) o) x ≠ .pending
    by_cases hxi : x = i
    · subst hxi
      rw [upd_self]
      unfold resolve
      split
      · rename_i hd
        intro hc
        rw [hc] at hd
        cases hd
      · simp
    · rw [upd_ne _ _ hxi]
      rw [hran x hxi] at hx
      exact h.futRan x hx
  · intro x c hx
    by_cases hxi : x = i
    · subst hxi; exact hrani
    · rw [hran x hxi]
      have hx' : upd s.fut i (resolve (s.fut i) o) x = .done c := hx
      rw [upd_ne _ _ hxi] at hx'
      exact h.futDone x c hx'
  · intro x
    show upd s.held i false x = true ↔ x < s.n ∧ _
    by_cases hxi : x = i
    · subst hxi
      rw [upd_self, hrani]
      simp
    · rw [upd_ne _ _ hxi, hran x hxi]
      exact h.held x

theorem runCallbacks_inv (cur : List (Nat × Outcome)) {s : St} (h : Inv0 s cur) :
    Inv0 (runCallbacks s cur) [] := by
  induction cur generalizing s with
  | nil => exact h
  | cons x rest ih =>
    obtain ⟨i, o⟩ := x
    exact ih (runCallback_inv h)

/-- What the callbacks leave alone. -/
theorem runCallbacks_same (cur : List (Nat × Outcome)) (s : St) :
    (runCallbacks s cur).callbacks = s.callbacks ∧ (runCallbacks s cur).sem = s.sem ∧
      (runCallbacks s cur).putting = s.putting ∧ (runCallbacks s cur).taking = s.taking ∧
      (runCallbacks s cur).n = s.n ∧ (runCallbacks s cur).queued = s.queued ∧
      (runCallbacks s cur).pipeline = s.pipeline ∧ (runCallbacks s cur).rejected = s.rejected := by
  induction cur generalizing s with
  | nil => simp [runCallbacks]
  | cons x rest ih =>
    obtain ⟨i, o⟩ := x
    exact ih (runCallback s i o)

theorem runCallbacks_not (cur : List (Nat × Outcome)) (s : St) {j : Nat}
    (hj : ∀ o, (j, o) ∉ cur) :
    (runCallbacks s cur).fut j = s.fut j ∧ (runCallbacks s cur).ran j = s.ran j := by
  induction cur generalizing s with
  | nil => exact ⟨rfl, rfl⟩
  | cons x rest ih =>
    obtain ⟨i, o⟩ := x
    have hji : j ≠ i := by
      rintro rfl
      exact hj o (by simp)
    obtain ⟨h1, h2⟩ := ih (runCallback s i o) (fun o' hc => hj o' (List.mem_cons_of_mem _ hc))
    refine ⟨h1.trans ?_, h2.trans ?_⟩
    · exact upd_ne _ _ hji
    · exact upd_ne _ _ hji

theorem runCallbacks_at (cur : List (Nat × Outcome)) (s : St) (hn : (cur.map Prod.fst).Nodup)
    {j : Nat} {o : Outcome} (hj : (j, o) ∈ cur) :
    (runCallbacks s cur).fut j = resolve (s.fut j) o ∧
      (runCallbacks s cur).ran j = s.ran j + 1 := by
  induction cur generalizing s with
  | nil => cases hj
  | cons x rest ih =>
    obtain ⟨i, c⟩ := x
    have hn' := List.nodup_cons.mp (show (i :: rest.map Prod.fst).Nodup from hn)
    rcases List.mem_cons.mp hj with he | hj'
    · cases he
      obtain ⟨h1, h2⟩ := runCallbacks_not rest (runCallback s j o)
        (fun o' hc => hn'.1 (List.mem_map_of_mem (f := Prod.fst) hc))
      refine ⟨h1.trans ?_, h2.trans ?_⟩
      · exact upd_self _ _ _
      · exact upd_self _ _ _
    · have hji : j ≠ i := by
        rintro rfl
        exact hn'.1 (List.mem_map_of_mem (f := Prod.fst) hj')
      obtain ⟨h1, h2⟩ := ih (runCallback s i c) hn'.2 hj'
      have e1 : (runCallback s i c).fut j = s.fut j := upd_ne _ _ hji
      have e2 : (runCallback s i c).ran j = s.ran j := upd_ne _ _ hji
      rw [e1] at h1
      rw [e2] at h2
      exact ⟨h1, h2⟩

theorem process_inv {s : St} (h : PInv s) : PInv (process s) := by
  unfold process
  split
  · rename_i htk
    have ht := h.token
    simp only [htk, if_true] at ht
    have i := h.inv
    have hi : Inv0 { s with taking := false, callbacks := [] } s.callbacks :=
      ⟨i.nodup, i.mem, i.ranLe, i.fresh, i.active, i.reader, i.pipeQ, i.rejQ, i.order, i.before,
        i.lastSome, i.lastNone, i.futRan, i.futDone, i.held⟩
    obtain ⟨e1, e2, e3, e4, _⟩ := runCallbacks_same s.callbacks { s with taking := false, callbacks := [] }
    have hfin := runCallbacks_inv s.callbacks hi
    constructor
    · rw [e1, e2, e3, e4]
      simp only [Bool.false_eq_true, if_false, if_true]
      split at ht <;> omega
    · rw [e1]; exact hfin
  · exact h

theorem cancel_inv {s : St} (h : PInv s) (i : Nat) (hi : i < s.n) : PInv (cancel s i) := by
  unfold cancel
  split
  · exact h
  · rename_i hd
    have v := h.inv
    refine ⟨h.token, v.nodup, v.mem, v.ranLe, ?_, v.active, v.reader, v.pipeQ, v.rejQ, v.order,
      v.before, v.lastSome, v.lastNone, ?_, ?_, v.held⟩
    · intro x hx
      have hx' : s.n ≤ x := hx
      obtain ⟨h1, h2, h3⟩ := v.fresh x hx'
      refine ⟨h1, ?_, h3⟩
      show upd s.fut i .cancelled x = _
      rw [upd_ne _ _ (by omega)]; exact h2
    · intro x hx
      show upd s.fut i .cancelled x ≠ _
      by_cases hxi : x = i
      · subst hxi; rw [upd_self]; simp
      · rw [upd_ne _ _ hxi]; exact v.futRan x hx
    · intro x o hx
      have hx' : upd s.fut i .cancelled x = .done o := hx
      by_cases hxi : x = i
      · subst hxi; rw [upd_self] at hx'; cases hx'
      · rw [upd_ne _ _ hxi] at hx'; exact v.futDone x o hx'

theorem step_inv {s : St} (h : PInv s) (op : Op) : PInv (step s op) := by
  cases op with
  | send a =>
    refine ⟨?_, send_inv h.inv a⟩
    exact h.token
  | complete o => exact complete_inv h o
  | refuse i ec => exact refuse_inv h i ec
  | semPut => exact semPut_inv h
  | poll => exact poll_inv h
  | process => exact process_inv h
  | cancel i =>
    simp only [step]
    split
    · rename_i hi; exact cancel_inv h i hi
    · exact h

theorem run_inv (ops : List Op) {s : St} (h : PInv s) : PInv (run s ops) := by
  induction ops generalizing s with
  | nil => exact h
  | cons op ops ih => exact ih (step_inv h op)

/-! ## what never changes -/

theorem push_keep (s : St) (i : Nat) (o : Outcome) :
    (push s i o).n = s.n ∧ (push s i o).queued = s.queued := ⟨rfl, rfl⟩

theorem step_keep {s : St} (op : Op) :
    s.n ≤ (step s op).n ∧ ∀ i, i < s.n → (step s op).queued i = s.queued i := by
  cases op with
  | send a => exact ⟨Nat.le_succ _, fun i hi => upd_ne _ _ (Nat.ne_of_lt hi)⟩
  | complete o =>
    simp only [step, complete]
    cases s.pipeline <;> simp [push]
  | refuse i ec =>
    simp only [step, refuse]
    split <;> simp [push]
  | semPut => simp only [step, semPut]; cases s.putting <;> simp
  | poll =>
    simp only [step, poll]
    cases s.sem with
    | zero => simp
    | succ k => simp only; split <;> simp
  | process =>
    simp only [step, process]
    split
    · obtain ⟨_, _, _, _, e5, e6, _⟩ := runCallbacks_same s.callbacks { s with taking := false, callbacks := [] }
      rw [e5, e6]; simp
    · simp
  | cancel i =>
    simp only [step, cancel]
    split
    · split <;> simp
    · simp

theorem run_keep (ops : List Op) {s : St} :
    s.n ≤ (run s ops).n ∧ ∀ i, i < s.n → (run s ops).queued i = s.queued i := by
  induction ops generalizing s with
  | nil => simp [run]
  | cons op ops ih =>
    obtain ⟨h1, h2⟩ := step_keep (s := s) op
    obtain ⟨h3, h4⟩ := ih (s := step s op)
    refine ⟨Nat.le_trans h1 h3, fun i hi => ?_⟩
    show (run (step s op) ops).queued i = _
    rw [h4 i (Nat.lt_of_lt_of_le hi h1), h2 i hi]

theorem runCallbacks_ran (cur : List (Nat × Outcome)) (s : St) (i : Nat) :
    s.ran i ≤ (runCallbacks s cur).ran i := by
  induction cur generalizing s with
  | nil => exact Nat.le_refl _
  | cons x rest ih =>
    obtain ⟨j, o⟩ := x
    refine Nat.le_trans ?_ (ih (runCallback s j o))
    show s.ran i ≤ upd s.ran j (s.ran j + 1) i
    by_cases hij : i = j
    · subst hij; rw [upd_self]; omega
    · rw [upd_ne _ _ hij]; exact Nat.le_refl _

theorem step_ran (s : St) (op : Op) (i : Nat) : s.ran i ≤ (step s op).ran i := by
  cases op with
  | send a => exact Nat.le_refl _
  | complete o => simp only [step, complete]; cases s.pipeline <;> simp [push]
  | refuse j ec => simp only [step, refuse]; split <;> simp [push]
  | semPut => simp only [step, semPut]; cases s.putting <;> simp
  | poll =>
    simp only [step, poll]
    cases s.sem with
    | zero => simp
    | succ k => simp only; split <;> simp
  | process =>
    simp only [step, process]
    split
    · exact runCallbacks_ran s.callbacks { s with taking := false, callbacks := [] } i
    · exact Nat.le_refl _
  | cancel j =>
    simp only [step, cancel]
    split
    · split <;> simp
    · simp

theorem run_ran (ops : List Op) (s : St) (i : Nat) : s.ran i ≤ (run s ops).ran i := by
  induction ops generalizing s with
  | nil => exact Nat.le_refl _
  | cons op ops ih => exact Nat.le_trans (step_ran s op i) (ih (step s op))

end Spead2.AioSend
