import Verif.Spec.ThreadPool

/-!
# Lemmas about thread pools
-/

namespace Spead2.ThreadPool

/-- The thread ended with an exception. -/
def Thread.broken : Thread → Bool
  | .ended true => true
  | _ => false

def Thread.over (t : Thread) : Prop := ∃ b, t = .ended b

/-- What is known at each stage. -/
def Phase (n : Nat) (s : St) : Prop :=
  match s.main with
  | .making l => 0 < l ∧ s.threads.length + l = n ∧ s.futures = List.range s.threads.length ∧ s.halt = false ∧ (∀ t ∈ s.threads, t = .idle) ∧ s.queue = [] ∧ s.warned = 0
  | .unwinding i => i = 0 ∧ s.threads.length < n ∧ s.futures = List.range s.threads.length ∧ s.halt = false ∧ (∀ t ∈ s.threads, t = .idle) ∧ s.queue = []
  | .failed => s.threads = []
  | .open => s.threads.length = n ∧ s.futures = List.range n ∧ s.halt = false ∧ s.warned = 0
  | .joining i => s.threads.length = n ∧ s.halt = true ∧
      ((s.futures = List.range n ∧ i ≤ n ∧ (∀ j < i, ∃ b, s.threads[j]? = some (.ended b)) ∧ s.warned = (s.threads.take i).countP Thread.broken) ∨
        (s.futures = [] ∧ i = 0 ∧ (∀ t ∈ s.threads, t.over) ∧ s.warned = s.threads.countP Thread.broken))
  | .stopped => s.threads.length = n ∧ s.halt = true ∧ s.futures = [] ∧ (∀ t ∈ s.threads, t.over) ∧ s.warned = s.threads.countP Thread.broken

structure Inv (n : Nat) (s : St) : Prop where
  phase : Phase n s
  order : s.started ++ s.queue = List.range s.posted
  split : s.started.Perm (s.ran ++ s.threw ++ s.running)
  ended : ∀ t ∈ s.threads, t = .ended false → s.halt = true
  broken : s.threads.countP Thread.broken = s.threw.length

theorem running_set {l : List Thread} {w : Nat} {t t' : Thread} (h : l[w]? = some t) :
    ((l.set w t').filterMap Thread.handler? ++ t.handler?.toList).Perm (l.filterMap Thread.handler? ++ t'.handler?.toList) := by
  induction l generalizing w with
  | nil => simp at h
  | cons x l ih =>
    cases w with
    | zero =>
      simp only [List.getElem?_cons_zero, Option.some.injEq] at h
      subst h
      simp only [List.set_cons_zero]
      have hx : ∀ y : Thread, (y :: l).filterMap Thread.handler? = y.handler?.toList ++ l.filterMap Thread.handler? := by
        intro y
        rw [List.filterMap_cons]
        cases y.handler? <;> rfl
      rw [hx, hx]
      refine (List.perm_append_comm (l₁ := t'.handler?.toList ++ l.filterMap Thread.handler?)).trans ?_
      rw [← List.append_assoc]
      rw [List.append_assoc, List.append_assoc]
      exact (List.perm_append_left_iff _).2 List.perm_append_comm
    | succ w =>
      simp only [List.getElem?_cons_succ] at h
      simp only [List.set_cons_succ, List.filterMap_cons]
      cases x.handler? with
      | none => exact ih h
      | some y => exact (ih h).cons y

theorem count_set {l : List Thread} {w : Nat} {t t' : Thread} (h : l[w]? = some t) :
    (l.set w t').countP Thread.broken + (if t.broken then 1 else 0) = l.countP Thread.broken + (if t'.broken then 1 else 0) := by
  induction l generalizing w with
  | nil => simp at h
  | cons x l ih =>
    cases w with
    | zero =>
      simp only [List.getElem?_cons_zero, Option.some.injEq] at h
      subst h
      simp only [List.set_cons_zero, List.countP_cons]
      omega
    | succ w =>
      simp only [List.getElem?_cons_succ] at h
      have := ih h
      simp only [List.set_cons_succ, List.countP_cons]
      omega

theorem mem_of_get {l : List Thread} {w : Nat} {t : Thread} (h : l[w]? = some t) : t ∈ l := List.mem_of_getElem? h

/-- A thread that did not end changes. -/
theorem phase_set {n : Nat} {s : St} (hp : Phase n s) {w : Nat} {t t' : Thread} (ht : s.threads[w]? = some t) (hne : ¬ t.over) (hm : s.main.making? = false)
    (q st r th : List Nat) (po : Nat) : Phase n ⟨s.main, s.halt, q, po, s.threads.set w t', s.futures, st, r, th, s.warned⟩ := by
  unfold Phase at *
  cases hmain : s.main with
  | making l => rw [hmain] at hm; cases hm
  | unwinding i => rw [hmain] at hm; cases hm
  | failed =>
    simp only [hmain] at hp ⊢
    rw [hp] at ht
    simp at ht
  | «open» =>
    simp only [hmain] at hp ⊢
    exact ⟨by rw [List.length_set]; exact hp.1, hp.2⟩
  | joining i =>
    simp only [hmain] at hp ⊢
    obtain ⟨h1, h2, h3⟩ := hp
    refine ⟨by rw [List.length_set]; exact h1, h2, ?_⟩
    rcases h3 with ⟨h3, h4, h5, h6⟩ | ⟨_, _, h5, _⟩
    · have hw : i ≤ w := by
        by_cases hlt : w < i
        · obtain ⟨b, hb⟩ := h5 w hlt
          rw [hb] at ht
          cases ht
          exact absurd ⟨b, rfl⟩ hne
        · omega
      left
      refine ⟨h3, h4, ?_, ?_⟩
      · intro j hj
        obtain ⟨b, hb⟩ := h5 j hj
        exact ⟨b, by rw [List.getElem?_set_ne (by omega)]; exact hb⟩
      · rw [h6, List.take_set, List.set_eq_of_length_le (by rw [List.length_take]; omega)]
    · exact absurd (h5 t (mem_of_get ht)) hne
  | stopped =>
    simp only [hmain] at hp ⊢
    exact absurd (hp.2.2.2.1 t (mem_of_get ht)) hne

theorem Inv.init {n : Int} {s : St} (h : make n = some s) : Inv n.toNat s := by
  unfold make at h
  split at h
  · cases h
  · cases h
    refine ⟨⟨by omega, by simp, rfl, rfl, by simp, rfl, rfl⟩, rfl, List.Perm.refl _, by simp, rfl⟩

/-- While the pool is made nothing is posted, so that no thread does anything. -/
theorem making_idle {n : Nat} {s : St} (hp : Phase n s) (hm : s.main.making? = true) : s.halt = false ∧ (∀ t ∈ s.threads, t = .idle) ∧ s.queue = [] := by
  unfold Phase at hp
  cases hmain : s.main with
  | making l => simp only [hmain] at hp; exact ⟨hp.2.2.2.1, hp.2.2.2.2.1, hp.2.2.2.2.2.1⟩
  | unwinding i => simp only [hmain] at hp; exact ⟨hp.2.2.2.1, hp.2.2.2.2⟩
  | failed => rw [hmain] at hm; cases hm
  | «open» => rw [hmain] at hm; cases hm
  | joining i => rw [hmain] at hm; cases hm
  | stopped => rw [hmain] at hm; cases hm

theorem over_get {l : List Thread} (h : ∀ t ∈ l, t.over) {w : Nat} (hw : w < l.length) : ∃ b, l[w]? = some (.ended b) := by
  obtain ⟨b, hb⟩ := h l[w] (List.getElem_mem hw)
  exact ⟨b, by rw [List.getElem?_eq_getElem hw, hb]⟩

theorem step_inv {n : Nat} {s s' : St} (hi : Inv n s) {e : Ev} (h : s.step e = some s') : Inv n s' := by
  obtain ⟨hp, ho, hs, he, hb⟩ := hi
  cases e with
  | spawn ok =>
    simp only [St.step] at h
    split at h
    · rename_i left hmain
      cases h
      unfold Phase at hp
      simp only [hmain] at hp
      obtain ⟨h1, h2, h3, h4, h5, h6, h7⟩ := hp
      cases ok with
      | false =>
        refine ⟨?_, ho, hs, he, hb⟩
        show 0 = 0 ∧ s.threads.length < n ∧ _
        exact ⟨rfl, by omega, h3, h4, h5, h6⟩
      | true =>
        have hidle : ∀ t ∈ s.threads ++ [Thread.idle], t = .idle := by
          intro t ht
          rcases List.mem_append.1 ht with ht | ht
          · exact h5 t ht
          · exact List.mem_singleton.1 ht
        have hfut : s.futures ++ [s.threads.length] = List.range (s.threads ++ [Thread.idle]).length := by
          rw [h3, List.length_append, List.length_singleton, List.range_succ]
        refine ⟨?_, ho, ?_, ?_, ?_⟩
        · unfold Phase
          simp only [St.spawn, if_true]
          by_cases hl : left + 1 = 1
          · rw [if_pos hl]
            have hl' : (s.threads ++ [Thread.idle]).length = n := by simp; omega
            exact ⟨hl', by rw [hfut, hl'], h4, h7⟩
          · rw [if_neg hl]
            exact ⟨by omega, by simp; omega, hfut, h4, hidle, h6, h7⟩
        · have : St.running (s.spawn (left + 1) true) = s.running := by
            unfold St.running St.spawn
            simp [Thread.handler?]
          rw [this]
          exact hs
        · intro t ht hf
          have := hidle t ht
          rw [this] at hf
          cases hf
        · show (s.threads ++ [Thread.idle]).countP _ = _
          rw [List.countP_append, hb]
          rfl
    · cases h
  | unwind =>
    simp only [St.step] at h
    split at h
    · rename_i i hmain
      unfold Phase at hp
      simp only [hmain] at hp
      obtain ⟨h1, h2, h3, h4, h5, h6⟩ := hp
      unfold St.unwind at h
      split at h
      · rename_i hf
        cases h
        have : s.threads = [] := by
          rw [h3, h1] at hf
          cases ht : s.threads with
          | nil => rfl
          | cons a l => rw [ht] at hf; simp [List.range_succ_eq_map] at hf
        exact ⟨this, ho, hs, he, hb⟩
      · split at h
        · rename_i b hw
          have := h5 _ (mem_of_get hw)
          cases this
        · cases h
    · cases h
  | post =>
    simp only [St.step] at h
    split at h
    · rename_i hpub
      cases h
      refine ⟨?_, ?_, hs, he, hb⟩
      · unfold Phase at *
        cases hmain : s.main with
        | making l => rw [hmain] at hpub; cases hpub
        | unwinding i => rw [hmain] at hpub; cases hpub
        | failed => rw [hmain] at hpub; cases hpub
        | «open» => simp only [hmain] at hp ⊢; exact hp
        | joining i => simp only [hmain] at hp ⊢; exact hp
        | stopped => simp only [hmain] at hp ⊢; exact hp
      · show s.started ++ (s.queue ++ [s.posted]) = List.range (s.posted + 1)
        rw [← List.append_assoc, ho, List.range_succ]
    · cases h
  | take w =>
    simp only [St.step] at h
    split at h
    · rename_i hh q hw hq
      split at h
      · cases h
      · rename_i hhalt
        cases h
        have hm : s.main.making? = false := by
          cases hm : s.main.making? with
          | false => rfl
          | true =>
            have := (making_idle hp hm).2.2
            rw [this] at hq
            cases hq
        refine ⟨phase_set hp hw (by rintro ⟨b, hb⟩; cases hb) hm _ _ _ _ _, ?_, ?_, ?_, ?_⟩
        · show (s.started ++ [hh]) ++ q = List.range s.posted
          rw [← ho, hq, List.append_assoc]
          rfl
        · show (s.started ++ [hh]).Perm (s.ran ++ s.threw ++ (s.threads.set w (.busy hh)).filterMap Thread.handler?)
          have := running_set (t' := .busy hh) hw
          simp only [Thread.handler?, Option.toList_none, List.append_nil, Option.toList_some] at this
          refine ((List.perm_append_right_iff [hh]).2 hs).trans ?_
          rw [List.append_assoc]
          exact (List.perm_append_left_iff _).2 this.symm
        · intro t ht hf
          rcases List.mem_or_eq_of_mem_set ht with ht | ht
          · exact he t ht hf
          · rw [ht] at hf; cases hf
        · show (s.threads.set w _).countP _ = _
          have := count_set (t' := .busy hh) hw
          simp only [Thread.broken, Bool.false_eq_true, if_false, Nat.add_zero] at this
          rw [this]; exact hb
    · cases h
  | finish w =>
    simp only [St.step] at h
    split at h
    · rename_i hh hw
      cases h
      have hm : s.main.making? = false := by
        cases hm : s.main.making? with
        | false => rfl
        | true => have := (making_idle hp hm).2.1 _ (mem_of_get hw); cases this
      refine ⟨phase_set hp hw (by rintro ⟨b, hb⟩; cases hb) hm _ _ _ _ _, ho, ?_, ?_, ?_⟩
      · show s.started.Perm (s.ran ++ [hh] ++ s.threw ++ (s.threads.set w .idle).filterMap Thread.handler?)
        have := running_set (t' := .idle) hw
        simp only [Thread.handler?, Option.toList_none, List.append_nil, Option.toList_some] at this
        refine hs.trans ?_
        unfold St.running
        refine ((List.perm_append_left_iff _).2 this.symm).trans ?_
        simp only [List.append_assoc]
        refine (List.perm_append_left_iff _).2 ?_
        rw [← List.append_assoc]
        exact List.perm_append_comm
      · intro t ht hf
        rcases List.mem_or_eq_of_mem_set ht with ht | ht
        · exact he t ht hf
        · rw [ht] at hf; cases hf
      · show (s.threads.set w _).countP _ = _
        have := count_set (t' := .idle) hw
        simp only [Thread.broken, Bool.false_eq_true, if_false, Nat.add_zero] at this
        rw [this]; exact hb
    · cases h
  | throw w =>
    simp only [St.step] at h
    split at h
    · rename_i hh hw
      cases h
      have hm : s.main.making? = false := by
        cases hm : s.main.making? with
        | false => rfl
        | true => have := (making_idle hp hm).2.1 _ (mem_of_get hw); cases this
      refine ⟨phase_set hp hw (by rintro ⟨b, hb⟩; cases hb) hm _ _ _ _ _, ho, ?_, ?_, ?_⟩
      · show s.started.Perm (s.ran ++ (s.threw ++ [hh]) ++ (s.threads.set w (.ended true)).filterMap Thread.handler?)
        have := running_set (t' := .ended true) hw
        simp only [Thread.handler?, Option.toList_none, List.append_nil, Option.toList_some] at this
        refine hs.trans ?_
        unfold St.running
        refine ((List.perm_append_left_iff _).2 this.symm).trans ?_
        simp only [List.append_assoc]
        refine (List.perm_append_left_iff _).2 ?_
        refine (List.perm_append_left_iff _).2 ?_
        exact List.perm_append_comm
      · intro t ht hf
        rcases List.mem_or_eq_of_mem_set ht with ht | ht
        · exact he t ht hf
        · rw [ht] at hf; cases hf
      · show (s.threads.set w _).countP _ = (s.threw ++ [hh]).length
        have := count_set (t' := .ended true) hw
        simp only [Thread.broken, Bool.false_eq_true, if_false, Nat.add_zero, if_true] at this
        rw [this, hb, List.length_append]; rfl
    · cases h
  | leave w =>
    simp only [St.step] at h
    split at h
    · rename_i hw
      split at h
      · rename_i hhalt
        cases h
        have hm : s.main.making? = false := by
          cases hm : s.main.making? with
          | false => rfl
          | true => have := (making_idle hp hm).1; rw [this] at hhalt; cases hhalt
        refine ⟨phase_set hp hw (by rintro ⟨b, hb⟩; cases hb) hm _ _ _ _ _, ho, ?_, fun _ _ _ => hhalt, ?_⟩
        · show s.started.Perm (s.ran ++ s.threw ++ (s.threads.set w (.ended false)).filterMap Thread.handler?)
          have := running_set (t' := .ended false) hw
          simp only [Thread.handler?, Option.toList_none, List.append_nil] at this
          exact hs.trans ((List.perm_append_left_iff _).2 this.symm)
        · show (s.threads.set w _).countP _ = _
          have := count_set (t' := .ended false) hw
          simp only [Thread.broken, Bool.false_eq_true, if_false, Nat.add_zero] at this
          rw [this]; exact hb
      · cases h
    · cases h
  | stop =>
    simp only [St.step] at h
    split at h
    · rename_i hmain
      cases h
      unfold Phase at hp
      simp only [hmain] at hp
      refine ⟨⟨hp.1, rfl, Or.inl ⟨hp.2.1, Nat.zero_le _, fun j hj => absurd hj (Nat.not_lt_zero _), ?_⟩⟩, ho, hs, fun _ _ _ => rfl, hb⟩
      simpa using hp.2.2.2
    · rename_i hmain
      cases h
      unfold Phase at hp
      simp only [hmain] at hp
      exact ⟨⟨hp.1, rfl, Or.inr ⟨hp.2.2.1, rfl, hp.2.2.2⟩⟩, ho, hs, fun _ _ _ => rfl, hb⟩
    · cases h
  | join =>
    simp only [St.step] at h
    split at h
    · rename_i i hmain
      unfold Phase at hp
      simp only [hmain] at hp
      obtain ⟨h1, h2, h3⟩ := hp
      unfold St.join at h
      split at h
      · rename_i hf
        cases h
        refine ⟨⟨h1, h2, rfl, ?_⟩, ho, hs, he, hb⟩
        rcases h3 with ⟨h3, h4, h5, h6⟩ | ⟨_, _, h5, h6⟩
        · have hin : i = n := by
            rw [h3, List.getElem?_eq_none_iff, List.length_range] at hf
            omega
          refine ⟨?_, ?_⟩
          · intro t ht
            have ht : t ∈ s.threads := ht
            obtain ⟨j, hj, hjt⟩ := List.getElem_of_mem ht
            obtain ⟨b, hb'⟩ := h5 j (by omega)
            rw [List.getElem?_eq_getElem hj, hjt] at hb'
            exact ⟨b, Option.some.inj hb'⟩
          · show s.warned = s.threads.countP _
            rw [h6, List.take_of_length_le (by omega)]
        · exact ⟨h5, h6⟩
      · rename_i w hf
        split at h
        · rename_i b hw
          cases h
          rcases h3 with ⟨h3, h4, h5, h6⟩ | ⟨h3, _⟩
          · rw [h3, List.getElem?_eq_some_iff] at hf
            obtain ⟨hlt, hwi⟩ := hf
            rw [List.length_range] at hlt
            rw [List.getElem_range] at hwi
            subst hwi
            refine ⟨⟨h1, h2, Or.inl ⟨h3, by omega, ?_, ?_⟩⟩, ho, hs, he, hb⟩
            · intro j hj
              by_cases hji : j = i
              · exact ⟨b, by rw [hji]; exact hw⟩
              · exact h5 j (by omega)
            · show (if b = true then s.warned + 1 else s.warned) = (s.threads.take (i + 1)).countP _
              rw [List.take_add_one, hw, List.countP_append, ← h6]
              cases b <;> simp [Thread.broken]
          · rw [h3] at hf; simp at hf
        · cases h
    · cases h

theorem run_inv {n : Int} {s : St} (h : Run n s) : Inv n.toNat s := by
  induction h with
  | init h => exact Inv.init h
  | step _ hs ih => exact step_inv ih hs

end Spead2.ThreadPool
