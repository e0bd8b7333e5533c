import Verif.Lemmas.ThreadPool

/-!
# C101: thread pools
-/

namespace Spead2.ThreadPool

/-- **C101.** A pool that can be used has as many threads as were asked for, which is at least one. -/
theorem C101_threads {n : Int} {s : St} (h : Run n s) (hm : s.main.public = true) : 1 ≤ n ∧ (s.threads.length : Int) = n := by
  have hn : 1 ≤ n := by
    clear hm
    induction h with
    | init h =>
      unfold make at h
      split at h
      · cases h
      · omega
    | step _ _ ih => exact ih
  have hp := (run_inv h).phase
  refine ⟨hn, ?_⟩
  unfold Phase at hp
  cases hmain : s.main with
  | making l => rw [hmain] at hm; cases hm
  | unwinding i => rw [hmain] at hm; cases hm
  | failed => rw [hmain] at hm; cases hm
  | «open» => simp only [hmain] at hp; have := hp.1; omega
  | joining i => simp only [hmain] at hp; have := hp.1; omega
  | stopped => simp only [hmain] at hp; have := hp.1; omega

/-- **C101.** A pool with no threads is refused, and only such a one. -/
theorem C101_refused (n : Int) : make n = none ↔ n < 1 := by
  unfold make
  split <;> simp [*]

/-- **C101.** Handlers are started in the order in which they were posted, none twice, and none is lost: those that were started, and then those that wait, are all that were posted. -/
theorem C101_order {n : Int} {s : St} (h : Run n s) : s.started ++ s.queue = List.range s.posted := (run_inv h).order

/-- **C101.** A handler that was started has returned, has thrown or runs, and just one of these. -/
theorem C101_once {n : Int} {s : St} (h : Run n s) : s.started.Perm (s.ran ++ s.threw ++ s.running) ∧ (s.ran ++ s.threw ++ s.running).Nodup := by
  have hs := (run_inv h).split
  have ho : (s.started ++ s.queue).Nodup := by rw [(run_inv h).order]; exact List.nodup_range
  exact ⟨hs, hs.nodup_iff.1 (List.nodup_append.1 ho).1⟩

/-- **C101.** No more handlers run at a time than the pool has threads; with one thread they never overlap. -/
theorem C101_parallel {n : Int} {s : St} (h : Run n s) : (s.running.length : Int) ≤ max n 0 := by
  have h1 : s.running.length ≤ s.threads.length := List.length_filterMap_le _ _
  have hp := (run_inv h).phase
  have h2 : s.threads.length ≤ n.toNat := by
    unfold Phase at hp
    cases hmain : s.main with
    | making l => simp only [hmain] at hp; omega
    | unwinding i => simp only [hmain] at hp; omega
    | failed => simp only [hmain] at hp; rw [hp]; simp
    | «open» => simp only [hmain] at hp; omega
    | joining i => simp only [hmain] at hp; omega
    | stopped => simp only [hmain] at hp; omega
  omega

/-- **C101.** From the call of `stop` on no handler is started. -/
theorem C101_quiet {n : Int} {s s' : St} (h : Run n s) (hm : s.main.joining? = true ∨ s.main = .stopped) {e : Ev} (hs : s.step e = some s') :
    s'.started = s.started ∧ (s'.main.joining? = true ∨ s'.main = .stopped) := by
  have hp := (run_inv h).phase
  have hhalt : s.halt = true := by
    unfold Phase at hp
    cases hmain : s.main with
    | joining i => simp only [hmain] at hp; exact hp.2.1
    | stopped => simp only [hmain] at hp; exact hp.2.1
    | _ => rw [hmain] at hm; simp [Main.joining?] at hm
  cases e with
  | spawn ok =>
    simp only [St.step] at hs
    split at hs
    · rename_i hmain; rw [hmain] at hm; simp [Main.joining?] at hm
    · cases hs
  | unwind =>
    simp only [St.step] at hs
    split at hs
    · rename_i hmain; rw [hmain] at hm; simp [Main.joining?] at hm
    · cases hs
  | post => simp only [St.step] at hs; split at hs <;> cases hs; exact ⟨rfl, hm⟩
  | take w =>
    simp only [St.step, hhalt, if_true] at hs
    split at hs <;> cases hs
  | finish w => simp only [St.step] at hs; split at hs <;> cases hs; exact ⟨rfl, hm⟩
  | throw w => simp only [St.step] at hs; split at hs <;> cases hs; exact ⟨rfl, hm⟩
  | leave w =>
    simp only [St.step, hhalt, if_true] at hs
    split at hs <;> cases hs
    exact ⟨hhalt ▸ rfl, hm⟩
  | stop => simp only [St.step] at hs; split at hs <;> cases hs <;> exact ⟨rfl, Or.inl rfl⟩
  | join =>
    simp only [St.step] at hs
    split at hs
    · unfold St.join at hs
      split at hs
      · cases hs; exact ⟨rfl, Or.inr rfl⟩
      · split at hs <;> cases hs
        exact ⟨rfl, Or.inl rfl⟩
    · cases hs

/-- **C101.** When `stop` has returned no handler runs, all threads have ended, every handler that was started has returned or thrown, and there was one warning for each that threw. -/
theorem C101_after {n : Int} {s : St} (h : Run n s) (hm : s.main = .stopped) :
    s.running = [] ∧ (∀ t ∈ s.threads, ∃ b, t = .ended b) ∧ s.started.Perm (s.ran ++ s.threw) ∧ s.warned = s.threw.length := by
  have hi := run_inv h
  have hp := hi.phase
  unfold Phase at hp
  simp only [hm] at hp
  have hr : s.running = [] := by
    unfold St.running
    rw [List.filterMap_eq_nil_iff]
    intro t ht
    obtain ⟨b, hb⟩ := hp.2.2.2.1 t ht
    rw [hb]
    rfl
  refine ⟨hr, hp.2.2.2.1, ?_, by rw [hp.2.2.2.2, hi.broken]⟩
  have := hi.split
  rw [hr, List.append_nil] at this
  exact this

/-- What a thread can still do once `stop` was called. -/
def Thread.todo : Thread → Nat
  | .idle => 1
  | .busy _ => 2
  | .ended _ => 0

/-- What can still happen until `stop` returns. -/
def St.todo (s : St) : Nat :=
  (s.threads.map Thread.todo).sum + match s.main with
    | .joining i => s.futures.length - i + 1
    | _ => 0

theorem sum_set {l : List Thread} {w : Nat} {t t' : Thread} (h : l[w]? = some t) : ((l.set w t').map Thread.todo).sum + t.todo = (l.map Thread.todo).sum + t'.todo := by
  induction l generalizing w with
  | nil => simp at h
  | cons x l ih =>
    cases w with
    | zero =>
      simp only [List.getElem?_cons_zero, Option.some.injEq] at h
      subst h
      simp only [List.set_cons_zero, List.map_cons, List.sum_cons]
      omega
    | succ w =>
      simp only [List.getElem?_cons_succ] at h
      have := ih h
      simp only [List.set_cons_succ, List.map_cons, List.sum_cons]
      omega

theorem sum_le (l : List Thread) : (l.map Thread.todo).sum ≤ 2 * l.length := by
  induction l with
  | nil => simp
  | cons x l ih =>
    simp only [List.map_cons, List.sum_cons, List.length_cons]
    have : x.todo ≤ 2 := by cases x <;> simp [Thread.todo]
    omega

/-- **C101.** `stop` returns, if handlers do: until then something other than a post can happen, every such thing leaves less to do, posts do not add to it, and at first there are at most three
things for each thread, and one more. -/
theorem C101_stop_returns {n : Int} {s : St} (h : Run n s) (hm : s.main.joining? = true) :
    (∃ e, e ≠ .post ∧ (s.step e).isSome) ∧ (s.todo : Int) ≤ 3 * n + 1 ∧
      ∀ e s', s.step e = some s' → (e = .post ∧ s'.todo = s.todo) ∨ s'.todo < s.todo := by
  have hi := run_inv h
  have hp := hi.phase
  have hn := C101_threads h (by cases hmain : s.main <;> rw [hmain] at hm <;> first | rfl | cases hm)
  cases hmain : s.main with
  | joining i =>
    unfold Phase at hp
    simp only [hmain] at hp
    obtain ⟨h1, h2, h3⟩ := hp
    refine ⟨?_, ?_, ?_⟩
    · cases hf : s.futures[i]? with
      | none => exact ⟨.join, by simp, by simp [St.step, hmain, St.join, hf]⟩
      | some w =>
        rcases h3 with ⟨h3, h4, h5, h6⟩ | ⟨h3, _⟩
        · rw [h3, List.getElem?_eq_some_iff] at hf
          obtain ⟨hlt, hwi⟩ := hf
          rw [List.length_range] at hlt
          rw [List.getElem_range] at hwi
          subst hwi
          have hlt' : i < s.threads.length := by omega
          cases ht : s.threads[i] with
          | idle => exact ⟨.leave i, by simp, by simp [St.step, List.getElem?_eq_getElem hlt', ht, h2]⟩
          | busy hh => exact ⟨.finish i, by simp, by simp [St.step, List.getElem?_eq_getElem hlt', ht]⟩
          | ended b =>
            refine ⟨.join, by simp, ?_⟩
            simp [St.step, hmain, St.join, h3, List.getElem?_range hlt, List.getElem?_eq_getElem hlt', ht]
        · rw [h3] at hf; simp at hf
    · have h4 := sum_le s.threads
      have h5 : s.futures.length ≤ n.toNat := by
        rcases h3 with ⟨h3, _⟩ | ⟨h3, _⟩ <;> rw [h3] <;> simp
      unfold St.todo
      rw [hmain]
      show (((s.threads.map Thread.todo).sum + (s.futures.length - i + 1) : Nat) : Int) ≤ _
      omega
    · intro e s' hs
      have hset : ∀ (w : Nat) (t t' : Thread) (q st r th : List Nat) (po wa : Nat), s.threads[w]? = some t → t'.todo < t.todo →
          St.todo ⟨s.main, s.halt, q, po, s.threads.set w t', s.futures, st, r, th, wa⟩ < s.todo := by
        intro w t t' q st r th po wa ht hlt
        have := sum_set (t' := t') ht
        unfold St.todo
        simp only [hmain]
        omega
      cases e with
      | spawn ok => simp [St.step, hmain] at hs
      | unwind => simp [St.step, hmain] at hs
      | post =>
        simp only [St.step, hmain, Main.public, if_true, Option.some.injEq] at hs
        subst hs
        exact Or.inl ⟨rfl, by unfold St.todo; simp [hmain]⟩
      | take w =>
        simp only [St.step, h2, if_true] at hs
        split at hs <;> cases hs
      | finish w =>
        simp only [St.step] at hs
        split at hs <;> cases hs
        rename_i hh hw
        exact Or.inr (hset w _ _ _ _ _ _ _ _ hw (by simp [Thread.todo]))
      | throw w =>
        simp only [St.step] at hs
        split at hs <;> cases hs
        rename_i hh hw
        exact Or.inr (hset w _ _ _ _ _ _ _ _ hw (by simp [Thread.todo]))
      | leave w =>
        simp only [St.step] at hs
        split at hs
        · rename_i hw
          rw [if_pos h2] at hs
          cases hs
          exact Or.inr (hset w _ _ _ _ _ _ _ _ hw (by simp [Thread.todo]))
        · cases hs
      | stop => simp [St.step, hmain] at hs
      | join =>
        right
        simp only [St.step, hmain] at hs
        unfold St.join at hs
        split at hs
        · cases hs
          unfold St.todo
          simp only [hmain]
          omega
        · rename_i w hf
          have hlt := (List.getElem?_eq_some_iff.1 hf).1
          split at hs <;> cases hs
          unfold St.todo
          simp only [hmain]
          omega
  | _ => rw [hmain] at hm; cases hm

/-- **C101.** In a pool that was not stopped handlers wait for ever exactly if as many handlers threw as there are threads: otherwise a thread is free to take the next one, or one runs a handler. -/
theorem C101_stuck {n : Int} {s : St} (h : Run n s) (hm : s.main = .open) (hq : s.queue ≠ []) :
    (∀ w, s.step (.take w) = none ∧ s.step (.finish w) = none) ↔ (s.threw.length : Int) = n := by
  have hi := run_inv h
  have hn := C101_threads h (by rw [hm]; rfl)
  have hp := hi.phase
  unfold Phase at hp
  simp only [hm] at hp
  obtain ⟨h1, h2, h3, h4⟩ := hp
  have hfull : (s.threw.length : Int) = n ↔ ∀ t ∈ s.threads, t = .ended true := by
    have := hi.broken
    have hl : (s.threw.length : Int) = n ↔ s.threads.countP Thread.broken = s.threads.length := by omega
    rw [hl, List.countP_eq_length]
    constructor
    · intro h t ht
      have := h t ht
      cases t with
      | ended b => cases b <;> first | rfl | cases this
      | _ => cases this
    · intro h t ht
      rw [h t ht]; rfl
  rw [hfull]
  constructor
  · intro hno t ht
    obtain ⟨w, hw, hwt⟩ := List.getElem_of_mem ht
    have hget : s.threads[w]? = some t := by rw [List.getElem?_eq_getElem hw, hwt]
    obtain ⟨hn1, hn2⟩ := hno w
    cases t with
    | idle =>
      obtain ⟨x, q, hxq⟩ : ∃ x q, s.queue = x :: q := by
        cases hqq : s.queue with
        | nil => exact absurd hqq hq
        | cons x q => exact ⟨x, q, rfl⟩
      simp [St.step, hget, hxq, h3] at hn1
    | busy hh => simp [St.step, hget] at hn2
    | ended b =>
      cases b with
      | true => rfl
      | false => have := hi.ended _ ht rfl; rw [h3] at this; cases this
  · intro hall w
    cases hw : s.threads[w]? with
    | none => simp [St.step, hw]
    | some t =>
      have := hall t (mem_of_get hw)
      subst this
      simp [St.step, hw]

/-- The constructor returns or throws: until then something can happen. -/
def C101_statement : Prop := ∀ (n : Int) (s : St), Run n s → s.main.making? = true → ∃ e, (s.step e).isSome

/-- **C101, the part that holds.** It does unless a thread cannot be made after another one was. -/
theorem C101_partial {s : St} (hm : s.main.making? = true) {n : Int} (h : Run n s) (hf : ∀ i, s.main = .unwinding i → s.threads = []) : ∃ e, (s.step e).isSome := by
  have hp := (run_inv h).phase
  unfold Phase at hp
  cases hmain : s.main with
  | making l =>
    simp only [hmain] at hp
    obtain ⟨k, hk⟩ : ∃ k, l = k + 1 := ⟨l - 1, by omega⟩
    exact ⟨.spawn true, by simp [St.step, hmain, hk]⟩
  | unwinding i =>
    simp only [hmain] at hp
    have := hf i hmain
    exact ⟨.unwind, by simp [St.step, hmain, St.unwind, hp.2.2.1, this]⟩
  | _ => rw [hmain] at hm; cases hm

/-- **C101.** If a thread cannot be made after another one was, the constructor never returns, and the error is not seen: nothing can happen at all. -/
theorem C101_hangs {n : Int} {s : St} (h : Run n s) {i : Nat} (hm : s.main = .unwinding i) (ht : s.threads ≠ []) (e : Ev) : s.step e = none := by
  have hp := (run_inv h).phase
  unfold Phase at hp
  simp only [hm] at hp
  obtain ⟨h1, h2, h3, h4, h5, h6⟩ := hp
  cases e with
  | spawn ok => simp [St.step, hm]
  | unwind =>
    obtain ⟨t, l, htl⟩ : ∃ t l, s.threads = t :: l := by
      cases hl : s.threads with
      | nil => exact absurd hl ht
      | cons t l => exact ⟨t, l, rfl⟩
    have := h5 t (by rw [htl]; simp)
    subst this
    subst h1
    have hf : s.futures[0]? = some 0 := by rw [h3, htl]; simp
    have hg : s.threads[0]? = some .idle := by rw [htl]; rfl
    simp [St.step, hm, St.unwind, hf, hg]
  | post => simp [St.step, hm, Main.public]
  | take w =>
    simp only [St.step]
    split
    · rename_i hq; rw [h6] at hq; cases hq
    · rfl
  | finish w =>
    simp only [St.step]
    split
    · rename_i hh hw; have := h5 _ (mem_of_get hw); cases this
    · rfl
  | throw w =>
    simp only [St.step]
    split
    · rename_i hh hw; have := h5 _ (mem_of_get hw); cases this
    · rfl
  | leave w => simp only [St.step, h4]; split <;> simp
  | stop => simp [St.step, hm]
  | join => simp [St.step, hm]

/-- Events in order. -/
def runs (s : St) : List Ev → Option St
  | [] => some s
  | e :: es =>
    match s.step e with
    | some s' => runs s' es
    | none => none

theorem runs_run {n : Int} : ∀ (l : List Ev) {s s' : St}, Run n s → runs s l = some s' → Run n s' := by
  intro l
  induction l with
  | nil => intro s s' h hr; cases hr; exact h
  | cons e l ih =>
    intro s s' h hr
    simp only [runs] at hr
    split at hr
    · rename_i s1 hs
      exact ih (Run.step h hs) hr
    · cases hr

/-- **C101 fails.** Two threads are asked for, and the system allows only one more. -/
theorem C101_violated : ¬ C101_statement := by
  intro h
  have hrun : Run 2 { main := .unwinding 0, threads := [.idle], futures := [0] } := runs_run [.spawn true, .spawn false] (Run.init (n := 2) (s := { main := .making 2 }) rfl) rfl
  obtain ⟨e, he⟩ := h 2 _ hrun rfl
  rw [C101_hangs hrun rfl (by simp) e] at he
  cases he

/-- **C101.** Threads are bound to cores in turn, over and over again. -/
theorem C101_affinity {affinity : List Int} (h : affinity ≠ []) (n : Nat) : (List.range n).map (core affinity) = (roundRobin affinity n).map some := by
  have hpos : 0 < affinity.length := List.length_pos_iff.2 h
  have hfl : ∀ (k i : Nat), i < k * affinity.length → (List.replicate k affinity).flatten[i]? = affinity[i % affinity.length]? := by
    intro k
    induction k with
    | zero => intro i hi; omega
    | succ k ih =>
      intro i hi
      rw [List.replicate_succ, List.flatten_cons]
      by_cases hlt : i < affinity.length
      · rw [List.getElem?_append_left hlt, Nat.mod_eq_of_lt hlt]
      · rw [Nat.succ_mul] at hi
        rw [List.getElem?_append_right (by omega), ih _ (by omega), Nat.mod_eq_sub_mod (Nat.le_of_not_lt hlt)]
  apply List.ext_getElem?
  intro i
  unfold roundRobin
  rw [List.getElem?_map, List.getElem?_map]
  by_cases hi : i < n
  · rw [List.getElem?_range hi, List.getElem?_take_of_lt hi, hfl n i (Nat.lt_of_lt_of_le hi (Nat.le_mul_of_pos_right n hpos))]
    have := List.getElem?_eq_getElem (Nat.mod_lt i hpos)
    simp only [Option.map_some, core, this]
  · rw [List.getElem?_eq_none (by simp; omega), List.getElem?_eq_none (by simp; omega)]
    rfl

/-- **C101.** A thread is bound to a core exactly if its number fits in a set of cores. -/
theorem C101_bound (c : Int) : bound c = if 0 ≤ c ∧ c < 1024 then some c.toNat else none := by
  unfold bound
  by_cases h : 0 ≤ c ∧ c < 1024
  · rw [if_pos h, if_neg (by omega)]
  · rw [if_neg h, if_pos (by omega)]

/-- Five threads on two cores. -/
example : (List.range 5).map (core [3, 8]) = [some 3, some 8, some 3, some 8, some 3] := by decide

/-- Two threads; one of three handlers throws, one waits when `stop` is called. -/
example : ∃ s, (make 2).bind (runs · [.spawn true, .spawn true, .post, .post, .post, .take 1, .take 0, .throw 1, .stop, .finish 0, .leave 0, .join, .join, .join]) = some s ∧
    s.main = .stopped ∧ s.ran = [1] ∧ s.threw = [0] ∧ s.queue = [2] ∧ s.warned = 1 := ⟨_, rfl, rfl, rfl, rfl, rfl, rfl⟩

/-- A pool of one thread whose handler threw: the next one waits for ever. -/
example : ∃ s, (make 1).bind (runs · [.spawn true, .post, .post, .take 0, .throw 0]) = some s ∧ s.main = .open ∧ s.queue ≠ [] ∧ s.threw.length = 1 :=
  ⟨_, rfl, rfl, by decide, rfl⟩

end Spead2.ThreadPool
