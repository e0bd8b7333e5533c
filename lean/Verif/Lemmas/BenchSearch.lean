import Verif.Spec.Bench
import Mathlib.Tactic.Linarith
import Mathlib.Tactic.Ring
import Mathlib.Algebra.Order.Ring.Rat
import Mathlib.Algebra.Order.Field.Basic

/-!
# The search and the agent of spead2_bench
-/

namespace Spead2.Bench

theorem go_false {s : Search} : s.go = false ↔ s.high - s.low ≤ s.high * (2 / 100) := by
  simp [Search.go]

theorem go_true {s : Search} : s.go = true ↔ s.high * (2 / 100) < s.high - s.low := by
  simp [Search.go]

theorem run_ended {s : Search} (h : s.go = false) (ms : List (Bool × Rat)) : s.run ms = s := by
  cases ms with
  | nil => rfl
  | cons m ms => simp [Search.run, h]

theorem run_append (ms ms' : List (Bool × Rat)) : ∀ s : Search, s.run (ms ++ ms') = (s.run ms).run ms' := by
  induction ms with
  | nil => intro s; rfl
  | cons m ms ih =>
    intro s
    obtain ⟨g, a⟩ := m
    simp only [List.cons_append, Search.run]
    cases hg : s.go with
    | true => simp only [if_true]; exact ih _
    | false => simp only [Bool.false_eq_true, if_false]; exact (run_ended hg _).symm

/-- What holds from the start. -/
structure Ok (s : Search) : Prop where
  low : 0 ≤ s.low
  lt : s.low < s.high
  ratio : s.low = 0 ∨ s.high - s.low ≤ s.low

theorem Ok.step {s : Search} (h : Ok s) (g : Bool) (a : Rat) : Ok (s.step g a) := by
  obtain ⟨h1, h2, h3⟩ := h
  cases g with
  | true =>
    refine ⟨?_, ?_, Or.inr ?_⟩ <;> simp only [Search.step, Search.rate, if_true]
    · linarith
    · linarith
    · linarith
  | false =>
    refine ⟨?_, ?_, ?_⟩ <;> simp only [Search.step, Search.rate, Bool.false_eq_true, if_false]
    · exact h1
    · linarith
    · rcases h3 with h3 | h3
      · exact Or.inl h3
      · right; linarith

theorem Ok.run (ms : List (Bool × Rat)) : ∀ {s : Search}, Ok s → Ok (s.run ms) := by
  induction ms with
  | nil => intro s h; exact h
  | cons m ms ih =>
    intro s h
    obtain ⟨g, a⟩ := m
    simp only [Search.run]
    split
    · exact ih (h.step g a)
    · exact h

theorem Ok.good {s : Search} (h : Ok s) (a : Rat) : (s.step true a).high - (s.step true a).low ≤ (s.step true a).low := by
  obtain ⟨h1, h2, h3⟩ := h
  simp only [Search.step, Search.rate, if_true]
  linarith

/-- The interval is halved each time. -/
theorem ends (k : Nat) : ∀ {s : Search} {ms : List (Bool × Rat)}, Ok s → (s.high - s.low) * 64 ≤ s.low * 2 ^ k → k ≤ ms.length → (s.run ms).go = false := by
  induction k with
  | zero =>
    intro s ms h hd _
    have : s.go = false := go_false.2 (by
      have := h.lt
      have := h.low
      rw [pow_zero] at hd
      linarith)
    rw [run_ended this]
    exact this
  | succ k ih =>
    intro s ms h hd hl
    cases ms with
    | nil => simp at hl
    | cons m ms =>
      obtain ⟨g, a⟩ := m
      cases hg : s.go with
      | false => rw [run_ended hg]; exact hg
      | true =>
        simp only [Search.run, hg, if_true]
        refine ih (h.step g a) ?_ (by simp at hl; omega)
        have hp : (0 : Rat) ≤ 2 ^ k := by positivity
        rw [pow_succ] at hd
        obtain ⟨h1, h2, h3⟩ := h
        cases g with
        | true =>
          simp only [Search.step, Search.rate, if_true]
          have : s.low * 2 ^ k ≤ (s.low + s.high) * (1 / 2) * 2 ^ k := mul_le_mul_of_nonneg_right (by linarith) hp
          linarith
        | false =>
          simp only [Search.step, Search.rate, Bool.false_eq_true, if_false]
          linarith

theorem threshold_run {T : Rat} (ms : List (Bool × Rat)) : ∀ {s : Search}, Threshold T s ms → s.low ≤ T → T < s.high → (s.run ms).low ≤ T ∧ T < (s.run ms).high := by
  induction ms with
  | nil => intro s _ h1 h2; exact ⟨h1, h2⟩
  | cons m ms ih =>
    intro s ht h1 h2
    obtain ⟨g, a⟩ := m
    simp only [Search.run]
    split
    · rename_i hg
      obtain ⟨hi, ht⟩ := ht hg
      cases g with
      | true => exact ih ht (hi.1 rfl) h2
      | false =>
        refine ih ht h1 ?_
        have : ¬ s.rate ≤ T := fun h => absurd (hi.2 h) (by simp)
        exact not_le.1 this
    · exact ⟨h1, h2⟩

theorem threshold_ends {T : Rat} (k : Nat) : ∀ {s : Search} {ms : List (Bool × Rat)}, Ok s → Threshold T s ms → s.low = 0 → T < s.high → s.high ≤ T * 2 ^ k → k + 6 ≤ ms.length →
    (s.run ms).go = false := by
  induction k with
  | zero =>
    intro s ms _ _ _ h1 h2 _
    rw [pow_zero] at h2
    linarith
  | succ k ih =>
    intro s ms h ht h0 h1 h2 hl
    cases ms with
    | nil => simp at hl
    | cons m ms =>
      obtain ⟨g, a⟩ := m
      have hl' : k + 6 ≤ ms.length := by simp at hl; omega
      cases hg : s.go with
      | false => rw [run_ended hg]; exact hg
      | true =>
        obtain ⟨hi, ht⟩ := ht hg
        simp only [Search.run, hg, if_true]
        cases g with
        | true =>
          refine ends 6 (h.step true a) ?_ (by omega)
          have := h.good a
          linarith
        | false =>
          have hn : T < s.rate := not_le.1 (fun h => absurd (hi.2 h) (by simp))
          refine ih (h.step false a) ht h0 hn ?_ hl'
          simp only [Search.step, Search.rate, Bool.false_eq_true, if_false]
          rw [pow_succ] at h2
          rw [h0]
          linarith

/-- The best rate is that of the last good measurement. -/
theorem run_best (ms : List (Bool × Rat)) : ∀ s : Search,
    ((s.run ms).low = s.low ∧ (s.run ms).best = s.best) ∨
    ∃ pre a post, ms = pre ++ (true, a) :: post ∧ (s.run pre).go = true ∧ (s.run pre).rate = (s.run ms).low ∧ (s.run ms).best = a := by
  induction ms with
  | nil => intro s; exact Or.inl ⟨rfl, rfl⟩
  | cons m ms ih =>
    intro s
    obtain ⟨g, a⟩ := m
    cases hg : s.go with
    | false => rw [run_ended hg]; exact Or.inl ⟨rfl, rfl⟩
    | true =>
      have hr : ∀ l, s.run ((g, a) :: l) = (s.step g a).run l := by intro l; simp [Search.run, hg]
      rw [hr]
      rcases ih (s.step g a) with ⟨h1, h2⟩ | ⟨pre, b, post, h1, h2, h3, h4⟩
      · cases g with
        | true => exact Or.inr ⟨[], a, ms, rfl, hg, h1.symm, h2⟩
        | false => exact Or.inl ⟨h1, h2⟩
      · refine Or.inr ⟨(g, a) :: pre, b, post, by rw [h1]; rfl, ?_, ?_, h4⟩
        · rw [hr]; exact h2
        · rw [hr]; exact h3

theorem all_bad (n : Nat) : ∀ {s : Search}, s.low = 0 → 0 < s.high → (s.run (List.replicate n (false, 0))).go = true := by
  induction n with
  | zero => intro s h0 h1; exact go_true.2 (by show s.high * (2 / 100) < s.high - s.low; rw [h0]; linarith)
  | succ n ih =>
    intro s h0 h1
    have hg : s.go = true := go_true.2 (by rw [h0]; linarith)
    simp only [List.replicate_succ, Search.run, hg, if_true]
    refine ih h0 ?_
    simp only [Search.step, Search.rate, Bool.false_eq_true, if_false]
    rw [h0]; linarith

/-! ## The agent -/

theorem readConfig_session (cfg rest : List String) (h : "end_config" ∉ cfg) : readConfig (cfg ++ "end_config" :: rest) = (cfg, rest) := by
  induction cfg with
  | nil => simp [readConfig]
  | cons l ls ih =>
    have h1 : l ≠ "end_config" := fun e => h (by simp [e])
    have h2 := ih (fun e => h (by simp [e]))
    simp only [List.cons_append, readConfig, if_neg h1, h2]

theorem serve_session (parse : List String → Option Mode) (cfg rest : List String) (h : "end_config" ∉ cfg) {m : Mode} (hp : parse cfg = some m) :
    serve parse (session cfg ++ rest) none = (.ready :: .heaps :: (serve parse rest none).1, (serve parse rest none).2) := by
  have e : session cfg ++ rest = "start" :: (cfg ++ "end_config" :: "stop" :: rest) := by simp [session]
  rw [e, serve]
  simp only [if_true, readConfig_session _ _ h, hp]
  rw [serve]
  simp

/-- The answers alternate. -/
def alt : Bool → List Answer → Prop
  | _, [] => True
  | running, a :: l => a = (if running then .heaps else .ready) ∧ alt (!running) l

theorem serve_alt (parse : List String → Option Mode) (lines : List String) (conn : Option Mode) : alt conn.isSome (serve parse lines conn).1 := by
  fun_induction serve parse lines conn <;> simp_all [alt]

theorem serve_even (parse : List String → Option Mode) (lines : List String) (conn : Option Mode) : (serve parse lines conn).2 = .served →
    ((serve parse lines conn).1.length + (if conn.isSome then 1 else 0)) % 2 = 0 := by
  fun_induction serve parse lines conn
  case case1 conn => intro h; rcases conn with _ | m <;> first | rfl | (cases m <;> cases h)
  case case2 ih => intro h; exact ih h
  case case3 => intro h; cases h
  case case4 ih => intro h; have := ih h; simp at this ⊢; omega
  case case5 ih => intro h; exact ih h
  case case6 ih => intro h; have := ih h; simp at this ⊢; omega
  case case7 conn _ _ _ => intro h; rcases conn with _ | m <;> first | rfl | (cases m <;> cases h)
  case case8 ih => intro h; exact ih h

theorem serve_odd (parse : List String → Option Mode) (hp : ∀ l, parse l ≠ none) (lines : List String) (conn : Option Mode) : (serve parse lines conn).2 ≠ .served →
    ((serve parse lines conn).1.length + (if conn.isSome then 1 else 0)) % 2 = 1 := by
  fun_induction serve parse lines conn
  case case1 conn => intro h; rcases conn with _ | m <;> first | rfl | exact absurd rfl h
  case case2 ih => intro h; exact ih h
  case case3 hn => intro _; exact absurd hn (hp _)
  case case4 ih => intro h; have := ih h; simp at this ⊢; omega
  case case5 ih => intro h; exact ih h
  case case6 ih => intro h; have := ih h; simp at this ⊢; omega
  case case7 conn _ _ _ => intro h; rcases conn with _ | m <;> first | rfl | exact absurd rfl h
  case case8 ih => intro h; exact ih h

theorem alt_get (l : List Answer) : ∀ (r : Bool) (i : Nat), alt r l → i < l.length → l[i]? = some (if (i + (if r then 1 else 0)) % 2 = 0 then .ready else .heaps) := by
  induction l with
  | nil => intro r i _ h; simp at h
  | cons a l ih =>
    intro r i h hi
    obtain ⟨h1, h2⟩ := h
    cases i with
    | zero => cases r <;> simp [h1]
    | succ i =>
      have := ih (!r) i h2 (by simp at hi; omega)
      rw [List.getElem?_cons_succ, this]
      cases r <;> simp only [Bool.not_true, Bool.not_false, if_true, Bool.false_eq_true, if_false, Nat.add_zero]
      rw [show i + 1 + 1 = i + 2 by omega, Nat.add_mod_right]

end Spead2.Bench
