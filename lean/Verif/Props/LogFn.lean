import Verif.Spec.LogFn
import Mathlib.Data.List.Count

/-!
# C114: the log function of C++ programs
-/

namespace Spead2.LogFn

theorem enabled_iff (l max : Level) : Enabled l max = true ↔ l.num ≤ max.num := by
  cases l <;> cases max <;> simp [Enabled, Level.num]

/-- A batch from the middle: with `L` in progress, nothing is undefined, everything goes to the function installed. -/
theorem run_batch {F : Type} (max : Level) (b : List (Ev F)) : ∀ s : State F, s.setting = none → (∀ e ∈ b, (∃ t l m, e = .log t l m) ∨ ∃ t, e = .done t) →
    (∀ p q, b = p ++ q → ∀ t, ended t p ≤ s.logging.count t + begun max t p) →
    (∀ t, (run max s b).logging.count t + ended t b = s.logging.count t + begun max t b) ∧
    (run max s b).current = s.current ∧ (run max s b).setting = none ∧ (run max s b).returned = s.returned ∧ (run max s b).undefined = s.undefined ∧
    (run max s b).delivered = s.delivered ++ (match s.current with | some f => (texts max b).map (fun x => (f, x)) | none => []) ∧
    (run max s b).raised = s.raised ++ (match s.current with | some _ => [] | none => texts max b) := by
  induction b with
  | nil =>
    intro s hs _ _
    refine ⟨fun t => rfl, rfl, hs, rfl, rfl, ?_, ?_⟩ <;> cases s.current <;> simp [run, texts]
  | cons e b ih =>
    intro s hs ho hp
    have ho' := fun e' he' => ho e' (List.mem_cons_of_mem _ he')
    rcases ho e List.mem_cons_self with ⟨t, l, m, rfl⟩ | ⟨t, rfl⟩
    · by_cases he : Enabled l max = true
      · have hn := (enabled_iff l max).1 he
        have hlog : (step max s (.log t l m)).logging = t :: s.logging := by
          cases hc : s.current <;> simp [step, hn, hs, hc]
        have hb : ∀ t' (p : List (Ev F)), (step max s (.log t l m)).logging.count t' + begun max t' p = s.logging.count t' + begun max t' (.log t l m :: p) := by
          intro t' p
          rw [hlog]
          simp only [begun, List.countP_cons, List.count_cons, he, Bool.and_true]
          omega
        have hset : (step max s (.log t l m)).setting = none := by
          cases hc : s.current <;> simp [step, hn, hs, hc]
        obtain ⟨h1, h2, h3, h4, h5, h6, h7⟩ := ih (step max s (.log t l m)) hset ho' (fun p q hpq t' => by
          have := hp (.log t l m :: p) q (by rw [hpq]; rfl) t'
          rw [hb t' p]
          simpa [ended] using this)
        have hr : run max s (.log t l m :: b) = run max (step max s (.log t l m)) b := rfl
        rw [hr]
        refine ⟨?_, ?_, h3, ?_, ?_, ?_, ?_⟩
        · intro t'
          rw [← hb t' b, ← h1 t']
          simp [ended]
        · rw [h2]; cases hc : s.current <;> simp [step, hn, hs, hc]
        · rw [h4]; cases hc : s.current <;> simp [step, hn, hs, hc]
        · rw [h5]; cases hc : s.current <;> simp [step, hn, hs, hc]
        · rw [h6]; cases hc : s.current <;> simp [step, hn, hs, hc, texts, he]
        · rw [h7]; cases hc : s.current <;> simp [step, hn, hs, hc, texts, he]
      · have hn : ¬ l.num ≤ max.num := fun h => he ((enabled_iff l max).2 h)
        have hst : step max s (.log t l m) = s := by simp [step, hn]
        have hb : ∀ t' (p : List (Ev F)), begun max t' (.log t l m :: p) = begun max t' p := by
          intro t' p
          simp [begun, he]
        obtain ⟨h1, h2, h3, h4, h5, h6, h7⟩ := ih s hs ho' (fun p q hpq t' => by
          have := hp (.log t l m :: p) q (by rw [hpq]; rfl) t'
          rw [hb t' p] at this
          simpa [ended] using this)
        have hr : run max s (.log t l m :: b) = run max s b := by
          show run max (step max s (.log t l m)) b = _
          rw [hst]
        have ht : texts max (.log t l m :: b) = texts max b := by simp [texts, he]
        rw [hr, ht]
        refine ⟨?_, h2, h3, h4, h5, h6, h7⟩
        intro t'
        rw [hb t' b, ← h1 t']
        simp [ended]
    · have hpos : 1 ≤ s.logging.count t := by
        have := hp [.done t] b rfl t
        simpa [ended, begun] using this
      have hb : ∀ t' (p : List (Ev F)), (step max s (.done t)).logging.count t' + ended t' (.done t :: p) = s.logging.count t' + ended t' p := by
        intro t' p
        simp only [step, ended, List.countP_cons, List.count_erase]
        by_cases htt : t = t'
        · subst htt
          simp only [beq_self_eq_true, if_true]
          omega
        · have h1 : (t == t') = false := by simpa using htt
          have h2 : (t' == t) = false := by simpa using fun h : t' = t => htt h.symm
          simp [h1]
      obtain ⟨h1, h2, h3, h4, h5, h6, h7⟩ := ih (step max s (.done t)) hs ho' (fun p q hpq t' => by
        have h8 := hp (.done t :: p) q (by rw [hpq]; rfl) t'
        have h9 := hb t' p
        have h10 : begun max t' (.done t :: p) = begun max t' p := by simp [begun]
        omega)
      have ht : texts max (.done t :: b) = texts max b := by simp [texts]
      have hr : run max s (.done t :: b) = run max (step max s (.done t)) b := rfl
      rw [hr, ht]
      refine ⟨?_, h2, h3, h4, h5, h6, h7⟩
      intro t'
      have h8 := h1 t'
      have h9 := hb t' b
      have h10 : begun max t' (.done t :: b) = begun max t' b := by simp [begun]
      have h11 := hb t' []
      omega

/-- The phases of a program, from any quiet state. -/
theorem run_phases {F : Type} (max : Level) (ps : List (Phase F)) : ∀ s : State F, s.setting = none → s.logging = [] → (∀ b, .messages b ∈ ps → Batch max b) →
    (run max s (ps.flatMap Phase.events)).undefined = s.undefined ∧
    (run max s (ps.flatMap Phase.events)).delivered = s.delivered ++ (expected max s.current ps).1 ∧
    (run max s (ps.flatMap Phase.events)).raised = s.raised ++ (expected max s.current ps).2.1 ∧
    (run max s (ps.flatMap Phase.events)).returned = s.returned ++ (expected max s.current ps).2.2 := by
  induction ps with
  | nil => intro s _ _ _; simp [run, expected]
  | cons ph ps ih =>
    intro s hs hl hb
    have hb' := fun b h => hb b (List.mem_cons_of_mem _ h)
    have happ : run max s ((ph :: ps).flatMap Phase.events) = run max (run max s ph.events) (ps.flatMap Phase.events) := by
      simp [run, List.flatMap_cons, List.foldl_append]
    rw [happ]
    cases ph with
    | messages b =>
      have hB := hb b List.mem_cons_self
      obtain ⟨h1, h2, h3, h4, h5, h6, h7⟩ := run_batch max b s hs hB.only (fun p q h t => by rw [hl]; simpa using hB.before p q h t)
      have hl' : (run max s b).logging = [] := by
        apply List.eq_nil_iff_forall_not_mem.2
        intro t ht
        have := List.count_pos_iff.2 ht
        have h8 := h1 t
        rw [hl, hB.all t] at h8
        simp only [List.count_nil] at h8
        omega
      obtain ⟨g1, g2, g3, g4⟩ := ih (run max s b) h3 hl' hb'
      simp only [Phase.events]
      rw [g1, g2, g3, g4, h2, h4, h5, h6, h7]
      cases hc : s.current <;> simp [expected]
    | install t f =>
      have hr : run max s (Phase.events (.install t f)) = { s with returned := s.returned ++ [s.current], current := f, setting := none } := by
        simp [run, Phase.events, step, hl, hs]
      rw [hr]
      obtain ⟨g1, g2, g3, g4⟩ := ih { s with returned := s.returned ++ [s.current], current := f, setting := none } rfl hl hb'
      rw [g1, g2, g3, g4]
      simp [expected]

/-- The full property: a program that installs log functions whenever it likes never gets undefined behaviour. -/
def C114_statement : Prop := ∀ (F : Type) (dflt : F) (max : Level) (evs : List (Ev F)), (run max (init dflt) evs).undefined = false

/-- **C114, partial.** If the log function is replaced only while no thread is logging, each message that is compiled in goes once, in order, with its level and text, to the function installed last (or is reported to the caller by an exception if that is empty), and each replacement returns the function that was installed before. -/
theorem C114_partial {F : Type} (dflt : F) (max : Level) (ps : List (Phase F)) (hb : ∀ b, .messages b ∈ ps → Batch max b) :
    let s := run max (init dflt) (ps.flatMap Phase.events)
    s.undefined = false ∧ (s.delivered, s.raised, s.returned) = expected max (some dflt) ps := by
  obtain ⟨h1, h2, h3, h4⟩ := run_phases max ps (init dflt) rfl rfl hb
  refine ⟨h1, ?_⟩
  show ((run max (init dflt) (ps.flatMap Phase.events)).delivered, (run max (init dflt) (ps.flatMap Phase.events)).raised, (run max (init dflt) (ps.flatMap Phase.events)).returned) = _
  rw [h2, h3, h4]
  rfl

/-- **C114.** Putting back what was returned restores logging: what comes before, between and after goes to the old, the new and the old function. -/
theorem C114_restore {F : Type} (dflt g : F) (max : Level) (t t' : Nat) (a b c : List (Ev F)) (ha : Batch max a) (hb : Batch max b) (hc : Batch max c) :
    ∃ old, (run max (init dflt) (a ++ [.set t (some g), .setDone t])).returned = [old] ∧
      (run max (init dflt) (a ++ [.set t (some g), .setDone t] ++ b ++ [.set t' old, .setDone t'] ++ c)).undefined = false ∧
      (run max (init dflt) (a ++ [.set t (some g), .setDone t] ++ b ++ [.set t' old, .setDone t'] ++ c)).delivered =
        (texts max a).map (fun x => (dflt, x)) ++ (texts max b).map (fun x => (g, x)) ++ (texts max c).map (fun x => (dflt, x)) := by
  refine ⟨some dflt, ?_, ?_⟩
  · have h := C114_partial dflt max [.messages a, .install t (some g)] (by
      intro b' hb'
      simp only [List.mem_cons, Phase.messages.injEq, List.not_mem_nil, reduceCtorEq, or_false] at hb'
      rw [hb']; exact ha)
    have h2 := congrArg (fun x => x.2.2) h.2
    simpa [expected, Phase.events] using h2
  · have h := C114_partial dflt max [.messages a, .install t (some g), .messages b, .install t' (some dflt), .messages c] (by
      intro b' hb'
      simp only [List.mem_cons, Phase.messages.injEq, List.not_mem_nil, reduceCtorEq, or_false, false_or] at hb'
      rcases hb' with h | h | h <;> rw [h] <;> assumption)
    have h2 := congrArg (fun x => x.1) h.2
    simp only [expected, Phase.events, List.flatMap_cons, List.flatMap_nil, List.append_nil] at h h2
    refine ⟨?_, ?_⟩
    · simpa [List.append_assoc] using h.1
    · simpa [List.append_assoc] using h2

/-- Undefined behaviour is not undone. -/
theorem undefined_stays {F : Type} (max : Level) (evs : List (Ev F)) : ∀ s : State F, s.undefined = true → (run max s evs).undefined = true := by
  induction evs with
  | nil => intro s h; exact h
  | cons e evs ih =>
    intro s h
    apply ih
    cases e with
    | log t l m =>
      simp only [step]
      split
      · split
        · rfl
        · split <;> exact h
      · exact h
    | done t => exact h
    | set t f => simp only [step]; split <;> first | exact h | rfl
    | setDone t =>
      simp only [step]
      split
      · split <;> exact h
      · exact h

/-- **C114.** Replacing the log function while another thread, or the log function itself, is inside it is undefined, whatever was logged before and whatever happens afterwards. -/
theorem C114_race {F : Type} (dflt : F) (max : Level) (b : List (Ev F)) (hb : Batch max b) (t t' : Nat) (m : String) (f : Option F) (after : List (Ev F)) :
    (run max (init dflt) (b ++ [.log t .warning m, .set t' f] ++ after)).undefined = true := by
  obtain ⟨_, h2, h3, _, _, _, _⟩ := run_batch max b (init dflt) rfl hb.only (fun p q h t => by simpa [init] using hb.before p q h t)
  have : run max (init dflt) (b ++ [.log t .warning m, .set t' f] ++ after) = run max (step max (step max (run max (init dflt) b) (.log t .warning m)) (.set t' f)) after := by
    simp [run, List.foldl_append]
  rw [this]
  apply undefined_stays
  have h2' : (run max (init dflt) b).current = some dflt := h2
  simp [step, Level.num, h2', h3]

/-- **C114.** So is logging while another thread is replacing it. -/
theorem C114_race_set {F : Type} (dflt : F) (max : Level) (t t' : Nat) (m : String) (f : Option F) (after : List (Ev F)) :
    (run max (init dflt) ([.set t' f, .log t .warning m] ++ after)).undefined = true := by
  have : run max (init dflt) ([.set t' f, .log t .warning m] ++ after) = run max (step max (step max (init dflt) (.set t' f)) (.log t .warning m)) after := rfl
  rw [this]
  apply undefined_stays
  simp [step, Level.num, init]

/-- **C114.** So are two threads that replace it at the same time. -/
theorem C114_race_both {F : Type} (dflt : F) (max : Level) (t t' : Nat) (f f' : Option F) (after : List (Ev F)) :
    (run max (init dflt) ([.set t f, .set t' f'] ++ after)).undefined = true := by
  have : run max (init dflt) ([.set t f, .set t' f'] ++ after) = run max (step max (step max (init dflt) (.set t f)) (.set t' f')) after := rfl
  rw [this]
  apply undefined_stays
  simp [step, init]

/-- **C114.** A program that turns off its log function while a stream logs a warning. -/
theorem C114_violated : ¬ C114_statement := by
  intro h
  have h1 := h Nat 0 .info ([] ++ [.log 1 .warning "Error in TCP receiver", .set 0 (some 1)] ++ [])
  have hb : Batch Level.info ([] : List (Ev Nat)) :=
    ⟨fun _ h => absurd h List.not_mem_nil, fun p q h t => by
      have : p = [] := by cases p with | nil => rfl | cons _ _ => cases h
      subst this; simp [ended], fun t => rfl⟩
  rw [C114_race 0 .info [] hb] at h1
  cases h1

/-- Two threads, the second of which logs within the call of the first; a message that is not compiled in. -/
example : Batch (F := Nat) .info [.log 1 .warning "a", .log 2 .info "b", .log 2 .debug "c", .done 1, .done 2] := by
  refine ⟨by simp, ?_, ?_⟩
  · intro p q h t
    match p, h with
    | [], _ => simp [ended]
    | [_], h => cases h; simp [ended]
    | [_, _], h => cases h; simp [ended]
    | [_, _, _], h => cases h; simp [ended]
    | [_, _, _, _], h => cases h; simp only [ended, begun, List.countP_cons, List.countP_nil, Enabled]; simp
    | [_, _, _, _, _], h => cases h; simp only [ended, begun, List.countP_cons, List.countP_nil, Enabled]; simp
    | _ :: _ :: _ :: _ :: _ :: _ :: _, h => cases h
  · intro t
    simp only [ended, begun, List.countP_cons, List.countP_nil, Enabled]; simp

example : expected (F := Nat) .info (some 0) [.messages [.log 1 .warning "a", .log 1 .debug "b", .done 1], .install 0 (some 7), .messages [.log 1 .info "c", .done 1]] =
    ([(0, .warning, "a"), (7, .info, "c")], [], [some 0]) := by
  simp [expected, texts, Enabled]

end Spead2.LogFn
