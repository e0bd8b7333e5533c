import Verif.Lemmas.Bench
import Verif.Lemmas.BenchSearch
import Mathlib.Tactic.NormNum

/-!
# Properties of spead2_bench
-/

namespace Spead2.Bench

/-! ## C94: a measurement sends each heap once, with at most `--max-heaps` of them in flight -/

/-- Heaps are passed to the stream in order, each once; never more than fit, so that the stream refuses none. -/
theorem C94_window {n maxHeaps : Nat} {evs : List SendEv} {s : SendSt} (h : Reach n maxHeaps evs s) :
    s.sent = List.range s.sent.length ∧ s.sent.length ≤ n ∧ s.queue.length ≤ maxHeaps ∧ s.refused = [] := by
  rcases reach_inv h with hf | ⟨m, hi⟩
  · rw [hf.state]; exact ⟨rfl, Nat.zero_le _, Nat.zero_le _, rfl⟩
  · have h1 := hi.puts
    have h2 := hi.m_le
    have h3 : (SendCfg.make n maxHeaps).w ≤ maxHeaps := Nat.min_le_left _ _
    refine ⟨by rw [hi.sent, List.length_range], by rw [hi.sent, List.length_range]; exact h2, ?_, hi.refused⟩
    rw [hi.queue, List.length_range']
    omega

/-- As long as there was no error, the stream is kept as full as the option and the heaps that are left allow. -/
theorem C94_full {n maxHeaps : Nat} {evs : List SendEv} {s : SendSt} (h : Reach n maxHeaps evs s) (hs : s.started = true) (he : ∀ x ∈ outcomes evs, x.1 = none) :
    s.queue.length = min maxHeaps (n - (outcomes evs).length) := by
  rcases reach_inv h with hf | ⟨m, hi⟩
  · rw [hf.state] at hs; cases hs
  · have h1 := hi.next (by rw [hi.error]; exact first_none.2 he)
    have h2 := hi.le
    have h3 := hi.m_le
    rw [hi.queue, List.length_range']
    simp only [SendCfg.make] at h1 h3
    omega

/-- A number of bytes is returned only after all the heaps were sent without error, and is the sum of what was reported for them. -/
theorem C94_result {n maxHeaps : Nat} (hm : 0 < maxHeaps) {evs : List SendEv} {s : SendSt} (h : Reach n maxHeaps evs s) {b : Nat}
    (hr : s.result (SendCfg.make n maxHeaps) = some (.ok b)) :
    s.sent = List.range n ∧ (outcomes evs).length = n ∧ (∀ x ∈ outcomes evs, x.1 = none) ∧ b = ((outcomes evs).map (·.2)).sum ∧ s.queue = [] := by
  unfold SendSt.result at hr
  split at hr
  · cases hr
  · rename_i hp
    rcases reach_inv h with hf | ⟨m, hi⟩
    · rw [hf.state] at hp hr ⊢
      simp only [Option.some.injEq, Except.ok.injEq] at hr
      have hn : n = 0 := by
        have : ¬ 0 < min maxHeaps n := hp
        omega
      rw [hf.evs, hn]
      exact ⟨rfl, rfl, by simp, hr.symm, rfl⟩
    · have h1 := hi.puts
      have h2 := hi.le
      have h3 := hi.m_le
      cases he : s.error with
      | some e => rw [he] at hr; cases hr
      | none =>
        rw [he] at hr
        simp only [Option.some.injEq, Except.ok.injEq] at hr
        have h4 := hi.next he
        have hmk : m = (outcomes evs).length := by omega
        simp only [SendCfg.make] at h4 h3
        have hmn : m = n := by omega
        refine ⟨by rw [hi.sent, hmn], by rw [← hmk, hmn], first_none.1 (by rw [← hi.error, he]), ?_, ?_⟩
        · rw [← hr, hi.bytes]; rfl
        · rw [hi.queue, ← hmk, Nat.sub_self]; rfl

/-- An error is thrown only if the stream reported one; it is the first; and by then the stream has none of the heaps left. -/
theorem C94_error {n maxHeaps : Nat} {evs : List SendEv} {s : SendSt} (h : Reach n maxHeaps evs s) {e : Nat}
    (hr : s.result (SendCfg.make n maxHeaps) = some (.error e)) : FirstError (outcomes evs) e ∧ s.queue = [] := by
  unfold SendSt.result at hr
  split at hr
  · cases hr
  · rename_i hp
    rcases reach_inv h with hf | ⟨m, hi⟩
    · rw [hf.state] at hr; cases hr
    · have h1 := hi.puts
      cases he : s.error with
      | none => rw [he] at hr; cases hr
      | some e' =>
        rw [he] at hr
        simp only [Option.some.injEq, Except.error.injEq] at hr
        subst hr
        refine ⟨first_some (by rw [← hi.error, he]), ?_⟩
        rw [hi.queue, show m - (outcomes evs).length = 0 by omega]; rfl

/-- After an error no more heaps are passed to the stream. -/
theorem C94_stop {n maxHeaps : Nat} {evs : List SendEv} {s s' : SendSt} (h : Reach n maxHeaps evs s) {ec : Option Nat} {b : Nat}
    (hs : s.step (SendCfg.make n maxHeaps) (.done ec b) = some s') (he : ec ≠ none ∨ ∃ x ∈ outcomes evs, x.1 ≠ none) : s'.sent = s.sent := by
  rcases reach_inv h with hf | ⟨m, hi⟩
  · rw [hf.state] at hs; cases hs
  · simp only [SendSt.step] at hs
    split at hs
    · rename_i i q _
      simp only [Option.some.injEq, SendSt.callback] at hs
      have hne : s.error.or ec ≠ none := by
        rcases he with he | ⟨x, hx, he⟩
        · cases s.error <;> simp [he]
        · have : s.error ≠ none := fun h' => he (first_none.1 (by rw [← hi.error, h']) x hx)
          cases h' : s.error with
          | none => exact absurd h' this
          | some e => simp
      rw [if_neg (fun h' => hne h'.1)] at hs
      rw [← hs]
    · cases hs

/-- `run` never waits for something that does not come: until it returns, the first heaps have yet to be sent or the stream has heaps to report, at most `n` in all. -/
theorem C94_progress {n maxHeaps : Nat} {evs : List SendEv} {s : SendSt} (h : Reach n maxHeaps evs s) :
    (outcomes evs).length ≤ n ∧
    (s.result (SendCfg.make n maxHeaps) = none → (∃ s', s.step (SendCfg.make n maxHeaps) .start = some s') ∨ ∀ ec b, ∃ s', s.step (SendCfg.make n maxHeaps) (.done ec b) = some s') := by
  rcases reach_inv h with hf | ⟨m, hi⟩
  · refine ⟨by rw [hf.evs]; exact Nat.zero_le _, fun _ => Or.inl ?_⟩
    rw [hf.state]
    exact ⟨_, rfl⟩
  · have h1 := hi.puts
    have h2 := hi.le
    have h3 := hi.m_le
    refine ⟨Nat.le_trans h2 h3, fun hr => Or.inr fun ec b => ?_⟩
    have hp : s.puts < (SendCfg.make n maxHeaps).w := by
      unfold SendSt.result at hr
      split at hr
      · assumption
      · split at hr <;> cases hr
    have hq : s.queue = (outcomes evs).length :: List.range' ((outcomes evs).length + 1) (m - ((outcomes evs).length + 1)) := by
      rw [hi.queue, show m - (outcomes evs).length = (m - ((outcomes evs).length + 1)) + 1 by omega, List.range'_succ]
    simp only [SendSt.step, hq]
    exact ⟨_, rfl⟩

/-- Three heaps with two in flight; without and with an error. -/
example : ∃ s, Reach 3 2 [.start, .done none 10, .done none 20, .done none 30] s ∧ s.result (SendCfg.make 3 2) = some (.ok 60) := ⟨_, rfl, by decide⟩
example : ∃ s, Reach 3 2 [.start, .done (some 5) 0, .done (some 6) 0] s ∧ s.result (SendCfg.make 3 2) = some (.error 5) ∧ s.sent = [0, 1] := ⟨_, rfl, by decide, by decide⟩
example : ∃ s, Reach 3 2 [.start, .done none 10] s ∧ s.result (SendCfg.make 3 2) = none ∧ s.queue = [1, 2] := ⟨_, rfl, by decide, by decide⟩

/-! ## C95: the search finds the rate that the network sustains -/

theorem Ok.init {h : Rat} (hh : 0 < h) : Ok { high := h } := ⟨le_refl _, hh, Or.inl rfl⟩

/-- After a good measurement at most six more are made, whatever they say. -/
theorem C95_partial {h : Rat} (hh : 0 < h) (pre post : List (Bool × Rat)) (a : Rat) (hp : 6 ≤ post.length) :
    (Search.run { high := h } (pre ++ (true, a) :: post)).go = false := by
  have h1 := (Ok.init hh).run pre
  rw [run_append]
  cases hg : (Search.run { high := h } pre).go with
  | false => rw [run_ended hg]; exact hg
  | true =>
    simp only [Search.run, hg, if_true]
    refine ends 6 (h1.step true a) ?_ hp
    have := h1.good a
    linarith

/-- If the network sustains exactly the rates up to `T`, the search ends. -/
theorem C95_ends {h T : Rat} (hT : T < h) (k : Nat) (hk : h ≤ T * 2 ^ k) (h0 : 0 < T) {ms : List (Bool × Rat)} (ht : Threshold T { high := h } ms) (hl : k + 6 ≤ ms.length) :
    (Search.run { high := h } ms).go = false :=
  threshold_ends k (Ok.init (lt_trans h0 hT)) ht rfl hT hk hl

/-- When it ends, the rate it found is at most `T` and less than 2% below it. -/
theorem C95_result {h T : Rat} (h0 : 0 ≤ T) (hT : T < h) {ms : List (Bool × Rat)} (ht : Threshold T { high := h } ms) (he : (Search.run { high := h } ms).go = false) :
    (Search.run { high := h } ms).low ≤ T ∧ T * (98 / 100) < (Search.run { high := h } ms).low := by
  obtain ⟨h1, h2⟩ := threshold_run ms ht h0 hT
  have h3 := go_false.1 he
  exact ⟨h1, by linarith⟩

/-- What is printed is the rate at which the heaps of a good measurement were sent, the one for the rate that was found; or 0 if there was none. -/
theorem C95_best (h : Rat) (ms : List (Bool × Rat)) :
    ((Search.run { high := h } ms).low = 0 ∧ (Search.run { high := h } ms).best = 0) ∨
    ∃ pre a post, ms = pre ++ (true, a) :: post ∧ (Search.run { high := h } pre).go = true ∧ (Search.run { high := h } pre).rate = (Search.run { high := h } ms).low ∧
      (Search.run { high := h } ms).best = a := run_best ms _

/-- The rates that are tried are positive and below the rate of the first measurement. -/
theorem C95_rates {h : Rat} (hh : 0 < h) (ms : List (Bool × Rat)) : 0 < (Search.run { high := h } ms).rate ∧ (Search.run { high := h } ms).rate < h := by
  have h1 := (Ok.init hh).run ms
  have h2 : ∀ (ms : List (Bool × Rat)) (s : Search), Ok s → (s.run ms).high ≤ s.high := by
    intro ms
    induction ms with
    | nil => intro s _; exact le_refl _
    | cons m ms ih =>
      intro s hs
      obtain ⟨g, a⟩ := m
      simp only [Search.run]
      split
      · refine le_trans (ih _ (hs.step g a)) ?_
        have := hs.lt
        cases g <;> simp only [Search.step, Search.rate, Bool.false_eq_true, if_false, if_true]
        · linarith
        · exact le_refl _
      · exact le_refl _
  have h3 := h2 ms _ (Ok.init hh)
  have h4 := h1.lt
  have h5 := h1.low
  simp only [Search.rate]
  change (Search.run { high := h } ms).high ≤ h at h3
  exact ⟨by linarith, by linarith⟩

/-- The heaps that must arrive, all but one, are more than 1 GB and more than what is sent in one second. -/
theorem C95_size (rate : Rat) {heapSize : Nat} (hs : 0 < heapSize) :
    (1000000000 : Rat) < ((numHeaps rate heapSize - 1 : Int) : Rat) * heapSize ∧ rate < ((numHeaps rate heapSize - 1 : Int) : Rat) * heapSize := by
  have h0 : (0 : Rat) < heapSize := by exact_mod_cast hs
  have h1 := Rat.lt_floor_add_one (max 1000000000 rate / heapSize)
  have h2 : numHeaps rate heapSize - 1 = (max 1000000000 rate / (heapSize : Rat)).floor + 1 := by simp only [numHeaps]; omega
  rw [h2]
  have h3 := (div_lt_iff₀ h0).1 h1
  exact ⟨lt_of_le_of_lt (le_max_left _ _) h3, lt_of_le_of_lt (le_max_right _ _) h3⟩

/-- A measurement is good if and only if all its passes are. -/
theorem C95_passes (passes : List (Bool × Rat)) : (measure passes).1 = true ↔ ∀ p ∈ passes, p.1 = true := by
  simp [measure]

/-- Its rate is the mean of the rates of the passes. -/
theorem C95_mean {passes : List (Bool × Rat)} (h : passes ≠ []) : (measure passes).2 * passes.length = (passes.map (·.2)).sum := by
  have : (passes.length : Rat) ≠ 0 := by
    have : passes.length ≠ 0 := fun h' => h (List.length_eq_zero_iff.1 h')
    exact_mod_cast this
  simp only [measure]
  exact div_mul_cancel₀ _ this

/-- The search always ends. -/
def C95_statement : Prop := ∀ (h : Rat), 0 < h → ∀ f : Nat → Bool × Rat, ∃ n, (Search.run { high := h } ((List.range n).map f)).go = false

/-- It does not if no measurement is good: the rates go down forever. -/
theorem C95_violated : ¬ C95_statement := by
  intro hst
  obtain ⟨n, hn⟩ := hst 1 (by norm_num) (fun _ => (false, 0))
  have h1 := all_bad n (s := { high := 1 }) rfl (by norm_num)
  rw [show (List.range n).map (fun _ => (false, (0 : Rat))) = List.replicate n (false, 0) from by
    rw [List.map_const', List.length_range]] at hn
  rw [hn] at h1
  cases h1

/-- Six are needed: five measurements after the first good one do not always end the search. -/
example : (Search.run { high := 100 } ((true, 50) :: List.replicate 5 (false, 0))).go = true := by decide +kernel
/-- A network that sustains 60 of 100: what its measurements say, and what is found. -/
def exampleMs : List (Bool × Rat) := [(true, 49), (false, 70), (false, 61), (true, 56), (true, 59), (false, 60), (false, 60)]
example : Threshold 60 { high := 100 } exampleMs := by
  simp only [exampleMs, Threshold, Search.step, Search.rate]
  norm_num
example : Search.run { high := 100 } exampleMs = { low := 475 / 8, high := 1925 / 32, best := 59 } ∧ (Search.run { high := 100 } exampleMs).go = false := by decide +kernel

/-! ## C96: the agent serves masters that behave -/

/-- Each measurement is answered with `ready` and a number of heaps, and then the next master can come. -/
theorem C96_partial (parse : List String → Option Mode) (cfgs : List (List String)) (hc : ∀ c ∈ cfgs, "end_config" ∉ c ∧ parse c ≠ none) (bye : List String) (hb : bye = [] ∨ bye = ["exit"]) :
    serve parse (cfgs.flatMap session ++ bye) none = (cfgs.flatMap (fun _ => [.ready, .heaps]), .served) := by
  induction cfgs with
  | nil =>
    rcases hb with hb | hb
    · subst hb; simp [serve, leave]
    · subst hb; simp [serve, leave]
  | cons c cs ih =>
    obtain ⟨h1, h2⟩ := hc c (by simp)
    obtain ⟨m, hm⟩ := Option.ne_none_iff_exists'.1 h2
    rw [List.flatMap_cons, List.append_assoc, serve_session parse c _ h1 hm, ih (fun c hc' => hc c (by simp [hc']))]
    rfl

/-- Whatever a master sends, the answers alternate, beginning with `ready`. -/
theorem C96_answers (parse : List String → Option Mode) (lines : List String) {i : Nat} (hi : i < (serve parse lines none).1.length) :
    (serve parse lines none).1[i]? = some (if i % 2 = 0 then .ready else .heaps) := by
  have := alt_get _ false i (serve_alt parse lines none) hi
  simpa using this

/-- If no configuration is bad, the next master can come exactly if each `ready` was followed by a number of heaps. -/
theorem C96_exact (parse : List String → Option Mode) (hp : ∀ l, parse l ≠ none) (lines : List String) :
    (serve parse lines none).2 = .served ↔ (serve parse lines none).1.length % 2 = 0 := by
  constructor
  · intro h; have := serve_even parse lines none h; simpa using this
  · intro h
    by_contra hn
    have := serve_odd parse hp lines none hn
    simp at this
    omega

/-- Whatever a master sends, the next one can come. -/
def C96_statement : Prop := ∀ (parse : List String → Option Mode) (lines : List String), (serve parse lines none).2 = .served

/-- A master that goes away during a measurement ends the agent. -/
theorem C96_lost (m : Mode) (cfg : List String) (h : "end_config" ∉ cfg) (bye : List String) (hb : bye = [] ∨ bye = ["exit"]) :
    (serve (fun _ => some m) ("start" :: cfg ++ "end_config" :: bye) none).2 = (match m with | .ring => .terminated | .callback => .undefined) := by
  rw [List.cons_append, serve]
  simp only [if_true, readConfig_session _ _ h]
  rcases hb with hb | hb <;> subst hb <;> cases m <;> simp [serve, leave]

/-- So does a bad configuration. -/
theorem C96_bad (parse : List String → Option Mode) (cfg rest : List String) (h : "end_config" ∉ cfg) (hp : parse cfg = none) :
    (serve parse ("start" :: cfg ++ "end_config" :: rest) none).2 = .terminated := by
  rw [List.cons_append, serve]
  simp only [if_true, readConfig_session _ _ h, hp]

theorem C96_violated : ¬ C96_statement := by
  intro hst
  have h1 := hst (fun _ => some .ring) ("start" :: [] ++ "end_config" :: [])
  rw [C96_lost .ring [] (by simp) [] (Or.inl rfl)] at h1
  cases h1

example : serve (fun _ => some .ring) ["start", "ring=1", "end_config", "stop", "start", "end_config", "stop", "exit"] none = ([.ready, .heaps, .ready, .heaps], .served) :=
  C96_partial (fun _ => some .ring) [["ring=1"], []] (by simp) ["exit"] (Or.inr rfl)

end Spead2.Bench
