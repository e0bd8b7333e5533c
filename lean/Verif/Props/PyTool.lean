import Verif.Lemmas.PyTool
import Mathlib.Data.Nat.ModEq

/-!
# C99: `send_asyncio.py`
-/

namespace Spead2.PyTool

section
variable {D V R : Type}

/-! ## What is sent -/

/-- **C99 (heaps).** At any time the program has passed exactly these heaps to the stream, in this order: number `i` on substream `i % n`, with all values, and with all descriptors or
none; then, if the number of heaps is limited, the end-of-stream heaps. -/
theorem C99_heaps {c : Cfg D V R} (hv : Valid c) {evs : List Ev} {s : St D R} (h : Reach c evs s) :
    s.sent = (List.range s.sent.length).map (expected c) ∧ ∀ n, c.heaps = some n → s.sent.length ≤ n + c.dests := by
  have hi := reach_inv hv h
  have hl : s.sent.length = s.i := by rw [hi.sent]; simp
  rw [hl]
  refine ⟨hi.sent, fun n hn => ?_⟩
  have htot : c.total = some (n + c.dests) := by simp [Cfg.total, hn]
  cases hp : s.phase with
  | top => exact (hi.before (Or.inl hp) _ htot).1
  | make => exact (hi.before (Or.inr hp) _ htot).1
  | drain => have := hi.after (Or.inl hp); rw [htot] at this; injection this with this; omega
  | finished => have := hi.after (Or.inr hp); rw [htot] at this; injection this with this; omega

theorem sent_get {c : Cfg D V R} (hv : Valid c) {evs : List Ev} {s : St D R} (h : Reach c evs s) (j : Nat) :
    s.sent[j]? = if j < s.sent.length then some (expected c j) else none := by
  have h1 := (C99_heaps hv h).1
  split
  · rename_i hj
    rw [h1]
    simp [hj]
  · rename_i hj
    exact List.getElem?_eq_none (by omega)

/-- **C99 (window).** The stream never rejects a heap, no more than `--max-heaps` futures are outstanding, and the only errors are those of the network. -/
theorem C99_window {c : Cfg D V R} (hv : Valid c) {evs : List Ev} {s : St D R} (h : Reach c evs s) :
    s.tasks.length ≤ c.maxHeaps ∧ s.queue.length ≤ c.maxHeaps ∧ (∀ t e, s.results t = some (.error e) → ∃ n, e = .io n) ∧ ∀ e, s.lastErr = some e → ∃ n, e = .io n := by
  have hi := reach_inv hv h
  refine ⟨hi.window, Nat.le_trans hi.queueLe hi.window, hi.io, fun e he => ?_⟩
  rw [hi.last] at he
  have hm := List.mem_of_getLast? he
  obtain ⟨t, _, ht⟩ := List.mem_filterMap.1 hm
  cases hr : s.results t with
  | none => rw [hr] at ht; cases ht
  | some r =>
    rw [hr] at ht
    cases r with
    | ok n => cases ht
    | error e' => cases ht; exact hi.io t _ hr

theorem mod_window {S a x y : Nat} (h1 : a ≤ x) (h2 : x < a + S) (h3 : a ≤ y) (h4 : y < a + S) (h : x % S = y % S) : x = y := by
  have hx := Nat.div_add_mod x S
  have hy := Nat.div_add_mod y S
  rw [h] at hx
  rcases Nat.lt_trichotomy (x / S) (y / S) with hq | hq | hq
  · have := Nat.mul_le_mul_left S hq
    rw [Nat.mul_succ] at this
    omega
  · rw [hq] at hx
    omega
  · have := Nat.mul_le_mul_left S hq
    rw [Nat.mul_succ] at this
    omega

/-- **C99 (ends).** When the program has finished, each destination has got exactly one end-of-stream heap, after all other heaps for it. -/
theorem C99_ends {c : Cfg D V R} (hv : Valid c) {evs : List Ev} {s : St D R} (h : Reach c evs s) (hf : s.phase = .finished) {k : Nat} (hk : k < c.dests) :
    ∃ j : Nat, s.sent[j]? = some (k, .final) ∧ ∀ (j' : Nat) (m : Made D R), s.sent[j']? = some (k, m) → j' ≤ j ∧ (m = .final → j' = j) := by
  have hi := reach_inv hv h
  have hl : s.sent.length = s.i := by rw [hi.sent]; simp
  have htot := hi.after (Or.inr hf)
  cases hn : c.heaps with
  | none => rw [Cfg.total, hn] at htot; cases htot
  | some n =>
    have hin : s.i = n + c.dests := by
      rw [Cfg.total, hn] at htot
      injection htot with h1
      exact h1.symm
    have hS := hv.dests
    have hnm := Nat.mod_lt n hS
    have hr := Nat.mod_lt (k + c.dests - n % c.dests) hS
    have hmod : (n + (k + c.dests - n % c.dests) % c.dests) % c.dests = k := by
      rw [Nat.add_mod_mod, ← Nat.mod_add_mod]
      have : n % c.dests + (k + c.dests - n % c.dests) = k + c.dests := by omega
      rw [this, Nat.add_mod_right, Nat.mod_eq_of_lt hk]
    have hend : ∀ i, c.isEnd i = decide (n ≤ i) := by intro i; simp [Cfg.isEnd, hn]
    refine ⟨n + (k + c.dests - n % c.dests) % c.dests, ?_, ?_⟩
    · rw [sent_get hv h, if_pos (by omega), expected, hmod, hend]
      simp
    · intro j' m hj
      rw [sent_get hv h] at hj
      split at hj
      · rename_i hlt
        injection hj with hj
        have hjm : j' % c.dests = k := congrArg Prod.fst hj
        by_cases hge : n ≤ j'
        · have := mod_window (S := c.dests) hge (by omega) (Nat.le_add_right n _) (by omega) (hjm.trans hmod.symm)
          exact ⟨by omega, fun _ => this⟩
        · refine ⟨by omega, fun hm => ?_⟩
          have := congrArg Prod.snd hj
          simp only [expected, hend, hge, decide_false, Bool.false_eq_true, if_false] at this
          rw [hm] at this
          cases this
      · cases hj

/-- **C99 (accounts).** When the program has finished, every future was resolved and awaited, and what is printed is the sum of the bytes of the heaps that were sent, the number of
heaps that failed, and the error of the last of them. -/
theorem C99_accounts {c : Cfg D V R} (hv : Valid c) {evs : List Ev} {s : St D R} (h : Reach c evs s) (hf : s.phase = .finished) :
    s.tasks = [] ∧ s.queue = [] ∧ (∀ t, t < s.sent.length → (s.results t).isSome = true) ∧
    s.bytes = ((List.range s.sent.length).map (fun t => okBytes (s.results t))).sum ∧
    s.errors = ((List.range s.sent.length).filterMap (fun t => errOf (s.results t))).length ∧
    s.lastErr = ((List.range s.sent.length).filterMap (fun t => errOf (s.results t))).getLast? := by
  have hi := reach_inv hv h
  have hl : s.sent.length = s.i := by rw [hi.sent]; simp
  have ht := hi.fin hf
  have hq : s.queue = [] := by
    have := hi.queueLe
    rw [ht] at this
    exact List.eq_nil_of_length_eq_zero (by simpa using this)
  have h1 := hi.bytes
  have h2 := hi.errors
  have h3 := hi.last
  have h4 := hi.res
  rw [ht, List.length_nil, Nat.sub_zero] at h1 h2 h3
  rw [hq, List.length_nil, Nat.sub_zero] at h4
  rw [hl]
  exact ⟨ht, hq, fun t h => (h4 t).2 h, h1, h2, h3⟩

/-! ## Progress -/

/-- **C99 (progress).** The program has finished, or it can go on, or the stream has a heap to complete. -/
theorem C99_progress {c : Cfg D V R} (hv : Valid c) {evs : List Ev} {s : St D R} (h : Reach c evs s) :
    s.phase = .finished ∨ (∃ s', step c s .prog = some s') ∨ ∀ r, ∃ s', step c s (.complete r) = some s' := by
  have hi := reach_inv hv h
  have haw : ∀ next, (∃ s', s.await next = some s') ∨ ∀ r, ∃ s', step c s (.complete r) = some s' := by
    intro next
    unfold St.await
    cases ht : s.tasks with
    | nil => exact Or.inl ⟨_, rfl⟩
    | cons t ts =>
      simp only
      cases hr : s.results t with
      | some r => exact Or.inl ⟨_, rfl⟩
      | none =>
        refine Or.inr fun r => ?_
        simp only [step]
        cases hq : s.queue with
        | cons u us => exact ⟨_, rfl⟩
        | nil =>
          have h0 := hi.tasks
          rw [ht, List.length_cons, List.range'_succ] at h0
          injection h0 with h1 h2
          have hle := hi.tasksLe
          rw [ht, List.length_cons] at hle
          have := (hi.res t).2 (by rw [hq, List.length_nil]; omega)
          rw [hr] at this
          cases this
  cases hp : s.phase with
  | finished => exact Or.inl rfl
  | make => exact Or.inr (Or.inl ⟨s.send c, by simp only [step, hp]⟩)
  | top =>
    right
    by_cases h1 : c.total = some s.i
    · exact Or.inl ⟨_, by simp only [step, hp, if_pos h1]; rfl⟩
    · by_cases h2 : c.maxHeaps ≤ s.tasks.length
      · rcases haw .make with ⟨s', h'⟩ | hc
        · exact Or.inl ⟨s', by simp only [step, hp, if_neg h1, if_pos h2]; exact h'⟩
        · exact Or.inr hc
      · exact Or.inl ⟨_, by simp only [step, hp, if_neg h1, if_neg h2]; rfl⟩
  | drain =>
    right
    by_cases h1 : s.tasks.isEmpty = true
    · exact Or.inl ⟨_, by simp only [step, hp, if_pos h1]; rfl⟩
    · rcases haw .drain with ⟨s', h'⟩ | hc
      · exact Or.inl ⟨s', by simp only [step, hp, if_neg h1]; exact h'⟩
      · exact Or.inr hc

theorem await_left {s s' : St D R} {next : Phase} (h : s.await next = some s') : s'.i = s.i ∧ s'.queue = s.queue ∧ s'.phase = next ∧ s'.tasks.length ≤ s.tasks.length ∧ (s.tasks ≠ [] → s'.tasks.length + 1 = s.tasks.length) := by
  unfold St.await at h
  cases ht : s.tasks with
  | nil => rw [ht] at h; cases h; simp [St.account, ht]
  | cons t ts =>
    rw [ht] at h
    simp only at h
    cases hr : s.results t with
    | none => rw [hr] at h; cases h
    | some r =>
      rw [hr] at h
      cases h
      cases r <;> simp [St.account]

theorem step_left {c : Cfg D V R} {T : Nat} (hT : c.total = some T) {s s' : St D R} (hi : Inv c s) {e : Ev} (h : step c s e = some s') :
    2 * s'.left T + s'.queue.length + 1 ≤ 2 * s.left T + s.queue.length := by
  cases e with
  | complete r =>
    simp only [step] at h
    cases hq : s.queue with
    | nil => rw [hq] at h; cases h
    | cons t ts => rw [hq] at h; cases h; simp [St.left]; omega
  | prog =>
    simp only [step] at h
    cases hp : s.phase with
    | top =>
      rw [hp] at h
      simp only at h
      split at h
      · cases h; simp only [St.left, hp]; omega
      · split at h
        · obtain ⟨h1, h2, h3, h4, _⟩ := await_left h
          simp only [St.left, h1, h2, h3, hp]
          omega
        · cases h; simp only [St.left, hp]; omega
    | make =>
      rw [hp] at h
      cases h
      have hlt := (hi.before (Or.inr hp) T hT).2 hp
      unfold St.send
      simp only
      split
      · simp only [St.left, hp, List.length_append, List.length_singleton]; omega
      · simp only [St.left, hp, List.length_append, List.length_singleton]; omega
    | drain =>
      rw [hp] at h
      simp only at h
      split at h
      · cases h; simp only [St.left, hp]; omega
      · rename_i hne
        obtain ⟨h1, h2, h3, _, h5⟩ := await_left h
        have := h5 (fun h0 => hne (by rw [h0]; rfl))
        simp only [St.left, h1, h2, h3, hp]
        omega
    | finished => rw [hp] at h; cases h

/-- **C99 (end).** If the number of heaps is limited, there is a bound on the steps of program and stream, so by `C99_progress` the program finishes if the stream goes on. -/
theorem C99_bounded {c : Cfg D V R} (hv : Valid c) {n : Nat} (hn : c.heaps = some n) {evs : List Ev} {s : St D R} (h : Reach c evs s) : evs.length ≤ 6 * (n + c.dests) + 4 := by
  have hT : c.total = some (n + c.dests) := by simp [Cfg.total, hn]
  have gen : ∀ (es : List Ev) {s s' : St D R}, Inv c s → run c s es = some s' → es.length ≤ 2 * s.left (n + c.dests) + s.queue.length := by
    intro es
    induction es with
    | nil => intro s s' _ _; exact Nat.zero_le _
    | cons e es ih =>
      intro s s' hi h
      simp only [run] at h
      cases hs : step c s e with
      | none => rw [hs] at h; cases h
      | some s1 =>
        rw [hs] at h
        have := ih (step_inv hv hi hs) h
        have := step_left hT hi hs
        simp only [List.length_cons]
        omega
  have := gen evs (Inv.init c) h
  simp only [St.left, St.init, List.length_nil, Nat.sub_zero] at this
  omega

/-! ## Descriptors -/

/-- **C99 (first).** The first data heap on each substream has all descriptors. -/
theorem C99_first {c : Cfg D V R} (hv : Valid c) {evs : List Ev} {s : St D R} (h : Reach c evs s) {j k : Nat} {p : PyHeap D R} (hj : s.sent[j]? = some (k, .data p))
    (hfirst : ∀ j' m, j' < j → s.sent[j']? ≠ some (k, m)) : p.descs = allDescs c.group := by
  have hg := sent_get hv h j
  rw [hj] at hg
  split at hg
  · rename_i hlt
    injection hg with hg
    have hk : k = j % c.dests := congrArg Prod.fst hg
    have hm := congrArg Prod.snd hg
    by_cases hjd : j < c.dests
    · simp only [expected] at hm
      split at hm
      · cases hm
      · cases hm
        simp [hasDescs, hjd]
    · have hS := hv.dests
      have h1 := sent_get hv h (j - c.dests)
      rw [if_pos (by omega)] at h1
      refine absurd ?_ (hfirst (j - c.dests) (expected c (j - c.dests)).2 (by omega))
      rw [h1, hk]
      simp only [expected]
      have : j % c.dests = (j - c.dests) % c.dests := Nat.mod_eq_sub_mod (by omega)
      rw [this]
  · cases hg

/-- C99 in full: with `--descriptors f`, each of the destinations gets the descriptors again within `f` of its heaps, so that a receiver that is started late can interpret them. -/
def C99_statement : Prop :=
  ∀ (D V R : Type) (c : Cfg D V R) (evs : List Ev) (s : St D R) (f k a : Nat), Valid c → c.freq = some f → 0 < f → Reach c evs s → k < c.dests →
    (∀ j, j < a + c.dests * f → ∃ k p, s.sent[j]? = some (k, .data p)) →
    ∃ j p, a ≤ j ∧ j < a + c.dests * f ∧ s.sent[j]? = some (k, .data p) ∧ p.descs = allDescs c.group

/-- **C99 (descriptors).** C99 in full, if the frequency and the number of destinations have no common divisor; in particular with one destination.  Missing: other frequencies
(`C99_starved`). -/
theorem C99_partial {c : Cfg D V R} (hv : Valid c) {f : Nat} (hc : c.freq = some f) (hf : 0 < f) (hco : Nat.Coprime c.dests f) {evs : List Ev} {s : St D R} (h : Reach c evs s)
    {k a : Nat} (hk : k < c.dests) (hs : ∀ j, j < a + c.dests * f → ∃ k p, s.sent[j]? = some (k, .data p)) :
    ∃ j p, a ≤ j ∧ j < a + c.dests * f ∧ s.sent[j]? = some (k, .data p) ∧ p.descs = allDescs c.group := by
  have hS := hv.dests
  obtain ⟨x0, hx1, hx2⟩ := Nat.chineseRemainder hco k (c.dests - 1)
  have hM : 0 < c.dests * f := Nat.mul_pos hS hf
  have hle : a ≤ c.dests * f * a := Nat.le_mul_of_pos_left a hM
  generalize hx : a + (x0 + c.dests * f * a - a) % (c.dests * f) = x
  have hlt := Nat.mod_lt (x0 + c.dests * f * a - a) hM
  have hxm : x ≡ x0 [MOD c.dests * f] := by
    unfold Nat.ModEq
    rw [← hx, Nat.add_mod_mod]
    have : a + (x0 + c.dests * f * a - a) = x0 + c.dests * f * a := by omega
    rw [this, Nat.add_mul_mod_self_left]
  have hxS : x % c.dests = k := by
    have h1 : x ≡ x0 [MOD c.dests] := hxm.of_mul_right f
    have h2 : x % c.dests = k % c.dests := (h1.trans hx1)
    rw [h2, Nat.mod_eq_of_lt hk]
  have hxf : x ≡ c.dests - 1 [MOD f] := (hxm.of_mul_left c.dests).trans hx2
  obtain ⟨k', p, hp⟩ := hs x (by omega)
  have hg := sent_get hv h x
  rw [hp] at hg
  split at hg
  · injection hg with hg
    have hk' : k' = x % c.dests := congrArg Prod.fst hg
    have hm := congrArg Prod.snd hg
    refine ⟨x, p, by omega, by omega, by rw [hp, hk', hxS], ?_⟩
    simp only [expected] at hm
    split at hm
    · cases hm
    · cases hm
      have hd : hasDescs c x = true := by
        unfold hasDescs
        by_cases hxs : x < c.dests
        · simp [hxs]
        · have hdvd : f ∣ x - (c.dests - 1) := (Nat.modEq_iff_dvd' (by omega)).1 hxf.symm
          have he : x + 1 - c.dests = x - (c.dests - 1) := by omega
          rw [hc, he]
          simp [Nat.mod_eq_zero_of_dvd hdvd]
      simp [hd]
  · cases hg

/-- **C99 (starved).** If the frequency is a multiple of the number of destinations, only the last destination ever gets descriptors again. -/
theorem C99_starved {c : Cfg D V R} (hv : Valid c) {f : Nat} (hc : c.freq = some f) (hf : 0 < f) (hd : c.dests ∣ f) (hg : allDescs c.group ≠ []) {evs : List Ev} {s : St D R}
    (h : Reach c evs s) {j k : Nat} {p : PyHeap D R} (hj : s.sent[j]? = some (k, .data p)) (hge : c.dests ≤ j) (hk : k + 1 ≠ c.dests) : p.descs = [] := by
  have hget := sent_get hv h j
  rw [hj] at hget
  split at hget
  · injection hget with hget
    have hk' : k = j % c.dests := congrArg Prod.fst hget
    have hm := congrArg Prod.snd hget
    simp only [expected] at hm
    split at hm
    · cases hm
    · cases hm
      have hno : hasDescs c j = false := by
        unfold hasDescs
        rw [hc]
        have h1 : ¬ j < c.dests := by omega
        have h2 : (f == 0) = false := by simp; omega
        simp only [h1, decide_false, h2, Bool.false_or]
        cases hcase : ((j + 1 - c.dests) % f == 0) with
        | false => rfl
        | true =>
          have h3 : f ∣ j + 1 - c.dests := Nat.dvd_of_mod_eq_zero (by simpa using hcase)
          have h4 : c.dests ∣ j + 1 := by
            have h5 := Nat.dvd_add (Nat.dvd_trans hd h3) (Nat.dvd_refl c.dests)
            have h6 : j + 1 - c.dests + c.dests = j + 1 := by omega
            rw [h6] at h5
            exact h5
          obtain ⟨q, hq⟩ := h4
          have hlt := Nat.mod_lt j hv.dests
          have hda := Nat.div_add_mod j c.dests
          exfalso
          apply hk
          rw [hk']
          rcases Nat.lt_trichotomy (j / c.dests + 1) q with h7 | h7 | h7
          · have := Nat.mul_le_mul_left c.dests h7
            rw [Nat.mul_succ, Nat.mul_succ] at this
            omega
          · rw [← h7, Nat.mul_succ] at hq
            omega
          · have := Nat.mul_le_mul_left c.dests (Nat.lt_succ_iff.1 h7)
            omega
      simp [hno]
  · cases hget

/-- Two destinations, one item, descriptors with every second heap. -/
def sampleCfg : Cfg Nat Nat Nat where
  heaps := none
  dests := 2
  maxHeaps := 8
  freq := some 2
  group := ⟨fun o => if o = 0 then some ⟨0x1000, "Test item 0", 7, some 5, 1⟩ else none, 1, [(0x1000, 0)], [("Test item 0", 0)]⟩
  enc := fun _ v => v

theorem sampleCfg_valid : Valid sampleCfg := ⟨by decide, by decide, by decide⟩

/-- **C99 fails in full**: the first of two destinations gets the descriptors only once, because the heaps that repeat them are all for the second. -/
theorem C99_violated : ¬ C99_statement := by
  intro hst
  have hrun : (run sampleCfg (St.init sampleCfg) (List.replicate 12 .prog)).map (fun s => s.sent.length) = some 6 := by decide
  cases hr : run sampleCfg (St.init sampleCfg) (List.replicate 12 .prog) with
  | none => rw [hr] at hrun; cases hrun
  | some s =>
    rw [hr] at hrun
    injection hrun with hlen
    replace hlen : s.sent.length = 6 := hlen
    have hreach : Reach sampleCfg (List.replicate 12 .prog) s := hr
    have hget := sent_get sampleCfg_valid hreach
    obtain ⟨j, p, h1, h2, h3, h4⟩ := hst Nat Nat Nat sampleCfg _ s 2 0 2 sampleCfg_valid rfl (by decide) hreach (by decide)
      (fun j hj => ⟨j % 2, _, by rw [hget j, hlen, if_pos (show j < 6 from hj)]; rfl⟩)
    have := C99_starved sampleCfg_valid (f := 2) rfl (by decide) ⟨1, rfl⟩ (by decide) hreach h3 h1 (by decide)
    rw [this] at h4
    exact absurd h4 (by decide)

/-! Two destinations and three heaps in a window of two: the fourth heap fails, and the program finishes. -/

def sampleRun : List Ev :=
  [.prog, .prog, .prog, .prog, .complete (.ok 100), .prog, .prog, .complete (.ok 50), .prog, .prog, .complete (.ok 60), .prog, .prog, .complete (.error 9), .complete (.ok 8),
   .prog, .prog, .prog, .prog]

example : Valid { sampleCfg with heaps := some 3, maxHeaps := 2 } := ⟨by decide, by decide, by decide⟩

example : (run { sampleCfg with heaps := some 3, maxHeaps := 2 } (St.init sampleCfg) sampleRun).map (fun s => (s.phase, s.bytes, s.errors, s.lastErr, s.sent.length)) =
    some (.finished, 218, 1, some (.io 9), 5) := by decide

example : (run { sampleCfg with heaps := some 3, maxHeaps := 2 } (St.init sampleCfg) sampleRun).map (fun s => s.sent.map (·.1)) = some [0, 1, 0, 1, 0] := by decide

/-- Three heaps and two destinations: descriptors every third heap reach both. -/
example : Nat.Coprime 2 3 := by decide

end

end Spead2.PyTool
