import Verif.Spec.Semaphore

/-! # C58, C59: semaphores -/

namespace Spead2

open Spec

/-- **C58, atomicity.** Whatever the implementation, each action of each thread is one action on a counter: a call of `put` that returns has
incremented it exactly once, a call of `get` or `try_get` that returns 0 has decremented it exactly once when it was positive, and calls that
return -1 or throw have not changed it. For `semaphore_spin` the value must not wrap around. -/
theorem C58_atomic {k : SemKind} {max : Nat} {s s' : SemState} (h : SemStep k max s s') (hw : k = .spin → s.value < max) :
    CounterStep (counterView s) (counterView s') := by
  have down : ∀ (g t : Nat) {v}, 0 < v → CounterStep (v, g, t) (v - 1, g, t + 1) := fun g t v hv => by
    obtain ⟨w, rfl⟩ : ∃ w, v = w + 1 := ⟨v - 1, by omega⟩
    exact .down w g t
  have downG : ∀ {v}, 0 < v → CounterStep (v, s.stats.putOk, s.stats.getOk + s.stats.tryOk) (v - 1, s.stats.putOk, s.stats.getOk + 1 + s.stats.tryOk) :=
    fun hv => by rw [show s.stats.getOk + 1 + s.stats.tryOk = s.stats.getOk + s.stats.tryOk + 1 by omega]; exact down _ _ hv
  cases h with
  | spinPut t hk hp =>
    show CounterStep (s.value, _, _) ((s.value + 1) % (max + 1), _, _)
    rw [Nat.mod_eq_of_lt (by have := hw hk; omega)]
    exact .up _ _ _
  | spinGet t cur hk hp hc hv => subst hv; exact downG (by omega)
  | spinTry t cur hk hp hc hv => subst hv; exact down _ _ hc
  | posixPut t hk hp hv => exact .up _ _ _
  | pipePut t hk hp hv => exact .up _ _ _
  | eventPut t hk hp hv => exact .up _ _ _
  | posixGet t hk hp hv => exact downG hv
  | fdGet t cur hk hp hv => exact downG hv
  | posixTry t hk hp hv => exact down _ _ hv
  | fdTry t hk hp hv => exact down _ _ hv
  | call | spinLoad | spinAgain | spinMiss | spinTryLoad | spinTryFail | posixThrow | posixGetIntr | posixTryFail | posixTryIntr | eventThrow
    | fdPoll | fdPollIntr | fdAgain | fdTryFail | eventTryIntr => exact .nothing _ _ _

theorem putOk_mono {k : SemKind} {max : Nat} {s s' : SemState} (h : SemStep k max s s') : s.stats.putOk ≤ s'.stats.putOk := by
  cases h <;> simp only [SemState.call, SemState.ret, SemState.go, SemState.tryFailed, SemState.getFailed, SemStats.addPut, SemStats.addThrow,
    SemStats.addGet, SemStats.addTry] <;> omega

/-- **C58, conservation.** At any time the value is the initial value, plus the calls of `put` that have returned, minus the calls of `get` and
`try_get` that have returned 0. In particular there are never more of the latter than tokens. For `semaphore_spin` this needs fewer tokens than
an `unsigned int` can count. -/
theorem C58_conservation {k : SemKind} {max n : Nat} {s : SemState} (h : SemSteps k max (SemState.init n) s)
    (hw : k = .spin → n + s.stats.putOk ≤ max) : s.value + (s.stats.getOk + s.stats.tryOk) = n + s.stats.putOk := by
  generalize hi : SemState.init n = i at h
  induction h with
  | refl => subst hi; rfl
  | step pre st ih =>
    rename_i s1 s2
    have m := putOk_mono st
    have ih := ih fun e => by have := hw e; omega
    cases hk : decide (k = .spin) with
    | false =>
      have a := C58_atomic st (fun e => by simp [e] at hk)
      revert a
      generalize h1 : counterView s1 = x
      generalize h2 : counterView s2 = y
      intro a
      cases a <;> simp only [counterView, Prod.mk.injEq] at h1 h2 <;> omega
    | true =>
      have ek : k = .spin := of_decide_eq_true hk
      have b := hw ek
      by_cases hlt : s1.value < max
      · have a := C58_atomic st (fun _ => hlt)
        revert a
        generalize h1 : counterView s1 = x
        generalize h2 : counterView s2 = y
        intro a
        cases a <;> simp only [counterView, Prod.mk.injEq] at h1 h2 <;> omega
      · subst ek
        cases st with
        | spinPut t _ hp =>
          simp only [SemState.ret, SemStats.addPut] at b
          omega
        | spinGet t cur _ hp hc hv => simp only [SemState.ret, SemState.go, SemStats.addGet]; omega
        | spinTry t cur _ hp hc hv => simp only [SemState.ret, SemState.go, SemStats.addTry]; omega
        | call | spinLoad | spinAgain | spinMiss | spinTryLoad | spinTryFail => exact ih (fun _ => by omega)
        | posixPut _ hk | posixThrow _ hk | posixGet _ hk | posixGetIntr _ hk | posixTry _ hk | posixTryFail _ hk | posixTryIntr _ hk
          | pipePut _ hk | eventPut _ hk | eventThrow _ hk | eventTryIntr _ hk => cases hk
        | fdPoll _ hk | fdPollIntr _ hk | fdTry _ hk | fdTryFail _ hk => rcases hk with hk | hk <;> cases hk
        | fdGet _ _ hk | fdAgain _ _ hk => rcases hk with hk | hk <;> cases hk

theorem posix_get2 {max n : Nat} {s : SemState} (h : SemSteps .posix max (SemState.init n) s) : ∀ t cur, s.pc t ≠ .get2 cur := by
  generalize hi : SemState.init n = i at h
  induction h with
  | refl => subst hi; intro t cur e; cases e
  | step pre st ih =>
    intro u c
    have ih := ih u c
    cases st <;> simp only [SemState.call, SemState.ret, SemState.go, SemState.tryFailed, SemState.getFailed] <;> grind

/-- **C58, no lost wake-up.** While the value is positive, no thread is stuck in `get`: it can go on and return 0, without any other thread doing
anything. -/
theorem C58_progress {k : SemKind} {max n : Nat} {s : SemState} {t : Nat} (h : SemSteps k max (SemState.init n) s) (hg : inGet (s.pc t) = true) (hv : 0 < s.value) :
    ∃ s', SemSteps k max s s' ∧ s'.pc t = .idle ∧ s'.stats.getOk = s.stats.getOk + 1 ∧ s'.value + 1 = s.value ∧ ∀ u, u ≠ t → s'.pc u = s.pc u := by
  have self : ∀ (s : SemState) v p, (s.go t v p).pc t = p := fun s v p => by simp [SemState.go]
  have fin : ∀ (s0 : SemState) (v : Nat), (∀ u, u ≠ t → s0.pc u = s.pc u) → s0.stats = s.stats → v + 1 = s.value →
      (s0.ret t v SemStats.addGet).pc t = .idle ∧ (s0.ret t v SemStats.addGet).stats.getOk = s.stats.getOk + 1 ∧
      (s0.ret t v SemStats.addGet).value + 1 = s.value ∧ ∀ u, u ≠ t → (s0.ret t v SemStats.addGet).pc u = s.pc u := fun s0 v h1 h2 h3 => by
    refine ⟨by simp [SemState.ret, SemState.go], by simp [SemState.ret, SemStats.addGet, h2], h3, fun u e => ?_⟩
    simp [SemState.ret, SemState.go, e, h1 u e]
  have other : ∀ (s0 : SemState) v p, (∀ u, u ≠ t → s0.pc u = s.pc u) → ∀ u, u ≠ t → (s0.go t v p).pc u = s.pc u := fun s0 v p h u e => by
    simp [SemState.go, e, h u e]
  generalize hp : s.pc t = p at hg
  cases k with
  | spin =>
    have cas : ∀ s0 : SemState, SemSteps .spin max s s0 → s0.pc t = .get2 s.value → s0.value = s.value → s0.stats = s.stats →
        (∀ u, u ≠ t → s0.pc u = s.pc u) → ∃ s', SemSteps .spin max s s' ∧ s'.pc t = .idle ∧ s'.stats.getOk = s.stats.getOk + 1 ∧
          s'.value + 1 = s.value ∧ ∀ u, u ≠ t → s'.pc u = s.pc u := fun s0 h h1 h2 h3 h4 =>
      ⟨_, h.step (.spinGet s0 t s.value rfl h1 (by omega) h2), fin s0 (s.value - 1) h4 h3 (by omega)⟩
    cases p with
    | get1 => exact cas _ (.step (.refl s) (.spinLoad s t rfl hp)) (self _ _ _) rfl rfl (other s _ _ fun _ _ => rfl)
    | get2 cur =>
      by_cases e : cur = 0
      · subst e
        exact cas _ (.step (.refl s) (.spinAgain s t rfl hp)) (self _ _ _) rfl rfl (other s _ _ fun _ _ => rfl)
      · by_cases e' : s.value = cur
        · exact cas s (.refl s) (by rw [hp, e']) rfl rfl fun _ _ => rfl
        · exact cas _ (.step (.refl s) (.spinMiss s t cur rfl hp e)) (self _ _ _) rfl rfl (other s _ _ fun _ _ => rfl)
    | idle => cases hg
    | put => cases hg
    | try1 => cases hg
    | try2 => cases hg
  | posix =>
    cases p with
    | get1 => exact ⟨_, .step (.refl s) (.posixGet s t rfl hp hv), fin s (s.value - 1) (fun _ _ => rfl) rfl (by omega)⟩
    | get2 cur => exact absurd hp (posix_get2 h t cur)
    | idle => cases hg
    | put => cases hg
    | try1 => cases hg
    | try2 => cases hg
  | pipe =>
    cases p with
    | get1 => exact ⟨_, .step (.step (.refl s) (.fdPoll s t (.inl rfl) hp)) (.fdGet _ t 0 (.inl rfl) (self _ _ _) hv),
        fin _ (s.value - 1) (other s _ _ fun _ _ => rfl) rfl (by omega)⟩
    | get2 cur => exact ⟨_, .step (.refl s) (.fdGet s t cur (.inl rfl) hp hv), fin s (s.value - 1) (fun _ _ => rfl) rfl (by omega)⟩
    | idle => cases hg
    | put => cases hg
    | try1 => cases hg
    | try2 => cases hg
  | eventfd =>
    cases p with
    | get1 => exact ⟨_, .step (.step (.refl s) (.fdPoll s t (.inr rfl) hp)) (.fdGet _ t 0 (.inr rfl) (self _ _ _) hv),
        fin _ (s.value - 1) (other s _ _ fun _ _ => rfl) rfl (by omega)⟩
    | get2 cur => exact ⟨_, .step (.refl s) (.fdGet s t cur (.inr rfl) hp hv), fin s (s.value - 1) (fun _ _ => rfl) rfl (by omega)⟩
    | idle => cases hg
    | put => cases hg
    | try1 => cases hg
    | try2 => cases hg

/-- A busy run of each theorem's hypotheses: two threads take from `semaphore_spin` a token that a third one gave; one of them spins. -/
example : ∃ s, SemSteps .spin (2 ^ 32 - 1) (SemState.init 0) s ∧ s.value = 0 ∧ s.stats.putOk = 1 ∧ s.stats.getOk = 1 ∧ s.pc 1 = .get2 0 ∧
    0 + s.stats.putOk ≤ 2 ^ 32 - 1 :=
  ⟨_, ((((((((SemSteps.refl _).step (.call _ 0 .get1 rfl (.inr (.inl rfl)))).step (.call _ 1 .get1 rfl (.inr (.inl rfl)))).step
      (.spinLoad _ 1 rfl rfl)).step (.call _ 2 .put rfl (.inl rfl))).step (.spinPut _ 2 rfl rfl)).step (.spinLoad _ 0 rfl rfl)).step
      (.spinGet _ 0 1 rfl rfl (by decide) rfl)), rfl, rfl, rfl, rfl, by decide⟩

/-- A thread is in `get` of `semaphore_eventfd` when a token arrives. -/
example : ∃ s, SemSteps .eventfd 100 (SemState.init 0) s ∧ inGet (s.pc 0) = true ∧ 0 < s.value :=
  ⟨_, ((((((SemSteps.refl _).step (.call _ 0 .get1 rfl (.inr (.inl rfl)))).step (.fdPoll _ 0 (.inr rfl) rfl)).step
      (.fdAgain _ 0 0 (.inr rfl) rfl rfl)).step (.call _ 1 .put rfl (.inl rfl))).step (.eventPut _ 1 rfl rfl (by decide))), rfl, by decide⟩

/-- **C59.** The documentation of the results: `get` returns -1 only if a system call was interrupted, and `try_get` only if that or if the
semaphore was zero at some time during the call. -/
def C59_statement : Prop := ∀ (k : SemKind) (max n : Nat) (s : SemState), SemSteps k max (SemState.init n) s → s.spurious = false

theorem sem_documented {k : SemKind} {max n : Nat} {s : SemState} (h : SemSteps k max (SemState.init n) s) :
    (k ≠ .spin → s.spurious = false) ∧ (k = .spin → s.stats.getFail = 0) ∧ ∀ t, s.pc t ≠ .idle → s.value = 0 → s.zero t = true := by
  generalize hi : SemState.init n = i at h
  induction h with
  | refl => subst hi; exact ⟨fun _ => rfl, fun _ => rfl, fun t e => absurd rfl e⟩
  | step pre st ih =>
    obtain ⟨h1, h2, h3⟩ := ih
    refine ⟨fun hk => ?_, fun hk => ?_, fun u => ?_⟩
    · have h1 := h1 hk
      cases st <;> simp only [SemState.call, SemState.ret, SemState.go, SemState.tryFailed, SemState.getFailed] <;> grind
    · have h2 := h2 hk
      cases st <;> simp only [SemState.call, SemState.ret, SemState.go, SemState.tryFailed, SemState.getFailed, SemStats.addPut, SemStats.addThrow,
        SemStats.addGet, SemStats.addTry] <;> grind
    · have h3 := h3 u
      cases st <;> simp only [SemState.call, SemState.ret, SemState.go, SemState.tryFailed, SemState.getFailed] <;> grind

/-- **C59, all but `semaphore_spin`.** What is missing: `semaphore_spin::try_get`, see `C59_violated`. -/
theorem C59_result_partial {k : SemKind} {max n : Nat} {s : SemState} (h : SemSteps k max (SemState.init n) s) (hk : k ≠ .spin) :
    s.spurious = false := (sem_documented h).1 hk

/-- **C59, `semaphore_spin::get`** never returns -1. -/
theorem C59_spin_get_partial {max n : Nat} {s : SemState} (h : SemSteps .spin max (SemState.init n) s) : s.stats.getFail = 0 :=
  (sem_documented h).2.1 rfl

/-- **C59, `semaphore_spin::try_get` undisturbed.** If no other thread does anything between the load and the compare-exchange of a `try_get`, and the
value is positive, then the call returns 0. -/
theorem C59_spin_try_partial {max : Nat} {s s1 s2 : SemState} {t : Nat} (hp : s.pc t = .try1) (hv : 0 < s.value) (h1 : SemStep .spin max s s1)
    (e1 : s1.pc t ≠ .try1) (h2 : SemStep .spin max s1 s2) (e2 : s2.pc t = .idle) :
    s2.stats.tryOk = s.stats.tryOk + 1 ∧ s2.stats.tryFail = s.stats.tryFail ∧ s2.value + 1 = s.value := by
  have l : s1 = s.go t s.value (.try2 s.value) := by
    cases h1 <;> simp only [SemState.call, SemState.ret, SemState.go, SemState.tryFailed, SemState.getFailed] at e1 <;> grind
  subst l
  have hp1 : (s.go t s.value (.try2 s.value)).pc t = .try2 s.value := by simp [SemState.go]
  have hv1 : (s.go t s.value (.try2 s.value)).value = s.value := rfl
  have hs1 : (s.go t s.value (.try2 s.value)).stats = s.stats := rfl
  generalize s.go t s.value (.try2 s.value) = s1 at *
  cases h2 <;> simp only [SemState.call, SemState.ret, SemState.go, SemState.tryFailed, SemState.getFailed, SemStats.addTry] at e2 ⊢ <;> grind

/-- Such a `try_get`. -/
example : ∃ s1 s2, SemStep .spin 100 ((SemState.init 3).call 0 .try1) s1 ∧ s1.pc 0 ≠ .try1 ∧ SemStep .spin 100 s1 s2 ∧ s2.pc 0 = .idle :=
  ⟨_, _, .spinTryLoad _ 0 rfl rfl, by decide, .spinTry _ 0 3 rfl rfl (by decide) rfl, rfl⟩

/-- A `try_get` of `semaphore_posix` that returns -1 for a good reason. -/
example : ∃ s, SemSteps .posix 100 (SemState.init 0) s ∧ s.stats.tryFail = 1 :=
  ⟨_, ((SemSteps.refl _).step (.call _ 0 .try1 rfl (.inr (.inr rfl)))).step (.posixTryFail _ 0 rfl rfl rfl), rfl⟩

/-- **C59 does not hold of `semaphore_spin`.** The value is 2; thread 0 loads it in `try_get`, thread 1 takes a token, and the compare-exchange of
thread 0 fails: it returns -1 although the value was never below 1. -/
theorem C59_violated : ¬ C59_statement := fun h =>
  Bool.noConfusion (h .spin (2 ^ 32 - 1) 2 _ ((((((SemSteps.refl _).step (.call _ 0 .try1 rfl (.inr (.inr rfl)))).step (.spinTryLoad _ 0 rfl rfl)).step
    (.call _ 1 .get1 rfl (.inr (.inl rfl)))).step (.spinLoad _ 1 rfl rfl)).step (.spinGet _ 1 2 rfl rfl (by decide) rfl) |>.step
    (.spinTryFail _ 0 2 rfl rfl (by decide))))

end Spead2
