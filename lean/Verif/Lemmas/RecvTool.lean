import Verif.Spec.RecvTool

/-! # Lemmas about the receiving tools -/

namespace Spead2.RecvTool

theorem sumTo_succ (n : Nat) (f : Nat → Nat) : sumTo (n + 1) f = sumTo n f + f n := by
  simp [sumTo, List.range_succ]

theorem sumTo_congr (n : Nat) (f g : Nat → Nat) (h : ∀ i < n, f i = g i) : sumTo n f = sumTo n g := by
  induction n with
  | zero => rfl
  | succ n ih => rw [sumTo_succ, sumTo_succ, ih (fun i hi => h i (by omega)), h n (by omega)]

theorem sumTo_update (n : Nat) (f g : Nat → Nat) (j : Nat) (hj : j < n) (h : ∀ i < n, i ≠ j → f i = g i) : sumTo n f + g j = sumTo n g + f j := by
  induction n with
  | zero => omega
  | succ n ih =>
    rw [sumTo_succ, sumTo_succ]
    by_cases e : j = n
    · subst e
      rw [sumTo_congr j f g (fun i hi => h i (by omega) (by omega))]
      omega
    · have := ih (by omega) (fun i hi hne => h i (by omega) hne)
      rw [h n (by omega) (by omega)]
      omega

theorem sumTo_zero (n : Nat) (f : Nat → Nat) (h : ∀ i < n, f i = 0) : sumTo n f = 0 := by
  rw [sumTo_congr n f (fun _ => 0) h]
  induction n with
  | zero => rfl
  | succ n ih => rw [sumTo_succ, ih (fun i hi => h i (by omega))]

theorem sumTo_add (n : Nat) (f g : Nat → Nat) : sumTo n (fun i => f i + g i) = sumTo n f + sumTo n g := by
  induction n with
  | zero => rfl
  | succ n ih => rw [sumTo_succ, sumTo_succ, sumTo_succ, ih]; omega

/-- The heaps with a property that are still to come from stream `i`. -/
def toCome (p : HeapIn → Bool) (s : St) (es : List Ev) (i : Nat) : Nat :=
  if s.stopped i then 0 else ((passed es i).filter p).length

/-- Whether an event is a heap, with a property, of a running stream. -/
def gain (p : HeapIn → Bool) (n : Nat) (s : St) : Ev → Nat
  | .heap i h => if s.stopped i = false ∧ i < n ∧ p h = true then 1 else 0
  | .stop _ => 0

theorem onHeap_stopped (o : Opts) (s : St) (i : Nat) (h : HeapIn) : (onHeap o s i h).stopped = s.stopped := by
  simp only [onHeap]
  split
  · rcases Bool.eq_false_or_eq_true o.quiet with hq | hq <;> rw [hq] <;> split <;> rfl
  · split <;> rfl

theorem onStop_stopped (n : Nat) (s : St) (i : Nat) : (onStop n s i).stopped = fun j => if j = i then true else s.stopped j := by
  unfold onStop
  simp only
  split <;> rfl

theorem toCome_step (p : HeapIn → Bool) (o : Opts) (n : Nat) (s : St) (hc : s.code = none) (e : Ev) (es : List Ev) :
    sumTo n (toCome p s (e :: es)) = gain p n s e + sumTo n (toCome p (step o n s e) es) := by
  cases e with
  | heap i h =>
    by_cases hg : s.stopped i = false ∧ i < n
    · have hst : (step o n s (.heap i h)).stopped = s.stopped := by
        simp only [step]
        rw [if_neg (by rw [hc, hg.1]; simp; omega)]
        exact onHeap_stopped o s i h
      have hu := sumTo_update n (toCome p s (.heap i h :: es)) (toCome p (step o n s (.heap i h)) es) i hg.2 (by
        intro k _ hk
        simp only [toCome, hst, passed, if_neg (Ne.symm hk)])
      have e1 : toCome p s (.heap i h :: es) i = gain p n s (.heap i h) + toCome p (step o n s (.heap i h)) es i := by
        simp only [toCome, hst, hg.1, passed, if_true, gain, true_and, hg.2, Bool.false_eq_true, if_false]
        by_cases hp : p h = true
        · rw [List.filter_cons_of_pos hp, if_pos hp, List.length_cons]; omega
        · rw [List.filter_cons_of_neg hp, if_neg hp]; omega
      omega
    · have hst : step o n s (.heap i h) = s := by
        simp only [step]
        rw [if_pos]
        cases hb : s.stopped i with
        | true => exact Or.inr (Or.inr rfl)
        | false => exact Or.inr (Or.inl (by
            have : ¬ i < n := fun x => hg ⟨hb, x⟩
            omega))
      have hgn : gain p n s (.heap i h) = 0 := by
        simp only [gain]
        rw [if_neg (fun x => hg ⟨x.1, x.2.1⟩)]
      rw [hst, hgn, Nat.zero_add]
      apply sumTo_congr
      intro k hk
      simp only [toCome, passed]
      by_cases hik : i = k
      · subst hik
        have : s.stopped i = true := by
          cases hb : s.stopped i with
          | true => rfl
          | false => exact absurd ⟨hb, hk⟩ hg
        rw [if_pos this, if_pos this]
      · rw [if_neg hik]
  | stop i =>
    simp only [gain, Nat.zero_add]
    apply sumTo_congr
    intro k hk
    by_cases hg : n ≤ i ∨ s.stopped i = true
    · have hst : step o n s (.stop i) = s := by
        simp only [step]; rw [if_pos (Or.inr hg)]
      rw [hst]
      simp only [toCome, passed]
      by_cases hik : i = k
      · subst hik
        rcases hg with hg | hg
        · omega
        · rw [if_pos hg, if_pos hg]
      · rw [if_neg hik]
    · have hst : (step o n s (.stop i)).stopped = fun j => if j = i then true else s.stopped j := by
        simp only [step]
        rw [if_neg (by rw [hc]; simpa using hg)]
        exact onStop_stopped n s i
      simp only [toCome, hst, passed]
      by_cases hik : i = k
      · subst hik; simp
      · rw [if_neg hik, if_neg (Ne.symm hik)]

theorem run_done (o : Opts) (n : Nat) (s : St) (hc : s.code.isSome = true) : ∀ es, run o n s es = s
  | [] => rfl
  | e :: es => by
    have : step o n s e = s := by
      cases e <;> (simp only [step]; rw [if_pos (Or.inl hc)])
    simp only [run, this]
    exact run_done o n s hc es

/-- What one event does to the count and to the output, if the tool goes on or ends well. -/
theorem step_gain (o : Opts) (n : Nat) (s : St) (hc : s.code = none) (e : Ev) (h1 : (step o n s e).code ≠ some 1) :
    sumTo n (step o n s e).count = sumTo n s.count + gain (fun h => h.complete) n s e ∧
    (o.quiet = false → ∀ c, (step o n s e).out.count (.received c) = s.out.count (.received c) + gain (fun h => h.complete && h.cnt == c) n s e) ∧
    (o.quiet = true → ∀ c, (step o n s e).out.count (.received c) = s.out.count (.received c)) := by
  cases e with
  | stop i =>
    simp only [gain, Nat.add_zero, step]
    split
    · exact ⟨rfl, fun _ _ => rfl, fun _ _ => rfl⟩
    · simp only [onStop]
      split
      · refine ⟨rfl, fun _ c => ?_, fun _ c => ?_⟩ <;> simp
      · exact ⟨rfl, fun _ _ => rfl, fun _ _ => rfl⟩
  | heap i h =>
    by_cases hg : s.stopped i = false ∧ i < n
    · have hst : step o n s (.heap i h) = onHeap o s i h := by
        simp only [step]
        rw [if_neg (by rw [hc, hg.1]; simp; omega)]
      rw [hst] at h1 ⊢
      simp only [gain, hg.1, hg.2, true_and, Bool.and_eq_true, beq_iff_eq]
      unfold onHeap at h1 ⊢
      by_cases hcm : h.complete = true
      · rw [if_pos hcm] at h1 ⊢
        by_cases hv : (!o.ring && o.verify && !h.good) = true
        · simp only [hv, if_true] at h1
          exact absurd trivial (by simpa using h1)
        · simp only [hv, Bool.false_eq_true, if_false]
          have key : ∀ t : St, t.count = s.count →
              sumTo n (fun j => if j = i then t.count j + 1 else t.count j) = sumTo n s.count + 1 := by
            intro t ht
            have := sumTo_update n (fun j => if j = i then t.count j + 1 else t.count j) s.count i hg.2 (by
              intro k _ hk; simp only [if_neg hk, ht])
            simp only [if_true, ht] at this ⊢
            omega
          refine ⟨?_, ?_, ?_⟩
          · rw [if_pos hcm]
            cases hq : o.quiet <;> simp only [Bool.false_eq_true, if_false, if_true] <;> exact key _ rfl
          · intro hq c
            rw [hq]
            simp only [Bool.false_eq_true, if_false, List.count_append, hcm, true_and]
            by_cases hcc : h.cnt = c
            · simp [hcc]
            · simp [hcc]
          · intro hq c
            rw [hq]
            rfl
      · rw [if_neg hcm]
        have hcm' : h.complete = false := Bool.eq_false_iff.mpr hcm
        rw [if_neg hcm]
        refine ⟨?_, ?_, ?_⟩
        · split <;> rfl
        · intro hq c
          rw [if_neg (c := h.complete = true ∧ h.cnt = c) (by rw [hcm']; simp)]
          split
          · rfl
          · simp
        · intro hq c
          split
          · rfl
          · simp
    · have hst : step o n s (.heap i h) = s := by
        simp only [step]
        rw [if_pos]
        cases hb : s.stopped i with
        | true => exact Or.inr (Or.inr rfl)
        | false => exact Or.inr (Or.inl (by
            have : ¬ i < n := fun x => hg ⟨hb, x⟩
            omega))
      have hgn : ∀ p, gain p n s (.heap i h) = 0 := by
        intro p
        simp only [gain]
        rw [if_neg (fun x => hg ⟨x.1, x.2.1⟩)]
      rw [hst]
      refine ⟨by rw [hgn, Nat.add_zero], fun _ c => (by rw [hgn, Nat.add_zero]), fun _ _ => rfl⟩

end Spead2.RecvTool
