import Verif.Lemmas.RecvTool

/-!
# C106: the receiving tools
-/

namespace Spead2.RecvTool

theorem onHeap_code (o : Opts) (s : St) (hc : s.code = none) (i : Nat) (h : HeapIn) :
    (onHeap o s i h).code = if h.complete && (!o.ring && o.verify && !h.good) then some 1 else none := by
  simp only [onHeap]
  by_cases hm : h.complete = true
  · rw [if_pos hm, hm]
    by_cases hv : (!o.ring && o.verify && !h.good) = true
    · rw [if_pos hv, hv]; rfl
    · rw [if_neg hv, Bool.eq_false_iff.mpr hv]
      rcases Bool.eq_false_or_eq_true o.quiet with hq | hq <;> rw [hq] <;> exact hc
  · rw [if_neg hm, Bool.eq_false_iff.mpr hm]
    split
    · exact hc
    · exact hc

theorem step_end (o : Opts) (n : Nat) (s : St) (hc : s.code = none) (e : Ev) (h0 : (step o n s e).code = some 0) :
    (∀ i < n, (step o n s e).stopped i = true) ∧ ∃ init, (step o n s e).out = init ++ [.total (sumTo n (step o n s e).count)] := by
  cases e with
  | heap i h =>
    simp only [step] at h0
    split at h0
    · rw [hc] at h0; cases h0
    · rw [onHeap_code o s hc] at h0
      split at h0 <;> cases h0
  | stop i =>
    simp only [step] at h0 ⊢
    split at h0
    · rw [hc] at h0; cases h0
    · rename_i hn
      rw [if_neg hn]
      simp only [onStop] at h0 ⊢
      split at h0
      · rename_i ha
        rw [if_pos ha]
        refine ⟨?_, s.out, rfl⟩
        intro j hj
        exact List.all_eq_true.mp ha j (List.mem_range.mpr hj)
      · simp only at h0
        rw [hc] at h0; cases h0

theorem run_total (o : Opts) (n : Nat) : ∀ (es : List Ev) (s : St), s.code = none → (run o n s es).code = some 0 →
    (∃ init, (run o n s es).out = init ++ [.total (sumTo n s.count + sumTo n (toCome (fun h => h.complete) s es))]) ∧
    (o.quiet = false → ∀ c, (run o n s es).out.count (.received c) = s.out.count (.received c) + sumTo n (toCome (fun h => h.complete && h.cnt == c) s es)) ∧
    (o.quiet = true → ∀ c, (run o n s es).out.count (.received c) = s.out.count (.received c))
  | [], s, hc, h0 => by simp only [run] at h0; rw [hc] at h0; cases h0
  | e :: es, s, hc, h0 => by
    simp only [run] at h0 ⊢
    cases hs : (step o n s e).code with
    | none =>
      obtain ⟨⟨init, i1⟩, i2, i3⟩ := run_total o n es _ hs h0
      obtain ⟨g1, g2, g3⟩ := step_gain o n s hc e (by rw [hs]; simp)
      refine ⟨⟨init, ?_⟩, ?_, ?_⟩
      · rw [i1, g1, toCome_step _ o n s hc e es, Nat.add_assoc]
      · intro hq c
        rw [i2 hq c, g2 hq c, toCome_step _ o n s hc e es, Nat.add_assoc]
      · intro hq c
        rw [i3 hq c, g3 hq c]
    | some k =>
      have hd := run_done o n (step o n s e) (by rw [hs]; rfl) es
      rw [hd] at h0 ⊢
      obtain ⟨g1, g2, g3⟩ := step_gain o n s hc e (by rw [h0]; simp)
      obtain ⟨hst, init, hout⟩ := step_end o n s hc e h0
      have hz : ∀ p, sumTo n (toCome p (step o n s e) es) = 0 := by
        intro p
        apply sumTo_zero
        intro i hi
        simp only [toCome, hst i hi, if_true]
      refine ⟨⟨init, ?_⟩, ?_, ?_⟩
      · rw [hout, g1, toCome_step _ o n s hc e es, hz, Nat.add_zero]
      · intro hq c
        rw [g2 hq c, toCome_step _ o n s hc e es, hz, Nat.add_zero]
      · intro hq c
        exact g3 hq c

theorem run_bad (o : Opts) (n : Nat) : ∀ (es : List Ev) (s : St), s.code = none →
    ((run o n s es).code = some 1 → o.verify = true ∧ o.ring = false ∧ 0 < sumTo n (toCome (fun h => h.complete && !h.good) s es)) ∧
    (o.verify = true → o.ring = false → (run o n s es).code ≠ some 1 → sumTo n (toCome (fun h => h.complete && !h.good) s es) = 0 ∨ (run o n s es).code = none)
  | [], s, hc => by simp [run, hc]
  | e :: es, s, hc => by
    simp only [run]
    rw [toCome_step _ o n s hc e es]
    have key : (step o n s e).code = some 1 → o.verify = true ∧ o.ring = false ∧ gain (fun h => h.complete && !h.good) n s e = 1 := by
      intro h1
      cases e with
      | heap i h =>
        simp only [step] at h1
        split at h1
        · rw [hc] at h1; cases h1
        · rename_i hn
          rw [onHeap_code o s hc] at h1
          split at h1
          · rename_i hh
            have hx : s.stopped i = false := by
              cases hb : s.stopped i with
              | false => rfl
              | true => exact absurd (Or.inr (Or.inr hb)) hn
            have hy : i < n := by
              apply Nat.lt_of_not_le
              intro hle; exact hn (Or.inr (Or.inl hle))
            simp only [Bool.and_eq_true, Bool.not_eq_true'] at hh
            refine ⟨hh.2.1.2, hh.2.1.1, ?_⟩
            simp only [gain]
            rw [if_pos ⟨hx, hy, by rw [hh.1, hh.2.2]; rfl⟩]
          · cases h1
      | stop i =>
        simp only [step] at h1
        split at h1
        · rw [hc] at h1; cases h1
        · simp only [onStop] at h1
          split at h1
          · cases h1
          · simp only at h1; rw [hc] at h1; cases h1
    have key2 : o.verify = true → o.ring = false → (step o n s e).code ≠ some 1 → gain (fun h => h.complete && !h.good) n s e = 0 := by
      intro hv hr h1
      cases e with
      | stop i => rfl
      | heap i h =>
        simp only [gain]
        split
        · rename_i hg
          exfalso
          apply h1
          simp only [step]
          rw [if_neg (by rw [hc, hg.1]; simp; omega), onHeap_code o s hc]
          have := hg.2.2
          simp only [Bool.and_eq_true, Bool.not_eq_true'] at this
          rw [this.1, this.2, hv, hr]; rfl
        · rfl
    cases hs : (step o n s e).code with
    | none =>
      obtain ⟨i1, i2⟩ := run_bad o n es _ hs
      refine ⟨?_, ?_⟩
      · intro h1
        obtain ⟨a, b, c⟩ := i1 h1
        exact ⟨a, b, by omega⟩
      · intro hv hr h1
        rcases i2 hv hr h1 with h | h
        · left; rw [key2 hv hr (by rw [hs]; simp), h]
        · exact Or.inr h
    | some k =>
      have hd := run_done o n (step o n s e) (by rw [hs]; rfl) es
      rw [hd]
      refine ⟨?_, ?_⟩
      · intro h1
        obtain ⟨a, b, c⟩ := key h1
        exact ⟨a, b, by omega⟩
      · intro hv hr h1
        left
        rw [key2 hv hr h1]
        have h0 : (step o n s e).code = some 0 := by
          cases e with
          | heap i h =>
            simp only [step] at hs h1 ⊢
            split at hs
            · rw [hc] at hs; cases hs
            · rename_i hn
              rw [if_neg hn, onHeap_code o s hc] at h1
              rw [onHeap_code o s hc] at hs
              split at hs
              · rename_i hh; rw [if_pos hh] at h1; exact absurd rfl h1
              · cases hs
          | stop i =>
            simp only [step] at hs ⊢
            split at hs
            · rw [hc] at hs; cases hs
            · rename_i hn
              rw [if_neg hn]
              simp only [onStop] at hs ⊢
              split at hs
              · rename_i ha; rw [if_pos ha]
              · simp only at hs; rw [hc] at hs; cases hs
        obtain ⟨hst, _⟩ := step_end o n s hc e h0
        rw [Nat.zero_add]
        apply sumTo_zero
        intro i hi
        simp only [toCome, hst i hi, if_true]

theorem run_codes (o : Opts) (n : Nat) : ∀ (es : List Ev) (s : St), s.code = none → (∃ i < n, s.stopped i = false) →
    ((run o n s es).code = some 0 ∨ (run o n s es).code = some 1 ∨ ((run o n s es).code = none ∧ ∃ i < n, s.stopped i = false ∧ Ev.stop i ∉ es))
  | [], s, hc, ⟨i, hi, hs⟩ => Or.inr (Or.inr ⟨hc, i, hi, hs, List.not_mem_nil⟩)
  | e :: es, s, hc, hex => by
    simp only [run]
    cases e with
    | heap i h =>
      have hst : (step o n s (.heap i h)).stopped = s.stopped := by
        simp only [step]; split
        · rfl
        · exact onHeap_stopped o s i h
      have hcode : (step o n s (.heap i h)).code = none ∨ (step o n s (.heap i h)).code = some 1 := by
        simp only [step]; split
        · exact Or.inl hc
        · rw [onHeap_code o s hc]; split
          · exact Or.inr rfl
          · exact Or.inl rfl
      rcases hcode with hcode | hcode
      · rcases run_codes o n es _ hcode (by rw [hst]; exact hex) with h | h | ⟨h, j, hj, h2, h3⟩
        · exact Or.inl h
        · exact Or.inr (Or.inl h)
        · rw [hst] at h2
          exact Or.inr (Or.inr ⟨h, j, hj, h2, by simp [h3]⟩)
      · rw [run_done o n _ (by rw [hcode]; rfl)]
        exact Or.inr (Or.inl hcode)
    | stop i =>
      by_cases hg : n ≤ i ∨ s.stopped i = true
      · have hst : step o n s (.stop i) = s := by simp only [step]; rw [if_pos (Or.inr hg)]
        rw [hst]
        rcases run_codes o n es s hc hex with h | h | ⟨h, j, hj, h2, h3⟩
        · exact Or.inl h
        · exact Or.inr (Or.inl h)
        · refine Or.inr (Or.inr ⟨h, j, hj, h2, ?_⟩)
          intro hm
          rcases List.mem_cons.mp hm with e | e
          · have : j = i := by simpa using e
            subst this
            rcases hg with hg | hg
            · omega
            · rw [hg] at h2; cases h2
          · exact h3 e
      · have hst : step o n s (.stop i) = onStop n s i := by
          simp only [step]; rw [if_neg (by rw [hc]; simpa using hg)]
        have hss := onStop_stopped n s i
        rw [hst]
        by_cases ha : (List.range n).all (fun j => if j = i then true else s.stopped j) = true
        · have : (onStop n s i).code = some 0 := by
            simp only [onStop]; rw [if_pos ha]
          rw [run_done o n _ (by rw [this]; rfl)]
          exact Or.inl this
        · have hcode : (onStop n s i).code = none := by
            simp only [onStop]; rw [if_neg ha]; exact hc
          have hex' : ∃ j < n, (onStop n s i).stopped j = false := by
            rw [hss]
            rw [List.all_eq_true] at ha
            apply Classical.byContradiction
            intro hno
            apply ha
            intro j hj
            apply Classical.byContradiction
            intro hj'
            exact hno ⟨j, List.mem_range.mp hj, Bool.eq_false_iff.mpr hj'⟩
          rcases run_codes o n es _ hcode hex' with h | h | ⟨h, j, hj, h2, h3⟩
          · exact Or.inl h
          · exact Or.inr (Or.inl h)
          · rw [hss] at h2
            simp only at h2
            by_cases hji : j = i
            · rw [if_pos hji] at h2; cases h2
            · rw [if_neg hji] at h2
              refine Or.inr (Or.inr ⟨h, j, hj, h2, ?_⟩)
              intro hm
              rcases List.mem_cons.mp hm with e | e
              · have : j = i := by simpa using e
                exact hji this
              · exact h3 e

theorem complete_count (n : Nat) (es : List Ev) (p : HeapIn → Bool) :
    (completeHeaps n es).countP p = sumTo n (toCome (fun h => h.complete && p h) {} es) := by
  unfold completeHeaps sumTo
  induction List.range n with
  | nil => rfl
  | cons i l ih =>
    rw [List.flatMap_cons, List.countP_append, ih, List.map_cons, List.sum_cons]
    congr 1
    simp only [toCome, Bool.false_eq_true, if_false]
    rw [List.countP_filter, List.countP_eq_length_filter]
    congr 2
    funext h
    exact Bool.and_comm _ _

theorem complete_length (n : Nat) (es : List Ev) : (completeHeaps n es).length = sumTo n (toCome (fun h => h.complete) {} es) := by
  have := complete_count n es (fun _ => true)
  simp only [Bool.and_true] at this
  rw [← this, List.countP_true]

theorem main_eq (o : Opts) (k : Nat) (es : List Ev) :
    main o k es = if o.joint = false ∧ 1 < k ∧ o.ring = true then { code := some 2 } else run o (numStreams o k) {} es := by
  unfold main streams numStreams
  cases hj : o.joint with
  | true => simp
  | false =>
    by_cases h : 1 < k ∧ o.ring = true
    · simp [h]
    · simp [h]

/-- **C106.** Every source goes to exactly one stream: all to one with `--joint`, else each to its own; only several streams with `--ring` are refused. -/
theorem C106_streams (o : Opts) (k : Nat) :
    (∀ l, streams o k = some l → l.flatten = List.range k ∧ l.length = (if o.joint then 1 else k)) ∧
    (streams o k = none ↔ o.joint = false ∧ 1 < k ∧ o.ring = true) := by
  unfold streams
  cases hj : o.joint with
  | true =>
    simp only [if_true]
    refine ⟨?_, by simp⟩
    intro l hl
    rw [← Option.some.inj hl]
    simp
  | false =>
    simp only [Bool.false_eq_true, if_false]
    by_cases h : 1 < k ∧ o.ring = true
    · rw [if_pos h]; simp [h]
    · rw [if_neg h]
      refine ⟨?_, by simpa using h⟩
      intro l hl
      rw [← Option.some.inj hl]
      refine ⟨?_, by simp⟩
      generalize List.range k = r
      induction r with
      | nil => rfl
      | cons x r ih => rw [List.map_cons, List.flatten_cons, ih]; rfl

/-- **C106.** If spead2_recv ends well, the total it prints last is the number of complete heaps that all its streams passed on before they stopped, and, unless it is quiet, it has shown each of them once. -/
theorem C106_total (o : Opts) (k : Nat) (es : List Ev) (h0 : (main o k es).code = some 0) :
    (main o k es).out.getLast? = some (.total (completeHeaps (numStreams o k) es).length) ∧
    (o.quiet = false → ∀ c, (main o k es).out.count (.received c) = (completeHeaps (numStreams o k) es).countP (fun h => h.cnt == c)) ∧
    (o.quiet = true → ∀ c, Line.received c ∉ (main o k es).out) := by
  rw [main_eq] at h0 ⊢
  split at h0
  · cases h0
  · rename_i hn
    rw [if_neg hn]
    obtain ⟨⟨init, h1⟩, h2, h3⟩ := run_total o (numStreams o k) es {} rfl h0
    refine ⟨?_, ?_, ?_⟩
    · rw [h1, List.getLast?_concat, complete_length]
      have : sumTo (numStreams o k) ({} : St).count = 0 := sumTo_zero _ _ (fun _ _ => rfl)
      rw [this, Nat.zero_add]
    · intro hq c
      rw [h2 hq c, complete_count]
      exact Nat.zero_add _
    · intro hq c
      rw [← List.count_eq_zero, h3 hq c]
      rfl

/-- **C106.** It ends once all streams have stopped, whatever they passed on, and not before (unless verification fails). -/
theorem C106_ends (o : Opts) (k : Nat) (hk : 0 < k) (es : List Ev) (hr : ¬ (o.joint = false ∧ 1 < k ∧ o.ring = true)) :
    (AllStop (numStreams o k) es → (main o k es).code = some 0 ∨ (main o k es).code = some 1) ∧
    ((main o k es).code = some 0 → AllStop (numStreams o k) es) := by
  rw [main_eq, if_neg hr]
  have hn : 0 < numStreams o k := by unfold numStreams; split <;> omega
  constructor
  · intro ha
    rcases run_codes o _ es {} rfl ⟨0, hn, rfl⟩ with h | h | ⟨_, i, hi, _, h3⟩
    · exact Or.inl h
    · exact Or.inr h
    · exact absurd (ha i hi) h3
  · intro h0 i hi
    have key : ∀ (es : List Ev) (s : St), s.code = none → (run o (numStreams o k) s es).code = some 0 → s.stopped i = true ∨ Ev.stop i ∈ es := by
      intro es
      induction es with
      | nil => intro s hc h; simp only [run] at h; rw [hc] at h; cases h
      | cons e es ih =>
        intro s hc h
        simp only [run] at h
        have back : (step o (numStreams o k) s e).stopped i = true → s.stopped i = true ∨ Ev.stop i ∈ e :: es := by
          intro hx
          cases e with
          | heap j hh =>
            left
            simp only [step] at hx
            split at hx
            · exact hx
            · rw [onHeap_stopped] at hx; exact hx
          | stop j =>
            simp only [step] at hx
            split at hx
            · exact Or.inl hx
            · rw [onStop_stopped] at hx
              by_cases hij : i = j
              · right; rw [hij]; exact List.mem_cons_self
              · left; simpa [hij] using hx
        cases hs : (step o (numStreams o k) s e).code with
        | none =>
          rcases ih _ hs h with hx | hx
          · exact back hx
          · exact Or.inr (List.mem_cons_of_mem _ hx)
        | some c =>
          rw [run_done o _ _ (by rw [hs]; rfl)] at h
          exact back ((step_end o _ s hc e h).1 i hi)
    rcases key es {} rfl h0 with h | h
    · cases h
    · exact h

/-- The full property: with `--verify`, success means that every complete heap was good. -/
def C106_statement : Prop :=
  ∀ (o : Opts) (k : Nat) (es : List Ev), o.verify = true → (main o k es).code = some 0 → ∀ h ∈ completeHeaps (numStreams o k) es, h.good = true

/-- `--verify --ring` verifies nothing. -/
theorem C106_violated : ¬ C106_statement := by
  intro h
  have := h { verify := true, ring := true } 1 [.heap 0 ⟨1, true, false⟩, .stop 0] rfl rfl ⟨1, true, false⟩ (by decide)
  cases this

/-- **C106.** With `--ring` the outcome does not depend on what is in the heaps. -/
theorem C106_ring (o : Opts) (hr : o.ring = true) (k : Nat) (es : List Ev) : (main o k es).code ≠ some 1 := by
  rw [main_eq]
  split
  · simp
  · intro h
    have := ((run_bad o _ es {} rfl).1 h).2.1
    rw [hr] at this; cases this

/-- **C106.** Without `--ring` it holds; and the tool fails only if some complete heap is bad and it was asked to verify. -/
theorem C106_partial (o : Opts) (k : Nat) (es : List Ev) :
    (o.verify = true → o.ring = false → (main o k es).code = some 0 → ∀ h ∈ completeHeaps (numStreams o k) es, h.good = true) ∧
    ((main o k es).code = some 1 → o.verify = true ∧ ∃ h ∈ completeHeaps (numStreams o k) es, h.good = false) := by
  rw [main_eq]
  constructor
  · intro hv hr h0 h hh
    rw [if_neg (by rw [hr]; simp)] at h0
    have h1 := ((run_bad o (numStreams o k) es {} rfl).2 hv hr (by rw [h0]; simp)).resolve_right (by rw [h0]; simp)
    have h2 := complete_count (numStreams o k) es (fun h => !h.good)
    rw [h1, List.countP_eq_zero] at h2
    have := h2 h hh
    simpa using this
  · intro h1
    split at h1
    · cases h1
    · obtain ⟨hv, _, hp⟩ := (run_bad o (numStreams o k) es {} rfl).1 h1
      refine ⟨hv, ?_⟩
      rw [← complete_count (numStreams o k) es (fun h => !h.good), List.countP_pos_iff] at hp
      obtain ⟨h, hm, hg⟩ := hp
      exact ⟨h, hm, by simpa using hg⟩

/-! ## Output by several threads -/

theorem render_items (ts : List Tok) : ∀ items : List ItemOut,
    render false (items.flatMap itemToks ++ ts) =
      (items.flatMap fun x => (x.id, true) :: (x.length, false) :: (match x.imm with | some v => [(v, true)] | none => [])) ++ render false ts
  | [] => rfl
  | x :: xs => by
    rw [List.flatMap_cons, List.flatMap_cons, List.append_assoc]
    have ih := render_items ts xs
    unfold itemToks
    cases x.imm with
    | none =>
      simp only [List.append_nil, List.cons_append, List.nil_append, render]
      rw [← ih]; rfl
    | some v =>
      simp only [List.cons_append, List.nil_append, render]
      rw [← ih]; rfl

/-- **C106.** One heap after the other is shown as it should be. -/
theorem C106_serial : ∀ hs : List (Nat × List ItemOut), render false (hs.flatMap fun h => showToks h.1 h.2) = hs.flatMap fun h => intended h.1 h.2
  | [] => rfl
  | h :: hs => by
    rw [List.flatMap_cons, List.flatMap_cons, ← C106_serial hs]
    simp only [showToks, List.cons_append, render, intended]
    rw [render_items]
    rfl

/-- **C106.** Two threads (`--threads 2` with two sources) can print the number of a heap in hexadecimal. -/
theorem C106_threads : ∃ c, Shuffle (showToks 10 [⟨0x1000, 8, none⟩]) (showToks 11 []) c ∧ (11, true) ∈ render false c ∧ (11, false) ∉ render false c := by
  refine ⟨[.num 10, .hex, .num 11, .num 0x1000, .dec, .num 8], ?_, by decide, by decide⟩
  exact .left (.left (.right (.left (.left (.left .nil)))))

/-! ## recv_asyncio.py -/

theorem pyHeap_got (o : PyOpts) (g : List Nat) (h : PyHeap) :
    (pyHeap o g h).2.filter PyLine.isGot = [.got h.cnt] ∧ (pyHeap o g h).2.filter PyLine.isSummary = [] := by
  have hd : ∀ ds, (showDescs ds).1.filter PyLine.isGot = [] ∧ (showDescs ds).1.filter PyLine.isSummary = [] := by
    intro ds
    induction ds with
    | nil => exact ⟨rfl, rfl⟩
    | cons d ds ih =>
      obtain ⟨i, ok⟩ := d
      simp only [showDescs]
      cases ok
      · exact ⟨rfl, rfl⟩
      · exact ih
  have hi : ∀ l : List Nat, (l.map PyLine.item).filter PyLine.isGot = [] ∧ (l.map PyLine.item).filter PyLine.isSummary = [] := by
    intro l
    induction l with
    | nil => exact ⟨rfl, rfl⟩
    | cons x l ih => exact ih
  have hx : (if o.descriptors then showDescs h.descs else ([], true)).1.filter PyLine.isGot = [] ∧
      (if o.descriptors then showDescs h.descs else ([], true)).1.filter PyLine.isSummary = [] := by
    split
    · exact hd _
    · exact ⟨rfl, rfl⟩
  simp only [pyHeap]
  generalize (if o.descriptors then showDescs h.descs else ([], true)) = d at hx
  have e1 : ∀ t : List PyLine, t.filter PyLine.isGot = [] → (PyLine.got h.cnt :: d.1 ++ t).filter PyLine.isGot = [.got h.cnt] := by
    intro t ht
    rw [List.filter_append, ht, List.append_nil, List.filter_cons, if_pos (by rfl), hx.1]
  have e2 : ∀ t : List PyLine, t.filter PyLine.isSummary = [] → (PyLine.got h.cnt :: d.1 ++ t).filter PyLine.isSummary = [] := by
    intro t ht
    rw [List.filter_append, ht, List.append_nil, List.filter_cons, if_neg (by simp [PyLine.isSummary]), hx.2]
  split
  · split
    · exact ⟨e1 _ rfl, e2 _ rfl⟩
    · exact ⟨e1 _ (hi _).1, e2 _ (hi _).2⟩
  · exact ⟨e1 _ rfl, e2 _ rfl⟩

/-- The heaps still to be taken when `num` have been. -/
def wantedFrom (o : PyOpts) (num : Nat) (es : List PyEv) : List PyHeap :=
  match o.maxHeaps with
  | some m => if (num : Int) ≤ m then (heapsOf es).take (m - num).toNat else heapsOf es
  | none => heapsOf es

theorem runStream_spec (o : PyOpts) : ∀ (es : List PyEv) (g : List Nat) (num : Nat),
    (runStream o g num es).lines.filter PyLine.isGot = (wantedFrom o num es).map (fun h => PyLine.got h.cnt) ∧
    (runStream o g num es).taken = num + (wantedFrom o num es).length ∧
    ((runStream o g num es).ended = true ↔ o.maxHeaps = some ((num + (wantedFrom o num es).length : Nat) : Int) ∨ PyEv.stopped ∈ es) ∧
    (runStream o g num es).lines.filter PyLine.isSummary =
      (if PyEv.stopped ∈ es ∧ o.maxHeaps ≠ some ((num + (wantedFrom o num es).length : Nat) : Int) then [.summary (num + (wantedFrom o num es).length)] else []) := by
  intro es
  induction es with
  | nil =>
    intro g num
    have hw : wantedFrom o num [] = [] := by
      simp only [wantedFrom, heapsOf]
      split
      · split <;> simp
      · rfl
    rw [hw]
    unfold runStream
    by_cases hm : o.maxHeaps = some (num : Int)
    · simp [hm]
    · simp [hm]
  | cons e es ih =>
    intro g num
    by_cases hm : o.maxHeaps = some (num : Int)
    · have hw : wantedFrom o num (e :: es) = [] := by
        simp only [wantedFrom, hm]
        simp
      rw [hw]
      unfold runStream
      simp [hm]
    · cases e with
      | stopped =>
        have hw : wantedFrom o num (.stopped :: es) = [] := by
          simp only [wantedFrom, heapsOf]
          split
          · split <;> simp
          · rfl
        rw [hw]
        unfold runStream
        simp [hm, PyLine.isGot, PyLine.isSummary]
      | heap h =>
        have hw : wantedFrom o num (.heap h :: es) = h :: wantedFrom o (num + 1) es := by
          simp only [wantedFrom, heapsOf]
          cases hx : o.maxHeaps with
          | none => rfl
          | some m =>
            have hne : m ≠ (num : Int) := by
              intro e; apply hm; rw [hx, e]
            simp only
            by_cases hle : (num : Int) ≤ m
            · rw [if_pos hle, if_pos (by omega)]
              have : (m - (num : Int)).toNat = (m - ((num + 1 : Nat) : Int)).toNat + 1 := by omega
              rw [this, List.take_succ_cons]
            · rw [if_neg hle, if_neg (by omega)]
        obtain ⟨i1, i2, i3, i4⟩ := ih (pyHeap o g h).1 (num + 1)
        obtain ⟨p1, p2⟩ := pyHeap_got o g h
        have hr : runStream o g num (.heap h :: es) =
            ⟨(pyHeap o g h).2 ++ (runStream o (pyHeap o g h).1 (num + 1) es).lines, (runStream o (pyHeap o g h).1 (num + 1) es).taken, (runStream o (pyHeap o g h).1 (num + 1) es).ended⟩ := by
          rw [runStream, if_neg hm]
        have hlen : num + (h :: wantedFrom o (num + 1) es).length = num + 1 + (wantedFrom o (num + 1) es).length := by
          rw [List.length_cons]; omega
        have hmem : (PyEv.stopped ∈ PyEv.heap h :: es) ↔ PyEv.stopped ∈ es := by simp
        rw [hr, hw, hlen]
        refine ⟨?_, i2, ?_, ?_⟩
        · simp only
          rw [List.filter_append, p1, i1]; rfl
        · rw [hmem]; exact i3
        · simp only [hmem]
          rw [List.filter_append, p2, i4]; rfl

/-- **C106.** recv_asyncio.py takes each heap once, in order, up to `--max-heaps`, whatever is wrong with them; it stops its stream once it has that many or the stream has ended; the summary with the number of heaps comes in the second case only. -/
theorem C106_py (o : PyOpts) (g : List Nat) (es : List PyEv) :
    (runStream o g 0 es).lines.filter PyLine.isGot = (wantedHeaps o es).map (fun h => PyLine.got h.cnt) ∧
    (runStream o g 0 es).taken = (wantedHeaps o es).length ∧
    ((runStream o g 0 es).ended = true ↔ o.maxHeaps = some ((wantedHeaps o es).length : Int) ∨ PyEv.stopped ∈ es) ∧
    (runStream o g 0 es).lines.filter PyLine.isSummary =
      (if PyEv.stopped ∈ es ∧ o.maxHeaps ≠ some ((wantedHeaps o es).length : Int) then [.summary (wantedHeaps o es).length] else []) := by
  have hw : wantedFrom o 0 es = wantedHeaps o es := by
    unfold wantedFrom wantedHeaps
    cases o.maxHeaps with
    | none => rfl
    | some m => simp
  have := runStream_spec o es g 0
  rw [hw, Nat.zero_add] at this
  exact this

/-- Showing descriptors adds lines and changes no others. -/
def C106_descriptors_statement : Prop :=
  ∀ (m : Option Int) (g : List Nat) (es : List PyEv),
    (runStream { descriptors := true, maxHeaps := m } g 0 es).lines.filter (fun l => !l.isDescr) = (runStream { descriptors := false, maxHeaps := m } g 0 es).lines

/-- A heap with a good and a bad descriptor: with `--descriptors` the good one is lost, and so are the items of later heaps. -/
theorem C106_descriptors_violated : ¬ C106_descriptors_statement := by
  intro h
  have := h none [] [.heap ⟨1, [(0x1000, true), (0x1001, false)], []⟩, .heap ⟨2, [], [(0x1000, true)]⟩]
  simp [runStream, pyHeap, showDescs, update, addDescs, setItems, PyLine.isDescr] at this

theorem showDescs_good (ds : List (Nat × Bool)) (h : ∀ d ∈ ds, d.2 = true) : (showDescs ds).2 = true ∧ (showDescs ds).1.filter (fun l => !l.isDescr) = [] := by
  induction ds with
  | nil => exact ⟨rfl, rfl⟩
  | cons d ds ih =>
    obtain ⟨i, ok⟩ := d
    have : ok = true := h (i, ok) List.mem_cons_self
    subst this
    exact ih (fun d hd => h d (List.mem_cons_of_mem _ hd))

/-- **C106.** It does so as long as every descriptor is good. -/
theorem C106_descriptors_partial (m : Option Int) (es : List PyEv) (hg : ∀ h, PyEv.heap h ∈ es → ∀ d ∈ h.descs, d.2 = true) (g : List Nat) (num : Nat) :
    (runStream { descriptors := true, maxHeaps := m } g num es).lines.filter (fun l => !l.isDescr) = (runStream { descriptors := false, maxHeaps := m } g num es).lines := by
  induction es generalizing g num with
  | nil =>
    unfold runStream
    by_cases hm : m = some (num : Int)
    · simp [hm]
    · simp [hm]
  | cons e es ih =>
    unfold runStream
    by_cases hm : m = some (num : Int)
    · simp [hm]
    · simp only [hm, if_false]
      cases e with
      | stopped => rfl
      | heap h =>
        obtain ⟨d1, d2⟩ := showDescs_good h.descs (hg h List.mem_cons_self)
        have hi : ∀ l : List Nat, (l.map PyLine.item).filter (fun l => !l.isDescr) = l.map PyLine.item := by
          intro l
          induction l with
          | nil => rfl
          | cons x l ih => rw [List.map_cons, List.filter_cons, if_pos (by rfl), ih]
        have hp : (pyHeap { descriptors := true, maxHeaps := m } g h).1 = (pyHeap { descriptors := false, maxHeaps := m } g h).1 ∧
            (pyHeap { descriptors := true, maxHeaps := m } g h).2.filter (fun l => !l.isDescr) = (pyHeap { descriptors := false, maxHeaps := m } g h).2 := by
          simp only [pyHeap, d1, if_true, Bool.false_eq_true, if_false]
          cases hu : update g h with
          | mk g' r =>
            cases r with
            | none =>
              refine ⟨rfl, ?_⟩
              simp only [List.cons_append, List.nil_append]
              rw [List.filter_cons, if_pos (by rfl), List.filter_append, d2]; rfl
            | some l =>
              refine ⟨rfl, ?_⟩
              simp only [List.cons_append, List.nil_append]
              rw [List.filter_cons, if_pos (by rfl), List.filter_append, d2, hi]; rfl
        simp only
        rw [List.filter_append, hp.2, hp.1, ih (fun x hx => hg x (List.mem_cons_of_mem _ hx))]

/-! ## Concrete cases -/

/-- Two streams with a good, an incomplete and a good heap. -/
example : (main {} 2 [.heap 0 ⟨1, true, true⟩, .heap 1 ⟨7, false, true⟩, .stop 1, .heap 0 ⟨2, true, true⟩, .stop 0]).code = some 0 ∧
    (main {} 2 [.heap 0 ⟨1, true, true⟩, .heap 1 ⟨7, false, true⟩, .stop 1, .heap 0 ⟨2, true, true⟩, .stop 0]).out =
      [.received 1, .discarding 7, .received 2, .total 2] := ⟨rfl, rfl⟩

/-- A bad heap. -/
example : (main { verify := true } 1 [.heap 0 ⟨1, true, false⟩, .stop 0]).code = some 1 := rfl

/-- Several streams with a ring. -/
example : (main { ring := true } 2 []).code = some 2 := rfl

/-- Two of three heaps, the first with a bad item. -/
example : runStream { maxHeaps := some 2 } [] 0 [.heap ⟨1, [(0x1000, true)], [(0x1000, false)]⟩, .heap ⟨2, [], [(0x1000, true)]⟩, .heap ⟨3, [], []⟩] =
    ⟨[.got 1, .error, .got 2, .item 0x1000], 2, true⟩ := by
  simp [runStream, pyHeap, update, addDescs, setItems]

theorem addDescs_bad (before after : List (Nat × Bool)) (i : Nat) (hb : ∀ d ∈ before, d.2 = true) (g : List Nat) :
    addDescs g (before ++ (i, false) :: after) = ((before.map (·.1)).reverse ++ g, false) := by
  induction before generalizing g with
  | nil => rfl
  | cons d ds ih =>
    obtain ⟨j, ok⟩ := d
    have : ok = true := hb (j, ok) List.mem_cons_self
    subst this
    simp only [List.cons_append, addDescs, if_true]
    rw [ih (fun d hd => hb d (List.mem_cons_of_mem _ hd))]
    simp

theorem showDescs_bad (before after : List (Nat × Bool)) (i : Nat) (hb : ∀ d ∈ before, d.2 = true) :
    showDescs (before ++ (i, false) :: after) = (before.map fun d => .descr d.1, false) := by
  induction before with
  | nil => rfl
  | cons d ds ih =>
    obtain ⟨j, ok⟩ := d
    have : ok = true := hb (j, ok) List.mem_cons_self
    subst this
    simp only [List.cons_append, showDescs, if_true]
    rw [ih (fun d hd => hb d (List.mem_cons_of_mem _ hd))]
    rfl

/-- **C106.** A heap with a bad descriptor is reported with an error and none of its items. Without --descriptors the item group has the descriptors before the bad one and not those after it; with --descriptors they are shown and the item group has none of them. -/
theorem C106_bad (o : PyOpts) (g : List Nat) (cnt : Nat) (before after items : List (Nat × Bool)) (i : Nat) (hb : ∀ d ∈ before, d.2 = true) :
    pyHeap o g ⟨cnt, before ++ (i, false) :: after, items⟩ =
      if o.descriptors then (g, .got cnt :: (before.map fun d => PyLine.descr d.1) ++ [.error])
      else ((before.map (·.1)).reverse ++ g, [.got cnt, .error]) := by
  unfold pyHeap update
  simp only [addDescs_bad before after i hb g, showDescs_bad before after i hb]
  rcases Bool.eq_false_or_eq_true o.descriptors with h | h
  · simp [h]
  · simp [h]

/-- The items of the descriptors before the bad one are shown with the next heap, the one after it is not known. -/
example : pyHeap {} [] ⟨1, [(7, true), (8, false), (9, true)], [(7, true)]⟩ = ([7], [.got 1, .error]) ∧
    pyHeap {} [7] ⟨2, [], [(7, true), (9, true)]⟩ = ([7], [.got 2, .item 7]) := ⟨rfl, rfl⟩

end Spead2.RecvTool
