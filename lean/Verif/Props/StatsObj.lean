import Verif.Lemmas.StatsObj

/-!
# C111: statistics objects are independent tables
-/

namespace Spead2.StatsObj

/-- One operation. -/
theorem step_expect {m : Mem} {t t' : Tables} (h : Rel m t) (op : Op) (res : Res) (he : expect false t op = some (t', res)) : ∃ m', step m op = some (m', res) ∧ Rel m' t' := by
  cases op with
  | make custom =>
    simp only [expect] at he
    split at he
    · rename_i hn
      simp only [Option.some.injEq, Prod.mk.injEq] at he
      obtain ⟨rfl, rfl⟩ := he
      obtain ⟨m', h1, h2⟩ := h.construct (cu := custom) (vs := List.replicate (defaultStats ++ custom).length 0) List.length_replicate hn
      rw [zipRows_zero] at h2
      exact ⟨m', by simp only [step, h1, Option.map_some], h2⟩
    · cases he
  | copy a =>
    simp only [expect, Option.map_eq_some_iff, Prod.mk.injEq] at he
    obtain ⟨r, hr, rfl, rfl⟩ := he
    obtain ⟨_, cu, vs, b, x1, x2, x3, rfl, x5, x6⟩ := h.rows hr
    obtain ⟨m', h1, h2⟩ := h.construct x3 x5
    exact ⟨m', by simp [step, x1, Mem.vals, x2, h1], h2⟩
  | move a =>
    simp only [expect, Option.map_eq_some_iff, Prod.mk.injEq] at he
    obtain ⟨r, hr, rfl, rfl⟩ := he
    obtain ⟨hlive, cu, vs, b, x1, x2, x3, rfl, x5, x6⟩ := h.rows hr
    have ha : a < m.next := by
      rcases Nat.lt_or_ge a m.next with x | x
      · exact x
      · rw [h.gone a (h.fresh a x)] at x1; cases x1
    refine ⟨_, by simp only [step, x1, Option.bind_eq_bind, Option.bind_some]; rfl, ?_⟩
    refine ⟨by simp [h.next], ?_, ?_, ?_, ?_, ?_⟩
    · intro k r hk
      by_cases hkn : k = m.next
      · subst hkn
        rw [← h.next] at hk
        simp only [put_same, Option.some.injEq, Table.live.injEq] at hk
        exact ⟨cu, vs, b, put_same _ _ _, x2, x3, hk.symm, x5, Nat.lt_succ_of_lt x6⟩
      · rw [← h.next] at hk
        simp only [put_ne _ _ hkn] at hk
        by_cases hka : k = a
        · subst hka; rw [put_same] at hk; cases hk
        · rw [put_ne _ _ hka] at hk
          obtain ⟨cu', vs', b', y1, y2, y3, y4, y5, y6⟩ := h.live k r hk
          exact ⟨cu', vs', b', by simp only [put_ne _ _ hkn, put_ne _ _ hka]; exact y1, y2, y3, y4, y5, Nat.lt_succ_of_lt y6⟩
    · intro k hk
      rw [← h.next] at hk
      by_cases hkn : k = m.next
      · subst hkn; simp [put_same] at hk
      · simp only [put_ne _ _ hkn] at hk
        by_cases hka : k = a
        · subst hka; exact ⟨b, by simp only [put_ne _ _ hkn, put_same]⟩
        · rw [put_ne _ _ hka] at hk
          obtain ⟨r, e⟩ := h.moved k hk
          exact ⟨r, by simp only [put_ne _ _ hkn, put_ne _ _ hka]; exact e⟩
    · intro k hk
      rw [← h.next] at hk
      by_cases hkn : k = m.next
      · subst hkn; simp [put_same] at hk
      · simp only [put_ne _ _ hkn] at hk
        by_cases hka : k = a
        · subst hka; simp [put_same] at hk
        · rw [put_ne _ _ hka] at hk
          simp only [put_ne _ _ hkn, put_ne _ _ hka]; exact h.gone k hk
    · intro k hk
      have h1 : m.next + 1 ≤ k := hk
      rw [← h.next]
      simp only [put_ne _ _ (show k ≠ m.next by omega), put_ne _ _ (show k ≠ a by omega)]
      exact h.fresh k (by omega)
    · have key : ∀ k o b', put (put m.objs a (some ⟨none, none, b⟩)) m.next (some ⟨some (defaultStats ++ cu), some b, b⟩) k = some o → o.buf = some b' →
          (k = m.next ∧ b' = b) ∨ (k ≠ m.next ∧ k ≠ a ∧ m.objs k = some o) := by
        intro k o b' ho hb
        by_cases hkn : k = m.next
        · subst hkn; rw [put_same] at ho; cases ho; cases hb; exact Or.inl ⟨rfl, rfl⟩
        · rw [put_ne _ _ hkn] at ho
          by_cases hka : k = a
          · subst hka; rw [put_same] at ho; cases ho; cases hb
          · rw [put_ne _ _ hka] at ho; exact Or.inr ⟨hkn, hka, ho⟩
      intro k l o p b' ho hp hob hpb
      rcases key k o b' ho hob with ⟨e1, e2⟩ | ⟨_, e2, e3⟩ <;> rcases key l p b' hp hpb with ⟨f1, f2⟩ | ⟨_, f2, f3⟩
      · rw [e1, f1]
      · subst e2; exact absurd (h.own l a _ _ _ f3 x1 hpb rfl) f2
      · subst f2; exact absurd (h.own k a _ _ _ e3 x1 hob rfl) e2
      · exact h.own k l o p b' e3 f3 hob hpb
  | assign a b =>
    simp only [expect, Option.bind_eq_some_iff] at he
    obtain ⟨s, hs, he⟩ := he
    obtain ⟨_, cu', ws, b', y1, y2, y3, rfl, y5, y6⟩ := h.rows hs
    cases ho : t.objs a with
    | none => rw [ho] at he; cases he
    | some x =>
      cases x with
      | moved => rw [ho] at he; cases he
      | live r =>
        rw [ho] at he
        obtain ⟨cu, vs, b1, x1, x2, x3, rfl, x5, x6⟩ := h.live a r ho
        simp only [columns_zip _ _ x3, columns_zip _ _ y3, columns_inj] at he
        by_cases hc : defaultStats ++ cu = defaultStats ++ cu'
        · rw [if_pos hc] at he
          simp only [Option.some.injEq, Prod.mk.injEq] at he
          obtain ⟨rfl, rfl⟩ := he
          have hl : vs.length = ws.length := by rw [x3, y3, hc]
          refine ⟨{ m with bufs := put m.bufs b1 (some ws) }, by simp [step, x1, y1, sameConfig, Mem.vals, x2, y2, hc, assignLoop_eq vs ws hl, Mem.write], ?_⟩
          rw [← hc]
          exact h.write x1 (by rw [y3, hc]) x5 x6
        · rw [if_neg hc] at he
          simp only [Option.some.injEq, Prod.mk.injEq] at he
          obtain ⟨rfl, rfl⟩ := he
          have hb : ((defaultStats ++ cu) == (defaultStats ++ cu')) = false := beq_false_of_ne hc
          exact ⟨m, by simp only [step, x1, y1, sameConfig, hb, Option.bind_eq_bind, Option.bind_some]; rfl, h⟩
  | add a b =>
    simp only [expect, Option.bind_eq_some_iff, Option.map_eq_some_iff] at he
    obtain ⟨r, hr, s, hs, he⟩ := he
    obtain ⟨_, cu, vs, b1, x1, x2, x3, rfl, x5, x6⟩ := h.rows hr
    obtain ⟨_, cu', ws, b', y1, y2, y3, rfl, y5, y6⟩ := h.rows hs
    simp only [columns_zip _ _ x3, columns_zip _ _ y3, columns_inj] at he
    by_cases hc : defaultStats ++ cu = defaultStats ++ cu'
    · rw [if_pos hc] at he
      simp only [Prod.mk.injEq] at he
      obtain ⟨rfl, rfl⟩ := he
      obtain ⟨v, q1, q2, q3⟩ := addLoop_zip (defaultStats ++ cu) vs ws x3 (by rw [y3, hc])
      have hb : ((defaultStats ++ cu) == (defaultStats ++ cu')) = true := by rw [hc]; exact beq_self_eq_true _
      refine ⟨{ m with bufs := put m.bufs b1 (some v) }, ?_, ?_⟩
      · simp only [step, x1, y1, sameConfig, Option.bind_eq_bind, Option.bind_some, hb, ↓reduceIte, Mem.vals, x2, y2, Option.getD_some, q1, Mem.write]
      · rw [← hc, ← q3]
        exact h.write x1 q2 x5 x6
    · rw [if_neg hc] at he
      simp only [Prod.mk.injEq] at he
      obtain ⟨rfl, rfl⟩ := he
      have hb : ((defaultStats ++ cu) == (defaultStats ++ cu')) = false := beq_false_of_ne hc
      exact ⟨m, by simp only [step, x1, y1, sameConfig, hb, Option.bind_eq_bind, Option.bind_some]; rfl, h⟩
  | destroy a =>
    simp only [expect, Option.map_eq_some_iff, Prod.mk.injEq] at he
    obtain ⟨x, hx, rfl, rfl⟩ := he
    have main : ∀ (o : Obj) (bufs : Nat → Option (List UInt64)), m.objs a = some o → (∀ b, o.buf ≠ some b → bufs b = m.bufs b) →
        Rel { m with objs := put m.objs a none, bufs := bufs } { t with objs := put t.objs a none } := by
      intro o bufs ho hbufs
      refine ⟨h.next, ?_, ?_, ?_, ?_, ?_⟩
      · intro k r hk
        by_cases hka : k = a
        · subst hka; simp [put_same] at hk
        · simp only [put_ne _ _ hka] at hk
          obtain ⟨cu', vs', b', y1, y2, y3, y4, y5, y6⟩ := h.live k r hk
          exact ⟨cu', vs', b', by simp only [put_ne _ _ hka]; exact y1, by rw [← y2]; exact hbufs b' (fun e => hka (h.own k a _ _ b' y1 ho rfl e)), y3, y4, y5, y6⟩
      · intro k hk
        by_cases hka : k = a
        · subst hka; simp [put_same] at hk
        · simp only [put_ne _ _ hka] at hk
          obtain ⟨r, e⟩ := h.moved k hk
          exact ⟨r, by simp only [put_ne _ _ hka]; exact e⟩
      · intro k hk
        by_cases hka : k = a
        · subst hka; exact put_same _ _ _
        · simp only [put_ne _ _ hka] at hk ⊢; exact h.gone k hk
      · intro k hk
        by_cases hka : k = a
        · subst hka; exact put_same _ _ _
        · simp only [put_ne _ _ hka]; exact h.fresh k hk
      · intro k l o' p b hk hl
        simp only at hk hl
        by_cases hka : k = a
        · subst hka; rw [put_same] at hk; cases hk
        · by_cases hla : l = a
          · subst hla; rw [put_same] at hl; cases hl
          · rw [put_ne _ _ hka] at hk; rw [put_ne _ _ hla] at hl; exact h.own k l o' p b hk hl
    cases x with
    | moved =>
      obtain ⟨r, e⟩ := h.moved a hx
      exact ⟨_, by simp only [step, e, Option.bind_eq_bind, Option.bind_some], main _ m.bufs e (fun _ _ => rfl)⟩
    | live r =>
      obtain ⟨cu, vs, b, x1, _⟩ := h.live a r hx
      refine ⟨_, by simp only [step, x1, Option.bind_eq_bind, Option.bind_some], main _ (put m.bufs b none) x1 ?_⟩
      intro b' hb'
      exact put_ne _ _ (fun e => hb' (by rw [e]))
  | getIdx a i =>
    simp only [expect, Option.map_eq_some_iff, Prod.mk.injEq] at he
    obtain ⟨r, hr, rfl, rfl⟩ := he
    obtain ⟨_, cu, vs, b, x1, x2, x3, rfl, x5, x6⟩ := h.rows hr
    refine ⟨m, ?_, h⟩
    simp only [step, x1, Mem.vals, x2, Option.bind_eq_bind, Option.bind_some]
    rw [← zipRows_get _ vs x3 i]
    cases (zipRows (defaultStats ++ cu) vs)[i]? <;> rfl
  | setIdx a i v =>
    simp only [expect, Option.map_eq_some_iff] at he
    obtain ⟨r, hr, he⟩ := he
    obtain ⟨_, cu, vs, b, x1, x2, x3, rfl, x5, x6⟩ := h.rows hr
    have hg := zipRows_get _ vs x3 i
    cases hi : (zipRows (defaultStats ++ cu) vs)[i]? with
    | none =>
      rw [hi] at he hg
      simp only [Prod.mk.injEq] at he
      obtain ⟨rfl, rfl⟩ := he
      have hlt : ¬ i < vs.length := Nat.not_lt.mpr (List.getElem?_eq_none_iff.mp hg.symm)
      exact ⟨m, by simp only [step, x1, Mem.vals, x2, Option.bind_eq_bind, Option.bind_some, hlt, if_false], h⟩
    | some e =>
      rw [hi] at he hg
      simp only [Prod.mk.injEq] at he
      obtain ⟨rfl, rfl⟩ := he
      have hlt : i < vs.length := by
        rcases Nat.lt_or_ge i vs.length with x | x
        · exact x
        · rw [List.getElem?_eq_none_iff.mpr x] at hg; cases hg
      refine ⟨{ m with bufs := put m.bufs b (some (vs.set i v)) }, by simp only [step, x1, Mem.vals, x2, Option.bind_eq_bind, Option.bind_some, hlt, if_true, Mem.write], ?_⟩
      rw [zipRows_set _ vs x3 i e v hi]
      exact h.write x1 (by rw [List.length_set, x3]) x5 x6
  | getName a n =>
    simp only [expect, Option.map_eq_some_iff, Prod.mk.injEq] at he
    obtain ⟨r, hr, rfl, rfl⟩ := he
    obtain ⟨_, cu, vs, b, x1, x2, x3, rfl, x5, x6⟩ := h.rows hr
    refine ⟨m, ?_, h⟩
    have hle := statIndex_le' (defaultStats ++ cu) n
    simp only [step, x1, Mem.vals, x2, Option.bind_eq_bind, Option.bind_some, lookup_zip _ vs x3]
    by_cases hi : statIndex (defaultStats ++ cu) n = vs.length
    · rw [if_pos hi, List.getElem?_eq_none_iff.mpr (by omega)]
    · rw [if_neg hi, List.getElem?_eq_getElem (show statIndex (defaultStats ++ cu) n < vs.length by omega)]
      rfl
  | setName a n v =>
    simp only [expect, Option.map_eq_some_iff] at he
    obtain ⟨r, hr, he⟩ := he
    obtain ⟨_, cu, vs, b, x1, x2, x3, rfl, x5, x6⟩ := h.rows hr
    have hle := statIndex_le' (defaultStats ++ cu) n
    rw [lookup_zip _ vs x3] at he
    by_cases hi : statIndex (defaultStats ++ cu) n = vs.length
    · rw [List.getElem?_eq_none_iff.mpr (by omega)] at he
      simp only [Option.isSome_none, Bool.false_eq_true, if_false, Prod.mk.injEq] at he
      obtain ⟨rfl, rfl⟩ := he
      exact ⟨m, by simp only [step, x1, Mem.vals, x2, Option.bind_eq_bind, Option.bind_some, hi, if_true], h⟩
    · have hlt : statIndex (defaultStats ++ cu) n < vs.length := by omega
      rw [List.getElem?_eq_getElem hlt] at he
      simp only [Option.isSome_some, if_true, Prod.mk.injEq] at he
      obtain ⟨rfl, rfl⟩ := he
      refine ⟨{ m with bufs := put m.bufs b (some (vs.set (statIndex (defaultStats ++ cu) n) v)) }, ?_, ?_⟩
      · simp only [step, x1, Mem.vals, x2, Option.bind_eq_bind, Option.bind_some, hi, if_false, hlt, if_true, Mem.write]
      · rw [update_zip _ vs x3 x5]
        exact h.write x1 (by rw [List.length_set, x3]) x5 x6
  | getAttr a n =>
    simp only [expect, Option.map_eq_some_iff, Prod.mk.injEq] at he
    obtain ⟨r, hr, rfl, rfl⟩ := he
    obtain ⟨_, cu, vs, b, x1, x2, x3, rfl, x5, x6⟩ := h.rows hr
    refine ⟨m, ?_, h⟩
    cases hi : attrIndex n with
    | none => simp only [step, x1, hi, Option.bind_eq_bind, Option.bind_some, if_neg (attr_none n hi)]
    | some i =>
      obtain ⟨e1, e2, e3⟩ := attr_some n i hi cu
      have hlt : i < vs.length := by rw [x3, List.length_append]; simp only [defaultStats, List.length_cons, List.length_nil]; omega
      simp only [step, x1, hi, x2, Option.bind_eq_bind, Option.bind_some, if_pos e2, lookup_zip _ vs x3, e1, List.getElem?_eq_getElem hlt]
  | setAttr a n v =>
    simp only [expect, Option.map_eq_some_iff] at he
    obtain ⟨r, hr, he⟩ := he
    obtain ⟨_, cu, vs, b, x1, x2, x3, rfl, x5, x6⟩ := h.rows hr
    cases hi : attrIndex n with
    | none =>
      rw [if_neg (attr_none n hi)] at he
      simp only [Prod.mk.injEq] at he
      obtain ⟨rfl, rfl⟩ := he
      exact ⟨m, by simp only [step, x1, hi, Option.bind_eq_bind, Option.bind_some], h⟩
    | some i =>
      obtain ⟨e1, e2, e3⟩ := attr_some n i hi cu
      have hlt : i < vs.length := by rw [x3, List.length_append]; simp only [defaultStats, List.length_cons, List.length_nil]; omega
      rw [if_pos e2] at he
      simp only [Prod.mk.injEq] at he
      obtain ⟨rfl, rfl⟩ := he
      refine ⟨{ m with bufs := put m.bufs b (some (vs.set i v)) }, by simp only [step, x1, hi, x2, Option.bind_eq_bind, Option.bind_some, hlt, if_true], ?_⟩
      rw [update_zip _ vs x3 x5, e1]
      exact h.write x1 (by rw [List.length_set, x3]) x5 x6
  | items a =>
    simp only [expect, Option.map_eq_some_iff, Prod.mk.injEq] at he
    obtain ⟨r, hr, rfl, rfl⟩ := he
    obtain ⟨_, cu, vs, b, x1, x2, x3, rfl, x5, x6⟩ := h.rows hr
    exact ⟨m, by simp only [step, x1, Mem.vals, x2, Option.bind_eq_bind, Option.bind_some, itemsLoop_eq _ vs x3], h⟩

theorem run_expect (ops : List Op) : ∀ (rs : List Res) (m : Mem) (t t' : Tables), Rel m t → expectAll false t ops = some (t', rs) → ∃ m', run m ops = some (m', rs) ∧ Rel m' t' := by
  induction ops with
  | nil => intro rs m t t' hrel h; cases h; exact ⟨m, rfl, hrel⟩
  | cons op ops ih =>
    intro rs m t t' hrel h
    simp only [expectAll, Option.bind_eq_some_iff, Option.map_eq_some_iff, Prod.mk.injEq] at h
    obtain ⟨⟨t1, r⟩, h1, ⟨t2, rs'⟩, h2, rfl, rfl⟩ := h
    obtain ⟨m', h3, h4⟩ := step_expect hrel op r h1
    obtain ⟨m'', h5, h6⟩ := ih rs' m' t1 t2 h4 h2
    exact ⟨m'', by simp only [run, h3, h5, Option.bind_eq_bind, Option.bind_some], h6⟩

theorem rel_init : Rel Mem.init Tables.init :=
  ⟨rfl, (fun _ _ h => by cases h), (fun _ h => by cases h), (fun _ _ => rfl), (fun _ _ => rfl), (fun _ _ _ _ _ h => by cases h)⟩

/-- The full property: whatever a program does with statistics objects, also when it assigns to one that was moved from, it sees what tables would show. -/
def C111_statement : Prop := ∀ (ops : List Op) (t : Tables) (rs : List Res), expectAll true Tables.init ops = some (t, rs) → ∃ m, run Mem.init ops = some (m, rs)

/-- **C111.** … if it only destroys objects that were moved from. -/
theorem C111_partial (ops : List Op) (t : Tables) (rs : List Res) (h : expectAll false Tables.init ops = some (t, rs)) : ∃ m, run Mem.init ops = some (m, rs) := by
  obtain ⟨m, h1, _⟩ := run_expect ops rs _ _ t rel_init h
  exact ⟨m, h1⟩

/-- Moving from an object and assigning to it. -/
def reuseOps : List Op := [.make [], .make [], .move 0, .assign 0 1]

theorem C111_violated : ¬ C111_statement := by
  intro h
  have h1 : (expectAll true Tables.init reuseOps).map (·.2) = some [.done, .done, .done, .done] := by decide +kernel
  rw [Option.map_eq_some_iff] at h1
  obtain ⟨⟨t, rs⟩, h1, rfl⟩ := h1
  have h2 : (run Mem.init reuseOps).isNone = true := by decide +kernel
  obtain ⟨m, h3⟩ := h _ _ _ h1
  rw [h3] at h2
  cases h2

/-- **C111.** `std::swap` of two different statistics objects is undefined behaviour, at the end of any program. -/
theorem C111_swap (ops : List Op) (t : Tables) (rs : List Res) (m : Mem) (he : expectAll false Tables.init ops = some (t, rs)) (hm : run Mem.init ops = some (m, rs)) (a b : Nat) (r s : List Row) (ha : t.objs a = some (.live r)) (hb : t.objs b = some (.live s)) (hne : a ≠ b) : run m (swapOps m a b) = none := by
  obtain ⟨m0, hm0, h⟩ := run_expect ops rs _ _ t rel_init he
  rw [hm] at hm0
  cases hm0
  obtain ⟨cu, vs, b1, x1, x2, _⟩ := h.live a r ha
  obtain ⟨cu', ws, b2, y1, y2, _⟩ := h.live b s hb
  have hlt : ∀ k o, m.objs k = some o → k ≠ m.next := by
    intro k o ho hk
    subst hk
    rw [h.gone _ (h.fresh _ (Nat.le_refl _))] at ho; cases ho
  have ha1 := hlt a _ x1
  have hb1 := hlt b _ y1
  simp only [swapOps, run, step, x1, Option.bind_eq_bind, Option.bind_some, put_ne _ _ ha1, put_same, put_ne _ _ hb1, put_ne _ _ (Ne.symm hne), y1, sameConfig, Option.bind_none]

/-- **C111.** A moved-from object's attributes are those of the object that was made from it: setting one changes the other. -/
theorem C111_alias (ops : List Op) (t : Tables) (rs : List Res) (m : Mem) (he : expectAll false Tables.init ops = some (t, rs)) (hm : run Mem.init ops = some (m, rs)) (a : Nat) (r : List Row) (ha : t.objs a = some (.live r)) (n : String) (hn : n ∈ coreNames) (v : UInt64) :
    ∃ m', run m [.move a, .setAttr a n v, .getAttr m.next n] = some (m', [.done, .done, .val v]) := by
  obtain ⟨m0, hm0, h⟩ := run_expect ops rs _ _ t rel_init he
  rw [hm] at hm0
  cases hm0
  obtain ⟨cu, vs, b, x1, x2, x3, _⟩ := h.live a r ha
  have ha1 : a ≠ m.next := by
    intro hk
    subst hk
    rw [h.gone _ (h.fresh _ (Nat.le_refl _))] at x1; cases x1
  cases hi : attrIndex n with
  | none => exact absurd hn (attr_none n hi)
  | some i =>
    obtain ⟨_, _, e3⟩ := attr_some n i hi cu
    have hlt : i < vs.length := by rw [x3, List.length_append]; simp only [defaultStats, List.length_cons, List.length_nil]; omega
    have hx : ∃ m', run m [.move a, .setAttr a n v, .getAttr m.next n] = some (m', [.done, .done, .val v]) := by
      simp only [run, step, x1, hi, x2, Option.bind_eq_bind, Option.bind_some, put_ne _ _ ha1, put_same, hlt, if_true, List.getElem?_set_self hlt]
      exact ⟨_, rfl⟩
    exact hx

/-! ## Concrete cases -/

/-- A copy does not follow its original, statistics are found by name, index and attribute, and different configs cannot be combined. -/
def sampleOps : List Op :=
  [.make [⟨"extra", .maximum⟩], .setAttr 0 "max_batch" 7, .setName 0 "extra" 3, .copy 0, .setIdx 0 9 5, .getName 1 "extra", .getIdx 1 5, .add 1 0, .getName 1 "extra",
   .getAttr 1 "worker_blocked", .make [], .add 2 1, .getName 2 "extra", .move 1, .destroy 1, .items 3]

example : (expectAll false Tables.init sampleOps).map (·.2) = some
    [.done, .done, .done, .done, .done, .val 3, .val 7, .done, .val 5, .val 0, .done, .threw, .threw, .done, .done,
     .list [("heaps", 0), ("incomplete_heaps_evicted", 0), ("incomplete_heaps_flushed", 0), ("packets", 0), ("batches", 0), ("max_batch", 7), ("single_packet_heaps", 0), ("search_dist", 0), ("worker_blocked", 0), ("extra", 5)]] := by decide +kernel

example : (run Mem.init ([.make [], .make []] ++ swapOps ⟨fun _ => none, fun _ => none, 2⟩ 0 1)).isNone = true := by decide +kernel

end Spead2.StatsObj
