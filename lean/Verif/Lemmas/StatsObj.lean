import Verif.Spec.StatsObj

/-! # Lemmas for C111 -/

namespace Spead2.StatsObj

def zipRows (c : List StatConfig) (vs : List UInt64) : List Row := List.zipWith (fun c v => ⟨c.name, c.mode, v⟩) c vs

theorem zipRows_get (c : List StatConfig) (vs : List UInt64) (h : vs.length = c.length) (i : Nat) : ((zipRows c vs)[i]?).map (·.value) = vs[i]? := by
  induction c generalizing vs i with
  | nil => cases vs with | nil => simp [zipRows] | cons v vs => simp at h
  | cons c cs ih =>
    cases vs with
    | nil => simp at h
    | cons v vs =>
      simp only [List.length_cons, Nat.add_right_cancel_iff] at h
      cases i with
      | zero => simp [zipRows]
      | succ i => simpa [zipRows] using ih vs h i

theorem zipRows_set (c : List StatConfig) (vs : List UInt64) (h : vs.length = c.length) (i : Nat) (e : Row) (v : UInt64) (he : (zipRows c vs)[i]? = some e) :
    (zipRows c vs).set i { e with value := v } = zipRows c (vs.set i v) := by
  induction c generalizing vs i with
  | nil => simp [zipRows]
  | cons c cs ih =>
    cases vs with
    | nil => simp at h
    | cons w vs =>
      simp only [List.length_cons, Nat.add_right_cancel_iff] at h
      cases i with
      | zero => simp [zipRows] at he ⊢; rw [← he]; exact ⟨rfl, rfl⟩
      | succ i => simpa [zipRows] using ih vs h i (by simpa [zipRows] using he)

theorem lookup_zip (c : List StatConfig) (vs : List UInt64) (h : vs.length = c.length) (n : String) : lookup (zipRows c vs) n = vs[statIndex c n]? := by
  induction c generalizing vs with
  | nil => cases vs with | nil => simp [zipRows, lookup, statIndex] | cons v vs => simp at h
  | cons c cs ih =>
    cases vs with
    | nil => simp at h
    | cons w vs =>
      simp only [List.length_cons, Nat.add_right_cancel_iff] at h
      have := ih vs h
      simp only [lookup, zipRows] at this
      simp only [zipRows, lookup, List.zipWith_cons_cons, List.find?_cons, statIndex]
      by_cases hc : c.name = n
      · simp [hc]
      · rw [beq_false_of_ne hc, if_neg hc, List.getElem?_cons_succ]; exact this

theorem statIndex_le' (c : List StatConfig) (n : String) : statIndex c n ≤ c.length := by
  induction c with
  | nil => simp [statIndex]
  | cons c cs ih => simp only [statIndex]; split <;> simp <;> omega

theorem update_absent (c : List StatConfig) (vs : List UInt64) (n : String) (v : UInt64) (h : n ∉ c.map (·.name)) : update (zipRows c vs) n v = zipRows c vs := by
  induction c generalizing vs with
  | nil => simp [zipRows, update]
  | cons c cs ih =>
    cases vs with
    | nil => simp [zipRows, update]
    | cons w vs =>
      simp only [List.map_cons, List.mem_cons, not_or] at h
      have := ih vs h.2
      simp only [update, zipRows] at this
      simp only [zipRows, update, List.zipWith_cons_cons, List.map_cons]
      rw [if_neg (fun e => h.1 e.symm), this]

theorem update_zip (c : List StatConfig) (vs : List UInt64) (h : vs.length = c.length) (hn : (c.map (·.name)).Nodup) (n : String) (v : UInt64) :
    update (zipRows c vs) n v = zipRows c (vs.set (statIndex c n) v) := by
  induction c generalizing vs with
  | nil => simp [zipRows, update]
  | cons c cs ih =>
    cases vs with
    | nil => simp at h
    | cons w vs =>
      simp only [List.length_cons, Nat.add_right_cancel_iff] at h
      simp only [List.map_cons, List.nodup_cons] at hn
      have := ih vs h hn.2
      by_cases hc : c.name = n
      · subst hc
        have h2 := update_absent cs vs c.name v hn.1
        simp only [update, zipRows] at h2
        simp [zipRows, update, statIndex, h2]
      · simp only [update, zipRows] at this
        simp [zipRows, update, statIndex, hc, this]

theorem combine_merge (c : StatConfig) (v w : UInt64) : c.combine v w = merge c.mode v w := by
  unfold StatConfig.combine merge
  cases c.mode with
  | counter => rfl
  | maximum =>
    change (if v < w then w else v) = if v ≤ w then w else v
    by_cases h : v < w
    · rw [if_pos h, if_pos (UInt64.le_of_lt h)]
    · rw [if_neg h]
      split
      · rename_i h2; exact UInt64.le_antisymm h2 (UInt64.not_lt.mp h)
      · rfl

theorem addLoop_zip (c : List StatConfig) (vs ws : List UInt64) (h : vs.length = c.length) (h' : ws.length = c.length) :
    ∃ r, addLoop c vs ws = some r ∧ r.length = c.length ∧ zipRows c r = (zipRows c vs).zipWith (fun x y => { x with value := merge x.mode x.value y.value }) (zipRows c ws) := by
  induction c generalizing vs ws with
  | nil =>
    cases vs with
    | nil => exact ⟨[], by cases ws <;> rfl, rfl, rfl⟩
    | cons v vs => simp at h
  | cons c cs ih =>
    cases vs with
    | nil => simp at h
    | cons v vs =>
      cases ws with
      | nil => simp at h'
      | cons w ws =>
        simp only [List.length_cons, Nat.add_right_cancel_iff] at h h'
        obtain ⟨r, h1, h2, h3⟩ := ih vs ws h h'
        refine ⟨c.combine v w :: r, by simp [addLoop, h1], by simp [h2], ?_⟩
        simp only [zipRows] at h3
        simp only [zipRows, List.zipWith_cons_cons, h3, combine_merge]

theorem assignLoop_eq (vs ws : List UInt64) (h : vs.length = ws.length) : assignLoop vs ws = some ws := by
  induction vs generalizing ws with
  | nil => cases ws with | nil => rfl | cons w ws => simp at h
  | cons v vs ih =>
    cases ws with
    | nil => simp at h
    | cons w ws => simp [assignLoop, ih ws (by simpa using h)]

theorem itemsLoop_eq (c : List StatConfig) (vs : List UInt64) (h : vs.length = c.length) : itemsLoop c vs = some ((zipRows c vs).map fun e => (e.name, e.value)) := by
  induction c generalizing vs with
  | nil => cases vs with | nil => rfl | cons v vs => simp at h
  | cons c cs ih =>
    cases vs with
    | nil => simp at h
    | cons v vs =>
      have := ih vs (by simpa using h)
      simp only [zipRows] at this
      simp [itemsLoop, zipRows, this]

theorem columns_zip (c : List StatConfig) (vs : List UInt64) (h : vs.length = c.length) : columns (zipRows c vs) = c.map fun c => (c.name, c.mode) := by
  induction c generalizing vs with
  | nil => simp [zipRows, columns]
  | cons c cs ih =>
    cases vs with
    | nil => simp at h
    | cons v vs =>
      have := ih vs (by simpa using h)
      simp only [columns, zipRows] at this
      simp [columns, zipRows, this]

theorem columns_inj (c d : List StatConfig) : (c.map fun c => (c.name, c.mode)) = (d.map fun c => (c.name, c.mode)) ↔ c = d := by
  constructor
  · intro h
    induction c generalizing d with
    | nil => cases d with | nil => rfl | cons x d => simp at h
    | cons c cs ih =>
      cases d with
      | nil => simp at h
      | cons x d =>
        simp only [List.map_cons, List.cons.injEq, Prod.mk.injEq] at h
        rw [ih d h.2]
        congr 1
        cases c; cases x
        simp only at h
        rw [h.1.1, h.1.2]
  · intro h; rw [h]

theorem attr_some (n : String) (i : Nat) (h : attrIndex n = some i) (cu : List StatConfig) : statIndex (defaultStats ++ cu) n = i ∧ n ∈ coreNames ∧ i < 9 := by
  unfold attrIndex at h
  repeat' split at h
  all_goals (first | (cases h; done) | (rename_i hn; cases h; subst hn; simp [statIndex, defaultStats, coreNames]))

theorem attr_none (n : String) (h : attrIndex n = none) : n ∉ coreNames := by
  intro hm
  simp only [coreNames, List.mem_cons, List.not_mem_nil, or_false] at hm
  rcases hm with rfl | rfl | rfl | rfl | rfl | rfl | rfl | rfl | rfl <;> simp [attrIndex] at h

theorem zipRows_zero (c : List StatConfig) : zipRows c (List.replicate c.length 0) = c.map fun c => ⟨c.name, c.mode, 0⟩ := by
  induction c with
  | nil => rfl
  | cons c cs ih => simp only [zipRows] at ih; simp [zipRows, List.replicate_succ, ih]

/-- The object `k` holds the table `r`, in a buffer of its own. -/
def Holds (m : Mem) (k : Nat) (r : List Row) : Prop := ∃ cu vs b, m.objs k = some ⟨some (defaultStats ++ cu), some b, b⟩ ∧ m.bufs b = some vs ∧ vs.length = (defaultStats ++ cu).length ∧
  r = zipRows (defaultStats ++ cu) vs ∧ ((defaultStats ++ cu).map (·.name)).Nodup ∧ b < m.next

/-- The tables are what the objects hold. -/
structure Rel (m : Mem) (t : Tables) : Prop where
  next : m.next = t.next
  live : ∀ k r, t.objs k = some (.live r) → Holds m k r
  moved : ∀ k, t.objs k = some .moved → ∃ refs, m.objs k = some ⟨none, none, refs⟩
  gone : ∀ k, t.objs k = none → m.objs k = none
  fresh : ∀ k, m.next ≤ k → t.objs k = none
  own : ∀ k l o p b, m.objs k = some o → m.objs l = some p → o.buf = some b → p.buf = some b → k = l

theorem Rel.rows {m : Mem} {t : Tables} (h : Rel m t) {a : Nat} {r : List Row} (hr : t.rows a = some r) : t.objs a = some (.live r) ∧ Holds m a r := by
  unfold Tables.rows at hr
  cases ho : t.objs a with
  | none => rw [ho] at hr; cases hr
  | some x =>
    cases x with
    | moved => rw [ho] at hr; cases hr
    | live r' => rw [ho] at hr; cases hr; exact ⟨rfl, h.live a r ho⟩

theorem put_same {α : Type} (f : Nat → Option α) (k : Nat) (x : Option α) : put f k x k = x := by simp [put]
theorem put_ne {α : Type} (f : Nat → Option α) {k j : Nat} (x : Option α) (h : j ≠ k) : put f k x j = f j := by simp [put, h]

/-- Changing the values of one object. -/
theorem Rel.write {m : Mem} {t : Tables} (h : Rel m t) {a b : Nat} {cu : List StatConfig} {vs : List UInt64} (ho : m.objs a = some ⟨some (defaultStats ++ cu), some b, b⟩)
    (hl : vs.length = (defaultStats ++ cu).length) (hn : ((defaultStats ++ cu).map (·.name)).Nodup) (hb : b < m.next) :
    Rel { m with bufs := put m.bufs b (some vs) } (t.set a (zipRows (defaultStats ++ cu) vs)) := by
  have ha : a < m.next := by
    rcases Nat.lt_or_ge a m.next with x | x
    · exact x
    · rw [h.gone a (h.fresh a x)] at ho; cases ho
  refine ⟨h.next, ?_, ?_, ?_, ?_, h.own⟩
  · intro k r hk
    by_cases hka : k = a
    · subst hka
      simp only [Tables.set, put_same, Option.some.injEq, Table.live.injEq] at hk
      exact ⟨cu, vs, b, ho, put_same _ _ _, hl, hk.symm, hn, hb⟩
    · simp only [Tables.set, put_ne _ _ hka] at hk
      obtain ⟨cu', vs', b', x1, x2, x3, x4, x5, x6⟩ := h.live k r hk
      have hne : b' ≠ b := fun e => hka (h.own k a _ _ b x1 ho (by simp [e]) rfl)
      exact ⟨cu', vs', b', x1, by simp only [put_ne _ _ hne]; exact x2, x3, x4, x5, x6⟩
  · intro k hk
    by_cases hka : k = a
    · subst hka; simp [Tables.set, put_same] at hk
    · simp only [Tables.set, put_ne _ _ hka] at hk; exact h.moved k hk
  · intro k hk
    by_cases hka : k = a
    · subst hka; simp [Tables.set, put_same] at hk
    · simp only [Tables.set, put_ne _ _ hka] at hk; exact h.gone k hk
  · intro k hk
    have hka : k ≠ a := by have : m.next ≤ k := hk; omega
    simp only [Tables.set, put_ne _ _ hka]; exact h.fresh k hk

theorem Rel.buf_lt {m : Mem} {t : Tables} (h : Rel m t) {k b : Nat} {o : Obj} (ho : m.objs k = some o) (hb : o.buf = some b) : b < m.next := by
  cases hk : t.objs k with
  | none => rw [h.gone k hk] at ho; cases ho
  | some x =>
    cases x with
    | moved => obtain ⟨r, e⟩ := h.moved k hk; rw [ho] at e; cases e; cases hb
    | live r => obtain ⟨_, _, b', e, _, _, _, _, hlt⟩ := h.live k r hk; rw [ho] at e; cases e; cases hb; exact hlt

/-- A new object. -/
theorem Rel.construct {m : Mem} {t : Tables} (h : Rel m t) {cu : List StatConfig} {vs : List UInt64}
    (hl : vs.length = (defaultStats ++ cu).length) (hn : ((defaultStats ++ cu).map (·.name)).Nodup) :
    ∃ m', m.construct (some (defaultStats ++ cu)) vs = some m' ∧ Rel m' { (t.set t.next (zipRows (defaultStats ++ cu) vs)) with next := t.next + 1 } := by
  unfold Mem.construct
  have h9 : ¬ vs.length < customIndex := by rw [hl]; simp [defaultStats, customIndex]
  rw [if_neg h9]
  refine ⟨_, rfl, by simp [h.next], ?_, ?_, ?_, ?_, ?_⟩
  · intro k r hk
    by_cases hka : k = t.next
    · subst hka
      simp only [Tables.set, put_same, Option.some.injEq, Table.live.injEq] at hk
      exact ⟨cu, vs, m.next, by rw [← h.next]; exact put_same _ _ _, put_same _ _ _, hl, hk.symm, hn, Nat.lt_succ_self _⟩
    · simp only [Tables.set, put_ne _ _ hka] at hk
      obtain ⟨cu', vs', b', x1, x2, x3, x4, x5, x6⟩ := h.live k r hk
      exact ⟨cu', vs', b', by simp only [put_ne _ _ (h.next ▸ hka)]; exact x1, by simp only [put_ne _ _ (Nat.ne_of_lt x6)]; exact x2, x3, x4, x5, Nat.lt_succ_of_lt x6⟩
  · intro k hk
    by_cases hka : k = t.next
    · subst hka; simp [Tables.set, put_same] at hk
    · simp only [Tables.set, put_ne _ _ hka] at hk
      obtain ⟨r, e⟩ := h.moved k hk
      exact ⟨r, by simp only [put_ne _ _ (h.next ▸ hka)]; exact e⟩
  · intro k hk
    by_cases hka : k = t.next
    · subst hka; simp [Tables.set, put_same] at hk
    · simp only [Tables.set, put_ne _ _ hka] at hk
      simp only [put_ne _ _ (h.next ▸ hka)]; exact h.gone k hk
  · intro k hk
    have h1 : m.next + 1 ≤ k := hk
    have hka : k ≠ t.next := by rw [← h.next]; omega
    simp only [Tables.set, put_ne _ _ hka]; exact h.fresh k (by omega)
  · intro k l o p b ho hp hob hpb
    by_cases hk : k = m.next <;> by_cases hl' : l = m.next
    · rw [hk, hl']
    · subst hk
      simp only [put_same, put_ne _ _ hl', Option.some.injEq] at ho hp
      subst ho
      cases hob
      exact absurd (h.buf_lt hp hpb) (Nat.lt_irrefl _)
    · subst hl'
      simp only [put_same, put_ne _ _ hk, Option.some.injEq] at ho hp
      subst hp
      cases hpb
      exact absurd (h.buf_lt ho hob) (Nat.lt_irrefl _)
    · simp only [put_ne _ _ hk, put_ne _ _ hl'] at ho hp
      exact h.own k l o p b ho hp hob hpb

end Spead2.StatsObj
