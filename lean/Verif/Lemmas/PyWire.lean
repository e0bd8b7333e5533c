import Verif.Spec.PyWire
import Verif.Props.PySync
import Verif.Props.PyItem
import Verif.Props.PyDescr
import Verif.Props.GetDescriptors
import Mathlib.Data.List.Perm.Basic

/-!
# From group to group: lemmas
-/

namespace Spead2.PyWire
open PyDescr

variable {D V R : Type}

/-! ## The order of the items of a heap does not matter -/

/-- One item of `updateItems`; `none`: the value cannot be decoded. -/
def stepItem (dec : D → R → Option V) (g : PyGroup D V) (p : Nat × R) : Option (PyGroup D V) :=
  if p.1 ≤ 6 then some g
  else
    match g.deref (dictGet p.1 g.byId) with
    | none => some g
    | some (o, x) => (dec x.rest p.2).map (fun v => (g.setValue o v).bump o)

theorem updateItems_step (dec : D → R → Option V) (g : PyGroup D V) (p : Nat × R) (l : List (Nat × R)) (g' : PyGroup D V) :
    g.updateItems dec (p :: l) = (g', false) ↔ ∃ g1, stepItem dec g p = some g1 ∧ g1.updateItems dec l = (g', false) := by
  obtain ⟨i, r⟩ := p
  rw [PyGroup.updateItems, stepItem]
  by_cases h6 : i ≤ 6
  · simp [h6]
  · simp only [h6, if_false]
    cases hd : g.deref (dictGet i g.byId) with
    | none => simp
    | some q =>
      obtain ⟨o, x⟩ := q
      simp only []
      cases hv : dec x.rest r with
      | none => simp
      | some v => simp

/-- A value is set. -/
def touch (o : Nat) (v : V) (x : PyItemObj D V) : PyItemObj D V := { x with value := some v, version := x.version + 1 + 1 }

theorem setBump {g : PyGroup D V} {o : Nat} {x : PyItemObj D V} (h : g.objs o = some x) (v : V) :
    (g.setValue o v).bump o = g.put o (touch o v x) := by
  have h1 : g.setValue o v = g.put o { x with value := some v, version := x.version + 1 } := by
    rw [PyGroup.setValue, h]
  have h2 : (g.put o { x with value := some v, version := x.version + 1 }).objs o = some { x with value := some v, version := x.version + 1 } := by
    simp [PyGroup.put]
  rw [h1, PyGroup.bump, h2]
  show PyGroup.put _ o _ = _
  unfold PyGroup.put
  simp only [touch]
  congr 1
  funext k
  by_cases hk : k = o <;> simp [hk]

theorem put_comm (g : PyGroup D V) {o o' : Nat} (h : o ≠ o') (x x' : PyItemObj D V) : (g.put o x).put o' x' = (g.put o' x').put o x := by
  unfold PyGroup.put
  simp only []
  congr 1
  funext k
  by_cases h1 : k = o
  · subst h1; simp [h]
  · simp [h1]

theorem deref_some {g : PyGroup D V} {i o : Nat} {x : PyItemObj D V} (h : g.deref (dictGet i g.byId) = some (o, x)) :
    dictGet i g.byId = some o ∧ g.objs o = some x := by
  cases hd : dictGet i g.byId with
  | none => rw [hd] at h; cases h
  | some o' =>
    rw [hd] at h
    simp only [PyGroup.deref] at h
    cases ho : g.objs o' with
    | none => rw [ho] at h; cases h
    | some y => rw [ho] at h; cases h; exact ⟨rfl, ho⟩

/-- Two steps for different ids commute. -/
theorem step_comm (dec : D → R → Option V) {g : PyGroup D V} (hok : GroupOk g) {p q : Nat × R} (hne : p.1 ≠ q.1) {g1 g2 : PyGroup D V}
    (h1 : stepItem dec g p = some g1) (h2 : stepItem dec g1 q = some g2) :
    ∃ g1', stepItem dec g q = some g1' ∧ stepItem dec g1' p = some g2 := by
  obtain ⟨i, r⟩ := p
  obtain ⟨j, t⟩ := q
  simp only [] at hne
  simp only [stepItem] at h1 h2 ⊢
  by_cases hi : i ≤ 6
  · rw [if_pos hi] at h1
    cases h1
    exact ⟨g2, h2, by simp [hi]⟩
  · rw [if_neg hi] at h1
    cases hd : g.deref (dictGet i g.byId) with
    | none =>
      rw [hd] at h1
      cases h1
      refine ⟨g2, h2, ?_⟩
      rw [if_neg hi]
      have : g2.deref (dictGet i g2.byId) = none := by
        by_cases hj : j ≤ 6
        · rw [if_pos hj] at h2; cases h2; exact hd
        · rw [if_neg hj] at h2
          cases he : g.deref (dictGet j g.byId) with
          | none => rw [he] at h2; cases h2; exact hd
          | some y =>
            obtain ⟨o, y⟩ := y
            rw [he] at h2
            simp only [Option.map_eq_some_iff] at h2
            obtain ⟨v, _, rfl⟩ := h2
            have := (item_step hok (i := j) he v).2.2 i hne
            exact this.trans hd
      rw [this]
    | some y =>
      obtain ⟨o, x⟩ := y
      rw [hd] at h1
      simp only [Option.map_eq_some_iff] at h1
      obtain ⟨v, hv, rfl⟩ := h1
      have hj0 := (item_step hok (i := i) hd v).2.2 j (Ne.symm hne)
      replace hj0 : ((g.setValue o v).bump o).deref (dictGet j ((g.setValue o v).bump o).byId) = g.deref (dictGet j g.byId) := hj0
      rw [hj0] at h2
      by_cases hj : j ≤ 6
      · rw [if_pos hj] at h2
        cases h2
        refine ⟨g, by rw [if_pos hj], ?_⟩
        rw [if_neg hi, hd]
        simp [hv]
      · rw [if_neg hj] at h2
        cases he : g.deref (dictGet j g.byId) with
        | none =>
          rw [he] at h2
          cases h2
          refine ⟨g, by rw [if_neg hj], ?_⟩
          rw [if_neg hi, hd]
          simp [hv]
        | some z =>
          obtain ⟨o', y⟩ := z
          rw [he] at h2
          simp only [Option.map_eq_some_iff] at h2
          obtain ⟨u, hu, rfl⟩ := h2
          obtain ⟨di, oi⟩ := deref_some hd
          obtain ⟨dj, oj⟩ := deref_some he
          have hoo : o ≠ o' := by
            intro e
            subst e
            obtain ⟨x1, a1, a2, _⟩ := hok.byId _ _ di
            obtain ⟨x2, b1, b2, _⟩ := hok.byId _ _ dj
            rw [a1] at b1
            cases b1
            exact hne (a2.symm.trans b2)
          refine ⟨(g.setValue o' u).bump o', by rw [if_neg hj]; simp [hu], ?_⟩
          have hi0 := (item_step hok (i := j) he u).2.2 i hne
          replace hi0 : ((g.setValue o' u).bump o').deref (dictGet i ((g.setValue o' u).bump o').byId) = g.deref (dictGet i g.byId) := hi0
          rw [if_neg hi, hi0, hd]
          simp only [hv, Option.map_some, Option.some.injEq]
          have o1 : ((g.setValue o' u).bump o').objs o = some x := by
            rw [setBump oj]; simp [PyGroup.put, hoo, oi]
          have o2 : ((g.setValue o v).bump o).objs o' = some y := by
            rw [setBump oi]; simp [PyGroup.put, Ne.symm hoo, oj]
          rw [setBump o1, setBump o2, setBump oi, setBump oj]
          exact put_comm g (Ne.symm hoo) _ _

theorem step_ok (dec : D → R → Option V) {g g1 : PyGroup D V} (hok : GroupOk g) {p : Nat × R} (h : stepItem dec g p = some g1) : GroupOk g1 := by
  simp only [stepItem] at h
  split at h
  · cases h; exact hok
  · split at h
    · cases h; exact hok
    · simp only [Option.map_eq_some_iff] at h
      obtain ⟨v, _, rfl⟩ := h
      exact (hok.setValue _ v).bump _

theorem updateItems_perm (dec : D → R → Option V) {l l' : List (Nat × R)} (hp : l.Perm l') : ∀ {g g' : PyGroup D V}, GroupOk g →
    (l.map Prod.fst).Nodup → g.updateItems dec l = (g', false) → g.updateItems dec l' = (g', false) := by
  induction hp with
  | nil => intro g g' _ _ h; exact h
  | cons x _ ih =>
    intro g g' hok hn h
    obtain ⟨g1, h1, h2⟩ := (updateItems_step dec g x _ g').1 h
    exact (updateItems_step dec g x _ g').2 ⟨g1, h1, ih (step_ok dec hok h1) (List.nodup_cons.1 hn).2 h2⟩
  | swap x y l =>
    intro g g' hok hn h
    obtain ⟨g1, h1, h2⟩ := (updateItems_step dec g y _ g').1 h
    obtain ⟨g2, h3, h4⟩ := (updateItems_step dec g1 x _ g').1 h2
    have hne : y.1 ≠ x.1 := by
      intro e
      simp only [List.map_cons, List.nodup_cons, List.mem_cons, not_or] at hn
      exact hn.1.1 e
    obtain ⟨g3, h5, h6⟩ := step_comm dec hok hne h1 h3
    exact (updateItems_step dec g x _ g').2 ⟨g3, h5, (updateItems_step dec g3 y _ g').2 ⟨g2, h6, h4⟩⟩
  | trans p1 _ ih1 ih2 =>
    intro g g' hok hn h
    exact ih2 hok ((p1.map Prod.fst).nodup_iff.1 hn) (ih1 hok hn h)

/-! ## Ideal heaps -/

/-- A heap that carries descriptors and values as they are. -/
def idealEnc (d : D) (v : V) : D × V := (d, v)
/-- A value is only read with the descriptor that it was written with. -/
def idealDec [DecidableEq D] (d : D) (r : D × V) : Option V := if d = r.1 then some r.2 else none

theorem ideal_codec [DecidableEq D] : ∀ (d : D) (v : V), idealDec d (idealEnc d v) = some v := by
  intro d v
  simp [idealDec, idealEnc]

/-- If reading the ideal heap works, then so does reading another that gives the same values. -/
theorem updateItems_refine [DecidableEq D] (dec : D → R → Option V) : ∀ {l : List (Nat × (D × V))} {l' : List (Nat × R)} {g g' : PyGroup D V},
    List.Forall₂ (fun p q => q.1 = p.1 ∧ dec p.2.1 q.2 = some p.2.2) l l' → g.updateItems idealDec l = (g', false) →
    g.updateItems dec l' = (g', false) := by
  intro l l' g g' h
  induction h generalizing g with
  | nil => exact id
  | @cons a b l l' hab _ ih =>
    intro h
    obtain ⟨g1, h1, h2⟩ := (updateItems_step idealDec g a _ g').1 h
    refine (updateItems_step dec g b _ g').2 ⟨g1, ?_, ih h2⟩
    obtain ⟨i, r⟩ := b
    obtain ⟨j, d, v⟩ := a
    obtain ⟨rfl, hd⟩ := hab
    simp only [stepItem] at h1 ⊢
    simp only [] at hd
    split at h1
    · rename_i h6; rw [if_pos h6]; exact h1
    · rename_i h6
      rw [if_neg h6]
      cases he : g.deref (dictGet i g.byId) with
      | none => rw [he] at h1; exact h1
      | some y =>
        obtain ⟨o, x⟩ := y
        rw [he] at h1
        simp only [idealDec] at h1 ⊢
        split at h1
        · rename_i hx
          rw [hx, hd]
          exact h1
        · cases h1

end Spead2.PyWire
