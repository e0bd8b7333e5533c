import Verif.Lemmas.PyGroupRun

/-!
# What adding an item does, seen through the look-ups
-/

namespace Spead2
open Spec

variable {D V R : Type}

theorem getId_some {g : PyGroup D V} {i o : Nat} {x : PyItemObj D V} :
    g.getId i = some (o, x) ↔ dictGet i g.byId = some o ∧ g.objs o = some x := deref_some

theorem getName_some {g : PyGroup D V} {n : String} {o : Nat} {x : PyItemObj D V} :
    g.getName n = some (o, x) ↔ dictGet n g.byName = some o ∧ g.objs o = some x := deref_some

theorem getId_none {g : PyGroup D V} (h : GroupOk g) {i : Nat} : g.getId i = none ↔ dictGet i g.byId = none := by
  constructor
  · intro hn
    cases hd : dictGet i g.byId with
    | none => rfl
    | some o =>
      obtain ⟨x, hx, _⟩ := h.byId i o hd
      rw [getId_some.mpr ⟨hd, hx⟩] at hn; cases hn
  · intro hn
    rw [PyGroup.getId, hn]; rfl

theorem setValue_objs {g : PyGroup D V} {o : Nat} {y : PyItemObj D V} (hy : g.objs o = some y) (v : V) :
    (g.setValue o v).objs = fun k => if k = o then some { y with value := some v, version := y.version + 1 } else g.objs k := by
  rw [PyGroup.setValue, hy]; rfl

theorem setValue_getId {g : PyGroup D V} {i o : Nat} {y : PyItemObj D V} (hy : g.getId i = some (o, y)) (v : V) :
    (g.setValue o v).getId i = some (o, { y with value := some v, version := y.version + 1 }) := by
  obtain ⟨h1, h2⟩ := getId_some.mp hy
  refine getId_some.mpr ⟨by rw [(setValue_dicts g o v).1]; exact h1, ?_⟩
  rw [setValue_objs h2]; simp

theorem setValue_getId_other {g : PyGroup D V} (h : GroupOk g) {i j o : Nat} {y : PyItemObj D V} (hy : g.getId i = some (o, y))
    (hj : j ≠ i) (v : V) : (g.setValue o v).getId j = g.getId j := by
  obtain ⟨h1, h2⟩ := getId_some.mp hy
  simp only [PyGroup.getId]
  rw [(setValue_dicts g o v).1]
  cases hd : dictGet j g.byId with
  | none => rfl
  | some p =>
    have hp : p ≠ o := fun e => hj (h.id_inj (e ▸ hd) h1)
    simp only [PyGroup.deref]
    rw [setValue_objs h2]; simp [hp]

theorem bump_getId {g : PyGroup D V} {i o : Nat} {y : PyItemObj D V} (hy : g.getId i = some (o, y)) :
    (g.bump o).getId i = some (o, { y with version := y.version + 1 }) := by
  obtain ⟨h1, h2⟩ := getId_some.mp hy
  refine getId_some.mpr ⟨by rw [(bump_dicts g o).1]; exact h1, ?_⟩
  rw [PyGroup.bump, h2]; simp [PyGroup.put]

theorem bump_getId_other {g : PyGroup D V} (h : GroupOk g) {i j o : Nat} {y : PyItemObj D V} (hy : g.getId i = some (o, y))
    (hj : j ≠ i) : (g.bump o).getId j = g.getId j := by
  obtain ⟨h1, h2⟩ := getId_some.mp hy
  simp only [PyGroup.getId]
  rw [(bump_dicts g o).1]
  cases hd : dictGet j g.byId with
  | none => rfl
  | some p =>
    have hp : p ≠ o := fun e => hj (h.id_inj (e ▸ hd) h1)
    simp only [PyGroup.deref]
    rw [PyGroup.bump, h2]; simp [PyGroup.put, hp]

/-- The item is there after it was added, and either it is the new object or it was there before. -/
theorem addNew_here [DecidableEq D] {g g' : PyGroup D V} (h : GroupOk g) {x : PyItemObj D V}
    (hg : (g.alloc x).addObj g.fresh x = some g') :
    GroupOk g' ∧ ∃ o y, g'.getId x.id = some (o, y) ∧ y.id = x.id ∧ y.name = x.name ∧ y.rest = x.rest ∧
      ((o = g.fresh ∧ y.value = x.value ∧ x.version ≤ y.version ∧
          ∀ o' z, g.getId x.id = some (o', z) → ¬ (z.name = x.name ∧ z.rest = x.rest)) ∨
        ∃ z, g.getId x.id = some (o, z) ∧ z.name = x.name ∧ z.rest = x.rest ∧
          y = (match x.value with | none => z | some v => { z with value := some v, version := z.version + 1 })) := by
  obtain ⟨g1, h1, h2, h3⟩ := addNew_ok h x
  rw [hg] at h1; cases h1
  refine ⟨h2, ?_⟩
  rcases h3 with ⟨o', z, hz, hn, hr, rfl⟩ | ⟨hno, hi⟩
  · have hz' : (g.alloc x).getId x.id = some (o', z) := by rw [alloc_getId h]; exact hz
    have hid : z.id = x.id := (h.consistent.byId _ _ _ hz).1
    cases hv : x.value with
    | none =>
      simp only [PyGroup.transfer]
      exact ⟨o', z, hz', hid, hn, hr, Or.inr ⟨z, hz, hn, hr, rfl⟩⟩
    | some v =>
      simp only [PyGroup.transfer]
      exact ⟨o', _, setValue_getId hz' v, hid, hn, hr, Or.inr ⟨z, hz, hn, hr, rfl⟩⟩
  · obtain ⟨v, hobj, hle, _⟩ := hi.obj
    exact ⟨g.fresh, _, getId_some.mpr ⟨hi.id, hobj⟩, rfl, rfl, rfl, Or.inl ⟨rfl, rfl, hle, hno⟩⟩

/-- Any other item is kept, unless it has the name. -/
theorem addNew_other [DecidableEq D] {g g' : PyGroup D V} (h : GroupOk g) {x : PyItemObj D V}
    (hg : (g.alloc x).addObj g.fresh x = some g') {j : Nat} (hj : j ≠ x.id) :
    (∀ o y, g.getId j = some (o, y) → y.name = x.name → g'.getId j = none) ∧
      ((∀ o y, g.getId j = some (o, y) → y.name ≠ x.name) → g'.getId j = g.getId j) := by
  obtain ⟨g1, h1, h2, h3⟩ := addNew_ok h x
  rw [hg] at h1; cases h1
  obtain ⟨hal, hout, _⟩ := h.alloc x
  rcases h3 with ⟨o', z, hz, hn, hr, rfl⟩ | ⟨hno, hi⟩
  · have hz' : (g.alloc x).getId x.id = some (o', z) := by rw [alloc_getId h]; exact hz
    constructor
    · intro o y hy hyn
      have e1 := (h.consistent.byId _ _ _ hy)
      have e2 := (h.consistent.byId _ _ _ hz)
      rw [hyn, ← hn, e2.2] at e1
      have e3 := e1.2
      cases e3
      exact absurd (e1.1.symm.trans e2.1) hj
    · intro _
      cases hv : x.value with
      | none => simp only [PyGroup.transfer]; exact alloc_getId h x j
      | some v =>
        simp only [PyGroup.transfer]
        rw [setValue_getId_other hal hz' hj, alloc_getId h]
  · have hids := hi.ids j hj
    constructor
    · intro o y hy hyn
      obtain ⟨hd, _⟩ := getId_some.mp hy
      obtain ⟨hnm, _⟩ := getName_some.mp (h.consistent.byId _ _ _ hy).2
      rw [hyn] at hnm
      have : dictGet j g'.byId = none := by
        rw [hids]
        show (if dictGet j g.byId = dictGet x.name g.byName then none else dictGet j g.byId) = none
        rw [hd, hnm, if_pos rfl]
      exact (getId_none h2).mpr this
    · intro hne
      have hd : dictGet j g'.byId = dictGet j g.byId := by
        rw [hids]
        show (if dictGet j g.byId = dictGet x.name g.byName then none else dictGet j g.byId) = _
        split
        · next e =>
          cases hd : dictGet j g.byId with
          | none => rfl
          | some o =>
            rw [hd] at e
            obtain ⟨y, hy, hyn, _⟩ := h.byName _ _ e.symm
            exact absurd hyn (hne o y (getId_some.mpr ⟨hd, hy⟩))
        · rfl
      rw [← alloc_getId h x j]
      simp only [PyGroup.getId]
      rw [hd]
      show _ = (g.alloc x).deref (dictGet j g.byId)
      cases hd' : dictGet j g.byId with
      | none => rfl
      | some o =>
        have : o ≠ g.fresh := fun e => hout.1 j (by show dictGet j g.byId = _; rw [hd', e])
        simp only [PyGroup.deref]
        rw [hi.objs o this]

/-- The same, by name. -/
theorem addNew_other_name [DecidableEq D] {g g' : PyGroup D V} (h : GroupOk g) {x : PyItemObj D V}
    (hg : (g.alloc x).addObj g.fresh x = some g') {n : String} (hn : n ≠ x.name) {o : Nat} {y : PyItemObj D V}
    (hy : g.getName n = some (o, y)) (hi : y.id ≠ x.id) : g'.getName n = some (o, y) := by
  obtain ⟨e1, e2⟩ := h.consistent.byName _ _ _ hy
  have h2 := (addNew_here h hg).1
  have e3 := (addNew_other h hg hi).2 (by
    intro o' y' hy'
    rw [e2] at hy'; cases hy'
    rw [e1]; exact hn)
  rw [e2] at e3
  have := (h2.consistent.byId _ _ _ e3).2
  rwa [e1] at this

theorem updateDescs_newer_id [DecidableEq D] : ∀ (ds : List (Nat × String × D)) {g g' : PyGroup D V} (i : Nat), GroupOk g →
    g.updateDescs ds = some g' → (∀ k g1, g.updateDescs (ds.take k) = some g1 → g1.getId i ≠ none) →
    Newer (g.getId i) (g'.getId i) := by
  intro ds
  induction ds with
  | nil => intro g g' i _ h _; cases h; exact Newer.refl _
  | cons e rest ih =>
    obtain ⟨j, n, d⟩ := e
    intro g g' i hok h hp
    simp only [PyGroup.updateDescs] at h
    split at h
    · cases h
    · next g1 h1 =>
      have hok1 := (addNew_here hok h1).1
      have hp1 : ∀ k g2, g1.updateDescs (rest.take k) = some g2 → g2.getId i ≠ none := by
        intro k g2 hk
        refine hp (k + 1) g2 ?_
        simp only [List.take_succ_cons, PyGroup.updateDescs]
        rw [h1]; exact hk
      exact Newer.trans (hp1 0 g1 rfl) ((addNew_newer hok h1).1 i) (ih i hok1 h hp1)

theorem updateDescs_newer_name [DecidableEq D] : ∀ (ds : List (Nat × String × D)) {g g' : PyGroup D V} (m : String), GroupOk g →
    g.updateDescs ds = some g' → (∀ k g1, g.updateDescs (ds.take k) = some g1 → g1.getName m ≠ none) →
    Newer (g.getName m) (g'.getName m) := by
  intro ds
  induction ds with
  | nil => intro g g' i _ h _; cases h; exact Newer.refl _
  | cons e rest ih =>
    obtain ⟨j, n, d⟩ := e
    intro g g' i hok h hp
    simp only [PyGroup.updateDescs] at h
    split at h
    · cases h
    · next g1 h1 =>
      have hok1 := (addNew_here hok h1).1
      have hp1 : ∀ k g2, g1.updateDescs (rest.take k) = some g2 → g2.getName i ≠ none := by
        intro k g2 hk
        refine hp (k + 1) g2 ?_
        simp only [List.take_succ_cons, PyGroup.updateDescs]
        rw [h1]; exact hk
      exact Newer.trans (hp1 0 g1 rfl) ((addNew_newer hok h1).2 i) (ih i hok1 h hp1)

end Spead2
