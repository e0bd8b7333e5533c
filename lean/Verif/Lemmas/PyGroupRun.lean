import Verif.Lemmas.PyGroup
import Verif.Spec.PyGroup
import Mathlib.Data.List.Perm.Subperm
import Mathlib.Data.List.Nodup

/-! Calls of an item group. -/

namespace Spead2
open Spec

section
variable {D V R : Type}

theorem GroupOk.consistent {g : PyGroup D V} (h : GroupOk g) : KeysAgree g := by
  refine ⟨?_, ?_, ?_⟩
  · intro i o x hx
    obtain ⟨h1, h2⟩ := deref_some.mp hx
    obtain ⟨y, h3, h4, h5⟩ := h.byId i o h1
    rw [h2] at h3; cases h3
    exact ⟨h4, deref_some.mpr ⟨h5, h2⟩⟩
  · intro n o x hx
    obtain ⟨h1, h2⟩ := deref_some.mp hx
    obtain ⟨y, h3, h4, h5⟩ := h.byName n o h1
    rw [h2] at h3; cases h3
    exact ⟨h4, deref_some.mpr ⟨h5, h2⟩⟩
  · have n1 : (g.byId.map Prod.snd).Nodup := by
      apply List.Nodup.map_on _ (List.Nodup.of_map _ h.ids)
      rintro ⟨a, o⟩ ha ⟨b, o'⟩ hb (e : o = o')
      subst e
      rw [h.id_inj (mem_dictGet h.ids ha) (mem_dictGet h.ids hb)]
    have n2 : (g.byName.map Prod.snd).Nodup := by
      apply List.Nodup.map_on _ (List.Nodup.of_map _ h.names)
      rintro ⟨a, o⟩ ha ⟨b, o'⟩ hb (e : o = o')
      subst e
      rw [h.name_inj (mem_dictGet h.names ha) (mem_dictGet h.names hb)]
    have s1 : g.byId.map Prod.snd ⊆ g.byName.map Prod.snd := by
      intro o ho
      obtain ⟨⟨i, o'⟩, hm, rfl⟩ := List.mem_map.mp ho
      obtain ⟨x, _, _, h3⟩ := h.byId i o' (mem_dictGet h.ids hm)
      exact List.mem_map.mpr ⟨_, dictGet_mem h3, rfl⟩
    have s2 : g.byName.map Prod.snd ⊆ g.byId.map Prod.snd := by
      intro o ho
      obtain ⟨⟨i, o'⟩, hm, rfl⟩ := List.mem_map.mp ho
      obtain ⟨x, _, _, h3⟩ := h.byName i o' (mem_dictGet h.names hm)
      exact List.mem_map.mpr ⟨_, dictGet_mem h3, rfl⟩
    have l1 := (List.subperm_of_subset n1 s1).length_le
    have l2 := (List.subperm_of_subset n2 s2).length_le
    simp only [List.length_map] at l1 l2
    omega

theorem alloc_getId {g : PyGroup D V} (h : GroupOk g) (x : PyItemObj D V) (i : Nat) : (g.alloc x).getId i = g.getId i := by
  simp only [PyGroup.getId]
  show (g.alloc x).deref (dictGet i g.byId) = _
  cases hd : dictGet i g.byId with
  | none => rfl
  | some o =>
    obtain ⟨y, h1, _⟩ := h.byId i o hd
    have : o ≠ g.fresh := Nat.ne_of_lt (h.fresh o y h1)
    simp [PyGroup.deref, PyGroup.alloc, this]

theorem alloc_getName {g : PyGroup D V} (h : GroupOk g) (x : PyItemObj D V) (n : String) :
    (g.alloc x).getName n = g.getName n := by
  simp only [PyGroup.getName]
  show (g.alloc x).deref (dictGet n g.byName) = _
  cases hd : dictGet n g.byName with
  | none => rfl
  | some o =>
    obtain ⟨y, h1, _⟩ := h.byName n o hd
    have : o ≠ g.fresh := Nat.ne_of_lt (h.fresh o y h1)
    simp [PyGroup.deref, PyGroup.alloc, this]

/-- `_add_item` of a new object, from the state before the object was made. -/
theorem addNew_ok [DecidableEq D] {g : PyGroup D V} (h : GroupOk g) (x : PyItemObj D V) :
    ∃ g', (g.alloc x).addObj g.fresh x = some g' ∧ GroupOk g' ∧
      ((∃ o' y, g.getId x.id = some (o', y) ∧ y.name = x.name ∧ y.rest = x.rest ∧ g' = (g.alloc x).transfer o' x.value) ∨
        ((∀ o' y, g.getId x.id = some (o', y) → ¬ (y.name = x.name ∧ y.rest = x.rest)) ∧
          Installed (g.alloc x) g' g.fresh x)) := by
  obtain ⟨h1, h2, h3⟩ := h.alloc x
  obtain ⟨g', h4, h5, h6⟩ := addObj_ok h1 h2 h3
  refine ⟨g', h4, h5, ?_⟩
  rcases h6 with ⟨o', y, a, b, c, d, e⟩ | ⟨a, b⟩
  · refine Or.inl ⟨o', y, ?_, c, d, e⟩
    rw [← alloc_getId h x]
    exact deref_some.mpr ⟨a, b⟩
  · refine Or.inr ⟨?_, b⟩
    intro o' y hy
    rw [← alloc_getId h x] at hy
    obtain ⟨c, d⟩ := deref_some.mp hy
    exact a o' y c d

theorem addItem_ok [DecidableEq D] {g : PyGroup D V} (h : GroupOk g) (id : Option Nat) (n : String) (d : D) (v : Option V) :
    ∃ g', g.addItem id n d v = some (g', g.fresh) ∧ GroupOk g' := by
  obtain ⟨g', h1, h2, _⟩ := addNew_ok h ⟨id.getD (autoId g.byId g.byId.length 0x1000), n, d, v, 1⟩
  exact ⟨g', by simp only [PyGroup.addItem, h1, Option.map_some], h2⟩

theorem updateDescs_total [DecidableEq D] : ∀ (ds : List (Nat × String × D)) {g : PyGroup D V}, GroupOk g →
    ∃ g', g.updateDescs ds = some g' ∧ GroupOk g' := by
  intro ds
  induction ds with
  | nil => intro g h; exact ⟨g, rfl, h⟩
  | cons e rest ih =>
    obtain ⟨i, n, d⟩ := e
    intro g h
    obtain ⟨g1, h1, h2, _⟩ := addNew_ok h ⟨i, n, d, none, 1⟩
    obtain ⟨g2, h3, h4⟩ := ih h2
    exact ⟨g2, by rw [PyGroup.updateDescs, h1]; exact h3, h4⟩

theorem updateItems_total (dec : D → R → Option V) : ∀ (is : List (Nat × R)) {g : PyGroup D V}, GroupOk g →
    GroupOk (g.updateItems dec is).1 := by
  intro is
  induction is with
  | nil => intro g h; exact h
  | cons e rest ih =>
    obtain ⟨i, r⟩ := e
    intro g h
    rw [PyGroup.updateItems]
    split
    · exact ih h
    · split
      · exact ih h
      · split
        · exact h
        · exact ih ((h.setValue _ _).bump _)

theorem update_total [DecidableEq D] (dec : D → R → Option V) {g : PyGroup D V} (hg : GroupOk g) (h : PyHeap D R) :
    ∃ p, g.update dec h = some p ∧ GroupOk p.1 := by
  obtain ⟨g1, h1, h2⟩ := updateDescs_total h.descs hg
  exact ⟨_, by rw [PyGroup.update, h1]; rfl, updateItems_total dec h.items h2⟩

theorem call_total [DecidableEq D] (dec : D → R → Option V) {g : PyGroup D V} (hg : GroupOk g) (c : GroupCall D V R) :
    ∃ g', c.run dec g = some g' ∧ GroupOk g' := by
  cases c with
  | add i n d v =>
    obtain ⟨g', h1, h2⟩ := addItem_ok hg i n d v
    exact ⟨g', by simp [GroupCall.run, h1], h2⟩
  | set o v => exact ⟨_, rfl, hg.setValue o v⟩
  | bump o => exact ⟨_, rfl, hg.bump o⟩
  | update h =>
    obtain ⟨p, h1, h2⟩ := update_total dec hg h
    exact ⟨p.1, by simp [GroupCall.run, h1], h2⟩

theorem calls_total [DecidableEq D] (dec : D → R → Option V) : ∀ (cs : List (GroupCall D V R)) {g : PyGroup D V},
    GroupOk g → ∃ g', runCalls dec g cs = some g' ∧ GroupOk g' := by
  intro cs
  induction cs with
  | nil => intro g h; exact ⟨g, rfl, h⟩
  | cons c cs ih =>
    intro g h
    obtain ⟨g1, h1, h2⟩ := call_total dec h c
    obtain ⟨g2, h3, h4⟩ := ih h2
    exact ⟨g2, by rw [runCalls, h1]; exact h3, h4⟩

/-! ## Automatic ids -/

theorem autoId_spec (d : List (Nat × Nat)) : ∀ (n i : Nat),
    i ≤ autoId d n i ∧ (∀ j, i ≤ j → j < autoId d n i → j ∈ d.map Prod.fst) ∧
      (autoId d n i ∉ d.map Prod.fst ∨ autoId d n i = i + n) := by
  intro n
  induction n with
  | zero => intro i; exact ⟨Nat.le_refl _, (by intro j h1 h2; simp only [autoId] at h2; omega), Or.inr rfl⟩
  | succ n ih =>
    intro i
    rw [autoId]
    split
    · next h =>
      obtain ⟨h1, h2, h3⟩ := ih (i + 1)
      refine ⟨by omega, ?_, ?_⟩
      · intro j hj1 hj2
        by_cases hj : j = i
        · subst hj
          by_cases hc : j ∈ d.map Prod.fst
          · exact hc
          · rw [dictGet_none.mpr hc] at h; cases h
        · exact h2 j (by omega) hj2
      · rcases h3 with h3 | h3
        · exact Or.inl h3
        · exact Or.inr (by omega)
    · next h =>
      refine ⟨Nat.le_refl _, (by intro j h1 h2; omega), Or.inl ?_⟩
      rw [← dictGet_none]
      cases hd : dictGet i d with
      | none => rfl
      | some v => rw [hd] at h; exact absurd rfl h

theorem autoId_fresh (d : List (Nat × Nat)) (i : Nat) : i ≤ autoId d d.length i ∧ autoId d d.length i ∉ d.map Prod.fst := by
  obtain ⟨h1, h2, h3⟩ := autoId_spec d d.length i
  refine ⟨h1, ?_⟩
  rcases h3 with h3 | h3
  · exact h3
  · intro hm
    have hsub : List.range' i (d.length + 1) ⊆ d.map Prod.fst := by
      intro j hj
      obtain ⟨k, hk, rfl⟩ := List.mem_range'.mp hj
      by_cases he : i + 1 * k = autoId d d.length i
      · rw [he]; exact hm
      · exact h2 _ (by omega) (by omega)
    have := (List.subperm_of_subset List.nodup_range' hsub).length_le
    simp at this
    omega

/-! ## Versions -/

theorem Newer.refl (a : Option (Nat × PyItemObj D V)) : Newer a a := by
  intro o x o' x' h1 h2
  rw [h1] at h2; cases h2; exact Or.inl ⟨rfl, rfl⟩

theorem Newer.trans {a b c : Option (Nat × PyItemObj D V)} (hb : b ≠ none) (h1 : Newer a b) (h2 : Newer b c) : Newer a c := by
  intro o x o' x' ha hc
  obtain ⟨⟨p, y⟩, rfl⟩ := Option.ne_none_iff_exists'.mp hb
  rcases h1 o x p y ha rfl with ⟨rfl, rfl⟩ | l1
  · exact h2 _ _ _ _ rfl hc
  · rcases h2 p y o' x' rfl hc with ⟨rfl, rfl⟩ | l2
    · exact Or.inr l1
    · exact Or.inr (by omega)

theorem Newer.put {g : PyGroup D V} {o : Nat} {x y : PyItemObj D V} (hx : g.objs o = some x) (hv : x.version < y.version)
    (r : Option Nat) : Newer (g.deref r) ((g.put o y).deref r) := by
  intro a p b q h1 h2
  obtain ⟨rfl, h3⟩ := deref_some.mp h1
  obtain ⟨h4, h5⟩ := deref_some.mp h2
  cases h4
  simp only [PyGroup.put] at h5
  split at h5
  · next e => subst e; cases h5; rw [hx] at h3; cases h3; exact Or.inr hv
  · rw [h3] at h5; cases h5; exact Or.inl ⟨rfl, rfl⟩

theorem setValue_newer (g : PyGroup D V) (o : Nat) (v : V) (r : Option Nat) : Newer (g.deref r) ((g.setValue o v).deref r) := by
  rw [PyGroup.setValue]
  split
  · exact Newer.refl _
  · next x hx => exact Newer.put hx (Nat.lt_succ_self _) r

theorem bump_newer (g : PyGroup D V) (o : Nat) (r : Option Nat) : Newer (g.deref r) ((g.bump o).deref r) := by
  rw [PyGroup.bump]
  split
  · exact Newer.refl _
  · next x hx => exact Newer.put hx (Nat.lt_succ_self _) r

theorem setValue_dicts (g : PyGroup D V) (o : Nat) (v : V) : (g.setValue o v).byId = g.byId ∧ (g.setValue o v).byName = g.byName := by
  rw [PyGroup.setValue]; split <;> exact ⟨rfl, rfl⟩

theorem bump_dicts (g : PyGroup D V) (o : Nat) : (g.bump o).byId = g.byId ∧ (g.bump o).byName = g.byName := by
  rw [PyGroup.bump]; split <;> exact ⟨rfl, rfl⟩

theorem installed_newer_id {g g' : PyGroup D V} {x : PyItemObj D V} {o : Nat} (ho : Outside g o)
    (h : Installed g g' o x) (i : Nat) : Newer (g.getId i) (g'.getId i) := by
  intro a p b q h1 h2
  obtain ⟨ha, hp⟩ := deref_some.mp h1
  obtain ⟨hb, hq⟩ := deref_some.mp h2
  by_cases hi : i = x.id
  · subst hi
    obtain ⟨v, h3, _, h4, _⟩ := h.obj
    rw [h.id] at hb; cases hb
    rw [h3] at hq; cases hq
    exact Or.inr (h4 a p ha hp)
  · rw [h.ids i hi] at hb
    split at hb
    · cases hb
    · rw [ha] at hb; cases hb
      rw [h.objs a (fun e => ho.1 i (e ▸ ha)), hp] at hq
      cases hq; exact Or.inl ⟨rfl, rfl⟩

theorem installed_newer_name {g g' : PyGroup D V} {x : PyItemObj D V} {o : Nat} (ho : Outside g o)
    (h : Installed g g' o x) (n : String) : Newer (g.getName n) (g'.getName n) := by
  intro a p b q h1 h2
  obtain ⟨ha, hp⟩ := deref_some.mp h1
  obtain ⟨hb, hq⟩ := deref_some.mp h2
  by_cases hi : n = x.name
  · subst hi
    obtain ⟨v, h3, _, _, h4⟩ := h.obj
    rw [h.name] at hb; cases hb
    rw [h3] at hq; cases hq
    exact Or.inr (h4 a p ha hp)
  · rw [h.names n hi] at hb
    split at hb
    · cases hb
    · rw [ha] at hb; cases hb
      rw [h.objs a (fun e => ho.2 n (e ▸ ha)), hp] at hq
      cases hq; exact Or.inl ⟨rfl, rfl⟩

/-- Adding one item. -/
theorem addNew_newer [DecidableEq D] {g g' : PyGroup D V} (h : GroupOk g) {x : PyItemObj D V}
    (hg : (g.alloc x).addObj g.fresh x = some g') :
    (∀ i, Newer (g.getId i) (g'.getId i)) ∧ ∀ n, Newer (g.getName n) (g'.getName n) := by
  obtain ⟨g1, h1, _, h3⟩ := addNew_ok h x
  rw [hg] at h1; cases h1
  obtain ⟨_, hout, _⟩ := h.alloc x
  rcases h3 with ⟨o', y, _, _, _, rfl⟩ | ⟨_, hi⟩
  · cases hv : x.value with
    | none =>
      simp only [PyGroup.transfer]
      exact ⟨fun i => by rw [alloc_getId h]; exact Newer.refl _, fun n => by rw [alloc_getName h]; exact Newer.refl _⟩
    | some v =>
      simp only [PyGroup.transfer]
      refine ⟨fun i => ?_, fun n => ?_⟩
      · rw [← alloc_getId h x i]
        simp only [PyGroup.getId]
        rw [(setValue_dicts (g.alloc x) o' v).1]
        exact setValue_newer _ _ _ _
      · rw [← alloc_getName h x n]
        simp only [PyGroup.getName]
        rw [(setValue_dicts (g.alloc x) o' v).2]
        exact setValue_newer _ _ _ _
  · refine ⟨fun i => ?_, fun n => ?_⟩
    · rw [← alloc_getId h x i]; exact installed_newer_id hout hi i
    · rw [← alloc_getName h x n]; exact installed_newer_name hout hi n

theorem updateItems_dicts (dec : D → R → Option V) : ∀ (is : List (Nat × R)) (g : PyGroup D V),
    (g.updateItems dec is).1.byId = g.byId ∧ (g.updateItems dec is).1.byName = g.byName := by
  intro is
  induction is with
  | nil => intro g; exact ⟨rfl, rfl⟩
  | cons e rest ih =>
    obtain ⟨i, r⟩ := e
    intro g
    rw [PyGroup.updateItems]
    split
    · exact ih g
    · split
      · exact ih g
      · next o x _ =>
        split
        · exact ⟨rfl, rfl⟩
        · next v _ =>
          obtain ⟨h1, h2⟩ := ih ((g.setValue o v).bump o)
          rw [h1, h2, (bump_dicts _ _).1, (bump_dicts _ _).2]
          exact setValue_dicts g o v

theorem deref_ne_none {g : PyGroup D V} {o : Nat} {x : PyItemObj D V} (hx : g.objs o = some x) : g.deref (some o) ≠ none := by
  simp [PyGroup.deref, hx]

theorem updateItems_newer (dec : D → R → Option V) : ∀ (is : List (Nat × R)) (g : PyGroup D V) (r : Option Nat),
    Newer (g.deref r) ((g.updateItems dec is).1.deref r) := by
  intro is
  induction is with
  | nil => intro g r; exact Newer.refl _
  | cons e rest ih =>
    obtain ⟨i, raw⟩ := e
    intro g r
    rw [PyGroup.updateItems]
    split
    · exact ih g r
    · split
      · exact ih g r
      · next o x _ =>
        split
        · exact Newer.refl _
        · next v _ =>
          intro a p b q h1 h2
          have h1' := h1
          obtain ⟨hr, hp⟩ := deref_some.mp h1
          subst hr
          have hmid : ((g.setValue o v).bump o).deref (some a) ≠ none := by
            have s1 : ∃ y, (g.setValue o v).objs a = some y := by
              rw [PyGroup.setValue]; split
              · exact ⟨p, hp⟩
              · next z _ =>
                by_cases he : a = o
                · exact ⟨{ z with value := some v, version := z.version + 1 }, by simp [PyGroup.put, he]⟩
                · exact ⟨p, by simp [PyGroup.put, he, hp]⟩
            obtain ⟨y, hy⟩ := s1
            have s2 : ∃ y, ((g.setValue o v).bump o).objs a = some y := by
              rw [PyGroup.bump]; split
              · exact ⟨y, hy⟩
              · next z _ =>
                by_cases he : a = o
                · exact ⟨{ z with version := z.version + 1 }, by simp [PyGroup.put, he]⟩
                · exact ⟨y, by simp [PyGroup.put, he, hy]⟩
            obtain ⟨z, hz⟩ := s2
            exact deref_ne_none hz
          have hset : (g.setValue o v).deref (some a) ≠ none := by
            rw [PyGroup.setValue]; split
            · exact deref_ne_none hp
            · next z _ =>
              by_cases he : a = o
              · simp [PyGroup.deref, PyGroup.put, he]
              · simp [PyGroup.deref, PyGroup.put, he, hp]
          exact Newer.trans hmid (Newer.trans hset (setValue_newer g o v (some a)) (bump_newer _ o (some a)))
            (ih _ (some a)) a p b q h1' h2

end

end Spead2
