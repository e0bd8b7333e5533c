import Verif.Model.PyGroup

/-! The two dictionaries of an item group always describe the same items. -/

namespace Spead2

section dict
variable {K : Type} [DecidableEq K]

theorem dictGet_set (k k' : K) (v : Nat) : ∀ d : List (K × Nat),
    dictGet k' (dictSet k v d) = if k' = k then some v else dictGet k' d := by
  intro d
  induction d with
  | nil => simp only [dictSet, dictGet]; by_cases h : k' = k
           · simp [h]
           · simp [h, Ne.symm h]
  | cons e rest ih =>
    obtain ⟨a, b⟩ := e
    simp only [dictSet]
    by_cases ha : a = k
    · subst ha
      by_cases h : k' = a
      · simp [dictGet, h]
      · simp [dictGet, h, Ne.symm h]
    · simp only [if_neg ha, dictGet, ih]
      by_cases h : a = k'
      · subst h; simp [ha]
      · simp [h]

theorem dictGet_mem {k : K} {v : Nat} : ∀ {d : List (K × Nat)}, dictGet k d = some v → (k, v) ∈ d := by
  intro d
  induction d with
  | nil => intro h; cases h
  | cons e rest ih =>
    obtain ⟨a, b⟩ := e
    intro h
    simp only [dictGet] at h
    split at h
    · next ha => cases h; subst ha; exact List.mem_cons_self
    · exact List.mem_cons_of_mem _ (ih h)

theorem dictGet_none {k : K} : ∀ {d : List (K × Nat)}, dictGet k d = none ↔ k ∉ d.map Prod.fst := by
  intro d
  induction d with
  | nil => simp [dictGet]
  | cons e rest ih =>
    obtain ⟨a, b⟩ := e
    simp only [dictGet, List.map_cons, List.mem_cons, not_or]
    split
    · next ha => simp [ha]
    · next ha => rw [ih]; simp [Ne.symm ha]

theorem mem_dictGet {k : K} {v : Nat} : ∀ {d : List (K × Nat)}, (d.map Prod.fst).Nodup → (k, v) ∈ d →
    dictGet k d = some v := by
  intro d
  induction d with
  | nil => intro _ h; cases h
  | cons e rest ih =>
    obtain ⟨a, b⟩ := e
    intro hn h
    simp only [List.map_cons, List.nodup_cons] at hn
    simp only [dictGet]
    rcases List.mem_cons.mp h with h | h
    · cases h; simp
    · rw [if_neg, ih hn.2 h]
      intro e0; subst e0
      exact hn.1 (List.mem_map_of_mem (f := Prod.fst) h)

theorem dictSet_keys {k : K} {v : Nat} : ∀ {d : List (K × Nat)}, k ∉ d.map Prod.fst → dictSet k v d = d ++ [(k, v)] := by
  intro d
  induction d with
  | nil => intro _; rfl
  | cons e rest ih =>
    obtain ⟨a, b⟩ := e
    intro h
    simp only [List.map_cons, List.mem_cons, not_or] at h
    simp only [dictSet, if_neg (Ne.symm h.1), ih h.2, List.cons_append]

theorem dictDel_ok {k : K} {v : Nat} : ∀ {d : List (K × Nat)}, (d.map Prod.fst).Nodup → dictGet k d = some v →
    ∃ d', dictDel k d = some d' ∧ (d'.map Prod.fst).Nodup ∧ d'.length + 1 = d.length ∧
      ∀ k', dictGet k' d' = if k' = k then none else dictGet k' d := by
  intro d
  induction d with
  | nil => intro _ h; cases h
  | cons e rest ih =>
    obtain ⟨a, b⟩ := e
    intro hn h
    simp only [List.map_cons, List.nodup_cons] at hn
    by_cases ha : a = k
    · subst ha
      refine ⟨rest, by simp [dictDel], hn.2, rfl, ?_⟩
      intro k'
      by_cases hk : k' = a
      · subst hk; rw [if_pos rfl]; exact dictGet_none.mpr hn.1
      · rw [if_neg hk]; simp [dictGet, Ne.symm hk]
    · simp only [dictGet, if_neg ha] at h
      obtain ⟨d', h1, h2, h3, h4⟩ := ih hn.2 h
      refine ⟨(a, b) :: d', by simp [dictDel, ha, h1], ?_, by simp [h3], ?_⟩
      · simp only [List.map_cons, List.nodup_cons]
        refine ⟨?_, h2⟩
        rw [← dictGet_none, h4, if_neg ha]
        exact dictGet_none.mpr hn.1
      · intro k'
        simp only [dictGet, h4]
        by_cases hk : a = k'
        · subst hk; simp [ha]
        · simp [hk]

end dict

section
variable {D V R : Type}

/-- Both dictionaries describe the same items, each under its own id and name. -/
structure GroupOk (g : PyGroup D V) : Prop where
  ids : (g.byId.map Prod.fst).Nodup
  names : (g.byName.map Prod.fst).Nodup
  byId : ∀ i o, dictGet i g.byId = some o → ∃ x, g.objs o = some x ∧ x.id = i ∧ dictGet x.name g.byName = some o
  byName : ∀ n o, dictGet n g.byName = some o → ∃ x, g.objs o = some x ∧ x.name = n ∧ dictGet x.id g.byId = some o
  fresh : ∀ o x, g.objs o = some x → o < g.fresh

/-- The object is not in the group. -/
def Outside (g : PyGroup D V) (o : Nat) : Prop := (∀ i, dictGet i g.byId ≠ some o) ∧ ∀ n, dictGet n g.byName ≠ some o

theorem GroupOk.empty : GroupOk (PyGroup.empty : PyGroup D V) :=
  ⟨List.nodup_nil, List.nodup_nil, (by intro i o h; cases h), (by intro i o h; cases h), (by intro o x h; cases h)⟩

theorem GroupOk.alloc {g : PyGroup D V} (h : GroupOk g) (x : PyItemObj D V) :
    GroupOk (g.alloc x) ∧ Outside (g.alloc x) g.fresh ∧ (g.alloc x).objs g.fresh = some x := by
  have hne : ∀ o y, g.objs o = some y → o ≠ g.fresh := fun o y hy => Nat.ne_of_lt (h.fresh o y hy)
  refine ⟨⟨h.ids, h.names, ?_, ?_, ?_⟩, ⟨?_, ?_⟩, by simp [PyGroup.alloc]⟩
  · intro i o ho
    obtain ⟨y, h1, h2⟩ := h.byId i o ho
    exact ⟨y, by simp [PyGroup.alloc, hne o y h1, h1], h2⟩
  · intro n o ho
    obtain ⟨y, h1, h2⟩ := h.byName n o ho
    exact ⟨y, by simp [PyGroup.alloc, hne o y h1, h1], h2⟩
  · intro o y ho
    simp only [PyGroup.alloc] at ho ⊢
    split at ho
    · omega
    · have := h.fresh o y ho; omega
  · intro i hi
    obtain ⟨y, h1, _⟩ := h.byId i _ hi
    exact hne _ y h1 rfl
  · intro n hn
    obtain ⟨y, h1, _⟩ := h.byName n _ hn
    exact hne _ y h1 rfl

/-- Changing the value or the version of an object. -/
theorem GroupOk.put {g : PyGroup D V} (h : GroupOk g) {o : Nat} {x y : PyItemObj D V} (hx : g.objs o = some x)
    (hi : y.id = x.id) (hn : y.name = x.name) : GroupOk (g.put o y) := by
  refine ⟨h.ids, h.names, ?_, ?_, ?_⟩
  · intro i o' ho
    obtain ⟨z, h1, h2, h3⟩ := h.byId i o' ho
    by_cases he : o' = o
    · subst he
      rw [hx] at h1; cases h1
      exact ⟨y, by simp [PyGroup.put], by rw [hi, h2], by rw [hn]; exact h3⟩
    · exact ⟨z, by simp [PyGroup.put, he, h1], h2, h3⟩
  · intro n o' ho
    obtain ⟨z, h1, h2, h3⟩ := h.byName n o' ho
    by_cases he : o' = o
    · subst he
      rw [hx] at h1; cases h1
      exact ⟨y, by simp [PyGroup.put], by rw [hn, h2], by rw [hi]; exact h3⟩
    · exact ⟨z, by simp [PyGroup.put, he, h1], h2, h3⟩
  · intro o' z hz
    simp only [PyGroup.put] at hz ⊢
    split at hz
    · next he => subst he; exact h.fresh _ x hx
    · exact h.fresh o' z hz

theorem GroupOk.setValue {g : PyGroup D V} (h : GroupOk g) (o : Nat) (v : V) : GroupOk (g.setValue o v) := by
  rw [PyGroup.setValue]
  split
  · exact h
  · next x hx => exact h.put hx rfl rfl

theorem GroupOk.bump {g : PyGroup D V} (h : GroupOk g) (o : Nat) : GroupOk (g.bump o) := by
  rw [PyGroup.bump]
  split
  · exact h
  · next x hx => exact h.put hx rfl rfl

/-- Two ids with the same object are the same. -/
theorem GroupOk.id_inj {g : PyGroup D V} (h : GroupOk g) {i j o : Nat} (hi : dictGet i g.byId = some o)
    (hj : dictGet j g.byId = some o) : i = j := by
  obtain ⟨x, h1, h2, _⟩ := h.byId i o hi
  obtain ⟨y, h3, h4, _⟩ := h.byId j o hj
  rw [h1] at h3; cases h3; rw [← h2, ← h4]

theorem GroupOk.name_inj {g : PyGroup D V} (h : GroupOk g) {i j : String} {o : Nat} (hi : dictGet i g.byName = some o)
    (hj : dictGet j g.byName = some o) : i = j := by
  obtain ⟨x, h1, h2, _⟩ := h.byName i o hi
  obtain ⟨y, h3, h4, _⟩ := h.byName j o hj
  rw [h1] at h3; cases h3; rw [← h2, ← h4]

/-- What installing a new item does. -/
structure Installed (g g' : PyGroup D V) (o : Nat) (x : PyItemObj D V) : Prop where
  id : dictGet x.id g'.byId = some o
  name : dictGet x.name g'.byName = some o
  ids : ∀ i, i ≠ x.id → dictGet i g'.byId =
    if dictGet i g.byId = dictGet x.name g.byName then none else dictGet i g.byId
  names : ∀ n, n ≠ x.name → dictGet n g'.byName =
    if dictGet n g.byName = dictGet x.id g.byId then none else dictGet n g.byName
  obj : ∃ v, g'.objs o = some { x with version := v } ∧ x.version ≤ v ∧
    (∀ o' y, dictGet x.id g.byId = some o' → g.objs o' = some y → y.version < v) ∧
    (∀ o' y, dictGet x.name g.byName = some o' → g.objs o' = some y → y.version < v)
  objs : ∀ o', o' ≠ o → g'.objs o' = g.objs o'
  fresh : g'.fresh = g.fresh

theorem remove_ok {g : PyGroup D V} (hi : (g.byId.map Prod.fst).Nodup) (hn : (g.byName.map Prod.fst).Nodup)
    {x : PyItemObj D V} {a b : Nat} (h1 : dictGet x.id g.byId = some a) (h2 : dictGet x.name g.byName = some b) :
    ∃ g', g.remove x = some g' ∧ (g'.byId.map Prod.fst).Nodup ∧ (g'.byName.map Prod.fst).Nodup ∧
      g'.objs = g.objs ∧ g'.fresh = g.fresh ∧
      (∀ k, dictGet k g'.byId = if k = x.id then none else dictGet k g.byId) ∧
      (∀ k, dictGet k g'.byName = if k = x.name then none else dictGet k g.byName) := by
  obtain ⟨d1, e1, e2, _, e4⟩ := dictDel_ok hi h1
  obtain ⟨d2, f1, f2, _, f4⟩ := dictDel_ok hn h2
  exact ⟨{ g with byId := d1, byName := d2 }, by simp only [PyGroup.remove, e1, f1], e2, f2, rfl, rfl, e4, f4⟩

theorem deref_some {g : PyGroup D V} {r : Option Nat} {o : Nat} {x : PyItemObj D V} :
    g.deref r = some (o, x) ↔ r = some o ∧ g.objs o = some x := by
  cases r with
  | none => simp [PyGroup.deref]
  | some a =>
    simp only [PyGroup.deref, Option.map_eq_some_iff, Prod.mk.injEq, Option.some.injEq]
    constructor
    · rintro ⟨y, h1, h2, h3⟩; subst h2; subst h3; exact ⟨rfl, h1⟩
    · rintro ⟨h1, h2⟩; subst h1; exact ⟨x, h2, rfl, rfl⟩

theorem dictSet_nodup {K : Type} [DecidableEq K] {k : K} {v : Nat} {d : List (K × Nat)} (h : (d.map Prod.fst).Nodup)
    (hk : dictGet k d = none) : ((dictSet k v d).map Prod.fst).Nodup := by
  have := dictGet_none.mp hk
  rw [dictSet_keys this, List.map_append, List.nodup_append]
  refine ⟨h, by simp, ?_⟩
  intro a ha b hb e
  simp only [List.map_cons, List.map_nil, List.mem_singleton] at hb
  subst hb; subst e; exact this ha

theorem bumpPast_le (v : Nat) (r : Option (Nat × PyItemObj D V)) : v ≤ bumpPast v r := by
  cases r with
  | none => exact Nat.le_refl _
  | some p => exact Nat.le_max_left _ _

theorem bumpPast_lt (v o : Nat) (x : PyItemObj D V) : x.version < bumpPast v (some (o, x)) := by
  show x.version < max v (x.version + 1); omega

theorem install_ok {g : PyGroup D V} (h : GroupOk g) {o : Nat} {x : PyItemObj D V} (ho : Outside g o)
    (hx : g.objs o = some x) : ∃ g', g.install o x (g.deref (dictGet x.id g.byId)) (g.deref (dictGet x.name g.byName)) = some g' ∧
      Installed g g' o x ∧ (g'.byId.map Prod.fst).Nodup ∧ (g'.byName.map Prod.fst).Nodup := by
  -- the new version
  have hver : ∀ (v : Nat), v = bumpPast (bumpPast x.version (g.deref (dictGet x.id g.byId))) (g.deref (dictGet x.name g.byName)) →
      x.version ≤ v ∧ (∀ o' y, dictGet x.id g.byId = some o' → g.objs o' = some y → y.version < v) ∧
      (∀ o' y, dictGet x.name g.byName = some o' → g.objs o' = some y → y.version < v) := by
    intro v hv
    subst hv
    refine ⟨Nat.le_trans (bumpPast_le _ _) (bumpPast_le _ _), ?_, ?_⟩
    · intro o' y h1 h2
      rw [deref_some.mpr ⟨h1, h2⟩]
      exact Nat.lt_of_lt_of_le (bumpPast_lt _ _ _) (bumpPast_le _ _)
    · intro o' y h1 h2
      rw [deref_some.mpr ⟨h1, h2⟩]
      exact bumpPast_lt _ _ _
  generalize hv : bumpPast (bumpPast x.version (g.deref (dictGet x.id g.byId))) (g.deref (dictGet x.name g.byName)) = v at hver
  have hver := hver v rfl
  -- the final step, from the state after the removals
  have final : ∀ g1 : PyGroup D V, (g1.byId.map Prod.fst).Nodup → (g1.byName.map Prod.fst).Nodup →
      g1.objs = (g.put o { x with version := v }).objs → g1.fresh = g.fresh →
      dictGet x.id g1.byId = none → dictGet x.name g1.byName = none →
      (∀ i, i ≠ x.id → dictGet i g1.byId =
        if dictGet i g.byId = dictGet x.name g.byName then none else dictGet i g.byId) →
      (∀ n, n ≠ x.name → dictGet n g1.byName =
        if dictGet n g.byName = dictGet x.id g.byId then none else dictGet n g.byName) →
      let g2 : PyGroup D V := { g1 with byId := dictSet x.id o g1.byId, byName := dictSet x.name o g1.byName }
      Installed g g2 o x ∧ (g2.byId.map Prod.fst).Nodup ∧ (g2.byName.map Prod.fst).Nodup := by
    intro g1 hi hn hobj hfr hid hname hids hnames
    refine ⟨⟨?_, ?_, ?_, ?_, ⟨v, ?_, hver⟩, ?_, hfr⟩, dictSet_nodup hi hid, dictSet_nodup hn hname⟩
    · simp [dictGet_set]
    · simp [dictGet_set]
    · intro i hne; simp only [dictGet_set, if_neg hne]; exact hids i hne
    · intro n hne; simp only [dictGet_set, if_neg hne]; exact hnames n hne
    · show g1.objs o = _; rw [hobj]; simp [PyGroup.put]
    · intro o' hne; show g1.objs o' = _; rw [hobj]; simp [PyGroup.put, hne]
  simp only [PyGroup.install, hv]
  cases hold : dictGet x.id g.byId with
  | none =>
    have hd1 : g.deref none = none := rfl
    rw [hold] at final
    cases holdN : dictGet x.name g.byName with
    | none =>
      rw [holdN] at final
      simp only [hd1, PyGroup.removeOpt, Option.map_none, if_true]
      refine ⟨_, rfl, final (g.put o { x with version := v }) h.ids h.names rfl rfl hold holdN ?_ ?_⟩
      · intro i _; show dictGet i g.byId = _; split
        · next e => exact e
        · rfl
      · intro n _; show dictGet n g.byName = _; split
        · next e => exact e
        · rfl
    | some o2 =>
      rw [holdN] at final
      obtain ⟨x2, h1, h2, h3⟩ := h.byName x.name o2 holdN
      have hd2 : g.deref (some o2) = some (o2, x2) := deref_some.mpr ⟨rfl, h1⟩
      have hne : x2.id ≠ x.id := by intro e; rw [e, hold] at h3; cases h3
      obtain ⟨g1, e1, e2, e3, e4, e5, e6, e7⟩ := remove_ok (g := g.put o { x with version := v }) (x := x2) h.ids h.names
        (show dictGet x2.id g.byId = some o2 from h3) (show dictGet x2.name g.byName = some o2 from h2 ▸ holdN)
      simp only [hd1, hd2, PyGroup.removeOpt, Option.map_none, Option.map_some, reduceCtorEq, if_false, e1]
      refine ⟨_, rfl, final g1 e2 e3 e4 e5 ?_ ?_ ?_ ?_⟩
      · rw [e6, if_neg (Ne.symm hne)]; exact hold
      · rw [e7, if_pos h2.symm]
      · intro i _
        rw [e6]
        by_cases hi : i = x2.id
        · subst hi; rw [if_pos rfl, if_pos h3]
        · rw [if_neg hi, if_neg (fun e => hi (h.id_inj e h3))]; rfl
      · intro n hn
        rw [e7, h2, if_neg hn]
        show dictGet n g.byName = _
        split
        · next e => exact e
        · rfl
  | some o1 =>
    obtain ⟨x1, h1, h2, h3⟩ := h.byId x.id o1 hold
    have hd1 : g.deref (some o1) = some (o1, x1) := deref_some.mpr ⟨rfl, h1⟩
    rw [hold] at final
    obtain ⟨g1, e1, e2, e3, e4, e5, e6, e7⟩ := remove_ok (g := g.put o { x with version := v }) (x := x1) h.ids h.names
      (show dictGet x1.id g.byId = some o1 from h2 ▸ hold) (show dictGet x1.name g.byName = some o1 from h3)
    have hsame : x1.name = x.name ∨ dictGet x.name g.byName ≠ some o1 := by
      by_cases hc : dictGet x.name g.byName = some o1
      · exact Or.inl (h.name_inj h3 hc)
      · exact Or.inr hc
    cases holdN : dictGet x.name g.byName with
    | none =>
      rw [holdN] at final
      have hnn : x1.name ≠ x.name := by intro e; rw [e, holdN] at h3; cases h3
      have hd2 : g.deref none = none := rfl
      simp only [hd1, hd2, PyGroup.removeOpt, Option.map_none, Option.map_some, reduceCtorEq, if_false, e1]
      refine ⟨_, rfl, final g1 e2 e3 e4 e5 ?_ ?_ ?_ ?_⟩
      · rw [e6, if_pos h2.symm]
      · rw [e7, if_neg (Ne.symm hnn)]; exact holdN
      · intro i hi
        rw [e6, h2, if_neg hi]
        show dictGet i g.byId = _
        split
        · next e => exact e
        · rfl
      · intro n hn
        rw [e7]
        by_cases hk : n = x1.name
        · subst hk; rw [if_pos rfl, if_pos h3]
        · rw [if_neg hk, if_neg (fun e => hk (h.name_inj e h3))]; rfl
    | some o2 =>
      rw [holdN] at final
      obtain ⟨x2, f1, f2, f3⟩ := h.byName x.name o2 holdN
      have hd2 : g.deref (some o2) = some (o2, x2) := deref_some.mpr ⟨rfl, f1⟩
      by_cases heq : o2 = o1
      · subst heq
        rw [h1] at f1; cases f1
        simp only [hd1, PyGroup.removeOpt, Option.map_some, if_true, e1]
        refine ⟨_, rfl, final g1 e2 e3 e4 e5 ?_ ?_ ?_ ?_⟩
        · rw [e6, if_pos h2.symm]
        · rw [e7, if_pos f2.symm]
        · intro i hi
          rw [e6, h2, if_neg hi, if_neg (fun e => hi (h.id_inj e hold))]; rfl
        · intro n hn
          rw [e7, f2, if_neg hn, if_neg (fun e => hn (h.name_inj e holdN))]; rfl
      · have hne : x2.id ≠ x.id := by
          intro e; rw [e, hold] at f3; exact heq (Option.some.inj f3).symm
        have hnn : x1.name ≠ x.name := by
          intro e; rw [e, holdN] at h3; exact heq (Option.some.inj h3)
        obtain ⟨g2, k1, k2, k3, k4, k5, k6, k7⟩ := remove_ok (g := g1) (x := x2) (a := o2) (b := o2) e2 e3
          (by rw [e6, h2, if_neg hne]; exact f3) (by rw [e7, f2, if_neg (Ne.symm hnn)]; exact holdN)
        have hcond : ¬ (some o2 = some o1) := fun e => heq (Option.some.inj e)
        simp only [hd1, hd2, PyGroup.removeOpt, Option.map_some, e1, if_neg hcond, k1]
        refine ⟨_, rfl, final g2 k2 k3 (k4.trans e4) (k5.trans e5) ?_ ?_ ?_ ?_⟩
        · rw [k6, e6, if_pos h2.symm]; simp
        · rw [k7, if_pos f2.symm]
        · intro i hi
          rw [k6]
          by_cases hk : i = x2.id
          · subst hk; rw [if_pos rfl, if_pos f3]
          · rw [if_neg hk, if_neg (fun e => hk (h.id_inj e f3)), e6, h2, if_neg hi]; rfl
        · intro n hn
          rw [k7, f2, if_neg hn, e7]
          by_cases hk : n = x1.name
          · subst hk; rw [if_pos rfl, if_pos h3]
          · rw [if_neg hk, if_neg (fun e => hk (h.name_inj e h3))]; rfl

/-- The group is consistent after an item was installed. -/
theorem Installed.ok {g g' : PyGroup D V} {o : Nat} {x : PyItemObj D V} (h : GroupOk g) (ho : Outside g o)
    (hx : g.objs o = some x) (hi : Installed g g' o x) (hids : (g'.byId.map Prod.fst).Nodup)
    (hnames : (g'.byName.map Prod.fst).Nodup) : GroupOk g' := by
  obtain ⟨v, hobj, _⟩ := hi.obj
  refine ⟨hids, hnames, ?_, ?_, ?_⟩
  · intro i o' hg
    by_cases hne : i = x.id
    · subst hne
      rw [hi.id] at hg; cases hg
      exact ⟨_, hobj, rfl, hi.name⟩
    · rw [hi.ids i hne] at hg
      split at hg
      · cases hg
      · next hno =>
        have hoo : o' ≠ o := fun e => ho.1 i (e ▸ hg)
        obtain ⟨y, h1, h2, h3⟩ := h.byId i o' hg
        refine ⟨y, by rw [hi.objs o' hoo]; exact h1, h2, ?_⟩
        have hnn : y.name ≠ x.name := by intro e; rw [e] at h3; exact hno (by rw [hg, h3])
        rw [hi.names _ hnn, if_neg, h3]
        intro e
        rw [h3] at e
        exact hne (h.id_inj hg e.symm)
  · intro n o' hg
    by_cases hne : n = x.name
    · subst hne
      rw [hi.name] at hg; cases hg
      exact ⟨_, hobj, rfl, hi.id⟩
    · rw [hi.names n hne] at hg
      split at hg
      · cases hg
      · next hno =>
        have hoo : o' ≠ o := fun e => ho.2 n (e ▸ hg)
        obtain ⟨y, h1, h2, h3⟩ := h.byName n o' hg
        refine ⟨y, by rw [hi.objs o' hoo]; exact h1, h2, ?_⟩
        have hnn : y.id ≠ x.id := by intro e; rw [e] at h3; exact hno (by rw [hg, h3])
        rw [hi.ids _ hnn, if_neg, h3]
        intro e
        rw [h3] at e
        exact hne (h.name_inj hg e.symm)
  · intro o' y hy
    rw [hi.fresh]
    by_cases hoo : o' = o
    · subst hoo; exact h.fresh _ x hx
    · rw [hi.objs o' hoo] at hy; exact h.fresh o' y hy

/-- `_add_item`: either the descriptor is that of the item with this id, and only its value changes, or
the item is installed. -/
theorem addObj_ok [DecidableEq D] {g : PyGroup D V} (h : GroupOk g) {o : Nat} {x : PyItemObj D V} (ho : Outside g o)
    (hx : g.objs o = some x) : ∃ g', g.addObj o x = some g' ∧ GroupOk g' ∧
      ((∃ o' y, dictGet x.id g.byId = some o' ∧ g.objs o' = some y ∧ y.name = x.name ∧ y.rest = x.rest ∧
          g' = g.transfer o' x.value) ∨
        ((∀ o' y, dictGet x.id g.byId = some o' → g.objs o' = some y → ¬ (y.name = x.name ∧ y.rest = x.rest)) ∧
          Installed g g' o x)) := by
  rw [PyGroup.addObj]
  cases hs : sameDesc x (g.deref (dictGet x.id g.byId)) with
  | some o' =>
    cases hd : g.deref (dictGet x.id g.byId) with
    | none => rw [hd] at hs; cases hs
    | some p =>
      obtain ⟨o1, y⟩ := p
      rw [hd] at hs
      simp only [sameDesc] at hs
      split at hs
      · next hc =>
        cases hs
        obtain ⟨h1, h2⟩ := deref_some.mp hd
        refine ⟨_, rfl, ?_, Or.inl ⟨o', y, h1, h2, hc.1, hc.2, rfl⟩⟩
        cases x.value with
        | none => exact h
        | some v => exact h.setValue o' v
      · cases hs
  | none =>
    obtain ⟨g', h1, h2, h3, h4⟩ := install_ok h ho hx
    refine ⟨g', h1, h2.ok h ho hx h3 h4, Or.inr ⟨?_, h2⟩⟩
    intro o' y h5 h6 h7
    rw [deref_some.mpr ⟨h5, h6⟩] at hs
    simp [sameDesc, h7.1, h7.2] at hs

end

end Spead2
