import Verif.Lemmas.PySync

/-!
# The invariant of a sender and a receiver
-/

namespace Spead2
open Spec

variable {D V R : Type}

/-! ## Single decisions -/

structure DescFacts (q : PyGen) (dm : SendMode) (o : Nat) (i0 : PyItemInfo) (sd : Bool) (i1 : PyItemInfo) : Prop where
  sent : dm ≠ .none → sd = true ∨ (i0.descriptorCnt ≠ none ∧ i0.item = o)
  cnt : dm ≠ .none → i1.descriptorCnt ≠ none
  info : (i1.version = i0.version ∧ i1.item = i0.item) ∨ (i1.version = none ∧ i1.item = o)
  stale : dm = .stale → q.frequency = none → i0.descriptorCnt ≠ none → i1.version ≠ none → i0.item = o
  off : dm = .none → sd = false ∧ i1 = i0

theorem decideDesc_facts (q : PyGen) (dm : SendMode) (o : Nat) (i0 : PyItemInfo) :
    DescFacts q dm o i0 (q.decideDesc dm o i0).1 (q.decideDesc dm o i0).2 := by
  cases dm with
  | all => exact ⟨by simp [PyGen.decideDesc], by simp [PyGen.decideDesc], Or.inl ⟨rfl, rfl⟩, (by intro h; cases h), by intro h; cases h⟩
  | none => exact ⟨by simp, by simp, Or.inl ⟨rfl, rfl⟩, (by intro h; cases h), fun _ => ⟨rfl, rfl⟩⟩
  | stale =>
    obtain ⟨ver, c, it⟩ := i0
    cases c with
    | none =>
      have e : q.decideDesc .stale o ⟨ver, none, it⟩ = (true, ⟨ver, some q.cnt, it⟩) := rfl
      rw [e]
      exact ⟨by simp, by simp, Or.inl ⟨rfl, rfl⟩, by simp, by intro h; cases h⟩
    | some sent =>
      by_cases hd : q.due sent = true
      · have e : q.decideDesc .stale o ⟨ver, some sent, it⟩ = (true, ⟨ver, some q.cnt, it⟩) := by
          simp [PyGen.decideDesc, PyGen.descriptorStale, hd]
        rw [e]
        refine ⟨by simp, by simp, Or.inl ⟨rfl, rfl⟩, ?_, by intro h; cases h⟩
        intro _ hf
        simp [PyGen.due, hf] at hd
      · by_cases he : it = o
        · have e : q.decideDesc .stale o ⟨ver, some sent, it⟩ = (false, ⟨ver, some sent, it⟩) := by
            simp [PyGen.decideDesc, PyGen.descriptorStale, hd, he]
          rw [e]
          exact ⟨by simp [he], by simp, Or.inl ⟨rfl, rfl⟩, fun _ _ _ _ => he, by intro h; cases h⟩
        · have e : q.decideDesc .stale o ⟨ver, some sent, it⟩ = (true, ⟨none, some q.cnt, o⟩) := by
            simp [PyGen.decideDesc, PyGen.descriptorStale, hd, he]
          rw [e]
          exact ⟨by simp, by simp, Or.inr ⟨rfl, rfl⟩, by simp, by intro h; cases h⟩

structure DataFacts (vm : SendMode) (x : PyItemObj D V) (i1 : PyItemInfo) (sv : Option V) (i2 : PyItemInfo) : Prop where
  item : i2.item = i1.item
  cnt : i2.descriptorCnt = i1.descriptorCnt
  sent : ∀ v, sv = some v → x.value = some v ∧ i2.version = some x.version
  kept : sv = none → i2.version = i1.version
  skip : vm ≠ .none → x.value ≠ none → sv = none → i1.version = some x.version
  off : vm = .none → sv = none ∧ i2 = i1

theorem decideData_facts (vm : SendMode) (x : PyItemObj D V) (i1 : PyItemInfo) :
    DataFacts vm x i1 (decideData vm x i1).1 (decideData vm x i1).2 := by
  simp only [decideData]
  split
  · next hv => exact ⟨rfl, rfl, by simp, by simp, by simp [hv], by simp⟩
  · next v hv =>
    split
    · next hc =>
      refine ⟨rfl, rfl, by simp [hv], by simp, by simp, ?_⟩
      rintro rfl
      rcases hc with hc | hc
      · cases hc
      · cases hc.1
    · next hc =>
      refine ⟨rfl, rfl, by simp, by simp, ?_, by simp⟩
      intro hvm _ _
      simp only [not_or, not_and, ne_eq, Decidable.not_not] at hc
      cases vm with
      | all => exact absurd rfl hc.1
      | none => exact absurd rfl hvm
      | stale => exact hc.2 rfl

/-! ## The invariant -/

structure SyncItem (strict : Prop) (r : PyGroup D V) (o : Nat) (x : PyItemObj D V) (inf : PyItemInfo) : Prop where
  has : inf.descriptorCnt ≠ none → inf.item = o → r.Shows x.id x.name x.rest none
  val : (strict ∨ inf.item = o) → inf.version = some x.version → r.Shows x.id x.name x.rest x.value
  le : (strict ∨ inf.item = o) → ∀ k, inf.version = some k → k ≤ x.version

structure SyncInv (strict : Prop) (used : Nat → Prop) (s : SyncState D V) : Prop where
  grp : GroupOk s.grp
  recv : GroupOk s.recv
  ids : ∀ i o x, s.grp.getId i = some (o, x) → 6 < i
  used : strict → ∀ i inf, s.gen.info i = some inf → used i
  fresh : ∀ i inf, s.gen.info i = some inf → inf.item < s.grp.fresh
  cnt : ∀ i inf, s.gen.info i = some inf → inf.descriptorCnt = none → inf.version = none
  item : ∀ i o x inf, s.grp.getId i = some (o, x) → s.gen.info i = some inf → SyncItem strict s.recv o x inf

theorem SyncInv.start (strict : Prop) (frequency : Option Nat) :
    SyncInv strict (fun _ => False) (SyncState.start frequency : SyncState D V) := by
  refine ⟨GroupOk.empty, GroupOk.empty, ?_, ?_, ?_, ?_, ?_⟩
  · intro i o x h; cases h
  · intro _ i inf h; cases h
  · intro i inf h; cases h
  · intro i inf h; cases h
  · intro i o x inf h; cases h

theorem SyncInv.getInfo {strict : Prop} {used : Nat → Prop} {s : SyncState D V} (h : SyncInv strict used s) {i o : Nat}
    {x : PyItemObj D V} (hx : s.grp.getId i = some (o, x)) :
    SyncItem strict s.recv o x (s.gen.getInfo i o) ∧ (s.gen.getInfo i o).item < s.grp.fresh ∧
      ((s.gen.getInfo i o).descriptorCnt = none → (s.gen.getInfo i o).version = none) := by
  rw [PyGen.getInfo]
  cases hi : s.gen.info i with
  | some inf => exact ⟨h.item _ _ _ _ hx hi, h.fresh _ _ hi, h.cnt _ _ hi⟩
  | none =>
    refine ⟨⟨by simp, by simp, by simp⟩, ?_, by simp⟩
    exact h.grp.fresh o x (getId_some.mp hx).2

/-! ## Changes of the group -/

/-- Items keep their objects, or come with new objects; versions grow. -/
structure GroupStep (strict : Prop) (used : Nat → Prop) (g g' : PyGroup D V) : Prop where
  ok : GroupOk g'
  fresh : g.fresh ≤ g'.fresh
  ids : ∀ i o x, g'.getId i = some (o, x) → 6 < i
  item : ∀ i o x, g'.getId i = some (o, x) →
    (g.getId i = some (o, x)) ∨
    (∃ z, g.getId i = some (o, z) ∧ z.id = x.id ∧ z.name = x.name ∧ z.rest = x.rest ∧ z.version < x.version) ∨
    (g.fresh ≤ o ∧ ∀ p z, g.getId i = some (p, z) → z.version < x.version)
  new : strict → ∀ i, g'.getId i ≠ none → g.getId i ≠ none ∨ ¬ used i

theorem SyncInv.change {strict : Prop} {used used' : Nat → Prop} {s : SyncState D V} (h : SyncInv strict used s) {g' : PyGroup D V}
    (hs : GroupStep strict used s.grp g') (hu : ∀ i, used i → used' i) : SyncInv strict used' { s with grp := g' } := by
  refine ⟨hs.ok, h.recv, hs.ids, fun st i inf hi => hu i (h.used st i inf hi),
    fun i inf hi => Nat.lt_of_lt_of_le (h.fresh i inf hi) hs.fresh, h.cnt, ?_⟩
  intro i o x inf hx hi
  change s.gen.info i = some inf at hi
  rcases hs.item i o x hx with h1 | ⟨z, h1, e1, e2, e3, e4⟩ | ⟨h1, h2⟩
  · exact h.item _ _ _ _ h1 hi
  · have k := h.item _ _ _ _ h1 hi
    refine ⟨?_, ?_, ?_⟩
    · intro a b
      have := k.has a b
      rwa [e1, e2, e3] at this
    · intro a b
      have := k.le a _ b
      omega
    · intro a kk b
      have := k.le a _ b
      omega
  · have hne : inf.item ≠ o := by
      have := h.fresh i inf hi
      omega
    -- the old item, if the information can be relied on
    have hle : (strict ∨ inf.item = o) → ∀ k, inf.version = some k → k < x.version := by
      intro a k hk
      rcases a with a | a
      · rcases hs.new a i (by intro e; exact absurd (show g'.getId i = some (o, x) from hx) (by rw [e]; simp)) with b | b
        · obtain ⟨⟨p, z⟩, hz⟩ := Option.ne_none_iff_exists'.mp b
          have := (h.item _ _ _ _ hz hi).le (Or.inl a) k hk
          have := h2 p z hz
          omega
        · exact absurd (h.used a i inf hi) b
      · exact absurd a hne
    refine ⟨fun _ b => absurd b hne, ?_, ?_⟩
    · intro a b
      have := hle a _ b
      omega
    · intro a k b
      exact Nat.le_of_lt (hle a k b)

theorem put_step {strict : Prop} {used : Nat → Prop} {g : PyGroup D V} (h : GroupOk g)
    (hids : ∀ i o x, g.getId i = some (o, x) → 6 < i) {o : Nat} {z y : PyItemObj D V} (hz : g.objs o = some z)
    (e1 : y.id = z.id) (e2 : y.name = z.name) (e3 : y.rest = z.rest) (e4 : z.version < y.version) :
    GroupStep strict used g (g.put o y) := by
  have hget : ∀ i p x, (g.put o y).getId i = some (p, x) →
      g.getId i = some (p, x) ∨ (p = o ∧ x = y ∧ g.getId i = some (o, z)) := by
    intro i p x hx
    obtain ⟨h1, h2⟩ := getId_some.mp hx
    change dictGet i g.byId = some p at h1
    change (if p = o then some y else g.objs p) = some x at h2
    by_cases hp : p = o
    · rw [if_pos hp] at h2
      cases h2
      exact Or.inr ⟨hp, rfl, getId_some.mpr ⟨hp ▸ h1, hz⟩⟩
    · rw [if_neg hp] at h2
      exact Or.inl (getId_some.mpr ⟨h1, h2⟩)
  refine ⟨h.put hz e1 e2, Nat.le_refl _, ?_, ?_, ?_⟩
  · intro i p x hx
    rcases hget i p x hx with k | ⟨_, _, k⟩
    · exact hids _ _ _ k
    · exact hids _ _ _ k
  · intro i p x hx
    rcases hget i p x hx with k | ⟨rfl, rfl, k⟩
    · exact Or.inl k
    · exact Or.inr (Or.inl ⟨z, k, e1.symm, e2.symm, e3.symm, e4⟩)
  · intro _ i hi
    left
    obtain ⟨⟨p, x⟩, hx⟩ := Option.ne_none_iff_exists'.mp hi
    rcases hget i p x hx with k | ⟨_, _, k⟩
    · rw [k]; simp
    · rw [k]; simp

theorem same_step {strict : Prop} {used : Nat → Prop} {g : PyGroup D V} (h : GroupOk g)
    (hids : ∀ i o x, g.getId i = some (o, x) → 6 < i) : GroupStep strict used g g :=
  ⟨h, Nat.le_refl _, hids, fun _ _ _ hx => Or.inl hx, fun _ _ hi => Or.inl hi⟩

theorem setValue_step {strict : Prop} {used : Nat → Prop} {g : PyGroup D V} (h : GroupOk g)
    (hids : ∀ i o x, g.getId i = some (o, x) → 6 < i) (o : Nat) (v : V) : GroupStep strict used g (g.setValue o v) := by
  rw [PyGroup.setValue]
  split
  · exact same_step h hids
  · next z hz => exact put_step h hids hz rfl rfl rfl (Nat.lt_succ_self _)

theorem bump_step {strict : Prop} {used : Nat → Prop} {g : PyGroup D V} (h : GroupOk g)
    (hids : ∀ i o x, g.getId i = some (o, x) → 6 < i) (o : Nat) : GroupStep strict used g (g.bump o) := by
  rw [PyGroup.bump]
  split
  · exact same_step h hids
  · next z hz => exact put_step h hids hz rfl rfl rfl (Nat.lt_succ_self _)

theorem addNew_step [DecidableEq D] {strict : Prop} {used : Nat → Prop} {g g' : PyGroup D V} (h : GroupOk g)
    (hids : ∀ i o x, g.getId i = some (o, x) → 6 < i) {x : PyItemObj D V} (h6 : 6 < x.id)
    (hg : (g.alloc x).addObj g.fresh x = some g') (hnew : strict → ∀ i, g'.getId i ≠ none → g.getId i ≠ none ∨ ¬ used i) :
    GroupStep strict used g g' := by
  obtain ⟨hok, o, y, h1, h2, h3, h4, h5⟩ := addNew_here h hg
  have hother : ∀ j, j ≠ x.id → ∀ p z, g'.getId j = some (p, z) → g.getId j = some (p, z) := by
    intro j hj p z hz
    obtain ⟨k1, k2⟩ := addNew_other h hg hj
    cases hb : g.getId j with
    | none =>
      rw [k2 (by intro o y hy; rw [hb] at hy; cases hy), hb] at hz
      cases hz
    | some q =>
      obtain ⟨q, w⟩ := q
      by_cases hn : w.name = x.name
      · rw [k1 _ _ hb hn] at hz; cases hz
      · rw [k2 (by intro o y hy; rw [hb] at hy; cases hy; exact hn), hb] at hz
        exact hz
  refine ⟨hok, ?_, ?_, ?_, hnew⟩
  · obtain ⟨g1, k1, _, k3⟩ := addNew_ok h x
    rw [hg] at k1; cases k1
    rcases k3 with ⟨o', z, _, _, _, rfl⟩ | ⟨_, hi⟩
    · cases x.value with
      | none => exact Nat.le_succ _
      | some v =>
        simp only [PyGroup.transfer, PyGroup.setValue]
        split <;> exact Nat.le_succ _
    · rw [hi.fresh]; exact Nat.le_succ _
  · intro i p z hz
    by_cases hi : i = x.id
    · rw [hi]; exact h6
    · exact hids _ _ _ (hother i hi p z hz)
  · intro i p z hz
    by_cases hi : i = x.id
    · subst hi
      rw [h1] at hz; cases hz
      have hnewer := (addNew_newer h hg).1 x.id
      rcases h5 with ⟨e1, _, _, e4⟩ | ⟨w, e1, e2, e3, e4⟩
      · right; right
        refine ⟨by omega, ?_⟩
        intro p' w hw
        rcases hnewer p' w o y hw h1 with ⟨k, _⟩ | k
        · have := h.fresh p' w (getId_some.mp hw).2
          omega
        · exact k
      · cases hv : x.value with
        | none =>
          rw [hv] at e4
          simp only [] at e4
          subst e4
          exact Or.inl e1
        | some v =>
          rw [hv] at e4
          simp only [] at e4
          subst e4
          exact Or.inr (Or.inl ⟨w, e1, rfl, rfl, rfl, Nat.lt_succ_self _⟩)
    · exact Or.inl (hother i hi p z hz)

end Spead2
