import Verif.Lemmas.PySyncInv

/-!
# Sending a heap
-/

namespace Spead2
open Spec

variable {D V R : Type}

theorem filterMap_keys {A B : Type} {f : A → Option (Nat × B)} {k : A → Nat} (hf : ∀ a b, f a = some b → b.1 = k a) :
    ∀ l : List A, ((l.filterMap f).map Prod.fst).Sublist (l.map k) := by
  intro l
  induction l with
  | nil => exact List.Sublist.slnil
  | cons a rest ih =>
    rw [List.filterMap_cons]
    cases hfa : f a with
    | none => exact List.Sublist.cons _ ih
    | some b =>
      simp only [List.map_cons]
      rw [hf a b hfa]
      exact List.Sublist.cons_cons _ ih

/-- The generator after a heap. -/
theorem getHeap_gen {g : PyGroup D V} (hok : GroupOk g) (q : PyGen) (enc : D → V → R) (dm vm : SendMode) :
    (q.getHeap g enc dm vm).1.frequency = q.frequency ∧ (q.getHeap g enc dm vm).1.cnt = q.cnt + 1 ∧
      (∀ i, g.getId i = none → (q.getHeap g enc dm vm).1.info i = q.info i) ∧
      (∀ i o x, g.getId i = some (o, x) → (q.getHeap g enc dm vm).1.info i = some (q.fate dm vm o x).2.2) ∧
      (∀ p, p ∈ (q.getHeap g enc dm vm).2.descs ↔
        ∃ i o x, g.getId i = some (o, x) ∧ (q.fate dm vm o x).1 = true ∧ p = (x.id, x.name, x.rest)) ∧
      (∀ p, p ∈ (q.getHeap g enc dm vm).2.items ↔
        ∃ i o x v, g.getId i = some (o, x) ∧ (q.fate dm vm o x).2.1 = some v ∧ p = (x.id, enc x.rest v)) ∧
      ((q.getHeap g enc dm vm).2.items.map Prod.fst).Nodup := by
  cases ha : PyGen.addAll enc dm vm g.values (q, (⟨[], []⟩ : PyHeap D R)) with
  | mk q' h' =>
    obtain ⟨r1, r2, r3, r4, r5, r6⟩ := addAll_ok enc dm vm g.values q ⟨[], []⟩ (values_ids hok) q' h' ha
    have hq : q.getHeap g enc dm vm = ({ q' with cnt := q'.cnt + 1 }, h') := by
      simp only [PyGen.getHeap, ha]
    rw [hq]
    simp only [List.nil_append] at r5 r6
    have hin : ∀ i o x, g.getId i = some (o, x) → x.id = i ∧ (o, x) ∈ g.values := by
      intro i o x hx
      have e := (hok.consistent.byId _ _ _ hx).1
      exact ⟨e, (values_mem hok).mpr (by rw [e]; exact hx)⟩
    refine ⟨r2, by show q'.cnt + 1 = _; rw [r1], ?_, ?_, ?_, ?_, ?_⟩
    · intro i hi
      apply r3
      intro hm
      obtain ⟨⟨o, x⟩, hx, rfl⟩ := List.mem_map.mp hm
      rw [(values_mem hok).mp hx] at hi
      cases hi
    · intro i o x hx
      obtain ⟨rfl, hm⟩ := hin i o x hx
      exact r4 o x hm
    · intro p
      show p ∈ h'.descs ↔ _
      rw [r5, List.mem_filterMap]
      constructor
      · rintro ⟨⟨o, x⟩, hx, he⟩
        simp only [] at he
        split at he
        · next hb => cases he; exact ⟨x.id, o, x, (values_mem hok).mp hx, hb, rfl⟩
        · cases he
      · rintro ⟨i, o, x, hx, hb, rfl⟩
        exact ⟨(o, x), (hin i o x hx).2, by simp [hb]⟩
    · intro p
      show p ∈ h'.items ↔ _
      rw [r6, List.mem_filterMap]
      constructor
      · rintro ⟨⟨o, x⟩, hx, he⟩
        simp only [] at he
        cases hv : (q.fate dm vm o x).2.1 with
        | none => rw [hv] at he; cases he
        | some v => rw [hv] at he; cases he; exact ⟨x.id, o, x, v, (values_mem hok).mp hx, hv, rfl⟩
      · rintro ⟨i, o, x, v, hx, hb, rfl⟩
        exact ⟨(o, x), (hin i o x hx).2, by simp [hb]⟩
    · show (h'.items.map Prod.fst).Nodup
      rw [r6]
      refine List.Nodup.sublist (filterMap_keys (k := fun p => p.2.id) ?_ g.values) (values_ids hok)
      rintro ⟨o, x⟩ b hb
      simp only [] at hb
      cases hv : (q.fate dm vm o x).2.1 with
      | none => rw [hv] at hb; cases hb
      | some v => rw [hv] at hb; cases hb; rfl

/-- What the receiver has after a heap, item by item. -/
theorem send_core [DecidableEq D] {enc : D → V → R} {dec : D → R → Option V} (hcodec : ∀ d v, dec d (enc d v) = some v)
    {g r : PyGroup D V} {q : PyGen} (hok : GroupOk g) (hr : GroupOk r) (hids : ∀ i o x, g.getId i = some (o, x) → 6 < i)
    {dm vm : SendMode} (hd : ∀ i o x, g.getId i = some (o, x) → (q.fate dm vm o x).2.1 ≠ none →
      (q.fate dm vm o x).1 = true ∨ r.Shows x.id x.name x.rest none) :
    ∃ r', r.update dec (q.getHeap g enc dm vm).2 = some (r', false) ∧ GroupOk r' ∧
      ∀ i o x, g.getId i = some (o, x) →
        ((q.fate dm vm o x).1 = true ∨ r.Shows x.id x.name x.rest none → r'.Shows x.id x.name x.rest none) ∧
        (∀ v, (q.fate dm vm o x).2.1 = some v → r'.Shows x.id x.name x.rest (some v)) ∧
        (∀ w, (q.fate dm vm o x).2.1 = none → r.Shows x.id x.name x.rest w → r'.Shows x.id x.name x.rest w) := by
  obtain ⟨_, _, _, _, h5, h6, h7⟩ := getHeap_gen hok q enc dm vm
  obtain ⟨r1, hr1, hok1⟩ := updateDescs_total (q.getHeap g enc dm vm).2.descs hr
  have hagree : ∀ i o x, g.getId i = some (o, x) → ∀ p ∈ (q.getHeap g enc dm vm).2.descs, Agrees x.id x.name x.rest p := by
    intro i o x hx p hp
    obtain ⟨i', o', y, hy, _, rfl⟩ := (h5 p).mp hp
    obtain ⟨e1, e2⟩ := hok.consistent.byId _ _ _ hx
    obtain ⟨e3, e4⟩ := hok.consistent.byId _ _ _ hy
    constructor
    · intro e
      simp only [] at e
      rw [e3, e1] at e
      subst e
      rw [hx] at hy; cases hy
      exact ⟨rfl, rfl⟩
    · intro e e'
      simp only [] at e e'
      rw [e', e2] at e4
      cases e4
      exact e rfl
  have hkeep : ∀ i o x, g.getId i = some (o, x) → ∀ w, r.Shows x.id x.name x.rest w → r1.Shows x.id x.name x.rest w :=
    fun i o x hx w hs => descs_keep _ hr hr1 (hagree i o x hx) hs
  have hhas : ∀ i o x, g.getId i = some (o, x) →
      (q.fate dm vm o x).1 = true ∨ r.Shows x.id x.name x.rest none → r1.Shows x.id x.name x.rest none := by
    intro i o x hx h
    rcases h with h | h
    · exact descs_here _ hr hr1 (hagree i o x hx) ((h5 _).mpr ⟨i, o, x, hx, h, rfl⟩)
    · exact hkeep i o x hx _ h
  obtain ⟨k1, k2, k3⟩ := items_ok dec (q.getHeap g enc dm vm).2.items hok1 (by
    intro p hp
    obtain ⟨i, o, x, v, hx, hv, rfl⟩ := (h6 p).mp hp
    refine ⟨?_, x.name, x.rest, v, ?_, hcodec _ _⟩
    · show 6 < x.id
      rw [(hok.consistent.byId _ _ _ hx).1]
      exact hids _ _ _ hx
    · exact hhas i o x hx (hd i o x hx (by rw [hv]; simp))) h7
  refine ⟨(r1.updateItems dec (q.getHeap g enc dm vm).2.items).1, ?_, k2, ?_⟩
  · rw [PyGroup.update, hr1, Option.map_some]
    congr 1
    exact Prod.ext rfl k1
  · intro i o x hx
    have hsent : ∀ v, (q.fate dm vm o x).2.1 = some v →
        (r1.updateItems dec (q.getHeap g enc dm vm).2.items).1.Shows x.id x.name x.rest (some v) := by
      intro v hv
      apply k3
      right
      exact ⟨hhas i o x hx (hd i o x hx (by rw [hv]; simp)), enc x.rest v, (h6 _).mpr ⟨i, o, x, v, hx, hv, rfl⟩, hcodec _ _⟩
    have hnot : (q.fate dm vm o x).2.1 = none → x.id ∉ (q.getHeap g enc dm vm).2.items.map Prod.fst := by
      intro hn hm
      obtain ⟨p, hp, he⟩ := List.mem_map.mp hm
      obtain ⟨i', o', y, v, hy, hv, rfl⟩ := (h6 p).mp hp
      simp only [] at he
      rw [(hok.consistent.byId _ _ _ hx).1, (hok.consistent.byId _ _ _ hy).1] at he
      subst he
      rw [hx] at hy; cases hy
      rw [hv] at hn; cases hn
    refine ⟨?_, hsent, ?_⟩
    · intro h
      cases hv : (q.fate dm vm o x).2.1 with
      | none => exact k3 _ _ _ _ (Or.inl ⟨hnot hv, hhas i o x hx h⟩)
      | some v => exact Shows.weaken (hsent v hv)
    · intro w hn hs
      exact k3 _ _ _ _ (Or.inl ⟨hnot hn, hkeep i o x hx w hs⟩)

theorem SyncInv.send [DecidableEq D] {enc : D → V → R} {dec : D → R → Option V} (hcodec : ∀ d v, dec d (enc d v) = some v)
    {strict : Prop} {used used' : Nat → Prop} {s : SyncState D V} (h : SyncInv strict used s) {dm vm : SendMode}
    (hmode : strict ∨ (s.gen.frequency = none ∧ dm ≠ .all)) (hp : dm = .none → vm = .none)
    (hu : ∀ i, used i → used' i) (hg : ∀ i, s.grp.getId i ≠ none → used' i) :
    ∃ s', (SyncOp.send dm vm).run enc dec s = some s' ∧ s'.grp = s.grp ∧ s'.gen.frequency = s.gen.frequency ∧
      SyncInv strict used' s' ∧ (dm ≠ .none → vm ≠ .none → s'.Mirrors) := by
  obtain ⟨g1, _, g3, g4, _⟩ := getHeap_gen h.grp s.gen enc dm vm
  -- the decisions about each item
  have hdesc := fun (o : Nat) (x : PyItemObj D V) => decideDesc_facts s.gen dm o (s.gen.getInfo x.id o)
  have hdata := fun (o : Nat) (x : PyItemObj D V) =>
    decideData_facts vm x (s.gen.decideDesc dm o (s.gen.getInfo x.id o)).2
  have hinf : ∀ i o x, s.grp.getId i = some (o, x) → x.id = i := fun i o x hx => (h.grp.consistent.byId _ _ _ hx).1
  have hhas : dm ≠ .none → ∀ i o x, s.grp.getId i = some (o, x) →
      (s.gen.fate dm vm o x).1 = true ∨ s.recv.Shows x.id x.name x.rest none := by
    intro hdm i o x hx
    rcases (hdesc o x).sent hdm with k | ⟨k1, k2⟩
    · exact Or.inl k
    · right
      rw [hinf i o x hx] at k1 k2
      have := (h.getInfo hx).1.has k1 k2
      exact this
  have hdm : ∀ (o : Nat) (x : PyItemObj D V), (s.gen.fate dm vm o x).2.1 ≠ none → dm ≠ .none := by
    intro o x hv e
    exact hv ((hdata o x).off (hp e)).1
  obtain ⟨r', u1, u2, u3⟩ := send_core hcodec (q := s.gen) (dm := dm) (vm := vm) h.grp h.recv h.ids
    (fun i o x hx hv => hhas (hdm o x hv) i o x hx)
  refine ⟨⟨s.grp, (s.gen.getHeap s.grp enc dm vm).1, r'⟩, ?_, rfl, g1, ⟨h.grp, u2, h.ids, ?_, ?_, ?_, ?_⟩, ?_⟩
  · simp only [SyncOp.run, SyncState.heap, u1]
  · intro st i inf hi
    change (s.gen.getHeap s.grp enc dm vm).1.info i = some inf at hi
    cases hx : s.grp.getId i with
    | none => rw [g3 i hx] at hi; exact hu i (h.used st i inf hi)
    | some p => exact hg i (by rw [hx]; simp)
  · intro i inf hi
    change (s.gen.getHeap s.grp enc dm vm).1.info i = some inf at hi
    show inf.item < s.grp.fresh
    cases hx : s.grp.getId i with
    | none => rw [g3 i hx] at hi; exact h.fresh i inf hi
    | some p =>
      obtain ⟨o, x⟩ := p
      rw [g4 i o x hx] at hi
      cases hi
      have e := (hdata o x).item
      show (decideData vm x (s.gen.decideDesc dm o (s.gen.getInfo x.id o)).2).2.item < _
      rw [e]
      rcases (hdesc o x).info with ⟨_, k⟩ | ⟨_, k⟩
      · rw [k, hinf i o x hx]; exact (h.getInfo hx).2.1
      · rw [k]; exact h.grp.fresh o x (getId_some.mp hx).2
  · intro i inf hi hc
    change (s.gen.getHeap s.grp enc dm vm).1.info i = some inf at hi
    cases hx : s.grp.getId i with
    | none => rw [g3 i hx] at hi; exact h.cnt i inf hi hc
    | some p =>
      obtain ⟨o, x⟩ := p
      rw [g4 i o x hx] at hi
      cases hi
      have e := (hdata o x).cnt
      change (decideData vm x (s.gen.decideDesc dm o (s.gen.getInfo x.id o)).2).2.descriptorCnt = none at hc
      show (decideData vm x (s.gen.decideDesc dm o (s.gen.getInfo x.id o)).2).2.version = none
      rw [e] at hc
      by_cases hn : dm = .none
      · have e1 := ((hdata o x).off (hp hn)).2
        have e2 := ((hdesc o x).off hn).2
        rw [e1, e2, hinf i o x hx]
        rw [e2, hinf i o x hx] at hc
        exact (h.getInfo hx).2.2 hc
      · exact absurd hc ((hdesc o x).cnt hn)
  · intro i o x inf hx hi
    change s.grp.getId i = some (o, x) at hx
    change (s.gen.getHeap s.grp enc dm vm).1.info i = some inf at hi
    rw [g4 i o x hx] at hi
    cases hi
    obtain ⟨v1, v2, v3⟩ := u3 i o x hx
    obtain ⟨old, _, _⟩ := h.getInfo hx
    have fd := hdesc o x
    have fv := hdata o x
    rw [hinf i o x hx] at fd fv
    -- if no value is sent, a version in the information was there before
    have hver : (s.gen.fate dm vm o x).2.1 = none → ∀ k, (s.gen.fate dm vm o x).2.2.version = some k →
        (s.gen.getInfo i o).version = some k ∧ (s.gen.fate dm vm o x).2.2.item = (s.gen.getInfo i o).item := by
      intro hn k hk
      simp only [PyGen.fate, hinf i o x hx] at hn hk ⊢
      rw [fv.kept hn] at hk
      rw [fv.item]
      rcases fd.info with ⟨a, b⟩ | ⟨a, _⟩
      · rw [a] at hk; exact ⟨hk, b⟩
      · rw [a] at hk; cases hk
    refine ⟨?_, ?_, ?_⟩
    · intro a b
      by_cases hn : dm = .none
      · apply v1
        right
        have e1 := (fv.off (hp hn)).2
        have e2 := (fd.off hn).2
        simp only [PyGen.fate, hinf i o x hx] at a b
        rw [e1, e2] at a b
        exact old.has a b
      · exact v1 (hhas hn i o x hx)
    · intro a b
      cases hv : (s.gen.fate dm vm o x).2.1 with
      | none =>
        obtain ⟨c1, c2⟩ := hver hv _ b
        rw [c2] at a
        exact v3 _ hv (old.val a c1)
      | some v =>
        have := v2 v hv
        simp only [PyGen.fate, hinf i o x hx] at hv
        rwa [(fv.sent v hv).1]
    · intro a k hk
      cases hv : (s.gen.fate dm vm o x).2.1 with
      | none =>
        obtain ⟨c1, c2⟩ := hver hv _ hk
        rw [c2] at a
        exact old.le a k c1
      | some v =>
        simp only [PyGen.fate, hinf i o x hx] at hv hk
        rw [(fv.sent v hv).2] at hk
        cases hk
        exact Nat.le_refl _
  · intro hdn hvn i o x hx
    change s.grp.getId i = some (o, x) at hx
    show r'.Shows i x.name x.rest x.value
    obtain ⟨v1, v2, v3⟩ := u3 i o x hx
    obtain ⟨old, _, hoc⟩ := h.getInfo hx
    have fd := hdesc o x
    have fv := hdata o x
    have hi := hinf i o x hx
    rw [hi] at fd fv
    rw [hi] at v1 v2 v3
    cases hv : (s.gen.fate dm vm o x).2.1 with
    | some v =>
      have := v2 v hv
      simp only [PyGen.fate, hi] at hv
      rwa [(fv.sent v hv).1]
    | none =>
      cases hval : x.value with
      | none =>
        have := hhas hdn i o x hx
        rw [hi] at this
        exact v1 this
      | some w =>
        have hv' := hv
        simp only [PyGen.fate, hi] at hv'
        have k1 := fv.skip hvn (by rw [hval]; simp) hv'
        have k2 : (s.gen.getInfo i o).version = some x.version := by
          rcases fd.info with ⟨a, _⟩ | ⟨a, _⟩
          · rw [← a]; exact k1
          · rw [a] at k1; cases k1
        have k3 : strict ∨ (s.gen.getInfo i o).item = o := by
          rcases hmode with a | ⟨a, b⟩
          · exact Or.inl a
          · right
            apply fd.stale ?_ a ?_ (by rw [k1]; simp)
            · cases dm with
              | all => exact absurd rfl b
              | none => exact absurd rfl hdn
              | stale => rfl
            · intro hc
              rw [hoc hc] at k2; cases k2
        have := old.val k3 k2
        rw [hi, hval] at this
        exact v3 _ hv this

end Spead2
