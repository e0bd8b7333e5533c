import Verif.Lemmas.PyGroupAdd
import Verif.Spec.PySync
import Mathlib.Data.List.Nodup

/-!
# The receiver's side, and what a generator decides
-/

namespace Spead2
open Spec

variable {D V R : Type}

/-! ## The receiver -/

theorem Shows.weaken {g : PyGroup D V} {i : Nat} {n : String} {d : D} {w : Option V} (h : g.Shows i n d w) :
    g.Shows i n d none := by
  obtain ⟨o, y, h1, h2, h3, _⟩ := h
  exact ⟨o, y, h1, h2, h3, by intro v hv; cases hv⟩

/-- A descriptor that does not contradict an item. -/
def Agrees (j : Nat) (m : String) (e : D) (p : Nat × String × D) : Prop :=
  (p.1 = j → p.2.1 = m ∧ p.2.2 = e) ∧ (p.1 ≠ j → p.2.1 ≠ m)

theorem desc_keep [DecidableEq D] {g g' : PyGroup D V} (h : GroupOk g) {i : Nat} {n : String} {d : D}
    (hg : (g.alloc ⟨i, n, d, none, 1⟩).addObj g.fresh ⟨i, n, d, none, 1⟩ = some g') {j : Nat} {m : String} {e : D}
    {w : Option V} (hs : g.Shows j m e w) (ha : Agrees j m e (i, n, d)) : g'.Shows j m e w := by
  obtain ⟨o, y, h1, h2, h3, h4⟩ := hs
  by_cases hj : i = j
  · subst hj
    obtain ⟨rfl, rfl⟩ := ha.1 rfl
    obtain ⟨_, o', y', k1, k2, k3, k4, k5⟩ := addNew_here h hg
    rcases k5 with ⟨_, _, _, hno⟩ | ⟨z, hz, _, _, hy⟩
    · exact absurd ⟨h2, h3⟩ (hno o y h1)
    · rw [h1] at hz
      cases hz
      simp only [] at hy
      subst hy
      exact ⟨o, y', k1, h2, h3, h4⟩
  · have := (addNew_other h hg (Ne.symm hj)).2 (by
      intro o' y' hy'
      rw [h1] at hy'; cases hy'
      rw [h2]; exact (ha.2 hj).symm)
    exact ⟨o, y, by rw [this]; exact h1, h2, h3, h4⟩

theorem desc_here [DecidableEq D] {g g' : PyGroup D V} (h : GroupOk g) {i : Nat} {n : String} {d : D}
    (hg : (g.alloc ⟨i, n, d, none, 1⟩).addObj g.fresh ⟨i, n, d, none, 1⟩ = some g') : g'.Shows i n d none := by
  obtain ⟨_, o', y', k1, _, k3, k4, _⟩ := addNew_here h hg
  exact ⟨o', y', k1, k3, k4, by intro v hv; cases hv⟩

theorem descs_keep [DecidableEq D] : ∀ (ds : List (Nat × String × D)) {g g' : PyGroup D V}, GroupOk g →
    g.updateDescs ds = some g' → ∀ {j : Nat} {m : String} {e : D} {w : Option V}, (∀ p ∈ ds, Agrees j m e p) →
    g.Shows j m e w → g'.Shows j m e w := by
  intro ds
  induction ds with
  | nil => intro g g' _ h j m e w _ hs; cases h; exact hs
  | cons p rest ih =>
    obtain ⟨i, n, d⟩ := p
    intro g g' hok h j m e w ha hs
    simp only [PyGroup.updateDescs] at h
    split at h
    · cases h
    · next g1 h1 =>
      exact ih (addNew_here hok h1).1 h (fun p hp => ha p (List.mem_cons_of_mem _ hp))
        (desc_keep hok h1 hs (ha _ List.mem_cons_self))

theorem descs_here [DecidableEq D] : ∀ (ds : List (Nat × String × D)) {g g' : PyGroup D V}, GroupOk g →
    g.updateDescs ds = some g' → ∀ {j : Nat} {m : String} {e : D}, (∀ p ∈ ds, Agrees j m e p) →
    (j, m, e) ∈ ds → g'.Shows j m e none := by
  intro ds
  induction ds with
  | nil => intro g g' _ _ j m e _ hm; cases hm
  | cons p rest ih =>
    obtain ⟨i, n, d⟩ := p
    intro g g' hok h j m e ha hm
    simp only [PyGroup.updateDescs] at h
    split at h
    · cases h
    · next g1 h1 =>
      have hok1 := (addNew_here hok h1).1
      have ha' : ∀ p ∈ rest, Agrees j m e p := fun p hp => ha p (List.mem_cons_of_mem _ hp)
      rcases List.mem_cons.mp hm with hm | hm
      · cases hm
        exact descs_keep rest hok1 h ha' (desc_here hok h1)
      · exact ih hok1 h ha' hm

/-- One received value. -/
theorem item_step {g : PyGroup D V} (hok : GroupOk g) {i o : Nat} {x : PyItemObj D V} (hx : g.getId i = some (o, x)) (v : V) :
    GroupOk ((g.setValue o v).bump o) ∧
      ((g.setValue o v).bump o).getId i = some (o, { x with value := some v, version := x.version + 1 + 1 }) ∧
      ∀ j, j ≠ i → ((g.setValue o v).bump o).getId j = g.getId j := by
  have h1 := hok.setValue o v
  have h2 := setValue_getId hx v
  refine ⟨h1.bump o, bump_getId h2, ?_⟩
  intro j hj
  rw [bump_getId_other h1 h2 hj, setValue_getId_other hok hx hj]

/-- The values of a heap whose items all have descriptors in the group, and can be decoded. -/
theorem items_ok (dec : D → R → Option V) : ∀ (is : List (Nat × R)) {g : PyGroup D V}, GroupOk g →
    (∀ p ∈ is, 6 < p.1 ∧ ∃ n d v, g.Shows p.1 n d none ∧ dec d p.2 = some v) → (is.map Prod.fst).Nodup →
    (g.updateItems dec is).2 = false ∧ GroupOk (g.updateItems dec is).1 ∧
      ∀ j m e w, ((j ∉ is.map Prod.fst ∧ g.Shows j m e w) ∨
          (g.Shows j m e none ∧ ∃ raw, (j, raw) ∈ is ∧ dec e raw = w)) → (g.updateItems dec is).1.Shows j m e w := by
  intro is
  induction is with
  | nil =>
    intro g hok _ _
    refine ⟨rfl, hok, ?_⟩
    intro j m e w h
    rcases h with h | ⟨_, raw, hm, _⟩
    · exact h.2
    · cases hm
  | cons p rest ih =>
    obtain ⟨i, raw⟩ := p
    intro g hok hall hnd
    obtain ⟨h6, n, d, v, ⟨o, x, hx, hxn, hxd, _⟩, hdec⟩ := hall _ List.mem_cons_self
    simp only [] at h6 hx hdec
    have hstep : g.updateItems dec ((i, raw) :: rest) = ((g.setValue o v).bump o).updateItems dec rest := by
      have hx' : g.deref (dictGet i g.byId) = some (o, x) := hx
      rw [PyGroup.updateItems, if_neg (by omega), hx']
      simp only [hxd, hdec]
    obtain ⟨hok1, k1, k2⟩ := item_step hok hx v
    rw [hstep]
    simp only [List.map_cons, List.nodup_cons] at hnd
    have shows_none : ∀ j m e, g.Shows j m e none → ((g.setValue o v).bump o).Shows j m e none := by
      rintro j m e ⟨o', y, e1, e2, e3, _⟩
      by_cases hj : j = i
      · subst hj
        rw [hx] at e1; cases e1
        exact ⟨o, _, k1, e2, e3, by intro v hv; cases hv⟩
      · exact ⟨o', y, by rw [k2 j hj]; exact e1, e2, e3, by intro v hv; cases hv⟩
    obtain ⟨r1, r2, r3⟩ := ih hok1 (by
      intro p hp
      obtain ⟨a, n', d', v', b, c⟩ := hall p (List.mem_cons_of_mem _ hp)
      exact ⟨a, n', d', v', shows_none _ _ _ b, c⟩) hnd.2
    refine ⟨r1, r2, ?_⟩
    intro j m e w h
    apply r3
    rcases h with ⟨hj, hs⟩ | ⟨hs, raw', hm, hd⟩
    · simp only [List.map_cons, List.mem_cons, not_or] at hj
      obtain ⟨o', y, e1, e2, e3, e4⟩ := hs
      exact Or.inl ⟨hj.2, o', y, by rw [k2 j hj.1]; exact e1, e2, e3, e4⟩
    · rcases List.mem_cons.mp hm with hm | hm
      · cases hm
        left
        refine ⟨hnd.1, ?_⟩
        obtain ⟨o', y, e1, e2, e3, _⟩ := hs
        rw [hx] at e1; cases e1
        refine ⟨o, _, k1, e2, e3, ?_⟩
        intro v' hv'
        rw [← hd, ← e3, hxd, hdec] at hv'
        cases hv'; rfl
      · exact Or.inr ⟨shows_none _ _ _ hs, raw', hm, hd⟩

/-! ## The sender -/

/-- What happens to an item: is the descriptor sent, which value is sent, and the new information. -/
def PyGen.fate (q : PyGen) (dm vm : SendMode) (o : Nat) (x : PyItemObj D V) : Bool × Option V × PyItemInfo :=
  let a := q.decideDesc dm o (q.getInfo x.id o)
  let b := decideData vm x a.2
  (a.1, b.1, b.2)

theorem fate_eq {q q' : PyGen} (hc : q'.cnt = q.cnt) (hf : q'.frequency = q.frequency) {x : PyItemObj D V}
    (hi : q'.info x.id = q.info x.id) (dm vm : SendMode) (o : Nat) : q'.fate dm vm o x = q.fate dm vm o x := by
  obtain ⟨i1, f1, c1⟩ := q
  obtain ⟨i2, f2, c2⟩ := q'
  simp only at hc hf hi
  subst hc hf
  simp only [PyGen.fate, PyGen.getInfo, hi]
  rfl

theorem addAll_ok (enc : D → V → R) (dm vm : SendMode) : ∀ (L : List (Nat × PyItemObj D V)) (q : PyGen) (h : PyHeap D R),
    (L.map (fun p => p.2.id)).Nodup →
    ∀ q' h', PyGen.addAll enc dm vm L (q, h) = (q', h') →
    q'.cnt = q.cnt ∧ q'.frequency = q.frequency ∧
      (∀ k, k ∉ L.map (fun p => p.2.id) → q'.info k = q.info k) ∧
      (∀ o x, (o, x) ∈ L → q'.info x.id = some (q.fate dm vm o x).2.2) ∧
      h'.descs = h.descs ++ L.filterMap (fun p => if (q.fate dm vm p.1 p.2).1 then some (p.2.id, p.2.name, p.2.rest) else none) ∧
      h'.items = h.items ++ L.filterMap (fun p => (q.fate dm vm p.1 p.2).2.1.map (fun v => (p.2.id, enc p.2.rest v))) := by
  intro L
  induction L with
  | nil => intro q h _ q' h' e; cases e; simp
  | cons p rest ih =>
    obtain ⟨o, x⟩ := p
    intro q h hnd q' h' e
    simp only [List.map_cons, List.nodup_cons] at hnd
    rw [PyGen.addAll] at e
    cases ha : q.addOne enc dm vm h o x with
    | mk q1 h1 =>
      rw [ha] at e
      have hq1 : q1 = { q with info := fun k => if k = x.id then some (q.fate dm vm o x).2.2 else q.info k } := by
        have := congrArg Prod.fst ha
        simp only [PyGen.addOne] at this
        rw [← this]; rfl
      have hh1 : h1.descs = h.descs ++ (if (q.fate dm vm o x).1 then [(x.id, x.name, x.rest)] else []) ∧
          h1.items = h.items ++ (match (q.fate dm vm o x).2.1 with | some v => [(x.id, enc x.rest v)] | none => []) := by
        have := congrArg Prod.snd ha
        simp only [PyGen.addOne] at this
        rw [← this]
        constructor
        · show (if (q.fate dm vm o x).1 then h.descs ++ [(x.id, x.name, x.rest)] else h.descs) = _
          split <;> simp
        · show (match (q.fate dm vm o x).2.1 with | some v => h.items ++ [(x.id, enc x.rest v)] | none => h.items) = _
          split <;> simp
      obtain ⟨r1, r2, r3, r4, r5, r6⟩ := ih q1 h1 hnd.2 q' h' e
      have hother : ∀ p ∈ rest, q1.fate dm vm p.1 p.2 = q.fate dm vm p.1 p.2 := by
        intro p hp
        apply fate_eq (by rw [hq1]) (by rw [hq1])
        have : p.2.id ≠ x.id := fun e => hnd.1 (e ▸ List.mem_map_of_mem (f := fun p : Nat × PyItemObj D V => p.2.id) hp)
        rw [hq1]; simp [this]
      refine ⟨by rw [r1, hq1], by rw [r2, hq1], ?_, ?_, ?_, ?_⟩
      · intro k hk
        simp only [List.map_cons, List.mem_cons, not_or] at hk
        rw [r3 k hk.2, hq1]; simp [hk.1]
      · intro o' y hm
        rcases List.mem_cons.mp hm with hm | hm
        · cases hm
          rw [r3 x.id hnd.1, hq1]; simp
        · rw [r4 o' y hm, hother _ hm]
      · rw [r5, hh1.1, List.append_assoc]
        congr 1
        rw [List.filterMap_cons, List.filterMap_congr (fun p hp => by rw [hother p hp])]
        cases hb : (q.fate dm vm o x).1 with
        | false => simp
        | true => simp
      · rw [r6, hh1.2, List.append_assoc]
        congr 1
        rw [List.filterMap_cons, List.filterMap_congr (fun p hp => by rw [hother p hp])]
        cases hv : (q.fate dm vm o x).2.1 with
        | none => simp
        | some v => simp

/-! ## The items of a group -/

theorem values_mem {g : PyGroup D V} (h : GroupOk g) {o : Nat} {x : PyItemObj D V} :
    (o, x) ∈ g.values ↔ g.getId x.id = some (o, x) := by
  rw [PyGroup.values, List.mem_filterMap]
  constructor
  · rintro ⟨⟨n, o'⟩, hm, hd⟩
    obtain ⟨h1, h2⟩ := deref_some.mp hd
    cases h1
    have hg := mem_dictGet h.names hm
    obtain ⟨y, k1, k2, k3⟩ := h.byName _ _ hg
    rw [h2] at k1; cases k1
    exact getId_some.mpr ⟨k3, h2⟩
  · intro hx
    obtain ⟨h1, h2⟩ := getName_some.mp (h.consistent.byId _ _ _ hx).2
    exact ⟨(x.name, o), dictGet_mem h1, deref_some.mpr ⟨rfl, h2⟩⟩

theorem values_names {g : PyGroup D V} (h : GroupOk g) : g.values.map (fun p => p.2.name) = g.byName.map Prod.fst := by
  have key : ∀ d : List (String × Nat), (∀ e ∈ d, ∃ x, g.objs e.2 = some x ∧ x.name = e.1) →
      (d.filterMap (fun e => g.deref (some e.2))).map (fun p => p.2.name) = d.map Prod.fst := by
    intro d
    induction d with
    | nil => intro _; rfl
    | cons e rest ih =>
      intro hd
      obtain ⟨x, hx, hn⟩ := hd e List.mem_cons_self
      have : g.deref (some e.2) = some (e.2, x) := deref_some.mpr ⟨rfl, hx⟩
      rw [List.filterMap_cons, this]
      simp only [List.map_cons, hn]
      rw [ih (fun e he => hd e (List.mem_cons_of_mem _ he))]
  apply key
  intro e he
  obtain ⟨x, h1, h2, _⟩ := h.byName _ _ (mem_dictGet h.names (k := e.1) (v := e.2) he)
  exact ⟨x, h1, h2⟩

theorem values_ids {g : PyGroup D V} (h : GroupOk g) : (g.values.map (fun p => p.2.id)).Nodup := by
  have hn : g.values.Nodup := by
    have := h.names
    rw [← values_names h] at this
    exact List.Nodup.of_map _ this
  refine List.Nodup.map_on ?_ hn
  rintro ⟨o, x⟩ hx ⟨p, y⟩ hy e
  have h1 := (values_mem h).mp hx
  have h2 := (values_mem h).mp hy
  simp only [] at e
  rw [e, h2] at h1
  cases h1; rfl

end Spead2
