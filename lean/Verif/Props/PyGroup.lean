import Verif.Lemmas.PyGroupAdd

/-!
# C73: an item group is one set of items under two keys, and versions show every change

Over all histories of `add_item`, assignments, increments of versions and `update`.
-/

namespace Spead2
open Spec

variable {D V R : Type}

/-- **C73, no errors.**  No history of calls, with any heaps, makes a call fail with a `KeyError`. -/
theorem C73_total [DecidableEq D] (dec : D → R → Option V) (cs : List (GroupCall D V R)) :
    ∃ g, runCalls dec PyGroup.empty cs = some g := by
  obtain ⟨g, h, _⟩ := calls_total dec cs GroupOk.empty
  exact ⟨g, h⟩

theorem reach_ok [DecidableEq D] {dec : D → R → Option V} {cs : List (GroupCall D V R)} {g : PyGroup D V}
    (h : runCalls dec PyGroup.empty cs = some g) : GroupOk g := by
  obtain ⟨g', h', hok⟩ := calls_total dec cs GroupOk.empty
  rw [h] at h'; cases h'; exact hok

/-- **C73, one set.**  After every history the ids and the names lead to the same items. -/
theorem C73_consistent [DecidableEq D] {dec : D → R → Option V} {cs : List (GroupCall D V R)} {g : PyGroup D V}
    (h : runCalls dec PyGroup.empty cs = some g) : KeysAgree g := (reach_ok h).consistent

/-- **C73, adding.**  After `add_item` the id and the name lead to one item, which has the given
descriptor and, if one was given, the given value.  It is the item that was there before if that had
the same descriptor, and then nothing else changes about it; otherwise it is the returned one.  An
item that had another id but the same name is gone, every other item is as it was, and no item
appears. -/
theorem C73_add [DecidableEq D] {dec : D → R → Option V} {cs : List (GroupCall D V R)} {g g' : PyGroup D V}
    (h : runCalls dec PyGroup.empty cs = some g) {i : Nat} {n : String} {d : D} {v : Option V} {ret : Nat}
    (ha : g.addItem (some i) n d v = some (g', ret)) :
    (∃ o x, g'.getId i = some (o, x) ∧ g'.getName n = some (o, x) ∧ x.id = i ∧ x.name = n ∧ x.rest = d ∧
      ((o = ret ∧ x.value = v ∧ ∀ o' z, g.getId i = some (o', z) → o' ≠ o ∧ ¬ (z.name = n ∧ z.rest = d)) ∨
        ∃ z, g.getId i = some (o, z) ∧ z.name = n ∧ z.rest = d ∧
          (v = none → x = z) ∧ (v ≠ none → x.value = v ∧ x.version = z.version + 1))) ∧
    (∀ j o y, j ≠ i → (g'.getId j = some (o, y) ↔ g.getId j = some (o, y) ∧ y.name ≠ n)) := by
  have hok := reach_ok h
  simp only [PyGroup.addItem, Option.getD_some] at ha
  cases hg : (g.alloc ⟨i, n, d, v, 1⟩).addObj g.fresh ⟨i, n, d, v, 1⟩ with
  | none => rw [hg] at ha; cases ha
  | some g1 =>
    rw [hg] at ha
    cases ha
    obtain ⟨hok', o, y, h1, h2, h3, h4, h5⟩ := addNew_here hok hg
    refine ⟨⟨o, y, h1, ?_, h2, h3, h4, ?_⟩, ?_⟩
    · have := (hok'.consistent.byId _ _ _ h1).2
      rwa [h3] at this
    · rcases h5 with ⟨e1, e2, e3, e4⟩ | ⟨z, e1, e2, e3, e4⟩
      · refine Or.inl ⟨e1, e2, fun o' z hz => ⟨?_, e4 o' z hz⟩⟩
        have := hok.fresh o' z (getId_some.mp hz).2
        omega
      · refine Or.inr ⟨z, e1, e2, e3, ?_, ?_⟩
        · intro hv; subst hv; exact e4
        · intro hv
          obtain ⟨w, rfl⟩ := Option.ne_none_iff_exists'.mp hv
          rw [e4]; exact ⟨rfl, rfl⟩
    · intro j o' z hj
      obtain ⟨k1, k2⟩ := addNew_other hok hg hj
      cases hb : g.getId j with
      | none => rw [k2 (by intro o y hy; rw [hb] at hy; cases hy), hb]; simp
      | some p =>
        obtain ⟨p, w⟩ := p
        by_cases hn : w.name = n
        · rw [k1 _ _ hb hn]
          constructor
          · intro e; cases e
          · rintro ⟨e, hne⟩; cases e; exact absurd hn hne
        · rw [k2 (by intro o y hy; rw [hb] at hy; cases hy; exact hn), hb]
          constructor
          · intro e; cases e; exact ⟨rfl, hn⟩
          · exact fun e => e.1

/-- **C73, automatic ids.**  Without an id, `add_item` uses one that is not in use and not reserved:
the returned item is in the group under it, and every id that was in use leads to the same item as
before, except that of an item with the same name. -/
theorem C73_autoid [DecidableEq D] {dec : D → R → Option V} {cs : List (GroupCall D V R)} {g g' : PyGroup D V}
    (h : runCalls dec PyGroup.empty cs = some g) {n : String} {d : D} {v : Option V} {ret : Nat}
    (ha : g.addItem none n d v = some (g', ret)) :
    ∃ i x, 0x1000 ≤ i ∧ g.getId i = none ∧ g'.getId i = some (ret, x) ∧ x.name = n ∧ x.rest = d ∧ x.value = v ∧
      (∀ j, 0x1000 ≤ j → j < i → g.getId j ≠ none) ∧
      ∀ j o y, g.getId j = some (o, y) → y.name ≠ n → g'.getId j = some (o, y) := by
  have hok := reach_ok h
  obtain ⟨h1, h2⟩ := autoId_fresh g.byId 0x1000
  have hnone : g.getId (autoId g.byId g.byId.length 0x1000) = none := (getId_none hok).mpr (dictGet_none.mpr h2)
  have hsome : g.addItem (some (autoId g.byId g.byId.length 0x1000)) n d v = some (g', ret) := by
    rw [← ha]; rfl
  obtain ⟨⟨o, x, e1, _, _, e2, e3, e4⟩, e5⟩ := C73_add h hsome
  have e4' : o = ret ∧ x.value = v := by
    rcases e4 with ⟨e, e', _⟩ | ⟨z, e, _⟩
    · exact ⟨e, e'⟩
    · rw [hnone] at e; cases e
  refine ⟨_, x, h1, hnone, e4'.1 ▸ e1, e2, e3, e4'.2, ?_, ?_⟩
  · intro j hj hlt hn
    have := (autoId_spec g.byId g.byId.length 0x1000).2.1 j hj hlt
    exact dictGet_none.mp ((getId_none hok).mp hn) this
  · intro j o' y hy hyn
    have hj : j ≠ autoId g.byId g.byId.length 0x1000 := by
      intro e; rw [e, hnone] at hy; cases hy
    exact (e5 j o' y hj).mpr ⟨hy, hyn⟩

/-! ## Versions -/

/-- The full claim: whatever the call, an item seen through the same key before and after it is
unchanged or has a greater version. -/
def C73_statement : Prop :=
  ∀ (D V R : Type) [DecidableEq D] (dec : D → R → Option V) (cs : List (GroupCall D V R)) (c : GroupCall D V R)
    (g g' : PyGroup D V), runCalls dec PyGroup.empty cs = some g → c.run dec g = some g' →
    (∀ i, Newer (g.getId i) (g'.getId i)) ∧ ∀ n, Newer (g.getName n) (g'.getName n)

theorem run_newer [DecidableEq D] {dec : D → R → Option V} {c : GroupCall D V R} {g g' : PyGroup D V} (hok : GroupOk g)
    (hc : c.run dec g = some g') :
    (∀ i, c.Keeps g (fun g => g.getId i) → Newer (g.getId i) (g'.getId i)) ∧
      ∀ n, c.Keeps g (fun g => g.getName n) → Newer (g.getName n) (g'.getName n) := by
  cases c with
  | add i n d v =>
    simp only [GroupCall.run, PyGroup.addItem] at hc
    cases hg : (g.alloc ⟨i.getD (autoId g.byId g.byId.length 0x1000), n, d, v, 1⟩).addObj g.fresh
        ⟨i.getD (autoId g.byId g.byId.length 0x1000), n, d, v, 1⟩ with
    | none => rw [hg] at hc; cases hc
    | some g1 =>
      rw [hg] at hc
      cases hc
      exact ⟨fun i _ => (addNew_newer hok hg).1 i, fun n _ => (addNew_newer hok hg).2 n⟩
  | set o v =>
    cases hc
    refine ⟨fun i _ => ?_, fun n _ => ?_⟩
    · simp only [PyGroup.getId]; rw [(setValue_dicts g o v).1]; exact setValue_newer _ _ _ _
    · simp only [PyGroup.getName]; rw [(setValue_dicts g o v).2]; exact setValue_newer _ _ _ _
  | bump o =>
    cases hc
    refine ⟨fun i _ => ?_, fun n _ => ?_⟩
    · simp only [PyGroup.getId]; rw [(bump_dicts g o).1]; exact bump_newer _ _ _
    · simp only [PyGroup.getName]; rw [(bump_dicts g o).2]; exact bump_newer _ _ _
  | update h =>
    simp only [GroupCall.run, PyGroup.update] at hc
    cases hd : g.updateDescs h.descs with
    | none => rw [hd] at hc; cases hc
    | some g1 =>
      rw [hd] at hc
      cases hc
      refine ⟨fun i hk => ?_, fun n hk => ?_⟩
      · have h1 := updateDescs_newer_id h.descs i hok hd hk
        have hp : g1.getId i ≠ none := hk h.descs.length g1 (by rw [List.take_length]; exact hd)
        refine Newer.trans hp h1 ?_
        simp only [PyGroup.getId]
        show Newer _ (((g1.updateItems dec h.items).1).deref (dictGet i (g1.updateItems dec h.items).1.byId))
        rw [(updateItems_dicts dec h.items g1).1]
        exact updateItems_newer _ _ _ _
      · have h1 := updateDescs_newer_name h.descs n hok hd hk
        have hp : g1.getName n ≠ none := hk h.descs.length g1 (by rw [List.take_length]; exact hd)
        refine Newer.trans hp h1 ?_
        simp only [PyGroup.getName]
        show Newer _ (((g1.updateItems dec h.items).1).deref (dictGet n (g1.updateItems dec h.items).1.byName))
        rw [(updateItems_dicts dec h.items g1).2]
        exact updateItems_newer _ _ _ _

/-- **C73, versions.**  Every call leaves what is seen through a key as it is or increases its version.
Missing from the full claim: an `update` whose descriptors first remove the key and then bring it
back (`C73_violated`). -/
theorem C73_version_partial [DecidableEq D] {dec : D → R → Option V} {cs : List (GroupCall D V R)} {c : GroupCall D V R}
    {g g' : PyGroup D V} (h : runCalls dec PyGroup.empty cs = some g) (hc : c.run dec g = some g') :
    (∀ i, c.Keeps g (fun g => g.getId i) → Newer (g.getId i) (g'.getId i)) ∧
      ∀ n, c.Keeps g (fun g => g.getName n) → Newer (g.getName n) (g'.getName n) := run_newer (reach_ok h) hc

/-- **C73, versions over a history.**  While a key stays in the group, its version shows whether it
has changed since any earlier look at it. -/
theorem C73_history_partial [DecidableEq D] {dec : D → R → Option V} {cs later : List (GroupCall D V R)} {g g' : PyGroup D V}
    (h : runCalls dec PyGroup.empty cs = some g) (hl : runCalls dec g later = some g') :
    (∀ i, KeepsAll dec (fun g => g.getId i) g later → Newer (g.getId i) (g'.getId i)) ∧
      ∀ n, KeepsAll dec (fun g => g.getName n) g later → Newer (g.getName n) (g'.getName n) := by
  have key : ∀ (look : PyGroup D V → Option (Nat × PyItemObj D V)),
      (∀ (c : GroupCall D V R) (g g' : PyGroup D V), GroupOk g → c.run dec g = some g' → c.Keeps g look → Newer (look g) (look g')) →
      ∀ (later : List (GroupCall D V R)) (g g' : PyGroup D V), GroupOk g → runCalls dec g later = some g' →
        KeepsAll dec look g later → Newer (look g) (look g') := by
    intro look hstep later
    induction later with
    | nil => intro g g' _ h _; cases h; exact Newer.refl _
    | cons c cs ih =>
      intro g g' hok h hk
      obtain ⟨g1, h1, hok1⟩ := call_total dec hok c
      simp only [runCalls, h1] at h
      obtain ⟨k1, k2⟩ := hk
      obtain ⟨k3, k4⟩ := k2 g1 h1
      exact Newer.trans k3 (hstep c g g1 hok h1 k1) (ih g1 g' hok1 h k4)
  exact ⟨fun i => key _ (fun c g g' hok hc hk => (run_newer hok hc).1 i hk) later g g' (reach_ok h) hl,
    fun n => key _ (fun c g g' hok hc hk => (run_newer hok hc).2 n hk) later g g' (reach_ok h) hl⟩

/-- **C73, single descriptors.**  A heap with at most one descriptor never hides a change. -/
theorem C73_single [DecidableEq D] {dec : D → R → Option V} {cs : List (GroupCall D V R)} {hp : PyHeap D R}
    {g g' : PyGroup D V} (h : runCalls dec PyGroup.empty cs = some g) (hc : (GroupCall.update hp).run dec g = some g')
    (hone : hp.descs.length ≤ 1) :
    (∀ i, Newer (g.getId i) (g'.getId i)) ∧ ∀ n, Newer (g.getName n) (g'.getName n) := by
  have hok := reach_ok h
  have hc' := hc
  simp only [GroupCall.run, PyGroup.update] at hc'
  cases hd : g.updateDescs hp.descs with
  | none => rw [hd] at hc'; cases hc'
  | some g1 =>
    rw [hd] at hc'
    cases hc'
    have hok1 : GroupOk g1 := by
      obtain ⟨g2, e, h2⟩ := updateDescs_total hp.descs hok
      rw [hd] at e; cases e; exact h2
    have hpre : ∀ k g2, g.updateDescs (hp.descs.take k) = some g2 → g2 = g ∨ g2 = g1 := by
      intro k g2 hk
      cases k with
      | zero => simp only [List.take_zero, PyGroup.updateDescs, Option.some.injEq] at hk; exact Or.inl hk.symm
      | succ k =>
        rw [List.take_of_length_le (by omega), hd] at hk
        cases hk; exact Or.inr rfl
    constructor
    · intro i o x o' x' h1 h2
      refine (C73_version_partial h hc).1 i ?_ o x o' x' h1 h2
      intro k g2 hk
      rcases hpre k g2 hk with rfl | rfl
      · show g2.getId i ≠ none
        rw [h1]; simp
      · show g2.getId i ≠ none
        intro hn
        have h3 := (getId_some.mp h2).1
        rw [(updateItems_dicts dec hp.items g2).1, (getId_none hok1).mp hn] at h3
        cases h3
    · intro n o x o' x' h1 h2
      refine (C73_version_partial h hc).2 n ?_ o x o' x' h1 h2
      intro k g2 hk
      rcases hpre k g2 hk with rfl | rfl
      · show g2.getName n ≠ none
        rw [h1]; simp
      · show g2.getName n ≠ none
        intro hn
        have h3 := (getName_some.mp h2).1
        rw [(updateItems_dicts dec hp.items g2).2] at h3
        obtain ⟨y, hy, _⟩ := hok1.byName _ _ h3
        rw [getName_some.mpr ⟨h3, hy⟩] at hn
        cases hn

/-! ## Where it does not hold -/

/-- A receiver that has seen one heap, with the descriptor of `x` and its value. -/
def seenOnce : List (GroupCall Nat Nat Nat) := [.update ⟨[(0x1000, "x", 0)], [(0x1000, 7)]⟩]

/-- The next heap gives the id of `x` to `y` and a new id to `x`, with another value. -/
def renamed : GroupCall Nat Nat Nat := .update ⟨[(0x1000, "y", 0), (0x1001, "x", 0)], [(0x1001, 8)]⟩

/-- Before and after it `x` is a different item with a different value, and the same version. -/
theorem C73_hidden : ∃ g g' : PyGroup Nat Nat, runCalls (fun _ r => some r) PyGroup.empty seenOnce = some g ∧
    renamed.run (fun _ r => some r) g = some g' ∧ g.getName "x" = some (0, ⟨0x1000, "x", 0, some 7, 3⟩) ∧
    g'.getName "x" = some (2, ⟨0x1001, "x", 0, some 8, 3⟩) := by
  refine ⟨_, _, rfl, rfl, ?_, ?_⟩ <;> decide +kernel

/-- The full claim does not hold. -/
theorem C73_violated : ¬ C73_statement := by
  intro h
  obtain ⟨g, g', h1, h2, h3, h4⟩ := C73_hidden
  have := (h Nat Nat Nat _ seenOnce renamed g g' h1 h2).2 "x" _ _ _ _ h3 h4
  rcases this with ⟨h, _⟩ | h
  · cases h
  · exact absurd h (by decide)

/-- `add_item` with the descriptor of an item in the group returns an item that is not in the group:
what is then assigned to it is not seen there. -/
theorem C73_returned : ∃ (g g' : PyGroup Nat Nat) (ret : Nat),
    runCalls (fun _ (r : Nat) => some r) PyGroup.empty [.add (some 0x1000) "x" 0 (some 7)] = some g ∧
    g.addItem (some 0x1000) "x" 0 (some 8) = some (g', ret) ∧
    (∀ i, (g'.getId i).map Prod.fst ≠ some ret) ∧
    (g'.setValue ret 9).getName "x" = some (0, ⟨0x1000, "x", 0, some 8, 2⟩) := by
  refine ⟨_, _, _, rfl, rfl, ?_, by decide +kernel⟩
  intro i
  by_cases hi : i = 0x1000
  · subst hi; decide +kernel
  · have : ∀ g : PyGroup Nat Nat, g.byId = [(0x1000, 0)] → g.getId i = none := by
      intro g hg
      rw [PyGroup.getId, hg]
      simp [dictGet, PyGroup.deref, Ne.symm hi]
    rw [this _ (by decide +kernel)]; simp

/-! ## The hypotheses are met -/

/-- Replacements by id and by name, transfers of values, automatic ids, and a heap with an item that
cannot be decoded. -/
def exampleCalls : List (GroupCall Nat Nat Nat) :=
  [.add none "a" 0 (some 1), .add none "b" 0 none, .add (some 0x1001) "c" 1 (some 2), .add none "a" 5 none,
    .set 0 4, .set 3 6, .bump 2, .update ⟨[(7, "a", 5), (8, "d", 2)], [(8, 3), (0x1001, 9), (1, 0), (99, 0)]⟩]

example : ∃ g : PyGroup Nat Nat, runCalls (fun d r => if d = 1 then none else some r) PyGroup.empty exampleCalls = some g ∧
    g.byId = [(0x1001, 2), (7, 4), (8, 5)] ∧ g.getName "d" = some (5, ⟨8, "d", 2, some 3, 3⟩) ∧
    g.getName "c" = some (2, ⟨0x1001, "c", 1, some 2, 3⟩) := by
  refine ⟨_, rfl, ?_, ?_, ?_⟩ <;> decide +kernel

/-- A key that stays through the second heap, whose item is replaced in it. -/
example : ∃ g : PyGroup Nat Nat, runCalls (fun _ (r : Nat) => some r) PyGroup.empty seenOnce = some g ∧
    KeepsAll (fun _ (r : Nat) => some r) (fun g => g.getId 0x1000) g [renamed] := by
  refine ⟨_, rfl, ?_, ?_⟩
  · intro k g1 h
    match k with
    | 0 => cases h; decide +kernel
    | 1 => cases h; decide +kernel
    | k + 2 =>
      rw [List.take_of_length_le (by simp)] at h
      cases h; decide +kernel
  · intro g' h
    cases h
    exact ⟨by decide +kernel, trivial⟩

end Spead2
