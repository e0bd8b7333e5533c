import Verif.Spec.DataClass
import Mathlib.Data.List.Nodup
import Mathlib.Data.List.Perm.Basic

/-!
# C113: configuration objects made from keyword arguments
-/

namespace Spead2.DataClass

theorem takes_or_wrong {V : Type} (cls : Cls V) (k : String) (v : V) : (∃ x, Takes cls k v x) ∨ ∃ e, Wrong cls (k, v) e := by
  cases h : cls k with
  | none => exact Or.inr ⟨_, .unknown k v h⟩
  | some a =>
    cases a with
    | fixed => exact Or.inr ⟨_, .readOnly k v h⟩
    | property d set =>
      cases hs : set v with
      | ok x => exact Or.inl ⟨x, d, set, h, hs⟩
      | error e => exact Or.inr ⟨e, .refused k v d set e h hs⟩

theorem assign_takes {V : Type} (cls : Cls V) (o : Obj V) (k : String) (v x : V) (rest : List (String × V)) (h : Takes cls k v x) :
    assign cls o ((k, v) :: rest) = assign cls (fun n => if n = k then some x else o n) rest := by
  obtain ⟨d, set, h1, h2⟩ := h
  simp [assign, hasAttr, setAttr, h1, h2]

theorem assign_wrong {V : Type} (cls : Cls V) (o : Obj V) (kv : String × V) (e : Err) (rest : List (String × V)) (h : Wrong cls kv e) :
    assign cls o (kv :: rest) = .error e := by
  cases h with
  | unknown k v h => simp [assign, hasAttr, h]
  | readOnly k v h => simp [assign, hasAttr, setAttr, h]
  | refused k v d set e h hs => simp [assign, hasAttr, setAttr, h, hs]

/-- What the loop does to an object. -/
theorem assign_ok {V : Type} (cls : Cls V) (kw : List (String × V)) : ∀ o : Obj V, Kwargs kw → (∀ k v, (k, v) ∈ kw → ∃ x, Takes cls k v x) →
    ∃ o', assign cls o kw = .ok o' ∧ (∀ k v, (k, v) ∈ kw → ∃ x, Takes cls k v x ∧ o' k = some x) ∧ ∀ k, (∀ v, (k, v) ∉ kw) → o' k = o k := by
  induction kw with
  | nil => intro o _ _; exact ⟨o, rfl, fun _ _ h => absurd h (List.not_mem_nil), fun _ _ => rfl⟩
  | cons kv rest ih =>
    obtain ⟨k, v⟩ := kv
    intro o hn ht
    obtain ⟨x, hx⟩ := ht k v List.mem_cons_self
    have hn' : k ∉ rest.map Prod.fst ∧ Kwargs rest := by
      simpa [Kwargs] using hn
    have hk : ∀ v', (k, v') ∉ rest := fun v' hm => hn'.1 (List.mem_map.2 ⟨(k, v'), hm, rfl⟩)
    obtain ⟨o', h1, h2, h3⟩ := ih (fun n => if n = k then some x else o n) hn'.2 (fun k' v' hm => ht k' v' (List.mem_cons_of_mem _ hm))
    refine ⟨o', by rw [assign_takes cls o k v x rest hx, h1], ?_, ?_⟩
    · intro k' v' hm
      rcases List.mem_cons.1 hm with he | hm
      · cases he
        refine ⟨x, hx, ?_⟩
        rw [h3 k hk]
        simp
      · exact h2 k' v' hm
    · intro k' hm
      have hne : k' ≠ k := fun he => hm v (by rw [he]; exact List.mem_cons_self)
      rw [h3 k' (fun v' h => hm v' (List.mem_cons_of_mem _ h))]
      simp [hne]

/-- **C113.** If every keyword names a property that takes the value given, the object is made, and it has the values given and the defaults for everything else. -/
theorem C113_values {V : Type} (cls : Cls V) (m : Mem) (kw : List (String × V)) (hn : Kwargs kw) (h : ∀ k v, (k, v) ∈ kw → ∃ x, Takes cls k v x) :
    ∃ o, (construct cls m kw).2 = .ok o ∧ Configured cls kw o := by
  obtain ⟨o, h1, h2, h3⟩ := assign_ok cls kw (fresh cls) hn h
  refine ⟨o, by simp [construct, h1], h2, ?_, ?_⟩
  · intro k d set hm hc
    rw [h3 k hm]
    simp [fresh, hc]
  · intro k hc
    have hm : ∀ v, (k, v) ∉ kw := by
      intro v hm
      obtain ⟨x, d, set, h4, _⟩ := h k v hm
      rcases hc with hc | hc <;> rw [hc] at h4 <;> cases h4
    rw [h3 k hm]
    rcases hc with hc | hc <;> simp [fresh, hc]

/-- **C113.** There is at most one such object. -/
theorem C113_unique {V : Type} (cls : Cls V) (kw : List (String × V)) (o o' : Obj V) (h : Configured cls kw o) (h' : Configured cls kw o') : o = o' := by
  funext k
  by_cases hm : ∃ v, (k, v) ∈ kw
  · obtain ⟨v, hm⟩ := hm
    obtain ⟨x, ⟨d, s, h1, h2⟩, h3⟩ := h.given k v hm
    obtain ⟨x', ⟨d', s', h1', h2'⟩, h3'⟩ := h'.given k v hm
    rw [h1] at h1'
    cases h1'
    rw [h2] at h2'
    cases h2'
    rw [h3, h3']
  · have hm' : ∀ v, (k, v) ∉ kw := fun v hv => hm ⟨v, hv⟩
    cases hc : cls k with
    | none => rw [h.nothing k (Or.inl hc), h'.nothing k (Or.inl hc)]
    | some a =>
      cases a with
      | fixed => rw [h.nothing k (Or.inr hc), h'.nothing k (Or.inr hc)]
      | property d s => rw [h.default k d s hm' hc, h'.default k d s hm' hc]

/-- **C113.** The constructor raises exactly if some keyword is wrong, and then it raises for the first one that is. -/
theorem C113_raises {V : Type} (cls : Cls V) (m : Mem) (kw : List (String × V)) (e : Err) :
    (construct cls m kw).2 = .error e ↔ ∃ before kv after, kw = before ++ kv :: after ∧ (∀ k v, (k, v) ∈ before → ∃ x, Takes cls k v x) ∧ Wrong cls kv e := by
  have key : ∀ (kw : List (String × V)) (o : Obj V), assign cls o kw = .error e ↔ ∃ before kv after, kw = before ++ kv :: after ∧ (∀ k v, (k, v) ∈ before → ∃ x, Takes cls k v x) ∧ Wrong cls kv e := by
    intro kw
    induction kw with
    | nil =>
      intro o
      constructor
      · intro h; cases h
      · rintro ⟨b, kv, a, h, _⟩
        cases b <;> cases h
    | cons kv rest ih =>
      intro o
      obtain ⟨k, v⟩ := kv
      constructor
      · intro h
        rcases takes_or_wrong cls k v with ⟨x, hx⟩ | ⟨e', hw⟩
        · rw [assign_takes cls o k v x rest hx] at h
          obtain ⟨b, kv, a, h1, h2, h3⟩ := (ih _).1 h
          refine ⟨(k, v) :: b, kv, a, by rw [h1]; rfl, ?_, h3⟩
          intro k' v' hm
          rcases List.mem_cons.1 hm with he | hm
          · cases he; exact ⟨x, hx⟩
          · exact h2 k' v' hm
        · rw [assign_wrong cls o (k, v) e' rest hw] at h
          cases h
          exact ⟨[], (k, v), rest, rfl, fun _ _ h => absurd h List.not_mem_nil, hw⟩
      · rintro ⟨b, kv, a, h1, h2, h3⟩
        cases b with
        | nil =>
          cases h1
          exact assign_wrong cls o (k, v) e rest h3
        | cons kv' b =>
          cases h1
          obtain ⟨x, hx⟩ := h2 k v List.mem_cons_self
          rw [assign_takes cls o k v x _ hx]
          exact (ih _).2 ⟨b, kv, a, rfl, fun k' v' hm => h2 k' v' (List.mem_cons_of_mem _ hm), h3⟩
  rw [← key kw (fresh cls)]
  unfold construct
  cases assign cls (fresh cls) kw <;> simp

/-- **C113.** The order of the keywords makes no difference to the object. -/
theorem C113_order {V : Type} (cls : Cls V) (m m' : Mem) (kw kw' : List (String × V)) (hn : Kwargs kw) (hp : kw.Perm kw') (o : Obj V)
    (h : (construct cls m kw).2 = .ok o) : (construct cls m' kw').2 = .ok o := by
  have ht : ∀ k v, (k, v) ∈ kw → ∃ x, Takes cls k v x := by
    by_contra hc
    have hw : ∃ e, (construct cls m kw).2 = .error e := by
      clear h hn hp
      suffices ∀ (kw : List (String × V)) (o : Obj V), (¬ ∀ k v, (k, v) ∈ kw → ∃ x, Takes cls k v x) → ∃ e, assign cls o kw = .error e by
        obtain ⟨e, he⟩ := this kw (fresh cls) hc
        exact ⟨e, by simp [construct, he]⟩
      intro kw
      induction kw with
      | nil => intro _ hc; exact absurd (fun _ _ h => absurd h List.not_mem_nil) hc
      | cons kv rest ih =>
        obtain ⟨k, v⟩ := kv
        intro o hc
        rcases takes_or_wrong cls k v with ⟨x, hx⟩ | ⟨e, hw⟩
        · rw [assign_takes cls o k v x rest hx]
          apply ih
          intro hr
          apply hc
          intro k' v' hm
          rcases List.mem_cons.1 hm with he | hm
          · cases he; exact ⟨x, hx⟩
          · exact hr k' v' hm
        · exact ⟨e, assign_wrong cls o (k, v) e rest hw⟩
    obtain ⟨e, he⟩ := hw
    rw [he] at h
    cases h
  have hn' : Kwargs kw' := (hp.map Prod.fst).nodup_iff.1 hn
  obtain ⟨o1, h1, c1⟩ := C113_values cls m kw hn ht
  obtain ⟨o2, h2, c2⟩ := C113_values cls m' kw' hn' (fun k v hm => ht k v (hp.mem_iff.2 hm))
  rw [h1] at h
  cases h
  have c2' : Configured cls kw o2 :=
    ⟨fun k v hm => c2.given k v (hp.mem_iff.1 hm), fun k d s hm hc => c2.default k d s (fun v hv => hm v (hp.mem_iff.2 hv)) hc, c2.nothing⟩
  rw [h2, C113_unique cls kw _ _ c1 c2']

/-- **C113.** Giving one more keyword is the same as assigning to the attribute of the object afterwards, except that a name the class does not have is a TypeError for the one and an AttributeError for the other. -/
theorem C113_assign {V : Type} (cls : Cls V) (m : Mem) (kw : List (String × V)) (o : Obj V) (k : String) (v : V) (h : (construct cls m kw).2 = .ok o) :
    (construct cls m (kw ++ [(k, v)])).2 = (if cls k = none then .error .typeError else setAttr cls o k v) ∧ (cls k = none → setAttr cls o k v = .error .attributeError) := by
  have ha : assign cls (fresh cls) kw = .ok o := by
    unfold construct at h
    cases hx : assign cls (fresh cls) kw with
    | ok o' => rw [hx] at h; simpa using h
    | error e => rw [hx] at h; cases h
  have hc : ∀ (kw : List (String × V)) (o0 : Obj V), assign cls o0 kw = .ok o → assign cls o0 (kw ++ [(k, v)]) = assign cls o [(k, v)] := by
    intro kw
    induction kw with
    | nil => intro o0 h; cases h; rfl
    | cons kv rest ih =>
      intro o0 h
      obtain ⟨k', v'⟩ := kv
      rcases takes_or_wrong cls k' v' with ⟨x, hx⟩ | ⟨e, hw⟩
      · rw [assign_takes cls o0 k' v' x rest hx] at h
        rw [List.cons_append, assign_takes cls o0 k' v' x _ hx]
        exact ih _ h
      · rw [assign_wrong cls o0 (k', v') e rest hw] at h
        cases h
  constructor
  · unfold construct
    rw [hc kw _ ha]
    cases hk : cls k with
    | none => simp [assign, hasAttr, hk]
    | some a =>
      cases a with
      | fixed => simp [assign, hasAttr, setAttr, hk]
      | property d s => cases hs : s v <;> simp [assign, hasAttr, setAttr, hk, hs]
  · intro hk
    simp [setAttr, hk]

/-- The full property of memory: a constructor that raises leaves nothing behind. -/
def C113_statement : Prop := ∀ (V : Type) (cls : Cls V) (m : Mem) (kw : List (String × V)), Kwargs kw → (construct cls m kw).1.lost = m.lost

/-- **C113, partial.** A constructor that does not raise adds one object, and Python owns it. -/
theorem C113_partial {V : Type} (cls : Cls V) (m : Mem) (kw : List (String × V)) (o : Obj V) (h : (construct cls m kw).2 = .ok o) :
    (construct cls m kw).1 = ⟨m.owned + 1, m.lost⟩ := by
  unfold construct at h ⊢
  cases hx : assign cls (fresh cls) kw with
  | ok o' => rfl
  | error e => rw [hx] at h; cases h

/-- **C113.** Every constructor that raises leaves behind one object that nothing can free. -/
theorem C113_lost {V : Type} (cls : Cls V) (m : Mem) (kw : List (String × V)) (e : Err) (h : (construct cls m kw).2 = .error e) :
    (construct cls m kw).1 = ⟨m.owned, m.lost + 1⟩ := by
  unfold construct at h ⊢
  cases hx : assign cls (fresh cls) kw with
  | ok o' => rw [hx] at h; cases h
  | error e => rfl

/-- **C113.** `ChunkStreamGroupConfig(max_chunks=0)` is refused, as it should be, and the object it had started is lost. -/
theorem C113_violated : ¬ C113_statement := by
  intro h
  have := h Val groupConfig ⟨0, 0⟩ [("max_chunks", .int 0)] (by simp [Kwargs])
  have he : (construct groupConfig ⟨0, 0⟩ [("max_chunks", .int 0)]).2 = .error .valueError :=
    (C113_raises groupConfig ⟨0, 0⟩ _ _).2 ⟨[], _, [], rfl, fun _ _ h => absurd h List.not_mem_nil, .refused _ _ _ _ _ rfl rfl⟩
  rw [C113_lost _ _ _ _ he] at this
  cases this

/-- **C113.** A group configuration that is made has at least one chunk, at most 2⁶⁴ - 1, and an eviction mode; unless they are given, they are 2 and LOSSY. -/
theorem C113_group (m : Mem) (kw : List (String × Val)) (hn : Kwargs kw) (o : Obj Val) (h : (construct groupConfig m kw).2 = .ok o) :
    (∃ i, o "max_chunks" = some (.int i) ∧ 0 < i ∧ i < 2 ^ 64 ∧ (("max_chunks", .int i) ∈ kw ∨ (i = 2 ∧ ∀ v, ("max_chunks", v) ∉ kw))) ∧
    (∃ b, o "eviction_mode" = some (.mode b) ∧ (("eviction_mode", .mode b) ∈ kw ∨ (b = false ∧ ∀ v, ("eviction_mode", v) ∉ kw))) ∧
    ∀ k v, (k, v) ∈ kw → k = "max_chunks" ∨ k = "eviction_mode" := by
  have hw : ∀ k v, (k, v) ∈ kw → ∃ x, Takes groupConfig k v x := by
    suffices ∀ (kw : List (String × Val)) (o0 o : Obj Val), assign groupConfig o0 kw = .ok o → ∀ k v, (k, v) ∈ kw → ∃ x, Takes groupConfig k v x by
      unfold construct at h
      cases hx : assign groupConfig (fresh groupConfig) kw with
      | ok o' => exact this kw _ _ hx
      | error e => rw [hx] at h; cases h
    intro kw
    induction kw with
    | nil => intro _ _ _ _ _ h; exact absurd h List.not_mem_nil
    | cons kv rest ih =>
      intro o0 o h k v hm
      obtain ⟨k', v'⟩ := kv
      rcases takes_or_wrong groupConfig k' v' with ⟨x, hx⟩ | ⟨e, hwr⟩
      · rw [assign_takes _ _ _ _ _ _ hx] at h
        rcases List.mem_cons.1 hm with he | hm
        · cases he; exact ⟨x, hx⟩
        · exact ih _ _ h k v hm
      · rw [assign_wrong _ _ _ _ _ hwr] at h
        cases h
  obtain ⟨o', h1, c⟩ := C113_values groupConfig m kw hn hw
  rw [h1] at h
  cases h
  refine ⟨?_, ?_, ?_⟩
  · by_cases hm : ∃ v, ("max_chunks", v) ∈ kw
    · obtain ⟨v, hm⟩ := hm
      obtain ⟨x, ⟨d, s, h2, h3⟩, h4⟩ := c.given _ _ hm
      simp only [groupConfig, if_pos, Option.some.injEq, Attr.property.injEq] at h2
      obtain ⟨_, rfl⟩ := h2
      cases v with
      | int i =>
        simp only at h3
        split at h3
        · cases h3
        · split at h3
          · cases h3
          · cases h3
            exact ⟨i, h4, by omega, by omega, Or.inl hm⟩
      | mode b => cases h3
      | other => cases h3
    · have hm' : ∀ v, ("max_chunks", v) ∉ kw := fun v hv => hm ⟨v, hv⟩
      exact ⟨2, c.default _ _ _ hm' rfl, by omega, by omega, Or.inr ⟨rfl, hm'⟩⟩
  · by_cases hm : ∃ v, ("eviction_mode", v) ∈ kw
    · obtain ⟨v, hm⟩ := hm
      obtain ⟨x, ⟨d, s, h2, h3⟩, h4⟩ := c.given _ _ hm
      have h2' : some (Attr.property (Val.mode false) _) = some (Attr.property d s) := h2
      simp only [Option.some.injEq, Attr.property.injEq] at h2'
      obtain ⟨_, rfl⟩ := h2'
      cases v with
      | mode b => cases h3; exact ⟨b, h4, Or.inl hm⟩
      | int i => cases h3
      | other => cases h3
    · have hm' : ∀ v, ("eviction_mode", v) ∉ kw := fun v hv => hm ⟨v, hv⟩
      exact ⟨false, c.default _ _ _ hm' rfl, Or.inr ⟨rfl, hm'⟩⟩
  · intro k v hm
    obtain ⟨x, d, s, h2, _⟩ := hw k v hm
    unfold groupConfig at h2
    split at h2
    · exact Or.inl ‹_›
    · split at h2
      · exact Or.inr ‹_›
      · split at h2 <;> cases h2

/-- **C113.** What a group configuration refuses: 0 is a ValueError, a number `std::size_t` cannot hold or something of another type is a TypeError, a name that is a constant of the class is an AttributeError, and any other name is a TypeError. -/
theorem C113_group_refuses (m : Mem) (v : Val) (name : String) (h1 : name ≠ "max_chunks") (h2 : name ≠ "eviction_mode") :
    (construct groupConfig m [("max_chunks", v)]).2 = (match v with
      | .int i => if i = 0 then .error .valueError else if 0 < i ∧ i < 2 ^ 64 then .ok (fun n => if n = "max_chunks" then some (.int i) else fresh groupConfig n) else .error .typeError
      | _ => .error .typeError) ∧
    (construct groupConfig m [(name, v)]).2 = .error (if name = "DEFAULT_MAX_CHUNKS" ∨ name = "EvictionMode" then .attributeError else .typeError) := by
  constructor
  · cases v with
    | int i =>
      by_cases h0 : i = 0
      · subst h0; rfl
      · by_cases hr : i < 0 ∨ 18446744073709551616 ≤ i
        · have : ¬ (0 < i ∧ i < 2 ^ 64) := by omega
          simp [construct, assign, hasAttr, setAttr, groupConfig, h0, hr]
          omega
        · have : (0 < i ∧ i < 2 ^ 64) := by omega
          simp only [construct, assign, hasAttr, setAttr, groupConfig, h0, hr, this, if_true, if_false, Option.isSome, and_self]
    | mode b => rfl
    | other => rfl
  · by_cases hf : name = "DEFAULT_MAX_CHUNKS" ∨ name = "EvictionMode"
    · simp only [construct, assign, hasAttr, setAttr, groupConfig, h1, h2, hf, if_true, if_false, Option.isSome]
    · simp [construct, assign, hasAttr, groupConfig, h1, h2, hf]

/-- Both properties can be given, in either order. -/
example : ∃ o, (construct groupConfig ⟨0, 0⟩ [("eviction_mode", .mode true), ("max_chunks", .int 5)]).2 = .ok o ∧ o "max_chunks" = some (.int 5) ∧ o "eviction_mode" = some (.mode true) :=
  ⟨_, rfl, rfl, rfl⟩

example : Kwargs [("eviction_mode", Val.mode true), ("max_chunks", Val.int 5)] := by simp [Kwargs]

/-- The second keyword is the one that is wrong. -/
example : (construct groupConfig ⟨0, 0⟩ [("max_chunks", .int 5), ("max_chunk", .int 0), ("eviction_mode", .other)]).2 = .error .typeError := rfl

end Spead2.DataClass
