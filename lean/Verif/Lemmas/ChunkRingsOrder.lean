import Verif.Lemmas.ChunkRingsRun

/-!
# The order in which chunks reach the consumer
-/

namespace Spead2
open Spec

/-- What an event does to stream `i`'s part of the data ring: nothing, or the stream hands over `r` through the ring, or it hands
over `r` to the graveyard. -/
inductive Handover (s s' : ChunkRings) (o : RingsOut) (i : Nat) (f f' : Feeder) : Prop
  | none : (f.grave = [] → f'.grave = []) → readied (winEvs f'.effects) = readied (winEvs f.effects) → delivered i [o] ++ queued i s' = queued i s → Handover s s' o i f f'
  | ring (r : List Chunk) : (f.grave = [] → f'.grave = []) → s.dataStopped = false → readied (winEvs f'.effects) = readied (winEvs f.effects) ++ r →
      delivered i [o] ++ queued i s' = queued i s ++ r → Handover s s' o i f f'
  | buried (r : List Chunk) : s.dataStopped = true → FeedAct.remove ∉ f.log → readied (winEvs f'.effects) = readied (winEvs f.effects) ++ r →
      delivered i [o] ++ queued i s' = queued i s → Handover s s' o i f f'

theorem FInv.unremoved {fd : Feed} (g : GoodFeed fd) {f : Feeder} (i : FInv fd f) {l : List FeedAct} (hl : fd.acts f.ans = some l) {a : FeedAct}
    (hn : l[f.log.length]? = some a) : FeedAct.remove ∉ f.log := by
  intro h
  obtain ⟨l', h1, h2⟩ := (i.emptied g h).2
  rw [hl] at h1
  cases h1
  rw [List.getElem?_eq_none h2] at hn
  cases hn

theorem feeder_get {fs : List Feeder} {i j : Nat} {f f1 g : Feeder} (hf : fs[i]? = some f) (h : (fs.set i f1)[j]? = some g) :
    (j = i ∧ g = f1) ∨ (j ≠ i ∧ fs[j]? = some g) := by
  rw [List.getElem?_set] at h
  by_cases hij : i = j
  · subst hij
    have hlt : i < fs.length := by
      rcases Nat.lt_or_ge i fs.length with h' | h'
      · exact h'
      · rw [List.getElem?_eq_none h'] at hf; cases hf
    rw [if_pos rfl, if_pos hlt] at h
    cases h
    exact Or.inl ⟨rfl, rfl⟩
  · rw [if_neg hij] at h
    exact Or.inr ⟨fun e => hij e.symm, h⟩

theorem readied_snoc (tr : List ChunkEv) (e : ChunkEv) : readied (winEvs (tr ++ [e])) = readied (winEvs tr) ++ readied (winEvs [e]) := by
  rw [winEvs_append, readied_append]

theorem queued_push (i j : Nat) (c : Chunk) (p : Nat) (s : ChunkRings) (i' : Nat) (f : Feeder) (a : FeedAct) :
    queued j (({ s with data := s.data ++ [(i, c, p)] }).advance i' f a) = queued j s ++ if i = j then [c] else [] := by
  unfold queued ChunkRings.advance
  simp only [List.filterMap_append]
  by_cases h : i = j <;> simp [h]

theorem act_handover {fds : List Feed} {n : Nat} {s s' : ChunkRings} {o : RingsOut} (inv : CrInv fds n s) {i : Nat} {fd : Feed} {f : Feeder} (good : GoodFeed fd)
    (hfd : fds[i]? = some fd) (hf : s.feeders[i]? = some f) {l : List FeedAct} (hl : fd.acts f.ans = some l) (hc : ActCase s i fd f l s' o)
    {j : Nat} {g' : Feeder} (hg : s'.feeders[j]? = some g') : ∃ g, s.feeders[j]? = some g ∧ Handover s s' o j g g' := by
  have hF := inv.feed i fd f hfd hf
  have quiet : ∀ (s' : ChunkRings) (f1 : Feeder), s'.feeders = s.feeders.set i f1 → s'.data = s.data → readied (winEvs f1.effects) = readied (winEvs f.effects) → (f.grave = [] → f1.grave = []) →
      s'.feeders[j]? = some g' → ∃ g, s.feeders[j]? = some g ∧ Handover s s' .done j g g' := by
    intro s' f1 h1 h2 h3 h5 h4
    rw [h1] at h4
    have hq : delivered j [.done] ++ queued j s' = queued j s := by unfold queued; rw [h2]; rfl
    rcases feeder_get hf h4 with ⟨rfl, rfl⟩ | ⟨h, h'⟩
    · exact ⟨f, hf, .none h5 h3 hq⟩
    · exact ⟨g', h', .none id rfl hq⟩
  cases hc with
  | finished _ => exact ⟨g', hg, .none id rfl rfl⟩
  | waitFree _ _ _ _ _ => exact ⟨g', hg, .none id rfl rfl⟩
  | waitData _ _ _ _ => exact ⟨g', hg, .none id rfl rfl⟩
  | take id sid p rest hn hfr => exact quiet _ _ rfl rfl (by rw [effects_advance, readied_snoc]; exact List.append_nil _) (fun h => h) hg
  | refused id sid hn hfr hst => exact quiet _ _ rfl rfl (by rw [effects_advance, readied_snoc]; exact List.append_nil _) (fun h => h) hg
  | push c p rest hn hh hst hcap =>
    have hd : ∀ s'' : ChunkRings, delivered j [.done] ++ queued j s'' = queued j s'' := fun _ => rfl
    rcases feeder_get hf hg with ⟨rfl, rfl⟩ | ⟨h, h'⟩
    · refine ⟨f, hf, .ring [c] id hst ?_ ?_⟩
      · rw [effects_advance, readied_snoc]; rfl
      · rw [hd, queued_push, if_pos rfl]
    · refine ⟨g', h', .none id rfl ?_⟩
      rw [hd, queued_push, if_neg (fun e => h e.symm), List.append_nil]
  | bury c p rest hn hh hst =>
    rcases feeder_get hf hg with ⟨rfl, rfl⟩ | ⟨h, h'⟩
    · refine ⟨f, hf, .buried [c] hst (hF.unremoved good hl hn) ?_ rfl⟩
      rw [effects_advance, readied_snoc]; rfl
    · exact ⟨g', h', .none id rfl rfl⟩
  | write c p off data hn hm => exact quiet _ _ rfl rfl (by rw [effects_advance, readied_snoc]; simp [winEvs, readied]) id hg
  | present c p k hn hm => exact quiet _ _ rfl rfl (by rw [effects_advance, readied_snoc]; simp [winEvs, readied]) id hg
  | other e hn h1 h2 h3 =>
    refine quiet _ _ rfl rfl ?_ id hg
    rw [effects_advance, readied_snoc]
    have : readied (winEvs [e]) = [] := by
      cases e with
      | win w =>
        obtain ⟨m, rfl⟩ := h1 w rfl
        rfl
      | _ => rfl
    rw [this, List.append_nil]
  | remove hn hpos => exact quiet _ _ rfl rfl (by rw [effects_removed]) id hg

theorem act_fields {s s' : ChunkRings} {o : RingsOut} {i : Nat} {fd : Feed} {f : Feeder} {l : List FeedAct} (hc : ActCase s i fd f l s' o) :
    (s.dataStopped = true → s'.dataStopped = true) ∧ s'.producers ≤ s.producers ∧ (s'.dataStopped = true → s.dataStopped = true ∨ s'.producers = 0) ∧
      s'.freeStopped = s.freeStopped ∧ s'.freeCap = s.freeCap ∧ s'.dataCap = s.dataCap ∧ s'.freed = s.freed ∧ (s'.producers = 0 → s.producers = 0 ∨ s'.dataStopped = true) := by
  cases hc with
  | remove hn hpos =>
    refine ⟨?_, Nat.sub_le _ _, ?_, rfl, rfl, rfl, rfl, ?_⟩
    · intro h
      show (s.dataStopped || s.producers - 1 == 0) = true
      rw [h]; rfl
    · intro h
      have h' : (s.dataStopped || s.producers - 1 == 0) = true := h
      rw [Bool.or_eq_true] at h'
      rcases h' with h' | h'
      · exact Or.inl h'
      · exact Or.inr (show s.producers - 1 = 0 by simpa using h')
    · intro h
      have h' : s.producers - 1 = 0 := h
      refine Or.inr (show (s.dataStopped || s.producers - 1 == 0) = true from ?_)
      rw [h']; simp
  | _ => exact ⟨fun h => h, Nat.le_refl _, fun h => Or.inl h, rfl, rfl, rfl, rfl, Or.inl⟩

/-- The outcome of an event is known. -/
theorem CrInv.stepActs {fds : List Feed} (good : ∀ fd ∈ fds, GoodFeed fd) {n : Nat} {s s' : ChunkRings} {o : RingsOut} (inv : CrInv fds n s) {i : Nat}
    (h : s.step fds (.act i) = some (s', o)) :
    (s' = s ∧ o = .invalid) ∨ ∃ fd f l, fds[i]? = some fd ∧ s.feeders[i]? = some f ∧ fd.acts f.ans = some l ∧ ActCase s i fd f l s' o := by
  cases hfd : fds[i]? with
  | none =>
    simp only [ChunkRings.step, ChunkRings.act, hfd] at h
    cases h
    exact Or.inl ⟨rfl, rfl⟩
  | some fd =>
    cases hf : s.feeders[i]? with
    | none =>
      simp only [ChunkRings.step, ChunkRings.act, hfd, hf] at h
      cases h
      exact Or.inl ⟨rfl, rfl⟩
    | some f =>
      obtain ⟨l, s1, o1, h1, h2, h3⟩ := act_cases inv (good fd (List.mem_of_getElem? hfd)) hfd hf
      have h' : s.act fds i = some (s', o) := h
      rw [h2] at h'
      cases h'
      exact Or.inr ⟨fd, f, l, rfl, rfl, h1, h3⟩

theorem CrInv.handover {fds : List Feed} (good : ∀ fd ∈ fds, GoodFeed fd) {n : Nat} {s s' : ChunkRings} {o : RingsOut} (inv : CrInv fds n s) {op : RingsOp}
    (h : s.step fds op = some (s', o)) {j : Nat} {g' : Feeder} (hg : s'.feeders[j]? = some g') : ∃ g, s.feeders[j]? = some g ∧ Handover s s' o j g g' := by
  cases op with
  | act i =>
    rcases inv.stepActs good h with ⟨rfl, rfl⟩ | ⟨fd, f, l, h1, h2, h3, h4⟩
    · exact ⟨g', hg, .none id rfl rfl⟩
    · exact act_handover inv (good fd (List.mem_of_getElem? h1)) h1 h2 h3 h4 hg
  | add p =>
    simp only [ChunkRings.step, ChunkRings.add] at h
    split at h
    · split at h
      · cases h; exact ⟨g', hg, .none id rfl rfl⟩
      · split at h
        · cases h; exact ⟨g', hg, .none id rfl rfl⟩
        · cases h; exact ⟨g', hg, .none id rfl rfl⟩
    · cases h; exact ⟨g', hg, .none id rfl rfl⟩
  | pop =>
    simp only [ChunkRings.step, ChunkRings.pop] at h
    split at h
    · next i c p rest hd =>
      cases h
      refine ⟨g', hg, .none id rfl ?_⟩
      unfold delivered queued
      rw [hd]
      by_cases hij : i = j <;> simp [hij]
    · have h' := Option.some.inj h
      have h1 : s' = s := (Prod.mk.inj h').1.symm
      have h2 : o = if s.dataStopped then .stopped else .wait := (Prod.mk.inj h').2.symm
      subst h1
      refine ⟨g', hg, .none id rfl ?_⟩
      have : delivered j [o] = [] := by
        rw [h2]
        split <;> rfl
      rw [this]; rfl
  | stopFree => cases h; exact ⟨g', hg, .none id rfl rfl⟩
  | stopData => cases h; exact ⟨g', hg, .none id rfl rfl⟩
  | reap i =>
    simp only [ChunkRings.step, ChunkRings.reap] at h
    split at h
    · next fd f hfd hf =>
      split at h
      · cases h
      · split at h
        · cases h
          rcases feeder_get hf hg with ⟨rfl, rfl⟩ | ⟨h, h'⟩
          · exact ⟨f, hf, .none (fun _ => rfl) rfl rfl⟩
          · exact ⟨g', h', .none id rfl rfl⟩
        · cases h; exact ⟨g', hg, .none id rfl rfl⟩
    · cases h; exact ⟨g', hg, .none id rfl rfl⟩
  | poke p k b =>
    simp only [ChunkRings.step] at h
    split at h
    · cases h; exact ⟨g', hg, .none id rfl rfl⟩
    · cases h; exact ⟨g', hg, .none id rfl rfl⟩
  | mark p k v =>
    simp only [ChunkRings.step] at h
    split at h
    · cases h; exact ⟨g', hg, .none id rfl rfl⟩
    · cases h; exact ⟨g', hg, .none id rfl rfl⟩

theorem CrInv.fields {fds : List Feed} (good : ∀ fd ∈ fds, GoodFeed fd) {n : Nat} {s s' : ChunkRings} {o : RingsOut} (inv : CrInv fds n s) {op : RingsOp}
    (h : s.step fds op = some (s', o)) :
    (s.dataStopped = true → s'.dataStopped = true) ∧ s'.producers ≤ s.producers ∧ (s'.dataStopped = true → s.dataStopped = true ∨ s'.producers = 0 ∨ op = .stopData) ∧
      (s.freeStopped = true → s'.freeStopped = true) ∧ s'.freeCap = s.freeCap ∧ s'.dataCap = s.dataCap ∧
      ((∀ (i : Nat) (f : Feeder), s.feeders[i]? = some f → f.grave = []) → s'.freed = s.freed) ∧ (s'.producers = 0 → s.producers = 0 ∨ s'.dataStopped = true) := by
  have same : s'.dataStopped = s.dataStopped → s'.producers = s.producers → s'.freeStopped = s.freeStopped → s'.freeCap = s.freeCap → s'.dataCap = s.dataCap →
      ((∀ (i : Nat) (f : Feeder), s.feeders[i]? = some f → f.grave = []) → s'.freed = s.freed) → (s.dataStopped = true → s'.dataStopped = true) ∧ s'.producers ≤ s.producers ∧ (s'.dataStopped = true → s.dataStopped = true ∨ s'.producers = 0 ∨ op = .stopData) ∧
      (s.freeStopped = true → s'.freeStopped = true) ∧ s'.freeCap = s.freeCap ∧ s'.dataCap = s.dataCap ∧
      ((∀ (i : Nat) (f : Feeder), s.feeders[i]? = some f → f.grave = []) → s'.freed = s.freed) ∧ (s'.producers = 0 → s.producers = 0 ∨ s'.dataStopped = true) := by
    intro h1 h2 h3 h4 h5 h6
    exact ⟨fun h => by rw [h1]; exact h, by omega, fun h => Or.inl (by rw [← h1]; exact h), fun h => by rw [h3]; exact h, h4, h5, h6, fun h => Or.inl (by omega)⟩
  cases op with
  | act i =>
    rcases inv.stepActs good h with ⟨rfl, rfl⟩ | ⟨fd, f, l, h1, h2, h3, h4⟩
    · exact same rfl rfl rfl rfl rfl (fun _ => rfl)
    · obtain ⟨a, b, c, d, e, f, g, h⟩ := act_fields h4
      exact ⟨a, b, fun h => (c h).imp id Or.inl, fun h => by rw [d]; exact h, e, f, fun _ => g, h⟩
  | add p =>
    simp only [ChunkRings.step, ChunkRings.add] at h
    split at h
    · split at h
      · cases h; exact same rfl rfl rfl rfl rfl (fun _ => rfl)
      · split at h
        · cases h; exact same rfl rfl rfl rfl rfl (fun _ => rfl)
        · cases h; exact same rfl rfl rfl rfl rfl (fun _ => rfl)
    · cases h; exact same rfl rfl rfl rfl rfl (fun _ => rfl)
  | pop =>
    simp only [ChunkRings.step, ChunkRings.pop] at h
    split at h
    · cases h; exact same rfl rfl rfl rfl rfl (fun _ => rfl)
    · have h1 : s' = s := (Prod.mk.inj (Option.some.inj h)).1.symm
      subst h1
      exact same rfl rfl rfl rfl rfl (fun _ => rfl)
  | stopFree => cases h; exact ⟨fun h => h, Nat.le_refl _, fun h => Or.inl h, fun _ => rfl, rfl, rfl, fun _ => rfl, Or.inl⟩
  | stopData => cases h; exact ⟨fun _ => rfl, Nat.le_refl _, fun _ => Or.inr (Or.inr rfl), fun h => h, rfl, rfl, fun _ => rfl, Or.inl⟩
  | reap i =>
    simp only [ChunkRings.step, ChunkRings.reap] at h
    split at h
    · next fd f hfd hf =>
      split at h
      · cases h
      · split at h
        · cases h
          exact same rfl rfl rfl rfl rfl (fun hg => by show s.freed ++ f.grave = s.freed; rw [hg i f hf, List.append_nil])
        · cases h; exact same rfl rfl rfl rfl rfl (fun _ => rfl)
    · cases h; exact same rfl rfl rfl rfl rfl (fun _ => rfl)
  | poke p k b =>
    simp only [ChunkRings.step] at h
    split at h
    · cases h; exact same rfl rfl rfl rfl rfl (fun _ => rfl)
    · cases h; exact same rfl rfl rfl rfl rfl (fun _ => rfl)
  | mark p k v =>
    simp only [ChunkRings.step] at h
    split at h
    · cases h; exact same rfl rfl rfl rfl rfl (fun _ => rfl)
    · cases h; exact same rfl rfl rfl rfl rfl (fun _ => rfl)

/-- What an event does to the answers a stream got. -/
theorem CrInv.answered {fds : List Feed} (good : ∀ fd ∈ fds, GoodFeed fd) {n : Nat} {s s' : ChunkRings} {o : RingsOut} (inv : CrInv fds n s) {op : RingsOp}
    (h : s.step fds op = some (s', o)) {j : Nat} {g' : Feeder} (hg : s'.feeders[j]? = some g') :
    ∃ g, s.feeders[j]? = some g ∧ ∀ x ∈ g'.ans, x ∈ g.ans ∨ x.2 = true ∨ (s.freeStopped = true ∧ s.free = []) := by
  have same : s'.feeders = s.feeders → ∃ g, s.feeders[j]? = some g ∧ ∀ x ∈ g'.ans, x ∈ g.ans ∨ x.2 = true ∨ (s.freeStopped = true ∧ s.free = []) := by
    intro h
    rw [h] at hg
    exact ⟨g', hg, fun x hx => Or.inl hx⟩
  have put : ∀ (i : Nat) (f f1 : Feeder), s.feeders[i]? = some f → s'.feeders = s.feeders.set i f1 → (∀ x ∈ f1.ans, x ∈ f.ans ∨ x.2 = true ∨ (s.freeStopped = true ∧ s.free = [])) →
      ∃ g, s.feeders[j]? = some g ∧ ∀ x ∈ g'.ans, x ∈ g.ans ∨ x.2 = true ∨ (s.freeStopped = true ∧ s.free = []) := by
    intro i f f1 hf h1 h2
    rw [h1] at hg
    rcases feeder_get hf hg with ⟨rfl, rfl⟩ | ⟨_, h'⟩
    · exact ⟨f, hf, h2⟩
    · exact ⟨g', h', fun x hx => Or.inl hx⟩
  cases op with
  | act i =>
    rcases inv.stepActs good h with ⟨rfl, rfl⟩ | ⟨fd, f, l, h1, h2, h3, h4⟩
    · exact same rfl
    · cases h4 with
      | finished _ => exact same rfl
      | waitFree _ _ _ _ _ => exact same rfl
      | waitData _ _ _ _ => exact same rfl
      | take id sid p rest hn hfr =>
        refine put i f _ h2 rfl (fun x hx => ?_)
        have hx' : x ∈ f.ans ++ [(id, true)] := hx
        rcases List.mem_append.1 hx' with hx' | hx'
        · exact Or.inl hx'
        · rw [List.mem_singleton] at hx'
          rw [hx']; exact Or.inr (Or.inl rfl)
      | refused id sid hn hfr hst => exact put i f _ h2 rfl (fun x _ => Or.inr (Or.inr ⟨hst, hfr⟩))
      | _ => exact put i f _ h2 rfl (fun x hx => Or.inl hx)
  | add p =>
    simp only [ChunkRings.step, ChunkRings.add] at h
    split at h
    · split at h
      · cases h; exact same rfl
      · split at h
        · cases h; exact same rfl
        · cases h; exact same rfl
    · cases h; exact same rfl
  | pop =>
    simp only [ChunkRings.step, ChunkRings.pop] at h
    split at h
    · cases h; exact same rfl
    · have h1 : s' = s := (Prod.mk.inj (Option.some.inj h)).1.symm
      subst h1
      exact same rfl
  | stopFree => cases h; exact same rfl
  | stopData => cases h; exact same rfl
  | reap i =>
    simp only [ChunkRings.step, ChunkRings.reap] at h
    split at h
    · next fd f hfd hf =>
      split at h
      · cases h
      · split at h
        · cases h
          exact put i f _ hf rfl (fun x hx => Or.inl hx)
        · cases h; exact same rfl
    · cases h; exact same rfl
  | poke p k b =>
    simp only [ChunkRings.step] at h
    split at h
    · cases h; exact same rfl
    · cases h; exact same rfl
  | mark p k v =>
    simp only [ChunkRings.step] at h
    split at h
    · cases h; exact same rfl
    · cases h; exact same rfl

/-- The chunks `D i` of each stream have reached the consumer. `natural`: nobody stopped the data ring. -/
structure OInv (fds : List Feed) (natural : Prop) (D : Nat → List Chunk) (s : ChunkRings) : Prop where
  pre : ∀ (i : Nat) (f : Feeder), s.feeders[i]? = some f → D i ++ queued i s <+: readied (winEvs f.effects)
  all : ∀ (i : Nat) (f : Feeder), s.feeders[i]? = some f → natural ∨ s.dataStopped = false → D i ++ queued i s = readied (winEvs f.effects)
  last : natural → s.dataStopped = true → s.producers = 0
  clean : natural → (∀ (i : Nat) (f : Feeder), s.feeders[i]? = some f → f.grave = []) ∧ s.freed = []
  closed : s.producers = 0 → fds = [] ∨ s.dataStopped = true
  granted : s.freeStopped = false → ∀ (i : Nat) (f : Feeder), s.feeders[i]? = some f → ∀ x ∈ f.ans, x.2 = true

theorem CrInv.allRemoved {fds : List Feed} {n : Nat} {s : ChunkRings} (inv : CrInv fds n s) (h : s.producers = 0) {i : Nat} {f : Feeder} (hf : s.feeders[i]? = some f) :
    FeedAct.remove ∈ f.log := by
  rw [inv.prods, List.countP_eq_zero] at h
  have := h f (List.mem_of_getElem? hf)
  simpa using this

theorem OInv.step {fds : List Feed} (good : ∀ fd ∈ fds, GoodFeed fd) {n : Nat} {s s' : ChunkRings} {o : RingsOut} (inv : CrInv fds n s) {op : RingsOp}
    (h : s.step fds op = some (s', o)) {natural : Prop} (hnat : natural → op ≠ .stopData) {D : Nat → List Chunk} (oi : OInv fds natural D s) :
    OInv fds natural (fun i => D i ++ delivered i [o]) s' := by
  obtain ⟨m1, m2, m3, m6, -, -, m4, m5⟩ := inv.fields good h
  have hback : s'.dataStopped = false → s.dataStopped = false := by
    intro hs
    cases hd : s.dataStopped with
    | false => rfl
    | true => rw [m1 hd] at hs; cases hs
  refine ⟨?_, ?_, ?_, ?_, ?_, ?_⟩
  · intro i f' hf'
    obtain ⟨f, hf, hh⟩ := inv.handover good h hf'
    rw [List.append_assoc]
    cases hh with
    | none hgr h1 h2 => rw [h1, h2]; exact oi.pre i f hf
    | ring r hgr hs h1 h2 =>
      rw [h1, h2, ← List.append_assoc, oi.all i f hf (Or.inr hs)]
      exact List.prefix_refl _
    | buried r hs hr h1 h2 =>
      rw [h1, h2]
      exact (oi.pre i f hf).trans (List.prefix_append _ _)
  · intro i f' hf' hn
    obtain ⟨f, hf, hh⟩ := inv.handover good h hf'
    rw [List.append_assoc]
    have hn' : natural ∨ s.dataStopped = false := hn.imp id hback
    cases hh with
    | none hgr h1 h2 => rw [h1, h2]; exact oi.all i f hf hn'
    | ring r hgr hs h1 h2 => rw [h1, h2, ← List.append_assoc, oi.all i f hf hn']
    | buried r hs hr h1 h2 =>
      rcases hn' with hn' | hn'
      · exact absurd (inv.allRemoved (oi.last hn' hs) hf) hr
      · rw [hn'] at hs; cases hs
  · intro hn hs
    rcases m3 hs with h1 | h1 | h1
    · have := oi.last hn h1
      omega
    · exact h1
    · exact absurd h1 (hnat hn)
  · intro hn
    obtain ⟨c1, c2⟩ := oi.clean hn
    refine ⟨fun i f' hf' => ?_, by rw [m4 c1, c2]⟩
    obtain ⟨f, hf, hh⟩ := inv.handover good h hf'
    cases hh with
    | none hgr h1 h2 => exact hgr (c1 i f hf)
    | ring r hgr hs h1 h2 => exact hgr (c1 i f hf)
    | buried r hs hr h1 h2 => exact absurd (inv.allRemoved (oi.last hn hs) hf) hr
  · intro hp
    rcases m5 hp with h1 | h1
    · exact (oi.closed h1).imp id m1
    · exact Or.inr h1
  · intro hs i f' hf' x hx
    have hs0 : s.freeStopped = false := by
      cases hd : s.freeStopped with
      | false => rfl
      | true => rw [m6 hd] at hs; cases hs
    obtain ⟨f, hf, hh⟩ := inv.answered good h hf'
    rcases hh x hx with h1 | h1 | h1
    · exact oi.granted hs0 i f hf x h1
    · exact h1
    · rw [hs0] at h1; cases h1.1

theorem delivered_cons (i : Nat) (o : RingsOut) (os : List RingsOut) : delivered i (o :: os) = delivered i [o] ++ delivered i os :=
  List.filterMap_append (l := [o]) (l' := os)

theorem OInv.run {fds : List Feed} (good : ∀ fd ∈ fds, GoodFeed fd) {n : Nat} {natural : Prop} : ∀ (ops : List RingsOp) {s s' : ChunkRings} {os : List RingsOut} {D : Nat → List Chunk},
    CrInv fds n s → OInv fds natural D s → (natural → RingsOp.stopData ∉ ops) → ChunkRings.run fds ops s = some (s', os) → OInv fds natural (fun i => D i ++ delivered i os) s'
  | [], s, s', os, D, inv, oi, hn, h => by
    cases h
    have : (fun i => D i ++ delivered i []) = D := funext (fun i => List.append_nil _)
    rw [this]; exact oi
  | op :: ops, s, s', os, D, inv, oi, hn, h => by
    obtain ⟨s1, o, h1, inv1⟩ := inv.step good op
    simp only [ChunkRings.run, h1] at h
    split at h
    · cases h
    · next s2 os2 h2 =>
      cases h
      have := OInv.run good ops inv1 (OInv.step good inv h1 (fun hx e => hn hx (by rw [e]; simp)) oi) (fun hx e => hn hx (List.mem_cons_of_mem _ e)) h2
      have he : (fun i => D i ++ delivered i (o :: os2)) = (fun i => D i ++ delivered i [o] ++ delivered i os2) := by
        funext i
        rw [delivered_cons, List.append_assoc]
      rw [he]; exact this

theorem OInv.init (natural : Prop) (fds : List Feed) (n a b : Nat) (pr : Nat → Nat → Bool) (by_ : Nat → Nat → UInt8) :
    OInv fds natural (fun _ => []) (ChunkRings.new fds n a b pr by_) := by
  have hf : ∀ (i : Nat) (f : Feeder), (ChunkRings.new fds n a b pr by_).feeders[i]? = some f → f = {} := by
    intro i f h
    simp only [ChunkRings.new, List.getElem?_map, Option.map_eq_some_iff] at h
    obtain ⟨_, _, h⟩ := h
    exact h.symm
  refine ⟨fun i f h => ?_, fun i f h _ => ?_, (fun _ h => by cases h), fun _ => ⟨(fun i f h => by rw [hf i f h]), rfl⟩, fun h => Or.inl (List.eq_nil_of_length_eq_zero h), (fun _ i f h x hx => by rw [hf i f h] at hx; cases hx)⟩
  · rw [hf i f h]; exact List.prefix_refl _
  · rw [hf i f h]; rfl

theorem rings_order {fds : List Feed} (good : ∀ fd ∈ fds, GoodFeed fd) {n a b : Nat} {pr : Nat → Nat → Bool} {by_ : Nat → Nat → UInt8} {ops : List RingsOp} {s : ChunkRings} {os : List RingsOut}
    (h : ChunkRings.run fds ops (ChunkRings.new fds n a b pr by_) = some (s, os)) : OInv fds (RingsOp.stopData ∉ ops) (fun i => delivered i os) s :=
  OInv.run (D := fun _ => []) good ops (CrInv.init good n a b pr by_) (OInv.init _ fds n a b pr by_) id h

/-! ## Waiting and finishing -/

theorem FInv.heldLen {fd : Feed} {f : Feeder} (i : FInv fd f) : f.held.length ≤ fd.cfg.maxChunks := by
  have := flowRun_len i.flow (by simp)
  simpa using this

theorem window_count : ∀ (fds : List Feed) (fs : List Feeder), fs.length = fds.length → (∀ (i : Nat) (fd : Feed) (f : Feeder), fds[i]? = some fd → fs[i]? = some f → f.held.length ≤ fd.cfg.maxChunks) →
    (fs.map (fun f : Feeder => f.held.length)).sum ≤ (fds.map (fun fd => fd.cfg.maxChunks)).sum
  | [], [], _, _ => Nat.le_refl _
  | fd :: fds, f :: fs, hl, h => by
    have h1 := h 0 fd f rfl rfl
    have h2 := window_count fds fs (by simpa using hl) (fun i fd f a b => h (i + 1) fd f (by simpa using a) (by simpa using b))
    simp only [List.map_cons, List.sum_cons]
    omega
  | [], _ :: _, hl, _ => by simp at hl
  | _ :: _, [], hl, _ => by simp at hl

theorem window_count_lt : ∀ (fds : List Feed) (fs : List Feeder) (i : Nat) (fd : Feed) (f : Feeder), fs.length = fds.length → fds[i]? = some fd → fs[i]? = some f → f.held.length < fd.cfg.maxChunks →
    (∀ (i : Nat) (fd : Feed) (f : Feeder), fds[i]? = some fd → fs[i]? = some f → f.held.length ≤ fd.cfg.maxChunks) →
    (fs.map (fun f : Feeder => f.held.length)).sum < (fds.map (fun fd => fd.cfg.maxChunks)).sum
  | fd :: fds, f :: fs, 0, fd', f', hl, h1, h2, hlt, h => by
    cases h1
    cases h2
    have h2 := window_count fds fs (by simpa using hl) (fun i fd f a b => h (i + 1) fd f (by simpa using a) (by simpa using b))
    simp only [List.map_cons, List.sum_cons]
    omega
  | fd :: fds, f :: fs, i + 1, fd', f', hl, h1, h2, hlt, h => by
    have h0 := h 0 fd f rfl rfl
    have h2 := window_count_lt fds fs i fd' f' (by simpa using hl) (by simpa using h1) (by simpa using h2) hlt (fun i fd f a b => h (i + 1) fd f (by simpa using a) (by simpa using b))
    simp only [List.map_cons, List.sum_cons]
    omega
  | [], _, i, _, _, _, h1, _, _, _ => by simp at h1
  | _ :: _, [], i, _, _, hl, _, _, _, _ => by simp at hl

theorem part_len (l : List (Feeder × Nat)) : (l.flatMap partOf).length = (l.map (fun x => x.1.held.length + x.1.grave.length)).sum := by
  induction l with
  | nil => rfl
  | cons a l ih =>
    simp [List.flatMap_cons, ih, partOf]
    omega

theorem part_len' (fs : List Feeder) (k : Nat) (h : ∀ f ∈ fs, f.grave = []) : ((fs.zipIdx k).map (fun x => x.1.held.length + x.1.grave.length)).sum = (fs.map (fun f : Feeder => f.held.length)).sum := by
  induction fs generalizing k with
  | nil => rfl
  | cons f fs ih =>
    simp only [List.zipIdx_cons, List.map_cons, List.sum_cons]
    rw [ih (k + 1) (fun g hg => h g (List.mem_cons_of_mem _ hg)), h f (by simp)]
    rfl

/-- All chunks are somewhere. -/
theorem CrInv.total {fds : List Feed} {n : Nat} {s : ChunkRings} (inv : CrInv fds n s) (hg : ∀ (i : Nat) (f : Feeder), s.feeders[i]? = some f → f.grave = []) (hf : s.freed = []) :
    s.free.length + (s.feeders.map (fun f : Feeder => f.held.length)).sum + s.data.length + s.user.length = n := by
  have h := inv.perm.length_eq
  rw [List.length_map, List.length_range, whereabouts_eq] at h
  have hp := part_len s.feeders.zipIdx
  rw [part_len' s.feeders 0 (fun f hf => by
    obtain ⟨i, hi⟩ := List.getElem?_of_mem hf
    exact hg i f hi)] at hp
  simp only [List.length_append, List.length_map, hp, hf, List.length_nil] at h
  omega

theorem CrInv.waiting {fds : List Feed} (good : ∀ fd ∈ fds, GoodFeed fd) {n : Nat} {s : ChunkRings} (inv : CrInv fds n s) {i : Nat} {fd : Feed} {f : Feeder}
    (hfd : fds[i]? = some fd) (hf : s.feeders[i]? = some f) {l : List FeedAct} (hl : fd.acts f.ans = some l) {id sid : Nat}
    (hn : l[f.log.length]? = some (.ev (.win (.alloc id sid)))) (he : s.free = []) (hs : s.dataStopped = false) :
    n < (fds.map (fun fd => fd.cfg.maxChunks)).sum + s.data.length + s.user.length := by
  obtain ⟨q1, q2⟩ := inv.quiet hs
  have ht := inv.total q1 q2
  have hlt := ((inv.feed i fd f hfd hf).alloc (good fd (List.mem_of_getElem? hfd)) hl hn).1
  have := window_count_lt fds s.feeders i fd f inv.len hfd hf hlt (fun j gd g h1 h2 => (inv.feed j gd g h1 h2).heldLen)
  rw [he, List.length_nil] at ht
  omega

theorem runs_append (fds : List Feed) : ∀ (a b : List RingsOp) (s s1 s2 : ChunkRings) (o1 o2 : List RingsOut), ChunkRings.run fds a s = some (s1, o1) → ChunkRings.run fds b s1 = some (s2, o2) →
    ChunkRings.run fds (a ++ b) s = some (s2, o1 ++ o2)
  | [], b, s, s1, s2, o1, o2, h1, h2 => by cases h1; exact h2
  | op :: a, b, s, s1, s2, o1, o2, h1, h2 => by
    simp only [List.cons_append, ChunkRings.run] at h1 ⊢
    cases hs : s.step fds op with
    | none => rw [hs] at h1; cases h1
    | some r =>
      rw [hs] at h1
      simp only at h1 ⊢
      cases hr : ChunkRings.run fds a r.1 with
      | none => rw [hr] at h1; cases h1
      | some q =>
        rw [hr] at h1
        cases h1
        rw [runs_append fds a b r.1 q.1 s2 q.2 o2 hr h2]
        rfl

/-- After both rings were stopped, every stream finishes. -/
theorem CrInv.finishes {fds : List Feed} (good : ∀ fd ∈ fds, GoodFeed fd) {n : Nat} {i : Nat} {fd : Feed} (hfd : fds[i]? = some fd) :
    ∀ (a b : Nat) {s : ChunkRings} {f : Feeder} {l : List FeedAct}, CrInv fds n s → s.freeStopped = true → s.dataStopped = true → s.feeders[i]? = some f → fd.acts f.ans = some l →
      s.free.length = a → l.length - f.log.length = b →
      ∃ k s' os f', ChunkRings.run fds (List.replicate k (.act i)) s = some (s', os) ∧ s'.feeders[i]? = some f' ∧ f'.Finished fd ∧ ∀ o ∈ os, o = .done := by
  intro a
  induction a using Nat.strongRecOn with
  | _ a iha =>
    intro b
    induction b using Nat.strongRecOn with
    | _ b ihb =>
      intro s f l inv hfs hds hf hl ha hb
      have g := good fd (List.mem_of_getElem? hfd)
      have hF := inv.feed i fd f hfd hf
      obtain ⟨l', s1, o, h1, h2, h3⟩ := act_cases inv g hfd hf
      rw [hl] at h1
      cases h1
      have inv1 := inv.actCase g hfd hf hl h3
      have hlt : i < s.feeders.length := by
        rcases Nat.lt_or_ge i s.feeders.length with h | h
        · exact h
        · rw [List.getElem?_eq_none h] at hf; cases hf
      have hget : ∀ f1 : Feeder, (s.feeders.set i f1)[i]? = some f1 := fun f1 => by rw [List.getElem?_set, if_pos rfl, if_pos hlt]
      have hbound : ∀ x : FeedAct, l[f.log.length]? = some x → f.log.length < l.length := by
        intro x hx
        rcases Nat.lt_or_ge f.log.length l.length with h | h
        · exact h
        · rw [List.getElem?_eq_none h] at hx; cases hx
      have more : (∃ k s' os f', ChunkRings.run fds (List.replicate k (.act i)) s1 = some (s', os) ∧ s'.feeders[i]? = some f' ∧ f'.Finished fd ∧ ∀ o ∈ os, o = .done) → o = .done →
          ∃ k s' os f', ChunkRings.run fds (List.replicate k (.act i)) s = some (s', os) ∧ s'.feeders[i]? = some f' ∧ f'.Finished fd ∧ ∀ o ∈ os, o = .done := by
        rintro ⟨k, s', os, f', k1, k2, k3, k4⟩ ho
        refine ⟨k + 1, s', o :: os, f', ?_, k2, k3, ?_⟩
        · rw [List.replicate_succ, ChunkRings.run]
          show (match s.act fds i with | none => none | some (s, o) => _) = _
          rw [h2]
          simp only
          rw [k1]
        · intro x hx
          rcases List.mem_cons.1 hx with rfl | hx
          · exact ho
          · exact k4 x hx
      cases h3 with
      | finished hle => exact ⟨0, s, [], f, rfl, hf, ⟨l, hl, hle⟩, by simp⟩
      | waitFree id sid hn hfr hst => rw [hfs] at hst; cases hst
      | waitData c hn hcap hst => rw [hds] at hst; cases hst
      | take id sid p rest hn hfr =>
        refine more ?_ rfl
        obtain ⟨l2, hl2, -⟩ := ((hF.alloc g hl hn).2.1 p).pre
        exact iha rest.length (by rw [← ha, hfr]; simp) _ inv1 hfs hds (hget _) hl2 rfl rfl
      | refused id sid hn hfr hst =>
        refine more ?_ rfl
        have hl2 := (hF.alloc g hl hn).2.2.2
        refine ihb (l.length - (f.log ++ [FeedAct.ev (.win (.alloc id sid))]).length) ?_ inv1 hfs hds (hget _) hl2 ha rfl
        have := hbound _ hn
        simp only [List.length_append, List.length_cons, List.length_nil]
        omega
      | push c p rest hn hh hst hcap => rw [hds] at hst; cases hst
      | bury c p rest hn hh hst =>
        refine more ?_ rfl
        refine ihb (l.length - (f.log ++ [FeedAct.ev (.win (.ready c))]).length) ?_ inv1 hfs hds (hget _) hl ha rfl
        have := hbound _ hn
        simp only [List.length_append, List.length_cons, List.length_nil]
        omega
      | write c p off data hn hm =>
        refine more ?_ rfl
        refine ihb (l.length - (f.log ++ [FeedAct.ev (.write c off data)]).length) ?_ inv1 hfs hds (hget _) hl ha rfl
        have := hbound _ hn
        simp only [List.length_append, List.length_cons, List.length_nil]
        omega
      | present c p k hn hm =>
        refine more ?_ rfl
        refine ihb (l.length - (f.log ++ [FeedAct.ev (.present c k)]).length) ?_ inv1 hfs hds (hget _) hl ha rfl
        have := hbound _ hn
        simp only [List.length_append, List.length_cons, List.length_nil]
        omega
      | other e hn g1 g2 g3 =>
        refine more ?_ rfl
        refine ihb (l.length - (f.log ++ [FeedAct.ev e]).length) ?_ inv1 hfs hds (hget _) hl ha rfl
        have := hbound _ hn
        simp only [List.length_append, List.length_cons, List.length_nil]
        omega
      | remove hn hpos =>
        refine more ?_ rfl
        refine ihb (l.length - (f.log ++ [FeedAct.remove]).length) ?_ inv1 hfs (show (s.dataStopped || _) = true by rw [hds]; rfl) (hget _) hl ha rfl
        have := hbound _ hn
        simp only [List.length_append, List.length_cons, List.length_nil]
        omega

/-- Streams do not touch chunks of the user. -/
theorem CrInv.untouched {fds : List Feed} (good : ∀ fd ∈ fds, GoodFeed fd) {n : Nat} {s s' : ChunkRings} {o : RingsOut} (inv : CrInv fds n s) {op : RingsOp} (h : s.step fds op = some (s', o))
    {p : Nat} (hp : p ∈ s.user) (h1 : op ≠ .add p) (h2 : ∀ k b, op ≠ .poke p k b) (h3 : ∀ k v, op ≠ .mark p k v) :
    p ∈ s'.user ∧ s'.present p = s.present p ∧ s'.bytes p = s.bytes p := by
  cases op with
  | act i =>
    rcases inv.stepActs good h with ⟨rfl, rfl⟩ | ⟨fd, f, l, g1, g2, g3, g4⟩
    · exact ⟨hp, rfl, rfl⟩
    · have hne : ∀ c q, (c, q) ∈ f.held → p ≠ q := by
        intro c q hq e
        subst e
        have := inv.one (where_user hp) (where_held g2 hq)
        cases this
      cases g4 with
      | write c q off data hn hm => exact ⟨hp, rfl, setAt_ne (hne c q hm)⟩
      | present c q k hn hm => exact ⟨hp, setAt_ne (hne c q hm), rfl⟩
      | _ => exact ⟨hp, rfl, rfl⟩
  | add q =>
    have hq : p ≠ q := fun e => h1 (by rw [e])
    simp only [ChunkRings.step, ChunkRings.add] at h
    split at h
    · split at h
      · cases h; exact ⟨hp, setAt_ne hq, rfl⟩
      · split at h
        · cases h; exact ⟨(List.mem_erase_of_ne hq).2 hp, setAt_ne hq, rfl⟩
        · cases h; exact ⟨hp, setAt_ne hq, rfl⟩
    · cases h; exact ⟨hp, rfl, rfl⟩
  | pop =>
    simp only [ChunkRings.step, ChunkRings.pop] at h
    split at h
    · cases h; exact ⟨List.mem_append_left _ hp, rfl, rfl⟩
    · have h1 : s' = s := (Prod.mk.inj (Option.some.inj h)).1.symm
      subst h1
      exact ⟨hp, rfl, rfl⟩
  | stopFree => cases h; exact ⟨hp, rfl, rfl⟩
  | stopData => cases h; exact ⟨hp, rfl, rfl⟩
  | reap i =>
    simp only [ChunkRings.step, ChunkRings.reap] at h
    split at h
    · split at h
      · cases h
      · split at h
        · cases h; exact ⟨hp, rfl, rfl⟩
        · cases h; exact ⟨hp, rfl, rfl⟩
    · cases h; exact ⟨hp, rfl, rfl⟩
  | poke q k b =>
    have hq : p ≠ q := fun e => h2 k b (by rw [e])
    simp only [ChunkRings.step] at h
    split at h
    · cases h; exact ⟨hp, rfl, setAt_ne hq⟩
    · cases h; exact ⟨hp, rfl, rfl⟩
  | mark q k v =>
    have hq : p ≠ q := fun e => h3 k v (by rw [e])
    simp only [ChunkRings.step] at h
    split at h
    · cases h; exact ⟨hp, setAt_ne hq, rfl⟩
    · cases h; exact ⟨hp, rfl, rfl⟩

end Spead2
