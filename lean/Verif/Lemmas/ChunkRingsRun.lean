import Verif.Lemmas.ChunkRings

/-!
# Histories of the rings
-/

namespace Spead2
open Spec

/-- Events that are not actions of streams. -/
theorem CrInv.outer {fds : List Feed} {n : Nat} {s s' : ChunkRings} (inv : CrInv fds n s) (hfeeders : s'.feeders = s.feeders) (hperm : (whereabouts s').map Prod.snd |>.Perm (List.range n))
    (hdata : ∀ x ∈ s'.data, x ∈ s.data) (hchg : ∀ p, p ∉ s.user → s'.present p = s.present p ∧ s'.bytes p = s.bytes p)
    (hfree : ∀ p ∈ s'.free, (p ∈ s.free ∧ s'.present p = s.present p) ∨ ∀ k, s'.present p k = false) (hprods : s'.producers = s.producers)
    (hquiet : s'.dataStopped = false → s.dataStopped = false ∧ s'.freed = s.freed) : CrInv fds n s' := by
  refine ⟨by rw [hfeeders]; exact inv.len, by rw [hfeeders]; exact inv.feed, hperm, ?_, ?_, ?_, by rw [hfeeders, hprods]; exact inv.prods, ?_⟩
  · intro p hp k
    rcases hfree p hp with ⟨h1, h2⟩ | h
    · rw [h2]; exact inv.clean p h1 k
    · exact h k
  · intro i f hf c p hc
    rw [hfeeders] at hf
    have := hchg p (fun hu => by
      have := inv.one (where_user hu) (where_held hf hc)
      cases this)
    exact (inv.held i f hf c p hc).same this.1 this.2
  · intro i c p h
    have hx := hdata _ h
    obtain ⟨f, h1, h2, h3⟩ := inv.data i c p hx
    have := hchg p (fun hu => by
      have := inv.one (where_user hu) (where_data hx)
      cases this)
    exact ⟨f, by rw [hfeeders]; exact h1, h2, h3.same this.1 this.2⟩
  · intro hs
    obtain ⟨h1, h2⟩ := hquiet hs
    rw [hfeeders, h2]
    exact inv.quiet h1

theorem CrInv.add {fds : List Feed} {n : Nat} {s : ChunkRings} (inv : CrInv fds n s) (p : Nat) : CrInv fds n (s.add p).1 := by
  unfold ChunkRings.add
  by_cases hp : p ∈ s.user
  · rw [if_pos hp]
    have hsame : ∀ q, q ∉ s.user → setAt s.present p (fun _ => false) q = s.present q := fun q hq => setAt_ne (fun h => hq (h ▸ hp))
    have hkeep : CrInv fds n { s with present := setAt s.present p (fun _ => false) } := by
      refine inv.outer rfl inv.perm (fun x hx => hx) (fun q hq => ⟨hsame q hq, rfl⟩) (fun q hq => Or.inl ⟨hq, ?_⟩) rfl (fun h => ⟨h, rfl⟩)
      refine hsame q (fun hu => ?_)
      have := inv.one (where_user hu) (where_free hq)
      cases this
    simp only
    split
    · exact hkeep
    · split
      · refine inv.outer rfl ?_ (fun x hx => hx) (fun q hq => ⟨hsame q hq, rfl⟩) ?_ rfl (fun h => ⟨h, rfl⟩)
        · refine moved (x := (Whereabout.user, p)) (y := (Whereabout.free, p)) inv.perm ?_ rfl
          rw [List.perm_iff_count]
          intro y
          rw [List.count_append, List.count_append, count_where, count_where]
          have h1 : (s.user.map (fun p => (Whereabout.user, p))).Perm ((p :: s.user.erase p).map (fun p => (Whereabout.user, p))) := (List.perm_cons_erase hp).map _
          have h2 := h1.count_eq y
          simp only [List.map_append, List.map_cons, List.map_nil, List.count_append, List.count_cons, List.count_nil] at h2 ⊢
          omega
        · intro q hq
          rcases List.mem_append.1 hq with hq | hq
          · refine Or.inl ⟨hq, hsame q (fun hu => ?_)⟩
            have := inv.one (where_user hu) (where_free hq)
            cases this
          · rw [List.mem_singleton] at hq
            subst hq
            exact Or.inr (fun k => by show setAt s.present q (fun _ => false) q k = false; rw [setAt_self])
      · exact hkeep
  · rw [if_neg hp]; exact inv

theorem CrInv.pop {fds : List Feed} {n : Nat} {s : ChunkRings} (inv : CrInv fds n s) : CrInv fds n s.pop.1 := by
  unfold ChunkRings.pop
  split
  · next i c p rest hd =>
    refine inv.outer rfl ?_ (fun x hx => by rw [hd]; exact List.mem_cons_of_mem _ hx) (fun q hq => ⟨rfl, rfl⟩) (fun q hq => Or.inl ⟨hq, rfl⟩) rfl (fun h => ⟨h, rfl⟩)
    refine moved (x := (Whereabout.data, p)) (y := (Whereabout.user, p)) inv.perm ?_ rfl
    rw [List.perm_iff_count]
    intro y
    rw [List.count_append, List.count_append, count_where, count_where]
    simp only [hd, List.map_append, List.map_cons, List.map_nil, List.count_append, List.count_cons, List.count_nil]
    omega
  · exact inv

theorem CrInv.reaped {fds : List Feed} {n : Nat} {s : ChunkRings} (inv : CrInv fds n s) {i : Nat} {f : Feeder} (hf : s.feeders[i]? = some f) :
    CrInv fds n { s with freed := s.freed ++ f.grave, feeders := s.feeders.set i { f with grave := [] } } := by
  have hlt : i < s.feeders.length := by
    rcases Nat.lt_or_ge i s.feeders.length with h | h
    · exact h
    · rw [List.getElem?_eq_none h] at hf; cases hf
  have hget : ∀ (j : Nat) (f1 : Feeder), (s.feeders.set i { f with grave := [] })[j]? = some f1 →
      ∃ f0, s.feeders[j]? = some f0 ∧ f1.ans = f0.ans ∧ f1.log = f0.log ∧ f1.held = f0.held ∧ (f0.grave = [] → f1.grave = []) := by
    intro j f1 h
    rw [List.getElem?_set] at h
    by_cases hij : i = j
    · subst hij
      rw [if_pos rfl, if_pos hlt] at h
      cases h
      exact ⟨f, hf, rfl, rfl, rfl, fun _ => rfl⟩
    · rw [if_neg hij] at h
      exact ⟨f1, h, rfl, rfl, rfl, id⟩
  have heff : ∀ (f0 f1 : Feeder), f1.log = f0.log → f1.effects = f0.effects := fun f0 f1 h => by unfold Feeder.effects; rw [h]
  refine ⟨by rw [List.length_set]; exact inv.len, ?_, ?_, inv.clean, ?_, ?_, ?_, ?_⟩
  · intro j fd f1 h1 h2
    obtain ⟨f0, g0, g1, g2, g3, -⟩ := hget j f1 h2
    have := inv.feed j fd f0 h1 g0
    refine ⟨?_, ?_, ?_⟩
    · rw [g1, g2]; exact this.pre
    · rw [g1, heff _ _ g2]; exact this.reqs
    · rw [g1, g3, heff _ _ g2]; exact this.flow
  · have : ((whereabouts { s with freed := s.freed ++ f.grave, feeders := s.feeders.set i { f with grave := [] } }) ++ f.grave.map (fun p => (Whereabout.graveyard i, p))).Perm
        (whereabouts s ++ f.grave.map (fun p => (Whereabout.freed, p))) := by
      rw [List.perm_iff_count]
      intro y
      rw [List.count_append, List.count_append, count_where, count_where]
      have := count_feeders (f' := { f with grave := [] }) hf y
      rw [count_part, count_part] at this
      simp only [List.map_append, List.map_nil, List.count_append, List.count_nil] at this ⊢
      omega
    have h2 := this.map Prod.snd
    rw [List.map_append, List.map_append, List.map_map, List.map_map] at h2
    exact ((List.perm_append_right_iff _).1 h2).trans inv.perm
  · intro j f1 h c p hc
    obtain ⟨f0, g0, g1, g2, g3, -⟩ := hget j f1 h
    rw [heff _ _ g2]
    rw [g3] at hc
    exact (inv.held j f0 g0 c p hc).same rfl rfl
  · intro j c p h
    obtain ⟨f0, g0, h2, h3⟩ := inv.data j c p h
    by_cases hij : i = j
    · subst hij
      rw [hf] at g0
      cases g0
      exact ⟨{ f with grave := [] }, by rw [List.getElem?_set, if_pos rfl, if_pos hlt], h2, h3.same rfl rfl⟩
    · exact ⟨f0, by rw [List.getElem?_set, if_neg hij]; exact g0, h2, h3.same rfl rfl⟩
  · show s.producers = _
    rw [inv.prods]
    exact (countP_set (f' := { f with grave := [] }) hf _ rfl).symm
  · intro hs
    obtain ⟨q1, q2⟩ := inv.quiet hs
    refine ⟨fun j f1 h => ?_, ?_⟩
    · obtain ⟨f0, g0, -, -, -, g4⟩ := hget j f1 h
      exact g4 (q1 j f0 g0)
    · show s.freed ++ f.grave = []
      rw [q2, q1 i f hf]; rfl

/-- No event is undefined, and all maintain the invariant. -/
theorem CrInv.step {fds : List Feed} (good : ∀ fd ∈ fds, GoodFeed fd) {n : Nat} {s : ChunkRings} (inv : CrInv fds n s) (op : RingsOp) :
    ∃ s' o, s.step fds op = some (s', o) ∧ CrInv fds n s' := by
  have hno : ∀ (i : Nat) (fd : Feed), fds[i]? = some fd → ∃ f, s.feeders[i]? = some f := by
    intro i fd h
    have : i < s.feeders.length := by
      rw [inv.len]
      rcases Nat.lt_or_ge i fds.length with h' | h'
      · exact h'
      · rw [List.getElem?_eq_none h'] at h; cases h
    exact ⟨_, List.getElem?_eq_getElem this⟩
  cases op with
  | add p => exact ⟨_, _, rfl, inv.add p⟩
  | pop => exact ⟨_, _, rfl, inv.pop⟩
  | act i =>
    show ∃ s' o, s.act fds i = some (s', o) ∧ _
    cases hfd : fds[i]? with
    | none =>
      refine ⟨s, .invalid, ?_, inv⟩
      unfold ChunkRings.act
      rw [hfd]
    | some fd =>
      obtain ⟨f, hf⟩ := hno i fd hfd
      have g := good fd (List.mem_of_getElem? hfd)
      obtain ⟨l, s', o, h1, h2, h3⟩ := act_cases inv g hfd hf
      exact ⟨s', o, h2, inv.actCase g hfd hf h1 h3⟩
  | stopFree =>
    exact ⟨_, _, rfl, inv.outer rfl inv.perm (fun x hx => hx) (fun q _ => ⟨rfl, rfl⟩) (fun q hq => Or.inl ⟨hq, rfl⟩) rfl (fun h => ⟨h, rfl⟩)⟩
  | stopData =>
    exact ⟨_, _, rfl, inv.outer rfl inv.perm (fun x hx => hx) (fun q _ => ⟨rfl, rfl⟩) (fun q hq => Or.inl ⟨hq, rfl⟩) rfl (fun h => by cases h)⟩
  | reap i =>
    show ∃ s' o, s.reap fds i = some (s', o) ∧ _
    unfold ChunkRings.reap
    cases hfd : fds[i]? with
    | none => exact ⟨s, .invalid, rfl, inv⟩
    | some fd =>
      obtain ⟨f, hf⟩ := hno i fd hfd
      rw [hf]
      obtain ⟨l, hl, -⟩ := (inv.feed i fd f hfd hf).pre
      simp only [hl]
      split
      · exact ⟨_, _, rfl, inv.reaped hf⟩
      · exact ⟨_, _, rfl, inv⟩
  | poke p k b =>
    by_cases hp : p ∈ s.user
    · refine ⟨_, _, if_pos hp, inv.outer rfl inv.perm (fun x hx => hx) (fun q hq => ⟨rfl, setAt_ne (fun h => hq (h ▸ hp))⟩) (fun q hq => Or.inl ⟨hq, rfl⟩) rfl (fun h => ⟨h, rfl⟩)⟩
    · exact ⟨_, _, if_neg hp, inv⟩
  | mark p k v =>
    by_cases hp : p ∈ s.user
    · refine ⟨_, _, if_pos hp, inv.outer rfl inv.perm (fun x hx => hx) (fun q hq => ⟨setAt_ne (fun h => hq (h ▸ hp)), rfl⟩) (fun q hq => Or.inl ⟨hq, setAt_ne (fun h => ?_)⟩) rfl (fun h => ⟨h, rfl⟩)⟩
      subst h
      have := inv.one (where_user hp) (where_free hq)
      cases this
    · exact ⟨_, _, if_neg hp, inv⟩

theorem CrInv.run {fds : List Feed} (good : ∀ fd ∈ fds, GoodFeed fd) {n : Nat} : ∀ (ops : List RingsOp) {s : ChunkRings}, CrInv fds n s →
    ∃ s' os, ChunkRings.run fds ops s = some (s', os) ∧ CrInv fds n s'
  | [], s, inv => ⟨s, [], rfl, inv⟩
  | op :: ops, s, inv => by
    obtain ⟨s1, o, h1, inv1⟩ := inv.step good op
    obtain ⟨s2, os, h2, inv2⟩ := CrInv.run good ops inv1
    refine ⟨s2, o :: os, ?_, inv2⟩
    rw [ChunkRings.run, h1]
    simp only
    rw [h2]

theorem rings_inv {fds : List Feed} (good : ∀ fd ∈ fds, GoodFeed fd) {n a b : Nat} {pr : Nat → Nat → Bool} {by_ : Nat → Nat → UInt8} {ops : List RingsOp} {s : ChunkRings} {os : List RingsOut}
    (h : ChunkRings.run fds ops (ChunkRings.new fds n a b pr by_) = some (s, os)) : CrInv fds n s := by
  obtain ⟨s', os', h', inv⟩ := CrInv.run good ops (CrInv.init good n a b pr by_)
  rw [h] at h'
  cases h'
  exact inv

end Spead2
