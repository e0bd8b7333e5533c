import Verif.Lemmas.ChunkFeed
import Mathlib.Data.List.Nodup

/-!
# The rings, the chunks and the streams
-/

namespace Spead2
open Spec

/-! ## Lists -/

theorem zipIdx_set {α : Type} (l : List α) (i : Nat) (b : α) : (l.set i b).zipIdx = l.zipIdx.set i (b, i) := by
  apply List.ext_getElem?
  intro j
  rw [List.getElem?_zipIdx, List.getElem?_set, List.getElem?_set, List.getElem?_zipIdx]
  by_cases h : i = j
  · subst h
    simp only [if_true, List.length_zipIdx]
    split <;> simp
  · simp [h]

theorem count_flatMap_set {α β : Type} [BEq β] (g : α → List β) (y : β) : ∀ (l : List α) (i : Nat) (a b : α), l[i]? = some a →
    ((l.set i b).flatMap g).count y + (g a).count y = (l.flatMap g).count y + (g b).count y
  | [], i, a, b, h => by cases h
  | x :: l, 0, a, b, h => by
    cases h
    simp only [List.set_cons_zero, List.flatMap_cons, List.count_append]
    omega
  | x :: l, i + 1, a, b, h => by
    have := count_flatMap_set g y l i a b (by simpa using h)
    simp only [List.set_cons_succ, List.flatMap_cons, List.count_append]
    omega

/-- Where the chunks of stream `i` are. -/
def partOf (x : Feeder × Nat) : List (Whereabout × Nat) :=
  x.1.held.map (fun h => (Whereabout.window x.2 h.1, h.2)) ++ x.1.grave.map (fun p => (Whereabout.graveyard x.2, p))

theorem count_feeders {fs : List Feeder} {i : Nat} {f f' : Feeder} (h : fs[i]? = some f) (y : Whereabout × Nat) :
    ((fs.set i f').zipIdx.flatMap partOf).count y + (partOf (f, i)).count y = (fs.zipIdx.flatMap partOf).count y + (partOf (f', i)).count y := by
  rw [zipIdx_set]
  refine count_flatMap_set partOf y fs.zipIdx i (f, i) (f', i) ?_
  rw [List.getElem?_zipIdx, h]
  simp

theorem whereabouts_eq (s : ChunkRings) : whereabouts s = s.free.map (fun p => (Whereabout.free, p)) ++ s.feeders.zipIdx.flatMap partOf ++
    s.data.map (fun x => (Whereabout.data, x.2.2)) ++ s.user.map (fun p => (Whereabout.user, p)) ++ s.freed.map (fun p => (Whereabout.freed, p)) := rfl

theorem where_free {s : ChunkRings} {p : Nat} (h : p ∈ s.free) : (Whereabout.free, p) ∈ whereabouts s := by
  rw [whereabouts_eq]; simp [h]

theorem where_user {s : ChunkRings} {p : Nat} (h : p ∈ s.user) : (Whereabout.user, p) ∈ whereabouts s := by
  rw [whereabouts_eq]; simp [h]

theorem where_data {s : ChunkRings} {i p : Nat} {c : Chunk} (h : (i, c, p) ∈ s.data) : (Whereabout.data, p) ∈ whereabouts s := by
  rw [whereabouts_eq]
  simp only [List.mem_append, List.mem_map]
  exact Or.inl (Or.inl (Or.inr ⟨_, h, rfl⟩))

theorem where_held {s : ChunkRings} {i p : Nat} {c : Chunk} {f : Feeder} (hf : s.feeders[i]? = some f) (h : (c, p) ∈ f.held) :
    (Whereabout.window i c, p) ∈ whereabouts s := by
  rw [whereabouts_eq]
  simp only [List.mem_append, List.mem_flatMap]
  refine Or.inl (Or.inl (Or.inl (Or.inr ⟨(f, i), ?_, ?_⟩)))
  · rw [List.mem_iff_getElem?]
    exact ⟨i, by rw [List.getElem?_zipIdx, hf]; simp⟩
  · unfold partOf
    simp only [List.mem_append, List.mem_map]
    exact Or.inl ⟨_, h, rfl⟩

/-! ## Contents of a chunk -/

theorem lastWritten_snoc (c k : Nat) (tr : List ChunkEv) (e : ChunkEv) :
    lastWritten c k (tr ++ [e]) = (match e with | .write ch off data => if ch.chunkId = c ∧ off ≤ k then data[k - off]? else none | _ => none).or (lastWritten c k tr) := by
  unfold lastWritten
  rw [List.reverse_append, List.reverse_singleton, List.singleton_append, List.findSome?_cons]
  cases e with
  | write ch off data =>
    simp only
    split <;> simp_all
  | _ => simp

theorem lastWritten_none {c k : Nat} {tr : List ChunkEv} (h : ∀ ch off data, .write ch off data ∈ tr → ch.chunkId ≠ c) : lastWritten c k tr = none := by
  unfold lastWritten
  rw [List.findSome?_eq_none_iff]
  intro e he
  rw [List.mem_reverse] at he
  cases e with
  | write ch off data => simp only; rw [if_neg (fun hh => h _ _ _ he hh.1)]
  | _ => rfl

theorem Spec.Filled.snoc {s s' : ChunkRings} {tr : List ChunkEv} {c : Chunk} {p : Nat} (h : Filled s tr c p) {e : ChunkEv} (h1 : ∀ k, e ≠ .present c k)
    (h2 : ∀ c' off d, e = .write c' off d → c'.chunkId ≠ c.chunkId) (h3 : s'.present p = s.present p) (h4 : s'.bytes p = s.bytes p) :
    Filled s' (tr ++ [e]) c p := by
  refine ⟨fun k => ?_, fun k b hb => ?_⟩
  · rw [h3, h.flags k, List.mem_append, List.mem_singleton]
    exact ⟨Or.inl, fun hh => hh.elim id (fun hh => absurd hh.symm (h1 k))⟩
  · rw [h4]
    refine h.bytes k b ?_
    rw [lastWritten_snoc] at hb
    have : (match e with | .write ch off data => if ch.chunkId = c.chunkId ∧ off ≤ k then data[k - off]? else none | _ => none) = none := by
      cases e with
      | write ch off data => simp only; rw [if_neg (fun hh => h2 _ _ _ rfl hh.1)]
      | _ => rfl
    rw [this] at hb
    exact hb

theorem Spec.Filled.same {s s' : ChunkRings} {tr : List ChunkEv} {c : Chunk} {p : Nat} (h : Filled s tr c p) (h3 : s'.present p = s.present p) (h4 : s'.bytes p = s.bytes p) :
    Filled s' tr c p := ⟨fun k => by rw [h3]; exact h.flags k, fun k b hb => by rw [h4]; exact h.bytes k b hb⟩

/-! ## The invariant -/

structure CrInv (fds : List Feed) (n : Nat) (s : ChunkRings) : Prop where
  len : s.feeders.length = fds.length
  feed : ∀ (i : Nat) (fd : Feed) (f : Feeder), fds[i]? = some fd → s.feeders[i]? = some f → FInv fd f
  perm : ((whereabouts s).map Prod.snd).Perm (List.range n)
  clean : ∀ p ∈ s.free, ∀ k, s.present p k = false
  held : ∀ (i : Nat) (f : Feeder), s.feeders[i]? = some f → ∀ c p, (c, p) ∈ f.held → Filled s f.effects c p
  data : ∀ i c p, (i, c, p) ∈ s.data → ∃ f : Feeder, s.feeders[i]? = some f ∧ c ∈ readied (winEvs f.effects) ∧ Filled s f.effects c p
  prods : s.producers = s.feeders.countP (fun f => decide (FeedAct.remove ∉ f.log))
  quiet : s.dataStopped = false → (∀ (i : Nat) (f : Feeder), s.feeders[i]? = some f → f.grave = []) ∧ s.freed = []

theorem CrInv.one {fds : List Feed} {n : Nat} {s : ChunkRings} (inv : CrInv fds n s) {w w' : Whereabout} {p : Nat} (h : (w, p) ∈ whereabouts s) (h' : (w', p) ∈ whereabouts s) :
    w = w' := by
  have hn : ((whereabouts s).map Prod.snd).Nodup := inv.perm.nodup_iff.2 List.nodup_range
  have := List.inj_on_of_nodup_map hn h h' rfl
  exact (Prod.mk.inj this).1

theorem whereabouts_new (fds : List Feed) (n a b : Nat) (pr : Nat → Nat → Bool) (by_ : Nat → Nat → UInt8) :
    whereabouts (ChunkRings.new fds n a b pr by_) = (List.range n).map (fun p => (Whereabout.user, p)) := by
  rw [whereabouts_eq]
  have : (ChunkRings.new fds n a b pr by_).feeders.zipIdx.flatMap partOf = [] := by
    rw [List.flatMap_eq_nil_iff]
    intro x hx
    have hx1 : x.1 ∈ fds.map (fun _ => ({} : Feeder)) := by
      have := List.mem_zipIdx' hx
      obtain ⟨h1, h2⟩ := this
      rw [h2]
      exact List.getElem_mem _
    rw [List.mem_map] at hx1
    obtain ⟨_, _, h⟩ := hx1
    unfold partOf
    rw [← h]; rfl
  rw [this]
  simp [ChunkRings.new]

theorem CrInv.init {fds : List Feed} (good : ∀ fd ∈ fds, GoodFeed fd) (n a b : Nat) (pr : Nat → Nat → Bool) (by_ : Nat → Nat → UInt8) :
    CrInv fds n (ChunkRings.new fds n a b pr by_) := by
  have hf : ∀ (i : Nat) (f : Feeder), (ChunkRings.new fds n a b pr by_).feeders[i]? = some f → f = {} := by
    intro i f h
    simp only [ChunkRings.new, List.getElem?_map, Option.map_eq_some_iff] at h
    obtain ⟨_, _, h⟩ := h
    exact h.symm
  refine ⟨by simp [ChunkRings.new], ?_, ?_, by simp [ChunkRings.new], ?_, by simp [ChunkRings.new], ?_, ?_⟩
  · intro i fd f h1 h2
    rw [hf i f h2]
    exact FInv.init (good fd (List.mem_of_getElem? h1))
  · rw [whereabouts_new, List.map_map]
    exact List.Perm.of_eq (List.map_id _)
  · intro i f h c p hc
    rw [hf i f h] at hc
    cases hc
  · show fds.length = (fds.map (fun _ => ({} : Feeder))).countP _
    rw [List.countP_map]
    exact (List.countP_eq_length.2 (fun x _ => by simp)).symm
  · intro _
    refine ⟨fun i f h => by rw [hf i f h], rfl⟩

/-! ## Streams -/

/-- Only chunks that were supplied are written to. -/
theorem FInv.targets {fd : Feed} (g : GoodFeed fd) {f : Feeder} (i : FInv fd f) {e : ChunkEv} (he : e ∈ f.effects) {c : Chunk} (hc : Spec.target e = some c) :
    c ∈ supplied (answerFn f.ans) (winEvs f.effects) := by
  obtain ⟨s, r, ht⟩ := i.prefixTrace g
  obtain ⟨hd, win, hcr⟩ := ht.crel g
  obtain ⟨a, b, hab⟩ := List.append_of_mem he
  have := (hcr.held.split (show f.effects ++ r = a ++ e :: (b ++ r) by rw [hab]; simp) hc).1.1
  rw [List.nil_append] at this
  have h2 : c ∈ supplied (answerFn f.ans) (winEvs a) := this
  rw [hab, winEvs_append, supplied_append]
  exact List.mem_append_left _ h2

theorem FInv.newChunk {fd : Feed} (g : GoodFeed fd) {f : Feeder} (i : FInv fd f) {id : Nat} (hf : id ∉ f.ans.map Prod.fst) :
    (∀ c k, c.allocFor = id → .present c k ∉ f.effects) ∧ (∀ ch off data, .write ch off data ∈ f.effects → ch.chunkId ≠ id) := by
  have key : ∀ c, c ∈ supplied (answerFn f.ans) (winEvs f.effects) → c.chunkId ≠ id ∧ c.allocFor ≠ id := by
    intro c hc
    have h1 := supplied_ids _ _ c hc
    have h2 : c.allocFor ∈ (supplied (answerFn f.ans) (winEvs f.effects)).map Chunk.allocFor := List.mem_map_of_mem hc
    rw [supplied_allocFor, i.reqs] at h2
    have h3 := (List.mem_filter.1 h2).1
    have : c.allocFor ≠ id := fun h => hf (h ▸ h3)
    exact ⟨by rw [h1]; exact this, this⟩
  exact ⟨fun c k hc he => (key c (i.targets g he rfl)).2 hc, fun ch off data he => (key ch (i.targets g he rfl)).1⟩

theorem FInv.notBoth {fd : Feed} (g : GoodFeed fd) {f : Feeder} (i : FInv fd f) {c c' : Chunk} (h : c ∈ readied (winEvs f.effects)) (h' : c' ∈ f.held.map Prod.fst) :
    c'.chunkId ≠ c.chunkId := by
  have := i.ids g
  rw [List.map_append, List.nodup_append] at this
  intro he
  exact this.2.2 _ (List.mem_map_of_mem h) _ (List.mem_map_of_mem h') he.symm

theorem FInv.heldIds {fd : Feed} (g : GoodFeed fd) {f : Feeder} (i : FInv fd f) {c c' : Chunk} (h : c ∈ f.held.map Prod.fst) (h' : c' ∈ f.held.map Prod.fst) (he : c'.chunkId = c.chunkId) :
    c' = c := by
  have := i.ids g
  rw [List.map_append, List.nodup_append] at this
  exact List.inj_on_of_nodup_map this.2.1 h' h he

theorem FInv.heldNodup {fd : Feed} (g : GoodFeed fd) {f : Feeder} (i : FInv fd f) : (f.held.map Prod.fst).Nodup := by
  have := i.ids g
  rw [List.map_append, List.nodup_append] at this
  exact List.Nodup.of_map _ this.2.1

theorem lookup_mem {l : List (Chunk × Nat)} {c : Chunk} (h : c ∈ l.map Prod.fst) : ∃ p, l.lookup c = some p ∧ (c, p) ∈ l := by
  induction l with
  | nil => cases h
  | cons x l ih =>
    rw [List.lookup_cons]
    by_cases hx : c = x.1
    · subst hx
      exact ⟨x.2, by simp, by simp⟩
    · have : (c == x.1) = false := by simpa using hx
      rw [this]
      simp only [List.map_cons, List.mem_cons] at h
      obtain ⟨p, h1, h2⟩ := ih (h.resolve_left hx)
      exact ⟨p, h1, by simp [h2]⟩

/-- A stream did something. -/
theorem CrInv.acted {fds : List Feed} {n : Nat} {s s' : ChunkRings} (inv : CrInv fds n s) {i : Nat} {fd : Feed} {f f' : Feeder} (good : GoodFeed fd)
    (hfd : fds[i]? = some fd) (hf : s.feeders[i]? = some f) {ev : List ChunkEv} (heff : f'.effects = f.effects ++ ev) (hfeeders : s'.feeders = s.feeders.set i f') (hF : FInv fd f')
    (hperm : (whereabouts s').map Prod.snd |>.Perm (List.range n)) (hfree : ∀ p ∈ s'.free, p ∈ s.free)
    (hchg : ∀ p, (∀ c, (c, p) ∉ f.held) → s'.present p = s.present p ∧ s'.bytes p = s.bytes p)
    (hheld : ∀ c p, (c, p) ∈ f'.held → Filled s' f'.effects c p)
    (hdata : ∀ x ∈ s'.data, x ∈ s.data ∨ (x.1 = i ∧ x.2.1 ∈ readied (winEvs f'.effects) ∧ Filled s' f'.effects x.2.1 x.2.2))
    (hmine : ∀ c p, c ∈ readied (winEvs f.effects) → Filled s f.effects c p → (∀ c', (c', p) ∉ f.held) → Filled s' f'.effects c p)
    (hprods : s'.producers = s'.feeders.countP (fun f => decide (FeedAct.remove ∉ f.log)))
    (hquiet : s'.dataStopped = false → f'.grave = [] ∧ s.dataStopped = false ∧ s'.freed = s.freed) : CrInv fds n s' := by
  have hlt : i < s.feeders.length := by
    rcases Nat.lt_or_ge i s.feeders.length with h | h
    · exact h
    · rw [List.getElem?_eq_none h] at hf; cases hf
  have hget : ∀ j, s'.feeders[j]? = if i = j then some f' else s.feeders[j]? := by
    intro j
    rw [hfeeders, List.getElem?_set]
    by_cases h : i = j
    · subst h; simp [hlt]
    · simp [h]
  have hother : ∀ (j : Nat) (f1 : Feeder), i ≠ j → s.feeders[j]? = some f1 → ∀ c p, (c, p) ∈ f1.held → ∀ c', (c', p) ∉ f.held := by
    intro j f1 hij h1 c p hc c' hc'
    have := inv.one (where_held h1 hc) (where_held hf hc')
    simp only [Whereabout.window.injEq] at this
    exact hij this.1.symm
  have hindata : ∀ j c p, (j, c, p) ∈ s.data → ∀ c', (c', p) ∉ f.held := by
    intro j c p h c' hc'
    have := inv.one (where_data h) (where_held hf hc')
    cases this
  refine ⟨by rw [hfeeders, List.length_set]; exact inv.len, ?_, hperm, ?_, ?_, ?_, hprods, ?_⟩
  · intro j fd' f1 h1 h2
    rw [hget] at h2
    by_cases h : i = j
    · subst h
      rw [if_pos rfl] at h2
      cases h2
      rw [hfd] at h1
      cases h1
      exact hF
    · rw [if_neg h] at h2
      exact inv.feed j fd' f1 h1 h2
  · intro p hp k
    have hp' := hfree p hp
    rw [(hchg p (fun c hc => by
      have := inv.one (where_free hp') (where_held hf hc)
      cases this)).1]
    exact inv.clean p hp' k
  · intro j f1 h2 c p hc
    rw [hget] at h2
    by_cases h : i = j
    · subst h
      rw [if_pos rfl] at h2
      cases h2
      exact hheld c p hc
    · rw [if_neg h] at h2
      have := hchg p (hother j f1 h h2 c p hc)
      exact (inv.held j f1 h2 c p hc).same this.1 this.2
  · intro j c p h
    rcases hdata _ h with h | ⟨h1, h2, h3⟩
    · obtain ⟨f1, g1, g2, g3⟩ := inv.data j c p h
      have hn := hindata j c p h
      by_cases hij : i = j
      · subst hij
        rw [hf] at g1
        cases g1
        refine ⟨f', by rw [hget, if_pos rfl], ?_, hmine c p g2 g3 hn⟩
        rw [heff, winEvs_append, readied_append]
        exact List.mem_append_left _ g2
      · have := hchg p hn
        exact ⟨f1, by rw [hget, if_neg hij]; exact g1, g2, g3.same this.1 this.2⟩
    · simp only at h1 h2 h3
      subst h1
      exact ⟨f', by rw [hget, if_pos rfl], h2, h3⟩
  · intro hs
    obtain ⟨h1, h2, h3⟩ := hquiet hs
    obtain ⟨q1, q2⟩ := inv.quiet h2
    refine ⟨fun j f1 hj => ?_, by rw [h3, q2]⟩
    rw [hget] at hj
    by_cases h : i = j
    · rw [if_pos h] at hj
      cases hj
      exact h1
    · rw [if_neg h] at hj
      exact q1 j f1 hj

/-! ## Moving a chunk -/

theorem moved {W W' : List (Whereabout × Nat)} {x y : Whereabout × Nat} {n : Nat} (hp : (W.map Prod.snd).Perm (List.range n)) (h : (W' ++ [x]).Perm (W ++ [y])) (hxy : x.2 = y.2) :
    (W'.map Prod.snd).Perm (List.range n) := by
  have := h.map Prod.snd
  rw [List.map_append, List.map_append, List.map_singleton, List.map_singleton, hxy] at this
  exact ((List.perm_append_right_iff _).1 this).trans hp

/-- The whereabouts other than those of the streams. -/
theorem count_where (s : ChunkRings) (y : Whereabout × Nat) : (whereabouts s).count y = (s.free.map (fun p => (Whereabout.free, p))).count y +
    (s.feeders.zipIdx.flatMap partOf).count y + (s.data.map (fun x => (Whereabout.data, x.2.2))).count y + (s.user.map (fun p => (Whereabout.user, p))).count y +
    (s.freed.map (fun p => (Whereabout.freed, p))).count y := by
  rw [whereabouts_eq]
  simp only [List.count_append]

theorem count_part (f : Feeder) (i : Nat) (y : Whereabout × Nat) : (partOf (f, i)).count y =
    (f.held.map (fun h => (Whereabout.window i h.1, h.2))).count y + (f.grave.map (fun p => (Whereabout.graveyard i, p))).count y := by
  unfold partOf
  simp only [List.count_append]

theorem countP_set {fs : List Feeder} {i : Nat} {f f' : Feeder} (h : fs[i]? = some f) (P : Feeder → Bool) (hP : P f' = P f) : (fs.set i f').countP P = fs.countP P := by
  induction fs generalizing i with
  | nil => cases h
  | cons x fs ih =>
    cases i with
    | zero => cases h; simp only [List.set_cons_zero, List.countP_cons, hP]
    | succ i => simp only [List.set_cons_succ, List.countP_cons, ih (by simpa using h)]

theorem countP_set_less {fs : List Feeder} {i : Nat} {f f' : Feeder} (h : fs[i]? = some f) (P : Feeder → Bool) (hP : P f' = false) (hP' : P f = true) :
    (fs.set i f').countP P + 1 = fs.countP P := by
  induction fs generalizing i with
  | nil => cases h
  | cons x fs ih =>
    cases i with
    | zero => cases h; simp [List.set_cons_zero, List.countP_cons, hP, hP']
    | succ i =>
      have := ih (i := i) (by simpa using h)
      simp only [List.set_cons_succ, List.countP_cons]
      omega

/-- What a stream does when it continues. -/
inductive ActCase (s : ChunkRings) (i : Nat) (fd : Feed) (f : Feeder) (l : List FeedAct) : ChunkRings → RingsOut → Prop
  | finished : l.length ≤ f.log.length → ActCase s i fd f l s .finished
  | waitFree (id sid : Nat) : l[f.log.length]? = some (.ev (.win (.alloc id sid))) → s.free = [] → s.freeStopped = false → ActCase s i fd f l s .wait
  | waitData (c : Chunk) : l[f.log.length]? = some (.ev (.win (.ready c))) → s.dataCap ≤ s.data.length → s.dataStopped = false → ActCase s i fd f l s .wait
  | take (id sid p : Nat) (rest : List Nat) : l[f.log.length]? = some (.ev (.win (.alloc id sid))) → s.free = p :: rest →
      ActCase s i fd f l (({ s with free := rest }).advance i { f with ans := f.ans ++ [(id, true)], held := f.held ++ [(Chunk.mk id id sid, p)] } (.ev (.win (.alloc id sid)))) .done
  | refused (id sid : Nat) : l[f.log.length]? = some (.ev (.win (.alloc id sid))) → s.free = [] → s.freeStopped = true →
      ActCase s i fd f l (s.advance i { f with ans := f.ans ++ [(id, false)] } (.ev (.win (.alloc id sid)))) .done
  | push (c : Chunk) (p : Nat) (rest : List (Chunk × Nat)) : l[f.log.length]? = some (.ev (.win (.ready c))) → f.held = (c, p) :: rest → s.dataStopped = false → s.data.length < s.dataCap →
      ActCase s i fd f l (({ s with data := s.data ++ [(i, c, p)] }).advance i { f with held := rest } (.ev (.win (.ready c)))) .done
  | bury (c : Chunk) (p : Nat) (rest : List (Chunk × Nat)) : l[f.log.length]? = some (.ev (.win (.ready c))) → f.held = (c, p) :: rest → s.dataStopped = true →
      ActCase s i fd f l (s.advance i { f with held := rest, grave := p :: f.grave } (.ev (.win (.ready c)))) .done
  | write (c : Chunk) (p off : Nat) (data : Bytes) : l[f.log.length]? = some (.ev (.write c off data)) → (c, p) ∈ f.held →
      ActCase s i fd f l (({ s with bytes := setAt s.bytes p (writeBytes (s.bytes p) off data) }).advance i f (.ev (.write c off data))) .done
  | present (c : Chunk) (p k : Nat) : l[f.log.length]? = some (.ev (.present c k)) → (c, p) ∈ f.held →
      ActCase s i fd f l (({ s with present := setAt s.present p (setAt (s.present p) k true) }).advance i f (.ev (.present c k))) .done
  | other (e : ChunkEv) : l[f.log.length]? = some (.ev e) → (∀ w, e = .win w → ∃ n, w = .head n) → (∀ c k, e ≠ .present c k) → (∀ c off d, e ≠ .write c off d) →
      ActCase s i fd f l (s.advance i f (.ev e)) .done
  | remove : l[f.log.length]? = some .remove → s.producers ≠ 0 →
      ActCase s i fd f l (({ s with producers := s.producers - 1, dataStopped := s.dataStopped || s.producers - 1 == 0 }).advance i f .remove) .done

theorem filter_head {c : Chunk} {p : Nat} {rest : List (Chunk × Nat)} (hn : (((c, p) :: rest).map Prod.fst).Nodup) :
    ((c, p) :: rest).filter (fun x => x.1 != c) = rest := by
  simp only [List.map_cons, List.nodup_cons] at hn
  rw [List.filter_cons_of_neg (by simp), List.filter_eq_self]
  intro x hx
  have : x.1 ≠ c := fun h => hn.1 (h ▸ List.mem_map_of_mem hx)
  simpa using this

/-- A stream that continues never does anything undefined, and does one of the above. -/
theorem act_cases {fds : List Feed} {n : Nat} {s : ChunkRings} (inv : CrInv fds n s) {i : Nat} {fd : Feed} {f : Feeder} (good : GoodFeed fd) (hfd : fds[i]? = some fd) (hf : s.feeders[i]? = some f) :
    ∃ l s' o, fd.acts f.ans = some l ∧ s.act fds i = some (s', o) ∧ ActCase s i fd f l s' o := by
  have hF := inv.feed i fd f hfd hf
  obtain ⟨l, hl, hp⟩ := hF.pre
  suffices h : ∃ s' o, s.act fds i = some (s', o) ∧ ActCase s i fd f l s' o by
    obtain ⟨s', o, h⟩ := h
    exact ⟨l, s', o, hl, h⟩
  unfold ChunkRings.act
  rw [hfd, hf]
  simp only [hl]
  cases hn : l[f.log.length]? with
  | none => exact ⟨_, _, rfl, .finished (List.getElem?_eq_none_iff.1 hn)⟩
  | some a =>
    simp only
    cases a with
    | remove =>
      obtain ⟨h1, h2, h3, -⟩ := hF.remove good hl hn
      have hpos : s.producers ≠ 0 := by
        rw [inv.prods]
        have : 0 < s.feeders.countP (fun f => decide (FeedAct.remove ∉ f.log)) := List.countP_pos_iff.2 ⟨f, List.mem_of_getElem? hf, by simpa using h2⟩
        omega
      refine ⟨_, _, ?_, .remove hn hpos⟩
      simp only [ChunkRings.perform, ChunkRings.removeProducer, if_neg hpos]
    | ev e =>
      cases e with
      | win w =>
        cases w with
        | alloc id sid =>
          simp only [ChunkRings.perform, ChunkRings.allocChunk]
          cases hfr : s.free with
          | nil =>
            cases hst : s.freeStopped with
            | true => exact ⟨_, _, rfl, .refused id sid hn hfr hst⟩
            | false => exact ⟨_, _, rfl, .waitFree id sid hn hfr hst⟩
          | cons p rest => exact ⟨_, _, rfl, .take id sid p rest hn hfr⟩
        | head m => exact ⟨_, _, rfl, .other _ hn (fun w h => by cases h; exact ⟨m, rfl⟩) (fun _ _ h => by cases h) (fun _ _ _ h => by cases h)⟩
        | ready c =>
          obtain ⟨p, rest, hh⟩ := hF.oldest good hl hn
          have hnd := hF.heldNodup good
          rw [hh] at hnd
          simp only [ChunkRings.perform, ChunkEv.uses, hh, List.lookup_cons, beq_self_eq_true, Option.map_some, ChunkRings.onChunk, ChunkRings.readyChunk, filter_head hnd]
          by_cases hst : s.dataStopped = true
          · rw [if_pos hst]
            exact ⟨_, _, rfl, .bury c p rest hn hh hst⟩
          · rw [if_neg hst]
            by_cases hc : s.data.length < s.dataCap
            · rw [if_pos hc]
              exact ⟨_, _, rfl, .push c p rest hn hh (by simpa using hst) hc⟩
            · rw [if_neg hc]
              exact ⟨_, _, rfl, .waitData c hn (by omega) (by simpa using hst)⟩
      | write c off data =>
        obtain ⟨p, h1, h2⟩ := lookup_mem (hF.target good hl hn rfl)
        simp only [ChunkRings.perform, ChunkEv.uses, h1, Option.map_some, ChunkRings.onChunk]
        exact ⟨_, _, rfl, .write c p off data hn h2⟩
      | present c k =>
        obtain ⟨p, h1, h2⟩ := lookup_mem (hF.target good hl hn rfl)
        simp only [ChunkRings.perform, ChunkEv.uses, h1, Option.map_some, ChunkRings.onChunk]
        exact ⟨_, _, rfl, .present c p k hn h2⟩
      | extra c off data =>
        obtain ⟨p, h1, h2⟩ := lookup_mem (hF.target good hl hn rfl)
        simp only [ChunkRings.perform, ChunkEv.uses, h1, Option.map_some, ChunkRings.onChunk]
        exact ⟨_, _, rfl, .other _ hn (fun w h => by cases h) (fun _ _ h => by cases h) (fun _ _ _ h => by cases h)⟩
      | tooOld => exact ⟨_, _, rfl, .other _ hn (fun w h => by cases h) (fun _ _ h => by cases h) (fun _ _ _ h => by cases h)⟩
      | rejected => exact ⟨_, _, rfl, .other _ hn (fun w h => by cases h) (fun _ _ h => by cases h) (fun _ _ _ h => by cases h)⟩

theorem effects_advance (f : Feeder) (e : ChunkEv) (ans : List (Nat × Bool)) (held : List (Chunk × Nat)) (grave : List Nat) :
    ({ ans := ans, log := f.log ++ [.ev e], held := held, grave := grave } : Feeder).effects = f.effects ++ [e] := effects_snoc _ _

theorem effects_removed (f : Feeder) : ({ f with log := f.log ++ [.remove] } : Feeder).effects = f.effects := by
  unfold Feeder.effects
  rw [List.filterMap_append]; simp

theorem setAt_self {α : Type} (f : Nat → α) (k : Nat) (v : α) : setAt f k v k = v := by simp [setAt]

theorem setAt_ne {α : Type} {f : Nat → α} {j k : Nat} {v : α} (h : j ≠ k) : setAt f k v j = f j := by simp [setAt, h]

theorem Spec.Filled.write {s s' : ChunkRings} {tr : List ChunkEv} {c : Chunk} {p off : Nat} {data : Bytes} (h : Filled s tr c p) (h3 : s'.present p = s.present p)
    (h4 : s'.bytes p = writeBytes (s.bytes p) off data) : Filled s' (tr ++ [.write c off data]) c p := by
  refine ⟨fun k => ?_, fun k b hb => ?_⟩
  · rw [h3, h.flags k, List.mem_append, List.mem_singleton]
    exact ⟨Or.inl, fun hh => hh.elim id (fun hh => by cases hh)⟩
  · rw [lastWritten_snoc] at hb
    rw [h4]
    simp only [true_and] at hb
    unfold writeBytes
    by_cases ho : off ≤ k
    · rw [if_pos ho] at hb ⊢
      cases hd : data[k - off]? with
      | none => rw [hd, Option.none_or] at hb; exact h.bytes k b hb
      | some x => rw [hd, Option.some_or] at hb; cases hb; rfl
    · rw [if_neg ho, Option.none_or] at hb
      rw [if_neg ho]
      exact h.bytes k b hb

theorem Spec.Filled.present {s s' : ChunkRings} {tr : List ChunkEv} {c : Chunk} {p j : Nat} (h : Filled s tr c p) (h3 : s'.present p = setAt (s.present p) j true)
    (h4 : s'.bytes p = s.bytes p) : Filled s' (tr ++ [.present c j]) c p := by
  refine ⟨fun k => ?_, fun k b hb => ?_⟩
  · rw [h3, List.mem_append, List.mem_singleton]
    by_cases hk : k = j
    · subst hk
      rw [setAt_self]
      simp
    · rw [setAt_ne hk, h.flags k]
      exact ⟨Or.inl, fun hh => hh.elim id (fun hh => by injection hh with _ h2; exact absurd h2 hk)⟩
  · rw [lastWritten_snoc] at hb
    rw [h4]
    exact h.bytes k b hb

/-- Whatever a stream does, the invariant is maintained. -/
theorem CrInv.actCase {fds : List Feed} {n : Nat} {s s' : ChunkRings} {o : RingsOut} (inv : CrInv fds n s) {i : Nat} {fd : Feed} {f : Feeder} (good : GoodFeed fd)
    (hfd : fds[i]? = some fd) (hf : s.feeders[i]? = some f) {l : List FeedAct} (hl : fd.acts f.ans = some l) (h : ActCase s i fd f l s' o) : CrInv fds n s' := by
  have hF := inv.feed i fd f hfd hf
  have hfst : ∀ {c p}, (c, p) ∈ f.held → c ∈ f.held.map Prod.fst := fun h => List.mem_map_of_mem (f := Prod.fst) h
  cases h with
  | finished _ => exact inv
  | waitFree _ _ _ _ _ => exact inv
  | waitData _ _ _ _ => exact inv
  | take id sid p rest hn hfr =>
    obtain ⟨a1, a2, -, -⟩ := hF.alloc good hl hn
    have hfresh : id ∉ f.ans.map Prod.fst := by
      obtain ⟨st, r, ht, -⟩ := hF.next good hl hn
      exact hF.fresh good ht
    obtain ⟨k1, k2⟩ := hF.newChunk good hfresh
    have hsame : ∀ q, (({ s with free := rest }).advance i { f with ans := f.ans ++ [(id, true)], held := f.held ++ [(Chunk.mk id id sid, p)] } (.ev (.win (.alloc id sid)))).present q = s.present q ∧
      (({ s with free := rest }).advance i { f with ans := f.ans ++ [(id, true)], held := f.held ++ [(Chunk.mk id id sid, p)] } (.ev (.win (.alloc id sid)))).bytes q = s.bytes q := fun q => ⟨rfl, rfl⟩
    refine inv.acted good hfd hf (effects_advance f _ _ _ _) rfl (a2 p) ?_ ?_ (fun q _ => hsame q) ?_ ?_ ?_ ?_ ?_
    · refine moved (x := (Whereabout.free, p)) (y := (Whereabout.window i (Chunk.mk id id sid), p)) inv.perm ?_ rfl
      rw [List.perm_iff_count]
      intro y
      rw [List.count_append, List.count_append, count_where, count_where]
      have := count_feeders (f' := { f with ans := f.ans ++ [(id, true)], held := f.held ++ [(Chunk.mk id id sid, p)], log := f.log ++ [.ev (.win (.alloc id sid))] }) hf y
      rw [count_part, count_part] at this
      simp only [ChunkRings.advance, hfr, List.map_append, List.map_cons, List.map_nil, List.count_append, List.count_cons, List.count_nil] at this ⊢
      omega
    · intro q hq
      rw [hfr]
      exact List.mem_cons_of_mem _ hq
    · intro c q hc
      rw [effects_advance]
      rcases List.mem_append.1 hc with hc | hc
      · exact (inv.held i f hf c q hc).snoc (fun _ h => by cases h) (fun _ _ _ h => by cases h) rfl rfl
      · rw [List.mem_singleton] at hc
        cases hc
        have h0 : Filled s f.effects (Chunk.mk id id sid) p := by
          refine ⟨fun k => ?_, fun k b hb => ?_⟩
          · rw [inv.clean p (by rw [hfr]; simp) k]
            exact ⟨fun h => (nomatch h), fun h => absurd h (k1 _ k rfl)⟩
          · rw [lastWritten_none k2] at hb
            cases hb
        exact h0.snoc (fun _ h => by cases h) (fun _ _ _ h => by cases h) rfl rfl
    · exact fun x hx => Or.inl hx
    · intro c q hc hq _
      rw [effects_advance]
      exact hq.snoc (fun _ h => by cases h) (fun _ _ _ h => by cases h) rfl rfl
    · show s.producers = _
      rw [inv.prods]
      exact (countP_set hf _ (by simp)).symm
    · intro hs
      exact ⟨(inv.quiet hs).1 i f hf, hs, rfl⟩
  | refused id sid hn hfr hst =>
    obtain ⟨-, -, a2, -⟩ := hF.alloc good hl hn
    refine inv.acted good hfd hf (effects_advance f _ _ _ _) rfl a2 ?_ (fun q hq => hq) (fun q _ => ⟨rfl, rfl⟩) ?_ (fun x hx => Or.inl hx) ?_ ?_ ?_
    · refine moved (x := (Whereabout.free, 0)) (y := (Whereabout.free, 0)) inv.perm ?_ rfl
      rw [List.perm_iff_count]
      intro y
      rw [List.count_append, List.count_append, count_where, count_where]
      have := count_feeders (f' := { f with ans := f.ans ++ [(id, false)], log := f.log ++ [.ev (.win (.alloc id sid))] }) hf y
      rw [count_part, count_part] at this
      simp only [ChunkRings.advance] at this ⊢
      omega
    · intro c q hc
      rw [effects_advance]
      exact (inv.held i f hf c q hc).snoc (fun _ h => by cases h) (fun _ _ _ h => by cases h) rfl rfl
    · intro c q hc hq _
      rw [effects_advance]
      exact hq.snoc (fun _ h => by cases h) (fun _ _ _ h => by cases h) rfl rfl
    · show s.producers = _
      rw [inv.prods]
      exact (countP_set hf _ (by simp)).symm
    · intro hs
      exact ⟨(inv.quiet hs).1 i f hf, hs, rfl⟩
  | push c p rest hn hh hst hcap =>
    have a2 := hF.other good hl hn (fun _ _ h => by cases h) (held' := rest) (fun h => absurd rfl (h c)) (fun c' h => by cases h; rw [hh]; rfl) f.grave
    have hcp : Filled s f.effects c p := inv.held i f hf c p (by rw [hh]; simp)
    refine inv.acted good hfd hf (effects_advance f _ _ _ _) rfl a2 ?_ (fun q hq => hq) (fun q _ => ⟨rfl, rfl⟩) ?_ ?_ ?_ ?_ ?_
    · refine moved (x := (Whereabout.window i c, p)) (y := (Whereabout.data, p)) inv.perm ?_ rfl
      rw [List.perm_iff_count]
      intro y
      rw [List.count_append, List.count_append, count_where, count_where]
      have := count_feeders (f' := { f with held := rest, log := f.log ++ [.ev (.win (.ready c))] }) hf y
      rw [count_part, count_part] at this
      simp only [ChunkRings.advance, hh, List.map_append, List.map_cons, List.map_nil, List.count_append, List.count_cons, List.count_nil] at this ⊢
      omega
    · intro c' q hc
      rw [effects_advance]
      exact (inv.held i f hf c' q (by rw [hh]; exact List.mem_cons_of_mem _ hc)).snoc (fun _ h => by cases h) (fun _ _ _ h => by cases h) rfl rfl
    · intro x hx
      rcases List.mem_append.1 hx with hx | hx
      · exact Or.inl hx
      · rw [List.mem_singleton] at hx
        subst hx
        refine Or.inr ⟨rfl, ?_, ?_⟩
        · rw [effects_advance, winEvs_append, readied_append]
          exact List.mem_append_right _ (by simp [winEvs, readied])
        · rw [effects_advance]
          exact hcp.snoc (fun _ h => by cases h) (fun _ _ _ h => by cases h) rfl rfl
    · intro c' q hc hq _
      rw [effects_advance]
      exact hq.snoc (fun _ h => by cases h) (fun _ _ _ h => by cases h) rfl rfl
    · show s.producers = _
      rw [inv.prods]
      exact (countP_set hf _ (by simp)).symm
    · intro hs
      exact ⟨(inv.quiet hst).1 i f hf, hst, rfl⟩
  | bury c p rest hn hh hst =>
    have a2 := hF.other good hl hn (fun _ _ h => by cases h) (held' := rest) (fun h => absurd rfl (h c)) (fun c' h => by cases h; rw [hh]; rfl) (p :: f.grave)
    refine inv.acted good hfd hf (effects_advance f _ _ _ _) rfl a2 ?_ (fun q hq => hq) (fun q _ => ⟨rfl, rfl⟩) ?_ (fun x hx => Or.inl hx) ?_ ?_ ?_
    · refine moved (x := (Whereabout.window i c, p)) (y := (Whereabout.graveyard i, p)) inv.perm ?_ rfl
      rw [List.perm_iff_count]
      intro y
      rw [List.count_append, List.count_append, count_where, count_where]
      have := count_feeders (f' := { f with held := rest, grave := p :: f.grave, log := f.log ++ [.ev (.win (.ready c))] }) hf y
      rw [count_part, count_part] at this
      simp only [ChunkRings.advance, hh, List.map_append, List.map_cons, List.map_nil, List.count_append, List.count_cons, List.count_nil] at this ⊢
      omega
    · intro c' q hc
      rw [effects_advance]
      exact (inv.held i f hf c' q (by rw [hh]; exact List.mem_cons_of_mem _ hc)).snoc (fun _ h => by cases h) (fun _ _ _ h => by cases h) rfl rfl
    · intro c' q hc hq _
      rw [effects_advance]
      exact hq.snoc (fun _ h => by cases h) (fun _ _ _ h => by cases h) rfl rfl
    · show s.producers = _
      rw [inv.prods]
      exact (countP_set hf _ (by simp)).symm
    · intro hs
      have hs' : s.dataStopped = false := hs
      rw [hst] at hs'; cases hs'
  | write c p off data hn hm =>
    have a2 := hF.other good hl hn (fun _ _ h => by cases h) (held' := f.held) (fun _ => rfl) (fun c' h => by cases h) f.grave
    refine inv.acted good hfd hf (effects_advance f _ _ _ _) rfl a2 ?_ (fun q hq => hq) (fun q hq => ⟨rfl, setAt_ne (fun h => hq c (h ▸ hm))⟩) ?_ (fun x hx => Or.inl hx) ?_ ?_ ?_
    · refine moved (x := (Whereabout.free, 0)) (y := (Whereabout.free, 0)) inv.perm ?_ rfl
      rw [List.perm_iff_count]
      intro y
      rw [List.count_append, List.count_append, count_where, count_where]
      have := count_feeders (f' := { f with log := f.log ++ [.ev (.write c off data)] }) hf y
      rw [count_part, count_part] at this
      simp only [ChunkRings.advance] at this ⊢
      omega
    · intro c' q hc
      rw [effects_advance]
      by_cases hq : q = p
      · subst hq
        have hcc : c' = c := by
          have := inv.one (where_held hf hc) (where_held hf hm)
          simpa using this
        subst hcc
        exact (inv.held i f hf c' q hc).write rfl (setAt_self _ _ _)
      · refine (inv.held i f hf c' q hc).snoc (fun _ h => by cases h) (fun c'' _ _ h => ?_) rfl (setAt_ne hq)
        cases h
        intro he
        have := hF.heldIds good (hfst hc) (hfst hm) he
        subst this
        have h2 := hF.heldNodup good
        exact hq (Prod.mk.inj (List.inj_on_of_nodup_map h2 hc hm rfl)).2
    · intro c' q hc hq hno
      rw [effects_advance]
      refine hq.snoc (fun _ h => by cases h) (fun c'' _ _ h => ?_) rfl (setAt_ne (fun h => hno c (h ▸ hm)))
      cases h
      exact hF.notBoth good hc (hfst hm)
    · show s.producers = _
      rw [inv.prods]
      exact (countP_set hf _ (by simp)).symm
    · intro hs
      exact ⟨(inv.quiet hs).1 i f hf, hs, rfl⟩
  | present c p k hn hm =>
    have a2 := hF.other good hl hn (fun _ _ h => by cases h) (held' := f.held) (fun _ => rfl) (fun c' h => by cases h) f.grave
    refine inv.acted good hfd hf (effects_advance f _ _ _ _) rfl a2 ?_ (fun q hq => hq) (fun q hq => ⟨setAt_ne (fun h => hq c (h ▸ hm)), rfl⟩) ?_ (fun x hx => Or.inl hx) ?_ ?_ ?_
    · refine moved (x := (Whereabout.free, 0)) (y := (Whereabout.free, 0)) inv.perm ?_ rfl
      rw [List.perm_iff_count]
      intro y
      rw [List.count_append, List.count_append, count_where, count_where]
      have := count_feeders (f' := { f with log := f.log ++ [.ev (.present c k)] }) hf y
      rw [count_part, count_part] at this
      simp only [ChunkRings.advance] at this ⊢
      omega
    · intro c' q hc
      rw [effects_advance]
      by_cases hq : q = p
      · subst hq
        have hcc : c' = c := by
          have := inv.one (where_held hf hc) (where_held hf hm)
          simpa using this
        subst hcc
        exact (inv.held i f hf c' q hc).present (setAt_self _ _ _) rfl
      · refine (inv.held i f hf c' q hc).snoc (fun j h => ?_) (fun c'' _ _ h => by cases h) (setAt_ne hq) rfl
        injection h with h1 h2
        subst h1
        have h2 := hF.heldNodup good
        exact hq (Prod.mk.inj (List.inj_on_of_nodup_map h2 hc hm rfl)).2
    · intro c' q hc hq hno
      rw [effects_advance]
      refine hq.snoc (fun j h => ?_) (fun c'' _ _ h => by cases h) (setAt_ne (fun h => hno c (h ▸ hm))) rfl
      injection h with h1 h2
      exact hF.notBoth good hc (hfst hm) (by rw [h1])
    · show s.producers = _
      rw [inv.prods]
      exact (countP_set hf _ (by simp)).symm
    · intro hs
      exact ⟨(inv.quiet hs).1 i f hf, hs, rfl⟩
  | other e hn h1 h2 h3 =>
    have hna : ∀ id sid, e ≠ .win (.alloc id sid) := fun id sid h => by obtain ⟨m, hm⟩ := h1 _ h; cases hm
    have hnr : ∀ c, e ≠ .win (.ready c) := fun c h => by obtain ⟨m, hm⟩ := h1 _ h; cases hm
    have a2 := hF.other good hl hn hna (held' := f.held) (fun _ => rfl) (fun c' h => absurd h (hnr c')) f.grave
    refine inv.acted good hfd hf (effects_advance f _ _ _ _) rfl a2 ?_ (fun q hq => hq) (fun q hq => ⟨rfl, rfl⟩) ?_ (fun x hx => Or.inl hx) ?_ ?_ ?_
    · refine moved (x := (Whereabout.free, 0)) (y := (Whereabout.free, 0)) inv.perm ?_ rfl
      rw [List.perm_iff_count]
      intro y
      rw [List.count_append, List.count_append, count_where, count_where]
      have := count_feeders (f' := { f with log := f.log ++ [.ev e] }) hf y
      rw [count_part, count_part] at this
      simp only [ChunkRings.advance] at this ⊢
      omega
    · intro c' q hc
      rw [effects_advance]
      exact (inv.held i f hf c' q hc).snoc (fun k h => h2 c' k h) (fun c'' off d h => absurd h (h3 c'' off d)) rfl rfl
    · intro c' q hc hq _
      rw [effects_advance]
      exact hq.snoc (fun k h => h2 c' k h) (fun c'' off d h => absurd h (h3 c'' off d)) rfl rfl
    · show s.producers = _
      rw [inv.prods]
      exact (countP_set hf _ (by simp)).symm
    · intro hs
      exact ⟨(inv.quiet hs).1 i f hf, hs, rfl⟩
  | remove hn hpos =>
    obtain ⟨h1, h2, h3, a2⟩ := hF.remove good hl hn
    have he : ({ f with log := f.log ++ [.remove] } : Feeder).effects = f.effects ++ [] := by rw [effects_removed, List.append_nil]
    have he' : ({ f with log := f.log ++ [.remove] } : Feeder).effects = f.effects := effects_removed f
    refine inv.acted good hfd hf he rfl a2 ?_ (fun q hq => hq) (fun q hq => ⟨rfl, rfl⟩) ?_ (fun x hx => Or.inl hx) ?_ ?_ ?_
    · refine moved (x := (Whereabout.free, 0)) (y := (Whereabout.free, 0)) inv.perm ?_ rfl
      rw [List.perm_iff_count]
      intro y
      rw [List.count_append, List.count_append, count_where, count_where]
      have := count_feeders (f' := { f with log := f.log ++ [.remove] }) hf y
      rw [count_part, count_part] at this
      simp only [ChunkRings.advance] at this ⊢
      omega
    · intro c' q hc
      rw [he']
      exact (inv.held i f hf c' q hc).same rfl rfl
    · intro c' q hc hq _
      rw [he']
      exact hq.same rfl rfl
    · show s.producers - 1 = _
      have := countP_set_less (f' := { f with log := f.log ++ [.remove] }) hf (fun f => decide (FeedAct.remove ∉ f.log)) (by simp) (by simpa using h2)
      rw [inv.prods]
      show _ = (s.feeders.set i _).countP _
      omega
    · intro hs
      have hs' : s.dataStopped = false := by
        have : (s.dataStopped || s.producers - 1 == 0) = false := hs
        simp at this
        exact this.1
      exact ⟨(inv.quiet hs').1 i f hf, hs', rfl⟩

end Spead2
