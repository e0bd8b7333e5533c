import Verif.Lemmas.ChunkCausal
import Verif.Spec.ChunkRings

/-!
# One stream on the rings
-/

namespace Spead2
open Spec

theorem valid_any {cfg : ChunkConfig} {ops : List ChunkOp} (hv : ValidOps { cfg with alloc := fun _ => true } ops) (f : Nat → Bool) :
    ValidOps { cfg with alloc := f } ops := by
  intro a op b he
  have h := hv a op b he
  have hs : ∀ pl : Place, pl.Supplied { cfg with alloc := f } → pl.Supplied { cfg with alloc := fun _ => true } := fun pl h => ⟨h.1, rfl⟩
  cases op with
  | allocate pl => exact ⟨h.1, fun x => h.2 (hs _ x)⟩
  | copy hp off data =>
    obtain ⟨pl, h1, h2, h3⟩ := h
    exact ⟨pl, h1, fun x => h2 (hs _ x), fun x => h3 (hs _ x)⟩
  | heapReady hp c =>
    obtain ⟨pl, h1, h2⟩ := h
    exact ⟨pl, h1, fun x => h2 (hs _ x)⟩
  | flush => trivial
  | flushUntil t => exact h

/-- The effects of a stream that gets the answers `ans`. -/
def Feed.Trace (fd : Feed) (ans : List (Nat × Bool)) (s : ChunkStream) (t : List ChunkEv) : Prop :=
  ChunkStream.run (fd.cfgFor ans) fd.ops (ChunkStream.new (fd.cfgFor ans)) = some (s, t)

theorem Spec.GoodFeed.trace {fd : Feed} (g : GoodFeed fd) (ans : List (Nat × Bool)) :
    ∃ s t hd win, fd.Trace ans s t ∧ CRel (fd.cfgFor ans) fd.ops s t hd win :=
  chunkRun_new (cfg := fd.cfgFor ans) g.max (valid_any g.valid _)

theorem Feed.Trace.acts {fd : Feed} {ans : List (Nat × Bool)} {s : ChunkStream} {t : List ChunkEv} (h : fd.Trace ans s t) :
    fd.acts ans = some (t.map FeedAct.ev ++ if fd.ends then [.remove] else []) := by
  unfold Feed.acts
  rw [h]; rfl

theorem Feed.Trace.flow {fd : Feed} (g : GoodFeed fd) {ans : List (Nat × Bool)} {s : ChunkStream} {t : List ChunkEv} (h : fd.Trace ans s t) :
    flowRun fd.cfg.maxChunks (answerFn ans) [] (winEvs t) = some (inWindow s.window) :=
  chunkFlow (cfg := fd.cfgFor ans) g.max (valid_any g.valid _) h

theorem Feed.Trace.crel {fd : Feed} (g : GoodFeed fd) {ans : List (Nat × Bool)} {s : ChunkStream} {t : List ChunkEv} (h : fd.Trace ans s t) :
    ∃ hd win, CRel (fd.cfgFor ans) fd.ops s t hd win := by
  obtain ⟨s', t', hd, win, h1, h2⟩ := g.trace ans
  unfold Feed.Trace at h h1
  rw [h] at h1
  cases h1
  exact ⟨hd, win, h2⟩

theorem Feed.Trace.sorted {fd : Feed} (g : GoodFeed fd) {ans : List (Nat × Bool)} {s : ChunkStream} {t : List ChunkEv} (h : fd.Trace ans s t) :
    (requested (winEvs t)).Pairwise (· < ·) := by
  obtain ⟨hd, win, c⟩ := h.crel g
  exact c.st.reqSorted

/-! ## The next action -/

theorem effects_map (t : List ChunkEv) : (t.map FeedAct.ev).filterMap (fun | .ev e => some e | .remove => none) = t := by
  induction t with
  | nil => rfl
  | cons e t ih => simp only [List.map_cons, List.filterMap_cons, ih]

theorem next_ev {log : List FeedAct} {t : List ChunkEv} {tail : List FeedAct} {e : ChunkEv} (hp : log <+: t.map FeedAct.ev ++ tail)
    (ht : ∀ a ∈ tail, a = FeedAct.remove) (hn : (t.map FeedAct.ev ++ tail)[log.length]? = some (.ev e)) :
    log = (log.filterMap (fun | .ev e => some e | .remove => none)).map FeedAct.ev ∧
      ∃ r, t = log.filterMap (fun | .ev e => some e | .remove => none) ++ e :: r := by
  have hl := List.prefix_iff_eq_take.1 hp
  by_cases hlt : log.length < t.length
  · have h1 : log = (t.take log.length).map FeedAct.ev := by
      rw [List.take_append_of_le_length (by simp; omega), ← List.map_take] at hl
      exact hl
    have h2 : log.filterMap (fun | .ev e => some e | .remove => none) = t.take log.length := by
      conv => lhs; rw [h1]
      exact effects_map _
    rw [h2]
    refine ⟨h1, t.drop (log.length + 1), ?_⟩
    rw [List.getElem?_append_left (by simpa using hlt), List.getElem?_map, List.getElem?_eq_getElem hlt] at hn
    simp only [Option.map_some] at hn
    injection Option.some.inj hn with hn'
    rw [← hn', ← List.drop_eq_getElem_cons hlt, List.take_append_drop]
  · rw [List.getElem?_append_right (by simp; omega)] at hn
    have := ht _ (List.mem_of_getElem? hn)
    cases this

theorem next_remove {log : List FeedAct} {t : List ChunkEv} {b : Bool} (hp : log <+: t.map FeedAct.ev ++ if b then [FeedAct.remove] else [])
    (hn : (t.map FeedAct.ev ++ if b then [FeedAct.remove] else [])[log.length]? = some .remove) :
    b = true ∧ log = t.map FeedAct.ev := by
  have hl := List.prefix_iff_eq_take.1 hp
  by_cases hlt : log.length < t.length
  · rw [List.getElem?_append_left (by simpa using hlt), List.getElem?_map, List.getElem?_eq_getElem hlt] at hn
    simp at hn
  · cases b with
    | false =>
      rw [List.getElem?_eq_none (by simp; omega)] at hn
      cases hn
    | true =>
      have hlen := hp.length_le
      have : log.length < (t.map FeedAct.ev ++ if true = true then [FeedAct.remove] else []).length := by
        rcases Nat.lt_or_ge log.length (t.map FeedAct.ev ++ if true = true then [FeedAct.remove] else []).length with h | h
        · exact h
        · rw [List.getElem?_eq_none h] at hn; cases hn
      simp only [if_true, List.length_append, List.length_map, List.length_cons, List.length_nil] at this
      refine ⟨rfl, ?_⟩
      rw [hl, List.take_append_of_le_length (by simp; omega), List.take_of_length_le (by simp; omega)]

theorem prefix_snoc {α : Type} {p l : List α} {a : α} (hp : p <+: l) (hn : l[p.length]? = some a) : p ++ [a] <+: l := by
  obtain ⟨r, rfl⟩ := hp
  rw [List.getElem?_append_right (Nat.le_refl _), Nat.sub_self] at hn
  cases r with
  | nil => cases hn
  | cons b r => cases hn; exact ⟨r, by simp⟩

/-! ## Answers -/

theorem lookup_none_of {ans : List (Nat × Bool)} {id : Nat} (h : id ∉ ans.map Prod.fst) : ans.lookup id = none := by
  induction ans with
  | nil => rfl
  | cons a ans ih =>
    simp only [List.map_cons, List.mem_cons, not_or] at h
    rw [List.lookup_cons, ih h.2]
    have : (id == a.1) = false := by simpa using h.1
    rw [this]

theorem lookup_snoc (ans : List (Nat × Bool)) (id x : Nat) (b : Bool) : (ans ++ [(id, b)]).lookup x = (ans.lookup x).or (if x = id then some b else none) := by
  induction ans with
  | nil =>
    simp only [List.nil_append, List.lookup_cons, List.lookup_nil, Option.none_or]
    by_cases h : x = id
    · simp [h]
    · have : (x == id) = false := by simpa using h
      rw [this, if_neg h]
  | cons a ans ih =>
    rw [List.cons_append, List.lookup_cons, List.lookup_cons, ih]
    cases x == a.1 <;> rfl

theorem answer_other {ans : List (Nat × Bool)} {id x : Nat} {b : Bool} (h : x ≠ id) : answerFn (ans ++ [(id, b)]) x = answerFn ans x := by
  unfold answerFn
  rw [lookup_snoc, if_neg h, Option.or_none]

theorem answer_new {ans : List (Nat × Bool)} {id : Nat} {b : Bool} (h : id ∉ ans.map Prod.fst) :
    answerFn ans id = false ∧ answerFn (ans ++ [(id, b)]) id = b := by
  unfold answerFn
  rw [lookup_snoc, lookup_none_of h]
  exact ⟨rfl, by simp⟩

theorem answer_refused {ans : List (Nat × Bool)} {id : Nat} (h : id ∉ ans.map Prod.fst) : answerFn (ans ++ [(id, false)]) = answerFn ans := by
  funext x
  by_cases hx : x = id
  · subst hx
    rw [(answer_new (b := false) h).1, (answer_new (b := false) h).2]
  · exact answer_other hx

theorem flowRun_congr {max : Nat} {f g : Nat → Bool} : ∀ {ev : List WinEv} {l : List Chunk}, (∀ n ∈ requested ev, f n = g n) → flowRun max f l ev = flowRun max g l ev
  | [], l, _ => rfl
  | e :: ev, l, h => by
    have h1 : requested (e :: ev) = requested [e] ++ requested ev := requested_append [e] ev
    have hs : flowStep max f l e = flowStep max g l e := by
      cases e with
      | alloc n s => simp only [flowStep]; rw [h n (by rw [h1]; simp [requested])]
      | _ => rfl
    simp only [flowRun]
    rw [hs]
    cases flowStep max g l e with
    | none => rfl
    | some m => exact flowRun_congr (fun n hn => h n (by rw [h1]; simp [hn]))

/-! ## The invariant of a stream -/

structure FInv (fd : Feed) (f : Feeder) : Prop where
  pre : ∃ l, fd.acts f.ans = some l ∧ f.log <+: l
  reqs : requested (winEvs f.effects) = f.ans.map Prod.fst
  flow : flowRun fd.cfg.maxChunks (answerFn f.ans) [] (winEvs f.effects) = some (f.held.map Prod.fst)

theorem FInv.init {fd : Feed} (g : GoodFeed fd) : FInv fd {} := by
  obtain ⟨s, t, hd, win, h, -⟩ := g.trace []
  exact ⟨⟨_, h.acts, by simp⟩, rfl, rfl⟩

theorem tail_remove (b : Bool) : ∀ a ∈ (if b then [FeedAct.remove] else []), a = FeedAct.remove := by
  intro a ha
  cases b <;> simp at ha
  exact ha

theorem FInv.next {fd : Feed} (g : GoodFeed fd) {f : Feeder} (i : FInv fd f) {l : List FeedAct} (hl : fd.acts f.ans = some l) {e : ChunkEv}
    (hn : l[f.log.length]? = some (.ev e)) :
    ∃ s r, fd.Trace f.ans s (f.effects ++ e :: r) ∧ f.log = f.effects.map FeedAct.ev := by
  obtain ⟨s, t, hd, win, h, -⟩ := g.trace f.ans
  have ha := h.acts
  rw [hl] at ha
  cases ha
  obtain ⟨l', hl', hp⟩ := i.pre
  rw [hl] at hl'
  cases hl'
  obtain ⟨h1, r, h2⟩ := next_ev hp (tail_remove _) hn
  exact ⟨s, r, by rw [← show t = f.effects ++ e :: r from h2]; exact h, h1⟩

theorem effects_snoc (log : List FeedAct) (e : ChunkEv) :
    (log ++ [FeedAct.ev e]).filterMap (fun | .ev e => some e | .remove => none) = log.filterMap (fun | .ev e => some e | .remove => none) ++ [e] := by
  rw [List.filterMap_append]; rfl

theorem requested_unique {p q r r' : List ChunkEv} {id s s' : Nat} (hs : (requested (winEvs (p ++ .win (.alloc id s) :: r))).Pairwise (· < ·))
    (h : p ++ .win (.alloc id s) :: r = q ++ .win (.alloc id s') :: r') : p = q ∧ s = s' := by
  have key : ∀ (m a b : List ChunkEv) (s s' : Nat), (requested (winEvs (m ++ .win (.alloc id s) :: (a ++ .win (.alloc id s') :: b)))).Pairwise (· < ·) → False := by
    intro m a b s s' hh
    have hreq : requested (winEvs (m ++ .win (.alloc id s) :: (a ++ .win (.alloc id s') :: b))) =
        requested (winEvs m) ++ id :: (requested (winEvs a) ++ id :: requested (winEvs b)) := by
      simp [winEvs, requested]
    rw [hreq, List.pairwise_append] at hh
    have := (List.pairwise_cons.1 hh.2.1).1 id (by simp)
    omega
  rcases List.append_eq_append_iff.1 h with ⟨m, h1, h2⟩ | ⟨m, h1, h2⟩
  · cases m with
    | nil =>
      simp at h1 h2
      exact ⟨h1.symm, h2.1⟩
    | cons x m =>
      simp only [List.cons_append, List.cons.injEq] at h2
      obtain ⟨rfl, rfl⟩ := h2
      exact absurd hs (fun hh => key _ _ _ _ _ hh)
  · cases m with
    | nil =>
      simp at h1 h2
      exact ⟨h1, h2.1.symm⟩
    | cons x m =>
      simp only [List.cons_append, List.cons.injEq] at h2
      obtain ⟨rfl, rfl⟩ := h2
      rw [h] at hs
      exact absurd hs (fun hh => key _ _ _ _ _ hh)

theorem FInv.fresh {fd : Feed} (g : GoodFeed fd) {f : Feeder} (i : FInv fd f) {s : ChunkStream} {r : List ChunkEv} {id sid : Nat}
    (ht : fd.Trace f.ans s (f.effects ++ .win (.alloc id sid) :: r)) : id ∉ f.ans.map Prod.fst := by
  have hs := ht.sorted g
  have : requested (winEvs (f.effects ++ .win (.alloc id sid) :: r)) = f.ans.map Prod.fst ++ id :: requested (winEvs r) := by
    rw [← i.reqs]
    simp [winEvs, requested]
  rw [this, List.pairwise_append] at hs
  intro hm
  have := hs.2.2 id hm id (by simp)
  omega

/-- A request is answered. -/
theorem FInv.alloc {fd : Feed} (g : GoodFeed fd) {f : Feeder} (i : FInv fd f) {l : List FeedAct} (hl : fd.acts f.ans = some l) {id sid : Nat}
    (hn : l[f.log.length]? = some (.ev (.win (.alloc id sid)))) :
    f.held.length < fd.cfg.maxChunks ∧
    (∀ p, FInv fd { f with ans := f.ans ++ [(id, true)], held := f.held ++ [(Chunk.mk id id sid, p)], log := f.log ++ [.ev (.win (.alloc id sid))] }) ∧
    FInv fd { f with ans := f.ans ++ [(id, false)], log := f.log ++ [.ev (.win (.alloc id sid))] } ∧
    fd.acts (f.ans ++ [(id, false)]) = some l := by
  obtain ⟨s, r, ht, hlog⟩ := i.next g hl hn
  have hfresh := i.fresh g ht
  have hf := ht.flow g
  have hsplit : winEvs (f.effects ++ .win (.alloc id sid) :: r) = winEvs f.effects ++ .alloc id sid :: winEvs r := by simp [winEvs]
  have hlen : f.held.length < fd.cfg.maxChunks := by
    rw [hsplit] at hf
    obtain ⟨m, h1, h2⟩ := flowRun_prefix hf
    rw [i.flow] at h1
    cases h1
    simp only [flowRun, flowStep] at h2
    split at h2
    · cases h2
    · next hs =>
      split at hs
      · next hlt => simpa using hlt
      · cases hs
  have hreq : ∀ b : Bool, ∀ n ∈ requested (winEvs f.effects), answerFn f.ans n = answerFn (f.ans ++ [(id, b)]) n := by
    intro b n hn
    rw [i.reqs] at hn
    refine (answer_other (fun h => hfresh ?_)).symm
    rw [← h]; exact hn
  have hflow : ∀ b : Bool, flowRun fd.cfg.maxChunks (answerFn (f.ans ++ [(id, b)])) [] (winEvs (f.effects ++ [.win (.alloc id sid)])) =
      some (f.held.map Prod.fst ++ if b then [Chunk.mk id id sid] else []) := by
    intro b
    have : winEvs (f.effects ++ [.win (.alloc id sid)]) = winEvs f.effects ++ [.alloc id sid] := by simp [winEvs]
    rw [this]
    refine flowRun_trans (m := f.held.map Prod.fst) ?_ ?_
    · rw [← flowRun_congr (hreq b)]; exact i.flow
    · simp only [flowRun, flowStep, List.length_map, if_pos hlen, (answer_new hfresh).2]
  have hpre : ∀ b : Bool, ∃ l', fd.acts (f.ans ++ [(id, b)]) = some l' ∧ f.log ++ [.ev (.win (.alloc id sid))] <+: l' := by
    intro b
    obtain ⟨s', t', hd', win', ht', -⟩ := g.trace (f.ans ++ [(id, b)])
    refine ⟨_, ht'.acts, ?_⟩
    have : ∃ r', t' = f.effects ++ .win (.alloc id sid) :: r' := by
      have ha : Agree (DiffersC (answerFn f.ans) (answerFn (f.ans ++ [(id, b)]))) _ _ := chunkRun_agree fd.cfg _ _ fd.ops (ChunkStream.new fd.cfg)
      rcases ha _ _ _ _ ht ht' with ⟨-, h2⟩ | ⟨p, e, r1, r2, h1, h2, n, s0, rfl, hne⟩
      · exact ⟨r, h2.symm⟩
      · have hn' : n = id := Classical.byContradiction (fun h => hne (answer_other h).symm)
        subst hn'
        obtain ⟨rfl, rfl⟩ := requested_unique (ht.sorted g) h1
        exact ⟨r2, h2⟩
    obtain ⟨r', rfl⟩ := this
    rw [hlog]
    exact ⟨r'.map FeedAct.ev ++ (if fd.ends then [.remove] else []), by simp⟩
  have hreqs : ∀ b : Bool, requested (winEvs (f.effects ++ [.win (.alloc id sid)])) = (f.ans ++ [(id, b)]).map Prod.fst := by
    intro b
    rw [List.map_append, ← i.reqs]
    simp [winEvs, requested]
  have he : ∀ (f' : Feeder), f'.log = f.log ++ [.ev (.win (.alloc id sid))] → f'.effects = f.effects ++ [.win (.alloc id sid)] := by
    intro f' h
    unfold Feeder.effects
    rw [h]; exact effects_snoc _ _
  refine ⟨hlen, fun p => ⟨hpre true, ?_, ?_⟩, ⟨hpre false, ?_, ?_⟩, ?_⟩
  · rw [he _ rfl]; exact hreqs true
  · rw [he _ rfl, hflow true]; simp
  · rw [he _ rfl]; exact hreqs false
  · rw [he _ rfl, hflow false]; simp
  · rw [← hl]
    unfold Feed.acts Feed.cfgFor
    rw [answer_refused hfresh]

/-- An effect other than a request. -/
theorem FInv.other {fd : Feed} (g : GoodFeed fd) {f : Feeder} (i : FInv fd f) {l : List FeedAct} (hl : fd.acts f.ans = some l) {e : ChunkEv}
    (hn : l[f.log.length]? = some (.ev e)) (hne : ∀ id sid, e ≠ .win (.alloc id sid)) {held' : List (Chunk × Nat)}
    (hh : (∀ c, e ≠ .win (.ready c)) → held' = f.held) (hr : ∀ c, e = .win (.ready c) → f.held.map Prod.fst = c :: held'.map Prod.fst) (grave : List Nat) :
    FInv fd { f with held := held', log := f.log ++ [.ev e], grave := grave } := by
  have he : ∀ (f' : Feeder), f'.log = f.log ++ [.ev e] → f'.effects = f.effects ++ [e] := by
    intro f' h
    unfold Feeder.effects
    rw [h]; exact effects_snoc _ _
  obtain ⟨l', hl', hp⟩ := i.pre
  rw [hl] at hl'
  cases hl'
  refine ⟨⟨l, hl, prefix_snoc hp hn⟩, ?_, ?_⟩
  · rw [he _ rfl, winEvs_append, requested_append, i.reqs]
    have : requested (winEvs [e]) = [] := by
      cases e with
      | win w => cases w with
        | alloc id sid => exact absurd rfl (hne id sid)
        | _ => rfl
      | _ => rfl
    rw [this, List.append_nil]
  · rw [he _ rfl, winEvs_append]
    refine flowRun_trans i.flow ?_
    cases e with
    | win w => cases w with
      | alloc id sid => exact absurd rfl (hne id sid)
      | ready c =>
        rw [hr c rfl]
        simp [winEvs, flowRun, flowStep]
      | head n => rw [hh (fun c h => by cases h)]; rfl
    | _ => rw [hh (fun c h => by cases h)]; rfl

/-- The chunk that is handed over is the oldest one. -/
theorem FInv.oldest {fd : Feed} (g : GoodFeed fd) {f : Feeder} (i : FInv fd f) {l : List FeedAct} (hl : fd.acts f.ans = some l) {c : Chunk}
    (hn : l[f.log.length]? = some (.ev (.win (.ready c)))) : ∃ p rest, f.held = (c, p) :: rest := by
  obtain ⟨s, r, ht, hlog⟩ := i.next g hl hn
  have hf := ht.flow g
  have hsplit : winEvs (f.effects ++ .win (.ready c) :: r) = winEvs f.effects ++ .ready c :: winEvs r := by simp [winEvs]
  rw [hsplit] at hf
  obtain ⟨m, h1, h2⟩ := flowRun_prefix hf
  rw [i.flow] at h1
  cases h1
  cases hh : f.held with
  | nil => rw [hh] at h2; simp [flowRun, flowStep] at h2
  | cons x rest =>
    rw [hh] at h2
    simp only [List.map_cons, flowRun, flowStep] at h2
    split at h2
    · cases h2
    · next hs =>
      split at hs
      · next heq => exact ⟨x.2, rest, by rw [heq]⟩
      · cases hs

theorem FInv.suppliedEq {fd : Feed} {f : Feeder} (i : FInv fd f) :
    supplied (answerFn f.ans) (winEvs f.effects) = readied (winEvs f.effects) ++ f.held.map Prod.fst := by
  have := flowRun_flow i.flow
  simpa using this

/-- A chunk that is written to is held. -/
theorem FInv.target {fd : Feed} (g : GoodFeed fd) {f : Feeder} (i : FInv fd f) {l : List FeedAct} (hl : fd.acts f.ans = some l) {e : ChunkEv}
    (hn : l[f.log.length]? = some (.ev e)) {c : Chunk} (hc : target e = some c) : c ∈ f.held.map Prod.fst := by
  obtain ⟨s, r, ht, hlog⟩ := i.next g hl hn
  obtain ⟨hd, win, hc'⟩ := ht.crel g
  have hh : Held (fd.cfgFor f.ans) ([] ++ f.effects) c := (hc'.held.split rfl hc).1
  obtain ⟨h1, h2⟩ := hh
  rw [List.nil_append] at h1 h2
  have h1' : c ∈ supplied (answerFn f.ans) (winEvs f.effects) := h1
  rw [i.suppliedEq] at h1'
  rcases List.mem_append.1 h1' with h | h
  · exact absurd h h2
  · exact h

theorem FInv.prefixTrace {fd : Feed} (g : GoodFeed fd) {f : Feeder} (i : FInv fd f) : ∃ s r, fd.Trace f.ans s (f.effects ++ r) := by
  obtain ⟨s, t, hd, win, ht, -⟩ := g.trace f.ans
  obtain ⟨l, hl, hp⟩ := i.pre
  rw [ht.acts] at hl
  cases hl
  have hpre : f.effects <+: t := by
    have := hp.filterMap (fun | .ev e => some e | .remove => none)
    rw [List.filterMap_append, effects_map] at this
    have h0 : (if fd.ends then [FeedAct.remove] else []).filterMap (fun | .ev e => some e | .remove => none) = [] := by
      cases fd.ends <;> rfl
    rw [h0, List.append_nil] at this
    exact this
  obtain ⟨r, rfl⟩ := hpre
  exact ⟨s, r, ht⟩

/-- Chunks of one stream have different ids. -/
theorem FInv.ids {fd : Feed} (g : GoodFeed fd) {f : Feeder} (i : FInv fd f) :
    ((readied (winEvs f.effects) ++ f.held.map Prod.fst).map Chunk.chunkId).Nodup := by
  rw [← i.suppliedEq]
  have h1 : (supplied (answerFn f.ans) (winEvs f.effects)).map Chunk.chunkId = (supplied (answerFn f.ans) (winEvs f.effects)).map Chunk.allocFor :=
    List.map_congr_left (fun c hc => supplied_ids _ _ c hc)
  rw [h1, supplied_allocFor]
  have hs : (requested (winEvs f.effects)).Pairwise (· < ·) := by
    obtain ⟨s, r, ht⟩ := i.prefixTrace g
    have := ht.sorted g
    rw [winEvs_append, requested_append, List.pairwise_append] at this
    exact this.1
  exact (hs.imp (fun h => Nat.ne_of_lt h)).filter _

theorem FInv.remove {fd : Feed} (g : GoodFeed fd) {f : Feeder} (i : FInv fd f) {l : List FeedAct} (hl : fd.acts f.ans = some l)
    (hn : l[f.log.length]? = some .remove) :
    fd.ends = true ∧ .remove ∉ f.log ∧ f.log.length + 1 = l.length ∧ FInv fd { f with log := f.log ++ [.remove] } := by
  obtain ⟨s, t, hd, win, ht, -⟩ := g.trace f.ans
  obtain ⟨l', hl', hp⟩ := i.pre
  rw [hl] at hl'
  cases hl'
  have ha := ht.acts
  rw [hl] at ha
  cases ha
  obtain ⟨h1, h2⟩ := next_remove hp hn
  have he : ∀ (f' : Feeder), f'.log = f.log ++ [.remove] → f'.effects = f.effects := by
    intro f' h
    unfold Feeder.effects
    rw [h, List.filterMap_append]
    simp
  refine ⟨h1, by rw [h2]; simp, by rw [h2, h1]; simp, ⟨_, hl, prefix_snoc hp hn⟩, ?_, ?_⟩
  · rw [he _ rfl]; exact i.reqs
  · rw [he _ rfl]; exact i.flow

/-- After `stop_received` the window is empty. -/
theorem FInv.emptied {fd : Feed} (g : GoodFeed fd) {f : Feeder} (i : FInv fd f) (hr : .remove ∈ f.log) : f.held = [] ∧ f.Finished fd := by
  obtain ⟨s, t, hd, win, ht, hc⟩ := g.trace f.ans
  obtain ⟨l, hl, hp⟩ := i.pre
  rw [ht.acts] at hl
  cases hl
  have hlog : f.log = t.map FeedAct.ev ++ [.remove] ∧ fd.ends = true := by
    obtain ⟨r, hr'⟩ := hp
    cases he : fd.ends with
    | false =>
      rw [he] at hr'
      simp at hr'
      have : FeedAct.remove ∈ t.map FeedAct.ev := by rw [← hr']; simp [hr]
      simp at this
    | true =>
      rw [he] at hr'
      simp only [if_true] at hr'
      rcases List.append_eq_append_iff.1 hr' with ⟨m, h1, h2⟩ | ⟨m, h1, h2⟩
      · have : FeedAct.remove ∈ t.map FeedAct.ev := by rw [h1]; simp [hr]
        simp at this
      · cases m with
        | nil =>
          simp at h1
          rw [h1] at hr
          simp at hr
        | cons x m =>
          simp only [List.cons_append, List.cons.injEq, List.nil_eq, List.append_eq_nil_iff] at h2
          obtain ⟨rfl, rfl, rfl⟩ := h2
          exact ⟨h1, rfl⟩
  refine ⟨?_, _, ht.acts, by rw [hlog.1, hlog.2]; simp⟩
  have heff : f.effects = t := by
    unfold Feeder.effects
    rw [hlog.1, List.filterMap_append]
    exact (congrArg (fun x => x ++ _) (effects_map t)).trans (by simp)
  have h1 := i.flow
  rw [heff, ht.flow g] at h1
  obtain ⟨a, ha⟩ := g.flushed hlog.2
  have hw : inWindow s.window = [] := by
    unfold Feed.Trace at ht
    rw [ha] at ht
    obtain ⟨s1, t1, t2, h2, h3, -⟩ := chunkRun_append _ a [.flush] _ ht
    obtain ⟨s1', t1', hd1, win1, h4, h5⟩ := chunkRun_new (cfg := fd.cfgFor f.ans) g.max (ops := a) (fun x op y hxy =>
      valid_any g.valid _ x op (y ++ [.flush]) (by rw [ha, hxy]; simp))
    rw [h2] at h4
    cases h4
    obtain ⟨w', ev', f1, f2, -⟩ := flushAll_rel (fd.cfgFor f.ans).alloc h5.rel (2 ^ 64 - 1) (by have := h5.lt; omega)
    simp only [ChunkStream.run, ChunkStream.step, ChunkStream.withWindow, f1] at h3
    cases h3
    rw [inWindow_rel f2]; rfl
  rw [hw] at h1
  exact List.map_eq_nil_iff.1 (Option.some.inj h1).symm

end Spead2
