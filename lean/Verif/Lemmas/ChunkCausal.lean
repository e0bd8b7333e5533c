import Verif.Lemmas.ChunkFlow
import Verif.Lemmas.ChunkStream

/-!
# A chunk stream reacts to answers only after it got them

The model of a chunk stream takes the answers to all requests for chunks beforehand. The lemmas here show that what it does until
a request does not depend on the answer to that request or later ones.
-/

namespace Spead2
open Spec

/-! ## Chunks held at every point -/

theorem chunkStep_flow {cfg : ChunkConfig} (hmax : 0 < cfg.maxChunks) {s s' : ChunkStream} {h : Nat} {win : List (Option Chunk)}
    (r : WRel cfg.maxChunks s.window h win) (ht : h + win.length < 2 ^ 64) {op : ChunkOp} {ev : List ChunkEv} (he : s.step cfg op = some (s', ev)) :
    flowRun cfg.maxChunks cfg.alloc (inWindow s.window) (winEvs ev) = some (inWindow s'.window) := by
  cases op with
  | allocate pl =>
    simp only [ChunkStream.step, ChunkStream.allocate] at he
    split at he
    · cases he
      split <;> rfl
    · split at he
      · cases he
      · next w ev' hg =>
        cases he
        rw [winEvs_win]
        exact getChunk_flow hmax cfg.alloc r hg
      · next w c ev' hg =>
        unfold copyExtra at he
        have := getChunk_flow hmax cfg.alloc r hg
        split at he
        · cases he
        · next ev'' hx =>
          cases he
          have h2 : winEvs ev'' = [] := by
            split at hx
            · split at hx
              · cases hx; rfl
              · cases hx
            · cases hx; rfl
          rw [winEvs_append, winEvs_win, h2, List.append_nil]
          exact this
  | copy hp off data =>
    simp only [ChunkStream.step, ChunkStream.copy] at he
    split at he
    · cases he
    · split at he
      · cases he; rfl
      · split at he
        · cases he
        · split at he
          · unfold packetPresence at he
            split at he
            · cases he
            · next hx =>
              cases he
              split at hx
              · split at hx
                · cases hx; rfl
                · cases hx
              · cases hx; rfl
          · cases he
  | heapReady hp c =>
    simp only [ChunkStream.step, ChunkStream.heapReady] at he
    split at he
    · split at he
      · cases he
      · split at he
        · cases he; rfl
        · split at he
          · cases he; rfl
          · unfold heapPresence at he
            split at he
            · cases he
            · next hx =>
              cases he
              split at hx
              · split at hx
                · cases hx; rfl
                · cases hx
              · cases hx; rfl
    · cases he; rfl
  | flush =>
    simp only [ChunkStream.step] at he
    unfold ChunkStream.withWindow at he
    split at he
    · cases he
    · next w ev' hg =>
      cases he
      rw [winEvs_win]
      exact winStep_flow hmax cfg.alloc r ht (op := .all) hg
  | flushUntil t =>
    simp only [ChunkStream.step] at he
    unfold ChunkStream.withWindow at he
    split at he
    · cases he
    · next w ev' hg =>
      cases he
      rw [winEvs_win]
      exact winStep_flow hmax cfg.alloc r ht (op := .until t) hg

theorem chunkRun_flow {cfg : ChunkConfig} (hmax : 0 < cfg.maxChunks) : ∀ (ops pre : List ChunkOp) {s s' : ChunkStream} {tr ev : List ChunkEv} {hd : Nat} {win : List (Option Chunk)},
    CRel cfg pre s tr hd win → (∀ a op b, ops = a ++ op :: b → op.Valid cfg (placements (pre ++ a))) → ChunkStream.run cfg ops s = some (s', ev) →
    flowRun cfg.maxChunks cfg.alloc (inWindow s.window) (winEvs ev) = some (inWindow s'.window)
  | [], pre, s, s', tr, ev, hd, win, c, _, he => by cases he; rfl
  | op :: ops, pre, s, s', tr, ev, hd, win, c, hv, he => by
    obtain ⟨s1, e1, h1, win1, a1, a2, a3⟩ := chunkStep_spec hmax c op (by simpa using hv [] op ops rfl)
    have f1 := chunkStep_flow hmax c.rel c.lt a1
    unfold ChunkStream.run at he
    rw [a1] at he
    simp only at he
    cases hr : ChunkStream.run cfg ops s1 with
    | none => rw [hr] at he; cases he
    | some q =>
      rw [hr] at he
      cases he
      rw [winEvs_append]
      exact flowRun_trans f1 (chunkRun_flow hmax ops (pre ++ [op]) a2 (fun a o b hab => by
        have := hv (op :: a) o b (by rw [hab]; rfl)
        simpa using this) hr)

theorem chunkFlow {cfg : ChunkConfig} (hmax : 0 < cfg.maxChunks) {ops : List ChunkOp} (hv : ValidOps cfg ops) {s : ChunkStream} {tr : List ChunkEv}
    (h : ChunkStream.run cfg ops (ChunkStream.new cfg) = some (s, tr)) :
    flowRun cfg.maxChunks cfg.alloc [] (winEvs tr) = some (inWindow s.window) := by
  have := chunkRun_flow hmax ops [] (CRel.new hmax) (fun a op b he => by simpa using hv a op b he) h
  rwa [show inWindow (ChunkStream.new cfg).window = [] from inWindow_rel (WRel.new hmax)] at this

/-! ## Causality -/

/-- Both lists begin with the same elements, up to and including one with `P`. -/
def Split {α : Type} (P : α → Prop) (t t' : List α) : Prop := ∃ p e r r', t = p ++ e :: r ∧ t' = p ++ e :: r' ∧ P e

theorem Split.append {α : Type} {P : α → Prop} {t t' : List α} (h : Split P t t') (u u' : List α) : Split P (t ++ u) (t' ++ u') := by
  obtain ⟨p, e, r, r', rfl, rfl, he⟩ := h
  exact ⟨p, e, r ++ u, r' ++ u', by simp, by simp, he⟩

theorem Split.prepend {α : Type} {P : α → Prop} {t t' : List α} (h : Split P t t') (u : List α) : Split P (u ++ t) (u ++ t') := by
  obtain ⟨p, e, r, r', rfl, rfl, he⟩ := h
  exact ⟨u ++ p, e, r, r', by simp, by simp, he⟩

theorem Split.map {α β : Type} {P : α → Prop} {Q : β → Prop} {t t' : List α} (h : Split P t t') (f : α → β) (hf : ∀ a, P a → Q (f a)) : Split Q (t.map f) (t'.map f) := by
  obtain ⟨p, e, r, r', rfl, rfl, he⟩ := h
  exact ⟨p.map f, f e, r.map f, r'.map f, by simp, by simp, hf e he⟩

/-- Two runs do the same, unless they come to an element with `P`. -/
def Agree {α β : Type} (P : α → Prop) (x y : Option (β × List α)) : Prop :=
  ∀ a t b t', x = some (a, t) → y = some (b, t') → (a = b ∧ t = t') ∨ Split P t t'

theorem Agree.refl {α β : Type} (P : α → Prop) (x : Option (β × List α)) : Agree P x x := by
  intro a t b t' h h'
  rw [h] at h'
  cases h'
  exact Or.inl ⟨rfl, rfl⟩

/-- A request whose answer differs. -/
def Differs (f g : Nat → Bool) (e : WinEv) : Prop := ∃ n s, e = .alloc n s ∧ f n ≠ g n

theorem push_agree (f g : Nat → Bool) (sid : Nat) (w : Window) : Agree (Differs f g) (w.push f sid) (w.push g sid) := by
  intro a t b t' h h'
  unfold Window.push at h h'
  by_cases hfg : f w.tailChunk = g w.tailChunk
  · rw [hfg, h'] at h
    cases h
    exact Or.inl ⟨rfl, rfl⟩
  · by_cases hl : w.tailPos < w.chunks.length
    · rw [if_pos hl] at h h'
      cases h; cases h'
      exact Or.inr ⟨[], _, [], [], rfl, rfl, _, _, rfl, hfg⟩
    · rw [if_neg hl] at h
      cases h

theorem extend_agree (f g : Nat → Bool) (sid : Nat) (w : Window) : Agree (Differs f g) (w.extend f sid) (w.extend g sid) := by
  intro a t b t' h h'
  unfold Window.extend at h h'
  split at h
  · next hc =>
    rw [if_pos hc] at h'
    cases h1 : w.flushHead2 with
    | none => rw [h1] at h; cases h
    | some q =>
      obtain ⟨w1, ev1⟩ := q
      rw [h1] at h h'
      simp only at h h'
      cases h2 : w1.push f sid with
      | none => rw [h2] at h; cases h
      | some x =>
        cases h3 : w1.push g sid with
        | none => rw [h3] at h'; cases h'
        | some y =>
          rw [h2] at h; rw [h3] at h'
          cases h; cases h'
          rcases push_agree f g sid w1 _ _ _ _ h2 h3 with ⟨e1, e2⟩ | e
          · exact Or.inl ⟨e1, by rw [e2]⟩
          · exact Or.inr (e.prepend _)
  · next hc =>
    rw [if_neg hc] at h'
    exact push_agree f g sid w _ _ _ _ h h'

theorem extendLoop_agree (f g : Nat → Bool) (sid id : Nat) : ∀ (fuel : Nat) (w : Window), Agree (Differs f g) (Window.extendLoop f sid id fuel w) (Window.extendLoop g sid id fuel w)
  | 0, w => Agree.refl _ _
  | fuel + 1, w => by
    intro a t b t' h h'
    rw [Window.extendLoop] at h h'
    split at h
    · next hc =>
      rw [if_pos hc] at h'
      cases h1 : w.extend f sid with
      | none => rw [h1] at h; cases h
      | some x =>
        cases h2 : w.extend g sid with
        | none => rw [h2] at h'; cases h'
        | some y =>
          obtain ⟨w1, e1⟩ := x
          obtain ⟨w2, e2⟩ := y
          rw [h1] at h; rw [h2] at h'
          simp only at h h'
          cases h3 : Window.extendLoop f sid id fuel w1 with
          | none => rw [h3] at h; cases h
          | some x' =>
            cases h4 : Window.extendLoop g sid id fuel w2 with
            | none => rw [h4] at h'; cases h'
            | some y' =>
              rw [h3] at h; rw [h4] at h'
              cases h; cases h'
              rcases extend_agree f g sid w _ _ _ _ h1 h2 with ⟨rfl, rfl⟩ | e
              · rcases extendLoop_agree f g sid id fuel w1 _ _ _ _ h3 h4 with ⟨e1, e2⟩ | e
                · exact Or.inl ⟨e1, by rw [e2]⟩
                · exact Or.inr (e.prepend _)
              · exact Or.inr (e.append _ _)
    · next hc =>
      rw [if_neg hc] at h'
      rw [h] at h'
      cases h'
      exact Or.inl ⟨rfl, rfl⟩

theorem getChunk_agree (f g : Nat → Bool) (w : Window) (id sid : Nat) {a b : Window} {c d : Option Chunk} {t t' : List WinEv}
    (h : w.getChunk f id sid = some (a, c, t)) (h' : w.getChunk g id sid = some (b, d, t')) :
    (a = b ∧ c = d ∧ t = t') ∨ Split (Differs f g) t t' := by
  unfold Window.getChunk at h h'
  split at h
  · next h0 =>
    rw [if_pos h0] at h'
    split at h
    · next h1 =>
      rw [if_pos h1] at h'
      cases hj : w.jump id with
      | none => rw [hj] at h; cases h
      | some q =>
        obtain ⟨w1, ev1⟩ := q
        rw [hj] at h h'
        simp only at h h'
        cases h3 : Window.extendLoop f sid id (w1.chunks.length + 1) w1 with
        | none => rw [h3] at h; cases h
        | some x =>
          cases h4 : Window.extendLoop g sid id (w1.chunks.length + 1) w1 with
          | none => rw [h4] at h'; cases h'
          | some y =>
            rw [h3] at h; rw [h4] at h'
            simp only at h h'
            cases h5 : x.1.chunks[x.1.pos id]? with
            | none => rw [h5] at h; cases h
            | some c1 =>
              cases h6 : y.1.chunks[y.1.pos id]? with
              | none => rw [h6] at h'; cases h'
              | some d1 =>
                rw [h5] at h; rw [h6] at h'
                cases h; cases h'
                rcases extendLoop_agree f g sid id _ w1 _ _ _ _ h3 h4 with ⟨e1, e2⟩ | e
                · refine Or.inl ⟨e1, ?_, by rw [e2]⟩
                  rw [e1, h6] at h5
                  cases h5; rfl
                · exact Or.inr (e.prepend _)
    · next h1 =>
      rw [if_neg h1] at h'
      cases h; cases h'
      exact Or.inl ⟨rfl, rfl, rfl⟩
  · cases h

/-- A request whose answer differs, among the effects of a chunk stream. -/
def DiffersC (f g : Nat → Bool) (e : ChunkEv) : Prop := ∃ n s, e = .win (.alloc n s) ∧ f n ≠ g n

/-- The same configuration with other answers. -/
abbrev ChunkConfig.answers (cfg : ChunkConfig) (f : Nat → Bool) : ChunkConfig := { cfg with alloc := f }

theorem chunkStep_agree (cfg : ChunkConfig) (f g : Nat → Bool) (s : ChunkStream) (op : ChunkOp) :
    Agree (DiffersC f g) (s.step (cfg.answers f) op) (s.step (cfg.answers g) op) := by
  cases op with
  | allocate pl =>
    intro a t b t' h h'
    simp only [ChunkStream.step, ChunkStream.allocate] at h h'
    split at h
    · next hc =>
      rw [if_pos hc] at h'
      rw [h] at h'
      cases h'
      exact Or.inl ⟨rfl, rfl⟩
    · next hc =>
      rw [if_neg hc] at h'
      have hx : ∀ c, copyExtra (cfg.answers f) c pl = copyExtra (cfg.answers g) c pl := fun c => rfl
      cases h1 : s.window.getChunk f pl.chunkId.toNat cfg.streamId with
      | none => rw [h1] at h; cases h
      | some x =>
        cases h2 : s.window.getChunk g pl.chunkId.toNat cfg.streamId with
        | none => rw [h2] at h'; cases h'
        | some y =>
          obtain ⟨w1, c1, e1⟩ := x
          obtain ⟨w2, c2, e2⟩ := y
          rw [h1] at h; rw [h2] at h'
          rcases getChunk_agree f g s.window _ _ h1 h2 with ⟨rfl, rfl, rfl⟩ | e
          · cases c1 with
            | none => cases h; cases h'; exact Or.inl ⟨rfl, rfl⟩
            | some c =>
              simp only at h h'
              rw [hx] at h
              rw [h] at h'
              cases h'
              exact Or.inl ⟨rfl, rfl⟩
          · have hm := e.map ChunkEv.win (Q := DiffersC f g) (by rintro _ ⟨n, s, rfl, hn⟩; exact ⟨n, s, rfl, hn⟩)
            have k1 : ∃ u, t = e1.map .win ++ u := by
              cases c1 with
              | none => cases h; exact ⟨[], by simp⟩
              | some c =>
                simp only at h
                split at h
                · cases h
                · cases h; exact ⟨_, rfl⟩
            have k2 : ∃ u, t' = e2.map .win ++ u := by
              cases c2 with
              | none => cases h'; exact ⟨[], by simp⟩
              | some c =>
                simp only at h'
                split at h'
                · cases h'
                · cases h'; exact ⟨_, rfl⟩
            obtain ⟨u, rfl⟩ := k1
            obtain ⟨u', rfl⟩ := k2
            exact Or.inr (hm.append _ _)
  | copy h off data => exact Agree.refl _ (s.copy (cfg.answers g) h off data)
  | heapReady h c => exact Agree.refl _ (s.heapReady (cfg.answers g) h c)
  | flush => exact Agree.refl _ _
  | flushUntil t => exact Agree.refl _ _

theorem chunkRun_agree (cfg : ChunkConfig) (f g : Nat → Bool) : ∀ (ops : List ChunkOp) (s : ChunkStream),
    Agree (DiffersC f g) (ChunkStream.run (cfg.answers f) ops s) (ChunkStream.run (cfg.answers g) ops s)
  | [], s => Agree.refl _ _
  | op :: ops, s => by
    intro a t b t' h h'
    rw [ChunkStream.run] at h h'
    cases h1 : s.step (cfg.answers f) op with
    | none => rw [h1] at h; cases h
    | some x =>
      cases h2 : s.step (cfg.answers g) op with
      | none => rw [h2] at h'; cases h'
      | some y =>
        obtain ⟨w1, e1⟩ := x
        obtain ⟨w2, e2⟩ := y
        rw [h1] at h; rw [h2] at h'
        simp only at h h'
        cases h3 : ChunkStream.run (cfg.answers f) ops w1 with
        | none => rw [h3] at h; cases h
        | some x' =>
          cases h4 : ChunkStream.run (cfg.answers g) ops w2 with
          | none => rw [h4] at h'; cases h'
          | some y' =>
            rw [h3] at h; rw [h4] at h'
            cases h; cases h'
            rcases chunkStep_agree cfg f g s op _ _ _ _ h1 h2 with ⟨rfl, rfl⟩ | e
            · rcases chunkRun_agree cfg f g ops w1 _ _ _ _ h3 h4 with ⟨e1, e2⟩ | e
              · exact Or.inl ⟨e1, by rw [e2]⟩
              · exact Or.inr (e.prepend _)
            · exact Or.inr (e.append _ _)

end Spead2
