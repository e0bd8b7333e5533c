import Verif.Spec.ChunkStream
import Verif.Lemmas.ChunkWindow

/-!
# Invariants of chunk streams
-/

namespace Spead2
open Spec

theorem winEvs_append (a b : List ChunkEv) : winEvs (a ++ b) = winEvs a ++ winEvs b := List.filterMap_append

theorem winEvs_win (ev : List WinEv) : winEvs (ev.map .win) = ev := by
  induction ev with
  | nil => rfl
  | cons e ev ih => simp only [winEvs, List.map_cons, List.filterMap_cons] at ih ⊢; rw [ih]

theorem lastHead_eq {alloc : Nat → Bool} {h : Nat} {win : List (Option Chunk)} {ev : List WinEv} (st : WStep alloc 0 [] h win ev) :
    (headsOf ev).getLastD 0 = h := by
  rw [List.getLastD_eq_getLast?]
  by_cases h0 : 0 = h
  · subst h0
    have : headsOf ev = [] := by
      rw [List.eq_nil_iff_forall_not_mem]
      intro x hx
      have := st.headRange x hx
      omega
    rw [this]; rfl
  · rw [st.headLast h0]; rfl

theorem WIds.nil (alloc : Nat → Bool) (h : Nat) : WIds alloc h [] := fun i x h => by simp at h

/-- A chunk in the window is held by the library. -/
theorem held_of_win {cfg : ChunkConfig} {h : Nat} {win : List (Option Chunk)} {tr : List ChunkEv} (st : WStep cfg.alloc 0 [] h win (winEvs tr))
    {i : Nat} {c : Chunk} (hc : win[i]? = some (some c)) : Held cfg tr c := by
  have hids := st.ids (WIds.nil _ _)
  have hcid : c.chunkId = h + i := by
    rcases hids i _ hc with ⟨h, _⟩ | ⟨s, h, _⟩ <;> cases h
    rfl
  constructor
  · have : c ∈ readied (winEvs tr) ++ win.filterMap id := by
      rw [List.mem_append]
      right
      rw [List.mem_filterMap]
      exact ⟨some c, List.mem_of_getElem? hc, rfl⟩
    rw [st.flow] at this
    simpa using this
  · intro hr
    have := (st.readyRange (WIds.nil _ _) c hr).2
    omega

/-- Every event writes only to chunks held by the library at that time. -/
def AllHeld (cfg : ChunkConfig) : List ChunkEv → List ChunkEv → Prop
  | _, [] => True
  | pre, e :: l => (∀ c, target e = some c → Held cfg pre c ∧ InBounds cfg e) ∧ AllHeld cfg (pre ++ [e]) l

theorem AllHeld.append {cfg : ChunkConfig} : ∀ {pre a b : List ChunkEv}, AllHeld cfg pre a → AllHeld cfg (pre ++ a) b → AllHeld cfg pre (a ++ b)
  | pre, [], b, _, h => by simpa using h
  | pre, e :: a, b, ⟨h1, h2⟩, h => ⟨h1, AllHeld.append h2 (by simpa using h)⟩

theorem AllHeld.split {cfg : ChunkConfig} : ∀ {pre tr : List ChunkEv}, AllHeld cfg pre tr → ∀ {a : List ChunkEv} {e : ChunkEv} {b : List ChunkEv}, tr = a ++ e :: b →
    ∀ {c : Chunk}, target e = some c → Held cfg (pre ++ a) c ∧ InBounds cfg e
  | pre, [], _, a, e, b, he, c, _ => by simp at he
  | pre, x :: tr, ⟨h1, h2⟩, [], e, b, he, c, hc => by
    rw [List.nil_append, List.cons.injEq] at he
    obtain ⟨rfl, rfl⟩ := he
    simpa using h1 c hc
  | pre, x :: tr, ⟨h1, h2⟩, y :: a, e, b, he, c, hc => by
    rw [List.cons_append, List.cons.injEq] at he
    obtain ⟨rfl, he⟩ := he
    have := AllHeld.split h2 he hc
    simpa using this

theorem AllHeld.win {cfg : ChunkConfig} : ∀ (pre : List ChunkEv) (ev : List WinEv), AllHeld cfg pre (ev.map .win)
  | _, [] => trivial
  | pre, _ :: ev => ⟨fun _ h => (nomatch h), AllHeld.win _ ev⟩

/-- What is recorded for a heap placed at `pl`. -/
def HeapOk (cfg : ChunkConfig) (h : Nat) (win : List (Option Chunk)) (pl : Place) (m : HeapMeta) : Prop :=
  (m = ⟨-1, 0, 0, none⟩ ∧ ¬ (0 ≤ pl.chunkId ∧ h ≤ pl.chunkId.toNat ∧ cfg.alloc pl.chunkId.toNat = true)) ∨
  ∃ sid, m = ⟨pl.chunkId, pl.heapIndex, pl.heapOffset, some ⟨pl.chunkId.toNat, pl.chunkId.toNat, sid⟩⟩ ∧ 0 ≤ pl.chunkId ∧
    cfg.alloc pl.chunkId.toNat = true ∧ pl.chunkId.toNat < h + win.length ∧
    (h ≤ pl.chunkId.toNat → win[pl.chunkId.toNat - h]? = some (some ⟨pl.chunkId.toNat, pl.chunkId.toNat, sid⟩))

theorem HeapOk.step {cfg : ChunkConfig} {h h' : Nat} {win win' : List (Option Chunk)} {ev : List WinEv} (st : WStep cfg.alloc h win h' win' ev)
    {pl : Place} {m : HeapMeta} (ok : HeapOk cfg h win pl m) : HeapOk cfg h' win' pl m := by
  have h1 := st.headLe
  have h2 := st.tailLe
  rcases ok with ⟨rfl, hn⟩ | ⟨sid, rfl, a, b, c, d⟩
  · exact Or.inl ⟨rfl, fun ⟨x, y, z⟩ => hn ⟨x, by omega, z⟩⟩
  · refine Or.inr ⟨sid, rfl, a, b, by omega, fun hle => ?_⟩
    have := st.keep _ _ (d (by omega)) (by omega)
    rw [show h + (pl.chunkId.toNat - h) - h' = pl.chunkId.toNat - h' by omega] at this
    exact this

/-- The invariant. -/
structure CRel (cfg : ChunkConfig) (ops : List ChunkOp) (s : ChunkStream) (tr : List ChunkEv) (h : Nat) (win : List (Option Chunk)) : Prop where
  rel : WRel cfg.maxChunks s.window h win
  st : WStep cfg.alloc 0 [] h win (winEvs tr)
  lt : h + win.length < 2 ^ 64
  len : s.heaps.length = (placements ops).length
  heaps : ∀ (i : Nat) (pl : Place) (m : HeapMeta), (placements ops)[i]? = some pl → s.heaps[i]? = some m → HeapOk cfg h win pl m
  held : AllHeld cfg [] tr

theorem CRel.new {cfg : ChunkConfig} (hmax : 0 < cfg.maxChunks) : CRel cfg [] (ChunkStream.new cfg) [] 0 [] :=
  ⟨WRel.new hmax, WStep.refl _ _ _, by simp, rfl, fun i pl m h => by simp [placements] at h, trivial⟩

theorem placements_append (a b : List ChunkOp) : placements (a ++ b) = placements a ++ placements b := List.filterMap_append

/-- An operation that allocates nothing. -/
theorem CRel.nonalloc {cfg : ChunkConfig} {ops : List ChunkOp} {s : ChunkStream} {tr : List ChunkEv} {h : Nat} {win : List (Option Chunk)} (c : CRel cfg ops s tr h win)
    {op : ChunkOp} (hop : placements [op] = []) {w' : Window} {h' : Nat} {win' : List (Option Chunk)} {ev : List ChunkEv}
    (hr : WRel cfg.maxChunks w' h' win') (hs : WStep cfg.alloc h win h' win' (winEvs ev)) (hl : h' + win'.length < 2 ^ 64) (hh : AllHeld cfg tr ev) :
    CRel cfg (ops ++ [op]) { s with window := w' } (tr ++ ev) h' win' where
  rel := hr
  st := by rw [winEvs_append]; exact c.st.trans hs
  lt := hl
  len := by rw [placements_append, hop, List.append_nil]; exact c.len
  heaps := by
    rw [placements_append, hop, List.append_nil]
    exact fun i pl m h1 h2 => (c.heaps i pl m h1 h2).step hs
  held := c.held.append (by simpa using hh)

/-- An allocation. -/
theorem CRel.alloc {cfg : ChunkConfig} {ops : List ChunkOp} {s : ChunkStream} {tr : List ChunkEv} {h : Nat} {win : List (Option Chunk)} (c : CRel cfg ops s tr h win)
    {pl : Place} {w' : Window} {h' : Nat} {win' : List (Option Chunk)} {ev : List ChunkEv} {m : HeapMeta}
    (hr : WRel cfg.maxChunks w' h' win') (hs : WStep cfg.alloc h win h' win' (winEvs ev)) (hl : h' + win'.length < 2 ^ 64) (hh : AllHeld cfg tr ev)
    (hm : HeapOk cfg h' win' pl m) :
    CRel cfg (ops ++ [.allocate pl]) ⟨w', s.heaps ++ [m]⟩ (tr ++ ev) h' win' where
  rel := hr
  st := by rw [winEvs_append]; exact c.st.trans hs
  lt := hl
  len := by rw [placements_append, List.length_append, List.length_append, c.len]; rfl
  heaps := by
    rw [placements_append]
    intro i pl' m' h1 h2
    have hp : placements [ChunkOp.allocate pl] = [pl] := rfl
    rw [hp] at h1
    by_cases hlt : i < s.heaps.length
    · rw [List.getElem?_append_left hlt] at h2
      rw [List.getElem?_append_left (by rw [← c.len]; exact hlt)] at h1
      exact (c.heaps i pl' m' h1 h2).step hs
    · rw [List.getElem?_append_right (by omega)] at h2
      rw [List.getElem?_append_right (by rw [← c.len]; omega), ← c.len] at h1
      have hi : i - s.heaps.length = 0 := by
        by_cases he : i - s.heaps.length = 0
        · exact he
        · rw [List.getElem?_eq_none (by simp; omega)] at h1; cases h1
      rw [hi] at h1 h2
      simp only [List.getElem?_cons_zero, Option.some.injEq] at h1 h2
      subst h1 h2
      exact hm
  held := c.held.append (by simpa using hh)

theorem tooOld_iff {max : Nat} {w : Window} {h : Nat} {win : List (Option Chunk)} (r : WRel max w h win) (id : Int) :
    w.tooOld id = true ↔ ¬ (0 ≤ id ∧ h ≤ id.toNat) := by
  unfold Window.tooOld
  rw [r.head, Bool.or_eq_true, decide_eq_true_eq, decide_eq_true_eq]
  omega

theorem getElem?_some_of_lt {α : Type} {l : List α} {i n : Nat} (h : n = l.length) (hi : i < n) : ∃ x, l[i]? = some x :=
  ⟨_, List.getElem?_eq_getElem (by omega)⟩

theorem lt_of_getElem? {α : Type} {l : List α} {i : Nat} {x : α} (h : l[i]? = some x) : i < l.length := by
  by_cases hc : i < l.length
  · exact hc
  · rw [List.getElem?_eq_none (by omega)] at h; cases h

/-- `packet_memcpy`. -/
theorem copy_spec {cfg : ChunkConfig} {ops : List ChunkOp} {s : ChunkStream} {tr : List ChunkEv} {hd : Nat} {win : List (Option Chunk)} (c : CRel cfg ops s tr hd win)
    {h off : Nat} {data : Bytes} {pl : Place} (hpl : (placements ops)[h]? = some pl)
    (hb : pl.Supplied cfg → pl.heapOffset + off + data.length ≤ cfg.dataSize pl.chunkId.toNat)
    (hp : pl.Supplied cfg → cfg.presenceSize ≠ 0 → pl.heapIndex + off / cfg.presenceSize < cfg.presentSize pl.chunkId.toNat) :
    (¬ Storable cfg tr pl → s.copy cfg h off data = some (s, [])) ∧
    (Storable cfg tr pl → ∃ x, win[pl.chunkId.toNat - hd]? = some (some x) ∧ x.chunkId = pl.chunkId.toNat ∧ x.allocFor = x.chunkId ∧
      s.copy cfg h off data = some (s, .write x (pl.heapOffset + off) data ::
        if cfg.presenceSize = 0 then [] else [.present x (pl.heapIndex + off / cfg.presenceSize)])) := by
  have hlen := c.len
  obtain ⟨m, hm⟩ := getElem?_some_of_lt (i := h) hlen.symm (lt_of_getElem? hpl)
  have ok := c.heaps h pl m hpl hm
  have hhead : headAfter tr = hd := lastHead_eq c.st
  unfold Storable
  rw [hhead]
  unfold ChunkStream.copy
  rw [hm]
  simp only
  rcases ok with ⟨rfl, hn⟩ | ⟨sid, rfl, a, b, d, e⟩
  · refine ⟨fun _ => ?_, fun h => absurd h hn⟩
    rw [if_pos ((tooOld_iff c.rel _).2 (fun h => absurd h.1 (by decide)))]
  · constructor
    · intro hn
      rw [if_pos ((tooOld_iff c.rel _).2 (fun ⟨_, y⟩ => hn ⟨a, y, b⟩))]
    · intro ⟨_, hle, _⟩
      refine ⟨_, e hle, rfl, rfl, ?_⟩
      rw [if_neg (fun h => (tooOld_iff c.rel _).1 h ⟨a, hle⟩)]
      simp only
      rw [if_pos (hb ⟨a, b⟩)]
      unfold packetPresence
      by_cases hz : cfg.presenceSize = 0
      · rw [if_neg (by simpa using hz), if_pos hz]
      · rw [if_pos hz, if_neg hz]
        simp only
        rw [if_pos (hp ⟨a, b⟩ hz)]

/-- `do_heap_ready`. -/
theorem heapReady_spec {cfg : ChunkConfig} {ops : List ChunkOp} {s : ChunkStream} {tr : List ChunkEv} {hd : Nat} {win : List (Option Chunk)} (c : CRel cfg ops s tr hd win)
    {h : Nat} {pl : Place} (hpl : (placements ops)[h]? = some pl)
    (hb : pl.Supplied cfg → cfg.presenceSize = 0 → pl.heapIndex < cfg.presentSize pl.chunkId.toNat) :
    (s.heapReady cfg h false = some (s, [])) ∧
    (¬ Storable cfg tr pl → s.heapReady cfg h true = some (s, []) ∨ s.heapReady cfg h true = some (s, [.tooOld])) ∧
    (Storable cfg tr pl → ∃ x, win[pl.chunkId.toNat - hd]? = some (some x) ∧ x.chunkId = pl.chunkId.toNat ∧ x.allocFor = x.chunkId ∧
      s.heapReady cfg h true = some (s, if cfg.presenceSize = 0 then [.present x pl.heapIndex] else [])) ∧
    (∀ m, s.heaps[h]? = some m → (s.heapReady cfg h true = some (s, [.tooOld]) ↔ m.chunk ≠ none ∧ pl.chunkId.toNat < hd)) := by
  have hlen := c.len
  obtain ⟨m, hm⟩ := getElem?_some_of_lt (i := h) hlen.symm (lt_of_getElem? hpl)
  have ok := c.heaps h pl m hpl hm
  have hhead : headAfter tr = hd := lastHead_eq c.st
  unfold Storable
  rw [hhead, hm]
  unfold ChunkStream.heapReady
  simp only [if_true, hm, if_false, Bool.false_eq_true]
  rcases ok with ⟨rfl, hn⟩ | ⟨sid, rfl, a, b, d, e⟩
  · refine ⟨trivial, fun _ => Or.inl rfl, fun h => absurd h hn, ?_⟩
    intro m hm'
    cases hm'
    simp
  · refine ⟨trivial, ?_, ?_, ?_⟩
    · intro hn
      right
      simp only
      rw [if_pos ((tooOld_iff c.rel _).2 (fun ⟨_, y⟩ => hn ⟨a, y, b⟩))]
    · intro ⟨_, hle, _⟩
      refine ⟨_, e hle, rfl, rfl, ?_⟩
      simp only
      rw [if_neg (fun h => (tooOld_iff c.rel _).1 h ⟨a, hle⟩)]
      unfold heapPresence
      by_cases hz : cfg.presenceSize = 0
      · rw [if_pos hz, if_pos hz]
        simp only
        rw [if_pos (hb ⟨a, b⟩ hz)]
      · rw [if_neg hz, if_neg hz]
    · intro m hm'
      cases hm'
      simp only
      by_cases hle : hd ≤ pl.chunkId.toNat
      · rw [if_neg (fun h => (tooOld_iff c.rel _).1 h ⟨a, hle⟩)]
        unfold heapPresence
        by_cases hz : cfg.presenceSize = 0
        · rw [if_pos hz, if_pos (hb ⟨a, b⟩ hz)]
          simp; omega
        · rw [if_neg hz]
          simp; omega
      · rw [if_pos ((tooOld_iff c.rel _).2 (fun ⟨_, y⟩ => hle y))]
        simp; omega

/-- `allocate`. -/
theorem allocate_spec {cfg : ChunkConfig} (hmax : 0 < cfg.maxChunks) {ops : List ChunkOp} {s : ChunkStream} {tr : List ChunkEv} {hd : Nat} {win : List (Option Chunk)} (c : CRel cfg ops s tr hd win)
    {pl : Place} (hv : pl.chunkId < 2 ^ 63) (hx : pl.Supplied cfg → pl.extraOffset + pl.extra.length ≤ cfg.extraSize pl.chunkId.toNat) :
    ∃ s' ev h' win', s.allocate cfg pl = some (s', ev) ∧ CRel cfg (ops ++ [.allocate pl]) s' (tr ++ ev) h' win' ∧
      (pl.chunkId < 0 → ev = [.rejected] ∧ h' = hd ∧ win' = win) ∧
      (0 ≤ pl.chunkId → pl.chunkId.toNat < hd → ev = [.tooOld] ∧ h' = hd ∧ win' = win) ∧
      (0 ≤ pl.chunkId → hd ≤ pl.chunkId.toNat → ∃ wev c, s.window.getChunk cfg.alloc pl.chunkId.toNat cfg.streamId = some (s'.window, c, wev) ∧
        ev = wev.map .win ++ (match c with | none => [] | some x => if pl.extra = [] then [] else [.extra x pl.extraOffset pl.extra]) ∧
        (∀ x, c = some x → x.chunkId = pl.chunkId.toNat) ∧
        (cfg.alloc pl.chunkId.toNat = false → c = none) ∧ (cfg.alloc pl.chunkId.toNat = true → ∃ x, c = some x)) ∧
      (∀ m, s'.heaps[s.heaps.length]? = some m → (m.chunk ≠ none ↔ Storable cfg tr pl)) := by
  have hhead : headAfter tr = hd := lastHead_eq c.st
  unfold Storable
  rw [hhead]
  unfold ChunkStream.allocate
  by_cases hold : s.window.tooOld pl.chunkId = true
  · rw [if_pos hold]
    have hn := (tooOld_iff c.rel _).1 hold
    refine ⟨_, _, hd, win, rfl, ?_, ?_, ?_, ?_, ?_⟩
    · refine c.alloc c.rel ?_ c.lt ?_ (Or.inl ⟨rfl, fun ⟨x, y, _⟩ => hn ⟨x, y⟩⟩)
      · split <;> exact WStep.refl _ _ _
      · split <;> exact ⟨fun _ h => (nomatch h), trivial⟩
    · intro h; rw [if_neg (by omega)]; exact ⟨rfl, rfl, rfl⟩
    · intro h1 h2; rw [if_pos h1]; exact ⟨rfl, rfl, rfl⟩
    · intro h1 h2; exact absurd ⟨h1, h2⟩ hn
    · intro m hm
      simp at hm
      subst hm
      exact ⟨fun h => absurd rfl h, fun ⟨x, y, _⟩ => absurd ⟨x, y⟩ hn⟩
  · rw [if_neg hold]
    have hn : 0 ≤ pl.chunkId ∧ hd ≤ pl.chunkId.toNat := by
      by_cases hc : 0 ≤ pl.chunkId ∧ hd ≤ pl.chunkId.toNat
      · exact hc
      · exact absurd ((tooOld_iff c.rel _).2 hc) hold
    obtain ⟨w', ev, h', win', x, g1, g2, g3, g4, g5, g6⟩ := getChunk_rel hmax cfg.alloc c.rel pl.chunkId.toNat cfg.streamId (by omega)
    obtain ⟨k1, k2, k3, k4⟩ := g6 hn.2
    have hlt : pl.chunkId.toNat - h' < win'.length := by omega
    have hids := (c.st.trans g3).ids (WIds.nil _ _)
    have hlt64 : h' + win'.length < 2 ^ 64 := by have := c.lt; omega
    rw [g1]
    rcases hids _ _ (List.getElem?_eq_getElem hlt) with ⟨e, hal⟩ | ⟨sid, e, hal⟩
    · rw [show h' + (pl.chunkId.toNat - h') = pl.chunkId.toNat by omega] at hal
      have hx0 : x = none := by rw [k3, List.getElem?_eq_getElem hlt, e]; rfl
      subst hx0
      simp only
      refine ⟨_, _, h', win', rfl, ?_, fun h => by omega, fun h h' => by omega, fun _ _ => ⟨ev, none, rfl, by simp, (fun x h => by cases h), fun _ => rfl, fun h => by rw [hal] at h; cases h⟩, fun m hm => ?_⟩
      · refine c.alloc g2 (by rw [winEvs_win]; exact g3) hlt64 (AllHeld.win _ _) (Or.inl ⟨rfl, ?_⟩)
        rintro ⟨_, _, h⟩
        rw [hal] at h; cases h
      · simp at hm
        subst hm
        exact ⟨fun h => absurd rfl h, fun ⟨_, _, h⟩ => by rw [hal] at h; cases h⟩
    · rw [show h' + (pl.chunkId.toNat - h') = pl.chunkId.toNat by omega] at hal e
      have hx0 : x = some ⟨pl.chunkId.toNat, pl.chunkId.toNat, sid⟩ := by rw [k3, List.getElem?_eq_getElem hlt, e]; rfl
      subst hx0
      simp only
      have hwin : win'[pl.chunkId.toNat - h']? = some (some ⟨pl.chunkId.toNat, pl.chunkId.toNat, sid⟩) := by
        rw [List.getElem?_eq_getElem hlt, e]
      have hok : HeapOk cfg h' win' pl ⟨pl.chunkId, pl.heapIndex, pl.heapOffset, some ⟨pl.chunkId.toNat, pl.chunkId.toNat, sid⟩⟩ :=
        Or.inr ⟨sid, rfl, hn.1, hal, by omega, fun _ => hwin⟩
      unfold copyExtra
      by_cases hz : pl.extra = []
      · rw [if_neg (by rw [hz]; simp)]
        refine ⟨_, _, h', win', rfl, ?_, fun h => by omega, fun h h' => by omega, fun _ _ => ⟨ev, some _, rfl, by simp [hz], (fun x h => by cases h; rfl), (fun h => by rw [hal] at h; cases h), fun _ => ⟨_, rfl⟩⟩, fun m hm => ?_⟩
        · rw [List.append_nil]
          exact c.alloc g2 (by rw [winEvs_win]; exact g3) hlt64 (AllHeld.win _ _) hok
        · simp at hm
          subst hm
          exact ⟨fun _ => ⟨hn.1, hn.2, hal⟩, fun _ => by simp⟩
      · rw [if_pos (by rw [gt_iff_lt, List.length_pos_iff]; exact hz)]
        simp only
        rw [if_pos (hx ⟨hn.1, hal⟩)]
        refine ⟨_, _, h', win', rfl, ?_, fun h => by omega, fun h h' => by omega, fun _ _ => ⟨ev, some _, rfl, by simp [hz], (fun x h => by cases h; rfl), (fun h => by rw [hal] at h; cases h), fun _ => ⟨_, rfl⟩⟩, fun m hm => ?_⟩
        · refine c.alloc g2 ?_ hlt64 ((AllHeld.win _ _).append ⟨fun y hy => ?_, trivial⟩) hok
          · rw [winEvs_append, winEvs_win]
            have : winEvs [ChunkEv.extra ⟨pl.chunkId.toNat, pl.chunkId.toNat, sid⟩ pl.extraOffset pl.extra] = [] := rfl
            rw [this, List.append_nil]
            exact g3
          · cases hy
            refine ⟨held_of_win (h := h') ?_ hwin, hx ⟨hn.1, hal⟩⟩
            rw [winEvs_append, winEvs_win]
            exact c.st.trans g3
        · simp at hm
          subst hm
          exact ⟨fun _ => ⟨hn.1, hn.2, hal⟩, fun _ => by simp⟩

/-- Every valid callback keeps the invariant. -/
theorem chunkStep_spec {cfg : ChunkConfig} (hmax : 0 < cfg.maxChunks) {ops : List ChunkOp} {s : ChunkStream} {tr : List ChunkEv} {hd : Nat} {win : List (Option Chunk)} (c : CRel cfg ops s tr hd win)
    (op : ChunkOp) (hv : op.Valid cfg (placements ops)) :
    ∃ s' ev h' win', s.step cfg op = some (s', ev) ∧ CRel cfg (ops ++ [op]) s' (tr ++ ev) h' win' ∧ hd ≤ h' := by
  cases op with
  | allocate pl =>
    obtain ⟨s', ev, h', win', g1, g2, g3, g4, g5, -⟩ := allocate_spec hmax c hv.1 hv.2
    refine ⟨s', ev, h', win', g1, g2, ?_⟩
    by_cases h1 : pl.chunkId < 0
    · rw [(g3 h1).2.1]; exact Nat.le_refl _
    · by_cases h2 : pl.chunkId.toNat < hd
      · rw [(g4 (by omega) h2).2.1]; exact Nat.le_refl _
      · obtain ⟨wev, x, k1, -⟩ := g5 (by omega) (by omega)
        have hv1 : pl.chunkId < 2 ^ 63 := hv.1
        obtain ⟨w', ev', h'', win'', x', q1, q2, q3, -⟩ := getChunk_rel hmax cfg.alloc c.rel pl.chunkId.toNat cfg.streamId (by omega)
        rw [k1] at q1
        cases q1
        have := q2.head
        have := g2.rel.head
        have := q3.headLe
        omega
  | copy h off data =>
    obtain ⟨pl, hpl, hb, hp⟩ := hv
    obtain ⟨k1, k2⟩ := copy_spec c hpl hb hp
    by_cases hs : Storable cfg tr pl
    · obtain ⟨x, hx, hxi, hxa, hk⟩ := k2 hs
      refine ⟨s, _, hd, win, hk, ?_, Nat.le_refl _⟩
      have hheld := held_of_win c.st hx
      refine c.nonalloc (op := .copy h off data) rfl c.rel ?_ c.lt ?_
      · by_cases hz : cfg.presenceSize = 0
        · rw [if_pos hz]; exact WStep.refl _ _ _
        · rw [if_neg hz]; exact WStep.refl _ _ _
      · refine ⟨fun y hy => ?_, ?_⟩
        · cases hy; exact ⟨hheld, by simp only [InBounds]; rw [hxi]; exact hb ⟨hs.1, hs.2.2⟩⟩
        · by_cases hz : cfg.presenceSize = 0
          · rw [if_pos hz]; trivial
          · rw [if_neg hz]
            refine ⟨fun y hy => ?_, trivial⟩
            cases hy
            refine ⟨held_of_win (h := hd) (win := win) ?_ hx, by simp only [InBounds]; rw [hxi]; exact hp ⟨hs.1, hs.2.2⟩ hz⟩
            rw [winEvs_append]
            have : winEvs [ChunkEv.write x (pl.heapOffset + off) data] = [] := rfl
            rw [this, List.append_nil]
            exact c.st
    · refine ⟨s, _, hd, win, k1 hs, ?_, Nat.le_refl _⟩
      exact c.nonalloc (op := .copy h off data) (ev := []) rfl c.rel (WStep.refl _ _ _) c.lt trivial
  | heapReady h complete =>
    obtain ⟨pl, hpl, hb⟩ := hv
    obtain ⟨k1, k2, k3, k4⟩ := heapReady_spec c hpl hb
    cases complete with
    | false =>
      refine ⟨s, _, hd, win, k1, ?_, Nat.le_refl _⟩
      exact c.nonalloc (op := .heapReady h false) (ev := []) rfl c.rel (WStep.refl _ _ _) c.lt trivial
    | true =>
      by_cases hs : Storable cfg tr pl
      · obtain ⟨x, hx, hxi, hxa, hk⟩ := k3 hs
        refine ⟨s, _, hd, win, hk, ?_, Nat.le_refl _⟩
        refine c.nonalloc (op := .heapReady h true) rfl c.rel ?_ c.lt ?_
        · by_cases hz : cfg.presenceSize = 0
          · rw [if_pos hz]; exact WStep.refl _ _ _
          · rw [if_neg hz]; exact WStep.refl _ _ _
        · by_cases hz : cfg.presenceSize = 0
          · rw [if_pos hz]
            refine ⟨fun y hy => ?_, trivial⟩
            cases hy
            exact ⟨held_of_win c.st hx, by simp only [InBounds]; rw [hxi]; exact hb ⟨hs.1, hs.2.2⟩ hz⟩
          · rw [if_neg hz]; trivial
      · rcases k2 hs with hk | hk
        · refine ⟨s, _, hd, win, hk, ?_, Nat.le_refl _⟩
          exact c.nonalloc (op := .heapReady h true) (ev := []) rfl c.rel (WStep.refl _ _ _) c.lt trivial
        · refine ⟨s, _, hd, win, hk, ?_, Nat.le_refl _⟩
          exact c.nonalloc (op := .heapReady h true) (ev := [.tooOld]) rfl c.rel (WStep.refl _ _ _) c.lt ⟨fun _ h => (nomatch h), trivial⟩
  | flush =>
    obtain ⟨w', ev, g1, g2, g3, g4⟩ := flushAll_rel cfg.alloc c.rel (2 ^ 64 - 1) (by have := c.lt; omega)
    refine ⟨_, ev.map .win, _, [], ?_, c.nonalloc (op := .flush) rfl g2 (by rw [winEvs_win]; exact g3) (by simp) (AllHeld.win _ _), g3.headLe⟩
    show s.withWindow (s.window.flushAll (2 ^ 64 - 1)) = _
    rw [g1]; rfl
  | flushUntil t =>
    obtain ⟨w', ev, g1, g2, g3, g4, -⟩ := flushUntil_rel cfg.alloc c.rel t
    refine ⟨_, ev.map .win, _, _, ?_, c.nonalloc (op := .flushUntil t) rfl g2 (by rw [winEvs_win]; exact g3) ?_ (AllHeld.win _ _), g3.headLe⟩
    · show s.withWindow (s.window.flushUntil t) = _
      rw [g1]; rfl
    · have hv' : t < 2 ^ 64 := hv
      have := c.lt
      rw [List.length_drop]
      omega

theorem chunkRun_spec {cfg : ChunkConfig} (hmax : 0 < cfg.maxChunks) : ∀ (ops pre : List ChunkOp) {s : ChunkStream} {tr : List ChunkEv} {hd : Nat} {win : List (Option Chunk)}, CRel cfg pre s tr hd win →
    (∀ a op b, ops = a ++ op :: b → op.Valid cfg (placements (pre ++ a))) →
    ∃ s' ev h' win', ChunkStream.run cfg ops s = some (s', ev) ∧ CRel cfg (pre ++ ops) s' (tr ++ ev) h' win' ∧ hd ≤ h'
  | [], pre, s, tr, hd, win, c, _ => ⟨s, [], hd, win, rfl, by simpa using c, Nat.le_refl _⟩
  | op :: ops, pre, s, tr, hd, win, c, hv => by
    obtain ⟨s1, e1, h1, win1, a1, a2, a3⟩ := chunkStep_spec hmax c op (by simpa using hv [] op ops rfl)
    obtain ⟨s2, e2, h2, win2, b1, b2, b3⟩ := chunkRun_spec hmax ops (pre ++ [op]) a2 (fun a o b he => by
      have := hv (op :: a) o b (by rw [he]; rfl)
      simpa using this)
    refine ⟨s2, e1 ++ e2, h2, win2, ?_, by simpa using b2, by omega⟩
    unfold ChunkStream.run
    rw [a1]
    simp only
    rw [b1]

theorem chunkRun_new {cfg : ChunkConfig} (hmax : 0 < cfg.maxChunks) {ops : List ChunkOp} (hv : ValidOps cfg ops) :
    ∃ s tr hd win, ChunkStream.run cfg ops (ChunkStream.new cfg) = some (s, tr) ∧ CRel cfg ops s tr hd win := by
  obtain ⟨s, tr, hd, win, g1, g2, -⟩ := chunkRun_spec hmax ops [] (CRel.new hmax) (fun a op b he => by simpa using hv a op b he)
  exact ⟨s, tr, hd, win, g1, by simpa using g2⟩

theorem chunkRun_append (cfg : ChunkConfig) : ∀ (a b : List ChunkOp) (s : ChunkStream) {s' : ChunkStream} {tr : List ChunkEv}, ChunkStream.run cfg (a ++ b) s = some (s', tr) →
    ∃ s1 t1 t2, ChunkStream.run cfg a s = some (s1, t1) ∧ ChunkStream.run cfg b s1 = some (s', t2) ∧ tr = t1 ++ t2
  | [], b, s, s', tr, h => ⟨s, [], tr, rfl, h, rfl⟩
  | op :: a, b, s, s', tr, h => by
    rw [List.cons_append] at h
    unfold ChunkStream.run at h
    cases h1 : s.step cfg op with
    | none => rw [h1] at h; cases h
    | some r =>
      obtain ⟨s1, e1⟩ := r
      rw [h1] at h
      simp only at h
      cases h2 : ChunkStream.run cfg (a ++ b) s1 with
      | none => rw [h2] at h; cases h
      | some r2 =>
        obtain ⟨s2, e2⟩ := r2
        rw [h2] at h
        cases h
        obtain ⟨s3, t1, t2, q1, q2, q3⟩ := chunkRun_append cfg a b s1 h2
        refine ⟨s3, e1 ++ t1, t2, ?_, q2, by rw [q3, List.append_assoc]⟩
        unfold ChunkStream.run
        rw [h1]
        simp only
        rw [q1]

theorem step_heaps (cfg : ChunkConfig) {op : ChunkOp} {s s' : ChunkStream} {ev : List ChunkEv} (h : s.step cfg op = some (s', ev))
    {i : Nat} {m : HeapMeta} (hm : s.heaps[i]? = some m) : s'.heaps[i]? = some m := by
  have happ : ∀ x : HeapMeta, (s.heaps ++ [x])[i]? = some m := fun x => by
    rw [List.getElem?_append_left (lt_of_getElem? hm)]; exact hm
  cases op with
  | allocate pl =>
    have h : s.allocate cfg pl = some (s', ev) := h
    unfold ChunkStream.allocate at h
    split at h
    · cases h; exact happ _
    · split at h
      · cases h
      · cases h; exact happ _
      · split at h
        · cases h
        · cases h; exact happ _
  | copy hp off data =>
    have h : s.copy cfg hp off data = some (s', ev) := h
    unfold ChunkStream.copy at h
    split at h
    · cases h
    · split at h
      · cases h; exact hm
      · split at h
        · cases h
        · split at h
          · split at h
            · cases h
            · cases h; exact hm
          · cases h
  | heapReady hp complete =>
    have h : s.heapReady cfg hp complete = some (s', ev) := h
    unfold ChunkStream.heapReady at h
    split at h
    · split at h
      · cases h
      · split at h
        · cases h; exact hm
        · split at h
          · cases h; exact hm
          · split at h
            · cases h
            · cases h; exact hm
    · cases h; exact hm
  | flush =>
    have h : s.withWindow (s.window.flushAll (2 ^ 64 - 1)) = some (s', ev) := h
    unfold ChunkStream.withWindow at h
    split at h
    · cases h
    · cases h; exact hm
  | flushUntil t =>
    have h : s.withWindow (s.window.flushUntil t) = some (s', ev) := h
    unfold ChunkStream.withWindow at h
    split at h
    · cases h
    · cases h; exact hm

theorem run_heaps (cfg : ChunkConfig) : ∀ (ops : List ChunkOp) {s s' : ChunkStream} {ev : List ChunkEv}, ChunkStream.run cfg ops s = some (s', ev) →
    ∀ {i : Nat} {m : HeapMeta}, s.heaps[i]? = some m → s'.heaps[i]? = some m
  | [], s, s', ev, h, i, m, hm => by cases h; exact hm
  | op :: ops, s, s', ev, h, i, m, hm => by
    unfold ChunkStream.run at h
    cases h1 : s.step cfg op with
    | none => rw [h1] at h; cases h
    | some r =>
      obtain ⟨s1, e1⟩ := r
      rw [h1] at h
      simp only at h
      cases h2 : ChunkStream.run cfg ops s1 with
      | none => rw [h2] at h; cases h
      | some r2 =>
        obtain ⟨s2, e2⟩ := r2
        rw [h2] at h
        cases h
        exact run_heaps cfg ops h2 (step_heaps cfg h1 hm)

end Spead2
