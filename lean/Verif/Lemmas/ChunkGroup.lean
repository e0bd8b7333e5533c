import Verif.Spec.ChunkGroup
import Verif.Lemmas.ChunkStream

/-!
# Invariants of chunk stream groups
-/

namespace Spead2
open Spec

theorem groupEvs_append (a b : List GroupEv) : groupEvs (a ++ b) = groupEvs a ++ groupEvs b := List.filterMap_append

theorem groupEvs_win (ev : List WinEv) : groupEvs (ev.map .win) = ev := by
  induction ev with
  | nil => rfl
  | cons e ev ih => simp only [groupEvs, List.map_cons, List.filterMap_cons] at ih ⊢; rw [ih]

/-- A chunk in the window is held by the group. -/
theorem groupHeld_of_win {cfg : GroupConfig} {h : Nat} {win : List (Option Chunk)} {tr : List GroupEv} (st : WStep cfg.alloc 0 [] h win (groupEvs tr))
    {i : Nat} {c : Chunk} (hc : win[i]? = some (some c)) : GroupHeld cfg tr c := by
  have hids := st.ids (WIds.nil _ _)
  have hcid : c.chunkId = h + i := by
    rcases hids i _ hc with ⟨h, _⟩ | ⟨s, h, _⟩ <;> cases h
    rfl
  constructor
  · have : c ∈ readied (groupEvs tr) ++ win.filterMap id := by
      rw [List.mem_append]
      right
      rw [List.mem_filterMap]
      exact ⟨some c, List.mem_of_getElem? hc, rfl⟩
    rw [st.flow] at this
    simpa using this
  · intro hr
    have := (st.readyRange (WIds.nil _ _) c hr).2
    omega

/-- Every write of a member is to a chunk held by the group at that time. -/
def AllTouched (cfg : GroupConfig) : List GroupEv → List GroupEv → Prop
  | _, [] => True
  | pre, e :: l => (∀ i c, e = .touch i c → GroupHeld cfg pre c) ∧ AllTouched cfg (pre ++ [e]) l

theorem AllTouched.append {cfg : GroupConfig} : ∀ {pre a b : List GroupEv}, AllTouched cfg pre a → AllTouched cfg (pre ++ a) b → AllTouched cfg pre (a ++ b)
  | pre, [], b, _, h => by simpa using h
  | pre, e :: a, b, ⟨h1, h2⟩, h => ⟨h1, AllTouched.append h2 (by simpa using h)⟩

theorem AllTouched.split {cfg : GroupConfig} : ∀ {pre tr : List GroupEv}, AllTouched cfg pre tr → ∀ {a : List GroupEv} {i : Nat} {c : Chunk} {b : List GroupEv}, tr = a ++ .touch i c :: b →
    GroupHeld cfg (pre ++ a) c
  | pre, [], _, a, i, c, b, he => by simp at he
  | pre, x :: tr, ⟨h1, h2⟩, [], i, c, b, he => by
    rw [List.nil_append, List.cons.injEq] at he
    obtain ⟨rfl, rfl⟩ := he
    simpa using h1 i c rfl
  | pre, x :: tr, ⟨h1, h2⟩, y :: a, i, c, b, he => by
    rw [List.cons_append, List.cons.injEq] at he
    obtain ⟨rfl, he⟩ := he
    have := AllTouched.split h2 he
    simpa using this

theorem AllTouched.win {cfg : GroupConfig} : ∀ (pre : List GroupEv) (ev : List WinEv), AllTouched cfg pre (ev.map .win)
  | _, [] => trivial
  | pre, _ :: ev => ⟨fun _ _ h => (nomatch h), AllTouched.win _ ev⟩

theorem supplied_sorted {f : Nat → Bool} {ev : List WinEv} (h : (requested ev).Pairwise (· < ·)) : (supplied f ev).Pairwise (fun a b => a.chunkId < b.chunkId) := by
  have h1 : ((supplied f ev).map Chunk.allocFor).Pairwise (· < ·) := by
    rw [supplied_allocFor]; exact h.filter _
  rw [List.pairwise_map] at h1
  refine h1.imp_of_mem ?_
  intro a b ha hb hab
  rw [supplied_ids f ev a ha, supplied_ids f ev b hb]
  exact hab

theorem pairwise_inj {l : List Chunk} (h : l.Pairwise (fun a b => a.chunkId < b.chunkId)) {c d : Chunk} (hc : c ∈ l) (hd : d ∈ l) (he : c.chunkId = d.chunkId) : c = d := by
  induction l with
  | nil => cases hc
  | cons x l ih =>
    rw [List.pairwise_cons] at h
    rw [List.mem_cons] at hc hd
    rcases hc with rfl | hc
    · rcases hd with rfl | hd
      · rfl
      · have := h.1 d hd; omega
    · rcases hd with rfl | hd
      · have := h.1 c hc; omega
      · exact ih h.2 hc hd

/-- What holds of a member's thread. -/
def PcOk (pc : Pc) (mx hi len : Nat) : Prop :=
  match pc with
  | .idle => True
  | .loop id => id < 2 ^ 63
  | .alloc id => id < 2 ^ 63 ∧ hi + len ≤ id ∧ len < mx
  | .wait id => id < 2 ^ 63 ∧ hi + len ≤ id ∧ len < mx

/-- What holds of a member whose reported head is `ri`, given the group's window. -/
structure MOk (cfg : GroupConfig) (h : Nat) (win : List (Option Chunk)) (m : Member) (ri mx hi : Nat) (wini : List (Option Chunk)) : Prop where
  rel : WRel mx m.window hi wini
  pos : 0 < mx
  le : mx ≤ cfg.maxChunks
  rep : ri ≤ hi
  lt : hi + wini.length < 2 ^ 64
  agree : ∀ k x, wini[k]? = some x → win[hi + k - h]? = some x
  pc : PcOk m.pc mx hi wini.length
  pend : ∀ t ∈ m.pending, t < 2 ^ 64

/-- The invariant. -/
structure GroupInv (cfg : GroupConfig) (g : Group) (tr : List GroupEv) (h : Nat) (win : List (Option Chunk)) : Prop where
  rel : WRel cfg.maxChunks g.window h win
  st : WStep cfg.alloc 0 [] h win (groupEvs tr)
  lt : h + win.length < 2 ^ 64
  len : g.heads.length = g.members.length
  mem : ∀ (i : Nat) (m : Member) (ri : Nat), g.members[i]? = some m → g.heads[i]? = some ri → ∃ mx hi wini, MOk cfg h win m ri mx hi wini
  low : ∀ x ∈ g.heads, h ≤ x
  min : h ∈ g.heads ∨ g.heads = []
  held : AllTouched cfg [] tr

/-- The reported heads are the actual ones. -/
def Exact (g : Group) : Prop :=
  ∀ (i : Nat) (m : Member) (ri : Nat), g.members[i]? = some m → g.heads[i]? = some ri → ri = m.window.headChunk

/-- A member is not affected by the movement of the group's window. -/
theorem MOk.group {cfg : GroupConfig} {h h' : Nat} {win win' : List (Option Chunk)} {m : Member} {ri mx hi : Nat} {wini : List (Option Chunk)}
    (ok : MOk cfg h win m ri mx hi wini) {ev : List WinEv} (st : WStep cfg.alloc h win h' win' ev) (hl : h' ≤ ri) : MOk cfg h' win' m ri mx hi wini :=
  { ok with
    agree := fun k x hx => by
      have := st.headLe
      have hr := ok.rep
      have := st.keep _ _ (ok.agree k x hx) (by omega)
      rw [show h + (hi + k - h) - h' = hi + k - h' by omega] at this
      exact this }

theorem min?_spec {l : List Nat} {m : Nat} (h : l.min? = some m) : m ∈ l ∧ ∀ x ∈ l, m ≤ x := by
  rw [List.min?_eq_some_iff] at h
  exact h

theorem getElem?_set_cases {α : Type} {l : List α} {i j : Nat} {x y : α} (h : (l.set i x)[j]? = some y) :
    (j = i ∧ y = x ∧ i < l.length) ∨ (j ≠ i ∧ l[j]? = some y) := by
  by_cases he : j = i
  · subst he
    have hlt : j < l.length := by have := lt_of_getElem? h; simpa using this
    rw [List.getElem?_set_self hlt] at h
    cases h
    exact Or.inl ⟨rfl, rfl, hlt⟩
  · rw [List.getElem?_set_ne (Ne.symm he)] at h
    exact Or.inr ⟨he, h⟩

/-- `stream_head_updated`. -/
theorem group_headUpdated_spec {cfg : GroupConfig} {g : Group} {tr : List GroupEv} {h : Nat} {win : List (Option Chunk)} (inv : GroupInv cfg g tr h win)
    {i n ri mx hi : Nat} {m : Member} {wini : List (Option Chunk)} (hm : g.members[i]? = some m) (hr : g.heads[i]? = some ri)
    (ok : MOk cfg h win m ri mx hi wini) (hn : ri < n) (hle : n ≤ hi) :
    ∃ g' ev h' win', g.headUpdated i n = some (g', ev) ∧ GroupInv cfg g' (tr ++ ev) h' win' ∧ g'.members = g.members ∧ g'.heads = g.heads.set i n ∧
      g'.lastFlush = g.lastFlush ∧ h ≤ h' := by
  have hi_lt := lt_of_getElem? hr
  unfold Group.headUpdated
  rw [hr]
  simp only
  rw [if_pos hn]
  have hmem : ∀ (w : Window) (h' : Nat) (win' : List (Option Chunk)) (ev : List WinEv), WStep cfg.alloc h win h' win' ev → (∀ x ∈ g.heads.set i n, h' ≤ x) →
      ∀ (j : Nat) (mj : Member) (rj : Nat), g.members[j]? = some mj → (g.heads.set i n)[j]? = some rj → ∃ mx hi wini, MOk cfg h' win' mj rj mx hi wini := by
    intro w h' win' ev st hlow j mj rj h1 h2
    have hlj := hlow rj (List.mem_of_getElem? h2)
    rcases getElem?_set_cases h2 with ⟨rfl, rfl, _⟩ | ⟨hne, h2⟩
    · rw [hm] at h1; cases h1
      have ok' : MOk cfg h win m rj mx hi wini := { ok with rep := hle }
      exact ⟨mx, hi, wini, ok'.group st hlj⟩
    · obtain ⟨mx', hi', wini', ok'⟩ := inv.mem j mj rj h1 h2
      exact ⟨mx', hi', wini', ok'.group st hlj⟩
  by_cases hold : g.window.headChunk = ri
  · rw [if_pos hold]
    have hh : h = ri := by rw [← inv.rel.head, hold]
    cases hmin : (g.heads.set i n).min? with
    | none =>
      rw [List.min?_eq_none_iff] at hmin
      have : (g.heads.set i n).length = 0 := by rw [hmin]; rfl
      simp at this
      rw [this] at hi_lt
      simp at hi_lt
    | some mn =>
      simp only
      obtain ⟨k1, k2⟩ := min?_spec hmin
      have hmn : h ≤ mn := by
        rcases List.mem_or_eq_of_mem_set k1 with hx | hx
        · exact inv.low mn hx
        · omega
      have hmx : Max.max h mn = mn := by omega
      obtain ⟨w', ev, q1, q2, q3, q4, -⟩ := flushUntil_rel cfg.alloc inv.rel mn
      rw [hmx] at q2 q3
      rw [q1]
      have hlen : mn + (win.drop (mn - h)).length < 2 ^ 64 := by
        have hl := inv.lt
        have : mn < 2 ^ 64 := by
          obtain ⟨j, hj, hje⟩ := List.getElem_of_mem k1
          have hje' : (g.heads.set i n)[j]? = some mn := by rw [List.getElem?_eq_getElem hj, hje]
          rcases getElem?_set_cases hje' with ⟨_, rfl, _⟩ | ⟨_, hj2⟩
          · have := ok.lt; omega
          · have hjm : j < g.members.length := by have := inv.len; have := lt_of_getElem? hj2; omega
            obtain ⟨_, _, _, okj⟩ := inv.mem j _ mn (List.getElem?_eq_getElem hjm) hj2
            have := okj.lt; have := okj.rep; omega
        rw [List.length_drop]
        omega
      refine ⟨_, _, mn, win.drop (mn - h), rfl, ?_, rfl, rfl, rfl, hmn⟩
      exact ⟨q2, by rw [groupEvs_append, groupEvs_win]; exact inv.st.trans q3, hlen, by simpa using inv.len, hmem w' mn _ ev q3 k2, k2, Or.inl k1,
        inv.held.append (AllTouched.win _ _)⟩
  · rw [if_neg hold]
    have hh : h ≠ ri := by rw [← inv.rel.head]; exact hold
    have hlow : ∀ x ∈ g.heads.set i n, h ≤ x := by
      intro x hx
      rcases List.mem_or_eq_of_mem_set hx with hx | rfl
      · exact inv.low x hx
      · have := inv.low ri (List.mem_of_getElem? hr); omega
    refine ⟨_, [], h, win, rfl, ?_, rfl, rfl, rfl, Nat.le_refl _⟩
    rw [List.append_nil]
    refine ⟨inv.rel, inv.st, inv.lt, by simpa using inv.len, hmem g.window h win [] (WStep.refl _ _ _) hlow, hlow, ?_, inv.held⟩
    left
    rcases inv.min with hmin | hnil
    · obtain ⟨j, hj, hje⟩ := List.getElem_of_mem hmin
      have hne : i ≠ j := by
        rintro rfl
        rw [List.getElem?_eq_getElem hj, hje] at hr
        cases hr
        exact hh rfl
      refine List.mem_of_getElem? (i := j) ?_
      rw [List.getElem?_set_ne hne, List.getElem?_eq_getElem hj, hje]
    · rw [hnil] at hi_lt; simp at hi_lt

theorem list_set_self {α : Type} {l : List α} {i : Nat} {x : α} (h : l[i]? = some x) : l.set i x = l := by
  apply List.ext_getElem?
  intro j
  by_cases he : i = j
  · subst he
    rw [List.getElem?_set_self (lt_of_getElem? h), h]
  · rw [List.getElem?_set_ne he]

/-- The calls of `head_updated` made by an operation. -/
theorem group_report_spec {cfg : GroupConfig} {i mx hi : Nat} {m : Member} {wini : List (Option Chunk)} : ∀ (ev : List WinEv) {g : Group} {tr : List GroupEv} {h : Nat} {win : List (Option Chunk)} {ri : Nat},
    GroupInv cfg g tr h win → g.members[i]? = some m → g.heads[i]? = some ri → MOk cfg h win m ri mx hi wini →
    (headsOf ev).Pairwise (· < ·) → (∀ x ∈ headsOf ev, ri < x ∧ x ≤ hi) →
    ∃ g' ev' h' win', Group.report i ev g = some (g', ev') ∧ GroupInv cfg g' (tr ++ ev') h' win' ∧ g'.members = g.members ∧
      g'.heads = g.heads.set i ((headsOf ev).getLastD ri) ∧ g'.lastFlush = g.lastFlush ∧ h ≤ h' := by
  intro ev
  induction ev with
  | nil =>
    intro g tr h win ri inv hm hr ok hs hrange
    refine ⟨g, [], h, win, rfl, by simpa using inv, rfl, ?_, rfl, Nat.le_refl _⟩
    show g.heads = g.heads.set i ri
    rw [list_set_self hr]
  | cons e ev ih =>
    intro g tr h win ri inv hm hr ok hs hrange
    cases e with
    | ready c => exact ih inv hm hr ok hs hrange
    | alloc a s => exact ih inv hm hr ok hs hrange
    | head n =>
      have hcons : headsOf (WinEv.head n :: ev) = n :: headsOf ev := rfl
      rw [hcons] at hs hrange ⊢
      obtain ⟨h1, h2⟩ := hrange n (by simp)
      obtain ⟨g1, e1, h', win', q1, q2, q3, q4, q5, q6⟩ := group_headUpdated_spec inv hm hr ok h1 h2
      have hr1 : g1.heads[i]? = some n := by rw [q4, List.getElem?_set_self (lt_of_getElem? hr)]
      have hm1 : g1.members[i]? = some m := by rw [q3]; exact hm
      have ok1 : MOk cfg h' win' m n mx hi wini := by
        obtain ⟨mx', hi', wini', ok'⟩ := q2.mem i m n hm1 hr1
        have e1 := ok'.rel.len.symm.trans ok.rel.len
        have e2 : hi' = hi := ok'.rel.head.symm.trans ok.rel.head
        have e4 := ok'.rel.tail.symm.trans ok.rel.tail
        have e3 : wini' = wini := by
          have hlen : wini'.length = wini.length := by omega
          apply List.ext_getElem?
          intro k
          by_cases hk : k < wini.length
          · have hk2 := ok.rel.fits
            have a1 := ok'.rel.slots k (by omega)
            have a2 := ok.rel.slots k (by omega)
            rw [e1] at a1
            rw [a1] at a2
            simp only [Option.some.injEq] at a2
            rw [List.getElem?_eq_getElem (by omega), List.getElem?_eq_getElem hk] at a2 ⊢
            exact congrArg some a2
          · rw [List.getElem?_eq_none (by omega), List.getElem?_eq_none (by omega)]
        subst e1 e2 e3
        exact ok'
      rw [List.pairwise_cons] at hs
      obtain ⟨g2, e2, h2, win2, r1, r2, r3, r4, r5, r6⟩ := ih q2 hm1 hr1 ok1 hs.2 (fun x hx => ⟨hs.1 x hx, (hrange x (by simp [hx])).2⟩)
      refine ⟨g2, e1 ++ e2, h2, win2, ?_, by rw [← List.append_assoc]; exact r2, by rw [r3, q3], ?_, by rw [r5, q5], by omega⟩
      · unfold Group.report
        rw [q1]
        simp only
        rw [r1]
      · rw [r4, q4, List.set_set]
        congr 1
        cases hev : headsOf ev with
        | nil => rfl
        | cons a l => rfl

/-- An operation on a member's window that requests nothing. -/
theorem group_local_spec {cfg : GroupConfig} {g : Group} {tr : List GroupEv} {h : Nat} {win : List (Option Chunk)} (inv : GroupInv cfg g tr h win) (ex : Exact g)
    {i ri mx hi hi' : Nat} {m m' : Member} {wini wini' : List (Option Chunk)} (hm : g.members[i]? = some m) (hr : g.heads[i]? = some ri)
    (ok : MOk cfg h win m ri mx hi wini) {f : Nat → Bool} {w' : Window} {ev : List WinEv} (rel' : WRel mx w' hi' wini')
    (st : WStep f hi wini hi' wini' ev) (hq : requested ev = []) (hlt : hi' + wini'.length < 2 ^ 64)
    (hpc : PcOk m'.pc mx hi' wini'.length) (hpend : ∀ t ∈ m'.pending, t < 2 ^ 64) :
    ∃ g' ev' h' win', g.local i m' (some (w', ev)) = some (g', ev') ∧ GroupInv cfg g' (tr ++ ev') h' win' ∧ Exact g' ∧
      g'.members = g.members.set i { m' with window := w' } ∧ g'.heads = g.heads.set i hi' ∧ g'.lastFlush = g.lastFlush ∧ h ≤ h' := by
  have hri : ri = hi := by rw [ex i m ri hm hr, ok.rel.head]
  subst hri
  have hlow := inv.low ri (List.mem_of_getElem? hr)
  have ok1 : MOk cfg h win { m' with window := w' } ri mx hi' wini' :=
    ⟨rel', ok.pos, ok.le, st.headLe, hlt, fun k x hx => by
      have h1 := st.headLe
      have := ok.agree _ x (st.shrink hq k x hx)
      rw [show ri + (hi' + k - ri) - h = hi' + k - h by omega] at this
      exact this, hpc, hpend⟩
  have hmlt := lt_of_getElem? hm
  have inv1 : GroupInv cfg (g.setMember i { m' with window := w' }) tr h win :=
    { inv with
      len := by simpa [Group.setMember] using inv.len
      mem := by
        intro j mj rj h1 h2
        rcases getElem?_set_cases h1 with ⟨rfl, rfl, _⟩ | ⟨hne, h1⟩
        · have : rj = ri := by
            have h2' : g.heads[j]? = some rj := h2
            rw [hr] at h2'; cases h2'; rfl
          subst this
          exact ⟨_, _, _, ok1⟩
        · exact inv.mem j mj rj h1 h2 }
  have hm1 : (g.setMember i { m' with window := w' }).members[i]? = some { m' with window := w' } := by
    unfold Group.setMember
    rw [List.getElem?_set_self hmlt]
  obtain ⟨g', ev', h', win', q1, q2, q3, q4, q5, q6⟩ := group_report_spec ev inv1 hm1 hr ok1 st.headSorted st.headRange
  have hlast : (headsOf ev).getLastD ri = hi' := by
    rw [List.getLastD_eq_getLast?]
    by_cases he : ri = hi'
    · subst he
      have : headsOf ev = [] := by
        rw [List.eq_nil_iff_forall_not_mem]
        intro x hx
        have := st.headRange x hx
        omega
      rw [this]; rfl
    · rw [st.headLast he]; rfl
  rw [hlast] at q4
  refine ⟨g', ev', h', win', q1, q2, ?_, q3, q4, q5, q6⟩
  intro j mj rj h1 h2
  rw [q3] at h1
  rw [q4] at h2
  rcases getElem?_set_cases h1 with ⟨rfl, rfl, _⟩ | ⟨hne, h1⟩
  · rcases getElem?_set_cases h2 with ⟨_, rfl, _⟩ | ⟨hne, _⟩
    · exact rel'.head.symm
    · exact absurd rfl hne
  · rcases getElem?_set_cases h2 with ⟨rfl, _, _⟩ | ⟨_, h2⟩
    · exact absurd rfl hne
    · exact ex j mj rj h1 h2

theorem pushPtr_rel {max : Nat} {w : Window} {h : Nat} {win : List (Option Chunk)} (r : WRel max w h win) (hl : win.length < max) (c : Option Chunk) :
    ∃ w', w.pushPtr c = some w' ∧ WRel max w' h (win ++ [c]) := by
  obtain ⟨len, hp, head, tail, fits, tp, slots⟩ := r
  have htp : w.tailPos < w.chunks.length := by rw [tp, len]; unfold wrap; split <;> omega
  unfold Window.pushPtr
  rw [if_pos htp]
  refine ⟨_, rfl, ?_⟩
  refine ⟨by simpa using len, hp, head, by simp only [List.length_append, List.length_cons, List.length_nil]; omega, by simp; omega, ?_, ?_⟩
  · simp only [List.length_append, List.length_cons, List.length_nil]
    rw [tp, len]
    unfold wrap
    split <;> split <;> (try split) <;> omega
  · intro i hi
    simp only
    rw [tp]
    by_cases he : i = win.length
    · subst he
      rw [List.getElem?_set_self (by rw [len]; unfold wrap; split <;> omega), List.getElem?_append_right (Nat.le_refl _)]
      simp
    · have hne : wrap max (w.headPos + win.length) ≠ wrap max (w.headPos + i) := by unfold wrap; split <;> split <;> omega
      rw [List.getElem?_set_ne hne, slots i hi]
      by_cases hlt : i < win.length
      · rw [List.getElem?_append_left hlt]
      · rw [List.getElem?_eq_none (by omega), List.getElem?_eq_none (by simp; omega)]

theorem hasReady_false {ev : List WinEv} (h : readied ev = []) : hasReady ev = false := by
  induction ev with
  | nil => rfl
  | cons e ev ih =>
    cases e with
    | ready c => cases h
    | head n => exact ih h
    | alloc a s => exact ih h

/-- Changing only the thread and the requests of members. -/
theorem GroupInv.members {cfg : GroupConfig} {g : Group} {tr : List GroupEv} {h : Nat} {win : List (Option Chunk)} (inv : GroupInv cfg g tr h win) (ex : Exact g)
    {ms : List Member} {lf : Nat} (hl : ms.length = g.members.length)
    (hms : ∀ (j : Nat) (m' : Member), ms[j]? = some m' → ∃ m, g.members[j]? = some m ∧ m'.window = m.window ∧ (∀ t ∈ m'.pending, t < 2 ^ 64) ∧
      ∀ ri mx hi wini, MOk cfg h win m ri mx hi wini → PcOk m'.pc mx hi wini.length) :
    GroupInv cfg { g with members := ms, lastFlush := lf } tr h win ∧ Exact { g with members := ms, lastFlush := lf } := by
  constructor
  · refine { inv with len := by rw [hl]; exact inv.len, mem := ?_ }
    intro j m' rj h1 h2
    obtain ⟨m, k1, k2, k3, k4⟩ := hms j m' h1
    obtain ⟨mx, hi, wini, ok⟩ := inv.mem j m rj k1 h2
    exact ⟨mx, hi, wini, by rw [k2]; exact ok.rel, ok.pos, ok.le, ok.rep, ok.lt, ok.agree, k4 _ _ _ _ ok, k3⟩
  · intro j m' rj h1 h2
    obtain ⟨m, k1, k2, k3, k4⟩ := hms j m' h1
    rw [k2]
    exact ex j m rj k1 h2

/-- `get_chunk` once there is room. -/
theorem group_acquire_spec {cfg : GroupConfig} (hmax : 0 < cfg.maxChunks) {g : Group} {tr : List GroupEv} {h : Nat} {win : List (Option Chunk)} (inv : GroupInv cfg g tr h win) (ex : Exact g)
    {i ri mx hi : Nat} {m : Member} {wini : List (Option Chunk)} (hm : g.members[i]? = some m) (hr : g.heads[i]? = some ri)
    (ok : MOk cfg h win m ri mx hi wini) (hroom : hi + wini.length < h + cfg.maxChunks) {id : Nat} (hid : id < 2 ^ 63) (htail : hi + wini.length ≤ id) (hfull : wini.length < mx) :
    ∃ g' ev win' w', g.acquire cfg i m id = some (g', ev) ∧ GroupInv cfg g' (tr ++ ev) h win' ∧ Exact g' ∧ g'.heads = g.heads ∧ g'.lastFlush = g.lastFlush ∧
      g'.members = g.members.set i { m with window := w', pc := .loop id } ∧ w'.headChunk = hi ∧ w'.tailChunk = hi + wini.length + 1 ∧ g'.window.headChunk = h := by
  have hlow := inv.low ri (List.mem_of_getElem? hr)
  have hrep := ok.rep
  have hmlt := lt_of_getElem? hm
  unfold Group.acquire
  rw [ok.rel.tail]
  obtain ⟨gw, ev, h', win', c, g1, g2, g3, g4, g5, g6⟩ := getChunk_rel hmax cfg.alloc inv.rel (hi + wini.length) i (by omega)
  have hge : h ≤ hi + wini.length := by omega
  obtain ⟨k1, k2, k3, k4⟩ := g6 hge
  have hh' : h' = h := by rw [g5 hge]; omega
  subst hh'
  have hrd : readied ev = [] := by
    rw [List.eq_nil_iff_forall_not_mem]
    intro x hx
    have := g3.readyRange (inv.st.ids (WIds.nil _ _)) x hx
    omega
  obtain ⟨w', p1, p2⟩ := pushPtr_rel ok.rel hfull c
  rw [g1]
  simp only
  rw [hasReady_false hrd, if_neg (by simp), p1]
  have hagree : ∀ (k : Nat) (x : Option Chunk), (wini ++ [c])[k]? = some x → win'[hi + k - h']? = some x := by
    intro k x hx
    by_cases hk : k < wini.length
    · rw [List.getElem?_append_left hk] at hx
      have := g3.keep _ _ (ok.agree k x hx) (by omega)
      rw [show h' + (hi + k - h') - h' = hi + k - h' by omega] at this
      exact this
    · rw [List.getElem?_append_right (by omega)] at hx
      have hk0 : k = wini.length := by
        by_cases he : k = wini.length
        · exact he
        · rw [List.getElem?_eq_none (by simp; omega)] at hx; cases hx
      subst hk0
      simp only [Nat.sub_self, List.getElem?_cons_zero, Option.some.injEq] at hx
      subst hx
      have hlt : hi + wini.length - h' < win'.length := by omega
      rw [k3, List.getElem?_eq_getElem hlt]; rfl
  refine ⟨_, _, win', w', rfl, ?_, ?_, rfl, rfl, rfl, p2.head, ?_, g2.head⟩
  · refine ⟨g2, by rw [groupEvs_append, groupEvs_win]; exact inv.st.trans g3, by have := inv.lt; omega, by simpa using inv.len, ?_, inv.low, inv.min,
      inv.held.append (AllTouched.win _ _)⟩
    intro j mj rj h1 h2
    rcases getElem?_set_cases h1 with ⟨rfl, rfl, _⟩ | ⟨hne, h1⟩
    · have : rj = ri := by
        have h2' : g.heads[j]? = some rj := h2
        rw [hr] at h2'; cases h2'; rfl
      subst this
      exact ⟨mx, hi, _, p2, ok.pos, ok.le, ok.rep, by have := ok.lt; simp; omega, hagree, hid, ok.pend⟩
    · obtain ⟨mxj, hj, winj, okj⟩ := inv.mem j mj rj h1 h2
      exact ⟨mxj, hj, winj, okj.group g3 (inv.low rj (List.mem_of_getElem? h2))⟩
  · intro j mj rj h1 h2
    rcases getElem?_set_cases h1 with ⟨rfl, rfl, _⟩ | ⟨hne, h1⟩
    · rw [ex j m rj hm h2, p2.head, ok.rel.head]
    · exact ex j mj rj h1 h2
  · rw [p2.tail]; simp; omega

/-- What lossy mode adds: whoever waits has its request recorded, and a member that has not yet reached the recorded
target has a request that will take it there. -/
def LossyInv (cfg : GroupConfig) (g : Group) : Prop :=
  cfg.lossy = true →
    (∀ (i : Nat) (m : Member) (id : Nat), g.members[i]? = some m → m.pc = .wait id → flushTarget cfg m.window.tailChunk ≤ g.lastFlush) ∧
    (∀ (j : Nat) (m : Member), g.members[j]? = some m → g.lastFlush ≤ m.window.headChunk ∨ ∃ t ∈ m.pending, g.lastFlush ≤ t)

theorem LossyInv.set {cfg : GroupConfig} {g g' : Group} (l : LossyInv cfg g) {i : Nat} {m m' : Member} (hm : g.members[i]? = some m)
    (hs : g'.members = g.members.set i m') (hl : g'.lastFlush = g.lastFlush)
    (hw : cfg.lossy = true → ∀ id, m'.pc = .wait id → flushTarget cfg m'.window.tailChunk ≤ g.lastFlush)
    (hp : (g.lastFlush ≤ m.window.headChunk ∨ ∃ t ∈ m.pending, g.lastFlush ≤ t) → (g.lastFlush ≤ m'.window.headChunk ∨ ∃ t ∈ m'.pending, g.lastFlush ≤ t)) :
    LossyInv cfg g' := by
  intro hx
  obtain ⟨l1, l2⟩ := l hx
  constructor
  · intro j mj id h1 h2
    rw [hs] at h1
    rw [hl]
    rcases getElem?_set_cases h1 with ⟨rfl, rfl, _⟩ | ⟨_, h1⟩
    · exact hw hx id h2
    · exact l1 j mj id h1 h2
  · intro j mj h1
    rw [hs] at h1
    rw [hl]
    rcases getElem?_set_cases h1 with ⟨rfl, rfl, _⟩ | ⟨_, h1⟩
    · exact hp (l2 j m hm)
    · exact l2 j mj h1

/-- Work left in a member of a group of `n`: transitions in `get_chunk`, requests it may still post, and requests
posted to it. -/
def memWork (n : Nat) (m : Member) : Nat :=
  (match m.pc with
   | .idle => 0
   | .loop id => (n + 3) * (id + 1 - m.window.tailChunk) + 1
   | .alloc id => (n + 3) * (id + 1 - m.window.tailChunk)
   | .wait id => (n + 3) * (id + 1 - m.window.tailChunk) - (n + 1)) + m.pending.length

def work (g : Group) : Nat := (g.members.map (memWork g.members.length)).sum

theorem sum_set {f : Member → Nat} : ∀ {l : List Member} {i : Nat} {x y : Member}, l[i]? = some x → ((l.set i y).map f).sum + f x = (l.map f).sum + f y
  | [], i, x, y, h => by simp at h
  | a :: l, 0, x, y, h => by
    simp only [List.getElem?_cons_zero, Option.some.injEq] at h
    subst h
    simp only [List.set_cons_zero, List.map_cons, List.sum_cons]
    omega
  | a :: l, i + 1, x, y, h => by
    rw [List.getElem?_cons_succ] at h
    have := sum_set (f := f) (y := y) h
    simp only [List.set_cons_succ, List.map_cons, List.sum_cons]
    omega

theorem work_set {g g' : Group} {i : Nat} {m m' : Member} (hm : g.members[i]? = some m) (hs : g'.members = g.members.set i m')
    (h : memWork g.members.length m' < memWork g.members.length m) : work g' < work g := by
  have := sum_set (f := memWork g.members.length) (y := m') hm
  unfold work
  rw [hs, List.length_set]
  omega

theorem work_post {n t : Nat} : ∀ (l : List Member), ((l.map (fun m => { m with pending := m.pending ++ [t] })).map (memWork n)).sum = (l.map (memWork n)).sum + l.length
  | [] => rfl
  | m :: l => by
    have ih := work_post (n := n) (t := t) l
    simp only [List.map_cons, List.sum_cons, List.length_cons]
    rw [ih]
    have : memWork n { m with pending := m.pending ++ [t] } = memWork n m + 1 := by
      unfold memWork
      simp only [List.length_append, List.length_cons, List.length_nil]
      omega
    omega

/-- What a transition guarantees. -/
structure StepOk (cfg : GroupConfig) (g : Group) (tr : List GroupEv) (h : Nat) (g' : Group) (ev : List GroupEv) (h' : Nat) (win' : List (Option Chunk)) : Prop where
  inv : GroupInv cfg g' (tr ++ ev) h' win'
  ex : Exact g'
  linv : LossyInv cfg g → LossyInv cfg g'
  mono : h ≤ h'

theorem group_advance_spec {cfg : GroupConfig} (hmax : 0 < cfg.maxChunks) {g : Group} {tr : List GroupEv} {h : Nat} {win : List (Option Chunk)} (inv : GroupInv cfg g tr h win) (ex : Exact g)
    {i : Nat} {m : Member} (hm : g.members[i]? = some m) :
    ∃ g' ev h' win', g.advance cfg i m = some (g', ev) ∧ StepOk cfg g tr h g' ev h' win' ∧
      (g' = g ∧ ev = [] ∧ (m.pc = .idle ∨ ∃ id, m.pc = .wait id ∧ h < flushTarget cfg m.window.tailChunk) ∨ work g' < work g) := by
  have hmlt := lt_of_getElem? hm
  have hhl : i < g.heads.length := by rw [inv.len]; exact hmlt
  obtain ⟨ri, hr⟩ : ∃ ri, g.heads[i]? = some ri := ⟨_, List.getElem?_eq_getElem hhl⟩
  obtain ⟨mx, hi, wini, ok⟩ := inv.mem i m ri hm hr
  have hlow := inv.low ri (List.mem_of_getElem? hr)
  have hrep := ok.rep
  have htl := ok.rel.tail
  have hhd := ok.rel.head
  have hpc0 := ok.pc
  have hpos := ok.pos
  have hfits := ok.rel.fits
  unfold Group.advance
  cases hpc : m.pc with
  | idle => exact ⟨g, [], h, win, rfl, ⟨by simpa using inv, ex, id, Nat.le_refl _⟩, Or.inl ⟨rfl, rfl, Or.inl rfl⟩⟩
  | loop id =>
    rw [hpc] at hpc0
    simp only
    have only : ∀ (pc' : Pc), PcOk pc' mx hi wini.length → (∀ x, pc' ≠ .wait x) → memWork g.members.length { m with pc := pc' } < memWork g.members.length m →
        ∃ g' ev h' win', some (g.setMember i { m with pc := pc' }, ([] : List GroupEv)) = some (g', ev) ∧ StepOk cfg g tr h g' ev h' win' ∧
          (g' = g ∧ ev = [] ∧ (Pc.loop id = .idle ∨ ∃ id', Pc.loop id = .wait id' ∧ h < flushTarget cfg m.window.tailChunk) ∨ work g' < work g) := by
      intro pc' hpc' hw hwork
      obtain ⟨k1, k2⟩ := inv.members ex (ms := g.members.set i { m with pc := pc' }) (lf := g.lastFlush) (by simp) (by
        intro j mj hj
        rcases getElem?_set_cases hj with ⟨rfl, rfl, _⟩ | ⟨_, hj⟩
        · refine ⟨m, hm, rfl, ok.pend, fun rj mxj hj wj okj => ?_⟩
          have e1 := okj.rel.len.symm.trans ok.rel.len
          have e2 := okj.rel.head.symm.trans ok.rel.head
          have e3 := okj.rel.tail.symm.trans ok.rel.tail
          have e4 : wj.length = wini.length := by omega
          rw [e1, e2, e4]; exact hpc'
        · have hjl : j < g.heads.length := by rw [inv.len]; exact lt_of_getElem? hj
          obtain ⟨_, _, _, okj⟩ := inv.mem j mj _ hj (List.getElem?_eq_getElem hjl)
          exact ⟨mj, hj, rfl, okj.pend, fun _ _ _ _ o => o.pc⟩)
      refine ⟨_, _, h, win, rfl, ⟨by rw [List.append_nil]; exact k1, k2, fun l => ?_, Nat.le_refl _⟩, Or.inr (work_set hm rfl hwork)⟩
      exact l.set hm rfl rfl (fun _ x hx => absurd hx (hw x)) (fun a => a)
    by_cases hge : id ≥ m.window.tailChunk
    · rw [if_pos hge]
      have hwork : memWork g.members.length { m with pc := .alloc id } < memWork g.members.length m := by
        unfold memWork; rw [hpc]; simp only; omega
      by_cases hfull : m.window.tailChunk - m.window.headChunk = m.window.chunks.length
      · rw [if_pos hfull]
        rw [htl, hhd, ok.rel.len] at hfull
        cases wini with
        | nil => simp at hfull; omega
        | cons c wini =>
          obtain ⟨w', ev0, q1, q2, q3, hq⟩ := flushHead2_rel cfg.alloc ok.rel
          rw [q1]
          have hl := ok.lt
          simp only [List.length_cons] at hl hfull htl
          obtain ⟨g', ev', h', win', r1, r2, r3, r4, r5, r6, r7⟩ := group_local_spec inv ex (m' := { m with pc := .alloc id }) hm hr ok q2 q3 hq
            (by omega) (by have h0 : id < 2 ^ 63 := hpc0; exact ⟨h0, by omega, by omega⟩) ok.pend
          refine ⟨g', ev', h', win', r1, ⟨r2, r3, fun l => ?_, r7⟩, Or.inr (work_set hm r4 ?_)⟩
          · refine l.set hm r4 r6 (fun _ x hx => by cases hx) ?_
            rintro (a | ⟨t, a, b⟩)
            · left; simp only; rw [q2.head]; omega
            · exact Or.inr ⟨t, a, b⟩
          · have : w'.tailChunk = m.window.tailChunk := by rw [q2.tail, htl]; omega
            unfold memWork; rw [hpc]; simp only [this]; omega
      · rw [if_neg hfull]
        have h0 : id < 2 ^ 63 := hpc0
        rw [htl, hhd, ok.rel.len] at hfull
        exact only (.alloc id) ⟨h0, by omega, by omega⟩ (fun x hx => by cases hx) hwork
    · rw [if_neg hge]
      exact only .idle trivial (fun x hx => by cases hx) (by unfold memWork; rw [hpc]; simp only; omega)
  | alloc id =>
    rw [hpc] at hpc0
    obtain ⟨p1, p2, p3⟩ := hpc0
    have hle := ok.le
    simp only
    unfold Group.request
    rw [htl, inv.rel.head, if_pos (by omega)]
    by_cases hroom : hi + wini.length - h ≥ cfg.maxChunks
    · rw [if_pos hroom]
      have hmul : g.members.length + 3 ≤ (g.members.length + 3) * (id + 1 - m.window.tailChunk) := Nat.le_mul_of_pos_right _ (by omega)
      by_cases hreq : cfg.lossy = true ∧ flushTarget cfg (hi + wini.length) > g.lastFlush
      · rw [if_pos hreq]
        have hT : flushTarget cfg (hi + wini.length) < 2 ^ 64 := by unfold flushTarget; omega
        obtain ⟨k1, k2⟩ := inv.members ex (ms := (g.members.set i { m with pc := .wait id }).map (fun m => { m with pending := m.pending ++ [flushTarget cfg (hi + wini.length)] }))
          (lf := flushTarget cfg (hi + wini.length)) (by simp) (by
          intro j mj hj
          rw [List.getElem?_map, Option.map_eq_some_iff] at hj
          obtain ⟨mj', hj, rfl⟩ := hj
          rcases getElem?_set_cases hj with ⟨rfl, rfl, _⟩ | ⟨_, hj⟩
          · refine ⟨m, hm, rfl, ?_, fun rj mxj hj wj okj => ?_⟩
            · intro t ht
              simp only [List.mem_append, List.mem_singleton] at ht
              rcases ht with ht | rfl
              · exact ok.pend t ht
              · exact hT
            · have := okj.pc
              rw [hpc] at this
              exact this
          · have hjl : j < g.heads.length := by rw [inv.len]; exact lt_of_getElem? hj
            obtain ⟨_, _, _, okj⟩ := inv.mem j mj' _ hj (List.getElem?_eq_getElem hjl)
            refine ⟨mj', hj, rfl, ?_, fun _ _ _ _ o => o.pc⟩
            intro t ht
            simp only [List.mem_append, List.mem_singleton] at ht
            rcases ht with ht | rfl
            · exact okj.pend t ht
            · exact hT)
        refine ⟨_, _, h, win, rfl, ⟨by rw [List.append_nil]; exact k1, k2, fun l hx => ?_, Nat.le_refl _⟩, Or.inr ?_⟩
        · obtain ⟨l1, l2⟩ := l hx
          constructor
          · intro j mj idj h1 h2
            simp only [Group.post, Group.setMember, List.getElem?_map, Option.map_eq_some_iff] at h1
            obtain ⟨mj', h1, rfl⟩ := h1
            rcases getElem?_set_cases h1 with ⟨rfl, rfl, _⟩ | ⟨_, h1⟩
            · show flushTarget cfg m.window.tailChunk ≤ _
              rw [htl]; exact Nat.le_refl _
            · have := l1 j mj' idj h1 h2
              have h3 := hreq.2
              show flushTarget cfg mj'.window.tailChunk ≤ flushTarget cfg (hi + wini.length)
              omega
          · intro j mj h1
            simp only [Group.post, Group.setMember, List.getElem?_map, Option.map_eq_some_iff] at h1
            obtain ⟨mj', h1, rfl⟩ := h1
            exact Or.inr ⟨flushTarget cfg (hi + wini.length), by simp, Nat.le_refl _⟩
        · have hw : work { ((g.setMember i { m with pc := .wait id }).post (flushTarget cfg (hi + wini.length))) with lastFlush := flushTarget cfg (hi + wini.length) } =
              ((g.members.set i { m with pc := .wait id }).map (memWork g.members.length)).sum + g.members.length := by
            unfold work
            simp only [Group.post, Group.setMember, List.length_map, List.length_set]
            rw [work_post, List.length_set]
          rw [hw]
          have := sum_set (f := memWork g.members.length) (y := { m with pc := .wait id }) hm
          have hd : memWork g.members.length { m with pc := .wait id } + (g.members.length + 1) = memWork g.members.length m := by
            unfold memWork; rw [hpc]; simp only; omega
          unfold work
          omega
      · rw [if_neg hreq]
        obtain ⟨k1, k2⟩ := inv.members ex (ms := g.members.set i { m with pc := .wait id }) (lf := g.lastFlush) (by simp) (by
          intro j mj hj
          rcases getElem?_set_cases hj with ⟨rfl, rfl, _⟩ | ⟨_, hj⟩
          · refine ⟨m, hm, rfl, ok.pend, fun rj mxj hj wj okj => ?_⟩
            have := okj.pc
            rw [hpc] at this
            exact this
          · have hjl : j < g.heads.length := by rw [inv.len]; exact lt_of_getElem? hj
            obtain ⟨_, _, _, okj⟩ := inv.mem j mj _ hj (List.getElem?_eq_getElem hjl)
            exact ⟨mj, hj, rfl, okj.pend, fun _ _ _ _ o => o.pc⟩)
        refine ⟨_, _, h, win, rfl, ⟨by rw [List.append_nil]; exact k1, k2, fun l => ?_, Nat.le_refl _⟩, Or.inr (work_set hm rfl ?_)⟩
        · refine l.set hm rfl rfl (fun hx x _ => ?_) (fun a => a)
          show flushTarget cfg m.window.tailChunk ≤ _
          rw [htl]
          have : ¬ flushTarget cfg (hi + wini.length) > g.lastFlush := fun hy => hreq ⟨hx, hy⟩
          omega
        · unfold memWork; rw [hpc]; simp only; omega
    · rw [if_neg hroom]
      obtain ⟨g', ev, win', w', q1, q2, q3, q4, q5, q6, q7, q8, q9⟩ := group_acquire_spec hmax inv ex hm hr ok (by omega) p1 p2 p3
      refine ⟨g', ev, h, win', q1, ⟨q2, q3, fun l => l.set hm q6 q5 (fun _ x hx => by cases hx) ?_, Nat.le_refl _⟩, Or.inr (work_set hm q6 ?_)⟩
      · rintro (a | ⟨t, a, b⟩)
        · left; simp only; rw [q7, ← hhd]; exact a
        · exact Or.inr ⟨t, a, b⟩
      · unfold memWork; rw [hpc]; simp only
        rw [q8, htl, show id + 1 - (hi + wini.length) = id + 1 - (hi + wini.length + 1) + 1 by omega, Nat.mul_add]
        omega
  | wait id =>
    rw [hpc] at hpc0
    obtain ⟨p1, p2, p3⟩ := hpc0
    have hle := ok.le
    simp only
    rw [htl, inv.rel.head]
    by_cases hroom : h < flushTarget cfg (hi + wini.length)
    · rw [if_pos hroom]
      exact ⟨g, [], h, win, rfl, ⟨by simpa using inv, ex, fun l => l, Nat.le_refl _⟩, Or.inl ⟨rfl, rfl, Or.inr ⟨id, rfl, hroom⟩⟩⟩
    · rw [if_neg hroom]
      have hroom' : hi + wini.length < h + cfg.maxChunks := by unfold flushTarget at hroom; omega
      obtain ⟨g', ev, win', w', q1, q2, q3, q4, q5, q6, q7, q8, q9⟩ := group_acquire_spec hmax inv ex hm hr ok hroom' p1 p2 p3
      refine ⟨g', ev, h, win', q1, ⟨q2, q3, fun l => l.set hm q6 q5 (fun _ x hx => by cases hx) ?_, Nat.le_refl _⟩, Or.inr (work_set hm q6 ?_)⟩
      · rintro (a | ⟨t, a, b⟩)
        · left; simp only; rw [q7, ← hhd]; exact a
        · exact Or.inr ⟨t, a, b⟩
      · unfold memWork; rw [hpc]; simp only
        rw [q8, htl, show id + 1 - (hi + wini.length) = id + 1 - (hi + wini.length + 1) + 1 by omega, Nat.mul_add]
        omega

theorem group_step_spec {cfg : GroupConfig} (hmax : 0 < cfg.maxChunks) {g : Group} {tr : List GroupEv} {h : Nat} {win : List (Option Chunk)} (inv : GroupInv cfg g tr h win) (ex : Exact g)
    {op : GroupOp} (hv : op.Valid) :
    ∃ g' ev h' win', g.step cfg op = some (g', ev) ∧ StepOk cfg g tr h g' ev h' win' := by
  have stay : ∃ g' ev h' win', some (g, ([] : List GroupEv)) = some (g', ev) ∧ StepOk cfg g tr h g' ev h' win' :=
    ⟨g, [], h, win, rfl, by simpa using inv, ex, id, Nat.le_refl _⟩
  have hok : ∀ (i : Nat) (m : Member), g.members[i]? = some m → ∃ ri mx hi wini, g.heads[i]? = some ri ∧ MOk cfg h win m ri mx hi wini := by
    intro i m hm
    have hhl : i < g.heads.length := by rw [inv.len]; exact lt_of_getElem? hm
    obtain ⟨mx, hi, wini, ok⟩ := inv.mem i m _ hm (List.getElem?_eq_getElem hhl)
    exact ⟨_, mx, hi, wini, List.getElem?_eq_getElem hhl, ok⟩
  cases op with
  | get i id =>
    simp only [Group.step]
    cases hm : g.members[i]? with
    | none => exact stay
    | some m =>
      simp only
      by_cases hpc : m.pc = .idle
      · rw [if_pos hpc]
        obtain ⟨ri, mx, hi, wini, hr, ok⟩ := hok i m hm
        have hv : id < 2 ^ 63 := hv
        unfold Group.get
        rw [if_pos hv, ok.rel.head]
        by_cases hge : id ≥ hi
        · rw [if_pos hge]
          obtain ⟨w', ev, hi', wini', q1, q2, q3, q4, q5⟩ := jump_rel ok.pos cfg.alloc ok.rel id hge
          rw [q1]
          have hl := ok.lt
          have hpos := ok.pos
          obtain ⟨g', ev', h', win', r1, r2, r3, r4, r5, r6, r7⟩ := group_local_spec inv ex (m' := { m with pc := .loop id }) hm hr ok q2 q3 q4
            (by rcases q5 with ⟨_, rfl, rfl⟩ | ⟨_, rfl, rfl⟩
                · exact hl
                · simp; omega) hv ok.pend
          refine ⟨g', ev', h', win', r1, r2, r3, fun l => l.set hm r4 r6 (fun _ x hx => by cases hx) ?_, r7⟩
          rintro (a | ⟨t, a, b⟩)
          · left; simp only; have := q3.headLe; rw [q2.head]; rw [ok.rel.head] at a; omega
          · exact Or.inr ⟨t, a, b⟩
        · rw [if_neg hge]
          exact stay
      · rw [if_neg hpc]
        exact stay
  | advance i =>
    simp only [Group.step]
    cases hm : g.members[i]? with
    | none => exact stay
    | some m =>
      obtain ⟨g', ev, h', win', a, b, -⟩ := group_advance_spec hmax inv ex hm
      exact ⟨g', ev, h', win', a, b⟩
  | flush i =>
    simp only [Group.step]
    cases hm : g.members[i]? with
    | none => exact stay
    | some m =>
      simp only
      by_cases hpc : m.pc = .idle
      · rw [if_pos hpc]
        obtain ⟨ri, mx, hi, wini, hr, ok⟩ := hok i m hm
        unfold Group.runFlush
        cases hp : m.pending with
        | nil => exact stay
        | cons t rest =>
          simp only
          obtain ⟨w', ev, q1, q2, q3, q4, -⟩ := flushUntil_rel cfg.alloc ok.rel t
          rw [q1]
          have hl := ok.lt
          have ht := ok.pend t (by rw [hp]; simp)
          obtain ⟨g', ev', h', win', r1, r2, r3, r4, r5, r6, r7⟩ := group_local_spec inv ex (m' := { m with pending := rest }) hm hr ok q2 q3 q4
            (by rw [List.length_drop]; omega) (by rw [show ({ m with pending := rest } : Member).pc = .idle from hpc]; trivial)
            (fun x hx => ok.pend x (by rw [hp]; simp [show x ∈ rest from hx]))
          refine ⟨g', ev', h', win', r1, r2, r3, fun l => l.set hm r4 r6 (fun _ x hx => by rw [show ({ m with window := w', pending := rest } : Member).pc = .idle from hpc] at hx; cases hx) ?_, r7⟩
          rintro (a | ⟨x, a, b⟩)
          · left; simp only; rw [q2.head]; rw [ok.rel.head] at a; omega
          · rw [hp, List.mem_cons] at a
            rcases a with rfl | a
            · left; simp only; rw [q2.head]; omega
            · exact Or.inr ⟨x, a, b⟩
      · rw [if_neg hpc]
        exact stay
  | stop i =>
    simp only [Group.step]
    cases hm : g.members[i]? with
    | none => exact stay
    | some m =>
      simp only
      by_cases hpc : m.pc = .idle
      · rw [if_pos hpc]
        obtain ⟨ri, mx, hi, wini, hr, ok⟩ := hok i m hm
        have hl := ok.lt
        obtain ⟨w', ev, q1, q2, q3, q4⟩ := flushAll_rel cfg.alloc ok.rel (2 ^ 64 - 1) (by omega)
        rw [q1]
        obtain ⟨g', ev', h', win', r1, r2, r3, r4, r5, r6, r7⟩ := group_local_spec inv ex (m' := m) hm hr ok q2 q3 q4
          (by simp) (by rw [hpc]; trivial) ok.pend
        refine ⟨g', ev', h', win', r1, r2, r3, fun l => l.set hm r4 r6 (fun _ x hx => by rw [show ({ m with window := w' } : Member).pc = .idle from hpc] at hx; cases hx) ?_, r7⟩
        rintro (a | ⟨x, a, b⟩)
        · left; simp only; rw [q2.head]; rw [ok.rel.head] at a; omega
        · exact Or.inr ⟨x, a, b⟩
      · rw [if_neg hpc]
        exact stay
  | stopAll =>
    simp only [Group.step]
    obtain ⟨k1, k2⟩ := inv.members ex (ms := g.members.map (fun m => { m with pending := m.pending ++ [2 ^ 64 - 1] })) (lf := g.lastFlush) (by simp) (by
      intro j mj hj
      rw [List.getElem?_map, Option.map_eq_some_iff] at hj
      obtain ⟨mj', hj, rfl⟩ := hj
      obtain ⟨_, _, _, _, _, okj⟩ := hok j mj' hj
      refine ⟨mj', hj, rfl, ?_, fun _ _ _ _ o => o.pc⟩
      intro t ht
      simp only [List.mem_append, List.mem_singleton] at ht
      rcases ht with ht | rfl
      · exact okj.pend t ht
      · omega)
    refine ⟨_, _, h, win, rfl, by rw [List.append_nil]; exact k1, k2, fun l hx => ?_, Nat.le_refl _⟩
    obtain ⟨l1, l2⟩ := l hx
    constructor
    · intro j mj idj h1 h2
      simp only [Group.post, List.getElem?_map, Option.map_eq_some_iff] at h1
      obtain ⟨mj', h1, rfl⟩ := h1
      exact l1 j mj' idj h1 h2
    · intro j mj h1
      simp only [Group.post, List.getElem?_map, Option.map_eq_some_iff] at h1
      obtain ⟨mj', h1, rfl⟩ := h1
      rcases l2 j mj' h1 with a | ⟨t, a, b⟩
      · exact Or.inl a
      · exact Or.inr ⟨t, by simp [a], b⟩
  | touch i id =>
    simp only [Group.step]
    cases hm : g.members[i]? with
    | none => exact stay
    | some m =>
      simp only
      by_cases hpc : m.pc = .idle
      · rw [if_pos hpc]
        obtain ⟨ri, mx, hi, wini, hr, ok⟩ := hok i m hm
        have hg := get_rel ok.rel id
        unfold Group.touch
        cases hc : (if hi ≤ id then wini[id - hi]?.join else none) with
        | none => rw [hg, hc]; exact stay
        | some c =>
          rw [hg, hc]
          have hin : ∃ k : Nat, wini[k]? = some (some c) := by
            by_cases hle : hi ≤ id
            · rw [if_pos hle] at hc
              refine ⟨id - hi, ?_⟩
              cases hx : wini[id - hi]? with
              | none => rw [hx] at hc; cases hc
              | some x => rw [hx] at hc; exact congrArg some hc
            · rw [if_neg hle] at hc; cases hc
          obtain ⟨k, hk⟩ := hin
          have hheld := groupHeld_of_win inv.st (ok.agree k _ hk)
          refine ⟨g, _, h, win, rfl, ?_, ex, fun l => l, Nat.le_refl _⟩
          have hge : groupEvs (tr ++ [.touch i c]) = groupEvs tr := by rw [groupEvs_append]; exact List.append_nil _
          exact { inv with
            st := by rw [hge]; exact inv.st
            held := inv.held.append ⟨(fun _ _ he => by cases he; simpa using hheld), trivial⟩ }
      · rw [if_neg hpc]
        exact stay

theorem group_new_spec {cfg : GroupConfig} (hmax : 0 < cfg.maxChunks) {maxs : List Nat} (hm : ∀ m ∈ maxs, 0 < m ∧ m ≤ cfg.maxChunks) :
    ∃ g, Group.new cfg maxs = some g ∧ GroupInv cfg g [] 0 [] ∧ Exact g ∧ LossyInv cfg g ∧ g.members.length = maxs.length := by
  unfold Group.new
  rw [if_pos (by rw [List.all_eq_true]; intro x hx; exact decide_eq_true (hm x hx).2)]
  have hz : ∀ (l : List Nat), (0 : Nat) ∈ l.map (fun _ => 0) ∨ l.map (fun _ => 0) = [] := by
    intro l; cases l <;> simp
  refine ⟨_, rfl, ⟨WRel.new hmax, WStep.refl _ _ _, by simp, by simp, ?_, by simp, hz maxs, trivial⟩, ?_, ?_, by simp⟩
  · intro i m ri h1 h2
    simp only [List.getElem?_map, Option.map_eq_some_iff] at h1 h2
    obtain ⟨x, hx, rfl⟩ := h1
    obtain ⟨_, _, rfl⟩ := h2
    obtain ⟨p1, p2⟩ := hm x (List.mem_of_getElem? hx)
    exact ⟨x, 0, [], WRel.new p1, p1, p2, Nat.le_refl _, by simp, by simp, trivial, by simp⟩
  · intro i m ri h1 h2
    simp only [List.getElem?_map, Option.map_eq_some_iff] at h1 h2
    obtain ⟨x, hx, rfl⟩ := h1
    obtain ⟨_, _, rfl⟩ := h2
    rfl
  · intro _
    constructor
    · intro i m id h1 h2
      simp only [List.getElem?_map, Option.map_eq_some_iff] at h1
      obtain ⟨x, hx, rfl⟩ := h1
      cases h2
    · intro i m h1
      exact Or.inl (Nat.zero_le _)

theorem group_run_spec {cfg : GroupConfig} (hmax : 0 < cfg.maxChunks) : ∀ {ops : List GroupOp}, (∀ op ∈ ops, op.Valid) → ∀ {g : Group} {tr : List GroupEv} {h : Nat} {win : List (Option Chunk)},
    GroupInv cfg g tr h win → Exact g → LossyInv cfg g →
    ∃ g' ev h' win', Group.run cfg ops g = some (g', ev) ∧ GroupInv cfg g' (tr ++ ev) h' win' ∧ Exact g' ∧ LossyInv cfg g' ∧ h ≤ h' := by
  intro ops
  induction ops with
  | nil =>
    intro _ g tr h win inv ex l
    exact ⟨g, [], h, win, rfl, by simpa using inv, ex, l, Nat.le_refl _⟩
  | cons op ops ih =>
    intro hv g tr h win inv ex l
    obtain ⟨g1, e1, h1, win1, q1, q2⟩ := group_step_spec hmax inv ex (hv op (by simp))
    obtain ⟨g2, e2, h2, win2, r1, r2, r3, r4, r5⟩ := ih (fun o ho => hv o (by simp [ho])) q2.inv q2.ex (q2.linv l)
    refine ⟨g2, e1 ++ e2, h2, win2, ?_, by rw [← List.append_assoc]; exact r2, r3, r4, Nat.le_trans q2.mono r5⟩
    simp only [Group.run]
    rw [q1]
    simp only
    rw [r1]

theorem group_reach_spec {cfg : GroupConfig} (hmax : 0 < cfg.maxChunks) {maxs : List Nat} {ops : List GroupOp} {g : Group} {tr : List GroupEv} (hr : GroupReach cfg maxs ops g tr) :
    ∃ h win, GroupInv cfg g tr h win ∧ Exact g ∧ LossyInv cfg g := by
  obtain ⟨hm, hv, g0, h0, hrun⟩ := hr
  obtain ⟨g0', k1, k2, k3, k4, -⟩ := group_new_spec hmax hm
  rw [h0] at k1; cases k1
  obtain ⟨g', ev, h, win, r1, r2, r3, r4, -⟩ := group_run_spec hmax hv k2 k3 k4
  rw [hrun] at r1; cases r1
  exact ⟨h, win, by simpa using r2, r3, r4⟩

theorem group_run_append {cfg : GroupConfig} : ∀ {a b : List GroupOp} {g g1 g2 : Group} {e1 e2 : List GroupEv}, Group.run cfg a g = some (g1, e1) → Group.run cfg b g1 = some (g2, e2) →
    Group.run cfg (a ++ b) g = some (g2, e1 ++ e2)
  | [], b, g, g1, g2, e1, e2, h1, h2 => by cases h1; exact h2
  | op :: a, b, g, g1, g2, e1, e2, h1, h2 => by
    simp only [Group.run, List.cons_append] at h1 ⊢
    cases hs : g.step cfg op with
    | none => rw [hs] at h1; cases h1
    | some p =>
      obtain ⟨g', e'⟩ := p
      rw [hs] at h1
      simp only at h1 ⊢
      cases hr : Group.run cfg a g' with
      | none => rw [hr] at h1; cases h1
      | some p =>
        obtain ⟨g'', e''⟩ := p
        rw [hr] at h1
        cases h1
        rw [group_run_append hr h2]
        simp

theorem headUpdated_length {g g' : Group} {i n : Nat} {ev : List GroupEv} (h : g.headUpdated i n = some (g', ev)) : g'.members = g.members := by
  unfold Group.headUpdated at h
  cases hh : g.heads[i]? with
  | none => rw [hh] at h; cases h
  | some old =>
    rw [hh] at h
    simp only at h
    split at h
    · split at h
      · cases hm : (g.heads.set i n).min? with
        | none => rw [hm] at h; cases h
        | some mn =>
          rw [hm] at h
          simp only at h
          cases hf : g.window.flushUntil mn with
          | none => rw [hf] at h; cases h
          | some p => rw [hf] at h; cases h; rfl
      · cases h; rfl
    · cases h

theorem report_length {i : Nat} : ∀ {ev : List WinEv} {g g' : Group} {ev' : List GroupEv}, Group.report i ev g = some (g', ev') → g'.members = g.members
  | [], g, g', ev', h => by cases h; rfl
  | .ready c :: rest, g, g', ev', h => report_length (ev := rest) h
  | .alloc a s :: rest, g, g', ev', h => report_length (ev := rest) h
  | .head n :: rest, g, g', ev', h => by
    simp only [Group.report] at h
    cases hu : g.headUpdated i n with
    | none => rw [hu] at h; cases h
    | some p =>
      obtain ⟨g1, e1⟩ := p
      rw [hu] at h
      simp only at h
      cases hr : Group.report i rest g1 with
      | none => rw [hr] at h; cases h
      | some p =>
        rw [hr] at h
        cases h
        rw [report_length hr, headUpdated_length hu]

theorem local_length {g g' : Group} {i : Nat} {m : Member} {r : Option (Window × List WinEv)} {ev : List GroupEv} (h : g.local i m r = some (g', ev)) :
    g'.members.length = g.members.length := by
  unfold Group.local at h
  cases r with
  | none => cases h
  | some p =>
    simp only at h
    rw [report_length h]
    simp [Group.setMember]

theorem acquire_length {cfg : GroupConfig} {g g' : Group} {i id : Nat} {m : Member} {ev : List GroupEv} (h : g.acquire cfg i m id = some (g', ev)) :
    g'.members.length = g.members.length := by
  unfold Group.acquire at h
  split at h
  · cases h
  · split at h
    · cases h
    · split at h
      · cases h
      · cases h; simp

theorem group_step_length {cfg : GroupConfig} {g g' : Group} {op : GroupOp} {ev : List GroupEv} (h : g.step cfg op = some (g', ev)) : g'.members.length = g.members.length := by
  cases op with
  | get i id =>
    simp only [Group.step] at h
    cases hm : g.members[i]? with
    | none => rw [hm] at h; cases h; rfl
    | some m =>
      rw [hm] at h
      simp only at h
      split at h
      · unfold Group.get at h
        split at h
        · split at h
          · exact local_length h
          · cases h; rfl
        · cases h
      · cases h; rfl
  | advance i =>
    simp only [Group.step] at h
    cases hm : g.members[i]? with
    | none => rw [hm] at h; cases h; rfl
    | some m =>
      rw [hm] at h
      simp only at h
      unfold Group.advance at h
      split at h
      · cases h; rfl
      · split at h
        · split at h
          · exact local_length h
          · cases h; simp [Group.setMember]
        · cases h; simp [Group.setMember]
      · unfold Group.request at h
        split at h
        · split at h
          · split at h
            · cases h; simp [Group.setMember, Group.post]
            · cases h; simp [Group.setMember]
          · exact acquire_length h
        · cases h
      · split at h
        · cases h; rfl
        · exact acquire_length h
  | flush i =>
    simp only [Group.step] at h
    cases hm : g.members[i]? with
    | none => rw [hm] at h; cases h; rfl
    | some m =>
      rw [hm] at h
      simp only at h
      split at h
      · unfold Group.runFlush at h
        split at h
        · cases h; rfl
        · exact local_length h
      · cases h; rfl
  | stop i =>
    simp only [Group.step] at h
    cases hm : g.members[i]? with
    | none => rw [hm] at h; cases h; rfl
    | some m =>
      rw [hm] at h
      simp only at h
      split at h
      · exact local_length h
      · cases h; rfl
  | stopAll => cases h; simp [Group.post]
  | touch i id =>
    simp only [Group.step] at h
    cases hm : g.members[i]? with
    | none => rw [hm] at h; cases h; rfl
    | some m =>
      rw [hm] at h
      simp only at h
      split at h
      · unfold Group.touch at h
        split at h
        · cases h
        · cases h; rfl
        · cases h; rfl
      · cases h; rfl

theorem group_run_length {cfg : GroupConfig} : ∀ {ops : List GroupOp} {g g' : Group} {ev : List GroupEv}, Group.run cfg ops g = some (g', ev) → g'.members.length = g.members.length
  | [], g, g', ev, h => by cases h; rfl
  | op :: ops, g, g', ev, h => by
    simp only [Group.run] at h
    cases hs : g.step cfg op with
    | none => rw [hs] at h; cases h
    | some p =>
      obtain ⟨g1, e1⟩ := p
      rw [hs] at h
      simp only at h
      cases hr : Group.run cfg ops g1 with
      | none => rw [hr] at h; cases h
      | some p =>
        obtain ⟨g2, e2⟩ := p
        rw [hr] at h
        cases h
        rw [group_run_length hr, group_step_length hs]

/-- A transition without new packets changes nothing, or leaves less work. -/
theorem group_internal_work {cfg : GroupConfig} (hmax : 0 < cfg.maxChunks) {g : Group} {tr : List GroupEv} {h : Nat} {win : List (Option Chunk)} (inv : GroupInv cfg g tr h win) (ex : Exact g)
    {op : GroupOp} (hi : Internal op) {g' : Group} {ev : List GroupEv} (hs : g.step cfg op = some (g', ev)) : (g' = g ∧ ev = []) ∨ work g' < work g := by
  cases op with
  | advance i =>
    simp only [Group.step] at hs
    cases hm : g.members[i]? with
    | none => rw [hm] at hs; cases hs; exact Or.inl ⟨rfl, rfl⟩
    | some m =>
      rw [hm] at hs
      obtain ⟨g1, e1, _, _, a, -, c⟩ := group_advance_spec hmax inv ex hm
      simp only at hs
      rw [a] at hs
      cases hs
      rcases c with ⟨c1, c2, -⟩ | c
      · exact Or.inl ⟨c1, c2⟩
      · exact Or.inr c
  | flush i =>
    simp only [Group.step] at hs
    cases hm : g.members[i]? with
    | none => rw [hm] at hs; cases hs; exact Or.inl ⟨rfl, rfl⟩
    | some m =>
      rw [hm] at hs
      simp only at hs
      by_cases hpc : m.pc = .idle
      · rw [if_pos hpc] at hs
        have hhl : i < g.heads.length := by rw [inv.len]; exact lt_of_getElem? hm
        obtain ⟨mx, hi, wini, ok⟩ := inv.mem i m _ hm (List.getElem?_eq_getElem hhl)
        unfold Group.runFlush at hs
        cases hp : m.pending with
        | nil => rw [hp] at hs; cases hs; exact Or.inl ⟨rfl, rfl⟩
        | cons t rest =>
          rw [hp] at hs
          simp only at hs
          obtain ⟨w', ev, q1, q2, q3, q4, -⟩ := flushUntil_rel cfg.alloc ok.rel t
          have hl := ok.lt
          have ht := ok.pend t (by rw [hp]; simp)
          obtain ⟨g', ev', h', win', r1, r2, r3, r4, r5, r6, r7⟩ := group_local_spec inv ex (m' := { m with pending := rest }) hm (List.getElem?_eq_getElem hhl) ok q2 q3 q4
            (by rw [List.length_drop]; omega) (by rw [show ({ m with pending := rest } : Member).pc = .idle from hpc]; trivial)
            (fun x hx => ok.pend x (by rw [hp]; simp [show x ∈ rest from hx]))
          rw [q1, r1] at hs
          cases hs
          right
          refine work_set hm r4 ?_
          unfold memWork
          simp only [hpc, hp, List.length_cons]
          omega
      · rw [if_neg hpc] at hs
        cases hs; exact Or.inl ⟨rfl, rfl⟩
  | get i id => cases hi
  | stop i => cases hi
  | stopAll => cases hi
  | touch i id => cases hi

/-- If not everything is done, some member can make a transition. -/
theorem group_enabled {cfg : GroupConfig} (hmax : 0 < cfg.maxChunks) (hx : cfg.lossy = true) {g : Group} {tr : List GroupEv} {h : Nat} {win : List (Option Chunk)} (inv : GroupInv cfg g tr h win) (ex : Exact g)
    (l : LossyInv cfg g) : (∀ m ∈ g.members, m.pc = .idle ∧ m.pending = []) ∨
      ∃ (j : Nat) (m : Member), g.members[j]? = some m ∧ ((m.pc = .idle ∧ m.pending ≠ []) ∨ (m.pc ≠ .idle ∧ ∀ id, m.pc = .wait id → ¬ h < flushTarget cfg m.window.tailChunk)) := by
  by_cases hall : ∀ m ∈ g.members, m.pc = .idle ∧ m.pending = []
  · exact Or.inl hall
  right
  obtain ⟨l1, l2⟩ := l hx
  simp only [Classical.not_forall, not_and] at hall
  obtain ⟨m, hmem, hbad⟩ := hall
  obtain ⟨i, hi, hie⟩ := List.getElem_of_mem hmem
  have hm : g.members[i]? = some m := by rw [List.getElem?_eq_getElem hi, hie]
  by_cases hpc : m.pc = .idle
  · exact ⟨i, m, hm, Or.inl ⟨hpc, hbad hpc⟩⟩
  by_cases hw : ∀ id, m.pc = .wait id → ¬ h < flushTarget cfg m.window.tailChunk
  · exact ⟨i, m, hm, Or.inr ⟨hpc, hw⟩⟩
  simp only [Classical.not_forall, Classical.not_not] at hw
  obtain ⟨id, hwait, hlt⟩ := hw
  have hT := l1 i m id hm hwait
  have hh : h ∈ g.heads := by
    rcases inv.min with hmin | hnil
    · exact hmin
    · have := inv.len; rw [hnil] at this; simp at this; omega
  obtain ⟨j, hj, hje⟩ := List.getElem_of_mem hh
  have hjm : j < g.members.length := by rw [← inv.len]; exact hj
  have hmj := List.getElem?_eq_getElem hjm
  have hrj : g.heads[j]? = some h := by rw [List.getElem?_eq_getElem hj, hje]
  obtain ⟨mx, hd, wini, ok⟩ := inv.mem j _ h hmj hrj
  have hhd := ex j _ h hmj hrj
  refine ⟨j, _, hmj, ?_⟩
  by_cases hpcj : (g.members[j]).pc = .idle
  · left
    refine ⟨hpcj, fun hnil => ?_⟩
    rcases l2 j _ hmj with a | ⟨t, a, _⟩
    · omega
    · rw [hnil] at a; simp at a
  · right
    refine ⟨hpcj, fun id' hw' hlt' => ?_⟩
    have hpc' := ok.pc
    rw [hw'] at hpc'
    obtain ⟨_, _, p3⟩ := hpc'
    have := ok.le
    have e1 := ok.rel.tail
    have e2 := ok.rel.head
    unfold flushTarget at hlt'
    omega

/-- The internal transition that `group_enabled` promises is effective. -/
theorem group_enabled_step {cfg : GroupConfig} (hmax : 0 < cfg.maxChunks) {g : Group} {tr : List GroupEv} {h : Nat} {win : List (Option Chunk)} (inv : GroupInv cfg g tr h win) (ex : Exact g)
    {j : Nat} {m : Member} (hm : g.members[j]? = some m) (hen : (m.pc = .idle ∧ m.pending ≠ []) ∨ (m.pc ≠ .idle ∧ ∀ id, m.pc = .wait id → ¬ h < flushTarget cfg m.window.tailChunk)) :
    ∃ op g' ev, (op = .advance j ∨ op = .flush j) ∧ g.step cfg op = some (g', ev) ∧ work g' < work g := by
  rcases hen with ⟨h1, h2⟩ | ⟨h1, h2⟩
  · obtain ⟨g', ev, _, _, hs, -⟩ := group_step_spec hmax inv ex (op := .flush j) trivial
    refine ⟨.flush j, g', ev, Or.inr rfl, hs, ?_⟩
    rcases group_internal_work hmax inv ex (op := .flush j) trivial hs with ⟨rfl, rfl⟩ | hw
    · exfalso
      simp only [Group.step, hm, h1, if_true] at hs
      unfold Group.runFlush at hs
      cases hp : m.pending with
      | nil => exact h2 hp
      | cons t rest =>
        rw [hp] at hs
        simp only at hs
        have hhl : j < g'.heads.length := by rw [inv.len]; exact lt_of_getElem? hm
        obtain ⟨mx, hi, wini, ok⟩ := inv.mem j m _ hm (List.getElem?_eq_getElem hhl)
        obtain ⟨w', ev, q1, q2, q3, q4, -⟩ := flushUntil_rel cfg.alloc ok.rel t
        have hl := ok.lt
        have ht := ok.pend t (by rw [hp]; simp)
        obtain ⟨g1, ev', h', win', r1, r2, r3, r4, r5, r6, r7⟩ := group_local_spec inv ex (m' := { m with pending := rest }) hm (List.getElem?_eq_getElem hhl) ok q2 q3 q4
          (by rw [List.length_drop]; omega) (by rw [show ({ m with pending := rest } : Member).pc = .idle from h1]; trivial)
          (fun x hx => ok.pend x (by rw [hp]; simp [show x ∈ rest from hx]))
        rw [q1, r1] at hs
        simp only [Option.some.injEq, Prod.mk.injEq] at hs
        rw [hs.1] at r4
        have hm2 := congrArg (fun l : List Member => l[j]?) r4
        simp only [List.getElem?_set_self (lt_of_getElem? hm)] at hm2
        rw [hm] at hm2
        simp only [Option.some.injEq] at hm2
        have : m.pending = rest := congrArg Member.pending hm2
        rw [hp] at this
        have := congrArg List.length this
        simp at this
    · exact hw
  · obtain ⟨g', ev, _, _, hs, -, hw⟩ := group_advance_spec hmax inv ex hm
    refine ⟨.advance j, g', ev, Or.inl rfl, by simp only [Group.step, hm]; exact hs, ?_⟩
    rcases hw with ⟨_, _, a | ⟨id, a, b⟩⟩ | hw
    · exact absurd a h1
    · exact absurd b (h2 id a)
    · exact hw

theorem prefixOf_succ (sched : Nat → GroupOp) (n : Nat) : prefixOf sched (n + 1) = sched 0 :: prefixOf (fun k => sched (k + 1)) n := by
  unfold prefixOf
  rw [List.range_succ_eq_map, List.map_cons, List.map_map]
  rfl

theorem prefixOf_add (sched : Nat → GroupOp) (n k : Nat) : prefixOf sched (n + k) = prefixOf sched n ++ prefixOf (fun x => sched (n + x)) k := by
  unfold prefixOf
  rw [List.range_add, List.map_append, List.map_map]
  rfl

/-- The first effective transition of a schedule. -/
theorem group_first_effective {cfg : GroupConfig} (hmax : 0 < cfg.maxChunks) {g : Group} {tr : List GroupEv} {h : Nat} {win : List (Option Chunk)} (inv : GroupInv cfg g tr h win) (ex : Exact g) :
    ∀ (k : Nat) (sched : Nat → GroupOp), (∀ n, Internal (sched n)) → (∃ g' ev, g.step cfg (sched k) = some (g', ev) ∧ work g' < work g) →
    ∃ n g' ev, Group.run cfg (prefixOf sched n) g = some (g', ev) ∧ work g' < work g := by
  intro k
  induction k with
  | zero =>
    intro sched hint ⟨g', ev, hs, hw⟩
    refine ⟨1, g', ev ++ [], ?_, hw⟩
    rw [prefixOf_succ]
    simp only [Group.run]
    rw [hs]
    rfl
  | succ k ih =>
    intro sched hint heff
    have hvalid : ∀ op, Internal op → op.Valid := by intro op; cases op <;> simp [Internal, GroupOp.Valid]
    obtain ⟨g0, e0, _, _, hs, -⟩ := group_step_spec hmax inv ex (hvalid _ (hint 0))
    rcases group_internal_work hmax inv ex (hint 0) hs with ⟨rfl, rfl⟩ | hw
    · obtain ⟨n, g', ev, hr, hw⟩ := ih (fun x => sched (x + 1)) (fun n => hint _) heff
      refine ⟨n + 1, g', [] ++ ev, ?_, hw⟩
      rw [prefixOf_succ]
      simp only [Group.run]
      rw [hs]
      simp only
      rw [hr]
    · refine ⟨1, g0, e0 ++ [], ?_, hw⟩
      rw [prefixOf_succ]
      simp only [Group.run]
      rw [hs]
      rfl

theorem fair_progress {cfg : GroupConfig} (hmax : 0 < cfg.maxChunks) (hx : cfg.lossy = true) : ∀ (w : Nat) {g : Group} {tr : List GroupEv} {h : Nat} {win : List (Option Chunk)},
    GroupInv cfg g tr h win → Exact g → LossyInv cfg g → work g ≤ w → ∀ (sched : Nat → GroupOp), (∀ n, Internal (sched n)) → FairSchedule g.members.length sched →
    ∃ n g' ev, Group.run cfg (prefixOf sched n) g = some (g', ev) ∧ ∀ m ∈ g'.members, m.pc = .idle ∧ m.pending = [] := by
  intro w
  induction w with
  | zero =>
    intro g tr h win inv ex l hw sched hint hfair
    rcases group_enabled hmax hx inv ex l with hall | ⟨j, m, hm, hen⟩
    · exact ⟨0, g, [], rfl, hall⟩
    · obtain ⟨op, g', ev, -, -, hw'⟩ := group_enabled_step hmax inv ex hm hen
      omega
  | succ w ih =>
    intro g tr h win inv ex l hw sched hint hfair
    rcases group_enabled hmax hx inv ex l with hall | ⟨j, m, hm, hen⟩
    · exact ⟨0, g, [], rfl, hall⟩
    · obtain ⟨op, g', ev, hop, hs, hw'⟩ := group_enabled_step hmax inv ex hm hen
      have hk : ∃ k, sched k = op := by
        obtain ⟨⟨a, _, ha⟩, ⟨b, _, hb⟩⟩ := hfair j (lt_of_getElem? hm) 0
        rcases hop with rfl | rfl
        · exact ⟨a, ha⟩
        · exact ⟨b, hb⟩
      obtain ⟨k, hk⟩ := hk
      obtain ⟨n, g1, e1, hr, hw1⟩ := group_first_effective hmax inv ex k sched hint ⟨g', ev, by rw [hk]; exact hs, hw'⟩
      have hvalid : ∀ op, Internal op → op.Valid := by intro op; cases op <;> simp [Internal, GroupOp.Valid]
      obtain ⟨g1', e1', h1, win1, r1, r2, r3, r4, r5⟩ := group_run_spec hmax (ops := prefixOf sched n) (by
        intro o ho
        unfold prefixOf at ho
        rw [List.mem_map] at ho
        obtain ⟨x, _, rfl⟩ := ho
        exact hvalid _ (hint x)) inv ex l
      rw [hr] at r1; cases r1
      have r5' := group_run_length hr
      obtain ⟨n2, g2, e2, s1, s2⟩ := ih r2 r3 r4 (by omega) (fun x => sched (n + x)) (fun x => hint _) (by
        intro i hi x
        obtain ⟨⟨a, ha1, ha⟩, ⟨b, hb1, hb⟩⟩ := hfair i (by rw [← r5']; exact hi) (n + x)
        exact ⟨⟨a - n, by omega, by show sched (n + (a - n)) = _; rw [show n + (a - n) = a by omega]; exact ha⟩, ⟨b - n, by omega, by show sched (n + (b - n)) = _; rw [show n + (b - n) = b by omega]; exact hb⟩⟩)
      exact ⟨n + n2, g2, e1 ++ e2, by rw [prefixOf_add]; exact group_run_append hr s1, s2⟩

end Spead2
