import Verif.Lemmas.SendQueue

/-!
# Steps of the writer of a send stream preserve the invariant
-/

namespace Spead2
open Spec

variable {H π : Type}

/-! ## Histories -/

theorem accepted_append (a b : List (SqEv π)) : accepted (a ++ b) = accepted a ++ accepted b := List.filterMap_append
theorem fetched_append (a b : List (SqEv π)) : fetched (a ++ b) = fetched a ++ fetched b := List.filterMap_append
theorem outcomes_append (a b : List (SqEv π)) : outcomes (a ++ b) = outcomes a ++ outcomes b := List.filterMap_append
theorem completed_append (a b : List (SqEv π)) : completed (a ++ b) = completed a ++ completed b := List.filterMap_append
theorem refused_append (a b : List (SqEv π)) : refused (a ++ b) = refused a ++ refused b := List.filterMap_append
theorem rejected_append (a b : List (SqEv π)) : rejected (a ++ b) = rejected a ++ rejected b := List.filterMap_append
theorem returned_append (a b : List (SqEv π)) : returned (a ++ b) = returned a ++ returned b := List.filterMap_append
theorem answers_append (a b : List (SqEv π)) : answers (a ++ b) = answers a ++ answers b := List.filterMap_append

theorem isFlush_iff {f : Nat} {ev : SqEv π} : isFlush f ev = true ↔ ev = .flush f := by
  cases ev <;> simp [isFlush]

theorem takeWhile_stop {α : Type} {p : α → Bool} : ∀ {a : List α} (b : List α), (∃ x ∈ a, p x = false) → (a ++ b).takeWhile p = a.takeWhile p
  | [], b, h => by obtain ⟨x, hx, -⟩ := h; cases hx
  | y :: a, b, h => by
    rw [List.cons_append, List.takeWhile_cons, List.takeWhile_cons]
    cases hy : p y with
    | false => rfl
    | true =>
      obtain ⟨x, hx, hp⟩ := h
      rcases List.mem_cons.mp hx with rfl | hx
      · rw [hy] at hp; cases hp
      · simp only [if_true]
        rw [takeWhile_stop b ⟨x, hx, hp⟩]

theorem beforeFlush_append {a : List (SqEv π)} {f : Nat} (h : SqEv.flush f ∈ a) (b : List (SqEv π)) : beforeFlush (a ++ b) f = beforeFlush a f := by
  unfold beforeFlush
  rw [takeWhile_stop b ⟨_, h, by simp [isFlush]⟩]

theorem beforeFlush_none {a : List (SqEv π)} {f : Nat} (h : SqEv.flush f ∉ a) : beforeFlush a f = (accepted a).length := by
  unfold beforeFlush
  congr 2
  induction a with
  | nil => rfl
  | cons x a ih =>
    have hx : isFlush f x = false := by
      cases hc : isFlush f x with
      | false => rfl
      | true => exact absurd (by rw [isFlush_iff.mp hc]; exact List.mem_cons_self) h
    rw [List.takeWhile_cons, hx, ih (fun hm => h (List.mem_cons_of_mem _ hm))]
    rfl

theorem flushOk_nil : FlushOk ([] : List (SqEv π)) := by
  intro a f h
  have := List.IsPrefix.length_le h
  simp at this

theorem flushOk_snoc {tr : List (SqEv π)} (h : FlushOk tr) {ev : SqEv π} (hev : ∀ f, ev = .flushed f → SqEv.flush f ∈ tr ∧ (((accepted tr).take (beforeFlush tr f)).map (fun g => g.packets.length)).sum ≤ (outcomes tr).length) :
    FlushOk (tr ++ [ev]) := by
  intro a f hp
  rcases List.prefix_concat_iff.mp hp with h1 | h1
  · have := List.append_inj' h1 rfl
    obtain ⟨rfl, h2⟩ := this
    simp at h2
    exact hev f h2.symm
  · exact h a f h1

/-- An event other than the beginning and end of calls of `flush`. -/
def Plain (ev : SqEv π) : Prop := (∀ f, ev ≠ .flush f) ∧ ∀ f, ev ≠ .flushed f

theorem plain_returned {ev : SqEv π} (he : Plain ev) (tr : List (SqEv π)) : returned (tr ++ [ev]) = returned tr := by
  rw [returned_append]
  have : returned [ev] = [] := by
    cases ev with
    | flushed f => exact absurd rfl (he.2 f)
    | _ => rfl
  rw [this, List.append_nil]

/-- The parts of the invariant about `flush` hold after other events. -/
theorem SqInv.plain {env : SqEnv H π} {s : Sq H π} {tr : List (SqEv π)} {old gl : List (SGroup π)} {n : Nat} (inv : SqInv env s tr old gl n) {ev : SqEv π} (he : Plain ev) :
    (∀ (k : Nat) (g : SGroup π), gl[k]? = some g → ∀ f ∈ g.ws, SqEv.flush f ∈ tr ++ [ev] ∧ beforeFlush (tr ++ [ev]) f ≤ old.length + k + 1) ∧
    (∀ f ∈ s.waking, SqEv.flush f ∈ tr ++ [ev] ∧ beforeFlush (tr ++ [ev]) f ≤ old.length) ∧
    (∀ f, s.flushes ≤ f → SqEv.flush f ∉ tr ++ [ev]) ∧ FlushOk (tr ++ [ev]) ∧ (returned (tr ++ [ev]) ++ s.waking ++ gl.flatMap SGroup.ws).Perm (List.range s.flushes) := by
  refine ⟨?_, ?_, ?_, ?_, by rw [plain_returned he]; exact inv.flp⟩
  · intro k g hk f hf
    obtain ⟨h1, h2⟩ := inv.fls k g hk f hf
    exact ⟨List.mem_append_left _ h1, by rw [beforeFlush_append h1]; exact h2⟩
  · intro f hf
    obtain ⟨h1, h2⟩ := inv.wks f hf
    exact ⟨List.mem_append_left _ h1, by rw [beforeFlush_append h1]; exact h2⟩
  · intro f hf hm
    rcases List.mem_append.mp hm with h | h
    · exact inv.fln f hf h
    · exact he.1 f (List.mem_singleton.mp h).symm
  · exact flushOk_snoc inv.flo (fun f hf => absurd hf (he.2 f))

/-! ## Lists -/

theorem set_get {α : Type} {l : List α} {k j : Nat} {y x : α} (h : (l.set k y)[j]? = some x) : (j = k ∧ x = y ∧ k < l.length) ∨ (j ≠ k ∧ l[j]? = some x) := by
  by_cases hj : j = k
  · subst hj
    have hl : j < l.length := by
      have := (List.getElem?_eq_some_iff.mp h).1
      simpa using this
    rw [List.getElem?_set_self hl, Option.some.injEq] at h
    exact Or.inl ⟨rfl, h.symm, hl⟩
  · rw [List.getElem?_set_ne (fun h => hj h.symm)] at h
    exact Or.inr ⟨hj, h⟩

theorem map_set_same {α β : Type} {f : α → β} {l : List α} {k : Nat} {x y : α} (h : l[k]? = some x) (he : f y = f x) : (l.set k y).map f = l.map f := by
  rw [set_at h]
  conv => rhs; rw [split_at h]
  simp [he]

theorem flatMap_set_same {α β : Type} {f : α → List β} {l : List α} {k : Nat} {x y : α} (h : l[k]? = some x) (he : f y = f x) : (l.set k y).flatMap f = l.flatMap f := by
  rw [List.flatMap, List.flatMap, map_set_same h he]

theorem flatMap_set_last {β : Type} {f : SGroup π → List β} {gl : List (SGroup π)} {k : Nat} {g g' : SGroup π} {y : List β} (h : gl[k]? = some g) (hl : g'.len = g.len)
    (hn : ∀ (j : Nat) x, gl[j]? = some x → k < j → f x = []) (hf : f g' = f g ++ y) : (gl.set k g').flatMap f = gl.flatMap f ++ y := by
  have := walk_set_last (f := fun _ => f) (i := 0) h hl (fun j x hx hk _ => hn j x hx hk) hf
  rwa [walk_const, walk_const] at this

theorem outOf_nil {g : SGroup π} (h : g.got ≤ g.results.length) (i : Nat) : outOf i g = [] := by
  unfold outOf
  rw [List.drop_eq_nil_of_le (by unfold gotOf; rw [List.length_take]; omega)]
  rfl

theorem gotOf_length {g : SGroup π} (h : g.got ≤ g.P.length) : (gotOf g).length = g.got := by
  unfold gotOf
  rw [List.length_take, markLast_length]
  omega

/-! ## `get_packet` -/

theorem get_step {env : SqEnv H π} (hv : Spec.SqEnv.Valid env) {s : Sq H π} {tr : List (SqEv π)} {old gl : List (SGroup π)} {n : Nat} (inv : SqInv env s tr old gl n) (hw : s.wk ≠ .need) :
    ∃ s' ev gl' n', s.get env = some (s', ev) ∧ SqInv env s' (tr ++ ev) old gl' n' ∧ s'.head = s.head ∧ s'.whead = s.whead := by
  obtain ⟨hm, hsz, -⟩ := queueMask_spec hv.mask
  let s1 : Sq H π := if s.active = s.wtail then { s with wtail := s.tail } else s
  have h1 : SqInv env s1 tr old gl n ∧ s1.head = s.head ∧ s1.whead = s.whead ∧ s1.wk = s.wk := by
    show SqInv env (if s.active = s.wtail then { s with wtail := s.tail } else s) tr old gl n ∧ (if s.active = s.wtail then { s with wtail := s.tail } else s).head = s.head ∧ (if s.active = s.wtail then { s with wtail := s.tail } else s).whead = s.whead ∧ (if s.active = s.wtail then { s with wtail := s.tail } else s).wk = s.wk
    split
    · refine ⟨{ inv with wt := ⟨gl.length, inv.nle, Nat.le_refl _, ?_, fun h => inv.idle h.symm⟩ }, rfl, rfl, rfl⟩
      rw [List.take_length]
      exact inv.tail
    · exact ⟨inv, rfl, rfl, rfl⟩
  have hget : s.get env = if s1.active = s1.wtail then some (s1, []) else
      match s1.slots (s1.active &&& env.mask) with
      | none => none
      | some cur =>
        match cur.pkts with
        | [] => none
        | p :: rest => s1.advance env (s1.slots.set (s1.active &&& env.mask) (some { cur with pkts := rest })) cur p := rfl
  rw [hget]
  clear hget
  generalize s1 = s1 at h1
  obtain ⟨i1, e1, e2, e3⟩ := h1
  rw [← e3] at hw
  by_cases ha : s1.active = s1.wtail
  · rw [if_pos ha]
    exact ⟨s1, [], gl, n, rfl, by rw [List.append_nil]; exact i1, e1, e2⟩
  · rw [if_neg ha]
    obtain ⟨m, hm1, hm2, hm3, hm4⟩ := i1.wt
    have hmn : n < m := by
      rcases Nat.eq_or_lt_of_le hm1 with h | h
      · exfalso
        apply ha
        rw [hm4 h.symm, i1.start, hm3, h]
      · exact h
    have hnl : n < gl.length := by omega
    have hgn : gl[n]? = some gl[n] := List.getElem?_eq_getElem hnl
    generalize gl[n] = g at hgn
    obtain ⟨hgot, hact⟩ := i1.cur g hgn
    have hgat := i1.grp n g hgn
    rw [← i1.start] at hgat
    have hb := i1.group_bound hgn
    rw [← i1.start] at hb
    have hst : s1.whead ≤ s1.start := by rw [i1.start]; omega
    have hbnd := i1.bnd
    obtain ⟨cur, p, rest, hcur, hpk, hP, sl', pos', hadv, hgat', hframe⟩ := group_get hgat
      (fun j k hj hk he => by
        have := i1.inj hv (i := s1.start + j) (j := s1.start + k) (by omega) (by omega) (by omega) (by omega) he
        omega) (by omega) hgot hact rfl
    rw [show s1.slots (s1.active &&& env.mask) = some cur from hcur]
    simp only
    rw [hpk]
    simp only
    rw [hadv]
    have hset := i1.set_groups hv hgn (g' := { g with got := g.got + 1, pos := pos' }) rfl (sl := sl') (by rw [← i1.start]; exact hgat') (by rw [← i1.start]; exact hframe)
    obtain ⟨hgrp, hvac⟩ := hset
    obtain ⟨f1, f2, f3, f4, f5⟩ := i1.plain (ev := .packet p cur.substream (decide (g.got + 1 = g.P.length))) ⟨fun f => by simp, fun f => by simp⟩
    have hsucc := gotOf_succ hP pos'
    obtain ⟨g', hg'⟩ : ∃ g', g' = { g with got := g.got + 1, pos := pos' } := ⟨_, rfl⟩
    have klen : g'.len = g.len := by rw [hg']
    have kacc : g'.acc = g.acc := by rw [hg']
    have kres : g'.results = g.results := by rw [hg']
    have kgot : g'.got = g.got + 1 := by rw [hg']
    have kpos : g'.pos = pos' := by rw [hg']
    have kws : g'.ws = g.ws := by rw [hg']
    have kP : g'.P = g.P := by rw [hg']
    rw [← hg'] at hgrp hsucc
    refine ⟨_, _, gl.set n g', (if g.got + 1 = g.P.length then n + 1 else n), rfl, ?_, e1, e2⟩
    refine ⟨⟨?_, ?_, ?_, ?_, i1.oldk, hgrp, ?_, ?_, ?_, ?_, ?_, ?_, ?_, ?_, ?_, ?_, ?_, ?_, ?_, ?_, ?_, hvac, i1.bnd, i1.snd, i1.unw, fun h => absurd h hw, ?_, f2, f3, f4⟩, by rw [flatMap_set_same hgn kws]; exact f5⟩
    · rw [accepted_append, i1.acc, List.map_append, List.map_append, map_set_same hgn kacc]
      exact List.append_nil _
    · rw [fetched_append, i1.fet, List.flatMap_append, List.flatMap_append, flatMap_set_last hgn klen ?_ hsucc, List.append_assoc]
      · rfl
      · intro j x hx hj
        unfold gotOf
        rw [(i1.after j x hx hj).1]
        rfl
    · rw [outcomes_append, i1.outc, List.flatMap_append, List.flatMap_append, flatMap_set_same hgn kres]
      exact List.append_nil _
    · rw [completed_append]
      show (completed tr ++ []) ++ s1.calling = _
      rw [List.append_nil]
      exact i1.comp
    · rw [heapTotal_set_all hgn klen]; exact i1.tail
    · show (if g.got + 1 = g.P.length then s1.start + g.len else s1.start) = s1.whead + heapTotal ((gl.set n _).take (if g.got + 1 = g.P.length then n + 1 else n))
      rw [heapTotal_set hgn klen]
      split
      · rw [heapTotal_take_succ hgn, i1.start]; omega
      · exact i1.start
    · rw [List.length_set]; split <;> omega
    · intro k x hx hk
      rcases set_get hx with ⟨rfl, rfl, -⟩ | ⟨hne, hx⟩
      · rw [kgot, kP]
        split at hk
        · assumption
        · omega
      · exact i1.before k x hx (by split at hk <;> omega)
    · intro x hx
      show x.got < x.P.length ∧ (if g.got + 1 = g.P.length then s1.start + g.len else s1.start + pos') = (if g.got + 1 = g.P.length then s1.start + g.len else s1.start) + x.pos
      by_cases hl : g.got + 1 = g.P.length
      · rw [if_pos hl] at hx
        rw [if_pos hl, if_pos hl]
        rcases set_get hx with ⟨h, -⟩ | ⟨hne, hx⟩
        · omega
        · obtain ⟨h1, h2⟩ := i1.after _ x hx (by omega)
          exact ⟨by rw [h1]; exact i1.nonempty _ x hx, by rw [h2]; rfl⟩
      · rw [if_neg hl] at hx
        rw [if_neg hl, if_neg hl]
        rcases set_get hx with ⟨-, rfl, -⟩ | ⟨hne, -⟩
        · rw [kgot, kP, kpos]
          exact ⟨by omega, rfl⟩
        · exact absurd rfl hne
    · intro k x hx hk
      rcases set_get hx with ⟨rfl, -⟩ | ⟨hne, hx⟩
      · split at hk <;> omega
      · exact i1.after k x hx (by split at hk <;> omega)
    · intro hn
      rw [List.length_set] at hn
      show (if g.got + 1 = g.P.length then s1.start + g.len else s1.start + pos') = (if g.got + 1 = g.P.length then s1.start + g.len else s1.start)
      split at hn
      · rename_i hl; rw [if_pos hl, if_pos hl]
      · omega
    · rw [List.length_set]; exact i1.finle
    · intro k x hx hk
      rcases set_get hx with ⟨rfl, rfl, -⟩ | ⟨hne, hx⟩
      · rw [kres, kP]; exact i1.resa k g hgn hk
      · exact i1.resa k x hx hk
    · intro x hx
      rcases set_get hx with ⟨h, rfl, -⟩ | ⟨hne, hx⟩
      · rw [kres, kP]; exact i1.resb g (by rw [show s1.fin = n from h]; exact hgn)
      · exact i1.resb x hx
    · intro k x hx hk
      rcases set_get hx with ⟨rfl, rfl, -⟩ | ⟨hne, hx⟩
      · rw [kres]; exact i1.resc k g hgn hk
      · exact i1.resc k x hx hk
    · intro k x hx
      rcases set_get hx with ⟨rfl, rfl, -⟩ | ⟨hne, hx⟩
      · rw [kres, kgot]; exact Nat.le_succ_of_le (i1.resl k g hgn)
      · exact i1.resl k x hx
    · intro k x hx
      rcases set_get hx with ⟨rfl, rfl, -⟩ | ⟨hne, hx⟩
      · rw [kP]; exact i1.nonempty k g hgn
      · exact i1.nonempty k x hx
    · show s1.out ++ _ = _
      rw [i1.out]
      symm
      apply walk_set_last hgn klen
      · intro j x hx hj i
        exact outOf_nil (by rw [(i1.after j x hx hj).1]; omega) i
      · rw [← i1.start]
        unfold outOf
        rw [hsucc, kres, List.drop_append_of_le_length (by rw [gotOf_length (by omega)]; exact i1.resl n g hgn), List.map_append]
        rfl
    · refine ⟨m, by split <;> omega, by rw [List.length_set]; exact hm2, by rw [heapTotal_set hgn klen]; exact hm3, ?_⟩
      intro h
      show (if g.got + 1 = g.P.length then s1.start + g.len else s1.start + pos') = (if g.got + 1 = g.P.length then s1.start + g.len else s1.start)
      split at h
      · rename_i hl; rw [if_pos hl, if_pos hl]
      · omega
    · intro k x hx f hf
      rcases set_get hx with ⟨rfl, rfl, -⟩ | ⟨hne, hx⟩
      · rw [kws] at hf; exact f1 k g hgn f hf
      · exact f1 k x hx f hf

/-! ## The transport is done with a packet -/

theorem SqInv.fin_le {env : SqEnv H π} {s : Sq H π} {tr : List (SqEv π)} {old gl : List (SGroup π)} {n : Nat} (inv : SqInv env s tr old gl n) : s.fin ≤ n := by
  rcases Nat.lt_or_ge n s.fin with h | h
  · exfalso
    have hn : n < gl.length := by have := inv.finle; omega
    have hg : gl[n]? = some gl[n] := List.getElem?_eq_getElem hn
    have h1 := inv.resa n _ hg h
    have h2 := (inv.cur _ hg).1
    have h3 := inv.resl n _ hg
    omega
  · exact h

theorem SqInv.got_le {env : SqEnv H π} {s : Sq H π} {tr : List (SqEv π)} {old gl : List (SGroup π)} {n : Nat} (inv : SqInv env s tr old gl n) {k : Nat} {g : SGroup π} (h : gl[k]? = some g) : g.got ≤ g.P.length := by
  rcases Nat.lt_trichotomy k n with hk | hk | hk
  · rw [inv.before k g h hk]; exact Nat.le_refl _
  · subst hk
    exact Nat.le_of_lt (inv.cur g h).1
  · rw [(inv.after k g h hk).1]; exact Nat.zero_le _

theorem sentBytes_snoc {bytes : π → Nat} : ∀ {ps : List (π × Nat)} {rs : List (Option Nat)} {p : π × Nat} (r : Option Nat), ps[rs.length]? = some p → sentBytes bytes ps (rs ++ [r]) = sentBytes bytes ps rs + r.getD (bytes p.1)
  | [], rs, p, r, h => by simp at h
  | (q, k) :: ps, [], p, r, h => by
    simp at h; subst h
    simp [sentBytes]
  | (q, k) :: ps, x :: rs, p, r, h => by
    have := sentBytes_snoc (bytes := bytes) (ps := ps) (rs := rs) (p := p) r (by simpa using h)
    show x.getD (bytes q) + sentBytes bytes ps (rs ++ [r]) = x.getD (bytes q) + sentBytes bytes ps rs + _
    rw [this, Nat.add_assoc]

theorem sent_step {env : SqEnv H π} (hv : Spec.SqEnv.Valid env) {s : Sq H π} {tr : List (SqEv π)} {old gl : List (SGroup π)} {n : Nat} (inv : SqInv env s tr old gl n) (hw : s.wk ≠ .need) (r : Option Nat) :
    ∃ s' ev gl' n', s.sent env r = some (s', ev) ∧ SqInv env s' (tr ++ ev) old gl' n' ∧ s'.head = s.head ∧ s'.whead = s.whead := by
  unfold Sq.sent
  cases hout : s.out with
  | nil => exact ⟨s, [], gl, n, rfl, by rw [List.append_nil]; exact inv, rfl, rfl⟩
  | cons o out =>
    have hwalk := inv.out
    rw [hout] at hwalk
    have hfin := inv.fin_le
    have hpre : ∀ (j : Nat) x, gl[j]? = some x → j < s.fin → ∀ i, outOf i x = [] := by
      intro j x hx hj i
      apply outOf_nil
      rw [inv.resa j x hx hj]
      exact inv.got_le hx
    have hlt : s.fin < gl.length := by
      rcases Nat.lt_or_ge s.fin gl.length with h | h
      · exact h
      · exfalso
        have : walk outOf s.whead gl = [] := by
          apply walk_nil
          intro x hx i
          obtain ⟨j, hj⟩ := List.mem_iff_getElem?.mp hx
          have := (List.getElem?_eq_some_iff.mp hj).1
          exact hpre j x hj (by omega) i
        rw [this] at hwalk
        cases hwalk
    have hgn : gl[s.fin]? = some gl[s.fin] := List.getElem?_eq_getElem hlt
    generalize gl[s.fin] = g at hgn
    have hrl := inv.resl _ g hgn
    have hrP := inv.resb g hgn
    have hrg : g.results.length < g.got := by
      rcases Nat.eq_or_lt_of_le hrl with h | h
      · exfalso
        have hn : s.fin = n := by
          rcases Nat.eq_or_lt_of_le hfin with h' | h'
          · exact h'
          · have := inv.before _ g hgn h'; omega
        have : walk outOf s.whead gl = [] := by
          apply walk_nil
          intro x hx i
          obtain ⟨j, hj⟩ := List.mem_iff_getElem?.mp hx
          rcases Nat.lt_trichotomy j s.fin with h' | h' | h'
          · exact hpre j x hj h' i
          · subst h'
            rw [hgn, Option.some.injEq] at hj
            subst hj
            exact outOf_nil (by omega) i
          · exact outOf_nil (by rw [(inv.after j x hj (by omega)).1]; omega) i
        rw [this] at hwalk
        cases hwalk
      · exact h
    have hPn : g.P[g.results.length]? = some g.P[g.results.length] := List.getElem?_eq_getElem hrP
    generalize g.P[g.results.length] = p at hPn
    obtain ⟨g', hg'⟩ : ∃ g', g' = { g with results := g.results ++ [r] } := ⟨_, rfl⟩
    have klen : g'.len = g.len := by rw [hg']
    have kacc : g'.acc = g.acc := by rw [hg']
    have kres : g'.results = g.results ++ [r] := by rw [hg']
    have kgot : g'.got = g.got := by rw [hg']
    have kpos : g'.pos = g.pos := by rw [hg']
    have kws : g'.ws = g.ws := by rw [hg']
    have kP : g'.P = g.P := by rw [hg']
    have kgo : gotOf g' = gotOf g := by rw [hg']; rfl
    have hoo : ∀ i, outOf i g = [⟨p.1, i, decide (g.results.length + 1 = g.P.length)⟩] ++ outOf i g' := by
      intro i
      have hx : (gotOf g)[g.results.length]? = some (p, decide (g.results.length + 1 = g.P.length)) := by
        unfold gotOf
        rw [List.getElem?_take, if_pos hrg, markLast_get, hPn]
        rfl
      unfold outOf
      rw [kgo, kres]
      have hl := (List.getElem?_eq_some_iff.mp hx).1
      have he := (List.getElem?_eq_some_iff.mp hx).2
      rw [List.drop_eq_getElem_cons hl, he, List.length_append]
      rfl
    have hfirst := walk_set_first (f := outOf) (i := s.whead) hgn klen hpre (hoo _)
    rw [hfirst] at hwalk
    rw [List.singleton_append, List.cons.injEq] at hwalk
    obtain ⟨rfl, hrest⟩ := hwalk
    have hgat := inv.grp _ g hgn
    obtain ⟨e, he, hok⟩ := hgat.entry 0 hgat.pos
    rw [Nat.add_zero] at he
    have hb := inv.group_bound hgn
    have hbnd := inv.bnd
    simp only
    unfold SqSlots.modify
    rw [show s.slots ((s.whead + heapTotal (gl.take s.fin)) &&& env.mask) = some e from he]
    simp only
    obtain ⟨sl, hsl⟩ : ∃ sl, sl = s.slots.set ((s.whead + heapTotal (gl.take s.fin)) &&& env.mask) (some (recordSent (env.bytes p.1) r e)) := ⟨_, rfl⟩
    rw [← hsl]
    have hinj : ∀ j k, j < g.len → k < g.len → (s.whead + heapTotal (gl.take s.fin) + j) &&& env.mask = (s.whead + heapTotal (gl.take s.fin) + k) &&& env.mask → j = k := by
      intro j k hj hk h
      have := inv.inj hv (i := s.whead + heapTotal (gl.take s.fin) + j) (j := s.whead + heapTotal (gl.take s.fin) + k) (by omega) (by omega) (by omega) (by omega) h
      omega
    have hgat' : GroupAt env.bytes (view env.mask sl) (s.whead + heapTotal (gl.take s.fin)) g' := by
      rw [hg']
      have : GroupAt env.bytes (view env.mask sl) (s.whead + heapTotal (gl.take s.fin)) { g with results := g.results ++ [r], ws := g.ws } := by
        apply groupAt_fields hgat
        · intro j hj e1 he1
          obtain ⟨e2, he2, hok2⟩ := hgat.entry j hj
          rw [he1, Option.some.injEq] at he2
          subst he2
          rw [hsl, view_set]
          by_cases h0 : j = 0
          · subst h0
            rw [Nat.add_zero] at he1 ⊢
            rw [he, Option.some.injEq] at he1
            subst he1
            rw [if_pos rfl]
            refine ⟨_, rfl, ?_, ?_, ?_, ?_, ?_, ?_⟩
            all_goals (unfold recordSent; cases r <;> first | rfl | exact hok2.waiters)
          · rw [if_neg (show ¬ ((s.whead + heapTotal (gl.take s.fin) + j) &&& env.mask = (s.whead + heapTotal (gl.take s.fin)) &&& env.mask) from fun h => h0 (hinj j 0 hj hgat.pos h))]
            exact ⟨e1, he1, rfl, rfl, rfl, rfl, rfl, hok2.waiters⟩
        · intro e' he'
          rw [hsl, view_set, if_pos rfl, Option.some.injEq] at he'
          subst he'
          obtain ⟨h1, h2, h3⟩ := hgat.first e he
          rw [sentBytes_snoc r hPn, List.all_append]
          unfold recordSent
          cases r with
          | none => exact ⟨h1, by rw [← h2]; rfl, by rw [show ([none] : List (Option Nat)).all Option.isNone = true from rfl, Bool.and_true]; exact h3⟩
          | some x => exact ⟨h1, by rw [← h2]; rfl, by simp⟩
      exact this
    obtain ⟨hgrp, hvac⟩ := inv.set_groups hv hgn klen hgat' (by
      intro x hx
      have := hx 0 hgat.pos
      rw [Nat.add_zero] at this
      rw [hsl]
      show (if x = _ then _ else _) = _
      rw [if_neg this])
    obtain ⟨f1, f2, f3, f4, f5⟩ := inv.plain (ev := .sent r) ⟨fun f => by simp, fun f => by simp⟩
    obtain ⟨m, hm1, hm2, hm3, hm4⟩ := inv.wt
    have hl' : (if (decide (g.results.length + 1 = g.P.length)) = true then s.fin + 1 else s.fin) = (if g.results.length + 1 = g.P.length then s.fin + 1 else s.fin) := by
      by_cases h : g.results.length + 1 = g.P.length
      · rw [if_pos h, if_pos (by simpa using h)]
      · rw [if_neg h, if_neg (by simpa using h)]
    rw [hl']
    clear hl'
    refine ⟨_, _, gl.set s.fin g', n, rfl, ?_, rfl, rfl⟩
    refine ⟨⟨?_, ?_, ?_, ?_, inv.oldk, hgrp, ?_, ?_, ?_, ?_, ?_, ?_, ?_, ?_, ?_, ?_, ?_, ?_, ?_, hrest, ?_, hvac, inv.bnd, inv.snd, inv.unw, fun h => absurd h hw, ?_, f2, f3, f4⟩, by rw [flatMap_set_same hgn kws]; exact f5⟩
    · rw [accepted_append, inv.acc, List.map_append, List.map_append, map_set_same hgn kacc]
      exact List.append_nil _
    · rw [fetched_append, inv.fet, List.flatMap_append, List.flatMap_append, flatMap_set_same hgn kgo]
      exact List.append_nil _
    · rw [outcomes_append, inv.outc, List.flatMap_append, List.flatMap_append, flatMap_set_last hgn klen ?_ kres, List.append_assoc]
      · rfl
      · intro j x hx hj
        exact inv.resc j x hx hj
    · rw [completed_append]
      show (completed tr ++ []) ++ s.calling = _
      rw [List.append_nil]
      exact inv.comp
    · rw [heapTotal_set_all hgn klen]; exact inv.tail
    · rw [heapTotal_set hgn klen]; exact inv.start
    · rw [List.length_set]; exact inv.nle
    · intro k x hx hk
      rcases set_get hx with ⟨rfl, rfl, -⟩ | ⟨hne, hx⟩
      · rw [kgot, kP]; exact inv.before _ g hgn hk
      · exact inv.before k x hx hk
    · intro x hx
      rcases set_get hx with ⟨h, rfl, -⟩ | ⟨hne, hx⟩
      · rw [kgot, kP, kpos]; exact inv.cur g (by rw [h]; exact hgn)
      · exact inv.cur x hx
    · intro k x hx hk
      rcases set_get hx with ⟨rfl, rfl, -⟩ | ⟨hne, hx⟩
      · rw [kgot, kpos]; exact inv.after _ g hgn hk
      · exact inv.after k x hx hk
    · intro hn
      rw [List.length_set] at hn
      exact inv.idle hn
    · rw [List.length_set]
      show (if g.results.length + 1 = g.P.length then s.fin + 1 else s.fin) ≤ gl.length
      split <;> omega
    · intro k x hx hk
      replace hk : k < if g.results.length + 1 = g.P.length then s.fin + 1 else s.fin := hk
      rcases set_get hx with ⟨rfl, rfl, -⟩ | ⟨hne, hx⟩
      · rw [kres, kP, List.length_append]
        split at hk
        · assumption
        · omega
      · exact inv.resa k x hx (by split at hk <;> omega)
    · intro x hx
      replace hx : (gl.set s.fin g')[if g.results.length + 1 = g.P.length then s.fin + 1 else s.fin]? = some x := hx
      by_cases hl : g.results.length + 1 = g.P.length
      · rw [if_pos hl] at hx
        rcases set_get hx with ⟨h, -⟩ | ⟨hne, hx⟩
        · omega
        · rw [inv.resc _ x hx (by omega)]
          exact inv.nonempty _ x hx
      · rw [if_neg hl] at hx
        rcases set_get hx with ⟨-, rfl, -⟩ | ⟨hne, -⟩
        · rw [kres, kP, List.length_append]
          show _ + 1 < _
          omega
        · exact absurd rfl hne
    · intro k x hx hk
      replace hk : (if g.results.length + 1 = g.P.length then s.fin + 1 else s.fin) < k := hk
      rcases set_get hx with ⟨rfl, rfl, -⟩ | ⟨hne, hx⟩
      · split at hk <;> omega
      · exact inv.resc k x hx (by split at hk <;> omega)
    · intro k x hx
      rcases set_get hx with ⟨rfl, rfl, -⟩ | ⟨hne, hx⟩
      · rw [kres, kgot, List.length_append]; exact hrg
      · exact inv.resl k x hx
    · intro k x hx
      rcases set_get hx with ⟨rfl, rfl, -⟩ | ⟨hne, hx⟩
      · rw [kP]; exact inv.nonempty _ g hgn
      · exact inv.nonempty k x hx
    · exact ⟨m, hm1, by rw [List.length_set]; exact hm2, by rw [heapTotal_set hgn klen]; exact hm3, hm4⟩
    · intro k x hx f hf
      rcases set_get hx with ⟨rfl, rfl, -⟩ | ⟨hne, hx⟩
      · rw [kws] at hf; exact f1 _ g hgn f hf
      · exact f1 k x hx f hf

/-! ## `groups_completed` -/

theorem vacate_spec {mask : Nat} : ∀ (l i : Nat) (sl : SqSlots π) (ws : List Nat) (W : Nat → List Nat),
    (∀ j, j < l → ∃ e, sl ((i + j) &&& mask) = some e ∧ e.waiters = W j) → (∀ j k, j < l → k < l → (i + j) &&& mask = (i + k) &&& mask → j = k) →
    ∃ sl', vacate mask l i sl ws = some (sl', ((List.range l).reverse.map W).flatten ++ ws) ∧
      (∀ j, j < l → sl' ((i + j) &&& mask) = none) ∧ (∀ x, (∀ j, j < l → x ≠ (i + j) &&& mask) → sl' x = sl x)
  | 0, i, sl, ws, W, _, _ => ⟨sl, rfl, fun j hj => by omega, fun x _ => rfl⟩
  | l + 1, i, sl, ws, W, h, hinj => by
    obtain ⟨e, he, hew⟩ := h 0 (by omega)
    rw [Nat.add_zero] at he
    unfold vacate
    rw [he]
    simp only
    have hset : ∀ x, (sl.set (i &&& mask) none) x = if x = i &&& mask then none else sl x := fun x => rfl
    obtain ⟨sl', h1, h2, h3⟩ := vacate_spec l (i + 1) (sl.set (i &&& mask) none) (e.waiters ++ ws) (fun j => W (j + 1))
      (fun j hj => by
        obtain ⟨e', he', hw'⟩ := h (j + 1) (by omega)
        refine ⟨e', ?_, hw'⟩
        rw [hset, show i + 1 + j = i + (j + 1) by omega, if_neg ?_]
        · exact he'
        · intro hc
          have := hinj (j + 1) 0 (by omega) (by omega) (by rw [hc, Nat.add_zero])
          omega)
      (fun j k hj hk hc => by
        have := hinj (j + 1) (k + 1) (by omega) (by omega) (by rw [show i + (j + 1) = i + 1 + j by omega, show i + (k + 1) = i + 1 + k by omega]; exact hc)
        omega)
    refine ⟨sl', ?_, ?_, ?_⟩
    · rw [h1, hew, List.range_succ_eq_map, List.reverse_cons, List.map_append, List.flatten_append, List.append_assoc]
      congr 2
      rw [← List.map_reverse, List.map_map]
      show _ = _ ++ ((W 0 ++ []) ++ ws)
      rw [List.append_nil]
      rfl
    · intro j hj
      cases j with
      | zero =>
        rw [h3, hset, Nat.add_zero, if_pos rfl]
        intro j hj hc
        have := hinj 0 (j + 1) (by omega) (by omega) (by rw [hc, show i + (j + 1) = i + 1 + j by omega])
        omega
      | succ j =>
        rw [show i + (j + 1) = i + 1 + j by omega]
        exact h2 j (by omega)
    · intro x hx
      rw [h3, hset, if_neg (by have := hx 0 (by omega); rwa [Nat.add_zero] at this)]
      intro j hj
      rw [show i + 1 + j = i + (j + 1) by omega]
      exact hx (j + 1) (by omega)

theorem flatten_last {l : Nat} (hl : 0 < l) (ws : List Nat) : ((List.range l).reverse.map (fun j => if j + 1 = l then ws else [])).flatten = ws := by
  obtain ⟨k, rfl⟩ : ∃ k, l = k + 1 := ⟨l - 1, by omega⟩
  rw [List.range_succ, List.reverse_append, List.map_append, List.flatten_append]
  have : (((List.range k).reverse.map (fun j => if j + 1 = k + 1 then ws else [])).flatten) = [] := by
    rw [List.flatten_eq_nil_iff]
    intro x hx
    rw [List.mem_map] at hx
    obtain ⟨j, hj, rfl⟩ := hx
    rw [List.mem_reverse, List.mem_range] at hj
    rw [if_neg (by omega)]
  rw [this]
  simp

theorem perm_waiters {a w g l r : List Nat} (h : (a ++ w ++ (g ++ l)).Perm r) : (a ++ (g ++ w) ++ l).Perm r := by
  refine List.Perm.trans ?_ h
  rw [List.append_assoc, List.append_assoc, List.append_assoc]
  refine List.Perm.append_left _ ?_
  rw [← List.append_assoc, ← List.append_assoc]
  exact List.Perm.append_right _ List.perm_append_comm

theorem completeLoop_step {env : SqEnv H π} (hv : Spec.SqEnv.Valid env) : ∀ (k : Nat) (s : Sq H π) (tr : List (SqEv π)) (old gl : List (SGroup π)) (n m : Nat),
    SqInv env { s with fin := m + k } tr old gl n → s.wk ≠ .need →
    ∃ s' old' gl' n', completeLoop env k s = some s' ∧ SqInv env { s' with fin := m } tr old' gl' n' ∧ s'.wk = s.wk ∧ s'.fin = s.fin ∧ s'.head = s.head ∧ s.whead ≤ s'.whead ∧ s'.sender = s.sender
  | 0, s, tr, old, gl, n, m, inv, hw => ⟨s, old, gl, n, rfl, inv, rfl, rfl, rfl, Nat.le_refl _, rfl⟩
  | k + 1, s, tr, old, gl, n, m, inv, hw => by
    have hfin := inv.fin_le
    replace hfin : m + (k + 1) ≤ n := hfin
    have hfl : m + (k + 1) ≤ gl.length := inv.finle
    cases gl with
    | nil => simp at hfl
    | cons g gl =>
      have hgn : (g :: gl)[0]? = some g := rfl
      have hgat := inv.grp 0 g hgn
      replace hgat : GroupAt env.bytes (view env.mask s.slots) (s.whead + 0) g := hgat
      rw [Nat.add_zero] at hgat
      have hgot := inv.before 0 g hgn (by omega)
      have hres := inv.resa 0 g hgn (show 0 < m + (k + 1) by omega)
      obtain ⟨e, he, hok⟩ := hgat.entry 0 hgat.pos
      rw [Nat.add_zero] at he
      obtain ⟨hh, hby, hfa⟩ := hgat.first e he
      have hb := inv.group_bound hgn
      replace hb : s.whead + 0 + g.len ≤ s.tail := hb
      have hbnd := inv.bnd
      replace hbnd : s.tail ≤ s.whead + env.size := hbnd
      have hinj : ∀ i j, s.whead ≤ i → s.whead ≤ j → i < s.tail → j < s.tail → i &&& env.mask = j &&& env.mask → i = j := fun i j h1 h2 h3 h4 h5 => inv.inj hv h1 h2 h3 h4 h5
      obtain ⟨sl', h1, h2, h3⟩ := vacate_spec (mask := env.mask) g.len s.whead s.slots s.waking (fun j => if j + 1 = g.len then g.ws else [])
        (fun j hj => by obtain ⟨e, he, hok⟩ := hgat.entry j hj; exact ⟨e, he, hok.waiters⟩)
        (fun i j hi hj h => by have := hinj (s.whead + i) (s.whead + j) (by omega) (by omega) (by omega) (by omega) h; omega)
      rw [flatten_last hgat.pos] at h1
      unfold completeLoop
      rw [show s.slots (s.whead &&& env.mask) = some e from he]
      simp only
      rw [hh]
      simp only
      rw [hok.gend, if_neg (show ¬ s.whead + g.len ≤ s.whead by have := hgat.pos; omega), show s.whead + g.len - s.whead = g.len by omega, h1]
      simp only
      obtain ⟨mm, hm1, hm2, hm3, hm4⟩ := inv.wt
      have hgo : outOf s.whead g = [] := outOf_nil (by omega) _
      have hshift : ∀ a, s.whead + heapTotal ((g :: gl).take (a + 1)) = (s.whead + g.len) + heapTotal (gl.take a) := by
        intro a
        rw [List.take_succ_cons, heapTotal_cons]
        omega
      have hcomp : (g.acc.call, (if e.failed = true then SqResult.failed else SqResult.ok), e.bytes) = completion env.bytes g.acc g.results := by
        unfold completion
        rw [hfa, hby]
        cases g.results.all Option.isNone <;> rfl
      have hnew : SqInv env { ({ s with slots := sl', waking := g.ws ++ s.waking, whead := s.whead + g.len, calling := s.calling ++ [(g.acc.call, (if e.failed = true then SqResult.failed else SqResult.ok), e.bytes)] } : Sq H π) with fin := m + k } tr (old ++ [g]) gl (n - 1) := by
        have happ : (old ++ [g]) ++ gl = old ++ g :: gl := by simp
        refine ⟨⟨by rw [happ]; exact inv.acc, by rw [happ]; exact inv.fet, by rw [happ]; exact inv.outc, ?_, ?_, ?_, ?_, ?_, ?_, ?_, ?_, ?_, ?_, ?_, ?_, ?_, ?_, ?_, ?_, ?_, ?_, ?_, ?_, ?_, inv.unw, fun h => absurd h hw, ?_, ?_, inv.fln, inv.flo⟩, perm_waiters inv.flp⟩
        · show completed tr ++ (s.calling ++ _) = _
          rw [← List.append_assoc, show completed tr ++ s.calling = _ from inv.comp, List.map_append, hcomp]
          rfl
        · intro x hx
          rcases List.mem_append.mp hx with h | h
          · exact inv.oldk x h
          · rw [List.mem_singleton] at h
            subst h
            exact ⟨hgot, hres⟩
        · intro j x hx
          have := inv.grp (j + 1) x hx
          replace this : GroupAt env.bytes (view env.mask s.slots) (s.whead + heapTotal ((g :: gl).take (j + 1))) x := this
          rw [hshift] at this
          show GroupAt env.bytes (view env.mask sl') (s.whead + g.len + heapTotal (gl.take j)) x
          refine groupAt_congr this ?_
          intro t ht
          show sl' _ = s.slots _
          apply h3
          intro t' ht' hc
          have hb' := inv.group_bound (k := j + 1) (g := x) hx
          replace hb' : s.whead + heapTotal ((g :: gl).take (j + 1)) + x.len ≤ s.tail := hb'
          rw [hshift] at hb'
          have := hinj _ _ (by omega) (by omega) (by omega) (by omega) hc
          omega
        · show s.tail = _
          rw [show s.tail = s.whead + heapTotal (g :: gl) from inv.tail, heapTotal_cons]
          show _ = s.whead + g.len + heapTotal gl
          omega
        · show s.start = _
          rw [show s.start = s.whead + heapTotal ((g :: gl).take n) from inv.start, show n = n - 1 + 1 by omega, hshift]
          rfl
        · have := inv.nle; simp at this; omega
        · intro j x hx hj
          exact inv.before (j + 1) x hx (by omega)
        · intro x hx
          exact inv.cur x (by rw [show n = n - 1 + 1 by omega]; exact hx)
        · intro j x hx hj
          exact inv.after (j + 1) x hx (by omega)
        · intro h
          exact inv.idle (by rw [List.length_cons]; omega)
        · show m + k ≤ gl.length
          simp at hfl; omega
        · intro j x hx hj
          exact inv.resa (j + 1) x hx (show j + 1 < m + (k + 1) by replace hj : j < m + k := hj; omega)
        · intro x hx
          exact inv.resb x hx
        · intro j x hx hj
          exact inv.resc (j + 1) x hx (show m + (k + 1) < j + 1 by replace hj : m + k < j := hj; omega)
        · intro j x hx
          exact inv.resl (j + 1) x hx
        · intro j x hx
          exact inv.nonempty (j + 1) x hx
        · show s.out = walk outOf (s.whead + g.len) gl
          rw [show s.out = walk outOf s.whead (g :: gl) from inv.out, walk, hgo]
          rfl
        · refine ⟨mm - 1, by omega, by simp at hm2; omega, ?_, fun h => hm4 (by omega)⟩
          show s.wtail = _
          rw [show s.wtail = s.whead + heapTotal ((g :: gl).take mm) from hm3, show mm = mm - 1 + 1 by omega, hshift]
          rfl
        · intro x hx
          replace hx : sl' x ≠ none := hx
          have hnot : ∀ j, j < g.len → x ≠ (s.whead + j) &&& env.mask := by
            intro j hj hc
            rw [hc] at hx
            exact hx (h2 j hj)
          rw [h3 x hnot] at hx
          obtain ⟨i, hi1, hi2, hi3⟩ := inv.vac x hx
          replace hi1 : s.whead ≤ i := hi1
          refine ⟨i, ?_, hi2, hi3⟩
          show s.whead + g.len ≤ i
          rcases Nat.lt_or_ge i (s.whead + g.len) with h | h
          · exact absurd (by rw [hi3]; congr 1; omega) (hnot (i - s.whead) (by omega))
          · exact h
        · show s.tail ≤ s.whead + g.len + env.size
          omega
        · intro c hc
          obtain ⟨h4, h5⟩ := inv.snd c hc
          exact ⟨by show c.head ≤ s.whead + g.len; replace h4 : c.head ≤ s.whead := h4; omega, h5⟩
        · intro j x hx f hf
          have := inv.fls (j + 1) x hx f hf
          exact ⟨this.1, by rw [List.length_append]; simp only [List.length_singleton]; omega⟩
        · intro f hf
          rw [List.length_append]
          rcases List.mem_append.mp hf with h | h
          · have := inv.fls 0 g hgn f h
            exact ⟨this.1, by simp only [List.length_singleton]; omega⟩
          · have := inv.wks f h
            exact ⟨this.1, by omega⟩
      obtain ⟨s', old', gl', n', r1, r2, r3, r4, r5, r6, r7⟩ := completeLoop_step hv k _ tr _ _ _ m hnew hw
      exact ⟨s', old', gl', n', r1, r2, r3, r4, r5, Nat.le_trans (Nat.le_add_right _ _) r6, r7⟩

theorem complete_step {env : SqEnv H π} (hv : Spec.SqEnv.Valid env) {s : Sq H π} {tr : List (SqEv π)} {old gl : List (SGroup π)} {n : Nat} (inv : SqInv env s tr old gl n) (hw : s.wk ≠ .need)
    (hd : s.head = s.whead) (k : Nat) :
    ∃ s' ev old' gl' n', s.complete env k = some (s', ev) ∧ SqInv env s' (tr ++ ev) old' gl' n' ∧ s'.head = s'.whead := by
  unfold Sq.complete
  by_cases hk : k ≤ s.fin
  · rw [if_pos hk]
    obtain ⟨s', old', gl', n', h1, h2, -⟩ := completeLoop_step hv k s tr old gl n (s.fin - k) (by rw [show s.fin - k + k = s.fin by omega]; exact inv) hw
    rw [h1]
    refine ⟨_, [], old', gl', n', rfl, ?_, rfl⟩
    rw [List.append_nil]
    exact { h2 with }
  · rw [if_neg hk]
    exact ⟨s, [], old, gl, n, rfl, by rw [List.append_nil]; exact inv, hd⟩

end Spead2
