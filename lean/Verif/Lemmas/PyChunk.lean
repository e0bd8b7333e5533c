import Verif.Spec.PyChunk

/-!
# Where the buffers of Python's chunks are
-/

namespace Spead2.PyChunk

abbrev Trip := Option Nat × Option Nat × Option Nat

def nil3 : Trip := (none, none, none)
def tb (t : Trip) : List Nat := t.1.toList ++ (t.2.1.toList ++ t.2.2.toList)
def key (w : Wrapper) : Nat × Trip := (w.obj, w.c.buffers)
def tri (s : St) : List Trip := s.objs.map Content.buffers
def keys (s : St) : List (Nat × Trip) := s.away.map key

theorem bufs_eq (c : Content) : c.bufs = tb c.buffers := rfl

/-! ## Lists -/

theorem flatMap_set_add {α β : Type} (f : α → List β) (z : List β) : ∀ (l : List α) (i : Nat) (x y : α), l[i]? = some x → (f y).Perm (z ++ f x) →
    ((l.set i y).flatMap f).Perm (z ++ l.flatMap f) := by
  intro l
  induction l with
  | nil => intro i x y h; simp at h
  | cons a l ih =>
    intro i x y h hp
    cases i with
    | zero =>
      simp only [List.getElem?_cons_zero, Option.some.injEq] at h
      subst h
      simp only [List.set_cons_zero, List.flatMap_cons]
      rw [← List.append_assoc]
      exact hp.append_right _
    | succ i =>
      simp only [List.getElem?_cons_succ] at h
      simp only [List.set_cons_succ, List.flatMap_cons]
      refine ((ih i x y h hp).append_left (f a)).trans ?_
      rw [← List.append_assoc, ← List.append_assoc]
      exact List.perm_append_comm.append_right _

theorem flatMap_set_del {α β : Type} (f : α → List β) (z : List β) : ∀ (l : List α) (i : Nat) (x y : α), l[i]? = some x → (f x).Perm (z ++ f y) →
    (l.flatMap f).Perm (z ++ (l.set i y).flatMap f) := by
  intro l
  induction l with
  | nil => intro i x y h; simp at h
  | cons a l ih =>
    intro i x y h hp
    cases i with
    | zero =>
      simp only [List.getElem?_cons_zero, Option.some.injEq] at h
      subst h
      simp only [List.set_cons_zero, List.flatMap_cons]
      rw [← List.append_assoc]
      exact hp.append_right _
    | succ i =>
      simp only [List.getElem?_cons_succ] at h
      simp only [List.set_cons_succ, List.flatMap_cons]
      refine ((ih i x y h hp).append_left (f a)).trans ?_
      rw [← List.append_assoc, ← List.append_assoc]
      exact List.perm_append_comm.append_right _

theorem eraseIdx_perm {α : Type} : ∀ (l : List α) (i : Nat) (x : α), l[i]? = some x → l.Perm (x :: l.eraseIdx i) := by
  intro l
  induction l with
  | nil => intro i x h; simp at h
  | cons a l ih =>
    intro i x h
    cases i with
    | zero =>
      simp only [List.getElem?_cons_zero, Option.some.injEq] at h
      subst h
      exact List.Perm.refl _
    | succ i =>
      simp only [List.getElem?_cons_succ] at h
      simp only [List.eraseIdx_cons_succ]
      exact ((ih i x h).cons a).trans (List.Perm.swap _ _ _)

theorem count_set (b : Nat) : ∀ (l : List Trip) (o : Nat) (t t' : Trip), l[o]? = some t →
    ((l.set o t').flatMap tb).count b + (tb t).count b = (l.flatMap tb).count b + (tb t').count b := by
  intro l
  induction l with
  | nil => intro o t t' h; simp at h
  | cons a l ih =>
    intro o t t' h
    cases o with
    | zero =>
      simp only [List.getElem?_cons_zero, Option.some.injEq] at h
      subst h
      simp only [List.set_cons_zero, List.flatMap_cons, List.count_append]
      omega
    | succ o =>
      simp only [List.getElem?_cons_succ] at h
      have := ih o t t' h
      simp only [List.set_cons_succ, List.flatMap_cons, List.count_append]
      omega

/-! ## Away -/

theorem push_away {s : St} {r : Nat} {ring : Ring} (h : s.rings[r]? = some ring) (w : Wrapper) : (s.push r ring w).away.Perm (w :: s.away) := by
  simp only [St.away, St.push]
  have := flatMap_set_add (fun x : Ring => x.q) [w] s.rings r ring { ring with q := ring.q ++ [w] } h (List.perm_append_comm)
  exact this.append_right _

theorem pop_away {s : St} {r : Nat} {ring : Ring} (h : s.rings[r]? = some ring) {w : Wrapper} {q : List Wrapper} (hq : ring.q = w :: q) :
    s.away.Perm (w :: ({ s with rings := s.rings.set r { ring with q := q } } : St).away) := by
  simp only [St.away]
  have := flatMap_set_del (fun x : Ring => x.q) [w] s.rings r ring { ring with q := q } h (by rw [hq]; exact List.Perm.refl _)
  exact this.append_right _

theorem pend_away {s : St} {i : Nat} {w : Wrapper} {r : Nat} (h : s.pend[i]? = some (w, r)) : s.away.Perm (w :: ({ s with pend := s.pend.eraseIdx i } : St).away) := by
  simp only [St.away]
  have h1 : (s.pend.map (·.1)).Perm (w :: (s.pend.eraseIdx i).map (·.1)) := by
    have := (eraseIdx_perm _ _ _ h).map (·.1)
    exact this
  refine ((h1.append_right s.held).append_left _).trans ?_
  exact List.perm_middle

theorem held_away {s : St} {i : Nat} {w : Wrapper} (h : s.held[i]? = some w) : s.away.Perm (w :: ({ s with held := s.held.eraseIdx i } : St).away) := by
  simp only [St.away]
  refine (((eraseIdx_perm _ _ _ h).append_left (s.pend.map (·.1))).append_left _).trans ?_
  refine (List.perm_middle.append_left _).trans List.perm_middle

/-! ## Changes -/

/-- What a step does to buffers. -/
inductive Change (s : St) (e : Ev) (s' : St) : Prop where
  | same (hu : ∀ u, assigned s u e = u) (ht : tri s' = tri s) (hk : (keys s').Perm (keys s)) (hr : s'.released = s.released) (hn : s'.next = s.next)
  | new (he : e = .new) (ht : tri s' = tri s ++ [nil3]) (hk : keys s' = keys s) (hr : s'.released = s.released) (hn : s'.next = s.next)
  | set (o : Nat) (f : Field) (v : Option Nat) (c : Content) (he : e = .set o f v) (hc : s.objs[o]? = some c)
      (ht : tri s' = (tri s).set o (f.put c (v.map (fun _ => s.next))).buffers) (hk : keys s' = keys s) (hr : s'.released = s.released ++ (f.get c).toList)
      (hn : s'.next = s.next + (v.map (fun _ => 1)).getD 0)
  | lend (o : Nat) (t : Trip) (hu : ∀ u, assigned s u e = u) (h0 : (tri s)[o]? = some t) (hv : t ≠ nil3) (ht : tri s' = (tri s).set o nil3)
      (hk : (keys s').Perm ((o, t) :: keys s)) (hr : s'.released = s.released) (hn : s'.next = s.next)
  | back (o : Nat) (t t0 : Trip) (hu : ∀ u, assigned s u e = u) (hk : (keys s).Perm ((o, t) :: keys s')) (h0 : (tri s)[o]? = some t0) (ht : tri s' = (tri s).set o t)
      (hr : s'.released = s.released ++ tb t0) (hn : s'.next = s.next)
  | drop (o : Nat) (t : Trip) (he : ∃ i r ring, e = .give i r ∧ s.rings[r]? = some ring ∧ ring.stopped = true) (hk : (keys s).Perm ((o, t) :: keys s')) (ht : tri s' = tri s)
      (hr : s'.released = s.released ++ tb t) (hn : s'.next = s.next)
  | lose (o : Nat) (t : Trip) (he : ∃ r ring, e = .addFree o r ∧ s.rings[r]? = some ring ∧ ring.stopped = true) (h0 : (tri s)[o]? = some t) (ht : tri s' = (tri s).set o nil3)
      (hk : (keys s').Perm (keys s)) (hr : s'.released = s.released ++ tb t) (hn : s'.next = s.next)

theorem tri_get {s : St} {o : Nat} {c : Content} (h : s.objs[o]? = some c) : (tri s)[o]? = some c.buffers := by
  simp [tri, h]

theorem tri_wrap (s : St) (o : Nat) (c : Content) : tri (s.wrap o c) = (tri s).set o nil3 := by
  simp only [tri, St.wrap, List.map_set]; rfl

theorem valid_ne {c : Content} (h : c.valid = true) : c.buffers ≠ nil3 := by
  intro e
  have : c.data = none := congrArg Prod.fst e
  simp [Content.valid, this] at h

theorem wrap_restore {s : St} {o : Nat} {c : Content} (h : s.objs[o]? = some c) : (s.wrap o c).restore ⟨c, o⟩ = s := by
  have ho : o < s.objs.length := by
    rcases Nat.lt_or_ge o s.objs.length with h1 | h1
    · exact h1
    · rw [List.getElem?_eq_none h1] at h; cases h
  have h1 : (s.wrap o c).objs[o]? = some c.moved := by simp [St.wrap, ho]
  simp only [St.restore, h1]
  have h2 : (s.wrap o c).objs.set o c = s.objs := by
    simp only [St.wrap, List.set_set]
    apply List.ext_getElem?
    intro i
    rw [List.getElem?_set]
    split
    · rename_i hi
      rw [← hi, h]
    · rfl
  have h3 : c.moved.bufs = [] := rfl
  rw [h2, h3, List.append_nil]
  rfl

theorem restore_change {s s1 : St} {e : Ev} (hu : ∀ u, assigned s u e = u) {w : Wrapper} (ho : s1.objs = s.objs) (hr : s1.released = s.released) (hn : s1.next = s.next)
    (hk : s.away.Perm (w :: s1.away)) (hb : ∀ k ∈ keys s, k.1 < s.objs.length) : Change s e (s1.restore w) := by
  have hm : key w ∈ keys s := List.mem_map.2 ⟨w, hk.mem_iff.2 (by simp), rfl⟩
  have hlt : w.obj < s1.objs.length := by rw [ho]; exact hb _ hm
  obtain ⟨c, hc⟩ : ∃ c, s1.objs[w.obj]? = some c := ⟨_, List.getElem?_eq_getElem hlt⟩
  have hrs : s1.restore w = { s1 with objs := s1.objs.set w.obj w.c, released := s1.released ++ c.bufs } := by simp only [St.restore, hc]
  rw [hrs]
  refine .back w.obj w.c.buffers c.buffers hu ?_ (tri_get (by rw [← ho]; exact hc)) ?_ ?_ hn
  · exact hk.map key
  · simp only [tri, List.map_set, ho]
  · show s1.released ++ c.bufs = _
    rw [hr]; rfl

theorem work_keys {s : St} {i : Nat} {w : Wrapper} (h : s.held[i]? = some w) (id : Int) (m : List Nat) :
    keys { s with held := s.held.set i { w with c := { w.c with id := id } }, mem := m } = keys s := by
  simp only [keys, St.away, List.map_append]
  congr 2
  rw [List.map_set]
  apply List.ext_getElem?
  intro j
  rw [List.getElem?_set]
  split
  · rename_i hj
    rw [← hj]
    have hlt : i < s.held.length := by
      rcases Nat.lt_or_ge i s.held.length with h1 | h1
      · exact h1
      · rw [List.getElem?_eq_none h1] at h; cases h
    rw [List.length_map, if_pos hlt, List.getElem?_map, h]
    rfl
  · rfl

theorem clear_keys (s : St) (c : Content) : keys (s.clear c) = keys s ∧ tri (s.clear c) = tri s ∧ (s.clear c).released = s.released ∧ (s.clear c).next = s.next ∧
    (s.clear c).rings = s.rings ∧ (s.clear c).objs = s.objs := by
  unfold St.clear
  cases c.present <;> exact ⟨rfl, rfl, rfl, rfl, rfl, rfl⟩

theorem clear_away (s : St) (c : Content) : (s.clear c).away = s.away := by
  unfold St.clear
  cases c.present <;> rfl

theorem clear_wrap_restore {s : St} {o : Nat} {c : Content} (h : s.objs[o]? = some c) : ((s.wrap o c).clear c).restore ⟨c, o⟩ = s.clear c := by
  have := wrap_restore h
  unfold St.clear
  cases c.present with
  | none => exact this
  | some b =>
    have e : ({ s.wrap o c with mem := (s.wrap o c).mem.set b 0 } : St).restore ⟨c, o⟩ = { (s.wrap o c).restore ⟨c, o⟩ with mem := s.mem.set b 0 } := by
      simp only [St.restore]
      cases (s.wrap o c).objs[o]? <;> rfl
    show ({ s.wrap o c with mem := (s.wrap o c).mem.set b 0 } : St).restore ⟨c, o⟩ = _
    rw [e, this]

theorem step_change {s s' : St} {e : Ev} {res : Res} (hb : ∀ k ∈ keys s, k.1 < s.objs.length) (h : s.step e = some (s', res)) : Change s e s' := by
  cases e with
  | new =>
    simp only [St.step, Option.some.injEq, Prod.mk.injEq] at h
    obtain ⟨h, _⟩ := h
    subst h
    exact .new rfl (by simp [tri]; rfl) rfl rfl rfl
  | set o f v =>
    simp only [St.step] at h
    cases hc : s.objs[o]? with
    | none => rw [hc] at h; cases h
    | some c =>
      rw [hc] at h
      simp only [Option.some.injEq, Prod.mk.injEq] at h
      obtain ⟨h, _⟩ := h
      subst h
      cases v with
      | none => exact .set o f none c rfl hc (by simp only [tri, St.setField, List.map_set]; rfl) rfl rfl rfl
      | some v => exact .set o f (some v) c rfl hc (by simp only [tri, St.setField, List.map_set]; rfl) rfl rfl rfl
  | putNowait o r =>
    simp only [St.step, St.putNowait] at h
    cases hc : s.objs[o]? with
    | none => rw [hc] at h; cases h
    | some c =>
      cases hg : s.rings[r]? with
      | none => rw [hc, hg] at h; cases h
      | some ring =>
        rw [hc, hg] at h
        simp only at h
        rw [wrap_restore hc] at h
        split at h
        · rename_i hv
          split at h
          · cases h; exact .same (fun _ => rfl) rfl (List.Perm.refl _) rfl rfl
          · split at h
            · cases h
              exact .lend o c.buffers (fun _ => rfl) (tri_get hc) (valid_ne hv) (tri_wrap s o c) ((push_away (s := s.wrap o c) hg ⟨c, o⟩).map key) rfl rfl
            · cases h; exact .same (fun _ => rfl) rfl (List.Perm.refl _) rfl rfl
        · cases h; exact .same (fun _ => rfl) rfl (List.Perm.refl _) rfl rfl
  | put o r =>
    simp only [St.step, St.putBegin] at h
    cases hc : s.objs[o]? with
    | none => rw [hc] at h; cases h
    | some c =>
      cases hg : s.rings[r]? with
      | none => rw [hc, hg] at h; cases h
      | some ring =>
        rw [hc, hg] at h
        simp only at h
        split at h
        · rename_i hv
          cases h
          refine .lend o c.buffers (fun _ => rfl) (tri_get hc) (valid_ne hv) (tri_wrap s o c) ?_ rfl rfl
          have : (({ s.wrap o c with pend := s.pend ++ [(⟨c, o⟩, r)] } : St).away).Perm (⟨c, o⟩ :: s.away) := by
            simp only [St.away, List.map_append, List.map_cons, List.map_nil]
            have h1 : ((s.pend.map (·.1) ++ [(⟨c, o⟩ : Wrapper)]) ++ s.held).Perm (⟨c, o⟩ :: (s.pend.map (·.1) ++ s.held)) := by
              rw [List.append_assoc]; exact List.perm_middle
            exact (h1.append_left _).trans List.perm_middle
          exact this.map key
        · cases h; exact .same (fun _ => rfl) rfl (List.Perm.refl _) rfl rfl
  | putEnd i =>
    simp only [St.step, St.putEnd] at h
    cases hp : s.pend[i]? with
    | none => rw [hp] at h; cases h
    | some p =>
      obtain ⟨w, r⟩ := p
      rw [hp] at h
      simp only at h
      cases hg : s.rings[r]? with
      | none => rw [hg] at h; cases h
      | some ring =>
        rw [hg] at h
        simp only at h
        split at h
        · cases h
          exact restore_change (fun _ => rfl) rfl rfl rfl (pend_away hp) hb
        · split at h
          · cases h
            refine .same (fun _ => rfl) rfl ?_ rfl rfl
            have h1 := push_away (s := { s with pend := s.pend.eraseIdx i }) hg w
            exact (h1.trans (pend_away hp).symm).map key
          · cases h
  | putInterrupt i =>
    simp only [St.step, St.putInterrupt] at h
    cases hp : s.pend[i]? with
    | none => rw [hp] at h; cases h
    | some p =>
      obtain ⟨w, r⟩ := p
      rw [hp] at h
      cases h
      exact restore_change (fun _ => rfl) rfl rfl rfl (pend_away hp) hb
  | get r =>
    simp only [St.step, St.get] at h
    cases hg : s.rings[r]? with
    | none => rw [hg] at h; cases h
    | some ring =>
      rw [hg] at h
      simp only at h
      cases hq : ring.q with
      | nil => rw [hq] at h; cases h; exact .same (fun _ => rfl) rfl (List.Perm.refl _) rfl rfl
      | cons w q =>
        rw [hq] at h
        cases h
        exact restore_change (fun _ => rfl) rfl rfl rfl (pop_away hg hq) hb
  | addFree o r =>
    simp only [St.step, St.addFree] at h
    cases hc : s.objs[o]? with
    | none => rw [hc] at h; cases h
    | some c =>
      cases hg : s.rings[r]? with
      | none => rw [hc, hg] at h; cases h
      | some ring =>
        rw [hc, hg] at h
        simp only at h
        rw [clear_wrap_restore hc] at h
        obtain ⟨k1, k2, k3, k4, k5, _⟩ := clear_keys (s.wrap o c) c
        obtain ⟨l1, l2, l3, l4, l5, _⟩ := clear_keys s c
        split at h
        · rename_i hv
          split at h
          · rename_i hst
            cases h
            refine .lose o c.buffers ⟨r, ring, rfl, hg, hst⟩ (tri_get hc) ?_ ?_ ?_ k4
            · show tri ((s.wrap o c).clear c) = _
              rw [k2, tri_wrap]
            · show (keys ((s.wrap o c).clear c)).Perm _
              rw [k1]; exact List.Perm.refl _
            · show ((s.wrap o c).clear c).released ++ c.bufs = _
              rw [k3]; rfl
          · split at h
            · cases h
              refine .lend o c.buffers (fun _ => rfl) (tri_get hc) (valid_ne hv) ?_ ?_ k3 k4
              · show tri ((s.wrap o c).clear c) = _
                rw [k2, tri_wrap]
              · have h1 := push_away (s := (s.wrap o c).clear c) (r := r) (ring := ring) (by rw [k5]; exact hg) ⟨c, o⟩
                rw [clear_away] at h1
                exact h1.map key
            · cases h; exact .same (fun _ => rfl) l2 (by rw [l1]) l3 l4
        · cases h; exact .same (fun _ => rfl) rfl (List.Perm.refl _) rfl rfl
  | stop r =>
    simp only [St.step] at h
    cases hg : s.rings[r]? with
    | none => rw [hg] at h; cases h
    | some ring =>
      rw [hg] at h
      cases h
      refine .same (fun _ => rfl) rfl ?_ rfl rfl
      have h1 := flatMap_set_add (fun x : Ring => x.q) [] s.rings r ring { ring with stopped := true } hg (List.Perm.refl _)
      have h2 : (({ s with rings := s.rings.set r { ring with stopped := true } } : St).away).Perm s.away := h1.append_right _
      exact h2.map key
  | take r =>
    simp only [St.step, St.take] at h
    cases hg : s.rings[r]? with
    | none => rw [hg] at h; cases h
    | some ring =>
      rw [hg] at h
      simp only at h
      cases hq : ring.q with
      | nil => rw [hq] at h; cases h
      | cons w q =>
        rw [hq] at h
        cases h
        refine .same (fun _ => rfl) rfl ?_ rfl rfl
        have h1 := pop_away hg hq
        have h2 : (({ s with rings := s.rings.set r { ring with q := q }, held := s.held ++ [w] } : St).away).Perm s.away := by
          refine List.Perm.trans ?_ h1.symm
          simp only [St.away]
          have h3 : (s.pend.map (·.1) ++ (s.held ++ [w])).Perm (w :: (s.pend.map (·.1) ++ s.held)) := by
            rw [← List.append_assoc]; exact List.perm_append_comm
          exact (h3.append_left _).trans List.perm_middle
        exact h2.map key
  | work i id v =>
    simp only [St.step, St.work] at h
    cases hw : s.held[i]? with
    | none => rw [hw] at h; cases h
    | some w =>
      rw [hw] at h
      cases h
      refine .same (fun _ => rfl) rfl ?_ rfl rfl
      rw [work_keys hw]
  | give i r =>
    simp only [St.step, St.give] at h
    cases hw : s.held[i]? with
    | none => rw [hw] at h; cases h
    | some w =>
      cases hg : s.rings[r]? with
      | none => rw [hw, hg] at h; cases h
      | some ring =>
        rw [hw, hg] at h
        simp only at h
        split at h
        · rename_i hst
          cases h
          exact .drop w.obj w.c.buffers ⟨i, r, ring, rfl, hg, hst⟩ ((held_away hw).map key) rfl rfl rfl
        · split at h
          · cases h
            refine .same (fun _ => rfl) rfl ?_ rfl rfl
            have h1 := push_away (s := { s with held := s.held.eraseIdx i }) hg w
            exact (h1.trans (held_away hw).symm).map key
          · cases h

/-! ## Invariants -/

def cnt (s : St) (b : Nat) : Nat := ((tri s).flatMap tb).count b + ((keys s).flatMap (fun k => tb k.2)).count b + s.released.count b

theorem cnt_eq (s : St) (b : Nat) : s.places.count b = cnt s b := by
  simp only [St.places, cnt, tri, keys, List.count_append, List.flatMap_map]
  have h1 : s.objs.flatMap Content.bufs = s.objs.flatMap (fun a => tb a.buffers) := rfl
  have h2 : s.away.flatMap (fun w => w.c.bufs) = s.away.flatMap (fun a => tb (key a).2) := rfl
  rw [h1, h2]
  omega

theorem perm_count {k k' : List (Nat × Trip)} (h : k.Perm k') (b : Nat) : (k.flatMap (fun x => tb x.2)).count b = (k'.flatMap (fun x => tb x.2)).count b :=
  (h.flatMap_right _).count_eq b

theorem tb_put (f : Field) (c : Content) (x : Option Nat) (b : Nat) : (tb (f.put c x).buffers).count b + (f.get c).toList.count b = (tb c.buffers).count b + x.toList.count b := by
  cases f <;> simp only [Field.put, Field.get, Content.buffers, tb, List.count_append] <;> omega

structure Good (s : St) : Prop where
  once : ∀ b, cnt s b = if b < s.next then 1 else 0
  bound : ∀ k ∈ keys s, k.1 < s.objs.length

theorem tri_length (s : St) : (tri s).length = s.objs.length := by simp [tri]

theorem Good.change {s s' : St} {e : Ev} (hg : Good s) (h : Change s e s') : Good s' := by
  have hl : ∀ s : St, s.objs.length = (tri s).length := fun s => (tri_length s).symm
  obtain ⟨h1, h2⟩ := hg
  rw [hl] at h2
  cases h with
  | same hu ht hk hr hn =>
    constructor
    · intro b; rw [hn, ← h1 b]; simp only [cnt, ht, hr, perm_count hk]
    · rw [hl]; intro k hkm; rw [ht]; exact h2 k (hk.mem_iff.1 hkm)
  | new he ht hk hr hn =>
    constructor
    · intro b; rw [hn, ← h1 b]; simp only [cnt, ht, hr, hk, List.flatMap_append, List.count_append]; simp [nil3, tb]
    · rw [hl]; intro k hkm; rw [ht]; rw [hk] at hkm; have := h2 k hkm; simp; omega
  | set o f v c he hc ht hk hr hn =>
    constructor
    · intro b
      have e1 := count_set b (tri s) o _ (f.put c (v.map (fun _ => s.next))).buffers (tri_get hc)
      have e2 := tb_put f c (v.map (fun _ => s.next)) b
      have e3 := h1 b
      simp only [cnt] at e3 ⊢
      rw [ht, hk, hr, hn, List.count_append]
      cases v with
      | none =>
        simp only [Option.map_none, Option.toList_none, List.count_nil, Option.getD_none] at e1 e2 ⊢
        change _ = if b < s.next then 1 else 0
        rw [← e3]
        omega
      | some v =>
        simp only [Option.map_some, Option.toList_some, Option.getD_some] at e1 e2 ⊢
        rw [List.count_singleton] at e2
        by_cases hb : b = s.next
        · subst hb
          simp only [BEq.rfl, if_true] at e2
          rw [if_neg (Nat.lt_irrefl _)] at e3
          rw [if_pos (by omega)]
          omega
        · have : (s.next == b) = false := by simp; omega
          rw [this] at e2
          simp only [Bool.false_eq_true, if_false] at e2
          have e4 : (if b < s.next + 1 then 1 else 0) = (if b < s.next then 1 else 0) := by
            by_cases hlt : b < s.next
            · rw [if_pos hlt, if_pos (by omega)]
            · rw [if_neg hlt, if_neg (by omega)]
          rw [e4, ← e3]
          omega
    · rw [hl]; intro k hkm; rw [ht, List.length_set]; rw [hk] at hkm; exact h2 k hkm
  | lend o t hu h0 hv ht hk hr hn =>
    constructor
    · intro b
      have e1 := count_set b (tri s) o t nil3 h0
      rw [hn, ← h1 b]
      simp only [cnt, ht, hr, perm_count hk, List.flatMap_cons, List.count_append]
      have : (tb nil3).count b = 0 := rfl
      omega
    · rw [hl]
      intro k hkm
      rw [ht, List.length_set]
      rcases List.mem_cons.1 (hk.mem_iff.1 hkm) with hk' | hk'
      · rw [hk']
        rcases Nat.lt_or_ge o (tri s).length with h3 | h3
        · exact h3
        · rw [List.getElem?_eq_none h3] at h0; cases h0
      · exact h2 k hk'
  | back o t t0 hu hk h0 ht hr hn =>
    constructor
    · intro b
      have e1 := count_set b (tri s) o t0 t h0
      rw [hn, ← h1 b]
      simp only [cnt, ht, hr, perm_count hk, List.flatMap_cons, List.count_append]
      omega
    · rw [hl]
      intro k hkm
      rw [ht, List.length_set]
      exact h2 k (hk.mem_iff.2 (by simp [hkm]))
  | drop o t he hk ht hr hn =>
    constructor
    · intro b
      rw [hn, ← h1 b]
      simp only [cnt, ht, hr, perm_count hk, List.flatMap_cons, List.count_append]
      omega
    · rw [hl]; intro k hkm; rw [ht]; exact h2 k (hk.mem_iff.2 (by simp [hkm]))
  | lose o t he h0 ht hk hr hn =>
    constructor
    · intro b
      have e1 := count_set b (tri s) o t nil3 h0
      rw [hn, ← h1 b]
      simp only [cnt, ht, hr, perm_count hk, List.count_append]
      have : (tb nil3).count b = 0 := rfl
      omega
    · rw [hl]; intro k hkm; rw [ht, List.length_set]; exact h2 k (hk.mem_iff.1 hkm)

theorem good_init (rings : List Nat) : Good { rings := rings.map (fun c => { cap := c }) } := by
  have hk : keys { rings := rings.map (fun c => { cap := c }) } = [] := by
    simp [keys, St.away]
  constructor
  · intro b
    simp only [cnt, hk]
    simp [tri]
  · intro k h; rw [hk] at h; cases h

theorem run_good {rings : List Nat} {s : St} (h : Run rings s) : Good s := by
  induction h with
  | init => exact good_init rings
  | step _ hs ih => exact ih.change (step_change ih.bound hs)

theorem reach_run {strict : Bool} {rings : List Nat} {s : St} {u : List Content} (h : Reach strict rings s u) : Run rings s := by
  induction h with
  | init => exact .init
  | step _ _ hs ih => exact .step ih hs

/-- Of object `o`. -/
def mine (o : Nat) (k : List (Nat × Trip)) : List (Nat × Trip) := k.filter (fun x => x.1 == o)

def Here (k : List (Nat × Trip)) (o : Nat) (t ut : Trip) : Prop := (mine o k = [] ∧ t = ut) ∨ (mine o k = [(o, ut)] ∧ t = nil3)

structure Kept (s : St) (u : List Content) : Prop where
  length : (tri s).length = (u.map Content.buffers).length
  here : ∀ o t ut, (tri s)[o]? = some t → (u.map Content.buffers)[o]? = some ut → Here (keys s) o t ut

theorem mine_perm {o : Nat} {k k' : List (Nat × Trip)} (h : k.Perm k') : (mine o k).Perm (mine o k') := h.filter _

theorem Here.perm {k k' : List (Nat × Trip)} (h : k.Perm k') {o : Nat} {t ut : Trip} (hh : Here k o t ut) : Here k' o t ut := by
  rcases hh with ⟨h1, h2⟩ | ⟨h1, h2⟩
  · have := mine_perm (o := o) h
    rw [h1] at this
    exact Or.inl ⟨List.nil_perm.1 this, h2⟩
  · have := mine_perm (o := o) h
    rw [h1] at this
    exact Or.inr ⟨List.singleton_perm.1 this |>.symm, h2⟩

theorem mine_cons_self (o : Nat) (t : Trip) (k : List (Nat × Trip)) : mine o ((o, t) :: k) = (o, t) :: mine o k := by simp [mine]

theorem mine_cons_other {o o' : Nat} (h : o' ≠ o) (t : Trip) (k : List (Nat × Trip)) : mine o ((o', t) :: k) = mine o k := by simp [mine, h]

theorem set_get {l : List Trip} {o o' : Nat} {t x : Trip} (h : (l.set o x)[o']? = some t) : (o = o' ∧ t = x) ∨ (o ≠ o' ∧ l[o']? = some t) := by
  rw [List.getElem?_set] at h
  split at h
  · rename_i he
    split at h
    · cases h; exact Or.inl ⟨he, rfl⟩
    · cases h
  · rename_i he
    exact Or.inr ⟨he, h⟩

theorem put_buffers (f : Field) {c c' : Content} (h : c.buffers = c'.buffers) (x : Option Nat) : (f.put c x).buffers = (f.put c' x).buffers := by
  obtain ⟨d, p, e, i⟩ := c
  obtain ⟨d', p', e', i'⟩ := c'
  simp only [Content.buffers, Prod.mk.injEq] at h
  obtain ⟨h1, h2, h3⟩ := h
  subst h1 h2 h3
  cases f <;> rfl

theorem Kept.change {s s' : St} {u : List Content} {e : Ev} (hk0 : Kept s u) (hb : ∀ k ∈ keys s, k.1 < s.objs.length) (ha : Allowed true s e) (h : Change s e s') : Kept s' (assigned s u e) := by
  obtain ⟨hl, hh⟩ := hk0
  cases h with
  | same hu ht hk hr hn =>
    rw [hu]
    exact ⟨by rw [ht]; exact hl, fun o t ut h1 h2 => (hh o t ut (by rw [← ht]; exact h1) h2).perm hk.symm⟩
  | new he ht hk hr hn =>
    subst he
    have ea : assigned s u .new = u ++ [({} : Content)] := rfl
    rw [ea]
    constructor
    · rw [ht, List.map_append, List.length_append, List.length_append, hl]; rfl
    · intro o t ut h1 h2
      rw [ht] at h1
      rw [List.map_append] at h2
      rw [hk]
      rcases Nat.lt_or_ge o (tri s).length with h3 | h3
      · rw [List.getElem?_append_left h3] at h1
        rw [List.getElem?_append_left (by rw [← hl]; exact h3)] at h2
        exact hh o t ut h1 h2
      · rw [List.getElem?_append_right h3] at h1
        rw [List.getElem?_append_right (by rw [← hl]; exact h3), ← hl] at h2
        cases hd : o - (tri s).length with
        | succ n => rw [hd] at h1; simp at h1
        | zero =>
          rw [hd] at h1 h2
          simp only [List.map_cons, List.map_nil, List.getElem?_cons_zero, Option.some.injEq] at h1 h2
          refine Or.inl ⟨?_, by rw [← h1, ← h2]; rfl⟩
          rw [mine, List.filter_eq_nil_iff]
          intro k hkm
          have := hb k hkm
          rw [tri_length] at h3
          simp
          omega
  | set o f v c he hc ht hk hr hn =>
    subst he
    have ea : (assigned s u (.set o f v)).map Content.buffers = (u.modify o (fun c => f.put c (v.map (fun _ => s.next)))).map Content.buffers := rfl
    have hno : mine o (keys s) = [] := by
      rw [mine, List.filter_eq_nil_iff]
      intro k hkm
      obtain ⟨w, hw, hkw⟩ := List.mem_map.1 hkm
      have := ha w hw
      rw [← hkw]
      simpa [key] using this
    constructor
    · rw [ht, ea, List.length_set, List.length_map, List.length_modify, hl, List.length_map]
    · intro o' t ut h1 h2
      rw [ht] at h1
      rw [ea, List.getElem?_map, List.getElem?_modify] at h2
      rw [hk]
      rcases set_get h1 with ⟨e1, e2⟩ | ⟨e1, e2⟩
      · subst e1
        refine Or.inl ⟨hno, ?_⟩
        cases hu : u[o]? with
        | none => rw [hu] at h2; simp at h2
        | some cu =>
          rw [hu] at h2
          simp only [if_true, Option.map_eq_map, Option.map_some, Option.some.injEq] at h2
          rcases hh o _ cu.buffers (tri_get hc) (by rw [List.getElem?_map, hu]; rfl) with ⟨_, a2⟩ | ⟨a1, _⟩
          · rw [e2, ← h2]
            exact put_buffers f a2 _
          · rw [hno] at a1; cases a1
      · refine hh o' t ut e2 ?_
        rw [List.getElem?_map]
        simpa [e1] using h2
  | lend o t hu h0 hv ht hk hr hn =>
    rw [hu]
    refine ⟨by rw [ht, List.length_set]; exact hl, ?_⟩
    intro o' t' ut h1 h2
    rw [ht] at h1
    refine Here.perm hk.symm ?_
    rcases set_get h1 with ⟨e1, e2⟩ | ⟨e1, e2⟩
    · subst e1
      have := hh o t ut h0 h2
      rcases this with ⟨a1, a2⟩ | ⟨a1, a2⟩
      · exact Or.inr ⟨by rw [mine_cons_self, a1, a2], e2⟩
      · exact absurd a2 hv
    · have := hh o' t' ut e2 h2
      rw [Here, mine_cons_other e1]
      exact this
  | back o t t0 hu hk h0 ht hr hn =>
    rw [hu]
    refine ⟨by rw [ht, List.length_set]; exact hl, ?_⟩
    intro o' t' ut h1 h2
    rw [ht] at h1
    rcases set_get h1 with ⟨e1, e2⟩ | ⟨e1, e2⟩
    · subst e1
      have := (hh o t0 ut h0 h2).perm hk
      rw [Here, mine_cons_self] at this
      rcases this with ⟨a1, _⟩ | ⟨a1, a2⟩
      · cases a1
      · simp only [List.cons.injEq, Prod.mk.injEq, true_and] at a1
        exact Or.inl ⟨a1.2, by rw [e2, a1.1]⟩
    · have := (hh o' t' ut e2 h2).perm hk
      rw [Here, mine_cons_other e1] at this
      exact this
  | drop o t he hk ht hr hn =>
    obtain ⟨i, r, ring, he, hg, hst⟩ := he
    subst he
    have := ha ring hg
    rw [hst] at this
    cases this
  | lose o t he h0 ht hk hr hn =>
    obtain ⟨r, ring, he, hg, hst⟩ := he
    subst he
    have := ha rfl ring hg
    rw [hst] at this
    cases this

theorem reach_kept {rings : List Nat} {s : St} {u : List Content} (h : Reach true rings s u) : Kept s u := by
  induction h with
  | init => exact ⟨rfl, fun o t ut h => by simp [tri] at h⟩
  | step hr ha hs ih =>
    have hb := (run_good (reach_run hr)).bound
    exact ih.change hb ha (step_change hb hs)

end Spead2.PyChunk
