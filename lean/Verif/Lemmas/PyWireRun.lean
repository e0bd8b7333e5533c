import Verif.Lemmas.PyWireHeap

/-!
# From group to group: many heaps
-/

namespace Spead2.PyWire
open PyDescr Spec

/-- Every object of a group has a good descriptor. -/
def RestsOk (g : PyGroup Rest PyValue) : Prop := ∀ o x, g.objs o = some x → DescOk x.rest

theorem RestsOk.put {g : PyGroup Rest PyValue} (h : RestsOk g) {o : Nat} {x : PyItemObj Rest PyValue} (hx : DescOk x.rest) : RestsOk (g.put o x) := by
  intro k y hy
  unfold PyGroup.put at hy
  simp only [] at hy
  split at hy
  · cases hy; exact hx
  · exact h k y hy

theorem RestsOk.alloc {g : PyGroup Rest PyValue} (h : RestsOk g) {x : PyItemObj Rest PyValue} (hx : DescOk x.rest) : RestsOk (g.alloc x) := by
  intro k y hy
  unfold PyGroup.alloc at hy
  simp only [] at hy
  split at hy
  · cases hy; exact hx
  · exact h k y hy

theorem RestsOk.setValue {g : PyGroup Rest PyValue} (h : RestsOk g) (o : Nat) (v : PyValue) : RestsOk (g.setValue o v) := by
  unfold PyGroup.setValue
  split
  · exact h
  · rename_i x hx; exact h.put (h o x hx)

theorem RestsOk.bump {g : PyGroup Rest PyValue} (h : RestsOk g) (o : Nat) : RestsOk (g.bump o) := by
  unfold PyGroup.bump
  split
  · exact h
  · rename_i x hx; exact h.put (h o x hx)

theorem removeOpt_objs {g g' : PyGroup Rest PyValue} {p : Option (Nat × PyItemObj Rest PyValue)} (h : g.removeOpt p = some g') : g'.objs = g.objs := by
  unfold PyGroup.removeOpt at h
  split at h
  · cases h; rfl
  · unfold PyGroup.remove at h
    split at h
    · cases h; rfl
    · cases h

theorem RestsOk.addItem {g g' : PyGroup Rest PyValue} (h : RestsOk g) {i : Option Nat} {n : String} {d : Rest} {v : Option PyValue} {o : Nat} (hd : DescOk d)
    (ha : g.addItem i n d v = some (g', o)) : RestsOk g' := by
  unfold PyGroup.addItem at ha
  simp only [Option.map_eq_some_iff, Prod.mk.injEq] at ha
  obtain ⟨g1, h1, rfl, _⟩ := ha
  have hal : RestsOk (g.alloc ⟨i.getD (autoId g.byId g.byId.length 0x1000), n, d, v, 1⟩) := h.alloc hd
  revert h1
  generalize g.alloc ⟨i.getD (autoId g.byId g.byId.length 0x1000), n, d, v, 1⟩ = ga at hal ⊢
  have hx : DescOk (⟨i.getD (autoId g.byId g.byId.length 0x1000), n, d, v, 1⟩ : PyItemObj Rest PyValue).rest := hd
  revert hx
  generalize (⟨i.getD (autoId g.byId g.byId.length 0x1000), n, d, v, 1⟩ : PyItemObj Rest PyValue) = x
  intro hx h1
  unfold PyGroup.addObj at h1
  simp only [] at h1
  split at h1
  · cases h1
    unfold PyGroup.transfer
    split
    · exact hal
    · exact hal.setValue _ _
  · unfold PyGroup.install at h1
    simp only [] at h1
    split at h1
    · cases h1
    · rename_i g2 h2
      split at h1
      · cases h1
      · rename_i g3 h3
        cases h1
        intro k y hy
        replace hy : g3.objs k = some y := hy
        rw [removeOpt_objs h3, removeOpt_objs h2] at hy
        refine RestsOk.put hal (x := { x with version := _ }) ?_ k y hy
        exact hx

/-- The call as one of C74. -/
def Op.toSync : Op → Spead2.Spec.SyncOp Rest PyValue
  | .add i n d v => .add i n d v
  | .set o v => .set o v
  | .bump o => .bump o
  | .send dm vm => .send dm vm

theorem proper_sync {op : Op} (h : Proper op) : op.toSync.Proper := by
  cases op with
  | add i n d v => cases i <;> exact h
  | set o v => trivial
  | bump o => trivial
  | send dm vm => exact h

theorem descOk_of {n : String} {d : Rest} (hm : (mkDescriptor (d.full 0 n)).isNone = false) (hp : PyDescr.Spec.Plain (d.full 0 n)) : DescOk d := by
  cases h : mkDescriptor (d.full 0 n) with
  | none => rw [h] at hm; cases hm
  | some a =>
    obtain ⟨rfl, hv⟩ := (mk_iff _ _).1 h
    intro i m
    exact ⟨⟨hv.unknowns, hv.one, hv.dtype, hv.format, hv.order⟩, ⟨hp.shape, hp.dtype⟩⟩

theorem mem_descsE {es : List Entry} {p : Nat × String × Rest} : p ∈ descsE es ↔ Entry.desc p.1 p.2.1 p.2.2 ∈ es := by
  induction es with
  | nil => simp [descsE]
  | cons e es ih => cases e <;> simp [descsE, ih, Prod.ext_iff]

theorem mem_valsE {es : List Entry} {p : Nat × (Rest × PyValue)} : p ∈ valsE es ↔ Entry.value p.1 p.2.1 p.2.2 ∈ es := by
  induction es with
  | nil => simp [valsE]
  | cons e es ih => cases e <;> simp [valsE, ih, Prod.ext_iff]

/-- What is in a heap of a group with good descriptors. -/
theorem heap_rests {q : PyGen} {g : PyGroup Rest PyValue} (hok : GroupOk g) (hr : RestsOk g) (h6 : ∀ i o x, g.getId i = some (o, x) → 6 < i) (dm vm : SendMode) :
    (∀ p ∈ descsE (getHeap q g dm vm).2, DescOk p.2.2) ∧ (∀ p ∈ valsE (getHeap q g dm vm).2, DescOk p.2.1 ∧ 6 < p.1) ∧ ((valsE (getHeap q g dm vm).2).map Prod.fst).Nodup := by
  obtain ⟨_, _, _, _, h1, h2, h3⟩ := getHeap_gen hok q (idealEnc : Rest → PyValue → Rest × PyValue) dm vm
  rw [getHeap_ideal] at h1 h2 h3
  refine ⟨?_, ?_, h3⟩
  · intro p hp
    obtain ⟨i, o, x, hx, _, rfl⟩ := (h1 p).1 hp
    exact hr o x (deref_some hx).2
  · intro p hp
    obtain ⟨i, o, x, v, hx, _, rfl⟩ := (h2 p).1 hp
    refine ⟨hr o x (deref_some hx).2, ?_⟩
    show 6 < x.id
    rw [(hok.consistent.byId _ _ _ hx).1]
    exact h6 _ _ _ hx

/-- The sender and the receiver follow the ideal ones. -/
theorem run_refine {f : Setup} (hT : PyDescr.Spec.Faithful f.text) (hw1 : 1 ≤ f.w) (hw7 : f.w ≤ 7) : ∀ (ops : List Op) {S S' : Sender}
    {hs : List (List Entry × List SendItem)} {s s' : Spead2.Spec.SyncState Rest PyValue} {rxs : List (List RxItem)}, s.grp = S.grp → s.gen = S.gen →
    GroupOk s.grp → GroupOk s.recv → (∀ i o x, s.grp.getId i = some (o, x) → 6 < i) → RestsOk s.grp →
    (∀ i n d v, Op.add i n d v ∈ ops → PyDescr.Spec.Plain (d.full 0 n)) → (∀ op ∈ ops, Proper op) → runSender f S ops = some (S', hs) →
    Spead2.Spec.runSync idealEnc idealDec s (ops.map Op.toSync) = some s' → (∀ h ∈ hs, Sendable f h.1) → List.Forall₂ (fun h rx => Arrived f.w h.2 rx) hs rxs →
    s'.grp = S'.grp ∧ s'.gen = S'.gen ∧ runReceiver f s.recv rxs = some s'.recv := by
  intro ops
  induction ops with
  | nil =>
    intro S S' hs s s' rxs e1 e2 _ _ _ _ _ _ h1 h2 _ h3
    cases h1; cases h2; cases h3
    exact ⟨e1, e2, rfl⟩
  | cons op ops ih =>
    intro S S' hs s s' rxs e1 e2 ok1 ok2 h6 hr hpl hprop h1 h2 h3 h4
    rw [runSender] at h1
    rw [List.map_cons, Spead2.Spec.runSync] at h2
    cases hop : op.run f S with
    | none => rw [hop] at h1; cases h1
    | some q =>
      obtain ⟨S1, hs1⟩ := q
      rw [hop] at h1
      simp only [Option.map_eq_some_iff, Prod.mk.injEq] at h1
      obtain ⟨⟨S2, hs2⟩, h1, rfl, rfl⟩ := h1
      simp only [] at h3 h4
      cases hsy : op.toSync.run idealEnc idealDec s with
      | none => rw [hsy] at h2; cases h2
      | some s1 =>
        rw [hsy] at h2
        simp only [] at h2
        have hpl' : ∀ i n d v, Op.add i n d v ∈ ops → PyDescr.Spec.Plain (d.full 0 n) := fun i n d v h => hpl i n d v (List.mem_cons_of_mem _ h)
        have hprop' : ∀ op ∈ ops, Proper op := fun o h => hprop o (List.mem_cons_of_mem _ h)
        obtain ⟨ok1', h6'⟩ := sender_ok (enc := idealEnc) (dec := idealDec) [op.toSync] (s := s) (s' := s1) ok1 h6
          (by intro o ho; rw [List.mem_singleton.1 ho]; exact proper_sync (hprop op List.mem_cons_self))
          (by simp only [Spead2.Spec.runSync, hsy])
        cases op with
        | add i n d v =>
          simp only [Op.run] at hop
          simp only [Op.toSync, Spead2.Spec.SyncOp.run] at hsy
          cases hm : (mkDescriptor (d.full 0 n)).isNone with
          | true => simp [hm] at hop
          | false =>
            simp only [hm, Bool.false_eq_true, if_false, Option.map_eq_some_iff, Prod.mk.injEq] at hop
            obtain ⟨⟨g1, ret⟩, a1, rfl, rfl⟩ := hop
            rw [e1, a1] at hsy
            cases hsy
            have hd := descOk_of hm (hpl i n d v List.mem_cons_self)
            exact ih (S := ⟨g1, S.gen⟩) (s := ⟨g1, s.gen, s.recv⟩) rfl e2 ok1' ok2 h6' (RestsOk.addItem (e1 ▸ hr) hd a1) hpl' hprop' h1 h2 h3 h4
        | set o v =>
          simp only [Op.run, Option.some.injEq, Prod.mk.injEq] at hop
          obtain ⟨rfl, rfl⟩ := hop
          simp only [Op.toSync, Spead2.Spec.SyncOp.run, Option.some.injEq] at hsy
          subst hsy
          exact ih (S := ⟨S.grp.setValue o v, S.gen⟩) (s := ⟨s.grp.setValue o v, s.gen, s.recv⟩) (by simp only [e1]) e2 ok1' ok2 h6' (hr.setValue o v) hpl' hprop' h1 h2 h3 h4
        | bump o =>
          simp only [Op.run, Option.some.injEq, Prod.mk.injEq] at hop
          obtain ⟨rfl, rfl⟩ := hop
          simp only [Op.toSync, Spead2.Spec.SyncOp.run, Option.some.injEq] at hsy
          subst hsy
          exact ih (S := ⟨S.grp.bump o, S.gen⟩) (s := ⟨s.grp.bump o, s.gen, s.recv⟩) (by simp only [e1]) e2 ok1' ok2 h6' (hr.bump o) hpl' hprop' h1 h2 h3 h4
        | send dm vm =>
          simp only [Op.run, Option.map_eq_some_iff, Prod.mk.injEq] at hop
          obtain ⟨items, a1, rfl, rfl⟩ := hop
          simp only [Op.toSync, Spead2.Spec.SyncOp.run] at hsy
          split at hsy
          · rename_i r hu
            cases hsy
            rw [List.singleton_append] at h3 h4
            cases h4 with
            | cons ha hrest =>
              rename_i rx rxs'
              obtain ⟨d1, d2, d3⟩ := heap_rests (q := S.gen) (g := S.grp) (e1 ▸ ok1) (e1 ▸ hr) (e1 ▸ h6) dm vm
              unfold Spead2.Spec.SyncState.heap at hu
              rw [getHeap_ideal, e1, e2] at hu
              have hupd := update_refine hT hw1 hw7 a1 (h3 _ List.mem_cons_self) d1 d2 d3 ha ok2 hu
              have ok2' : GroupOk r := by
                obtain ⟨g', k1, k2⟩ := calls_total (R := Rest × PyValue) idealDec [.update ⟨descsE (getHeap S.gen S.grp dm vm).2, valsE (getHeap S.gen S.grp dm vm).2⟩] ok2
                simp only [Spead2.Spec.runCalls, Spead2.Spec.GroupCall.run, hu, Option.map_some, Option.some.injEq] at k1
                rw [k1]; exact k2
              obtain ⟨c1, c2, c3⟩ := ih (S := ⟨S.grp, (getHeap S.gen S.grp dm vm).1⟩) (s := ⟨s.grp, _, r⟩) e1 (by rw [getHeap_ideal, e1, e2]) ok1' ok2' h6' hr hpl' hprop' h1 h2
                (fun h hh => h3 h (List.mem_cons_of_mem _ hh)) hrest
              refine ⟨c1, c2, ?_⟩
              rw [runReceiver, hupd]
              exact c3
          · cases hsy

/-- The group of a sender. -/
theorem run_ok {f : Setup} : ∀ (ops : List Op) {S S' : Sender} {hs : List (List Entry × List SendItem)}, GroupOk S.grp → (∀ i o x, S.grp.getId i = some (o, x) → 6 < i) → RestsOk S.grp →
    (∀ i n d v, Op.add i n d v ∈ ops → PyDescr.Spec.Plain (d.full 0 n)) → (∀ op ∈ ops, Proper op) → runSender f S ops = some (S', hs) →
    GroupOk S'.grp ∧ (∀ i o x, S'.grp.getId i = some (o, x) → 6 < i) ∧ RestsOk S'.grp := by
  intro ops
  induction ops with
  | nil => intro S S' hs h1 h2 h3 _ _ h; cases h; exact ⟨h1, h2, h3⟩
  | cons op ops ih =>
    intro S S' hs h1 h2 h3 hpl hprop h
    rw [runSender] at h
    cases hop : op.run f S with
    | none => rw [hop] at h; cases h
    | some q =>
      obtain ⟨S1, hs1⟩ := q
      rw [hop] at h
      simp only [Option.map_eq_some_iff, Prod.mk.injEq] at h
      obtain ⟨⟨S2, hs2⟩, h, rfl, rfl⟩ := h
      have hp := hprop op List.mem_cons_self
      have hpl' : ∀ i n d v, Op.add i n d v ∈ ops → PyDescr.Spec.Plain (d.full 0 n) := fun i n d v h => hpl i n d v (List.mem_cons_of_mem _ h)
      have hprop' : ∀ op ∈ ops, Proper op := fun o h => hprop o (List.mem_cons_of_mem _ h)
      cases op with
      | add i n d v =>
        simp only [Op.run] at hop
        cases hm : (mkDescriptor (d.full 0 n)).isNone with
        | true => simp [hm] at hop
        | false =>
          simp only [hm, Bool.false_eq_true, if_false, Option.map_eq_some_iff, Prod.mk.injEq] at hop
          obtain ⟨⟨g1, ret⟩, a1, rfl, rfl⟩ := hop
          have hd := descOk_of hm (hpl i n d v List.mem_cons_self)
          obtain ⟨x, k6, hx⟩ := addItem_id a1 (by intro k hk; subst hk; exact hp)
          have st := addNew_step h1 h2 k6 hx (strict := False) (used := fun _ => True) (fun e => e.elim)
          exact ih (S := ⟨g1, S.gen⟩) st.ok st.ids (RestsOk.addItem h3 hd a1) hpl' hprop' h
      | set o v =>
        simp only [Op.run, Option.some.injEq, Prod.mk.injEq] at hop
        obtain ⟨rfl, rfl⟩ := hop
        have st := setValue_step (strict := False) (used := fun _ => True) h1 h2 o v
        exact ih (S := ⟨S.grp.setValue o v, S.gen⟩) st.ok st.ids (h3.setValue o v) hpl' hprop' h
      | bump o =>
        simp only [Op.run, Option.some.injEq, Prod.mk.injEq] at hop
        obtain ⟨rfl, rfl⟩ := hop
        have st := bump_step (strict := False) (used := fun _ => True) h1 h2 o
        exact ih (S := ⟨S.grp.bump o, S.gen⟩) st.ok st.ids (h3.bump o) hpl' hprop' h
      | send dm vm =>
        simp only [Op.run, Option.map_eq_some_iff, Prod.mk.injEq] at hop
        obtain ⟨items, a1, rfl, rfl⟩ := hop
        exact ih (S := ⟨S.grp, (getHeap S.gen S.grp dm vm).1⟩) h1 h2 h3 hpl' hprop' h

/-- The heaps of a sender. -/
theorem heaps_ok {f : Setup} : ∀ (ops : List Op) {S S' : Sender} {hs : List (List Entry × List SendItem)}, GroupOk S.grp → (∀ i o x, S.grp.getId i = some (o, x) → 6 < i) → RestsOk S.grp →
    (∀ i n d v, Op.add i n d v ∈ ops → PyDescr.Spec.Plain (d.full 0 n)) → (∀ op ∈ ops, Proper op) → runSender f S ops = some (S', hs) →
    ∀ h ∈ hs, h.1.mapM (pack f) = some h.2 ∧ (∀ p ∈ descsE h.1, DescOk p.2.2) ∧ (∀ p ∈ valsE h.1, DescOk p.2.1 ∧ 6 < p.1) ∧ ((valsE h.1).map Prod.fst).Nodup := by
  intro ops
  induction ops with
  | nil => intro S S' hs _ _ _ _ _ h; cases h; simp
  | cons op ops ih =>
    intro S S' hs h1 h2 h3 hpl hprop h
    rw [runSender] at h
    cases hop : op.run f S with
    | none => rw [hop] at h; cases h
    | some q =>
      obtain ⟨S1, hs1⟩ := q
      rw [hop] at h
      simp only [Option.map_eq_some_iff, Prod.mk.injEq] at h
      obtain ⟨⟨S2, hs2⟩, h, rfl, rfl⟩ := h
      obtain ⟨k1, k2, k3⟩ := run_ok (f := f) [op] (S := S) (S' := S1) (hs := hs1) h1 h2 h3
        (by intro i n d v hm; rw [List.mem_singleton] at hm; exact hpl i n d v (hm ▸ List.mem_cons_self))
        (by intro o ho; rw [List.mem_singleton.1 ho]; exact hprop op List.mem_cons_self)
        (by simp only [runSender, hop, Option.map_some, List.append_nil])
      have hrest := ih k1 k2 k3 (fun i n d v h => hpl i n d v (List.mem_cons_of_mem _ h)) (fun o h => hprop o (List.mem_cons_of_mem _ h)) h
      intro x hx
      rcases List.mem_append.1 hx with hx | hx
      · cases op with
        | add i n d v =>
          simp only [Op.run] at hop
          split at hop
          · cases hop
          · simp only [Option.map_eq_some_iff, Prod.mk.injEq] at hop
            obtain ⟨_, _, _, rfl⟩ := hop
            cases hx
        | set o v => cases hop; cases hx
        | bump o => cases hop; cases hx
        | send dm vm =>
          simp only [Op.run, Option.map_eq_some_iff, Prod.mk.injEq] at hop
          obtain ⟨items, a1, rfl, rfl⟩ := hop
          rw [List.mem_singleton.1 hx]
          exact ⟨a1, heap_rests h1 h3 h2 dm vm⟩
      · exact hrest x hx

/-- What C74 says about a heap with everything. -/
theorem send_all {g r : PyGroup Rest PyValue} (hg : GroupOk g) (h6 : ∀ i o x, g.getId i = some (o, x) → 6 < i) (hr : GroupOk r) {q : PyGen} :
    ∃ r', r.update idealDec (q.getHeap g idealEnc .all .all).2 = some (r', false) ∧ Mirrors g r' := by
  have hfate : ∀ (o : Nat) (x : PyItemObj Rest PyValue), (q.fate .all .all o x).1 = true ∧ (q.fate .all .all o x).2.1 = x.value := by
    intro o x
    refine ⟨rfl, ?_⟩
    simp only [PyGen.fate, decideData]
    cases x.value with
    | none => rfl
    | some v => simp
  obtain ⟨r', h1, _, h3⟩ := send_core ideal_codec (q := q) (dm := .all) (vm := .all) hg hr h6 (fun i o x _ _ => Or.inl (hfate o x).1)
  refine ⟨r', h1, ?_⟩
  intro i o x hx
  obtain ⟨v1, v2, _⟩ := h3 i o x hx
  have e := (hg.consistent.byId _ _ _ hx).1
  rw [e] at v1 v2
  cases hv : x.value with
  | none => exact v1 (Or.inl (hfate o x).1)
  | some v => exact v2 v (by rw [(hfate o x).2]; exact hv)

end Spead2.PyWire
