import Mathlib.Data.List.Forall2
import Verif.Lemmas.Delivery

/-!
# What a stream makes of groups of heaps that arrive in order
-/

namespace Spead2
open Spec

/-! ### Batches -/

theorem presents_cons {op : StreamOp} {ops : List StreamOp} {ps : List Pkt} (h : Presents (op :: ops) ps) :
    ∃ l : List Pkt, op = .batch (l.map .packet) ∧ ∃ ps', ps = l ++ ps' ∧ Presents ops ps' := by
  obtain ⟨h1, h2⟩ := h
  have ho := h1 op List.mem_cons_self
  match op, ho with
  | .batch l, ho =>
    have hl : ∃ m : List Pkt, l = m.map .packet ∧ batchPackets l = m := by
      clear h1 h2
      induction l with
      | nil => exact ⟨[], rfl, rfl⟩
      | cons b l ih =>
        obtain ⟨m, hm1, hm2⟩ := ih (fun c hc => ho c (List.mem_cons_of_mem _ hc))
        cases b with
        | stop => exact absurd rfl (ho .stop List.mem_cons_self)
        | packet p => exact ⟨p :: m, by rw [hm1]; rfl, by show p :: batchPackets l = _; rw [hm2]⟩
    obtain ⟨m, hm1, hm2⟩ := hl
    refine ⟨m, by rw [hm1], presented ops, ?_, fun o ho => h1 o (List.mem_cons_of_mem _ ho), rfl⟩
    rw [← h2, ← hm2]
    rfl

theorem presents_batches : ∀ {ops : List StreamOp} {ps : List Pkt}, Presents ops ps → ∃ ls : List (List BatchOp), ops = ls.map .batch ∧ ls.flatten = ps.map .packet
  | [], ps, h => ⟨[], rfl, by rw [← h.2]; rfl⟩
  | op :: ops, ps, h => by
    obtain ⟨l, rfl, ps', rfl, h'⟩ := presents_cons h
    obtain ⟨ls, h1, h2⟩ := presents_batches h'
    exact ⟨l.map .packet :: ls, by rw [h1]; rfl, by rw [List.flatten_cons, h2, List.map_append]⟩

/-- How packets are split into batches does not matter for what is handed over. -/
theorem presents_same {cfg : StreamConfig} (hm : 0 < cfg.maxHeaps) (hsub : 0 < cfg.substreams) {ps : List Pkt} (hv : ∀ p ∈ ps, PktValid p) {ops1 ops2 : List StreamOp}
    (h1 : Presents ops1 ps) (h2 : Presents ops2 ps) {s1 s2 : Stream} {o1 o2 : List Entry} (hr1 : Stream.run cfg ops1 (Stream.new cfg) = some (s1, o1)) (hr2 : Stream.run cfg ops2 (Stream.new cfg) = some (s2, o2)) : o1 = o2 := by
  have key : ∀ {ops : List StreamOp} {s : Stream} {o : List Entry}, Presents ops ps → Stream.run cfg ops (Stream.new cfg) = some (s, o) →
      ∃ a t, ({} : AStream).step cfg (.batch (ps.map .packet)) = some (a, t) ∧ handedOver t = o := by
    intro ops s o hp hr
    have hval : ∀ op ∈ ops, op.Valid := by
      intro op hop
      have h1 := hp.1 op hop
      match op, h1 with
      | .batch l, h1 =>
        intro p hpl
        apply hv
        rw [← hp.2]
        unfold presented
        rw [List.mem_flatMap]
        exact ⟨_, hop, List.mem_filterMap.2 ⟨_, hpl, rfl⟩⟩
    obtain ⟨a, t, s', k1, k2, -⟩ := run_refine hm hsub ops hval (Rel.new cfg) (AInv.new cfg) [] rfl
    rw [hr] at k2
    obtain ⟨rfl, rfl⟩ := Prod.mk.inj (Option.some.inj k2)
    obtain ⟨ls, rfl, hls⟩ := presents_batches hp
    obtain ⟨t', k3, k4⟩ := batches_merge cfg [] ls (a := {}) rfl k1 (fun _ => rfl)
    rw [List.append_nil, hls] at k3
    exact ⟨a, t', k3, k4⟩
  obtain ⟨a1, t1, k1, k2⟩ := key h1 hr1
  obtain ⟨a2, t2, k3, k4⟩ := key h2 hr2
  rw [k1] at k3
  obtain ⟨-, rfl⟩ := Prod.mk.inj (Option.some.inj k3)
  rw [← k2, ← k4]

theorem stream_run_split {cfg : StreamConfig} : ∀ {a b : List StreamOp} {s s2 : Stream} {o : List Entry}, Stream.run cfg (a ++ b) s = some (s2, o) →
    ∃ s1 o1 o2, Stream.run cfg a s = some (s1, o1) ∧ Stream.run cfg b s1 = some (s2, o2) ∧ o = o1 ++ o2
  | [], b, s, s2, o, h => ⟨s, [], o, rfl, h, rfl⟩
  | op :: a, b, s, s2, o, h => by
    rw [List.cons_append, Stream.run] at h
    cases h3 : s.step cfg op with
    | none => rw [h3] at h; simp at h
    | some x =>
      rw [h3] at h
      simp only [Option.bind_eq_bind, Option.bind_some] at h
      cases h4 : Stream.run cfg (a ++ b) x.1 with
      | none => rw [h4] at h; simp at h
      | some y =>
        rw [h4] at h
        simp only [Option.bind_some, Option.some.injEq, Prod.mk.injEq] at h
        obtain ⟨s1, o1, o2, k1, k2, k3⟩ := stream_run_split h4
        refine ⟨s1, x.2 ++ o1, o2, ?_, by rw [← h.1]; exact k2, by rw [← h.2, k3, List.append_assoc]⟩
        rw [Stream.run, h3]
        simp only [Option.bind_eq_bind, Option.bind_some, k1]

section
variable {cfg : StreamConfig} {gs : List SentGroup}

/-- The packets of some groups, as a stream sees them. -/
def groupPkts (gs : List SentGroup) : List Pkt := (gs.flatMap SentGroup.wire).map recvOr

theorem delivery_orderly (hm : 0 < cfg.maxHeaps) (hok : ∀ x ∈ gs.flatMap SentGroup.heaps, x.Ok) (hdel : Deliverable cfg gs) : Orderly cfg (groupPkts gs) := by
  refine (delivery_arrival hm hok hdel).orderly hok ?_ ?_
  · rw [← flatMap_cnts]; exact hdel.distinct
  · intro hs x hx
    obtain ⟨g, hg, hxg⟩ := List.mem_flatMap.1 hx
    exact hdel.nostop hs g hg x hxg

/-- All heaps are handed over, and nothing else. -/
theorem delivery_out (hm : 0 < cfg.maxHeaps) (hsub : 0 < cfg.substreams) (hok : ∀ x ∈ gs.flatMap SentGroup.heaps, x.Ok) (hdel : Deliverable cfg gs)
    (hi : ∀ x ∈ gs.flatMap SentGroup.heaps, NoEmpty x.width x.heap.items ∨ (heapPtrs x.mps x.heap).Nodup) {ops : List StreamOp} (hp : Presents ops (groupPkts gs)) :
    ∃ s out, Stream.run cfg ops (Stream.new cfg) = some (s, out) ∧ s.stopped = false ∧ liveHeaps s = [] ∧ (out.map (fun e => e.heap.cnt)).Perm (gs.flatMap SentGroup.cnts) ∧
      ∀ x ∈ gs.flatMap SentGroup.heaps, ∃ e ∈ out, SameItems x e.heap := by
  have ar := delivery_arrival hm hok hdel
  have hd : ((gs.flatMap SentGroup.heaps).map Sent.cnt).Nodup := by rw [← flatMap_cnts]; exact hdel.distinct
  have ord := delivery_orderly hm hok hdel
  obtain ⟨s, out, h1, h2, h3, h4, h5⟩ := C55_traffic cfg hm hsub _ ord ops hp
  have hnd : ((out ++ liveHeaps s).map (fun e : Entry => e.heap.cnt)).Nodup := h3.nodup_iff.2 (nodup_cntsOf _)
  have hcn : ∀ c, c ∈ cntsOf (groupPkts gs) → ∃ x ∈ gs.flatMap SentGroup.heaps, x.cnt = c := by
    intro c hc
    rw [mem_cntsOf] at hc
    obtain ⟨p, hpm, rfl⟩ := List.mem_map.1 hc
    obtain ⟨d, hdm, rfl⟩ := List.mem_map.1 hpm
    obtain ⟨x, hx, hdx⟩ := ar.origin d hdm
    obtain ⟨S, r⟩ := (hok x hx).rx
    exact ⟨x, hx, (r.cnt hdx).symm⟩
  have hsame : ∀ x ∈ gs.flatMap SentGroup.heaps, ∃ e ∈ out, SameItems x e.heap := by
    intro x hx
    obtain ⟨h, ha, hs⟩ := arrives_assemble (cfg := cfg) hok hd ar.origin hx (delivery_arrives hok hdel.distinct hx (hi x hx))
    have hmem : x.cnt ∈ cntsOf (groupPkts gs) := by
      rw [mem_cntsOf]
      apply Classical.byContradiction
      intro hn
      have := ofCnt_nil hn
      unfold groupPkts at this
      rw [this] at ha
      simp [assemble] at ha
    obtain ⟨e, he, hec⟩ := List.mem_map.1 (h3.symm.subset hmem)
    have hme := (h4 e he).2
    rw [hec] at hme
    unfold groupPkts at hme
    rw [ha] at hme
    have heq : h = e.heap := Option.some.inj hme
    rcases List.mem_append.1 he with ho | hl
    · exact ⟨e, ho, heq ▸ hs⟩
    · have := h5 e hl
      rw [← heq, hs.2.1] at this
      cases this
  have hlive : liveHeaps s = [] := by
    rw [List.eq_nil_iff_forall_not_mem]
    intro e he
    obtain ⟨x, hx, hxc⟩ := hcn e.heap.cnt (h3.subset (List.mem_map.2 ⟨e, List.mem_append_right _ he, rfl⟩))
    obtain ⟨e', he', hs⟩ := hsame x hx
    rw [List.map_append, List.nodup_append] at hnd
    exact hnd.2.2 _ (List.mem_map_of_mem he') _ (List.mem_map_of_mem he) (by show e'.heap.cnt = e.heap.cnt; rw [hs.1, hxc])
  refine ⟨s, out, h1, h2, hlive, ?_, hsame⟩
  rw [hlive, List.append_nil] at h3 hnd
  rw [List.perm_ext_iff_of_nodup hnd hdel.distinct]
  intro c
  constructor
  · intro hc
    obtain ⟨x, hx, rfl⟩ := hcn c (h3.subset hc)
    exact mem_cnts hx
  · intro hc
    rw [flatMap_cnts] at hc
    obtain ⟨x, hx, rfl⟩ := List.mem_map.1 hc
    obtain ⟨e, he, hs⟩ := hsame x hx
    exact List.mem_map.2 ⟨e, he, hs.1⟩

/-! ### In order -/

/-- The packets of one group, as one batch. -/
def groupBatch (g : SentGroup) : StreamOp := .batch ((g.wire.map recvOr).map .packet)

theorem batchPackets_map (l : List Pkt) : batchPackets (l.map .packet) = l := by
  induction l with
  | nil => rfl
  | cons p l ih => show p :: batchPackets (l.map .packet) = _; rw [ih]

theorem presents_groups (gs : List SentGroup) : Presents (gs.map groupBatch) (groupPkts gs) := by
  constructor
  · intro op hop
    obtain ⟨g, -, rfl⟩ := List.mem_map.1 hop
    intro b hb
    obtain ⟨p, -, rfl⟩ := List.mem_map.1 hb
    simp
  · induction gs with
    | nil => rfl
    | cons g gs ih =>
      show batchPackets _ ++ presented (gs.map groupBatch) = _
      rw [ih, batchPackets_map]
      unfold groupPkts
      rw [List.flatMap_cons, List.map_append]

theorem _root_.Spead2.Spec.Deliverable.left {a b : List SentGroup} (h : Deliverable cfg (a ++ b)) : Deliverable cfg a := by
  refine ⟨?_, fun g hg => h.few g (List.mem_append_left _ hg), fun hs g hg => h.nostop hs g (List.mem_append_left _ hg)⟩
  have := h.distinct
  rw [List.flatMap_append] at this
  exact (List.nodup_append.1 this).1

/-- Group after group. -/
theorem delivery_groups (hm : 0 < cfg.maxHeaps) (hsub : 0 < cfg.substreams) : ∀ (us pre : List SentGroup), (∀ x ∈ (pre ++ us).flatMap SentGroup.heaps, x.Ok) → Deliverable cfg (pre ++ us) →
    (∀ x ∈ (pre ++ us).flatMap SentGroup.heaps, NoEmpty x.width x.heap.items ∨ (heapPtrs x.mps x.heap).Nodup) → ∀ {s1 : Stream} {o1 : List Entry},
    Stream.run cfg (pre.map groupBatch) (Stream.new cfg) = some (s1, o1) → ∃ s outs, Stream.run cfg (us.map groupBatch) s1 = some (s, outs.flatten) ∧
      List.Forall₂ (fun (u : SentGroup) (o : List Entry) => (o.map (fun e => e.heap.cnt)).Perm u.cnts) us outs
  | [], pre, hok, hdel, hi, s1, o1, h => ⟨s1, [], rfl, .nil⟩
  | u :: us, pre, hok, hdel, hi, s1, o1, h => by
    have e : pre ++ u :: us = (pre ++ [u]) ++ us := by simp
    have hsub1 : ∀ x ∈ pre.flatMap SentGroup.heaps, x ∈ (pre ++ u :: us).flatMap SentGroup.heaps := fun x hx => by rw [List.flatMap_append]; exact List.mem_append_left _ hx
    have hsub2 : ∀ x ∈ (pre ++ [u]).flatMap SentGroup.heaps, x ∈ (pre ++ u :: us).flatMap SentGroup.heaps := fun x hx => by rw [e, List.flatMap_append]; exact List.mem_append_left _ hx
    obtain ⟨sa, oa, a1, -, -, a2, -⟩ := delivery_out hm hsub (fun x hx => hok x (hsub1 x hx)) hdel.left (fun x hx => hi x (hsub1 x hx)) (presents_groups pre)
    obtain ⟨sb, ob, b1, -, -, b2, -⟩ := delivery_out hm hsub (fun x hx => hok x (hsub2 x hx)) ((e ▸ hdel : Deliverable cfg ((pre ++ [u]) ++ us)).left) (fun x hx => hi x (hsub2 x hx)) (presents_groups (pre ++ [u]))
    rw [h] at a1
    obtain ⟨rfl, rfl⟩ := Prod.mk.inj (Option.some.inj a1)
    have b1' := b1
    rw [List.map_append] at b1
    obtain ⟨s1', o1', o2, k1, k2, k3⟩ := stream_run_split b1
    rw [h] at k1
    obtain ⟨rfl, rfl⟩ := Prod.mk.inj (Option.some.inj k1)
    obtain ⟨s, outs, c1, c2⟩ := delivery_groups hm hsub us (pre ++ [u]) (e ▸ hok) (e ▸ hdel) (e ▸ hi) b1'
    refine ⟨s, o2 :: outs, ?_, .cons ?_ c2⟩
    · exact stream_run_append (a := [groupBatch u]) k2 c1
    · rw [k3, List.map_append, List.flatMap_append] at b2
      have b3 := (a2.symm.append_right (o2.map (fun e => e.heap.cnt))).trans b2
      rw [List.perm_append_left_iff] at b3
      simpa using b3

/-- A serial group is as good as its heaps one by one. -/
def units (g : SentGroup) : List SentGroup :=
  match g.mode with
  | .serial => g.heaps.map (fun x => ⟨.serial, [x]⟩)
  | .roundRobin => [g]

theorem units_heaps (g : SentGroup) : (units g).flatMap SentGroup.heaps = g.heaps := by
  unfold units
  split
  · rw [List.flatMap_map]; simp
  · simp

theorem units_wire (g : SentGroup) : (units g).flatMap SentGroup.wire = g.wire := by
  unfold units
  split
  · rename_i h
    rw [List.flatMap_map]
    show g.heaps.flatMap (fun x => [x.wire].flatten) = _
    unfold SentGroup.wire
    rw [h]
    simp [List.flatMap_def]
  · simp

theorem units_all {f : SentGroup → List α} (h : ∀ g, (units g).flatMap f = f g) (gs : List SentGroup) : (gs.flatMap units).flatMap f = gs.flatMap f := by
  induction gs with
  | nil => rfl
  | cons g gs ih => rw [List.flatMap_cons, List.flatMap_append, ih, h, List.flatMap_cons]

theorem units_deliverable (h : Deliverable cfg gs) : Deliverable cfg (gs.flatMap units) := by
  refine ⟨?_, ?_, ?_⟩
  · have := h.distinct
    rw [flatMap_cnts] at this ⊢
    rw [units_all units_heaps]
    exact this
  · intro u hu hr
    obtain ⟨g, hg, hu⟩ := List.mem_flatMap.1 hu
    unfold units at hu
    split at hu
    · obtain ⟨x, -, rfl⟩ := List.mem_map.1 hu
      cases hr
    · rw [List.mem_singleton.1 hu] at hr ⊢
      exact h.few g hg hr
  · intro hs u hu x hx
    have : x ∈ (gs.flatMap units).flatMap SentGroup.heaps := List.mem_flatMap.2 ⟨u, hu, hx⟩
    rw [units_all units_heaps] at this
    obtain ⟨g, hg, hxg⟩ := List.mem_flatMap.1 this
    exact h.nostop hs g hg x hxg

theorem forall₂_split {α β : Type} {R : α → β → Prop} : ∀ {A B : List α} {l : List β}, List.Forall₂ R (A ++ B) l → ∃ l1 l2, l = l1 ++ l2 ∧ List.Forall₂ R A l1 ∧ List.Forall₂ R B l2
  | [], B, l, h => ⟨[], l, rfl, .nil, h⟩
  | a :: A, B, l, h => by
    cases h with
    | cons h1 h2 =>
      obtain ⟨l1, l2, rfl, k1, k2⟩ := forall₂_split h2
      exact ⟨_ :: l1, l2, rfl, .cons h1 k1, k2⟩

/-- The outputs of the units of the groups, group by group. -/
theorem units_regroup : ∀ {gs : List SentGroup} {outs : List (List Entry)}, List.Forall₂ (fun (u : SentGroup) (o : List Entry) => (o.map (fun e => e.heap.cnt)).Perm u.cnts) (gs.flatMap units) outs →
    ∃ outs', outs'.flatten = outs.flatten ∧
      List.Forall₂ (fun (g : SentGroup) (o : List Entry) => (o.map (fun e => e.heap.cnt)).Perm g.cnts ∧ (g.mode = .serial → o.map (fun e => e.heap.cnt) = g.cnts)) gs outs'
  | [], outs, h => by
    cases h
    exact ⟨[], rfl, .nil⟩
  | g :: gs, outs, h => by
    rw [List.flatMap_cons] at h
    obtain ⟨l1, l2, rfl, k1, k2⟩ := forall₂_split h
    obtain ⟨outs', e, k3⟩ := units_regroup k2
    refine ⟨l1.flatten :: outs', by rw [List.flatten_cons, e, List.flatten_append], .cons ?_ k3⟩
    unfold units at k1
    split at k1
    · have : l1.flatten.map (fun e => e.heap.cnt) = g.cnts := by
        unfold SentGroup.cnts
        generalize g.heaps = hs at k1
        clear h k2 k3 e
        induction hs generalizing l1 with
        | nil => cases k1; rfl
        | cons x hs ih =>
          cases k1 with
          | cons c1 c2 =>
            rw [List.flatten_cons, List.map_append, ih _ c2, List.perm_singleton.1 c1]
            rfl
      exact ⟨by rw [this], fun _ => this⟩
    · rename_i hmode
      cases k1 with
      | cons c1 c2 =>
        cases c2
        refine ⟨by simpa using c1, fun h => ?_⟩
        rw [hmode] at h; cases h

/-- Groups that arrive in order are handed over in order. -/
theorem delivery_stream (hm : 0 < cfg.maxHeaps) (hsub : 0 < cfg.substreams) (hok : ∀ x ∈ gs.flatMap SentGroup.heaps, x.Ok) (hdel : Deliverable cfg gs)
    (hi : ∀ x ∈ gs.flatMap SentGroup.heaps, NoEmpty x.width x.heap.items ∨ (heapPtrs x.mps x.heap).Nodup) {ops : List StreamOp} (hp : Presents ops (groupPkts gs)) :
    ∃ s outs, Stream.run cfg ops (Stream.new cfg) = some (s, outs.flatten) ∧ s.stopped = false ∧ liveHeaps s = [] ∧ List.Forall₂ Arrives gs outs := by
  obtain ⟨s, out, h1, h2, h3, h4, h5⟩ := delivery_out hm hsub hok hdel hi hp
  have hpk : groupPkts (gs.flatMap units) = groupPkts gs := by unfold groupPkts; rw [units_all units_wire]
  obtain ⟨s', outs, k1, k2⟩ := delivery_groups hm hsub (gs.flatMap units) [] (by rw [List.nil_append, units_all units_heaps]; exact hok) (by rw [List.nil_append]; exact units_deliverable hdel)
    (by rw [List.nil_append, units_all units_heaps]; exact hi) (s1 := Stream.new cfg) (o1 := []) rfl
  have hsame := presents_same hm hsub (delivery_orderly hm hok hdel).valid hp (hpk ▸ presents_groups (gs.flatMap units)) h1 k1
  obtain ⟨outs', e, k3⟩ := units_regroup k2
  refine ⟨s, outs', by rw [e, ← hsame]; exact h1, h2, h3, ?_⟩
  have hnd : (out.map (fun e => e.heap.cnt)).Nodup := h4.nodup_iff.2 hdel.distinct
  have hout : ∀ o ∈ outs', ∀ e ∈ o, e ∈ out := by
    intro o ho x hx
    rw [hsame, ← e]
    exact List.mem_flatten.2 ⟨o, ho, hx⟩
  have hheaps : ∀ g ∈ gs, ∀ x ∈ g.heaps, ∃ e ∈ out, SameItems x e.heap := fun g hg x hx => h5 x (List.mem_flatMap.2 ⟨g, hg, hx⟩)
  clear h1 k1 k2 hsame e h4 h5 hp hpk hdel hok hi
  induction k3 with
  | nil => exact .nil
  | cons c1 c2 ih =>
    rename_i g o gs outs'
    refine .cons ⟨c1.1, ?_, c1.2⟩ (ih (fun o ho => hout o (List.mem_cons_of_mem _ ho)) (fun g hg => hheaps g (List.mem_cons_of_mem _ hg)))
    intro x hx
    obtain ⟨e, he, hs⟩ := hheaps g List.mem_cons_self x hx
    obtain ⟨e', he', hec⟩ := List.mem_map.1 (c1.1.symm.subset (List.mem_map_of_mem hx))
    have : e' = e := inj_of_nodup_map (fun e : Entry => e.heap.cnt) hnd e' (hout o List.mem_cons_self e' he') e he (by show e'.heap.cnt = e.heap.cnt; rw [hs.1]; exact hec)
    exact ⟨e, this ▸ he', hs⟩

end

end Spead2
