import Verif.Spec.Arrival
import Verif.Lemmas.TrafficSend

/-!
# C55: a stream loses nothing as long as not too many heaps overlap
-/

namespace Spead2
open Spec

theorem presents_valid {cfg : StreamConfig} {ps : List Pkt} (ord : Orderly cfg ps) {ops : List StreamOp} (hp : Presents ops ps) :
    ∀ op ∈ ops, op.Valid := by
  intro op hop
  have h1 := hp.1 op hop
  match op, h1 with
  | .batch l, h1 =>
    intro p hpl
    apply ord.valid
    rw [← hp.2]
    unfold presented
    rw [List.mem_flatMap]
    exact ⟨_, hop, List.mem_filterMap.2 ⟨_, hpl, rfl⟩⟩

/-- C55: orderly packets, however they are split into batches: for each heap cnt exactly one heap is handed
over or still live, made of exactly the packets with that cnt in order of arrival; and the live ones are
incomplete. -/
theorem C55_traffic (cfg : StreamConfig) (hm : 0 < cfg.maxHeaps) (hsub : 0 < cfg.substreams) (ps : List Pkt) (ord : Orderly cfg ps)
    (ops : List StreamOp) (hp : Presents ops ps) :
    ∃ s out, Stream.run cfg ops (Stream.new cfg) = some (s, out) ∧ s.stopped = false ∧
      ((out ++ liveHeaps s).map (fun e => e.heap.cnt)).Perm (cntsOf ps) ∧
      (∀ e ∈ out ++ liveHeaps s, MadeOf cfg ps e) ∧ ∀ e ∈ liveHeaps s, e.heap.isComplete = false := by
  obtain ⟨a, t, s, h1, h2, rel, inv, _⟩ := run_refine hm hsub ops (presents_valid ord hp) (Rel.new cfg) (AInv.new cfg) [] rfl
  have ti := (TInv.new cfg).run hm ops hp.1 (by rw [List.nil_append, hp.2]; exact ord) h1
  rw [List.nil_append, List.nil_append, hp.2] at ti
  have hperm : (handedOver t ++ liveHeaps s).Perm (handedOver t ++ entries a) := List.Perm.append_left _ (liveHeaps_perm hm rel inv)
  refine ⟨s, handedOver t, h2, by rw [rel.stopped]; exact ti.running, (hperm.map _).trans ti.cnts, ?_, ?_⟩
  · intro e he
    exact MadeOf.of_inv ti (hperm.subset he)
  · intro e he
    obtain ⟨r, hr, rfl⟩ := List.mem_map.1 ((liveHeaps_perm hm rel inv).subset he)
    exact (inv.ok r hr).2.2

theorem filter_of_nodup_map {α : Type} (f : α → Nat) : ∀ {l : List α} {e : α}, (l.map f).Nodup → e ∈ l →
    l.filter (fun x => f x = f e) = [e]
  | x :: l, e, hnd, he => by
    rw [List.map_cons, List.nodup_cons] at hnd
    rcases List.mem_cons.1 he with rfl | he
    · rw [List.filter_cons, if_pos (by simp), List.filter_eq_nil_iff.2]
      intro y hy hye
      exact hnd.1 (List.mem_map.2 ⟨y, hy, of_decide_eq_true hye⟩)
    · rw [List.filter_cons, if_neg, filter_of_nodup_map f hnd.2 he]
      intro hx
      exact hnd.1 (List.mem_map.2 ⟨e, he, (of_decide_eq_true hx).symm⟩)

/-- C55: a heap whose packets make it complete is handed over, once, as those packets make it. -/
theorem C55_complete_once (cfg : StreamConfig) (hm : 0 < cfg.maxHeaps) (hsub : 0 < cfg.substreams) (ps : List Pkt) (ord : Orderly cfg ps)
    (ops : List StreamOp) (hp : Presents ops ps) :
    ∃ s out, Stream.run cfg ops (Stream.new cfg) = some (s, out) ∧ s.stopped = false ∧
      (∀ c h, assemble cfg.allowOoo (ofCnt c ps) = some h → h.isComplete = true →
        ∃ e, out.filter (fun e => e.heap.cnt = c) = [e] ∧ e.heap = h) ∧
      ∀ e ∈ out, MadeOf cfg ps e := by
  obtain ⟨s, out, h1, h2, h3, h4, h5⟩ := C55_traffic cfg hm hsub ps ord ops hp
  refine ⟨s, out, h1, h2, ?_, fun e he => h4 e (List.mem_append_left _ he)⟩
  intro c h hc hcomp
  have hmem : c ∈ cntsOf ps := by
    rw [mem_cntsOf]
    apply Classical.byContradiction
    intro hn
    rw [ofCnt_nil hn] at hc
    simp [assemble] at hc
  obtain ⟨e, he, hec⟩ := List.mem_map.1 (h3.symm.subset hmem)
  have hme := h4 e he
  unfold MadeOf at hme
  rw [hec] at hme
  have heq : e.heap = h := by
    have := hme.2
    rw [hc] at this
    simpa using this.symm
  have hout : e ∈ out := by
    rcases List.mem_append.1 he with ho | hl
    · exact ho
    · have := h5 e hl
      rw [heq, hcomp] at this
      simp at this
  refine ⟨e, ?_, heq⟩
  have hnd : ((out ++ liveHeaps s).map (fun e : Entry => e.heap.cnt)).Nodup := h3.nodup_iff.2 (nodup_cntsOf _)
  rw [List.map_append] at hnd
  have := filter_of_nodup_map (fun e : Entry => e.heap.cnt) (List.nodup_append.1 hnd).1 hout
  rw [hec] at this
  exact this

theorem stream_run_append {cfg : StreamConfig} : ∀ {a b : List StreamOp} {s s1 s2 : Stream} {o1 o2 : List Entry},
    Stream.run cfg a s = some (s1, o1) → Stream.run cfg b s1 = some (s2, o2) → Stream.run cfg (a ++ b) s = some (s2, o1 ++ o2)
  | [], b, s, s1, s2, o1, o2, h, h2 => by
    simp only [Stream.run, Option.some.injEq, Prod.mk.injEq] at h
    obtain ⟨rfl, rfl⟩ := h
    simpa using h2
  | op :: a, b, s, s1, s2, o1, o2, h, h2 => by
    rw [List.cons_append]
    rw [Stream.run] at h ⊢
    cases h3 : s.step cfg op with
    | none => rw [h3] at h; simp at h
    | some x =>
      rw [h3] at h
      simp only [Option.bind_eq_bind, Option.bind_some] at h ⊢
      cases h4 : Stream.run cfg a x.1 with
      | none => rw [h4] at h; simp at h
      | some y =>
        rw [h4] at h
        simp only [Option.bind_some, Option.some.injEq, Prod.mk.injEq] at h
        rw [stream_run_append (s1 := s1) (o1 := y.2) (by rw [h4, ← h.1]) h2]
        simp only [Option.bind_some, ← h.2, List.append_assoc]

/-- C55: when the stream is then stopped, every heap of which any packet arrived has been handed over
exactly once, with all its packets. -/
theorem C55_stopped (cfg : StreamConfig) (hm : 0 < cfg.maxHeaps) (hsub : 0 < cfg.substreams) (ps : List Pkt) (ord : Orderly cfg ps)
    (ops : List StreamOp) (hp : Presents ops ps) :
    ∃ s out, Stream.run cfg (ops ++ [.stop]) (Stream.new cfg) = some (s, out) ∧ s.stopped = true ∧
      (out.map (fun e => e.heap.cnt)).Perm (cntsOf ps) ∧ ∀ e ∈ out, MadeOf cfg ps e := by
  obtain ⟨a, t, s, h1, h2, rel, inv, hst⟩ := run_refine hm hsub ops (presents_valid ord hp) (Rel.new cfg) (AInv.new cfg) [] rfl
  have ti := (TInv.new cfg).run hm ops hp.1 (by rw [List.nil_append, hp.2]; exact ord) h1
  rw [List.nil_append, List.nil_append, hp.2] at ti
  obtain ⟨a', t', s', g1, g2, rel', _⟩ := step_refine hm hsub rel inv .stop trivial ([] ++ t) hst
  simp only [AStream.step, ti.running, Bool.false_eq_true, if_false, AStream.halt, Option.some.injEq, Prod.mk.injEq] at g1
  obtain ⟨rfl, rfl⟩ := g1
  have hfl : handedOver ((a.flushed cfg).map Ev.flushed) = a.flushed cfg := heap_map (fun _ => rfl) _
  rw [hfl] at g2
  have hperm : (handedOver t ++ a.flushed cfg).Perm (handedOver t ++ entries a) := List.Perm.append_left _ (inv.flushed_perm hsub)
  refine ⟨s', handedOver t ++ a.flushed cfg, stream_run_append h2 ?_, by rw [rel'.stopped], (hperm.map _).trans ti.cnts, ?_⟩
  · rw [Stream.run, g2]; simp [Stream.run]
  · intro e he
    exact MadeOf.of_inv ti (hperm.subset he)

/-! ### From sender to receiver -/

theorem head_run {ooo : Bool} {S : List Pkt} {p0 : Pkt} {s : LiveHeap} {acc : List Pkt} (hh : S.head? = some p0)
    (h : (LiveHeap.new p0).run ooo S = some (s, acc)) : assemble ooo S = some s := by
  unfold assemble
  cases S with
  | nil => simp at hh
  | cons x l =>
    simp only [List.head?_cons, Option.some.injEq] at hh
    subst hh
    simp only
    rw [h]; rfl

theorem recvOr_of {d : Bytes} {p : Pkt} (h : recvPkt? d = some (some p)) : recvOr d = p := by
  unfold recvOr; rw [h]; rfl

/-- What the receiver makes of the datagrams of one heap. -/
structure Rx (x : Sent) (S : List Pkt) : Prop where
  sp : SentPkts x.heap x.cnt x.mps x.width x.pkts S
  wire : x.wire.map recvOr = S
  dec : ∀ d ∈ x.wire, recvPkt? d = some (some (recvOr d))

theorem _root_.Spead2.Spec.Sent.Ok.rx {x : Sent} (ok : x.Ok) : ∃ S, Rx x S := by
  obtain ⟨S, sp⟩ := sentPkts ok.hab ok.fits ok.ids ok.sends
  have hrecv : x.wire.map recvPkt? = S.map (fun p => some (some p)) := sp.recv
  refine ⟨S, sp, ?_, ?_⟩
  · have e : recvOr = (fun o : Option (Option Pkt) => (o.getD none).getD ⟨0, 0, none, 0, [], []⟩) ∘ recvPkt? := rfl
    rw [e, ← List.map_map, hrecv, List.map_map]
    simp [Function.comp_def]
  · intro d hd
    have : recvPkt? d ∈ x.wire.map recvPkt? := List.mem_map_of_mem hd
    rw [hrecv] at this
    obtain ⟨p, _, hp⟩ := List.mem_map.1 this
    rw [← hp, recvOr_of hp.symm]

theorem Rx.mem {x : Sent} {S : List Pkt} (r : Rx x S) {d : Bytes} (hd : d ∈ x.wire) : recvOr d ∈ S := by
  rw [← r.wire]; exact List.mem_map_of_mem hd

theorem Rx.cnt {x : Sent} {S : List Pkt} (r : Rx x S) {d : Bytes} (hd : d ∈ x.wire) : (recvOr d).heapCnt = x.cnt := r.sp.same _ (r.mem hd)

theorem Rx.inj {x : Sent} {S : List Pkt} (r : Rx x S) {a b : Bytes} (ha : a ∈ x.wire) (hb : b ∈ x.wire) (h : recvOr a = recvOr b) : a = b :=
  inj_of_nodup_map recvOr (l := x.wire) (by rw [r.wire]; exact r.sp.nodup) a ha b hb h

section
variable {cfg : StreamConfig} {sent : List Sent} {ds : List Bytes}

theorem cnt_iff (hok : ∀ x ∈ sent, x.Ok) (hd : (sent.map Sent.cnt).Nodup) (ho : ∀ d ∈ ds, ∃ x ∈ sent, d ∈ x.wire)
    {x : Sent} (hx : x ∈ sent) {d : Bytes} (hdm : d ∈ ds) : (recvOr d).heapCnt = x.cnt ↔ d ∈ x.wire := by
  constructor
  · intro h
    obtain ⟨y, hy, hdy⟩ := ho d hdm
    obtain ⟨S, r⟩ := (hok y hy).rx
    have : y = x := inj_of_nodup_map Sent.cnt hd y hy x hx ((r.cnt hdy).symm.trans h)
    exact this ▸ hdy
  · intro h
    obtain ⟨S, r⟩ := (hok x hx).rx
    exact r.cnt h

theorem among_ofCnt (hok : ∀ x ∈ sent, x.Ok) (hd : (sent.map Sent.cnt).Nodup) (ho : ∀ d ∈ ds, ∃ x ∈ sent, d ∈ x.wire)
    {x : Sent} (hx : x ∈ sent) : ofCnt x.cnt (ds.map recvOr) = (x.among ds).map recvOr := by
  unfold ofCnt Sent.among
  rw [List.filter_map]
  congr 1
  apply List.filter_congr
  intro d hdm
  simp only [Function.comp]
  exact decide_eq_decide.2 (cnt_iff hok hd ho hx hdm)

theorem map_split {f : Bytes → Pkt} {l : List Bytes} {l1 l2 : List Pkt} {p : Pkt} (h : l.map f = l1 ++ p :: l2) :
    ∃ m1 d m2, l = m1 ++ d :: m2 ∧ m1.map f = l1 ∧ f d = p ∧ m2.map f = l2 := by
  obtain ⟨m1, m, rfl, h1, h2⟩ := List.map_eq_append_iff.1 h
  obtain ⟨d, m2, rfl, h3, h4⟩ := List.map_eq_cons_iff.1 h2
  exact ⟨m1, d, m2, rfl, h1, h3, h4⟩

/-- Benign networks deliver orderly traffic. -/
theorem _root_.Spead2.Spec.Arrival.orderly (hok : ∀ x ∈ sent, x.Ok) (hd : (sent.map Sent.cnt).Nodup) (ar : Arrival cfg sent ds)
    (hstop : cfg.stopOnStopItem = true → ∀ x ∈ sent, (6, 2) ∉ immediateItems x.width x.heap.items) :
    Orderly cfg (ds.map recvOr) := by
  have hsrc : ∀ d ∈ ds, ∃ x ∈ sent, d ∈ x.wire ∧ ∃ S, Rx x S ∧ recvOr d ∈ S := by
    intro d hdm
    obtain ⟨x, hx, hdx⟩ := ar.origin d hdm
    obtain ⟨S, r⟩ := (hok x hx).rx
    exact ⟨x, hx, hdx, S, r, r.mem hdx⟩
  have hiff : ∀ {l : List Bytes}, (∀ d ∈ l, d ∈ ds) → ∀ x ∈ sent, ∀ d ∈ l, (recvOr d).heapCnt = x.cnt ↔ d ∈ x.wire :=
    fun hl x hx d hdm => cnt_iff hok hd ar.origin hx (hl d hdm)
  refine ⟨?_, ?_, ?_, ?_, ?_, ?_, ?_⟩
  · intro p hp
    obtain ⟨d, hdm, rfl⟩ := List.mem_map.1 hp
    obtain ⟨x, hx, hdx, S, r, hS⟩ := hsrc d hdm
    exact r.sp.fam.valid _ hS
  · intro _ p hp
    obtain ⟨d, hdm, rfl⟩ := List.mem_map.1 hp
    obtain ⟨x, hx, hdx, S, r, hS⟩ := hsrc d hdm
    rw [r.sp.fam.len _ hS]; simp
  · intro hooo l1 p l2 hps hnew
    obtain ⟨m1, d, m2, rfl, rfl, rfl, rfl⟩ := map_split hps
    obtain ⟨x, hx, hdx, S, r, hS⟩ := hsrc d (by simp)
    have hh := ar.order hooo m1 d m2 rfl x hx hdx (by
      intro b hb hbx
      apply hnew
      rw [r.cnt hdx]
      exact List.mem_map.2 ⟨recvOr b, List.mem_map_of_mem hb, r.cnt hbx⟩)
    have hhS : S.head? = some (recvOr d) := by rw [← r.wire, List.head?_map, hh]; rfl
    obtain ⟨parts, hparts⟩ := r.sp.seq
    rw [hparts] at hhS
    cases parts with
    | nil => simp [pktSeq] at hhS
    | cons y rest =>
      obtain ⟨a, b⟩ := y
      simp only [pktSeq, List.head?_cons, Option.some.injEq] at hhS
      rw [← hhS]
  · intro l1 p l2 hps hw hseen
    obtain ⟨m1, d, m2, rfl, rfl, rfl, rfl⟩ := map_split hps
    obtain ⟨x, hx, hdx, S, r, hS⟩ := hsrc d (by simp)
    -- the packet is the whole heap, so it is the only one
    have hlen := r.sp.fam.len _ hS
    rw [hw] at hlen
    simp only [Option.some.injEq] at hlen
    have honly : ∀ q ∈ S, q = recvOr d := by
      intro q hq
      apply Classical.byContradiction
      intro hne
      have hql : 0 < q.payload.length := List.length_pos_iff.2 (r.sp.fam.ne q hq)
      have h1 := r.sp.fam.valid q hq _ (r.sp.fam.len q hq)
      have h2 := r.sp.fam.valid _ hS _ (r.sp.fam.len _ hS)
      exact r.sp.fam.disj q hq _ hS hne q.payloadOffset ⟨⟨by omega, by omega⟩, by omega, by omega⟩
    rw [r.cnt hdx] at hseen
    obtain ⟨q, hq, hqc⟩ := List.mem_map.1 hseen
    obtain ⟨b, hb, rfl⟩ := List.mem_map.1 hq
    have hbx : b ∈ x.wire := (hiff (l := m1) (fun d hd => by simp [hd]) x hx b hb).1 hqc
    have hbd : b = d := r.inj hbx hdx (honly _ (r.mem hbx))
    obtain ⟨c, hc, hcn⟩ := ar.late m1 d m2 rfl x hx hdx
    have : c = d := r.inj hc hdx (honly _ (r.mem hc))
    rw [this, ← hbd] at hcn
    exact hcn hb
  · intro l1 p l2 h hps has
    obtain ⟨m1, d, m2, rfl, rfl, rfl, rfl⟩ := map_split hps
    obtain ⟨x, hx, hdx, S, r, hS⟩ := hsrc d (by simp)
    cases hc : h.isComplete with
    | false => rfl
    | true =>
      exfalso
      rw [r.cnt hdx, among_ofCnt hok hd (fun b hb => ar.origin b (by simp [hb])) hx] at has
      have hsub : ∀ p ∈ (x.among m1).map recvOr, p ∈ S := by
        intro p hp
        obtain ⟨b, hb, rfl⟩ := List.mem_map.1 hp
        exact r.mem (of_decide_eq_true (List.mem_filter.1 hb).2)
      have hall : ∀ q ∈ S, q ∈ (x.among m1).map recvOr := by
        unfold assemble at has
        split at has
        · simp at has
        · rename_i p0 rest heq
          cases hr : (LiveHeap.new p0).run cfg.allowOoo ((x.among m1).map recvOr) with
          | none => rw [hr] at has; simp at has
          | some y =>
            obtain ⟨s, acc⟩ := y
            rw [hr] at has
            simp only [Option.map_some, Option.some.injEq] at has
            subst has
            exact r.sp.fam.complete_all r.sp.cover hsub hr hc
      obtain ⟨c, hcx, hcn⟩ := ar.late m1 d m2 rfl x hx hdx
      obtain ⟨b, hb, hbc⟩ := List.mem_map.1 (hall _ (r.mem hcx))
      obtain ⟨hb1, hb2⟩ := List.mem_filter.1 hb
      have : b = c := r.inj (of_decide_eq_true hb2) hcx hbc
      exact hcn (this ▸ hb1)
  · intro l1 p l2 q l3 hps hpq
    rw [List.append_assoc, List.cons_append] at hps
    obtain ⟨m1, d1, m2', rfl, rfl, rfl, hm2⟩ := map_split hps
    obtain ⟨m2, d2, m3, rfl, rfl, rfl, rfl⟩ := map_split hm2
    obtain ⟨x, hx, hdx, S, r, hS⟩ := hsrc d1 (by simp)
    have hd2 : d2 ∈ x.wire := (hiff (l := [d2]) (by simp) x hx d2 (by simp)).1 (by rw [← hpq, r.cnt hdx])
    have hlt := ar.overlap m1 d1 m2 d2 m3 (by simp) x hx hdx hd2
    refine Nat.lt_of_le_of_lt ?_ hlt
    unfold begun
    rw [r.cnt hdx]
    refine Nat.le_trans (List.Nodup.length_le_of_subset (l₂ := (sent.filter (fun y => decide (y.cnt % cfg.substreams = x.cnt % cfg.substreams ∧
      (∃ d ∈ m2, d ∈ y.wire) ∧ ∀ d ∈ m1 ++ [d1], d ∉ y.wire))).map Sent.cnt) ?_ ?_) (by rw [List.length_map]; exact Nat.le_refl _)
    · exact (nodup_cntsOf _).sublist List.filter_sublist
    · intro c hc
      obtain ⟨hc1, hc2⟩ := List.mem_filter.1 hc
      obtain ⟨hc2, hc3⟩ := of_decide_eq_true hc2
      rw [mem_cntsOf] at hc1
      obtain ⟨k, hk, hkc⟩ := List.mem_map.1 hc1
      obtain ⟨b, hb, rfl⟩ := List.mem_map.1 hk
      obtain ⟨y, hy, hby, S', r', hS'⟩ := hsrc b (by simp [hb])
      have hyc : y.cnt = c := by rw [← hkc, r'.cnt hby]
      refine List.mem_map.2 ⟨y, List.mem_filter.2 ⟨hy, decide_eq_true ⟨by rw [hyc]; exact hc2, ⟨b, hb, hby⟩, ?_⟩⟩, hyc⟩
      intro d hdm hdy
      apply hc3
      refine List.mem_map.2 ⟨recvOr d, ?_, by rw [r'.cnt hdy, hyc]⟩
      rw [← List.map_singleton, ← List.map_append]
      exact List.mem_map_of_mem hdm
  · intro hst p hp q hq hq'
    obtain ⟨d, hdm, rfl⟩ := List.mem_map.1 hp
    obtain ⟨x, hx, hdx, S, r, hS⟩ := hsrc d hdm
    have hsuf := suffix_of_heap (hok x hx).hab (hok x hx).fits (hok x hx).ids
    have hqm := r.sp.ptrs _ hS q hq
    rw [r.sp.fam.hab _ hS] at hq'
    refine hstop hst x hx ((suffix_imm hsuf 6 2).1 ⟨q, ?_, hq'.2.1, ?_, hq'.1, hq'.2.2⟩)
    · have e8 : x.heap.hab / 8 = x.width := by have := (hok x hx).hab; omega
      unfold heapPtrs at hqm
      rw [e8] at hqm ⊢
      exact hqm
    · rw [show idOf (8 * x.width) q = 6 from hq'.1]; omega

/-- What a heap that arrives whole is assembled to. -/
theorem arrives_assemble (hok : ∀ x ∈ sent, x.Ok) (hd : (sent.map Sent.cnt).Nodup) (ho : ∀ d ∈ ds, ∃ x ∈ sent, d ∈ x.wire)
    {x : Sent} (hx : x ∈ sent) (harr : x.Arrives cfg ds) :
    ∃ h, assemble cfg.allowOoo (ofCnt x.cnt (ds.map recvOr)) = some h ∧ SameItems x h := by
  obtain ⟨S, r⟩ := (hok x hx).rx
  have ok := hok x hx
  have hmem : ∀ b ∈ x.wire, b ∈ x.among ds := by
    intro b hb
    have := harr.2
    cases hoo : cfg.allowOoo with
    | true => rw [hoo] at this; exact List.mem_filter.2 ⟨this b hb, decide_eq_true hb⟩
    | false => rw [hoo] at this; simp only [Bool.false_eq_true, if_false] at this; rw [this]; exact hb
  have hsubw : ∀ b ∈ x.among ds, b ∈ x.wire := fun b hb => of_decide_eq_true (List.mem_filter.1 hb).2
  have hdel := C10_end_to_end_partial x.heap x.cnt x.mps x.width x.pkts (x.among ds) ok.hab ok.fits ok.ids ok.sends ok.payload harr.1
    ⟨hsubw, fun p hp => hmem _ (List.mem_map_of_mem hp)⟩
  obtain ⟨ps, hps, hall⟩ := hdel
  have hpse : ps = (x.among ds).map recvOr := by
    refine ((List.map_inj_right (f := fun p : Pkt => some (some p)) (by intro a b hab; simpa using hab)).1 ?_)
    rw [← hps, List.map_map]
    apply List.map_congr_left
    intro d hdm
    exact r.dec d (hsubw d hdm)
  rw [among_ofCnt hok hd ho hx]
  subst hpse
  -- there is a packet
  have hne : (x.among ds).map recvOr ≠ [] := by
    have hS : S ≠ [] := by
      obtain ⟨w', _⟩ := ok.fits.width
      intro h0
      have hlen : 0 < heapLength x.mps x.heap := by
        unfold heapLength; unfold minPayload; omega
      obtain ⟨p, hp, _⟩ := r.sp.cover 0 hlen
      rw [h0] at hp; simp at hp
    rw [← r.wire] at hS
    obtain ⟨p, hp⟩ := List.exists_mem_of_ne_nil _ hS
    obtain ⟨d, hdm, _⟩ := List.mem_map.1 hp
    exact List.ne_nil_of_mem (List.mem_map_of_mem (hmem d hdm))
  obtain ⟨p0, hp0⟩ : ∃ p0, ((x.among ds).map recvOr).head? = some p0 := by
    cases hl : (x.among ds).map recvOr with
    | nil => exact absurd hl hne
    | cons a l => exact ⟨a, rfl⟩
  obtain ⟨s, acc, adr, imm, hrun, hcnt, hcomp, hload, h1, h2, h3, h4⟩ := hall p0 (List.mem_of_mem_head? hp0)
  cases hoo : cfg.allowOoo with
  | true => exact ⟨s, head_run hp0 hrun, hcnt, hcomp, adr, imm, hload, h1, h2, h3, h4⟩
  | false =>
    have hall' := harr.2
    rw [hoo] at hall'
    simp only [Bool.false_eq_true, if_false] at hall'
    rw [hall', r.wire] at hrun hp0 ⊢
    obtain ⟨s', l, hrun', _, _, _, _, hl⟩ := run_family r.sp.fam S (fun p hp => hp) (LInv.new true p0) (by simp)
      (by simp only [LiveHeap.new]; exact r.sp.fam.hab p0 (List.mem_of_mem_head? hp0)) (by simp [LiveHeap.new]) (by simp)
    rw [hrun] at hrun'
    simp only [Option.some.injEq, Prod.mk.injEq] at hrun'
    obtain ⟨rfl, rfl⟩ := hrun'
    rw [List.nil_append, List.nil_append, eraseDups_of_nodup r.sp.nodup] at hl
    obtain ⟨parts, hparts⟩ := r.sp.seq
    have hpne : ∀ y ∈ parts, y.2 ≠ [] := by
      intro y hy
      have : ∀ (parts : List (List Nat × Bytes)) (off : Nat), y ∈ parts →
          ∃ p ∈ pktSeq x.width x.cnt (heapLength x.mps x.heap) off parts, p.payload = y.2 := by
        intro parts
        induction parts with
        | nil => intro off h; simp at h
        | cons z rest ih =>
          intro off h
          obtain ⟨a, b⟩ := z
          rw [pktSeq]
          rcases List.mem_cons.1 h with rfl | h
          · exact ⟨_, List.mem_cons_self, rfl⟩
          · obtain ⟨p, hp, hpe⟩ := ih (off + b.length) h
            exact ⟨p, List.mem_cons_of_mem _ hp, hpe⟩
      obtain ⟨p, hp, hpe⟩ := this parts 0 hy
      rw [← hpe]
      exact r.sp.fam.ne p (by rw [hparts]; exact hp)
    rw [hparts] at hrun hl hp0 ⊢
    have hin := run_inorder parts 0 (s := LiveHeap.new p0) hpne rfl rfl hrun hl
    rw [noRanges_new] at hin
    exact ⟨noRanges s, head_run hp0 hin, hcnt, hcomp, adr, imm, hload, h1, h2, h3, h4⟩

end

/-- C55: from the sender's heaps to the receiver's. Heaps with distinct cnts are sent; their datagrams
arrive in any interleaving, with losses and duplicates (`Arrival`); all of them are given to a stream, in
any batches. Then every heap of which everything arrived is handed over exactly once, complete and with the
items that were sent, and no heap of which something is missing is ever handed over as complete. -/
theorem C55_end_to_end (cfg : StreamConfig) (hm : 0 < cfg.maxHeaps) (hsub : 0 < cfg.substreams) (sent : List Sent) (ds : List Bytes)
    (hok : ∀ x ∈ sent, x.Ok) (hd : (sent.map Sent.cnt).Nodup) (ar : Arrival cfg sent ds)
    (hstop : cfg.stopOnStopItem = true → ∀ x ∈ sent, (6, 2) ∉ immediateItems x.width x.heap.items) :
    ∃ ps, ds.map recvPkt? = ps.map (fun p => some (some p)) ∧ ∀ ops, Presents ops ps →
      ∃ s out, Stream.run cfg ops (Stream.new cfg) = some (s, out) ∧ s.stopped = false ∧
        (∀ x ∈ sent, x.Arrives cfg ds → ∃ e, out.filter (fun e => e.heap.cnt = x.cnt) = [e] ∧ SameItems x e.heap) ∧
        (∀ x ∈ sent, (∃ b ∈ x.wire, b ∉ ds) → ∀ e ∈ out, e.heap.cnt = x.cnt → e.heap.isComplete = false) ∧
        ∀ e ∈ out, ∃ x ∈ sent, x.cnt = e.heap.cnt := by
  have ord := ar.orderly hok hd hstop
  refine ⟨ds.map recvOr, ?_, ?_⟩
  · rw [List.map_map]
    apply List.map_congr_left
    intro d hdm
    obtain ⟨x, hx, hdx⟩ := ar.origin d hdm
    obtain ⟨S, r⟩ := (hok x hx).rx
    exact r.dec d hdx
  intro ops hp
  obtain ⟨s, out, h1, h2, h3, h4⟩ := C55_complete_once cfg hm hsub _ ord ops hp
  refine ⟨s, out, h1, h2, ?_, ?_, ?_⟩
  · intro x hx harr
    obtain ⟨h, ha, hs⟩ := arrives_assemble hok hd ar.origin hx harr
    obtain ⟨e, he, heq⟩ := h3 x.cnt h ha hs.2.1
    exact ⟨e, he, heq ▸ hs⟩
  · rintro x hx ⟨b, hb, hbn⟩ e he hec
    cases hc : e.heap.isComplete with
    | false => rfl
    | true =>
      exfalso
      obtain ⟨S, r⟩ := (hok x hx).rx
      have hm := (h4 e he).2
      rw [hec, among_ofCnt hok hd ar.origin hx] at hm
      have hsub : ∀ p ∈ (x.among ds).map recvOr, p ∈ S := by
        intro p hp
        obtain ⟨b, hb, rfl⟩ := List.mem_map.1 hp
        exact r.mem (of_decide_eq_true (List.mem_filter.1 hb).2)
      unfold assemble at hm
      split at hm
      · simp at hm
      · rename_i p0 rest heq
        cases hr : (LiveHeap.new p0).run cfg.allowOoo ((x.among ds).map recvOr) with
        | none => rw [hr] at hm; simp at hm
        | some y =>
          obtain ⟨s, acc⟩ := y
          rw [hr] at hm
          simp only [Option.map_some, Option.some.injEq] at hm
          rw [← hm] at hc
          have hall := r.sp.fam.complete_all r.sp.cover hsub hr hc _ (r.mem hb)
          obtain ⟨c, hcm, hcb⟩ := List.mem_map.1 hall
          obtain ⟨g1, g2⟩ := List.mem_filter.1 hcm
          have : c = b := r.inj (of_decide_eq_true g2) hb hcb
          exact hbn (this ▸ g1)
  · intro e he
    have hm := h4 e he
    have : e.heap.cnt ∈ (ds.map recvOr).map Pkt.heapCnt := by
      apply Classical.byContradiction
      intro hn
      have h2 := hm.2
      rw [ofCnt_nil hn] at h2
      simp [assemble] at h2
    obtain ⟨p, hp, hpc⟩ := List.mem_map.1 this
    obtain ⟨d, hdm, rfl⟩ := List.mem_map.1 hp
    obtain ⟨x, hx, hdx⟩ := ar.origin d hdm
    obtain ⟨S, r⟩ := (hok x hx).rx
    exact ⟨x, hx, by rw [← hpc, r.cnt hdx]⟩

/-! ### Examples -/

theorem split_all {α : Type} {l : List α} {P : List α → α → List α → Prop}
    (h : ∀ (i : Nat) (hi : i < l.length), P (l.take i) l[i] (l.drop (i + 1))) : ∀ l1 p l2, l = l1 ++ p :: l2 → P l1 p l2 := by
  intro l1 p l2 hl
  subst hl
  have := h l1.length (by simp)
  simpa using this

theorem split_all2 {α : Type} {l : List α} {P : List α → α → List α → α → List α → Prop}
    (h : ∀ (i : Nat) (hi : i < l.length), ∀ (j : Nat) (hj : j < (l.drop (i + 1)).length),
      P (l.take i) l[i] ((l.drop (i + 1)).take j) (l.drop (i + 1))[j] ((l.drop (i + 1)).drop (j + 1))) :
    ∀ l1 p l2 q l3, l = l1 ++ p :: l2 ++ q :: l3 → P l1 p l2 q l3 := by
  intro l1 p l2 q l3 hl
  rw [List.append_assoc, List.cons_append] at hl
  have h1 := split_all (l := l) (P := fun l1 p r => ∀ (j : Nat) (hj : j < r.length), P l1 p (r.take j) r[j] (r.drop (j + 1)))
    (fun i hi => h i hi) l1 p (l2 ++ q :: l3) hl
  exact split_all (l := l2 ++ q :: l3) (P := fun l2 q l3 => P l1 p l2 q l3) h1 l2 q l3 rfl

/-- Two packets each of the heaps 8 and 9 (which share the only substream), interleaved; then a packet that
is all of heap 3. -/
def trafficPkts : List Pkt :=
  [⟨40, 8, some 4, 2, [3, 4], []⟩, ⟨40, 9, some 4, 2, [7, 8], []⟩, ⟨40, 8, some 4, 2, [3, 4], []⟩, ⟨40, 8, some 4, 0, [1, 2], []⟩,
   ⟨40, 9, some 4, 0, [5, 6], []⟩, ⟨40, 3, some 1, 0, [9], []⟩]

/-- Room for two heaps. -/
def trafficCfg : StreamConfig := { maxHeaps := 2, substreams := 1, allowOoo := true, allowUnsized := false }

theorem trafficPkts_orderly : Orderly trafficCfg trafficPkts where
  valid := by
    intro p hp l hl
    simp only [trafficPkts, List.mem_cons, List.not_mem_nil, or_false] at hp
    rcases hp with rfl | rfl | rfl | rfl | rfl | rfl <;> simp at hl <;> subst hl <;> decide
  sized := by intro _; decide
  opening := by intro h; simp [trafficCfg] at h
  whole := split_all (P := fun l1 p _ => p.heapLength = some p.payload.length → p.heapCnt ∉ l1.map Pkt.heapCnt) (by decide +kernel)
  echo := by
    have := split_all (l := trafficPkts)
      (P := fun l1 p _ => (assemble trafficCfg.allowOoo (ofCnt p.heapCnt l1)).all (fun h => h.isComplete = false)) (by decide +kernel)
    intro l1 p l2 h hl ha
    have := this l1 p l2 hl
    rw [ha] at this
    simpa using this
  overlap := split_all2 (P := fun l1 p l2 q _ => p.heapCnt = q.heapCnt → begun trafficCfg p.heapCnt (l1 ++ [p]) l2 < trafficCfg.maxHeaps) (by decide +kernel)
  nostop := by
    intro _ p hp x hx
    simp only [trafficPkts, List.mem_cons, List.not_mem_nil, or_false] at hp
    rcases hp with rfl | rfl | rfl | rfl | rfl | rfl <;> simp at hx

/-- So it does not matter how these packets are split into batches; here into batches of three. -/
example : ∃ s out, Stream.run trafficCfg [.batch ((trafficPkts.take 3).map .packet), .batch ((trafficPkts.drop 3).map .packet)]
    (Stream.new trafficCfg) = some (s, out) ∧ s.stopped = false ∧
      (∀ c h, assemble true (ofCnt c trafficPkts) = some h → h.isComplete = true →
        ∃ e, out.filter (fun e => e.heap.cnt = c) = [e] ∧ e.heap = h) ∧ ∀ e ∈ out, MadeOf trafficCfg trafficPkts e :=
  C55_complete_once trafficCfg (by decide) (by decide) trafficPkts trafficPkts_orderly _
    ⟨by
      intro op hop
      simp only [List.mem_cons, List.not_mem_nil, or_false] at hop
      rcases hop with rfl | rfl <;> (intro b hb; obtain ⟨p, _, rfl⟩ := List.mem_map.1 hb; simp), by decide +kernel⟩

/-- All three are complete. -/
example : ∀ c ∈ [8, 9, 3], (assemble true (ofCnt c trafficPkts)).any LiveHeap.isComplete = true := by decide +kernel

/-- The bound on overlap is sharp: with room for one heap less the same packets are not orderly: heap 9
is handed over twice, incomplete, and heap 8 twice. -/
example : ¬ begun { trafficCfg with maxHeaps := 1 } 8 [⟨40, 8, some 4, 2, [3, 4], []⟩] [⟨40, 9, some 4, 2, [7, 8], []⟩] < 1 ∧
    (Stream.run { trafficCfg with maxHeaps := 1 } [.batch (trafficPkts.map .packet), .stop] (Stream.new { trafficCfg with maxHeaps := 1 })).map
      (fun x => x.2.map (fun e => (e.heap.cnt, e.heap.isComplete))) =
      some [(8, false), (9, false), (8, true), (9, false), (3, true)] := by decide +kernel

/-- `plainHeap` sent with heap cnt `cnt`. -/
def plainSent (cnt : Nat) : Sent :=
  ⟨plainHeap, cnt, 64, 6, (((Gen.new plainHeap cnt 64).toOption.bind (fun g => g.run 100 {})).getD ([], {})).1⟩

theorem plainSent_ok (cnt : Nat) (h : cnt < 256) (hs : ((Gen.new plainHeap cnt 64).toOption.bind (fun g => (g.run 100 {}).map (fun x => !g.hasNext x.2))) = some true) :
    (plainSent cnt).Ok where
  hab := rfl
  fits := ⟨plainHeap_fits.width, plainHeap_fits.ids, plainHeap_fits.inline, Nat.lt_trans h (show 256 < 2 ^ plainHeap.hab by decide), plainHeap_fits.length, plainHeap_fits.count⟩
  ids := show ∀ it ∈ plainHeap.items, 4 < it.id by decide
  sends := by
    cases hg : Gen.new plainHeap cnt 64 with
    | error e => rw [hg] at hs; simp [Except.toOption] at hs
    | ok g =>
      rw [hg] at hs
      simp only [Except.toOption, Option.bind_some] at hs
      cases hr : g.run 100 {} with
      | none => rw [hr] at hs; simp at hs
      | some x =>
        rw [hr] at hs
        simp only [Option.map_some, Option.some.injEq, Bool.not_eq_true'] at hs
        refine ⟨g, 100, x.2, hg, ?_, hs⟩
        simp only [plainSent, hg, Except.toOption, Option.bind_some, hr, Option.getD_some]
  payload := show minPayload 64 plainHeap ≤ (realPayload 6 plainHeap.items).length ∨ (realPayload 6 plainHeap.items).length % 8 = 0 by decide

theorem plainHeap_noEmpty : NoEmpty 6 plainHeap.items := by
  intro it hit b allow hv hn
  simp only [plainHeap, List.mem_cons, List.not_mem_nil, or_false] at hit
  rcases hit with rfl | rfl | rfl | rfl | rfl <;> simp at hv
  · obtain ⟨rfl, rfl⟩ := hv; decide
  · obtain ⟨rfl, rfl⟩ := hv; decide
  · obtain ⟨rfl, rfl⟩ := hv; decide
  · obtain ⟨rfl, rfl⟩ := hv; decide

/-- Two heaps: all of heap 6, reversed, arrives between the first and the other packets of heap 5. -/
def plainArrival : List Bytes :=
  (plainSent 5).wire.take 1 ++ (plainSent 6).wire.reverse ++ (plainSent 5).wire.drop 1

theorem plainArrival_ok : Arrival trafficCfg [plainSent 5, plainSent 6] plainArrival where
  origin := by decide +kernel
  late := split_all (P := fun l1 d _ => ∀ x ∈ [plainSent 5, plainSent 6], d ∈ x.wire → ∃ b ∈ x.wire, b ∉ l1) (by decide +kernel)
  overlap := split_all2 (P := fun l1 d1 l2 d2 _ => ∀ x ∈ [plainSent 5, plainSent 6], d1 ∈ x.wire → d2 ∈ x.wire →
    ([plainSent 5, plainSent 6].filter (fun y => y.cnt % trafficCfg.substreams = x.cnt % trafficCfg.substreams ∧
      (∃ d ∈ l2, d ∈ y.wire) ∧ ∀ d ∈ l1 ++ [d1], d ∉ y.wire)).length < trafficCfg.maxHeaps) (by decide +kernel)
  order := by intro h; simp [trafficCfg] at h

/-- Both heaps are delivered. -/
example : ∃ ps : List Pkt, plainArrival.map recvPkt? = ps.map (fun p => some (some p)) ∧
    ∃ s out, Stream.run trafficCfg [.batch (ps.map .packet)] (Stream.new trafficCfg) = some (s, out) ∧
      ∀ x ∈ [plainSent 5, plainSent 6], ∃ e, out.filter (fun e => e.heap.cnt = x.cnt) = [e] ∧ SameItems x e.heap := by
  obtain ⟨ps, h1, h2⟩ := C55_end_to_end trafficCfg (by decide) (by decide) [plainSent 5, plainSent 6] plainArrival
    (by
      intro x hx
      simp only [List.mem_cons, List.not_mem_nil, or_false] at hx
      rcases hx with rfl | rfl
      · exact plainSent_ok 5 (by decide) (by decide +kernel)
      · exact plainSent_ok 6 (by decide) (by decide +kernel)) (by decide +kernel) plainArrival_ok (by intro _; decide +kernel)
  obtain ⟨s, out, h3, _, h4, _⟩ := h2 [.batch (ps.map .packet)]
    ⟨by intro op hop; simp only [List.mem_singleton] at hop; subst hop; intro b hb; obtain ⟨p, _, rfl⟩ := List.mem_map.1 hb; simp,
     by simp [presented, batchPackets, List.filterMap_map, Function.comp_def]⟩
  refine ⟨ps, h1, s, out, h3, fun x hx => h4 x hx ⟨Or.inl ?_, ?_⟩⟩
  · simp only [List.mem_cons, List.not_mem_nil, or_false] at hx
    rcases hx with rfl | rfl <;> exact plainHeap_noEmpty
  · rw [if_pos (show trafficCfg.allowOoo = true from rfl)]
    simp only [List.mem_cons, List.not_mem_nil, or_false] at hx
    rcases hx with rfl | rfl
    · decide +kernel
    · decide +kernel

/-- In-order mode: the packets of both heaps alternate. -/
def inorderCfg : StreamConfig := { maxHeaps := 2, substreams := 1 }

/-- The datagrams of two heaps, alternating. -/
def alternating : List Bytes := ((plainSent 5).wire.zip (plainSent 6).wire).flatMap (fun x => [x.1, x.2])

theorem alternating_ok : Arrival inorderCfg [plainSent 5, plainSent 6] alternating where
  origin := by decide +kernel
  late := split_all (P := fun l1 d _ => ∀ x ∈ [plainSent 5, plainSent 6], d ∈ x.wire → ∃ b ∈ x.wire, b ∉ l1) (by decide +kernel)
  overlap := split_all2 (P := fun l1 d1 l2 d2 _ => ∀ x ∈ [plainSent 5, plainSent 6], d1 ∈ x.wire → d2 ∈ x.wire →
    ([plainSent 5, plainSent 6].filter (fun y => y.cnt % inorderCfg.substreams = x.cnt % inorderCfg.substreams ∧
      (∃ d ∈ l2, d ∈ y.wire) ∧ ∀ d ∈ l1 ++ [d1], d ∉ y.wire)).length < inorderCfg.maxHeaps) (by decide +kernel)
  order := fun _ => split_all (P := fun l1 d _ => ∀ x ∈ [plainSent 5, plainSent 6], d ∈ x.wire → (∀ b ∈ l1, b ∉ x.wire) →
    x.wire.head? = some d) (by decide +kernel)

example : ∀ x ∈ [plainSent 5, plainSent 6], x.Arrives inorderCfg alternating := by
  intro x hx
  simp only [List.mem_cons, List.not_mem_nil, or_false] at hx
  rcases hx with rfl | rfl
  · exact ⟨Or.inl plainHeap_noEmpty, by decide +kernel⟩
  · exact ⟨Or.inl plainHeap_noEmpty, by decide +kernel⟩

end Spead2
