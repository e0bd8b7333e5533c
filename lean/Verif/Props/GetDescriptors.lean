import Verif.Props.Mem
import Verif.Lemmas.StreamFrom

/-!
# C50: extracting descriptors from a heap
-/

namespace Spead2
open Spec

theorem run_append (cfg : StreamConfig) : ∀ (ops ops' : List StreamOp) (s : Stream) (s1 s2 : Stream) (o1 o2 : List Entry),
    Stream.run cfg ops s = some (s1, o1) → Stream.run cfg ops' s1 = some (s2, o2) →
    Stream.run cfg (ops ++ ops') s = some (s2, o1 ++ o2)
  | [], ops', s, s1, s2, o1, o2, h1, h2 => by
    simp only [Stream.run, Option.some.injEq, Prod.mk.injEq] at h1
    obtain ⟨rfl, rfl⟩ := h1
    exact h2
  | op :: ops, ops', s, s1, s2, o1, o2, h1, h2 => by
    rw [Stream.run, Option.bind_eq_bind] at h1
    cases hs : s.step cfg op with
    | none => rw [hs] at h1; cases h1
    | some r =>
      rw [hs, Option.bind_some] at h1
      cases hr : Stream.run cfg ops r.1 with
      | none => rw [hr] at h1; cases h1
      | some r' =>
        obtain ⟨s3, o3⟩ := r'
        rw [hr, Option.bind_some] at h1
        simp only [Option.some.injEq, Prod.mk.injEq] at h1
        obtain ⟨rfl, rfl⟩ := h1
        have := run_append cfg ops ops' r.1 s3 s2 o3 o2 hr h2
        rw [List.cons_append, Stream.run, Option.bind_eq_bind, hs, Option.bind_some, this, Option.bind_some, List.append_assoc]

theorem run_none (cfg : StreamConfig) : ∀ (ops ops' : List StreamOp) (s : Stream) (s1 : Stream) (o1 : List Entry),
    Stream.run cfg ops s = some (s1, o1) → Stream.run cfg ops' s1 = none → Stream.run cfg (ops ++ ops') s = none
  | [], ops', s, s1, o1, h1, h2 => by
    simp only [Stream.run, Option.some.injEq, Prod.mk.injEq] at h1
    obtain ⟨rfl, rfl⟩ := h1
    exact h2
  | op :: ops, ops', s, s1, o1, h1, h2 => by
    rw [Stream.run, Option.bind_eq_bind] at h1
    cases hs : s.step cfg op with
    | none => rw [hs] at h1; cases h1
    | some r =>
      rw [hs, Option.bind_some] at h1
      cases hr : Stream.run cfg ops r.1 with
      | none => rw [hr] at h1; cases h1
      | some r' =>
        obtain ⟨s3, o3⟩ := r'
        rw [hr, Option.bind_some] at h1
        simp only [Option.some.injEq, Prod.mk.injEq] at h1
        obtain ⟨rfl, rfl⟩ := h1
        have := run_none cfg ops ops' r.1 s3 o3 hr h2
        rw [List.cons_append, Stream.run, Option.bind_eq_bind, hs, Option.bind_some, this]
        rfl

/-- What decoding guarantees about a packet. -/
def Decoded (p : Pkt) : Prop := Ptr64 p ∧ ∃ w, w ≤ 7 ∧ p.hab = 8 * w

theorem isPacket_decoded {b : Bytes} {p : Pkt} (h : IsPacket b p) : Decoded p := by
  obtain ⟨aw, table, payload, cnt, off, hlen, wf, hl, rfl⟩ := h
  obtain ⟨rest, iw, r0, r1, hb, h1, h2, h3, h4, h5⟩ := wf.layout
  refine ⟨fun q hq => h5 q ((List.dropWhile_sublist _).subset hq), aw.toNat, ?_, rfl⟩
  have : iw.toNat ≠ 0 := fun h => h1 (UInt8.toNat_inj.1 h)
  omega

theorem entry_ready (bc : Nat) {ooo : Bool} {e : Entry} (ok : EntryOk ooo e) (hne : e.pkts ≠ []) (hp : ∀ q ∈ e.pkts, Decoded q) :
    ∃ l, descriptorReady bc e.heap = some l := by
  obtain ⟨p0, acc, h1, h2, h3, h4, h5⟩ := ok
  have hp0 : p0 ∈ e.pkts := by
    cases hq : e.pkts with
    | nil => exact absurd hq hne
    | cons q rest => rw [← h1 q (by rw [hq]; rfl)]; exact List.mem_cons_self
  obtain ⟨w, hw7, hw⟩ := (hp p0 hp0).2
  have hhab : e.heap.hab = 8 * w := by
    obtain ⟨s', l, g1, _, _, _, g5⟩ := run_inv (LInv.new ooo p0) e.pkts (fun q hq => (h3 q hq).2)
    rw [h4] at g1
    cases g1
    rw [g5]; exact hw
  unfold descriptorReady
  by_cases hc : e.heap.isContiguous = true
  · rw [if_pos hc]
    obtain ⟨items, d, g1, g2⟩ := C18_safe p0 w bc hw7 hw ooo e.pkts (fun q hq => (h3 q hq).2) (fun q hq => (hp q hq).1) e.heap acc h4 hc
    rw [g1]
    simp only
    rw [hhab, g2]
    exact ⟨_, rfl⟩
  · rw [if_neg hc]
    exact ⟨_, rfl⟩

theorem entries_ready (bc : Nat) : ∀ (l : List Entry), (∀ e ∈ l, ∃ x, descriptorReady bc e.heap = some x) → ∃ x, descriptorsReady bc l = some x
  | [], _ => ⟨_, rfl⟩
  | e :: l, h => by
    obtain ⟨x, hx⟩ := h e List.mem_cons_self
    obtain ⟨y, hy⟩ := entries_ready bc l (fun e' he => h e' (List.mem_cons_of_mem _ he))
    exact ⟨x ++ y, by rw [descriptorsReady, hx, hy]⟩

theorem run_out_ready {ops : List StreamOp} (hv : ∀ op ∈ ops, op.Valid) (hp : ∀ p ∈ presented ops, Decoded p) {s : Stream} {out : List Entry}
    (h : Stream.run descriptorConfig ops (Stream.new descriptorConfig) = some (s, out)) (bc : Nat) :
    ∀ e ∈ out, ∃ x, descriptorReady bc e.heap = some x := by
  obtain ⟨a, t, d, k1, rfl, rel, inv, acc, _⟩ := run_account (by decide) (by decide) hv h
  intro e he
  have := acc.done e (List.mem_append_left _ he)
  exact entry_ready bc this.1 this.2 ((run_from k1 (fun r hr => by simp at hr) hp).2 e he)

theorem presented_append (ops ops' : List StreamOp) : presented (ops ++ ops') = presented ops ++ presented ops' := by
  unfold presented; exact List.flatMap_append

theorem splits_decoded {d : Bytes} {l : List (Bytes × Pkt)} {rest : Bytes} (h : SplitsInto d l rest) :
    ∀ p ∈ presented [.batch (asOps l)], Decoded p := by
  intro p hp
  simp only [presented, List.flatMap_cons, List.flatMap_nil, List.append_nil, batchPackets, List.mem_filterMap, asOps, List.mem_map] at hp
  obtain ⟨b, ⟨x, hx, rfl⟩, hb⟩ := hp
  simp only [Option.some.injEq] at hb
  subst hb
  exact isPacket_decoded (h.packets x hx)

theorem mapM_id_of_map_some (b : Bytes) : (b.map some).mapM id = some b := mapM_id_some b

theorem descriptorLoop_total (bc : Nat) : ∀ (items : List RxItem), (∀ it ∈ items, it.id = DESCRIPTOR_ID → ∃ b : Bytes, it.data = b.map some) →
    ∀ (ops : List StreamOp) (s : Stream) (out : List Entry), (∀ op ∈ ops, op.Valid) → (∀ p ∈ presented ops, Decoded p) →
    Stream.run descriptorConfig ops (Stream.new descriptorConfig) = some (s, out) → ∃ ds, descriptorLoop bc items s = some ds
  | [], _, ops, s, out, hv, hp, h => by
    obtain ⟨s', out', h1⟩ : ∃ s' out', s.stop descriptorConfig = some (s', out') := by
      cases hs : s.stopped with
      | true => exact ⟨s, [], by unfold Stream.stop; rw [if_pos hs]⟩
      | false =>
        obtain ⟨s', out', h1, _⟩ := C24_stop_flushes descriptorConfig (by decide) (by decide) hv h hs
        exact ⟨s', out', h1⟩
    have hrun : Stream.run descriptorConfig (ops ++ [.stop]) (Stream.new descriptorConfig) = some (s', out ++ (out' ++ [])) :=
      run_append _ _ _ _ _ _ _ _ h (by rw [Stream.run, Option.bind_eq_bind, show s.step descriptorConfig .stop = some (s', out') from h1]; rfl)
    have hr := run_out_ready (ops := ops ++ [.stop])
      (by intro op ho; rcases List.mem_append.1 ho with ho | ho
          · exact hv op ho
          · rw [List.mem_singleton.1 ho]; trivial)
      (by rw [presented_append]; intro p hq; rcases List.mem_append.1 hq with hq | hq
          · exact hp p hq
          · simp [presented] at hq) hrun bc
    unfold descriptorLoop
    rw [h1]
    simp only
    exact entries_ready bc out' (fun e he => hr e (by simp [he]))
  | it :: rest, hit, ops, s, out, hv, hp, h => by
    unfold descriptorLoop
    by_cases hid : it.id = DESCRIPTOR_ID
    · rw [if_pos hid]
      obtain ⟨b, hb⟩ := hit it List.mem_cons_self hid
      rw [hb, mapM_id_of_map_some]
      simp only
      obtain ⟨l, r, hsp, _⟩ := C26_unique_split b
      obtain ⟨j, s1, out1, _, g2, _, g4, _⟩ := C26_mem_to_stream descriptorConfig (by decide) (by decide) hv h b l r hsp
      rw [g2]
      simp only
      have hv1 : ∀ op ∈ ops ++ [.batch (asOps l)], op.Valid := by
        intro op ho; rcases List.mem_append.1 ho with ho | ho
        · exact hv op ho
        · rw [List.mem_singleton.1 ho]; exact splits_valid hsp
      have hrun1 : Stream.run descriptorConfig (ops ++ [.batch (asOps l)]) (Stream.new descriptorConfig) = some (s1, out ++ (out1 ++ [])) :=
        run_append _ _ _ _ _ _ _ _ h (by rw [Stream.run, Option.bind_eq_bind, show s.step descriptorConfig (.batch (asOps l)) = some (s1, out1) from g4]; rfl)
      obtain ⟨s2, out2, h2⟩ : ∃ s2 out2, s1.flush descriptorConfig = some (s2, out2) := by
        obtain ⟨s2, a2, t2, w1, _⟩ := stream_refines descriptorConfig (by decide) (by decide) (ops ++ [.batch (asOps l)] ++ [.flush])
          (by intro op ho; rcases List.mem_append.1 ho with ho | ho
              · exact hv1 op ho
              · rw [List.mem_singleton.1 ho]; trivial)
        cases hf : s1.flush descriptorConfig with
        | some x => exact ⟨x.1, x.2, rfl⟩
        | none =>
          exfalso
          have := run_none descriptorConfig _ [.flush] _ _ _ hrun1 (by rw [Stream.run, Option.bind_eq_bind, show s1.step descriptorConfig .flush = none from hf]; rfl)
          rw [this] at w1
          cases w1
      rw [h2]
      simp only
      have hv2 : ∀ op ∈ ops ++ [.batch (asOps l)] ++ [.flush], op.Valid := by
        intro op ho; rcases List.mem_append.1 ho with ho | ho
        · exact hv1 op ho
        · rw [List.mem_singleton.1 ho]; trivial
      have hrun2 : Stream.run descriptorConfig (ops ++ [.batch (asOps l)] ++ [.flush]) (Stream.new descriptorConfig) = some (s2, out ++ (out1 ++ []) ++ (out2 ++ [])) :=
        run_append _ _ _ _ _ _ _ _ hrun1 (by rw [Stream.run, Option.bind_eq_bind, show s1.step descriptorConfig .flush = some (s2, out2) from h2]; rfl)
      have hp2 : ∀ p ∈ presented (ops ++ [.batch (asOps l)] ++ [.flush]), Decoded p := by
        rw [presented_append, presented_append]
        intro p hq
        rcases List.mem_append.1 hq with hq | hq
        · rcases List.mem_append.1 hq with hq | hq
          · exact hp p hq
          · exact splits_decoded hsp p hq
        · simp [presented] at hq
      have hr := run_out_ready hv2 hp2 hrun2 bc
      obtain ⟨x, hx⟩ := entries_ready bc (out1 ++ out2) (fun e he => hr e (by
        rcases List.mem_append.1 he with he | he
        · simp [he]
        · simp [he]))
      obtain ⟨y, hy⟩ := descriptorLoop_total bc rest (fun i hi => hit i (List.mem_cons_of_mem _ hi)) _ s2 _ hv2 hp2 hrun2
      rw [hx, hy]
      exact ⟨_, rfl⟩
    · rw [if_neg hid]
      exact descriptorLoop_total bc rest (fun i hi => hit i (List.mem_cons_of_mem _ hi)) ops s out hv hp h

/-- C50 (safety). Extracting the descriptors of any heap whose descriptor items are initialised bytes terminates
without undefined behaviour, whatever those bytes are. -/
theorem C50_safe (bc : Nat) (items : List RxItem) (h : ∀ it ∈ items, it.id = DESCRIPTOR_ID → ∃ b : Bytes, it.data = b.map some) :
    ∃ ds, getDescriptors bc items = some ds :=
  descriptorLoop_total bc items h [] _ [] (by simp) (by simp [presented]) rfl


theorem itemPtrs_id {w a : Nat} {items : List SendItem} {tail : List Nat} {ext : Nat} (h : Suffix w a items tail ext) :
    ∀ q ∈ itemPtrs w a items, ∃ it ∈ items, ptrId w q = it.id := by
  induction items generalizing a with
  | nil => intro q hq; simp [itemPtrs] at hq
  | cons it rest ih =>
    intro q hq
    simp only [itemPtrs] at hq
    rcases List.mem_cons.1 hq with rfl | hq
    · refine ⟨it, List.mem_cons_self, ?_⟩
      have ha : a < 2 ^ (8 * w) := by have := h.lt; omega
      have hid := (h.ids it (by simp)).2
      cases hv : it.value with
      | inline v =>
        have := (imm_fields h.w7 hid (h.inl it (by simp) v hv)).2.1
        simpa [itemPtr, hv] using this
      | buffer b i =>
        have h1 := (adr_fields h.w7 hid ha).2.1
        unfold itemPtr
        rw [hv]
        simp only
        split
        · rename_i hc
          have hb : beNat b < 2 ^ (8 * w) :=
            beNat_lt_of_le hc.2
          exact (imm_fields h.w7 hid hb).2.1
        · exact h1
    · obtain ⟨x, hx, e⟩ := ih h.cons q hq
      exact ⟨x, List.mem_cons_of_mem _ hx, e⟩

theorem descPkt_nostop (w bc : Nat) (d : Descriptor) (hw1 : 1 ≤ w) (hw7 : w ≤ 7) (fit : DescriptorFits w bc d)
    (hid : d.id < 2 ^ (8 * w)) : ∀ q ∈ (descPkt w bc d).pointers, ¬ isStop (8 * w) q := by
  intro q hq hc
  obtain ⟨it, hit, e⟩ := itemPtrs_id (descItems_suffix (bc := bc) hw1 hw7 hid (Int.le_of_lt fit.id.1) fit.length) q hq
  have h6 : ptrId w q = 6 := hc.1
  have : it.id ≠ 6 := by
    unfold descItems at hit
    simp only [List.cons_append, List.nil_append, List.mem_cons] at hit
    rcases hit with rfl | rfl | rfl | rfl | rfl | hit
    · simp only; decide
    · simp only; decide
    · simp only; decide
    · simp only; decide
    · simp only; decide
    · split at hit
      · rw [List.mem_singleton] at hit
        subst hit; simp only; decide
      · simp at hit
  omega

/-- A stream with no live heaps that gets a descriptor packet hands over one heap, which holds the descriptor. -/
theorem descPkt_addPacket (w bc : Nat) (d : Descriptor) (hw1 : 1 ≤ w) (hw7 : w ≤ 7) (fit : DescriptorFits w bc d)
    (hid : d.id < 2 ^ (8 * w)) (a : AStream) (hl : a.live = []) :
    ∃ a' e, a.addPacket descriptorConfig (descPkt w bc d) = some ⟨a', [], [e], true, false⟩ ∧ a'.live = [] ∧ a'.stopped = a.stopped ∧
      descriptorReady bc e.heap = some [receivedDescriptor d] := by
  obtain ⟨s, items, h1, h2, h3, h4, h5⟩ := descPkt_survives w bc d hw1 hw7 fit hid false
  have hv : PktValid (descPkt w bc d) := by
    intro l hl
    have hlen := descItems_length (bc := bc) hw7 d
    simp only [descPkt, Option.some.injEq] at hl ⊢
    omega
  have heos : s.endOfStream = false := by
    cases he : s.endOfStream with
    | false => rfl
    | true =>
      obtain ⟨p, hp, q, hq, hs⟩ := (C16_pointers _ _ _ (by simpa using hv) s _ h1).2.2.1 he
      rw [List.mem_singleton.1 hp] at hq
      obtain ⟨s', l, g1, _, _, _, g5⟩ := run_inv (LInv.new false (descPkt w bc d)) [descPkt w bc d] (by simpa using hv)
      rw [h1] at g1
      cases g1
      rw [g5] at hs
      exact absurd hs (descPkt_nostop w bc d hw1 hw7 fit hid q hq)
  have hadd : (LiveHeap.new (descPkt w bc d)).addPacket (descPkt w bc d) false = some (s, true) := by
    rw [LiveHeap.run] at h1
    cases ha : (LiveHeap.new (descPkt w bc d)).addPacket (descPkt w bc d) false with
    | none => rw [ha] at h1; cases h1
    | some r =>
      obtain ⟨x, b⟩ := r
      rw [ha] at h1
      simp only [LiveHeap.run, Option.some.injEq, Prod.mk.injEq] at h1
      obtain ⟨rfl, hb⟩ := h1
      cases b with
      | true => rfl
      | false => cases hb
  have hfind : a.find (descPkt w bc d) = none := by
    unfold AStream.find
    rw [hl]
    split <;> rfl
  have hvic : ∀ sub, a.victim descriptorConfig sub = none := by intro sub; unfold AStream.victim; rw [hl]; rfl
  have hhab : s.hab = 8 * w := by
    obtain ⟨s', l, g1, _, _, _, g5⟩ := run_inv (LInv.new false (descPkt w bc d)) [descPkt w bc d] (by simpa using hv)
    rw [h1] at g1
    cases g1
    exact g5
  have hev : ∀ sub, a.evict descriptorConfig sub = a := by intro sub; unfold AStream.evict; rw [hvic]
  refine ⟨{ a with live := [], started := fun i => if i = (descPkt w bc d).heapCnt % 1 then a.started ((descPkt w bc d).heapCnt % 1) + 1 else a.started i, created := a.created + 1 },
    ⟨a.created, [descPkt w bc d], s⟩, ?_, rfl, rfl, ?_⟩
  · unfold AStream.addPacket
    rw [if_neg (by simp [descPkt]), hfind]
    simp only
    rw [if_neg (by simp [descPkt])]
    unfold AStream.deliver AStream.startHeap
    simp only [hev, hvic]
    rw [show descriptorConfig.allowOoo = false from rfl, hadd]
    simp only [heos, h2, Bool.and_false, Bool.and_true, if_true]
    simp [AStream.remove, hl, descriptorConfig]
    rfl
  · unfold descriptorReady
    simp only
    rw [if_pos h3, h4]
    simp only
    rw [hhab, h5]
    simp only
    have : (receivedDescriptor d).id = d.id := by unfold receivedDescriptor; split <;> rfl
    rw [this, if_pos (by have := fit.id.1; omega)]

theorem descriptorLoop_roundtrip (bc : Nat) : ∀ (items : List RxItem) (l : List (Nat × Descriptor × Bytes)),
    (∀ x ∈ l, 1 ≤ x.1 ∧ x.1 ≤ 7 ∧ DescriptorFits x.1 bc x.2.1 ∧ x.2.1.id < 2 ^ (8 * x.1) ∧
      ∃ ok, encodeDescriptor (8 * x.1) bc x.2.1 = .ok (x.2.2, ok)) →
    (items.filter (fun it => it.id = DESCRIPTOR_ID)).map RxItem.data = l.map (fun x => x.2.2.map some) →
    ∀ (ops : List StreamOp) (s : Stream) (a : AStream) (out : List Entry) (t : List Ev), (∀ op ∈ ops, op.Valid) →
    Stream.run descriptorConfig ops (Stream.new descriptorConfig) = some (s, out) →
    Rel descriptorConfig s a → AInv descriptorConfig a none → s.stats = statsOf t s.stats.searchDist → a.live = [] → a.stopped = false →
    descriptorLoop bc items s = some (l.map (fun x => receivedDescriptor x.2.1))
  | [], l, _, hl, ops, s, a, out, t, hv, h, rel, inv, hst, hlive, hstop => by
    have : l = [] := by
      cases l with
      | nil => rfl
      | cons _ _ => simp at hl
    subst this
    obtain ⟨a', t', s', q1, q2, _⟩ := step_refine (by decide) (by decide) rel inv .stop trivial t hst
    rw [AStream.step, if_neg (by simp [hstop])] at q1
    have ht : t' = [] := by
      cases q1
      unfold AStream.flushed
      rw [hlive]
      simp
    rw [ht] at q2
    unfold descriptorLoop
    rw [show s.stop descriptorConfig = some (s', []) from q2]
    rfl
  | it :: rest, l, hx, hl, ops, s, a, out, t, hv, h, rel, inv, hst, hlive, hstop => by
    unfold descriptorLoop
    by_cases hid : it.id = DESCRIPTOR_ID
    · rw [if_pos hid]
      rw [List.filter_cons_of_pos (by simpa using hid), List.map_cons] at hl
      cases l with
      | nil => cases hl
      | cons x l =>
      obtain ⟨w, d, bytes⟩ := x
      simp only [List.map_cons, List.cons.injEq] at hl
      obtain ⟨hl0, hl⟩ := hl
      obtain ⟨hw1, hw7, fit, hidlt, ok, henc⟩ := hx _ List.mem_cons_self
      simp only at hw1 hw7 fit hidlt henc
      have hpk := descPkt_isPacket w bc d hw1 hw7 fit hidlt henc
      have hsp : SplitsInto bytes [(bytes, descPkt w bc d)] [] :=
        ⟨by simp, by simpa using hpk, fun ⟨b, p, r, e, hp⟩ => by
          have := isPacket_pos hp
          have e := congrArg List.length e
          simp only [List.length_append, List.length_nil] at e
          omega⟩
      rw [hl0, mapM_id_of_map_some]
      simp only
      obtain ⟨j, s1, out1, _, g2, _, g4, _⟩ := C26_mem_to_stream descriptorConfig (by decide) (by decide) hv h bytes _ _ hsp
      rw [g2]
      simp only
      obtain ⟨a1, t1, s1', q1, q2, q3, q4, q5⟩ := step_refine (by decide) (by decide) rel inv (.batch [.packet (descPkt w bc d)]) (splits_valid hsp) t hst
      have g4' : s.step descriptorConfig (.batch [.packet (descPkt w bc d)]) = some (s1, out1) := g4
      rw [g4'] at q2
      simp only [Option.some.injEq, Prod.mk.injEq] at q2
      obtain ⟨rfl, rfl⟩ := q2
      obtain ⟨a2, e, p1, p2, p3, p4⟩ := descPkt_addPacket w bc d hw1 hw7 fit hidlt a hlive
      rw [AStream.step, if_neg (by simp [hstop]), AStream.packets, p1] at q1
      simp only [AStream.packets, Bool.false_eq_true, if_false, Option.some.injEq, Prod.mk.injEq] at q1
      obtain ⟨rfl, rfl⟩ := q1
      obtain ⟨a3, t3, s3, r1, r2, r3, r4, r5⟩ := step_refine (by decide) (by decide) q3 q4 .flush trivial _ q5
      have ht3 : t3 = [] ∧ a3 = a2.clear := by
        rw [AStream.step] at r1
        cases r1
        unfold AStream.flushed
        rw [p2]
        simp
      obtain ⟨rfl, rfl⟩ := ht3
      rw [show s1.flush descriptorConfig = some (s3, []) from r2]
      simp only
      have hrun1 : Stream.run descriptorConfig (ops ++ [.batch [.packet (descPkt w bc d)]] ++ [.flush]) (Stream.new descriptorConfig) = some (s3, _) :=
        run_append _ _ _ _ _ _ _ _ (run_append _ _ _ _ _ _ _ _ h (by rw [Stream.run, Option.bind_eq_bind, g4', Option.bind_some]; rfl))
          (by rw [Stream.run, Option.bind_eq_bind, r2]; rfl)
      rw [descriptorLoop_roundtrip bc rest l (fun x h => hx x (List.mem_cons_of_mem _ h)) hl _ s3 a2.clear _ _
        (by intro op ho
            rcases List.mem_append.1 ho with ho | ho
            · rcases List.mem_append.1 ho with ho | ho
              · exact hv op ho
              · rw [List.mem_singleton.1 ho]; exact splits_valid hsp
            · rw [List.mem_singleton.1 ho]; trivial) hrun1 r3 r4 r5 rfl (by rw [← hstop, ← p3]; rfl)]
      have hh : ∀ n, handedOver (AResult.events (descPkt w bc d) ⟨a2, [], [e], true, false⟩ ++ [] ++ batchEvent n false) ++ [] = [e] := by
        intro n
        simp only [AResult.events, batchEvent, Bool.false_eq_true, and_false, if_false]
        rfl
      rw [hh]
      simp only [descriptorsReady, p4, List.append_nil, List.map_cons]
      rfl
    · rw [if_neg hid]
      rw [List.filter_cons_of_neg (by simpa using hid)] at hl
      exact descriptorLoop_roundtrip bc rest l hx hl ops s a out t hv h rel inv hst hlive hstop

/-- C50 (round trip). If the descriptor items of a heap hold descriptors as the sender encodes them, the receiver gets
exactly these descriptors, in order. -/
theorem C50_roundtrip (bc : Nat) (items : List RxItem) (l : List (Nat × Descriptor × Bytes))
    (henc : ∀ x ∈ l, 1 ≤ x.1 ∧ x.1 ≤ 7 ∧ DescriptorFits x.1 bc x.2.1 ∧ x.2.1.id < 2 ^ (8 * x.1) ∧
      ∃ ok, encodeDescriptor (8 * x.1) bc x.2.1 = .ok (x.2.2, ok))
    (hl : (items.filter (fun it => it.id = DESCRIPTOR_ID)).map RxItem.data = l.map (fun x => x.2.2.map some)) :
    getDescriptors bc items = some (l.map (fun x => receivedDescriptor x.2.1)) :=
  descriptorLoop_roundtrip bc items l henc hl [] _ {} [] [] (by simp) rfl (Rel.new _) (AInv.new _) rfl rfl rfl

example : getDescriptors 0 [⟨0x1000, true, 3, 3, []⟩, ⟨5, false, 0, 0, (encodedOr 40 0 sampleDescriptor).map some⟩,
    ⟨5, false, 0, 0, (encodedOr 40 0 sampleDescriptor).map some⟩] = some [receivedDescriptor sampleDescriptor, receivedDescriptor sampleDescriptor] := by
  have key : ∃ ok, encodeDescriptor (8 * 5) 0 sampleDescriptor = .ok (encodedOr 40 0 sampleDescriptor, ok) := by
    obtain ⟨b, h, _⟩ := C18_roundtrip_wide 5 0 sampleDescriptor (by decide) (by decide) (sampleDescriptor_fits 0)
    exact ⟨true, by unfold encodedOr; rw [show (40 : Nat) = 8 * 5 from rfl, h]⟩
  exact C50_roundtrip 0 _ [(5, sampleDescriptor, encodedOr 40 0 sampleDescriptor), (5, sampleDescriptor, encodedOr 40 0 sampleDescriptor)]
    (by
      intro x hx
      have : x = (5, sampleDescriptor, encodedOr 40 0 sampleDescriptor) := by simpa using hx
      subst this
      exact ⟨by decide, by decide, sampleDescriptor_fits 0, by decide, key⟩) rfl

-- a heap that announces one descriptor and holds a damaged one
example : ∃ ds, getDescriptors 0 [⟨5, false, 0, 0, ((encodedOr 40 0 sampleDescriptor).take 50).map some⟩] = some ds :=
  C50_safe 0 _ (by
    intro it hit _
    rw [List.mem_singleton] at hit
    subst hit
    exact ⟨_, rfl⟩)

end Spead2
