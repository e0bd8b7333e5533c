import Verif.Spec.Traffic
import Verif.Lemmas.StreamAccount
import Verif.Lemmas.EndItems

namespace Spead2
open Spec

/-! ### Counting first appearances -/

theorem eraseDups_filter {α : Type} [BEq α] [LawfulBEq α] (f : α → Bool) (l : List α) :
    (l.filter f).eraseDups = l.eraseDups.filter f := by
  generalize hn : l.length = n
  induction n using Nat.strongRecOn generalizing l with
  | ind n ih =>
    cases l with
    | nil => simp
    | cons a l =>
      have hlen : (l.filter (fun b => !b == a)).length < n := by
        have := List.length_filter_le (fun b => !b == a) l
        simp at hn; omega
      rw [List.eraseDups_cons, List.filter_cons, List.filter_cons]
      cases hf : f a with
      | true =>
        simp only [if_true]
        rw [List.eraseDups_cons, ← ih _ hlen _ rfl, List.filter_filter, List.filter_filter]
        congr 2
        apply List.filter_congr
        intro x _
        exact Bool.and_comm _ _
      | false =>
        simp only [Bool.false_eq_true, if_false]
        rw [← ih _ hlen _ rfl, List.filter_filter]
        congr 1
        apply List.filter_congr
        intro x _
        by_cases hx : x = a
        · subst hx; rw [hf]; rfl
        · rw [beq_eq_false_iff_ne.2 hx]; simp

/-- Heaps of substream `i` among the packets `l`. -/
def nfirst (cfg : StreamConfig) (i : Nat) (l : List Pkt) : Nat := ((cntsOf l).filter (fun d => d % cfg.substreams = i)).length

theorem nfirst_append (cfg : StreamConfig) (i : Nat) (A B : List Pkt) :
    nfirst cfg i (A ++ B) = nfirst cfg i A + ((cntsOf B).filter (fun d => d % cfg.substreams = i ∧ d ∉ A.map Pkt.heapCnt)).length := by
  unfold nfirst cntsOf
  rw [List.map_append, List.eraseDups_append, List.filter_append, List.length_append]
  congr 2
  unfold List.removeAll
  rw [eraseDups_filter, List.filter_filter]
  apply List.filter_congr
  intro x _
  rw [List.elem_eq_mem, ← decide_not, Bool.decide_and]

theorem cntsOf_concat (l : List Pkt) (p : Pkt) :
    cntsOf (l ++ [p]) = if p.heapCnt ∈ l.map Pkt.heapCnt then cntsOf l else cntsOf l ++ [p.heapCnt] := by
  unfold cntsOf
  rw [List.map_append, List.map_singleton, eraseDups_concat]

theorem mem_cntsOf {l : List Pkt} {c : Nat} : c ∈ cntsOf l ↔ c ∈ l.map Pkt.heapCnt := List.mem_eraseDups

theorem nodup_cntsOf (l : List Pkt) : (cntsOf l).Nodup := nodup_eraseDups' _

theorem nfirst_one_le (cfg : StreamConfig) (i : Nat) (l : List Pkt) (p : Pkt) : nfirst cfg i (l ++ [p]) ≤ nfirst cfg i l + 1 := by
  unfold nfirst
  rw [cntsOf_concat]
  split
  · omega
  · rw [List.filter_append, List.length_append]
    have := List.length_filter_le (fun d => decide (d % cfg.substreams = i)) [p.heapCnt]
    simp only [List.length_singleton] at this
    omega

theorem nfirst_mono (cfg : StreamConfig) (i : Nat) (l m : List Pkt) : nfirst cfg i l ≤ nfirst cfg i (l ++ m) := by
  rw [nfirst_append]; omega

theorem nfirst_begun (cfg : StreamConfig) (l1 : List Pkt) (p : Pkt) (l2 : List Pkt) :
    nfirst cfg (p.heapCnt % cfg.substreams) (l1 ++ p :: l2) ≤
      nfirst cfg (p.heapCnt % cfg.substreams) l1 + 1 + begun cfg p.heapCnt (l1 ++ [p]) l2 := by
  have e : l1 ++ p :: l2 = (l1 ++ [p]) ++ l2 := by simp
  rw [e, nfirst_append]
  have := nfirst_one_le cfg (p.heapCnt % cfg.substreams) l1 p
  unfold begun
  omega

theorem ofCnt_concat (c : Nat) (l : List Pkt) (p : Pkt) : ofCnt c (l ++ [p]) = ofCnt c l ++ if p.heapCnt = c then [p] else [] := by
  unfold ofCnt
  rw [List.filter_append]
  congr 1
  by_cases h : p.heapCnt = c <;> simp [h]

theorem ofCnt_nil {c : Nat} {l : List Pkt} (h : c ∉ l.map Pkt.heapCnt) : ofCnt c l = [] := by
  unfold ofCnt
  rw [List.filter_eq_nil_iff]
  intro x hx he
  exact h (List.mem_map.2 ⟨x, hx, of_decide_eq_true he⟩)

theorem run_acc_mem {ooo : Bool} : ∀ {ps : List Pkt} {s s' : LiveHeap} {acc : List Pkt}, s.run ooo ps = some (s', acc) → ∀ p ∈ acc, p ∈ ps
  | [], s, s', acc, h => by
    simp only [LiveHeap.run, Option.some.injEq, Prod.mk.injEq] at h
    rw [← h.2]; simp
  | q :: ps, s, s', acc, h => by
    unfold LiveHeap.run at h
    cases h1 : s.addPacket q ooo with
    | none => rw [h1] at h; simp at h
    | some x =>
      obtain ⟨s1, b⟩ := x
      rw [h1] at h
      simp only at h
      cases h2 : s1.run ooo ps with
      | none => rw [h2] at h; simp at h
      | some y =>
        obtain ⟨s2, l⟩ := y
        rw [h2] at h
        simp only [Option.some.injEq, Prod.mk.injEq] at h
        have ih := run_acc_mem h2
        intro p hp
        rw [← h.2] at hp
        cases b with
        | false => simp only [Bool.false_eq_true, if_false] at hp; exact List.mem_cons_of_mem _ (ih p hp)
        | true =>
          simp only [if_true] at hp
          rcases List.mem_cons.1 hp with rfl | hp
          · exact List.mem_cons_self
          · exact List.mem_cons_of_mem _ (ih p hp)

/-! ### One packet -/

theorem deliver_live {cfg : StreamConfig} {a : AStream} {r : LiveRec} {p : Pkt} {ev : List Entry} {res : AResult}
    (h : a.deliver cfg ev r p = some res) (hk : ∀ y ∈ a.live, y.sub = r.sub → y.seq = r.seq → y = r)
    (hcnt : ∀ h' b, r.entry.heap.addPacket p cfg.allowOoo = some (h', b) → h'.cnt = r.entry.heap.cnt) :
    (∀ x ∈ res.stream.live, ∃ y ∈ a.live, x.sub = y.sub ∧ x.seq = y.seq ∧ x.entry.heap.cnt = y.entry.heap.cnt) ∧
    res.stream.stopped = a.stopped ∧ res.stream.created = a.created := by
  unfold AStream.deliver at h
  cases h1 : r.entry.heap.addPacket p cfg.allowOoo with
  | none => rw [h1] at h; simp at h
  | some x =>
    obtain ⟨h', b⟩ := x
    have hc := hcnt h' b h1
    rw [h1] at h
    simp only at h
    split at h
    · simp only [Option.some.injEq] at h
      subst h
      exact ⟨fun x hx => ⟨x, (List.mem_filter.1 hx).1, rfl, rfl, rfl⟩, rfl, rfl⟩
    · simp only [Option.some.injEq] at h
      subst h
      refine ⟨fun x hx => ?_, rfl, rfl⟩
      obtain ⟨y, hy, y1, y2, y3⟩ := update_mem hx
      refine ⟨y, hy, y1, y2, ?_⟩
      rcases y3 with ⟨k1, k2, k3⟩ | ⟨_, k3⟩
      · rw [hk y hy k1 k2, k3]; exact hc
      · rw [k3]

theorem evict_stopped (cfg : StreamConfig) (a : AStream) (sub : Nat) : (a.evict cfg sub).stopped = a.stopped := by
  unfold AStream.evict
  split <;> rfl

/-- Invariant of a stream that has received the orderly packets `done` and handed over `out`. -/
structure TInv (cfg : StreamConfig) (done : List Pkt) (out : List Entry) (a : AStream) : Prop where
  inv : AInv cfg a none
  running : a.stopped = false
  cnts : ((out ++ entries a).map (fun e => e.heap.cnt)).Perm (cntsOf done)
  pkts : ∀ e ∈ out ++ entries a, EntryOk cfg.allowOoo e ∧ e.pkts = ofCnt e.heap.cnt done
  started : ∀ i, a.started i = nfirst cfg i done
  seq : ∀ r ∈ a.live, ∃ l1 p l2, done = l1 ++ p :: l2 ∧ p.heapCnt = r.entry.heap.cnt ∧ r.seq = nfirst cfg r.sub l1
  gone : ∀ e ∈ out, e.heap.isComplete = true ∨ ∃ l1 p l2, done = l1 ++ p :: l2 ∧ p.heapCnt = e.heap.cnt ∧
    nfirst cfg (e.heap.cnt % cfg.substreams) l1 + cfg.maxHeaps < nfirst cfg (e.heap.cnt % cfg.substreams) done

theorem TInv.new (cfg : StreamConfig) : TInv cfg [] [] {} :=
  ⟨AInv.new cfg, rfl, by simp [entries, cntsOf], by simp [entries], by simp [nfirst, cntsOf], by simp, by simp⟩

theorem EntryOk.assembles {ooo : Bool} {e : Entry} (h : EntryOk ooo e) (hne : e.pkts ≠ []) : assemble ooo e.pkts = some e.heap := by
  obtain ⟨p0, rest, acc, h1, _, h2⟩ := h.assembled hne
  unfold assemble
  rw [h1] at h2 ⊢
  simp only
  rw [h2]; rfl

theorem TInv.nonempty {cfg : StreamConfig} {done : List Pkt} {out : List Entry} {a : AStream} (t : TInv cfg done out a) {e : Entry}
    (he : e ∈ out ++ entries a) : e.pkts ≠ [] := by
  have hc : e.heap.cnt ∈ cntsOf done := t.cnts.subset (List.mem_map.2 ⟨e, he, rfl⟩)
  rw [mem_cntsOf] at hc
  obtain ⟨q, hq, hqc⟩ := List.mem_map.1 hc
  rw [(t.pkts e he).2]
  intro h0
  have : q ∈ ofCnt e.heap.cnt done := List.mem_filter.2 ⟨hq, decide_eq_true hqc⟩
  rw [h0] at this
  simp at this

theorem no_stop {cfg : StreamConfig} {ps : List Pkt} (ord : Orderly cfg ps) {e : Entry} (hok : EntryOk cfg.allowOoo e)
    (hsub : ∀ q ∈ e.pkts, q ∈ ps) : (cfg.stopOnStopItem && e.heap.endOfStream) = false := by
  cases hs : cfg.stopOnStopItem with
  | false => rfl
  | true =>
    obtain ⟨p0, acc, _, _, _, hrun, linv⟩ := hok
    cases he : e.heap.endOfStream with
    | false => rfl
    | true =>
      exfalso
      obtain ⟨q, hq, hst⟩ := linv.ptrs.eos.1 he
      unfold relevantPtrs at hq
      simp only [List.mem_flatMap, List.mem_filter, decide_eq_true_eq] at hq
      obtain ⟨p, hp, hqp, _⟩ := hq
      refine ord.nostop hs p (hsub p (run_acc_mem hrun p hp)) q hqp ?_
      rw [linv.hab p hp]; exact hst

/-- The heap of a packet that is not the first of its heap is live. -/
theorem TInv.find {cfg : StreamConfig} {done : List Pkt} {out : List Entry} {a : AStream} (t : TInv cfg done out a) {p : Pkt}
    {rest : List Pkt} (ord : Orderly cfg (done ++ p :: rest)) (hp : p.heapCnt ∈ done.map Pkt.heapCnt) :
    ∃ r, a.find p = some r := by
  have hc : p.heapCnt ∈ (out ++ entries a).map (fun e => e.heap.cnt) := t.cnts.symm.subset (mem_cntsOf.2 hp)
  obtain ⟨e, he, hec⟩ := List.mem_map.1 hc
  have hw : ¬ p.heapLength = some p.payload.length := fun hw => ord.whole done p rest rfl hw hp
  unfold AStream.find
  rw [if_neg hw]
  rcases List.mem_append.1 he with ho | hl
  · exfalso
    rcases t.gone e ho with hcomp | ⟨l1, q, l2, hd, hq, hlt⟩
    · have := ord.echo done p rest e.heap rfl (by
        rw [← hec, ← (t.pkts e he).2]
        exact (t.pkts e he).1.assembles (t.nonempty he))
      rw [hcomp] at this
      simp at this
    · have h1 := ord.overlap l1 q l2 p rest (by rw [hd]) (by rw [hq, hec])
      have h2 := nfirst_begun cfg l1 q l2
      rw [hd] at hlt
      rw [hq] at h2 h1
      omega
  · obtain ⟨r, hr, hre⟩ := List.mem_map.1 hl
    cases hf : a.live.find? (fun r => decide (r.entry.heap.cnt = p.heapCnt)) with
    | some r' => exact ⟨r', rfl⟩
    | none =>
      have := List.find?_eq_none.1 hf r hr
      simp [hre, hec] at this

theorem TInv.step {cfg : StreamConfig} (hm : 0 < cfg.maxHeaps) {done : List Pkt} {out : List Entry} {a : AStream} (t : TInv cfg done out a)
    {p : Pkt} {rest : List Pkt} (ord : Orderly cfg (done ++ p :: rest)) {res : AResult} (h : a.addPacket cfg p = some res) :
    res.ended = false ∧ TInv cfg (done ++ [p]) (out ++ (res.evicted ++ res.completed)) res.stream := by
  have hv : PktValid p := ord.valid p (by simp)
  have hnd : ((out ++ entries a).map (fun e : Entry => e.heap.cnt)).Nodup := t.cnts.nodup_iff.2 (nodup_cntsOf _)
  have hsz : ¬ (p.heapLength = none ∧ cfg.allowUnsized = false) := fun hh => ord.sized hh.2 p (by simp) hh.1
  have h' := h
  unfold AStream.addPacket at h
  rw [if_neg hsz] at h
  have hnodrop : ∀ {e e' : Entry} {b : Bool}, Given cfg.allowOoo e e' p b → e.pkts = ofCnt e.heap.cnt done →
      (cfg.stopOnStopItem && e'.heap.endOfStream) = false := by
    intro e e' b g hpk
    refine no_stop ord g.ok' ?_
    intro q hq
    rw [g.pkts, hpk] at hq
    rcases List.mem_append.1 hq with hq | hq
    · exact List.mem_append_left _ (List.mem_filter.1 hq).1
    · simp at hq; subst hq; simp
  have hold : ∀ x ∈ out ++ entries a, x.heap.cnt ≠ p.heapCnt → x.pkts = ofCnt x.heap.cnt (done ++ [p]) := by
    intro x hx hne
    rw [ofCnt_concat, if_neg (fun e => hne e.symm), List.append_nil]
    exact (t.pkts x hx).2
  have hgone : ∀ e ∈ out, e.heap.isComplete = true ∨ ∃ l1 q l2, done ++ [p] = l1 ++ q :: l2 ∧ q.heapCnt = e.heap.cnt ∧
      nfirst cfg (e.heap.cnt % cfg.substreams) l1 + cfg.maxHeaps < nfirst cfg (e.heap.cnt % cfg.substreams) (done ++ [p]) := by
    intro e he
    rcases t.gone e he with hc | ⟨l1, q, l2, hd, hq, hlt⟩
    · exact Or.inl hc
    · exact Or.inr ⟨l1, q, l2 ++ [p], by rw [hd]; simp, hq, Nat.lt_of_lt_of_le hlt (nfirst_mono _ _ _ _)⟩
  have hseq : ∀ r ∈ a.live, ∃ l1 q l2, done ++ [p] = l1 ++ q :: l2 ∧ q.heapCnt = r.entry.heap.cnt ∧ r.seq = nfirst cfg r.sub l1 := by
    intro r hr
    obtain ⟨l1, q, l2, hd, hq, hs⟩ := t.seq r hr
    exact ⟨l1, q, l2 ++ [p], by rw [hd]; simp, hq, hs⟩
  by_cases hin : p.heapCnt ∈ done.map Pkt.heapCnt
  · -- a packet of a live heap
    obtain ⟨r, hf⟩ := t.find ord hin
    rw [hf] at h
    simp only at h
    have hr : r ∈ a.live ∧ r.entry.heap.cnt = p.heapCnt := by
      unfold AStream.find at hf
      by_cases hs : p.heapLength = some p.payload.length
      · rw [if_pos hs] at hf; simp at hf
      · rw [if_neg hs] at hf
        exact ⟨List.mem_of_find?_eq_some hf, by simpa using List.find?_some hf⟩
    have hre : r.entry ∈ out ++ entries a := List.mem_append_right _ (List.mem_map.2 ⟨r, hr.1, rfl⟩)
    obtain ⟨e', drop, ⟨g, hend⟩, d2, d3, d4, d5, d6, d7, d8, d9, d10⟩ := deliver_account t.inv hr.1 (Or.inl rfl) hv hr.2.symm
      (fun he => absurd ((t.inv.ok r hr.1).2.1 he) (by simp)) h
    obtain ⟨dl, dstop, _⟩ := deliver_live h (fun y hy k1 k2 => t.inv.eq_of_key hy hr.1 k1 k2) (by
      intro h'' b hb
      rw [g.heap] at hb
      simp only [Option.some.injEq, Prod.mk.injEq] at hb
      rw [← hb.1]; exact g.cnt)
    have hns := hnodrop g (t.pkts _ hre).2
    have hended : res.ended = false := by rw [hend, Bool.and_assoc, hns]; simp
    have hd0 : drop = [] := by
      cases drop with
      | nil => rfl
      | cons x l => have := (d5 x (by simp)).2.2.2.2; rw [hended] at this; simp at this
    subst hd0
    rw [List.append_nil] at d2
    rw [d3, List.nil_append]
    have hperm : (out ++ res.completed ++ entries res.stream).Perm (out ++ (e' :: entries (a.remove r))) := by
      rw [List.append_assoc]; exact List.Perm.append_left _ d2
    have hperm0 : (out ++ entries a).Perm (out ++ (r.entry :: entries (a.remove r))) := List.Perm.append_left _ (t.inv.perm_remove hr.1)
    have hcnt' : cntsOf (done ++ [p]) = cntsOf done := by rw [cntsOf_concat, if_pos hin]
    have hnd' : ((out ++ (r.entry :: entries (a.remove r))).map (fun e : Entry => e.heap.cnt)).Nodup := (hperm0.map _).nodup_iff.1 hnd
    have hne : ∀ x ∈ out ++ entries (a.remove r), x.heap.cnt ≠ p.heapCnt := by
      intro x hx he
      have hp2 : (out ++ (r.entry :: entries (a.remove r))).Perm (r.entry :: (out ++ entries (a.remove r))) := List.perm_middle
      have := (hp2.map (fun e : Entry => e.heap.cnt)).nodup_iff.1 hnd'
      rw [List.map_cons, List.nodup_cons] at this
      exact this.1 (List.mem_map.2 ⟨x, hx, by rw [he, hr.2]⟩)
    refine ⟨hended, d7, by rw [dstop]; exact t.running, ?_, ?_, ?_, ?_, ?_⟩
    · rw [hcnt']
      refine (hperm.map _).trans (List.Perm.trans ?_ t.cnts)
      refine List.Perm.trans ?_ (hperm0.map _).symm
      simp only [List.map_append, List.map_cons, g.cnt]
      exact List.Perm.refl _
    · intro x hx
      have hx := hperm.subset hx
      have hmem : x = e' ∨ x ∈ out ++ entries (a.remove r) := by
        rcases List.mem_append.1 hx with hx | hx
        · exact Or.inr (List.mem_append_left _ hx)
        · rcases List.mem_cons.1 hx with hx | hx
          · exact Or.inl hx
          · exact Or.inr (List.mem_append_right _ hx)
      rcases hmem with rfl | hx
      · refine ⟨g.ok', ?_⟩
        rw [g.pkts, g.cnt, (t.pkts _ hre).2, ofCnt_concat, if_pos hr.2.symm]
      · have hx0 : x ∈ out ++ entries a := hperm0.symm.subset (by
          rcases List.mem_append.1 hx with hx | hx
          · exact List.mem_append_left _ hx
          · exact List.mem_append_right _ (List.mem_cons_of_mem _ hx))
        exact ⟨(t.pkts x hx0).1, hold x hx0 (hne x hx)⟩
    · intro i
      unfold nfirst
      rw [d8, t.started i, hcnt']; rfl
    · intro x hx
      obtain ⟨y, hy, y1, y2, y3⟩ := dl x hx
      rw [y1, y2, y3]
      exact hseq y hy
    · intro e he
      rcases List.mem_append.1 he with he | he
      · exact hgone e he
      · exact Or.inl (d4 e he).2.1
  · -- the first packet of a heap
    have hfn : a.find p = none := by
      unfold AStream.find
      split
      · rfl
      · rw [List.find?_eq_none]
        intro r hr he
        have he : r.entry.heap.cnt = p.heapCnt := of_decide_eq_true he
        have : p.heapCnt ∈ cntsOf done := t.cnts.subset (List.mem_map.2 ⟨r.entry, List.mem_append_right _ (List.mem_map.2 ⟨r, hr, rfl⟩), he⟩)
        exact hin (mem_cntsOf.1 this)
    rw [hfn] at h
    simp only at h
    have hop : ¬ (cfg.allowOoo = false ∧ p.payloadOffset ≠ 0) := fun hh => hh.2 (ord.opening hh.1 done p rest rfl hin)
    rw [if_neg hop] at h
    have inv' := t.inv.startHeap hm p
    have hlive : (a.startHeap cfg p).1.live = (a.startHeap cfg p).2 :: (a.evict cfg (p.heapCnt % cfg.substreams)).live := rfl
    have hrm : (a.startHeap cfg p).2 ∈ (a.startHeap cfg p).1.live := by rw [hlive]; exact List.mem_cons_self
    have hcntn : ∀ h'' b, (a.startHeap cfg p).2.entry.heap.addPacket p cfg.allowOoo = some (h'', b) →
        h''.cnt = (a.startHeap cfg p).2.entry.heap.cnt := by
      intro h'' b hb
      obtain ⟨e', drop, ⟨g, _⟩, _⟩ := deliver_account inv' hrm (Or.inr rfl) hv rfl (fun _ => rfl) h
      rw [g.heap] at hb
      simp only [Option.some.injEq, Prod.mk.injEq] at hb
      rw [← hb.1]; exact g.cnt
    obtain ⟨dl, dstop, dcreated⟩ := deliver_live h (fun y hy k1 k2 => inv'.eq_of_key hy hrm k1 k2) hcntn
    rcases addPacket_account hm t.inv hv h' with ⟨h1, _⟩ | ⟨e, e', drop, ⟨g, hend⟩, d4, d5, d6, d7, hcase⟩
    · rw [h1] at dcreated
      have : (a.startHeap cfg p).1.created = a.created + 1 := rfl
      omega
    rcases hcase with ⟨hc, _⟩ | ⟨_, c1, c2, c3, c4, c5, c6, c7⟩
    · exact absurd hfn hc
    have hpe : e.pkts = ofCnt e.heap.cnt done := by
      rw [c2, ← g.pcnt, ofCnt_nil hin]
    have hns := hnodrop g hpe
    have hended : res.ended = false := by rw [hend, Bool.and_assoc, hns]; simp
    have hd0 : drop = [] := by
      cases drop with
      | nil => rfl
      | cons x l => have := (d5 x (by simp)).2.2.2.2; rw [hended] at this; simp at this
    subst hd0
    rw [List.append_nil] at c4
    have hperm : (out ++ (res.evicted ++ res.completed) ++ entries res.stream).Perm (e' :: (out ++ entries a)) := by
      rw [List.append_assoc]
      exact (List.Perm.append_left _ c4).trans List.perm_middle
    have hec : e'.heap.cnt = p.heapCnt := by rw [g.cnt, g.pcnt]
    have hcnt' : cntsOf (done ++ [p]) = cntsOf done ++ [p.heapCnt] := by rw [cntsOf_concat, if_neg hin]
    have hnf : ∀ i, nfirst cfg i (done ++ [p]) = nfirst cfg i done + if i = p.heapCnt % cfg.substreams then 1 else 0 := by
      intro i
      unfold nfirst
      rw [hcnt', List.filter_append, List.length_append]
      congr 1
      by_cases hi : i = p.heapCnt % cfg.substreams
      · subst hi; simp
      · rw [if_neg hi, List.filter_cons, if_neg (by simpa using fun e => hi e.symm)]; rfl
    refine ⟨hended, d7, by rw [dstop]; exact (evict_stopped cfg a _).trans t.running, ?_, ?_, ?_, ?_, ?_⟩
    · rw [hcnt']
      refine (hperm.map _).trans ?_
      rw [List.map_cons]
      simp only [hec]
      exact (t.cnts.cons _).trans (List.perm_append_comm (l₁ := [p.heapCnt]))
    · intro x hx
      rcases List.mem_cons.1 (hperm.subset hx) with rfl | hx
      · refine ⟨g.ok', ?_⟩
        rw [g.pkts, hec, ofCnt_concat, if_pos rfl, ofCnt_nil hin, c2]
      · refine ⟨(t.pkts x hx).1, hold x hx ?_⟩
        intro he
        exact hin (mem_cntsOf.1 (t.cnts.subset (List.mem_map.2 ⟨x, hx, he⟩)))
    · intro i
      rw [c6, hnf]
      simp only
      by_cases hi : i = p.heapCnt % cfg.substreams
      · rw [if_pos hi, if_pos hi, hi, t.started]
      · rw [if_neg hi, if_neg hi, t.started]; rfl
    · intro x hx
      obtain ⟨y, hy, y1, y2, y3⟩ := dl x hx
      rw [y1, y2, y3]
      rw [hlive] at hy
      rcases List.mem_cons.1 hy with rfl | hy
      · exact ⟨done, p, [], rfl, rfl, t.started _⟩
      · exact hseq y ((evict_sublist cfg a _).subset hy)
    · intro x hx
      rcases List.mem_append.1 hx with hx | hx
      · exact hgone x hx
      · rcases List.mem_append.1 hx with hx | hx
        · rw [c3] at hx
          obtain ⟨v, hv, rfl⟩ := List.mem_map.1 hx
          obtain ⟨v1, v2, v3⟩ := victim_mem (Option.mem_toList.1 hv)
          obtain ⟨l1, q, l2, hd, hq, hs⟩ := hseq v v1
          refine Or.inr ⟨l1, q, l2, hd, hq, ?_⟩
          rw [← t.inv.sub v v1, ← hs, hnf, v2, if_pos rfl, ← t.started]
          omega
        · exact Or.inl (d4 x hx).2.1

/-! ### Batches and histories -/

theorem TInv.packets {cfg : StreamConfig} (hm : 0 < cfg.maxHeaps) : ∀ (ops : List BatchOp) {done : List Pkt} {out : List Entry} {a : AStream}
    (_ : TInv cfg done out a) (_ : ∀ b ∈ ops, b ≠ .stop) (rest : List Pkt) (_ : Orderly cfg (done ++ batchPackets ops ++ rest))
    {a' : AStream} {t : List Ev} {e : Bool} (_ : AStream.packets cfg ops a = some (a', t, e)),
    e = false ∧ TInv cfg (done ++ batchPackets ops) (out ++ handedOver t) a'
  | [], done, out, a, ti, _, rest, _, a', t, e, h => by
    simp only [AStream.packets, Option.some.injEq, Prod.mk.injEq] at h
    obtain ⟨rfl, rfl, rfl⟩ := h
    exact ⟨rfl, by simpa [batchPackets, handedOver] using ti⟩
  | .stop :: ops, done, out, a, ti, hs, rest, _, a', t, e, h => absurd rfl (hs .stop (by simp))
  | .packet p :: ops, done, out, a, ti, hs, rest, ord, a', t, e, h => by
    have hb : batchPackets (.packet p :: ops) = p :: batchPackets ops := rfl
    rw [hb] at ord ⊢
    rw [AStream.packets] at h
    cases h1 : a.addPacket cfg p with
    | none => rw [h1] at h; simp at h
    | some res =>
      rw [h1] at h
      simp only at h
      obtain ⟨k1, k2⟩ := ti.step hm (rest := batchPackets ops ++ rest) (by simpa using ord) h1
      rw [k1] at h
      simp only [Bool.false_eq_true, if_false] at h
      cases h2 : AStream.packets cfg ops res.stream with
      | none => rw [h2] at h; simp at h
      | some x =>
        obtain ⟨a2, t2, e2⟩ := x
        rw [h2] at h
        simp only [Option.some.injEq, Prod.mk.injEq] at h
        obtain ⟨rfl, rfl, rfl⟩ := h
        obtain ⟨q1, q2⟩ := TInv.packets hm ops k2 (fun b hb => hs b (by simp [hb])) rest (by simpa using ord) h2
        refine ⟨q1, ?_⟩
        rw [handedOver_append, (events_counts p res).2.1, ← List.append_assoc]
        simpa using q2

theorem TInv.run {cfg : StreamConfig} (hm : 0 < cfg.maxHeaps) : ∀ (ops : List StreamOp) {done : List Pkt} {out : List Entry} {a : AStream}
    (_ : TInv cfg done out a) (_ : ∀ op ∈ ops, isPackets op) (_ : Orderly cfg (done ++ presented ops))
    {a' : AStream} {t : List Ev} (_ : AStream.run cfg ops a = some (a', t)),
    TInv cfg (done ++ presented ops) (out ++ handedOver t) a'
  | [], done, out, a, ti, _, _, a', t, h => by
    simp only [AStream.run, Option.some.injEq, Prod.mk.injEq] at h
    obtain ⟨rfl, rfl⟩ := h
    simpa [presented, handedOver] using ti
  | op :: ops, done, out, a, ti, hs, ord, a', t, h => by
    rw [AStream.run] at h
    cases h1 : a.step cfg op with
    | none => rw [h1] at h; simp at h
    | some x =>
      obtain ⟨a1, t1⟩ := x
      rw [h1] at h
      simp only at h
      cases h2 : AStream.run cfg ops a1 with
      | none => rw [h2] at h; simp at h
      | some y =>
        obtain ⟨a2, t2⟩ := y
        rw [h2] at h
        simp only [Option.some.injEq, Prod.mk.injEq] at h
        obtain ⟨rfl, rfl⟩ := h
        have hop := hs op List.mem_cons_self
        match op, hop, h1 with
        | .batch l, hop, h1 =>
          have hb : presented (.batch l :: ops) = batchPackets l ++ presented ops := rfl
          rw [hb] at ord ⊢
          simp only [AStream.step, ti.running, Bool.false_eq_true, if_false] at h1
          cases h3 : AStream.packets cfg l a with
          | none => rw [h3] at h1; simp at h1
          | some z =>
            obtain ⟨a3, t3, e3⟩ := z
            obtain ⟨rfl, k2⟩ := ti.packets hm l hop (presented ops) (by simpa using ord) h3
            rw [h3] at h1
            simp only [Option.some.injEq, Prod.mk.injEq] at h1
            obtain ⟨rfl, rfl⟩ := h1
            have hbe : ∀ n, handedOver (batchEvent n false) = [] := by intro n; simp [batchEvent, handedOver, Ev.heap?]
            have := TInv.run hm ops k2 (fun o ho => hs o (List.mem_cons_of_mem _ ho)) (by simpa using ord) h2
            rw [handedOver_append, handedOver_append, hbe, List.append_nil]
            simpa using this

theorem MadeOf.of_inv {cfg : StreamConfig} {done : List Pkt} {out : List Entry} {a : AStream} (t : TInv cfg done out a) {e : Entry}
    (he : e ∈ out ++ entries a) : MadeOf cfg done e := by
  refine ⟨(t.pkts e he).2, ?_⟩
  rw [← (t.pkts e he).2]
  exact (t.pkts e he).1.assembles (t.nonempty he)

end Spead2
