import Verif.Lemmas.RingStreamProgress

/-!
# C48: streams that put heaps in a ring buffer

`cap` is the number of heaps that the ring buffer holds. Histories consist of any calls by any number of threads, in any interleaving of
their actions.
-/

namespace Spead2
open Spec

/-- C48 (no undefined behaviour). Any history of calls with valid packets can be executed. -/
theorem C48_total (cfg : RsConfig) (hm : 0 < cfg.stream.maxHeaps) (hsub : 0 < cfg.stream.substreams) {cap n : Nat} (hc : 0 < cap) {ops : List RsOp} (hv : RsValid ops) :
    ∃ s tr, RsReach cfg cap n ops s tr :=
  rs_run_total hm hsub (rs_new_inv hc n) hv

/-- C48 (the stream). The heaps handed over are those that the stream hands over when its operations are executed one at a time; each thread's
operations are done in the order in which it called for them, and all have been done when it is not in a call. -/
theorem C48_stream (cfg : RsConfig) (hm : 0 < cfg.stream.maxHeaps) (hsub : 0 < cfg.stream.substreams) {cap n : Nat} (hc : 0 < cap) {ops : List RsOp} (hv : RsValid ops)
    {s : RsState} {tr : List RsEv} (h : RsReach cfg cap n ops s tr) :
    Stream.run cfg.stream (lockedOps tr) (Stream.new cfg.stream) = some (s.stream, handed tr) ∧
    ∀ t, t < n → lockedBy t tr <+: streamCallsOf t tr ∧ (RsIdle s t → lockedBy t tr = streamCallsOf t tr) := by
  have inv := rs_reach_inv hm hsub hc hv h
  refine ⟨inv.run, fun t ht => ?_⟩
  have hlen : s.progs.length = n := by
    have : ∀ (ops : List RsOp) (s s' : RsState) (tr tr0 : List RsEv), RsInv cfg cap s tr0 → RsValid ops → RsState.run cfg ops s = some (s', tr) → s'.progs.length = s.progs.length := by
      intro ops
      induction ops with
      | nil => intro s s' tr tr0 _ _ h; cases h; rfl
      | cons op ops ih =>
        intro s s' tr tr0 inv hv h
        simp only [RsState.run] at h
        cases hs : s.step cfg op with
        | none => rw [hs] at h; cases h
        | some q =>
          obtain ⟨s1, e1⟩ := q
          rw [hs] at h
          dsimp only at h
          cases hr : RsState.run cfg ops s1 with
          | none => rw [hr] at h; cases h
          | some q =>
            obtain ⟨s2, e2⟩ := q
            rw [hr] at h
            cases h
            have hvo : ∀ t c, op = .call t c → c.Valid := fun t c e => hv t c (by rw [e]; exact List.mem_cons_self)
            have i1 := rs_step_inv hm hsub inv hvo hs
            rw [ih s1 s' e2 _ i1 (fun t c hmem => hv t c (List.mem_cons_of_mem _ hmem)) hr]
            exact rs_step_length inv hs
    have := this ops _ _ _ [] (rs_new_inv hc n) hv h
    rw [this]
    simp [RsState.new]
  have hp := List.getElem?_eq_getElem (show t < s.progs.length by omega)
  have := inv.calls t _ hp
  refine ⟨by rw [this]; exact List.prefix_append _ _, fun hi => ?_⟩
  rw [inv.calls t .idle hi]
  simp [pendingOp]

/-- C48 (order). The heaps that entered the ring buffer are the wanted ones among those handed over, in order, without gaps; consumers take
them in that order. -/
theorem C48_order (cfg : RsConfig) (hm : 0 < cfg.stream.maxHeaps) (hsub : 0 < cfg.stream.substreams) {cap n : Nat} (hc : 0 < cap) {ops : List RsOp} (hv : RsValid ops)
    {s : RsState} {tr : List RsEv} (h : RsReach cfg cap n ops s tr) :
    pushed (ringEvs tr) <+: (handed tr).filter (fun e => !cfg.contiguousOnly || e.heap.isContiguous) ∧ popped (ringEvs tr) <+: pushed (ringEvs tr) ∧
    (contents s.ring.ring).length ≤ cap ∧ popped (ringEvs tr) ++ contents s.ring.ring = pushed (ringEvs tr) := by
  have inv := rs_reach_inv hm hsub hc hv h
  obtain ⟨q, e, e', sys⟩ := inv.sys
  obtain ⟨rest, cur, f⟩ : ∃ rest cur, FlowOk cfg tr s.stream rest cur := by
    cases ho : s.owner with
    | none => exact ⟨_, _, inv.free ho⟩
    | some t =>
      obtain ⟨p, h1, -⟩ := inv.owner t ho
      obtain ⟨pc, h2, -⟩ := inv.thread h1
      exact ⟨_, _, inv.held t p pc ho h1 h2⟩
  have hc' := sys.inv.contents
  refine ⟨?_, ?_, ?_, ?_⟩
  · rw [← f.hand, List.filter_append]
    exact f.pre.trans (List.prefix_append _ _)
  · rw [← sys.inv.flow]; exact List.prefix_append _ _
  · rw [hc']; exact sys.inv.qlen
  · rw [hc']; exact sys.inv.flow

/-- C48 (completeness). When nobody holds the stream's mutex and no user has called `stop`, all the wanted heaps that were handed over have entered the
ring buffer. -/
theorem C48_all (cfg : RsConfig) (hm : 0 < cfg.stream.maxHeaps) (hsub : 0 < cfg.stream.substreams) {cap n : Nat} (hc : 0 < cap) {ops : List RsOp} (hv : RsValid ops)
    {s : RsState} {tr : List RsEv} (h : RsReach cfg cap n ops s tr) (hs : stopCalled tr = false) (ho : s.owner = none) :
    pushed (ringEvs tr) = (handed tr).filter (fun e => !cfg.contiguousOnly || e.heap.isContiguous) := by
  have inv := rs_reach_inv hm hsub hc hv h
  have f := inv.free ho
  have h1 := (f.net hs).1
  have h2 := f.hand
  rw [List.append_nil] at h1 h2
  rw [← h2]; exact h1

/-- C48 (consumers). What a thread took out of the ring buffer it got, in order: `pop` returns the contiguous heaps and drops the others,
`pop_live` returns all. One heap may be on its way while the thread is in a call. With `contiguous_only`, nothing is dropped. -/
theorem C48_consumers (cfg : RsConfig) (hm : 0 < cfg.stream.maxHeaps) (hsub : 0 < cfg.stream.substreams) {cap n : Nat} (hc : 0 < cap) {ops : List RsOp} (hv : RsValid ops)
    {s : RsState} {tr : List RsEv} (h : RsReach cfg cap n ops s tr) (t : Nat) (ht : t < s.progs.length) :
    (∃ l, takenBy t tr = (fatesOf t tr).map Fate.entry ++ l ∧ l.length ≤ 1 ∧ (RsIdle s t → l = [])) ∧
    (∀ e, Fate.popped e ∈ fatesOf t tr → e.heap.isContiguous = true) ∧ (∀ e, Fate.dropped e ∈ fatesOf t tr → e.heap.isContiguous = false) ∧
    (cfg.contiguousOnly = true → ∀ e, Fate.dropped e ∉ fatesOf t tr) := by
  have inv := rs_reach_inv hm hsub hc hv h
  have hp := List.getElem?_eq_getElem ht
  obtain ⟨pc, hpc, hcm⟩ := inv.thread hp
  have mem : ∀ f ∈ fatesOf t tr, ∃ ev ∈ tr, (match f with | .popped e => ev = .ret t (.heap e) | .live e => ev = .ret t (.live e) | .dropped e => ev = .skipped t e) := by
    intro f hf
    unfold fatesOf at hf
    rw [List.mem_filterMap] at hf
    obtain ⟨ev, h1, h2⟩ := hf
    refine ⟨ev, h1, ?_⟩
    split at h2
    · split at h2 <;> cases h2; rename_i hi; subst hi; rfl
    · split at h2 <;> cases h2; rename_i hi; subst hi; rfl
    · split at h2 <;> cases h2; rename_i hi; subst hi; rfl
    · cases h2
  have drop : ∀ e, Fate.dropped e ∈ fatesOf t tr → e.heap.isContiguous = false := by
    intro e he
    obtain ⟨ev, h1, rfl⟩ := mem _ he
    obtain ⟨a, b, hab⟩ := List.append_of_mem h1
    exact inv.hist a _ b hab
  refine ⟨⟨inFlight pc, inv.cons t pc hpc, ?_, ?_⟩, ?_, drop, ?_⟩
  · unfold inFlight; split <;> simp
  · intro hi
    have : s.progs[t]'ht = .idle := by
      have hi' : s.progs[t]? = some .idle := hi
      rw [hp] at hi'; exact Option.some.inj hi'
    rw [this] at hcm
    have hpi : pc = .idle := hcm
    rw [hpi]; rfl
  · intro e he
    obtain ⟨ev, h1, rfl⟩ := mem _ he
    obtain ⟨a, b, hab⟩ := List.append_of_mem h1
    exact inv.hist a _ b hab
  · intro hco e he
    have h1 : e ∈ takenBy t tr := by
      rw [inv.cons t pc hpc]
      exact List.mem_append_left _ (List.mem_map.mpr ⟨_, he, rfl⟩)
    have h2 : e ∈ popped (ringEvs tr) := by
      unfold takenBy at h1
      rw [List.mem_filterMap] at h1
      obtain ⟨ev, h3, h4⟩ := h1
      split at h4
      · split at h4 <;> cases h4
        unfold popped ringEvs
        rw [List.mem_filterMap]
        exact ⟨_, List.mem_filterMap.mpr ⟨_, h3, rfl⟩, rfl⟩
      · cases h4
    obtain ⟨o1, o2, -⟩ := C48_order cfg hm hsub hc hv h
    have h3 := o1.subset (o2.subset h2)
    rw [List.mem_filter, hco] at h3
    have := h3.2
    rw [drop e he] at this
    cases this

/-- C48 (the end). When a consumer is told that the stream is at its end, the ring buffer has been closed and everything in it has been taken. If no user has
called `stop`, the stream has ended and every wanted heap that it ever hands over has been taken. -/
theorem C48_end (cfg : RsConfig) (hm : 0 < cfg.stream.maxHeaps) (hsub : 0 < cfg.stream.substreams) {cap n : Nat} (hc : 0 < cap) {ops : List RsOp} (hv : RsValid ops)
    {s : RsState} {tr : List RsEv} (h : RsReach cfg cap n ops s tr) {t : Nat} (hr : .ret t .stopped ∈ tr) :
    isClosed (ringEvs tr) = true ∧ popped (ringEvs tr) = pushed (ringEvs tr) ∧
    (stopCalled tr = false → s.stream.stopped = true ∧ popped (ringEvs tr) = (handed tr).filter (fun e => !cfg.contiguousOnly || e.heap.isContiguous)) := by
  have inv := rs_reach_inv hm hsub hc hv h
  obtain ⟨a, b, rfl⟩ := List.append_of_mem hr
  have h1 := inv.hist a _ b rfl
  obtain ⟨c1, -, c3⟩ : isClosed (ringEvs a) = true ∧ isSealed (ringEvs a) = true ∧ popped (ringEvs a) = pushed (ringEvs a) := by simpa [RsEvOk] using h1
  obtain ⟨q, e, e', sys⟩ := inv.sys
  have hcl : isClosed (ringEvs (a ++ .ret t .stopped :: b)) = true := by rw [ringEvs_append, isClosed_append, c1]; rfl
  have hpush : pushed (ringEvs (RsEv.ret t .stopped :: b)) = [] := by
    unfold pushed
    rw [List.filterMap_eq_nil_iff]
    intro x hx
    split
    · rename_i i v
      obtain ⟨x1, x2, hx12⟩ := List.append_of_mem hx
      have hh := sys.hist.split (a := ringEvs a ++ x1) (e := .push i v) (b := x2) (by rw [ringEvs_append, hx12, List.append_assoc])
      obtain ⟨p, -, hp⟩ := hh
      have : isClosed ([] ++ (ringEvs a ++ x1)) = false := hp
      rw [List.nil_append, isClosed_append, c1] at this
      cases this
    · rfl
  have hflow := sys.inv.flow
  have hpp : popped (ringEvs (a ++ .ret t .stopped :: b)) = pushed (ringEvs (a ++ .ret t .stopped :: b)) := by
    rw [ringEvs_append, pushed_append, hpush, List.append_nil, popped_append, ← c3] at hflow ⊢
    have h2 : (popped (ringEvs a)).length = (popped (ringEvs a) ++ popped (ringEvs (RsEv.ret t .stopped :: b)) ++ q).length := by rw [hflow]
    simp only [List.length_append] at h2
    rw [List.eq_nil_of_length_eq_zero (show (popped (ringEvs (RsEv.ret t .stopped :: b))).length = 0 by omega), List.append_nil]
  refine ⟨hcl, hpp, fun hs => ?_⟩
  have fin : ∀ rest cur, FlowOk cfg (a ++ .ret t .stopped :: b) s.stream rest cur → s.stream.stopped = true ∧
      popped (ringEvs (a ++ .ret t .stopped :: b)) = (handed (a ++ .ret t .stopped :: b)).filter (fun e => !cfg.contiguousOnly || e.heap.isContiguous) := by
    intro rest cur f
    obtain ⟨f1, f2⟩ := f.net hs
    obtain ⟨g1, g2, g3⟩ := f2 hcl
    have f3 := f.hand
    rw [g2, List.append_nil] at f3
    rw [g3, List.append_nil] at f1
    exact ⟨g1, by rw [hpp, f1, f3]; rfl⟩
  cases ho : s.owner with
  | none => exact fin _ _ (inv.free ho)
  | some i =>
    obtain ⟨p, h1, -⟩ := inv.owner i ho
    obtain ⟨pc, h2, -⟩ := inv.thread h1
    exact fin _ _ (inv.held i p pc ho h1 h2)

/-- C48 (progress). If no new calls are made and every thread that is in a call keeps running, a state is reached in which every thread has returned from its
call, or waits in `pop` on an empty ring buffer that is open, or waits with the mutex for space in a ring buffer that is full and open, or waits for
such a thread. If a user has called `stop`, all calls return and the stream has stopped. If the stream has ended and no thread waits for space, all calls return. -/
theorem C48_progress (cfg : RsConfig) (hm : 0 < cfg.stream.maxHeaps) (hsub : 0 < cfg.stream.substreams) {cap n : Nat} (hc : 0 < cap) {ops : List RsOp} (hv : RsValid ops)
    {s : RsState} {tr : List RsEv} (h : RsReach cfg cap n ops s tr) (sched : Nat → Nat) (hf : FairTo s.progs.length sched) :
    ∃ k s' tr', RsReach cfg cap n (ops ++ rsActs sched k) s' tr' ∧ s'.progs.length = s.progs.length ∧
      (∀ t, t < s'.progs.length → RsIdle s' t ∨ (RsPopWaits s' t ∧ contents s'.ring.ring = [] ∧ isClosed (ringEvs tr') = false) ∨
        (RsPushWaits s' t ∧ (contents s'.ring.ring).length = cap ∧ isClosed (ringEvs tr') = false) ∨
        (RsLockWaits s' t ∧ ∃ t', RsPushWaits s' t' ∧ (contents s'.ring.ring).length = cap ∧ isClosed (ringEvs tr') = false)) ∧
      (stopCalled tr = true → s'.stream.stopped = true ∧ ∀ t, t < s'.progs.length → RsIdle s' t) ∧
      (s'.stream.stopped = true → (∀ t, ¬ RsPushWaits s' t) → isClosed (ringEvs tr') = true ∧ ∀ t, t < s'.progs.length → RsIdle s' t) := by
  have inv := rs_reach_inv hm hsub hc hv h
  obtain ⟨k, s', ev, h1, inv', h3, h4⟩ := rs_fair hm hsub _ inv rfl sched hf
  have key := inv'.settled h4
  have closed : isClosed (ringEvs (tr ++ ev)) = true → ∀ t, t < s'.progs.length → RsIdle s' t := by
    intro hcl t ht
    rcases key t ht with hi | ⟨-, -, hx⟩ | ⟨-, -, hx⟩ | ⟨-, t', -, -, hx⟩
    · exact hi
    all_goals rw [hcl] at hx; cases hx
  refine ⟨k, s', tr ++ ev, rs_run_append h h1, h3, key, fun hsc => ?_, fun hst hnp => ?_⟩
  · have hsc' : stopCalled (tr ++ ev) = true := by rw [stopCalled_append, hsc]; rfl
    have hcl : isClosed (ringEvs (tr ++ ev)) = true := by
      rcases inv'.closing hsc' with hx | ⟨t, hp, hpc⟩
      · exact hx
      · rcases h4 t _ _ hp hpc with hx | ⟨op, hx, -⟩ | hx
        · cases hx
        · cases hx
        · exact hx.elim
    have hid := closed hcl
    refine ⟨?_, hid⟩
    rcases inv'.stopping hsc' with hx | ⟨t, hx⟩
    · exact hx
    · have hlt : t < s'.progs.length := by rcases hx with hx | hx <;> exact (List.getElem?_eq_some_iff.mp hx).1
      have := hid t hlt
      unfold RsIdle at this
      rw [this] at hx
      rcases hx with hx | hx <;> cases hx
  · have hcl : isClosed (ringEvs (tr ++ ev)) = true := by
      rcases inv'.ended hst with hx | ⟨t, p, pc, hp, hpc, he⟩
      · exact hx
      · have hh : holds p = true := by
          have := he.1
          revert this
          cases p <;> simp [finOf, holds]
        have hlt := (List.getElem?_eq_some_iff.mp hp).1
        rcases key t hlt with hx | ⟨⟨hx, -⟩, -⟩ | ⟨hx, -⟩ | ⟨-, t', hx, -⟩
        · unfold RsIdle at hx; rw [hp] at hx; cases hx; cases hh
        · rw [hp] at hx; rcases hx with hx | hx <;> cases hx <;> cases hh
        · exact absurd hx (hnp t)
        · exact absurd hx (hnp t')
    exact ⟨hcl, closed hcl⟩

/-! ### Cases that meet the hypotheses -/

def rsCfg : RsConfig := { stream := exCfg, contiguousOnly := true }

/-- A heap of one packet. -/
def rsPkt (cnt : Nat) : Pkt := { exPkt cnt with heapLength := some 1 }

/-- Two complete heaps and an incomplete one, and the end of the stream, with a ring buffer for one heap, so that the reader has to
wait; a consumer gets the two heaps and then the end. -/
def rsOps : List RsOp :=
  [.call 0 (.batch [.packet (rsPkt 3), .packet (exPkt 0), .packet (rsPkt 5), .stop])] ++ List.replicate 9 (.act 0) ++
  [.call 1 (.pop true)] ++ List.replicate 3 (.act 1) ++ List.replicate 20 (.act 0) ++
  [.call 1 (.pop true)] ++ List.replicate 3 (.act 1) ++ [.call 1 (.pop true)] ++ List.replicate 3 (.act 1)

theorem rsOps_valid : RsValid rsOps := by
  have h1 : ∀ n, PktValid (rsPkt n) := by intro n h e; simp [rsPkt, exPkt] at e; subst e; simp [rsPkt, exPkt]
  intro t c hmem
  have : c = .batch [.packet (rsPkt 3), .packet (exPkt 0), .packet (rsPkt 5), .stop] ∨ c = .pop true := by
    simp only [rsOps, List.mem_append, List.mem_singleton, List.mem_replicate, RsOp.call.injEq, reduceCtorEq, and_false, or_false] at hmem
    rcases hmem with ((h | h) | h) | h
    · exact Or.inl h.2
    · exact Or.inr h.2
    · exact Or.inr h.2
    · exact Or.inr h.2
  rcases this with rfl | rfl
  · intro q hq
    simp only [List.mem_cons, BatchOp.packet.injEq, reduceCtorEq, List.not_mem_nil, or_false] at hq
    rcases hq with rfl | rfl | rfl
    · exact h1 3
    · exact exPkt_valid 0
    · exact h1 5
  · trivial

def rsSummary (r : Option (RsState × List RsEv)) : Option ((List Nat × List Nat × List Nat) × (Nat × Bool × Bool × Bool)) :=
  r.map (fun x => (((handed x.2).map (·.heap.cnt), (pushed (ringEvs x.2)).map (·.heap.cnt), (fatesOf 1 x.2).map (·.entry.heap.cnt)), (x.1.blocked, x.1.stream.stopped,
    x.2.contains (.ret 1 .stopped), decide (x.1.progs = [.idle, .idle, .idle]))))

example : rsSummary (RsState.run rsCfg rsOps (RsState.new rsCfg 1 3)) = some (([3, 5, 0], [3, 5], [3, 5]), (1, true, true, true)) := by decide +kernel

/-- A user stops a stream whose reader waits for space: all return, and the heap in hand is lost. -/
def rsOps2 : List RsOp :=
  [.call 0 (.batch [.packet (rsPkt 3), .packet (exPkt 0), .packet (rsPkt 5)])] ++ List.replicate 12 (.act 0) ++
  [.call 2 .stop] ++ List.replicate 5 (.act 2) ++ List.replicate 9 (.act 0) ++ List.replicate 15 (.act 2)

example : rsSummary (RsState.run rsCfg rsOps2 (RsState.new rsCfg 1 3)) = some (([3, 5, 0], [3], []), (1, true, false, true)) := by decide +kernel

/-- The same after the reader got the mutex and before the stop. -/
example : (RsState.run rsCfg (rsOps2.take 13) (RsState.new rsCfg 1 3)).map (fun x => (x.1.owner, x.1.ring.threads.map (fun pc => match pc with | .getSpace _ true => true | _ => false))) =
    some (some 0, [true, false, false]) := by decide +kernel

end Spead2
