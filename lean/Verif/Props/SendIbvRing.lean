import Verif.Lemmas.SendIbvDrain

/-! # C61, C62: the ring of slots of the ibverbs sender -/

namespace Spead2

open Spec

/-- The constructor succeeds. -/
theorem ibvStart_ok {c : IbvCfg} (hv : IbvValid c) : ∃ w, c.start = some w := by
  obtain ⟨w, h, _⟩ := IbvInv.start hv (fun _ => 0)
  exact ⟨w, h⟩

theorem ibvRun_inv {c : IbvCfg} {um : Nat → UInt8} {ops : List IOp} {w : IbvW} {evs : List IEv} (h : IbvExec c um ops w evs) (hne : .err ∉ ops) :
    IbvInv c um w evs := by
  obtain ⟨hv, hp, w0, h0, run⟩ := h
  obtain ⟨w0', h0', inv⟩ := IbvInv.start hv um
  rw [h0] at h0'
  cases Option.some.inj h0'
  clear h0 h0'
  induction run with
  | nil => exact inv
  | snoc _ en ex ih =>
    have i := ih (fun hm => hne (List.mem_append_left _ hm)) (fun p hm => hp p (List.mem_append_left _ hm))
    obtain ⟨w', evs', h1, h2⟩ := i.step hv en (fun e => hne (by rw [e]; simp)) (fun p e => hp p (by rw [e]; simp))
    rw [ex] at h1
    cases Option.some.inj h1
    exact h2

/-- **C61, as one would like to have it.** Nothing the sender does is undefined, and packets are reported to their heaps in the order in which they were
taken from the queue, each at most once, even if the card fails. -/
def C61_statement : Prop :=
  ∀ (c : IbvCfg) (um : Nat → UInt8) (ops : List IOp) (w : IbvW) (evs : List IEv), IbvExec c um ops w evs →
    (∀ op, w.enabled c op → (∀ p, op = .packet p → IPktOk c p) → (w.exec c um op).isSome = true) ∧
    (reports evs).map (·.1) <+: (takenPkts evs).map (·.item)

/-- **C61, safety (partial).** As long as the card has not failed, nothing the sender does is undefined or throws. Missing: a card that fails. -/
theorem C61_safe_partial {c : IbvCfg} {um : Nat → UInt8} {ops : List IOp} {w : IbvW} {evs : List IEv} (h : IbvExec c um ops w evs) (hne : .err ∉ ops)
    {op : IOp} (en : w.enabled c op) (hop : op ≠ .err) (hp : ∀ p, op = .packet p → IPktOk c p) : (w.exec c um op).isSome = true := by
  obtain ⟨w', evs', h1, _⟩ := (ibvRun_inv h hne).step h.valid en hop hp
  rw [h1]
  rfl

/-- **C61, frames (partial).** The frames on the wire are the frames of the packets, in the order in which they were taken from the queue, however the
work of the card is interleaved with the sender's: no slot is overwritten before its frame has been sent. -/
theorem C61_wire_partial {c : IbvCfg} {um : Nat → UInt8} {ops : List IOp} {w : IbvW} {evs : List IEv} (h : IbvExec c um ops w evs) (hne : .err ∉ ops) :
    (wireFrames evs).length ≤ (takenPkts evs).length ∧
    ∀ (k : Nat) (f : Bytes), (wireFrames evs)[k]? = some f → ∃ p, (takenPkts evs)[k]? = some p ∧ IsFrameOf c um p f := by
  obtain ⟨G, a, b, s, q, hr, hc, hs⟩ := ibvRun_inv h hne
  rw [hs.wire, hs.got]
  refine ⟨by simp only [List.length_map, List.length_take]; omega, ?_⟩
  intro k f hk
  rw [List.getElem?_map, Option.map_eq_some_iff] at hk
  obtain ⟨r, hr1, rfl⟩ := hk
  rw [List.getElem?_take] at hr1
  split at hr1
  · exact ⟨r.p, by rw [List.getElem?_map, hr1]; rfl, (hr.frames r (List.mem_of_getElem? hr1)).1⟩
  · cases hr1

/-- **C61, reports (partial).** Packets are reported to their heaps in order, once each, with their size, and only after their frame has been sent;
the groups reported as complete are those whose last packet has been reported. When the sender waits for the user to queue more heaps, everything has
been reported. -/
theorem C61_reports_partial {c : IbvCfg} {um : Nat → UInt8} {ops : List IOp} {w : IbvW} {evs : List IEv} (h : IbvExec c um ops w evs) (hne : .err ∉ ops) :
    reports evs = ((takenPkts evs).take (reports evs).length).map (fun p => (p.item, some p.size)) ∧
    (reports evs).length ≤ (wireFrames evs).length ∧
    groupCount evs = ((takenPkts evs).take (reports evs).length).countP (·.last) ∧
    (w.sched = .requested → (reports evs).length = (takenPkts evs).length) := by
  obtain ⟨G, a, b, s, q, hr, hc, hs⟩ := ibvRun_inv h hne
  have h1 := hr.sb; have h2 := hr.sq; have h3 := hr.qG; have h4 := hr.cq
  have hl : (reports evs).length = a := by
    rw [hs.rep, List.length_map, List.length_take]; omega
  rw [hl]
  refine ⟨?_, ?_, ?_, ?_⟩
  · rw [hs.rep, hs.got, ← List.map_take, List.map_map]; rfl
  · rw [hs.wire, List.length_map, List.length_take]; omega
  · rw [hs.groups, hs.got, ← List.map_take, List.countP_map]; rfl
  · intro hq
    rw [hc.req hq, hs.got, List.length_map]

/-- **C62, as one would like to have it.** Whatever has happened, as long as the card does not fail, everything taken from the queue can still be reported
without help from the user: the sender has not lost a wake-up. -/
def C62_statement : Prop :=
  ∀ (c : IbvCfg) (um : Nat → UInt8) (ops : List IOp) (w : IbvW) (evs : List IEv), IbvExec c um ops w evs → .err ∉ ops →
    ∃ ops' w' evs', (∀ op ∈ ops', IOp.drains op = true) ∧ IbvRun c um w ops' w' evs' ∧ takenPkts evs' = [] ∧
      (reports (evs ++ evs')).length = (takenPkts evs).length

/-- **C62 (partial).** So it is without a completion channel (a negative `comp_vector`), or if a request for notification also answers for completions that
came before it. Missing: a card that only does what is documented (`C62_violated`). -/
theorem C62_partial {c : IbvCfg} (hch : c.channel = false ∨ c.pending = true) {um : Nat → UInt8} {ops : List IOp} {w : IbvW} {evs : List IEv}
    (h : IbvExec c um ops w evs) (hne : .err ∉ ops) :
    ∃ ops' w' evs', (∀ op ∈ ops', IOp.drains op = true) ∧ IbvRun c um w ops' w' evs' ∧ takenPkts evs' = [] ∧
      (reports (evs ++ evs')).length = (takenPkts evs).length := by
  obtain ⟨o, w', e, h1, h2, _, h4, h5⟩ := (ibvRun_inv h hne).drain h.valid hch _ rfl
  exact ⟨o, w', e, h1, h2, h4, h5⟩

/-- Whether an action may happen, as a test. -/
def IbvW.can (c : IbvCfg) (w : IbvW) : IOp → Bool
  | .heap => w.sched = .requested
  | .timer => w.sched = .sleeping
  | .wake _ => w.sched = .posted || (w.sched = .waiting && w.event)
  | .packet _ => match w.pc with | .building i _ => i < c.targetBatch | _ => false
  | .finish r => match w.pc with | .building i _ => decide (i < c.targetBatch) == decide (r ≠ .full) | _ => false
  | .arm => w.pc = .toArm
  | .send => !w.wq.isEmpty && !w.dead
  | .err => !w.wq.isEmpty

theorem can_enabled {c : IbvCfg} {w : IbvW} {op : IOp} (h : w.can c op = true) : w.enabled c op := by
  cases op with
  | packet p =>
    simp only [IbvW.can] at h
    split at h
    · rename_i i m hp
      exact ⟨i, m, hp, of_decide_eq_true h⟩
    · cases h
  | finish r =>
    simp only [IbvW.can] at h
    split at h
    · rename_i i m hp
      exact ⟨i, m, hp, decide_eq_decide.mp (eq_of_beq h)⟩
    · cases h
  | heap => simpa [IbvW.can, IbvW.enabled] using h
  | timer => simpa [IbvW.can, IbvW.enabled] using h
  | wake _ => simpa [IbvW.can, IbvW.enabled] using h
  | arm => simpa [IbvW.can, IbvW.enabled] using h
  | send => simpa [IbvW.can, IbvW.enabled] using h
  | err => simpa [IbvW.can, IbvW.enabled] using h

/-- Run actions in order. -/
def ibvPlay (c : IbvCfg) (um : Nat → UInt8) : IbvW → List IOp → Option (IbvW × List IEv)
  | w, [] => some (w, [])
  | w, op :: ops =>
    if w.can c op then
      match w.exec c um op with
      | none => none
      | some (w', evs) => (ibvPlay c um w' ops).map fun r : IbvW × List IEv => (r.1, evs ++ r.2)
    else none

theorem ibvPlay_run {c : IbvCfg} {um : Nat → UInt8} : ∀ {ops : List IOp} {w w' : IbvW} {evs : List IEv}, ibvPlay c um w ops = some (w', evs) →
    IbvRun c um w ops w' evs
  | [], w, w', evs, h => by cases Option.some.inj h; exact .nil _
  | op :: ops, w, w', evs, h => by
    rw [ibvPlay] at h
    split at h
    · rename_i hcan
      split at h
      · cases h
      · rename_i w1 e1 hx
        rw [Option.map_eq_some_iff] at h
        obtain ⟨r, h1, h2⟩ := h
        cases h2
        exact (IbvRun.one (can_enabled hcan) hx).trans (ibvPlay_run h1)
    · cases h

/-- Eight slots, so batches of two. -/
def ringCfg (channel : Bool) : IbvCfg :=
  { maxPacket := 4, bufferSize := 368, endpoints := [⟨[239, 1, 2, 3], 7148⟩], regions := [], srcMac := [2, 0, 0, 0, 0, 9], srcAddr := [10, 0, 0, 1],
    srcPort := 5000, base := 50000, csum := true, channel := channel }

theorem ringCfg_valid (channel : Bool) : IbvValid (ringCfg channel) := ⟨by cases channel <;> decide, rfl, rfl, by cases channel <;> decide, by cases channel <;> decide⟩

example : (ringCfg true).nSlots = 8 ∧ (ringCfg true).targetBatch = 2 := by decide

/-- Packet number `n`, of heap `n`. -/
def ringPkt (n : Nat) : IPkt := { hdr := [0x53, UInt8.ofNat n], bufs := [], item := n, last := true }

def ringPlay (channel : Bool) (ops : List IOp) : Option (IbvW × List IEv) :=
  ((ringCfg channel).start).bind fun w => ibvPlay (ringCfg channel) (fun _ => 0) w ops

theorem ringPlay_exec {channel : Bool} {ops : List IOp} {w : IbvW} {evs : List IEv} (h : ringPlay channel ops = some (w, evs))
    (hp : ∀ p, .packet p ∈ ops → IPktOk (ringCfg channel) p) : IbvExec (ringCfg channel) (fun _ => 0) ops w evs := by
  rw [ringPlay, Option.bind_eq_some_iff] at h
  obtain ⟨w0, h0, h1⟩ := h
  exact ⟨ringCfg_valid channel, hp, w0, h0, ibvPlay_run h1⟩

theorem ringPkt_ok {channel : Bool} {ops : List IOp} (h : ∀ op ∈ ops, ∀ p, op = .packet p → ∃ n, p = ringPkt n) :
    ∀ p, .packet p ∈ ops → IPktOk (ringCfg channel) p := by
  intro p hp
  obtain ⟨n, rfl⟩ := h _ hp p rfl
  exact ⟨by show 2 ≤ 4; decide, by show 0 < 1; decide⟩

/-- One packet is sent; the card completes it after the last poll, but before the request for notification. -/
def stallOps : List IOp := [.heap, .wake [], .packet (ringPkt 0), .finish .empty, .wake [], .finish .empty, .send, .arm]

/-- After this the thread waits for an event although there is none, the card has nothing to do, and the heap has not been told. -/
theorem stall_state : ∃ w evs, ringPlay true stallOps = some (w, evs) ∧ w.pc = .idle ∧ w.sched = .waiting ∧ w.event = false ∧ w.wq = [] ∧
    (takenPkts evs).length = 1 ∧ reports evs = [] := by
  have hs : (ringPlay true stallOps).map (fun r => ((r.1.pc, r.1.sched), (r.1.event, r.1.wq), ((takenPkts r.2).length, (reports r.2).length))) =
      some ((.idle, .waiting), (false, []), (1, 0)) := by decide +kernel
  rw [Option.map_eq_some_iff] at hs
  obtain ⟨⟨w, evs⟩, h1, h2⟩ := hs
  simp only [Prod.mk.injEq] at h2
  exact ⟨w, evs, h1, h2.1.1, h2.1.2, h2.2.1.1, h2.2.1.2, h2.2.2.1, List.length_eq_zero_iff.mp h2.2.2.2⟩

theorem stuck_run {c : IbvCfg} {um : Nat → UInt8} {w w' : IbvW} {ops : List IOp} {evs : List IEv} (h1 : w.pc = .idle) (h2 : w.sched = .waiting)
    (h3 : w.event = false) (h4 : w.wq = []) (h : IbvRun c um w ops w' evs) : w' = w ∧ evs = [] := by
  induction h with
  | nil => exact ⟨rfl, rfl⟩
  | @snoc w' w'' ops op evs evs' _ en _ ih =>
    obtain ⟨rfl, _⟩ := ih
    exfalso
    cases op <;> simp [IbvW.enabled, h1, h2, h3, h4] at en

/-- **C62 is violated** by a card that notifies only of completions that come after the request: the sender stalls for ever. Not even the user can
wake it up by queueing more heaps. -/
theorem C62_violated : ¬ C62_statement := by
  intro h
  obtain ⟨w, evs, h1, h2, h3, h4, h5, h6, h7⟩ := stall_state
  have ex := ringPlay_exec h1 (ringPkt_ok (by simp [stallOps]))
  obtain ⟨ops', w', evs', _, r, _, e⟩ := h _ _ _ _ _ ex (by decide)
  obtain ⟨_, rfl⟩ := stuck_run h2 h3 h4 h5 r
  rw [List.append_nil, h7, h6] at e
  cases e

/-- With a card that answers for earlier completions, the same run has an event. -/
example : (((({ ringCfg true with pending := true } : IbvCfg).start).bind fun w => ibvPlay { ringCfg true with pending := true } (fun _ => 0) w stallOps).map
    fun r => (r.1.sched, r.1.event)) = some (.waiting, true) := by decide +kernel

/-- A batch of two packets that the card sends. -/
def ringBatch (n : Nat) : List IOp := [.wake [true], .packet (ringPkt n), .packet (ringPkt (n + 1)), .finish .full, .send, .send]

/-- Nine packets are sent. Then slots 1 and 2 are used for a batch that fails; slot 1 was the last of a batch before. -/
def staleOps : List IOp :=
  [.heap] ++ ringBatch 0 ++ [.wake [true], .packet (ringPkt 2), .finish .empty, .send] ++ ringBatch 3 ++ ringBatch 5 ++ ringBatch 7 ++
  [.wake [true], .packet (ringPkt 9), .packet (ringPkt 10), .finish .full, .err, .err] ++
  [.wake [true, true], .finish .empty] ++
  [.heap, .wake [], .packet (ringPkt 11), .packet (ringPkt 12), .finish .full] ++
  [.wake [true], .finish .empty, .err, .err, .heap, .wake [], .packet (ringPkt 13), .finish .empty, .wake [true, true]]

theorem stale_reports : (ringPlay false staleOps).map (fun r => ((takenPkts r.2).map (·.item), (reports r.2).map (·.1), r.1.avail)) =
    some ([0, 1, 2, 3, 4, 5, 6, 7, 8, 9, 10, 11, 12, 13], [0, 1, 2, 3, 4, 5, 6, 7, 8, 9, 10, 11, 12, 13, 6], 9) := by decide +kernel

/-- **C61 is violated** when the card fails: a request that was not signaled has a completion too, with the `wr_id` of an earlier use of the slot. Heap 6, which
was reported long ago, is reported again, and the sender thinks that there are nine free slots out of eight. -/
theorem C61_violated : ¬ C61_statement := by
  intro h
  have hs := stale_reports
  rw [Option.map_eq_some_iff] at hs
  obtain ⟨⟨w, evs⟩, h1, h2⟩ := hs
  have ex := ringPlay_exec h1 (ringPkt_ok (by simp [staleOps, ringBatch]))
  have h3 := (h _ _ _ _ _ ex).2.length_le
  simp only [Prod.mk.injEq] at h2
  rw [h2.1, h2.2.1] at h3
  exact absurd h3 (by decide)

/-- Non-vacuity of the partial theorems: eleven packets in batches, so that slots are reused; packets of the last batch are on their way. -/
def ringDemo : List IOp :=
  [.heap] ++ ringBatch 0 ++ ringBatch 2 ++ ringBatch 4 ++ ringBatch 6 ++ ringBatch 8 ++ [.wake [false, true], .packet (ringPkt 10), .finish .sleep]

example : (ringPlay false ringDemo).map (fun r => (((takenPkts r.2).length, (wireFrames r.2).length), ((reports r.2).map (fun x => (x.1, x.2.getD 0)), groupCount r.2), [r.1.head, r.1.tail, r.1.avail])) =
    some ((11, 10), ((List.range 10).map (fun n => (n, 2)), 10), [2, 3, 7]) := by decide +kernel

example : ∃ w evs, IbvExec (ringCfg false) (fun _ => 0) ringDemo w evs ∧ .err ∉ ringDemo := by
  obtain ⟨⟨w, evs⟩, h⟩ : ∃ r, ringPlay false ringDemo = some r := Option.isSome_iff_exists.mp (by decide +kernel)
  exact ⟨w, evs, ringPlay_exec h (ringPkt_ok (by simp [ringDemo, ringBatch])), by decide⟩

end Spead2
