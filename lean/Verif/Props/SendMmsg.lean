import Verif.Lemmas.SendMmsg
import Verif.Props.SendWriter

/-!
# C68: the UDP writer with `sendmmsg`

`async_send_heaps`, `flush` and `set_cnt_sequence` of streams with the UDP writer that sends batches of packets with `sendmmsg`, with or without segmentation
offload. The kernel takes any number of the packets of a batch, none for now, or refuses one with an error. The theorems are about histories in which no call
fails after it has put a heap in the queue (`CleanRejects`; see C41).
-/

namespace Spead2
open Spec

variable {H π : Type}

/-- C68: no step is undefined. -/
theorem C68_safe {genv : UEnv} {env : WEnv H π} (hv : env.MValid) {ops : List (WOp H)}
    (hc : ∀ ops' m tr, ops' <+: ops → MReach genv env ops' m tr → CleanRejects (queueEvs tr)) : ∃ m tr, MReach genv env ops m tr := by
  have key : ∀ (n : Nat), n ≤ ops.length → ∃ m tr, MReach genv env (ops.take n) m tr := by
    intro n
    induction n with
    | zero => intro _; exact ⟨_, _, rfl⟩
    | succ n ih =>
      intro hn
      obtain ⟨m, tr, h⟩ := ih (by omega)
      obtain ⟨st, ⟨done, held, inv⟩, -⟩ := mrun_state (all := ops) hv (ops.take n) (fun o ho => List.mem_of_mem_take ho) (minit (genv := genv) (all := ops)).1 minit.2 h (hc _ _ _ (List.take_prefix _ _) h)
      obtain ⟨m', ev, h', -⟩ := mstep hv st inv ops[n] (List.getElem_mem _)
      refine ⟨m', tr ++ ev, ?_⟩
      rw [List.take_add_one, List.getElem?_eq_getElem (by omega)]
      refine mrun_snoc _ h ?_
      show MSt.run genv env [ops[n]] m = _
      unfold MSt.run
      rw [h']
      simp [MSt.run]
  obtain ⟨m, tr, h⟩ := key ops.length (Nat.le_refl _)
  rw [List.take_length] at h
  exact ⟨m, tr, h⟩

/-- C68: what is seen of the queue is one of the histories that C38, C39, C40 and C51 are about. So these hold of streams with this writer. -/
theorem C68_queue {genv : UEnv} {env : WEnv H π} (hv : env.MValid) {ops : List (WOp H)} {m : MSt H π} {tr : List (WEv π)} (h : MReach genv env ops m tr) (hc : CleanRejects (queueEvs tr)) :
    ∃ sops, SqReach env.sq .running sops m.sq (queueEvs tr) := (mreach_state hv h hc).2.2

/-- C68: what has left are the packets that the writer was given, in order, each as a datagram of its own, each once and each for the substream of its heap, except
for those that failed, of which nothing has left; and the writer has at most 64 packets that it has not yet sent. -/
theorem C68_datagrams {genv : UEnv} {env : WEnv H π} (hv : env.MValid) {ops : List (WOp H)} {m : MSt H π} {tr : List (WEv π)} (h : MReach genv env ops m tr) (hc : CleanRejects (queueEvs tr)) :
    leftWire tr = wantedPackets env.data (fetched (queueEvs tr)) (outcomes (queueEvs tr)) ∧ (∀ r ∈ outcomes (queueEvs tr), r = none ∨ r = some 0) ∧
    (outcomes (queueEvs tr)).length ≤ (fetched (queueEvs tr)).length ∧ (fetched (queueEvs tr)).length ≤ (outcomes (queueEvs tr)).length + 64 := by
  obtain ⟨-, ⟨done, held, inv⟩, -⟩ := mreach_state hv h hc
  have hl := held_le inv
  refine ⟨?_, inv.core.zero, ?_, ?_⟩
  · rw [inv.core.pend, wantedPackets_more _ _ _ _ inv.core.len]; exact inv.core.wire
  all_goals rw [inv.core.pend, List.length_append, inv.core.len]; omega

/-- C68: as long as nothing fails, what has left is an initial part of the packets of the accepted groups, in order. -/
theorem C68_prefix {genv : UEnv} {env : WEnv H π} (hv : env.MValid) {ops : List (WOp H)} {m : MSt H π} {tr : List (WEv π)} (h : MReach genv env ops m tr) (hc : CleanRejects (queueEvs tr)) (ha : AllSent (queueEvs tr)) :
    leftWire tr <+: (allPackets (queueEvs tr)).map (fun x => (x.2, env.data x.1)) := by
  obtain ⟨⟨⟨old, gl, n, sinv⟩, -⟩, -, -⟩ := mreach_state hv h hc
  rw [(C68_datagrams hv h hc).1, (wanted_all env.data (fetched (queueEvs tr)) _ ha).1]
  have hp : ((fetched (queueEvs tr)).take (outcomes (queueEvs tr)).length).map Prod.fst <+: allPackets (queueEvs tr) := by
    have := ((List.take_prefix (outcomes (queueEvs tr)).length (fetched (queueEvs tr))).trans (fetched_prefix sinv)).map Prod.fst
    rwa [flatMap_markLast] at this
  exact hp.map _

/-- C68: when the writer waits for the next call, every accepted group has been sent and its handler called, every call of `flush` can return, and the handlers were
given, in total, the number of bytes that have left. -/
theorem C68_idle {genv : UEnv} {env : WEnv H π} (hv : env.MValid) {ops : List (WOp H)} {m : MSt H π} {tr : List (WEv π)} (h : MReach genv env ops m tr) (hc : CleanRejects (queueEvs tr)) (hi : m.idle) :
    (fetched (queueEvs tr)).map Prod.fst = allPackets (queueEvs tr) ∧ (outcomes (queueEvs tr)).length = (allPackets (queueEvs tr)).length ∧
    completed (queueEvs tr) = due env.sq.bytes (accepted (queueEvs tr)) (outcomes (queueEvs tr)) ∧ (completed (queueEvs tr)).length = (accepted (queueEvs tr)).length ∧
    (returned (queueEvs tr)).Perm (List.range m.sq.flushes) ∧
    ((completed (queueEvs tr)).map (fun x => x.2.2)).sum = (leftBytes tr).length := by
  obtain ⟨st, ⟨done, held, inv⟩, sops, hs⟩ := mreach_state hv h hc
  obtain ⟨r1, r2, r3⟩ := C39_idle hv.sq hs hc hi.2
  obtain ⟨⟨old, gl, n, sinv⟩, -⟩ := st
  have hd := due_full env.sq.bytes _ _ (by rw [← r1, r2])
  have hp := (fetched_prefix sinv).map Prod.fst
  rw [flatMap_markLast] at hp
  have hh : held = [] := by
    have := inv.pc
    unfold MPcOk at this
    rw [hi.1] at this
    exact this.2.2.2.2.1
  have p1 := inv.core.pend
  have p2 := inv.core.len
  rw [hh, List.append_nil] at p1
  rw [← p1] at p2
  have heq : (fetched (queueEvs tr)).map Prod.fst = allPackets (queueEvs tr) := hp.eq_of_length_le (by rw [List.length_map, p2]; exact hd)
  refine ⟨heq, ?_, r1, r2, r3, ?_⟩
  · rw [← heq, List.length_map, p2]
  · rw [r1, due_bytes _ _ _ (by rw [← r1, r2])]
    unfold leftBytes
    rw [(C68_datagrams hv h hc).1, sentBytes_wanted env hv.bytes _ _ inv.core.zero, heq]
    rfl

/-- C68: and if nothing failed, exactly the packets of the accepted groups have left, in order. -/
theorem C68_all {genv : UEnv} {env : WEnv H π} (hv : env.MValid) {ops : List (WOp H)} {m : MSt H π} {tr : List (WEv π)} (h : MReach genv env ops m tr) (hc : CleanRejects (queueEvs tr)) (hi : m.idle) (ha : AllSent (queueEvs tr)) :
    leftWire tr = (allPackets (queueEvs tr)).map (fun x => (x.2, env.data x.1)) := by
  obtain ⟨h1, -⟩ := wanted_all env.data (fetched (queueEvs tr)) _ ha
  obtain ⟨i1, i2, -⟩ := C68_idle hv h hc hi
  have ht : (fetched (queueEvs tr)).take (outcomes (queueEvs tr)).length = fetched (queueEvs tr) := by
    apply List.take_of_length_le
    rw [i2, ← i1, List.length_map]
    exact Nat.le_refl _
  rw [ht, i1] at h1
  rw [(C68_datagrams hv h hc).1, h1]

/-- C68: every accepted group is that of a call of `async_send_heaps`. -/
theorem C68_from {genv : UEnv} {env : WEnv H π} (hv : env.MValid) {ops : List (WOp H)} {m : MSt H π} {tr : List (WEv π)} (h : MReach genv env ops m tr) (hc : CleanRejects (queueEvs tr)) :
    ∀ a ∈ accepted (queueEvs tr), ∃ refs step next, WOp.caller (.enter refs a.mode) ∈ ops ∧ Admits env.sq refs (allot step next refs).1 a.hs := by
  obtain ⟨-, ⟨done, held, inv⟩, -⟩ := mreach_state hv h hc
  exact inv.core.acc

/-- C68: whatever has happened, once no caller is inside `async_send_heaps` and no call arrives, the writer reaches the state in which it waits for the next call,
after a number of its own steps that depends only on what has happened, if the kernel takes or refuses at least one packet whenever it is asked. -/
theorem C68_progress {genv : UEnv} {env : WEnv H π} (hv : env.MValid) {ops : List (WOp H)} {m : MSt H π} {tr : List (WEv π)} (h : MReach genv env ops m tr) (hc : CleanRejects (queueEvs tr)) (hs : m.sq.sender = none) :
    ∃ N, ∀ rs : List WResp, (∀ r ∈ rs, (∃ k, r.kernel = .sent (k + 1)) ∨ ∃ e, r.kernel = .error e) → N ≤ rs.length →
      ∃ m' tr', MReach genv env (ops ++ rs.map (WOp.tick false)) m' (tr ++ tr') ∧ CleanRejects (queueEvs (tr ++ tr')) ∧ m'.idle ∧ accepted (queueEvs tr') = [] := by
  obtain ⟨st, ⟨done, held, inv⟩, -⟩ := mreach_state hv h hc
  have hidle : ∀ (m : MSt H π), m.idle → ∀ (rs : List WResp), MSt.run genv env (rs.map (WOp.tick false)) m = some (m, []) := by
    intro m hi rs
    induction rs with
    | nil => rfl
    | cons r rs ih =>
      have h0 : m.step genv env (.tick false r) = some (m, []) := by
        show m.tick genv env false r = _
        unfold MSt.tick
        rw [hi.1, hi.2]
        rfl
      rw [List.map_cons]
      unfold MSt.run
      rw [h0]
      simp only [ih, List.append_nil]
  have key : ∀ (rs : List WResp) (all : List (WOp H)) (N : Nat) (m : MSt H π) (tr : List (WEv π)) (done held : List ((π × Nat) × Bool)), (∀ r ∈ rs, r.kernel.moves = true) → (∀ r : WResp, r = {} ∨ r ∈ rs → WOp.tick false r ∈ all) →
      m.left (queueEvs tr) ≤ N → N ≤ rs.length → SqState env.sq m.sq (queueEvs tr) → MInv genv env all m tr done held → m.sq.sender = none →
      ∃ m' ev, MSt.run genv env (rs.map (WOp.tick false)) m = some (m', ev) ∧ CleanRejects (queueEvs ev) ∧ m'.idle ∧ accepted (queueEvs ev) = [] := by
    intro rs all
    induction rs with
    | nil =>
      intro N m tr done held _ hall hN hl st inv hs
      refine ⟨m, [], rfl, clean_nil, ?_, rfl⟩
      apply Classical.byContradiction
      intro hi
      obtain ⟨m', ev, h1, -⟩ := mstep hv st inv (.tick false {}) (hall _ (Or.inl rfl))
      have := (mtick_left hv st inv (r := {}) rfl hs hi h1).1
      simp only [List.length_nil] at hl
      omega
    | cons r rs ih =>
      intro N m tr done held hr hall hN hl st inv hs
      by_cases hi : m.idle
      · exact ⟨m, [], hidle m hi _, clean_nil, hi, rfl⟩
      · obtain ⟨m1, e1, h1, -, h2⟩ := mstep hv st inv (.tick false r) (hall r (Or.inr List.mem_cons_self))
        obtain ⟨g1, g2, g3, g4⟩ := mtick_left hv st inv (hr r List.mem_cons_self) hs hi h1
        obtain ⟨st1, done1, held1, inv1⟩ := h2 g4
        obtain ⟨m', ev, k1, k2, k3, k4⟩ := ih (N - 1) m1 (tr ++ e1) done1 held1 (fun r hr' => hr r (List.mem_cons_of_mem _ hr')) (fun r hr' => hall r (hr'.imp id (List.mem_cons_of_mem _))) (by omega)
          (by simp only [List.length_cons] at hl; omega) st1 inv1 (by rw [g2]; exact hs)
        refine ⟨m', e1 ++ ev, ?_, ?_, k3, ?_⟩
        · rw [List.map_cons]
          unfold MSt.run
          rw [h1]
          simp only [k1]
        · rw [queueEvs_append, clean_append]; exact ⟨g4, k2⟩
        · rw [queueEvs_append, accepted_append, g3, k4]; rfl
  refine ⟨m.left (queueEvs tr), fun rs hrs hl => ?_⟩
  have hmono : MInv genv env (ops ++ WOp.tick false {} :: rs.map (WOp.tick false)) m tr done held :=
    ⟨⟨inv.core.pend, inv.core.len, inv.core.out, inv.core.wire, inv.core.zero, (fun c hc => List.mem_append_left _ (inv.core.sender c hc)),
      (fun a ha => by obtain ⟨refs, s, n, h1, h2⟩ := inv.core.acc a ha; exact ⟨refs, s, n, List.mem_append_left _ h1, h2⟩)⟩, inv.uinv, inv.pc⟩
  obtain ⟨m', ev, k1, k2, k3, k4⟩ := key rs _ _ m tr done held (fun r hr => by rcases hrs r hr with ⟨k, h⟩ | ⟨e, h⟩ <;> rw [h] <;> simp [SendResp.moves])
    (fun r hr => List.mem_append_right _ (by rcases hr with rfl | hr <;> simp_all)) (Nat.le_refl _) hl st hmono hs
  refine ⟨m', ev, mrun_snoc _ h k1, ?_, k3, k4⟩
  rw [queueEvs_append, clean_append]
  exact ⟨hc, k2⟩

/-! ## Heaps -/

theorem packetise_nonempty {mps : Nat} {h : SendHeap} {c : Nat} {ps : List GenPacket} (hp : packetise mps h c = some ps) : ∀ p ∈ ps, 0 < p.bytes.length := by
  have hnext : ∀ {g : Gen} {st st' : GenState} {p : GenPacket}, g.nextPacket st = some (p, st') → 0 < p.bytes.length := by
    intro g st st' p h
    unfold Gen.nextPacket at h
    simp only at h
    generalize (if g.heap.repeatPointers = true then _ else _ : GenState) = st1 at h
    generalize (if g.needNull = true then 1 else 0) = nn at h
    split at h
    · cases h
    · split at h
      · cases h
      · split at h
        · cases h
        · cases h
          simp only [GenPacket.bytes, GenPacket.buffers, List.flatten_cons, List.length_append, beBytes_length]
          omega
  have hrun : ∀ (g : Gen) (n : Nat) (st st' : GenState) (ps : List GenPacket), g.run n st = some (ps, st') → ∀ p ∈ ps, 0 < p.bytes.length := by
    intro g n
    induction n with
    | zero => intro st st' ps h; cases h; simp
    | succ n ih =>
      intro st st' ps h
      unfold Gen.run at h
      split at h
      · split at h
        · cases h
        · rename_i q st1 h1
          split at h
          · cases h
          · rename_i qs st2 h2
            cases h
            intro p hp
            rcases List.mem_cons.1 hp with rfl | hp
            · exact hnext h1
            · exact ih _ _ _ h2 p hp
      · cases h; simp
  unfold packetise at hp
  split at hp
  · cases hp
  · obtain ⟨⟨ps', st'⟩, h1, rfl⟩ := Option.map_eq_some_iff.mp hp
    exact hrun _ _ _ _ _ h1

/-- The packets of heaps are not empty. -/
theorem packetEnv_mvalid {size mask substreams mps : Nat} (hq : queueMask size = some mask) : (packetEnv size mask substreams mps).MValid :=
  { packetEnv_valid hq with nonempty := fun _ _ _ h => packetise_nonempty h }

/-! ## Examples -/

/-- Heaps are lists of packet sizes; the packets are filled with their sizes, in two buffers. -/
def mDemo : WEnv (List Nat) Nat :=
  { sq := { size := 8, mask := 7, substreams := 2, gen := fun h _ => if h = [] ∨ 0 ∈ h then none else some h, bytes := id }, bufs := fun p => [List.replicate (p / 2) 7, List.replicate (p - p / 2) 8] }

theorem mDemo_valid : mDemo.MValid := by
  have key : ∀ (h : List Nat) (c : Nat) ps, mDemo.sq.gen h c = some ps → ps = h ∧ h ≠ [] ∧ 0 ∉ h := by
    intro h c ps hg
    unfold mDemo at hg
    simp only at hg
    split at hg
    · cases hg
    · rename_i hn
      cases hg
      exact ⟨rfl, fun e => hn (Or.inl e), fun e => hn (Or.inr e)⟩
  have hd : ∀ p : Nat, (mDemo.data p).length = p := fun p => by simp [mDemo, WEnv.data]; omega
  refine { sq := ⟨by decide, ?_⟩, bytes := fun p => (hd p).symm, nonempty := ?_ }
  · intro h c ps hg
    obtain ⟨rfl, h1, -⟩ := key h c ps hg
    exact h1
  · intro h c ps hg p hp
    obtain ⟨rfl, -, h2⟩ := key h c ps hg
    rw [hd]
    rcases Nat.eq_zero_or_pos p with rfl | hp0
    · exact absurd hp h2
    · exact hp0

/-- A heap of 70 packets, which needs two batches, two calls of `flush`, and two small groups. -/
def mDemoOps (rs : List WResp) : List (WOp (List Nat)) :=
  [.caller (.enter [⟨List.replicate 70 3, 8, none, 0⟩] .serial), .caller .commit, .caller .flush, .caller (.enter [⟨[3, 2], 8, none, 0⟩, ⟨[4], 8, none, 1⟩] .roundRobin), .caller .commit,
    .tick false {}, .tick false {}, .caller (.enter [⟨[5], 8, none, 1⟩] .serial), .caller .commit, .caller .flush] ++ rs.map (.tick false)

/-- What has left, shortened; the bytes that the handlers were given; how many calls of `flush` have returned; and whether the writer waits. -/
def mDemoView (sup : Bool) (ops : List (WOp (List Nat))) : Option (Nat × List (Nat × Nat) × List (Nat × Nat) × Nat × Bool) :=
  (MSt.run ⟨sup⟩ mDemo ops MSt.new).map (fun r : MSt (List Nat) Nat × List (WEv Nat) =>
    ((leftWire r.2).length, ((leftWire r.2).drop 69).map (fun x => (x.1, x.2.length)), (completed (queueEvs r.2)).map (fun x => (x.1, x.2.2)), (returned (queueEvs r.2)).length,
      decide (r.1.pc = .rest) && decide (r.1.sq.wk = .need)))

example : mDemoView false (mDemoOps (List.replicate 300 {})) = some (74, [(0, 3), (0, 3), (1, 4), (0, 2), (1, 5)], [(0, 210), (1, 9), (2, 5)], 2, true) := by decide +kernel
example : mDemoView true (mDemoOps (List.replicate 300 { kernel := .sent 5 })) = some (74, [(0, 3), (0, 3), (1, 4), (0, 2), (1, 5)], [(0, 210), (1, 9), (2, 5)], 2, true) := by decide +kernel

/-- The kernel takes 5 packets, then none for now, and then refuses all others. -/
example : mDemoView false (mDemoOps (List.replicate 64 ({} : WResp) ++ [{ kernel := .sent 5 }, { kernel := .again }] ++ List.replicate 300 { kernel := .error 105 })) =
    some (5, [], [(0, 15), (1, 0), (2, 0)], 2, true) := by decide +kernel

/-- The hypotheses of the theorems are met. -/
theorem mDemo_meets : ∃ m tr, MReach ⟨true⟩ mDemo (mDemoOps (List.replicate 300 { kernel := .sent 5 })) m tr ∧ CleanRejects (queueEvs tr) ∧ m.idle ∧ AllSent (queueEvs tr) ∧ (accepted (queueEvs tr)).length = 3 := by
  have key : (MSt.run ⟨true⟩ mDemo (mDemoOps (List.replicate 300 { kernel := .sent 5 })) MSt.new).map (fun r : MSt (List Nat) Nat × List (WEv Nat) =>
      decide (rejected (queueEvs r.2) = []) && (decide (r.1.pc = .rest) && (decide (r.1.sq.wk = .need) && (decide (∀ x ∈ outcomes (queueEvs r.2), x = none) && decide ((accepted (queueEvs r.2)).length = 3))))) = some true := by
    decide +kernel
  obtain ⟨⟨w, tr⟩, h1, h2⟩ := Option.map_eq_some_iff.mp key
  simp only [Bool.and_eq_true, decide_eq_true_eq] at h2
  obtain ⟨a, b, c, d, e⟩ := h2
  exact ⟨w, tr, h1, clean_of_rejected a, ⟨b, c⟩, d, e⟩

/-- In the middle of a batch, with 59 packets of it still to be sent, the writer gets to its end. -/
example : ∃ m tr, MReach ⟨false⟩ mDemo (mDemoOps (List.replicate 64 ({} : WResp) ++ [{ kernel := .sent 5 }])) m tr ∧ CleanRejects (queueEvs tr) ∧ m.sq.sender = none ∧ ¬ m.idle ∧
    (fetched (queueEvs tr)).length = (outcomes (queueEvs tr)).length + 59 := by
  have key : (MSt.run ⟨false⟩ mDemo (mDemoOps (List.replicate 64 ({} : WResp) ++ [{ kernel := .sent 5 }])) MSt.new).map (fun r : MSt (List Nat) Nat × List (WEv Nat) =>
      decide (rejected (queueEvs r.2) = []) && (decide (r.1.sq.sender = none) && (!decide (r.1.pc = .rest) && decide ((fetched (queueEvs r.2)).length = (outcomes (queueEvs r.2)).length + 59)))) = some true := by decide +kernel
  obtain ⟨⟨w, tr⟩, h1, h2⟩ := Option.map_eq_some_iff.mp key
  simp only [Bool.and_eq_true, decide_eq_true_eq, Bool.not_eq_true', decide_eq_false_iff_not] at h2
  exact ⟨w, tr, h1, clean_of_rejected h2.1, h2.2.1, (fun hi => h2.2.2.1 hi.1), h2.2.2.2⟩

end Spead2
