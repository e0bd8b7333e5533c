import Verif.Lemmas.SendWriter
import Verif.Props.SendQueue

/-!
# C64: the simple writers

`async_send_heaps`, `flush` and `set_cnt_sequence` of streams with a TCP, stream-buffer, in-process or plain UDP writer. The
theorems are about histories in which no call fails after it has put a heap in the queue (`CleanRejects`; see C41).
-/

namespace Spead2
open Spec

variable {H π : Type}

/-- C64: no step is undefined. -/
theorem C64_safe {kind : WKind} {env : WEnv H π} (hv : env.Valid) {c : Bool} {ops : List (WOp H)}
    (hc : ∀ ops' w tr, ops' <+: ops → WReach kind env c ops' w tr → CleanRejects (queueEvs tr)) : ∃ w tr, WReach kind env c ops w tr := by
  have key : ∀ (n : Nat), n ≤ ops.length → ∃ w tr, WReach kind env c (ops.take n) w tr := by
    intro n
    induction n with
    | zero => intro _; exact ⟨_, _, rfl⟩
    | succ n ih =>
      intro hn
      obtain ⟨w, tr, h⟩ := ih (by omega)
      obtain ⟨st, inv, -⟩ := wreach_state hv.sq h (hc _ _ _ (List.take_prefix _ _) h)
      obtain ⟨w', ev, h', -⟩ := wstep hv.sq st inv ops[n]
      refine ⟨w', tr ++ ev, ?_⟩
      rw [List.take_add_one, List.getElem?_eq_getElem (by omega)]
      refine wrun_snoc _ h ?_
      show WSt.run kind env [ops[n]] w = _
      unfold WSt.run
      rw [h']
      simp [WSt.run]
  obtain ⟨w, tr, h⟩ := key ops.length (Nat.le_refl _)
  rw [List.take_length] at h
  exact ⟨w, tr, h⟩

/-- C64: what is seen of the queue is one of the histories that C38, C39, C40 and C51 are about. So these hold of streams with
these writers. -/
theorem C64_queue {kind : WKind} {env : WEnv H π} (hv : env.Valid) {c : Bool} {ops : List (WOp H)} {w : WSt H π} {tr : List (WEv π)} (h : WReach kind env c ops w tr) (hc : CleanRejects (queueEvs tr)) :
    ∃ sops, SqReach env.sq (if c then .queued else .running) sops w.sq (queueEvs tr) := (wreach_state hv.sq h hc).2.2

/-- C64: what has left a datagram writer are the packets that it was given, in order, each as a whole, each once and each for the
substream of its heap, except for those that failed; and it has at most one packet that it has not yet sent. -/
theorem C64_datagrams {kind : WKind} (hk : kind.datagrams = true) {env : WEnv H π} (hv : env.Valid) {c : Bool} {ops : List (WOp H)} {w : WSt H π} {tr : List (WEv π)} (h : WReach kind env c ops w tr) (hc : CleanRejects (queueEvs tr)) :
    leftWire tr = wantedPackets env.data (fetched (queueEvs tr)) (outcomes (queueEvs tr)) ∧
    (outcomes (queueEvs tr)).length ≤ (fetched (queueEvs tr)).length ∧ (fetched (queueEvs tr)).length ≤ (outcomes (queueEvs tr)).length + 1 := by
  obtain ⟨-, inv, -⟩ := wreach_state hv.sq h hc
  obtain ⟨done, h1, h2⟩ := inv.pend
  refine ⟨inv.packets hk, ?_, ?_⟩ <;> rw [h1, List.length_append, h2]
  · omega
  · have : w.pc.held.length ≤ 1 := by cases w.pc <;> simp [WPc.held]
    omega

/-- C64: the bytes that have left a stream writer are those of the packets that it was given, one after the other, each once, except
that of a packet that failed only the bytes up to the failure have left. -/
theorem C64_bytes {kind : WKind} (hk : kind.datagrams = false) {env : WEnv H π} (hv : env.Valid) {c : Bool} {ops : List (WOp H)} {w : WSt H π} {tr : List (WEv π)} (h : WReach kind env c ops w tr) (hc : CleanRejects (queueEvs tr)) :
    leftBytes tr = wantedBytes env.data (fetched (queueEvs tr)) (outcomes (queueEvs tr)) ∧
    (outcomes (queueEvs tr)).length ≤ (fetched (queueEvs tr)).length ∧ (fetched (queueEvs tr)).length ≤ (outcomes (queueEvs tr)).length + 1 := by
  obtain ⟨-, inv, -⟩ := wreach_state hv.sq h hc
  obtain ⟨done, h1, h2⟩ := inv.pend
  refine ⟨inv.bytes hk, ?_, ?_⟩ <;> rw [h1, List.length_append, h2]
  · omega
  · have : w.pc.held.length ≤ 1 := by cases w.pc <;> simp [WPc.held]
    omega

/-- C64: as long as nothing fails, what has left is an initial part of the packets of the accepted groups, in order. -/
theorem C64_prefix {kind : WKind} {env : WEnv H π} (hv : env.Valid) {c : Bool} {ops : List (WOp H)} {w : WSt H π} {tr : List (WEv π)} (h : WReach kind env c ops w tr) (hc : CleanRejects (queueEvs tr)) (ha : AllSent (queueEvs tr)) :
    (kind.datagrams = true → leftWire tr <+: (allPackets (queueEvs tr)).map (fun x => (x.2, env.data x.1))) ∧
    (kind.datagrams = false → leftBytes tr <+: (allPackets (queueEvs tr)).flatMap (fun x => env.data x.1)) := by
  obtain ⟨⟨⟨old, gl, n, sinv⟩, -⟩, inv, -⟩ := wreach_state hv.sq h hc
  obtain ⟨h1, h2⟩ := wanted_all env.data (fetched (queueEvs tr)) _ ha
  have hp : ((fetched (queueEvs tr)).take (outcomes (queueEvs tr)).length).map Prod.fst <+: allPackets (queueEvs tr) := by
    have := ((List.take_prefix (outcomes (queueEvs tr)).length (fetched (queueEvs tr))).trans (fetched_prefix sinv)).map Prod.fst
    rwa [flatMap_markLast] at this
  refine ⟨fun hk => ?_, fun hk => ?_⟩
  · rw [inv.packets hk, h1]
    exact hp.map _
  · rw [inv.bytes hk, h2]
    obtain ⟨t, ht⟩ := hp
    rw [← ht, List.flatMap_append]
    exact List.prefix_append _ _

/-- C64: when the writer waits for the next call, every accepted group has been sent and its handler called, every call of
`flush` can return, and the handlers were given, in total, the number of bytes that have left. -/
theorem C64_idle {kind : WKind} {env : WEnv H π} (hv : env.Valid) {c : Bool} {ops : List (WOp H)} {w : WSt H π} {tr : List (WEv π)} (h : WReach kind env c ops w tr) (hc : CleanRejects (queueEvs tr)) (hi : w.idle) :
    (fetched (queueEvs tr)).map Prod.fst = allPackets (queueEvs tr) ∧ (outcomes (queueEvs tr)).length = (allPackets (queueEvs tr)).length ∧
    completed (queueEvs tr) = due env.sq.bytes (accepted (queueEvs tr)) (outcomes (queueEvs tr)) ∧ (completed (queueEvs tr)).length = (accepted (queueEvs tr)).length ∧
    (returned (queueEvs tr)).Perm (List.range w.sq.flushes) ∧
    ((completed (queueEvs tr)).map (fun x => x.2.2)).sum = (leftBytes tr).length := by
  obtain ⟨st, inv, sops, hs⟩ := wreach_state hv.sq h hc
  obtain ⟨r1, r2, r3⟩ := C39_idle hv.sq hs hc hi.2
  obtain ⟨⟨old, gl, n, sinv⟩, -⟩ := st
  have hd := due_full env.sq.bytes _ _ (by rw [← r1, r2])
  have hp := (fetched_prefix sinv).map Prod.fst
  rw [flatMap_markLast] at hp
  obtain ⟨done, p1, p2⟩ := inv.pend
  have hh : w.pc.held = [] := by rw [hi.1]; rfl
  rw [hh, List.append_nil] at p1
  rw [← p1] at p2
  have heq : (fetched (queueEvs tr)).map Prod.fst = allPackets (queueEvs tr) := hp.eq_of_length_le (by rw [List.length_map, p2]; exact hd)
  refine ⟨heq, ?_, r1, r2, r3, ?_⟩
  · rw [← heq, List.length_map, p2]
  · rw [r1, due_bytes _ _ _ (by rw [← r1, r2]), inv.count hv.bytes, heq]
    rfl

/-- C64: and if nothing failed, exactly the packets of the accepted groups have left, in order. -/
theorem C64_all {kind : WKind} {env : WEnv H π} (hv : env.Valid) {c : Bool} {ops : List (WOp H)} {w : WSt H π} {tr : List (WEv π)} (h : WReach kind env c ops w tr) (hc : CleanRejects (queueEvs tr)) (hi : w.idle) (ha : AllSent (queueEvs tr)) :
    (kind.datagrams = true → leftWire tr = (allPackets (queueEvs tr)).map (fun x => (x.2, env.data x.1))) ∧
    (kind.datagrams = false → leftBytes tr = (allPackets (queueEvs tr)).flatMap (fun x => env.data x.1)) := by
  obtain ⟨-, inv, -⟩ := wreach_state hv.sq h hc
  obtain ⟨h1, h2⟩ := wanted_all env.data (fetched (queueEvs tr)) _ ha
  obtain ⟨i1, i2, -⟩ := C64_idle hv h hc hi
  have ht : (fetched (queueEvs tr)).take (outcomes (queueEvs tr)).length = fetched (queueEvs tr) := by
    apply List.take_of_length_le
    rw [i2, ← i1, List.length_map]
    exact Nat.le_refl _
  rw [ht, i1] at h1 h2
  exact ⟨fun hk => by rw [inv.packets hk, h1], fun hk => by rw [inv.bytes hk, h2]⟩

/-- C64: whatever has happened, once no caller is inside `async_send_heaps` and no call arrives, the writer reaches the state in
which it waits for the next call, after a number of its own steps that depends only on what has happened: however packets are treated. -/
theorem C64_progress {kind : WKind} {env : WEnv H π} (hv : env.Valid) {c : Bool} {ops : List (WOp H)} {w : WSt H π} {tr : List (WEv π)} (h : WReach kind env c ops w tr) (hc : CleanRejects (queueEvs tr)) (hs : w.sq.sender = none) :
    ∃ N, ∀ rs : List WResp, N ≤ rs.length → ∃ w' tr', WReach kind env c (ops ++ rs.map (WOp.tick false)) w' (tr ++ tr') ∧ CleanRejects (queueEvs (tr ++ tr')) ∧ w'.idle ∧ accepted (queueEvs tr') = [] := by
  obtain ⟨st, inv, -⟩ := wreach_state hv.sq h hc
  have key : ∀ (N : Nat) (rs : List WResp) (w : WSt H π) (tr : List (WEv π)), w.left (queueEvs tr) ≤ N → N ≤ rs.length → SqState env.sq w.sq (queueEvs tr) → WInv kind env w tr → w.sq.sender = none →
      ∃ w' ev, WSt.run kind env (rs.map (WOp.tick false)) w = some (w', ev) ∧ CleanRejects (queueEvs ev) ∧ w'.idle ∧ accepted (queueEvs ev) = [] := by
    intro N rs
    induction rs generalizing N with
    | nil =>
      intro w tr hN hl st inv hs
      refine ⟨w, [], rfl, (fun _ _ _ h => by cases h), ?_, rfl⟩
      apply Classical.byContradiction
      intro hi
      obtain ⟨w', ev, h1, -⟩ := wstep hv.sq st inv (.tick false {})
      have := (tick_left hv.sq st inv hs hi h1).1
      simp only [List.length_nil] at hl
      omega
    | cons r rs ih =>
      intro w tr hN hl st inv hs
      obtain ⟨w1, e1, h1, -, h2⟩ := wstep hv.sq st inv (.tick false r)
      by_cases hi : w.idle
      · have h0 : w.tick kind env false r = some (w, []) := by
          unfold WSt.tick
          rw [hi.1, hi.2]
          rfl
        have h0' : w.step kind env (.tick false r) = some (w, []) := h0
        rw [h0'] at h1
        cases h1
        have hrest : ∀ (rs : List WResp), WSt.run kind env (rs.map (WOp.tick false)) w = some (w, []) := by
          intro rs
          induction rs with
          | nil => rfl
          | cons r rs ih =>
            have h0 : w.step kind env (.tick false r) = some (w, []) := by
              show w.tick kind env false r = _
              unfold WSt.tick
              rw [hi.1, hi.2]
              rfl
            rw [List.map_cons]
            unfold WSt.run
            rw [h0]
            simp only [ih, List.append_nil]
        exact ⟨w, [], hrest _, (fun _ _ _ h => by cases h), hi, rfl⟩
      · obtain ⟨g1, g2, g3, g4, -⟩ := tick_left hv.sq st inv hs hi h1
        obtain ⟨st1, inv1⟩ := h2 g4
        obtain ⟨w', ev, k1, k2, k3, k4⟩ := ih (N - 1) w1 (tr ++ e1) (by omega) (by simp only [List.length_cons] at hl; omega) st1 inv1 (by rw [g2]; exact hs)
        refine ⟨w', e1 ++ ev, ?_, ?_, k3, ?_⟩
        · rw [List.map_cons]
          unfold WSt.run
          rw [h1]
          simp only [k1]
        · rw [queueEvs_append, clean_append]; exact ⟨g4, k2⟩
        · rw [queueEvs_append, accepted_append, g3, k4]; rfl
  refine ⟨w.left (queueEvs tr), fun rs hl => ?_⟩
  obtain ⟨w', ev, k1, k2, k3, k4⟩ := key _ rs w tr (Nat.le_refl _) hl st inv hs
  refine ⟨w', ev, wrun_snoc _ h k1, ?_, k3, k4⟩
  rw [queueEvs_append, clean_append]
  exact ⟨hc, k2⟩

/-! ## Examples -/

def wDemo : WEnv (List Nat) Nat := { sq := sqDemo, bufs := fun p => [List.replicate (p / 2) 7, List.replicate (p - p / 2) 8] }

theorem wDemo_valid : wDemo.Valid := ⟨sqDemo_valid, fun p => by simp [wDemo, sqDemo, WEnv.data]; omega⟩

/-- Two groups and a call of `flush`, between steps of the writer; then the writer runs. -/
def wDemoOps (n : Nat) : List (WOp (List Nat)) :=
  [.caller (.enter [⟨[3, 2], 8, none, 0⟩, ⟨[4], 8, none, 1⟩] .roundRobin), .caller .commit, .caller .flush, .tick false {}, .tick false {}, .tick false {}, .tick false {}, .tick false {},
    .caller (.enter [⟨[5], 8, none, 0⟩] .serial), .caller .commit] ++ List.replicate n (.tick false {})

/-- What has left, the bytes that the handlers were given, whether `flush` has returned, and whether the writer waits. -/
def wDemoView (kind : WKind) (c : Bool) (ops : List (WOp (List Nat))) : Option (List (Nat × Nat) × List (Nat × Nat) × Nat × Bool) :=
  (WSt.run kind wDemo ops (WSt.new c)).map (fun r : WSt (List Nat) Nat × List (WEv Nat) =>
    ((leftWire r.2).map (fun x => (x.1, x.2.length)), (completed (queueEvs r.2)).map (fun x => (x.1, x.2.2)), (returned (queueEvs r.2)).length, decide (r.1.pc = .rest) && decide (r.1.sq.wk = .need)))

example : wDemoView .udp false (wDemoOps 40) = some ([(0, 3), (1, 4), (0, 2), (0, 5)], [(0, 9), (1, 5)], 1, true) := by decide +kernel
example : wDemoView .inproc false (wDemoOps 40) = some ([(0, 3), (1, 4), (0, 2), (0, 5)], [(0, 9), (1, 5)], 1, true) := by decide +kernel
example : wDemoView .tcp true (wDemoOps 40) = some ([(0, 3), (1, 4), (0, 2), (0, 5)], [(0, 9), (1, 5)], 1, true) := by decide +kernel
example : wDemoView .streambuf false (wDemoOps 40) = some ([(0, 3), (1, 4), (0, 2), (0, 5)], [(0, 9), (1, 5)], 1, true) := by decide +kernel

/-- A packet fails after one byte: the byte has left, and is reported. -/
example : wDemoView .tcp true (wDemoOps 0 ++ List.replicate 40 (.tick false { err := true, n := 1 })) = some ([(0, 3), (1, 1), (0, 1), (0, 1)], [(0, 5), (1, 1)], 1, true) := by decide +kernel

/-- The hypotheses of the theorems are met. -/
theorem wDemo_meets (kind : WKind) (hk : kind = .tcp ∨ kind = .udp) : ∃ w tr, WReach kind wDemo (kind == .tcp) (wDemoOps 40) w tr ∧ CleanRejects (queueEvs tr) ∧ w.idle ∧ AllSent (queueEvs tr) ∧ (accepted (queueEvs tr)).length = 2 := by
  have key : (WSt.run kind wDemo (wDemoOps 40) (WSt.new (kind == .tcp))).map (fun r : WSt (List Nat) Nat × List (WEv Nat) =>
      decide (rejected (queueEvs r.2) = []) && (decide (r.1.pc = .rest) && (decide (r.1.sq.wk = .need) && (decide (∀ x ∈ outcomes (queueEvs r.2), x = none) && decide ((accepted (queueEvs r.2)).length = 2))))) = some true := by
    rcases hk with rfl | rfl <;> decide +kernel
  obtain ⟨⟨w, tr⟩, h1, h2⟩ := Option.map_eq_some_iff.mp key
  simp only [Bool.and_eq_true, decide_eq_true_eq] at h2
  obtain ⟨a, b, c, d, e⟩ := h2
  exact ⟨w, tr, h1, clean_of_rejected a, ⟨b, c⟩, d, e⟩

/-- In the middle of a packet nothing is undefined, and the writer gets to its end. -/
example : ∃ w tr, WReach .udp wDemo false (wDemoOps 0) w tr ∧ CleanRejects (queueEvs tr) ∧ w.sq.sender = none ∧ ¬ w.idle := by
  have key : (WSt.run .udp wDemo (wDemoOps 0) (WSt.new false)).map (fun r : WSt (List Nat) Nat × List (WEv Nat) =>
      decide (rejected (queueEvs r.2) = []) && (decide (r.1.sq.sender = none) && !decide (r.1.pc = .rest))) = some true := by decide +kernel
  obtain ⟨⟨w, tr⟩, h1, h2⟩ := Option.map_eq_some_iff.mp key
  simp only [Bool.and_eq_true, decide_eq_true_eq, Bool.not_eq_true', decide_eq_false_iff_not] at h2
  exact ⟨w, tr, h1, clean_of_rejected h2.1, h2.2.1, fun hi => h2.2.2 hi.1⟩

end Spead2
