import Verif.Lemmas.SendUdp

/-!
# C45 (send side), C46: the UDP writer

A run is any interleaving of wakeups, with any packets, and of outcomes of system calls: partial sends, `EAGAIN`, errors, refusals
of the segmentation option, on kernels with or without that option.
-/

namespace Spead2

open Spec

/-- **C46**, safety: no access outside the arrays, whatever the kernel answers. -/
theorem C46_safe (env : UEnv) (ops : List UdpOp) (h : PktsOk ops) : ∃ w evs, UdpW.run env {} ops = some (w, evs) := by
  obtain ⟨w, evs, h1, _⟩ := run_udp ops {} (uinv_init env) h
  exact ⟨w, evs, h1⟩

theorem run_ok {env : UEnv} {ops : List UdpOp} (h : PktsOk ops) {w : UdpW} {evs : List UEv} (hr : UdpW.run env {} ops = some (w, evs)) :
    UdpRunOk env {} w ops evs ∧ (∀ a b, evs = a ++ .post :: b → UdpW.pend {} ++ gotPkts a = (accounted a).map Prod.fst ∧ groupsDone a = lastCount (accounted a)) := by
  obtain ⟨w', evs', h1, h2, h3⟩ := run_udp ops {} (uinv_init env) h
  rw [hr] at h1
  obtain ⟨rfl, rfl⟩ := Prod.mk.inj (Option.some.inj h1)
  exact ⟨h2, h3⟩

/-- **C46**: the packets are accounted for in the order in which they were given, each once; none is left when the writer asks for
more. -/
theorem C46_account (env : UEnv) (ops : List UdpOp) (h : PktsOk ops) {w : UdpW} {evs : List UEv} (hr : UdpW.run env {} ops = some (w, evs)) :
    (∃ rest, gotPkts evs = (accounted evs).map Prod.fst ++ rest) ∧ (∀ a b, evs = a ++ .post :: b → gotPkts a = (accounted a).map Prod.fst) := by
  obtain ⟨r, rp⟩ := run_ok h hr
  exact ⟨⟨w.pend, r.pend⟩, fun a b hab => (rp a b hab).1⟩

/-- **C46**: groups are reported as complete exactly when their last packets are accounted for: never before, and never missing
once a call has returned or the writer asks for more. -/
theorem C46_groups (env : UEnv) (ops : List UdpOp) (h : PktsOk ops) {w : UdpW} {evs : List UEv} (hr : UdpW.run env {} ops = some (w, evs)) :
    (∀ n, groupsDone (evs.take n) ≤ lastCount (accounted (evs.take n))) ∧ groupsDone evs = lastCount (accounted evs) ∧
    (∀ a b, evs = a ++ .post :: b → groupsDone a = lastCount (accounted a)) := by
  obtain ⟨r, rp⟩ := run_ok h hr
  exact ⟨r.before, r.groups, fun a b hab => (rp a b hab).2⟩

/-- **C46**: every group ends up with the number of bytes of its packets that were sent, and its first error; errors come from the
kernel. -/
theorem C46_items (env : UEnv) (ops : List UdpOp) (h : PktsOk ops) {w : UdpW} {evs : List UEv} (hr : UdpW.run env {} ops = some (w, evs)) :
    (∀ i, w.bytes i = sentFor i (accounted evs) ∧ w.result i = errorFor i (accounted evs)) ∧
    (∀ p e, (p, some e) ∈ accounted evs → ∃ refuse, UdpOp.send (.error e) refuse ∈ ops) := by
  obtain ⟨r, _⟩ := run_ok h hr
  refine ⟨fun i => ⟨?_, ?_⟩, fun p e hp => ?_⟩
  · rw [r.items.1]
    exact Nat.zero_add _
  · rw [r.items.2]
    rfl
  · rcases r.errors _ hp with h | ⟨e', f, h1, h2⟩
    · cases h
    · cases h2
      exact ⟨f, h1⟩

/-- **C46**: whatever has happened, 65 answers of the kernel other than `EAGAIN` are enough to be done with a batch. -/
theorem C46_progress (env : UEnv) (ops : List UdpOp) (h : PktsOk ops) (rs : List (SendResp × Bool)) (hrs : ∀ r ∈ rs, r.1 = .sent 1 ∨ ∃ e, r.1 = .error e)
    (hl : 65 ≤ rs.length) {w : UdpW} {evs : List UEv} (hr : UdpW.run env {} ops = some (w, evs)) :
    ∃ w' evs', w.run env (rs.map (fun r => UdpOp.send r.1 r.2)) = some (w', evs') ∧ w'.busy = false := by
  obtain ⟨r, _⟩ := run_ok h hr
  obtain ⟨w', evs', h1, h2, h3⟩ := run_sends rs w r.inv hrs
  refine ⟨w', evs', h1, ?_⟩
  have hle : w.todo ≤ 65 := by
    unfold UdpW.todo
    by_cases hb : w.busy = true
    · rw [if_pos hb]
      obtain ⟨gE, gs, _, hB⟩ := r.inv.batch hb
      have hroom := hB.room
      unfold udpMaxBatch at hroom
      unfold UdpW.pend
      rw [if_pos hb, List.length_drop]
      split <;> omega
    · rw [if_neg hb]
      omega
  cases hb : w'.busy with
  | false => rfl
  | true =>
    exfalso
    obtain ⟨gE, gs, hne, hB⟩ := h3.batch hb
    have : 0 < w'.todo := by
      unfold UdpW.todo UdpW.pend
      rw [if_pos hb, if_pos hb, hB.flat]
      have := hB.parted.ne
      have : 0 < gs.length := List.length_pos_iff.mpr hne
      omega
    omega

/-- **C45**, send side: the datagrams that leave are exactly the packets that are accounted as sent, unchanged, in order, each to
its own destination, however they were merged into messages and cut by the kernel. -/
theorem C45_send (env : UEnv) (ops : List UdpOp) (h : PktsOk ops) {w : UdpW} {evs : List UEv} (hr : UdpW.run env {} ops = some (w, evs)) :
    datagrams evs = wanted (accounted evs) := (run_ok h hr).1.dgrams

/-- Packets for two destinations: the first two fit in one message. -/
def udpDemo : List UPkt :=
  [⟨[[1, 2], [3]], 0, 0, false⟩, ⟨[[4, 5]], 0, 0, true⟩, ⟨[[6, 7, 8]], 1, 1, false⟩, ⟨[[9, 9], [9]], 1, 1, true⟩]

/-- Non-vacuity: a partial send, `EAGAIN`, then an error: the rest is sent without segmentation. -/
example : (UdpW.run ⟨true⟩ {} [.wakeup udpDemo false, .send (.sent 1) false, .send .again false, .send (.error 5) false, .send (.error 5) false, .send (.sent 1) false]).map Prod.snd =
    some [.got udpDemo, .dgram 0 [1, 2, 3], .dgram 0 [4, 5], .done ⟨[[1, 2], [3]], 0, 0, false⟩ none, .done ⟨[[4, 5]], 0, 0, true⟩ none, .completed 1, .wait, .wait,
      .done ⟨[[6, 7, 8]], 1, 1, false⟩ (some 5), .wait, .dgram 1 [9, 9, 9], .done ⟨[[9, 9], [9]], 1, 1, true⟩ none, .completed 1, .post] := by decide +kernel

example : PktsOk [.wakeup udpDemo false, .send (.sent 1) false] := by simp [PktsOk, udpDemo, UPkt.bytes]

end Spead2
