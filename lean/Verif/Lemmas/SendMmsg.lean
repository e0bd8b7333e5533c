import Verif.Spec.SendMmsg
import Verif.Lemmas.SendUdp
import Verif.Lemmas.Provenance

/-!
# Lemmas about the UDP writer with `sendmmsg` on the queue
-/

namespace Spead2
open Spec

variable {H π : Type}

/-! ### `send_packets` on its own -/

def UEv.plain : UEv → Bool
  | .got _ => false
  | _ => true

theorem kernelSend_plain {w : UdpW} {m : Nat} {evs : List UEv} (h : w.kernelSend m = some evs) : ∀ e ∈ evs, e.plain = true := by
  unfold UdpW.kernelSend at h
  simp only at h
  split at h
  · cases h
    intro e he
    obtain ⟨d, -, rfl⟩ := List.mem_map.1 he
    rfl
  · cases h

theorem kernelSends_plain {w : UdpW} : ∀ {k m : Nat} {evs : List UEv}, w.kernelSends k m = some evs → ∀ e ∈ evs, e.plain = true
  | 0, _, evs, h => by cases h; simp
  | k + 1, m, evs, h => by
    unfold UdpW.kernelSends at h
    split at h
    · rename_i a b ha hb
      cases h
      intro e he
      rcases List.mem_append.1 he with he | he
      · exact kernelSend_plain ha e he
      · exact kernelSends_plain hb e he
    · cases h

theorem recordMsg_plain {r : Option Nat} : ∀ {f : Nat} {w w' : UdpW} {k : Nat} {evs : List UEv}, UdpW.recordMsg r f w = some (w', k, evs) → (∀ e ∈ evs, e.plain = true) ∧ w'.busy = w.busy
  | 0, w, w', k, evs, h => by cases h
  | f + 1, w, w', k, evs, h => by
    have hb : ∀ p, (w.record p r).busy = w.busy := by intro p; cases r <;> rfl
    unfold UdpW.recordMsg at h
    split at h
    · cases h
    · rename_i p hp
      simp only at h
      split at h
      · split at h
        · cases h
        · rename_i w1 k1 e1 h1
          cases h
          obtain ⟨i1, i2⟩ := recordMsg_plain h1
          refine ⟨?_, i2.trans (hb p)⟩
          intro e he
          rcases List.mem_cons.1 he with rfl | he
          · rfl
          · exact i1 e he
      · cases h
        refine ⟨?_, hb p⟩
        intro e he
        rw [List.mem_singleton] at he
        subst he
        rfl

theorem recordMsgs_plain : ∀ {n : Nat} {w w' : UdpW} {k : Nat} {evs : List UEv}, UdpW.recordMsgs n w = some (w', k, evs) → (∀ e ∈ evs, e.plain = true) ∧ w'.busy = w.busy
  | 0, w, w', k, evs, h => by cases h; simp
  | n + 1, w, w', k, evs, h => by
    unfold UdpW.recordMsgs at h
    split at h
    · cases h
    · rename_i w1 k1 e1 h1
      split at h
      · cases h
      · rename_i w2 k2 e2 h2
        cases h
        obtain ⟨i1, i2⟩ := recordMsg_plain h1
        obtain ⟨j1, j2⟩ := recordMsgs_plain h2
        refine ⟨?_, j2.trans i2⟩
        intro e he
        rcases List.mem_append.1 he with he | he
        · exact i1 e he
        · exact j1 e he

theorem finish_plain (w : UdpW) (k : Nat) : (∀ e ∈ (w.finish k).2, e.plain = true) ∧ (w.finish k).2.any UEv.ends = true := by
  unfold UdpW.finish
  by_cases h1 : k > 0 <;> by_cases h2 : w.firstMsg < w.lastMsg <;> simp [h1, h2, UEv.plain, UEv.ends]

theorem any_ends_append (a b : List UEv) (h : b.any UEv.ends = true) : (a ++ b).any UEv.ends = true := by
  rw [List.any_append, h, Bool.or_true]

theorem fail_plain {w w' : UdpW} {e : Nat} {evs : List UEv} (h : w.fail e = some (w', evs)) : (∀ x ∈ evs, x.plain = true) ∧ evs.any UEv.ends = true := by
  unfold UdpW.fail at h
  split at h
  · cases h
  · rename_i w1 k e1 h1
    cases h
    obtain ⟨f1, f2⟩ := finish_plain { w1 with firstMsg := w1.firstMsg + 1 } k
    refine ⟨?_, any_ends_append _ _ f2⟩
    intro x hx
    rcases List.mem_append.1 hx with hx | hx
    · exact (recordMsg_plain h1).1 x hx
    · exact f1 x hx

theorem prepare_busy {w w' : UdpW} {a b c d : Nat} {g : Int} (h : w.prepare a b c d g = some w') : w'.busy = w.busy := by
  unfold UdpW.prepare at h
  split at h
  · cases h
  · cases h; rfl

/-- `send_packets` ends, or begins again without any effect so far. -/
theorem sendPackets_plain {genv : UEnv} {w w' : UdpW} {r : SendResp} {refuse : Bool} {evs : List UEv} (hb : w.busy = true) (h : w.sendPackets genv r refuse = some (w', evs)) :
    (∀ x ∈ evs, x.plain = true) ∧ (evs.any UEv.ends = true ∨ evs = [] ∧ w'.busy = true) := by
  have hfin : ∀ k, (∀ x ∈ (w.finish k).2, x.plain = true) ∧ (w.finish k).2.any UEv.ends = true := fun k => finish_plain w k
  unfold UdpW.sendPackets at h
  split at h
  · rename_i e
    unfold UdpW.sendError at h
    split at h
    · obtain ⟨a, b⟩ := fail_plain h; exact ⟨a, Or.inl b⟩
    · split at h
      · split at h
        · obtain ⟨a, b⟩ := fail_plain h; exact ⟨a, Or.inl b⟩
        · obtain ⟨w1, h1, h2⟩ := Option.map_eq_some_iff.mp h
          cases h2
          refine ⟨by simp, Or.inr ⟨rfl, ?_⟩⟩
          rw [prepare_busy h1]
          exact hb
      · obtain ⟨a, b⟩ := fail_plain h; exact ⟨a, Or.inl b⟩
  · have e := Option.some.inj h
    have e2 : (w.finish 0).2 = evs := by rw [e]
    rw [← e2]; exact ⟨(hfin 0).1, Or.inl (hfin 0).2⟩
  · split at h
    · have e := Option.some.inj h
      have e2 : (w.finish 0).2 = evs := by rw [e]
      rw [← e2]; exact ⟨(hfin 0).1, Or.inl (hfin 0).2⟩
    · split at h
      · cases h
      · rename_i out ho
        split at h
        · cases h
        · rename_i w1 g e1 h1
          cases h
          obtain ⟨f1, f2⟩ := finish_plain { w1 with firstMsg := w1.firstMsg + _ } g
          refine ⟨?_, Or.inl (any_ends_append _ _ f2)⟩
          intro x hx
          rcases List.mem_append.1 hx with hx | hx
          · rcases List.mem_append.1 hx with hx | hx
            · exact kernelSends_plain ho x hx
            · exact (recordMsgs_plain h1).1 x hx
          · exact f1 x hx

theorem plain_got : ∀ {evs : List UEv}, (∀ x ∈ evs, x.plain = true) → gotPkts evs = []
  | [], _ => rfl
  | e :: evs, h => by
    have h1 := h e List.mem_cons_self
    have h2 := plain_got (fun x hx => h x (List.mem_cons_of_mem _ hx))
    cases e with
    | got ps => simp [UEv.plain] at h1
    | _ => exact h2

theorem groupsOf_eq : ∀ evs : List UEv, groupsOf evs = groupsDone evs
  | [] => rfl
  | e :: evs => by cases e <;> simp [groupsOf, groupsDone, groupsOf_eq evs]

/-- The batch is prepared. -/
theorem wakeup_got {genv : UEnv} {u u' : UdpW} {ps : List UPkt} {refuse : Bool} {evs : List UEv} (hb : u.busy = false) (hne : ps ≠ []) (hl : ps.length ≤ udpMaxBatch)
    (h : u.wakeup genv ps refuse = some (u', evs)) : gotPkts evs = ps ∧ u'.busy = true := by
  unfold UdpW.wakeup at h
  rw [if_neg (by rw [hb]; simp), List.take_of_length_le hl] at h
  cases ps with
  | nil => exact absurd rfl hne
  | cons p t =>
    simp only at h
    obtain ⟨w1, h1, h2⟩ := Option.map_eq_some_iff.mp h
    cases h2
    refine ⟨by simp [gotPkts], ?_⟩
    rw [prepare_busy h1]

/-! ### The wire -/

theorem wantedPackets_append (data : π → Bytes) : ∀ (xs ys : List ((π × Nat) × Bool)) (rs ss : List (Option Nat)), xs.length = rs.length →
    wantedPackets data (xs ++ ys) (rs ++ ss) = wantedPackets data xs rs ++ wantedPackets data ys ss
  | [], ys, [], ss, _ => by cases ys <;> rfl
  | x :: xs, ys, r :: rs, ss, h => by
    have := wantedPackets_append data xs ys rs ss (by simpa using h)
    cases r with
    | none => simp only [List.cons_append, wantedPackets, this]
    | some n => simp only [List.cons_append, wantedPackets, this]
  | [], _, _ :: _, _, h => by simp at h
  | _ :: _, _, [], _, h => by simp at h

theorem wanted_upkt (env : WEnv H π) : ∀ (held : List ((π × Nat) × Bool)) (l : List (UPkt × Option Nat)) (rest : List UPkt), held.map env.upkt = l.map Prod.fst ++ rest →
    wantedPackets env.data held (l.map (fun x => x.2.map (fun _ => 0))) = wanted l
  | held, [], rest, _ => by cases held <;> rfl
  | [], x :: l, rest, h => by simp at h
  | y :: held, x :: l, rest, h => by
    rw [List.map_cons, List.map_cons, List.cons_append, List.cons.injEq] at h
    have ih := wanted_upkt env held l rest h.2
    obtain ⟨p, e⟩ := x
    have hp : p = env.upkt y := h.1.symm
    subst hp
    cases e with
    | none =>
      show (y.1.2, env.data y.1.1) :: wantedPackets env.data held _ = _
      rw [ih]
      rfl
    | some n =>
      show wantedPackets env.data held _ = _
      rw [ih]
      rfl

theorem sentBytes_wanted (env : WEnv H π) (hb : ∀ p, env.sq.bytes p = (env.data p).length) : ∀ (xs : List ((π × Nat) × Bool)) (rs : List (Option Nat)), (∀ r ∈ rs, r = none ∨ r = some 0) →
    ((wantedPackets env.data xs rs).flatMap Prod.snd).length = sentBytes env.sq.bytes (xs.map Prod.fst) rs
  | [], _, _ => by simp [wantedPackets, sentBytes]
  | _ :: _, [], _ => by simp [wantedPackets, sentBytes]
  | x :: xs, r :: rs, h => by
    have ih := sentBytes_wanted env hb xs rs (fun r hr => h r (List.mem_cons_of_mem _ hr))
    obtain ⟨⟨p, n⟩, l⟩ := x
    rcases h r List.mem_cons_self with rfl | rfl
    · rw [wantedPackets, List.flatMap_cons, List.length_append, ih, List.map_cons, sentBytes]
      show (env.data p).length + _ = env.sq.bytes p + _
      rw [hb p]
    · rw [wantedPackets, ih, List.map_cons, sentBytes]
      show _ = 0 + _
      omega

/-! ### The invariant -/

/-- The queue has given out these packets. -/
def OutIs (s : Sq H π) (held : List ((π × Nat) × Bool)) : Prop := s.out.map (fun o => (o.pkt, o.last)) = held.map (fun x => (x.1.1, x.2))

def MNextOk (env : WEnv H π) (s : Sq H π) (u : UdpW) (held : List ((π × Nat) × Bool)) : MNext → Prop
  | .send => u.busy = true ∧ u.pend = held.map env.upkt
  | .repost => u.busy = false ∧ held = []
  | .request => u.busy = false ∧ held = [] ∧ s.active = s.wtail

def MPcOk (env : WEnv H π) (m : MSt H π) (held : List ((π × Nat) × Bool)) : Prop :=
  match m.pc with
  | .rest => m.sq.wk ≠ .running ∧ m.sq.calling = [] ∧ m.sq.waking = [] ∧ m.sq.fin = 0 ∧ held = [] ∧ m.u.busy = false
  | .collect acc => m.sq.ready = true ∧ m.sq.fin = 0 ∧ held = acc ∧ acc.length < udpMaxBatch ∧ m.u.busy = false
  | .sending => m.sq.ready = true ∧ m.sq.fin = 0 ∧ m.u.busy = true ∧ m.u.pend = held.map env.upkt
  | .report k nx => m.sq.ready = true ∧ m.sq.fin = k ∧ 0 < k ∧ MNextOk env m.sq m.u held nx
  | .calling k nx => m.sq.wk = .running ∧ m.sq.fin = k ∧ MNextOk env m.sq m.u held nx
  | .next nx => m.sq.ready = true ∧ m.sq.fin = 0 ∧ MNextOk env m.sq m.u held nx

/-- The part of the invariant that is about the queue. `tr` is the history, `all` are the operations. -/
structure MCore (env : WEnv H π) (all : List (WOp H)) (s : Sq H π) (tr : List (WEv π)) (done held : List ((π × Nat) × Bool)) : Prop where
  pend : fetched (queueEvs tr) = done ++ held
  len : done.length = (outcomes (queueEvs tr)).length
  out : OutIs s held
  wire : leftWire tr = wantedPackets env.data done (outcomes (queueEvs tr))
  zero : ∀ r ∈ outcomes (queueEvs tr), r = none ∨ r = some 0
  sender : ∀ c, s.sender = some c → WOp.caller (.enter c.refs c.mode) ∈ all
  acc : ∀ a ∈ accepted (queueEvs tr), FromCall env.sq all a

/-- The invariant. -/
structure MInv (genv : UEnv) (env : WEnv H π) (all : List (WOp H)) (m : MSt H π) (tr : List (WEv π)) (done held : List ((π × Nat) × Bool)) : Prop where
  core : MCore env all m.sq tr done held
  uinv : UInv genv m.u
  pc : MPcOk env m held

/-- What a step achieves. -/
def MSteps (genv : UEnv) (env : WEnv H π) (all : List (WOp H)) (m : MSt H π) (tr : List (WEv π)) (r : Option (MSt H π × List (WEv π))) : Prop :=
  ∃ m' ev, r = some (m', ev) ∧ (∃ sops, Sq.run env.sq sops m.sq = some (m'.sq, queueEvs ev)) ∧
    (CleanRejects (queueEvs ev) → SqState env.sq m'.sq (queueEvs (tr ++ ev)) ∧ ∃ done held, MInv genv env all m' (tr ++ ev) done held)

theorem MCore.quiet {env : WEnv H π} {all : List (WOp H)} {s s' : Sq H π} {tr ev : List (WEv π)} {done held : List ((π × Nat) × Bool)} (inv : MCore env all s tr done held)
    (ho : s'.out = s.out) (h1 : fetched (queueEvs ev) = []) (h2 : outcomes (queueEvs ev) = []) (h3 : leftWire ev = [])
    (h4 : ∀ c, s'.sender = some c → WOp.caller (.enter c.refs c.mode) ∈ all) (h5 : ∀ a ∈ accepted (queueEvs ev), FromCall env.sq all a) : MCore env all s' (tr ++ ev) done held := by
  have e1 : fetched (queueEvs (tr ++ ev)) = fetched (queueEvs tr) := by rw [queueEvs_append, fetched_append, h1, List.append_nil]
  have e2 : outcomes (queueEvs (tr ++ ev)) = outcomes (queueEvs tr) := by rw [queueEvs_append, outcomes_append, h2, List.append_nil]
  have e3 : leftWire (tr ++ ev) = leftWire tr := by rw [leftWire_append, h3, List.append_nil]
  refine ⟨by rw [e1]; exact inv.pend, by rw [e2]; exact inv.len, by unfold OutIs; rw [ho]; exact inv.out, by rw [e2, e3]; exact inv.wire, by rw [e2]; exact inv.zero, h4, ?_⟩
  rw [queueEvs_append, accepted_append]
  intro a ha
  rcases List.mem_append.1 ha with h | h
  · exact inv.acc a h
  · exact h5 a h

theorem MSteps.still {genv : UEnv} {env : WEnv H π} {all : List (WOp H)} {m : MSt H π} {tr : List (WEv π)} {done held : List ((π × Nat) × Bool)} (st : SqState env.sq m.sq (queueEvs tr))
    (inv : MInv genv env all m tr done held) {u : UdpW} {pc : MPc π} (hu : UInv genv u) (hp : MPcOk env ⟨m.sq, u, pc⟩ held) : MSteps genv env all m tr (some (⟨m.sq, u, pc⟩, [])) :=
  ⟨_, _, rfl, ⟨[], rfl⟩, fun _ => ⟨by rw [List.append_nil]; exact st, done, held, inv.core.quiet rfl rfl rfl rfl inv.core.sender (fun a ha => by cases ha), hu, hp⟩⟩

/-- A step of the queue. -/
theorem MSteps.on {genv : UEnv} {env : WEnv H π} (hv : Spec.SqEnv.Valid env.sq) {all : List (WOp H)} {m : MSt H π} {tr : List (WEv π)} {done held : List ((π × Nat) × Bool)}
    (st : SqState env.sq m.sq (queueEvs tr)) (inv : MInv genv env all m tr done held) {op : SqOp H} {pc : MPc π}
    (ho : WOp.caller op ∈ all ∨ op.ofCaller = false)
    (hq : ∀ s ev, m.sq.step env.sq op = some (s, ev) → MPcOk env ⟨s, m.u, pc⟩ held ∧ s.out = m.sq.out ∧ fetched ev = [] ∧ outcomes ev = []) :
    MSteps genv env all m tr (m.on env op pc) := by
  obtain ⟨s, ev, h1, h2⟩ := step_state hv st op
  obtain ⟨g1, g2, g3, g4⟩ := hq s ev h1
  have hk : (∀ c, s.sender = some c → WOp.caller (.enter c.refs c.mode) ∈ all) ∧ ∀ a ∈ accepted ev, FromCall env.sq all a := by
    rcases ho with ho | ho
    · have hw : (⟨m.sq, .rest⟩ : WSt H π).on env op .rest [] = some (⟨s, .rest⟩, ev.map WEv.sq) := by
        unfold WSt.on
        simp only [h1, List.append_nil]
      obtain ⟨a, b⟩ := caller_from (tr := tr) hv ho st inv.core.sender hw
      rw [queueEvs_sq] at b
      exact ⟨a, b⟩
    · have k := step_kept h1 (by rintro rfl; cases ho) (by rintro _ _ rfl; cases ho) (by rintro _ _ rfl; cases ho)
      refine ⟨fun c hc => inv.core.sender c (k.sender ▸ hc), ?_⟩
      rw [k.acc]
      intro a ha
      cases ha
  unfold MSt.on
  rw [h1]
  refine ⟨_, _, rfl, ⟨[op], ?_⟩, fun hc => ⟨?_, done, held, inv.core.quiet g2 (by rw [queueEvs_sq]; exact g3) (by rw [queueEvs_sq]; exact g4) (leftWire_sq ev) hk.1 ?_, inv.uinv, g1⟩⟩
  · rw [queueEvs_sq]; exact sq_run_one h1
  · rw [queueEvs_sq] at hc
    rw [queueEvs_append, queueEvs_sq]
    exact h2 hc
  · rw [queueEvs_sq]; exact hk.2

/-! ### Packets are not empty -/

theorem groupPackets_mem {mode : GroupMode} {hs : List (Admitted π)} {x : π × Nat} (h : x ∈ groupPackets mode hs) : ∃ a ∈ hs, x.1 ∈ a.pkts := by
  have key : ∀ l ∈ hs.map (fun h => h.pkts.map (fun p => (p, h.substream))), x ∈ l → ∃ a ∈ hs, x.1 ∈ a.pkts := by
    intro l hl hx
    obtain ⟨a, ha, rfl⟩ := List.mem_map.1 hl
    obtain ⟨p, hp, rfl⟩ := List.mem_map.1 hx
    exact ⟨a, ha, hp⟩
  cases mode with
  | serial =>
    obtain ⟨l, hl, hx⟩ := List.mem_flatten.1 h
    exact key l hl hx
  | roundRobin =>
    obtain ⟨k, -, hx⟩ := List.mem_flatMap.1 h
    obtain ⟨l, hl, hx⟩ := List.mem_filterMap.1 hx
    exact key l hl (List.mem_of_getElem? hx)

theorem admits_mem {env : SqEnv H π} : ∀ {refs : List (SendRef H)} {cs : List Nat} {hs : List (Admitted π)}, Admits env refs cs hs → ∀ a ∈ hs, ∃ h c, env.gen h c = some a.pkts
  | [], [], [], _, a, ha => by cases ha
  | r :: refs, c :: cs, b :: hs, h, a, ha => by
    obtain ⟨⟨-, h1, -⟩, h2⟩ := h
    rcases List.mem_cons.1 ha with rfl | ha
    · exact ⟨_, _, h1⟩
    · exact admits_mem h2 a ha
  | [], [], _ :: _, h, _, _ => h.elim
  | [], _ :: _, _, h, _, _ => h.elim
  | _ :: _, [], _, h, _, _ => h.elim
  | _ :: _, _ :: _, [], h, _, _ => h.elim

theorem fetched_nonempty {env : WEnv H π} (hv : env.MValid) {all : List (WOp H)} {s : Sq H π} {tr : List (WEv π)} (st : SqState env.sq s (queueEvs tr))
    (hacc : ∀ a ∈ accepted (queueEvs tr), FromCall env.sq all a) : ∀ x ∈ fetched (queueEvs tr), 0 < (env.data x.1.1).length := by
  intro x hx
  obtain ⟨⟨old, gl, n, sinv⟩, -⟩ := st
  have hp := ((fetched_prefix sinv).map Prod.fst).subset (List.mem_map_of_mem hx)
  rw [flatMap_markLast] at hp
  obtain ⟨a, ha, hxa⟩ := List.mem_flatMap.1 hp
  obtain ⟨b, hb, hxb⟩ := groupPackets_mem hxa
  obtain ⟨refs, st, nx, -, had⟩ := hacc a ha
  obtain ⟨h, c, hg⟩ := admits_mem had b hb
  exact hv.nonempty h c _ hg _ hxb

/-! ### The effect of `send_packets` -/

structure SettleOk (env : WEnv H π) (s s' : Sq H π) (tr out : List (WEv π)) (held : List ((π × Nat) × Bool)) (evs : List UEv) : Prop where
  run : ∃ sops, Sq.run env.sq sops s = some (s', queueEvs out)
  st : SqState env.sq s' (queueEvs (tr ++ out))
  ready : s'.ready = true
  held : OutIs s' (held.drop (accounted evs).length)
  fin : s'.fin = s.fin + lastCount (accounted evs)
  keep : s'.sender = s.sender ∧ s'.flushes = s.flushes
  wire : leftWire out = datagrams evs
  outs : outcomes (queueEvs out) = (accounted evs).map (fun x => x.2.map (fun _ => 0))
  fet : fetched (queueEvs out) = []
  acc : accepted (queueEvs out) = []
  clean : rejected (queueEvs out) = []

theorem settle_spec {env : WEnv H π} (hv : Spec.SqEnv.Valid env.sq) : ∀ (evs : List UEv) {s : Sq H π} {tr : List (WEv π)} {held : List ((π × Nat) × Bool)} {rest : List UPkt},
    SqState env.sq s (queueEvs tr) → s.ready = true → OutIs s held → held.map env.upkt = (accounted evs).map Prod.fst ++ rest →
    ∃ s' out, MSt.settle env evs s = some (s', out) ∧ SettleOk env s s' tr out held evs
  | [], s, tr, held, rest, st, hr, ho, hh => by
    refine ⟨s, [], rfl, ⟨[], rfl⟩, by rw [List.append_nil]; exact st, hr, ho, rfl, ⟨rfl, rfl⟩, rfl, rfl, rfl, rfl, rfl⟩
  | e :: evs, s, tr, held, rest, st, hr, ho, hh => by
    have skip : ∀ (_ : accounted (e :: evs) = accounted evs) (_ : datagrams (e :: evs) = datagrams evs) (_ : MSt.settle env (e :: evs) s = MSt.settle env evs s),
        ∃ s' out, MSt.settle env (e :: evs) s = some (s', out) ∧ SettleOk env s s' tr out held (e :: evs) := by
      intro h1 h2 h3
      rw [h1] at hh
      obtain ⟨s', out, k1, k⟩ := settle_spec hv evs st hr ho hh
      refine ⟨s', out, by rw [h3]; exact k1, k.run, k.st, k.ready, by rw [h1]; exact k.held, by rw [h1]; exact k.fin, k.keep, by rw [h2]; exact k.wire, by rw [h1]; exact k.outs, k.fet, k.acc, k.clean⟩
    cases e with
    | got ps => exact skip rfl rfl rfl
    | completed k => exact skip rfl rfl rfl
    | wait => exact skip rfl rfl rfl
    | post => exact skip rfl rfl rfl
    | dgram n d =>
      have st' : SqState env.sq s (queueEvs (tr ++ [WEv.wire n d])) := by
        rw [queueEvs_append, show queueEvs [WEv.wire n d] = ([] : List (SqEv π)) from rfl, List.append_nil]
        exact st
      obtain ⟨s', out, k1, k⟩ := settle_spec hv evs st' hr ho (show held.map env.upkt = (accounted evs).map Prod.fst ++ rest from hh)
      have hq : queueEvs (WEv.wire n d :: out) = queueEvs out := rfl
      refine ⟨s', .wire n d :: out, by simp only [MSt.settle, k1, Option.map_some], ?_, ?_, k.ready, k.held, k.fin, k.keep, ?_, ?_, ?_, ?_, ?_⟩
      · rw [hq]; exact k.run
      · have := k.st
        rw [List.append_assoc] at this
        exact this
      · show (n, d) :: leftWire out = (n, d) :: datagrams evs
        rw [k.wire]
      · rw [hq]; exact k.outs
      · rw [hq]; exact k.fet
      · rw [hq]; exact k.acc
      · rw [hq]; exact k.clean
    | done p err =>
      have hh' : held.map env.upkt = p :: ((accounted evs).map Prod.fst ++ rest) := hh
      cases held with
      | nil => simp at hh'
      | cons x held =>
        rw [List.map_cons, List.cons.injEq] at hh'
        obtain ⟨hp, hh'⟩ := hh'
        obtain ⟨s1, ev, h1, h2⟩ := step_state hv st (.sent (err.map (fun _ => 0)))
        have hrun := sq_run_one h1
        have hstep := h1
        have hkk := step_kept h1 (by intro h; cases h) (by intro _ _ h; cases h) (by intro _ _ h; cases h)
        unfold OutIs at ho
        cases hout : s.out with
        | nil => rw [hout] at ho; simp at ho
        | cons o os =>
          rw [hout, List.map_cons, List.map_cons, List.cons.injEq] at ho
          obtain ⟨ho1, ho2⟩ := ho
          have hlast : o.last = x.2 := (Prod.mk.inj ho1).2
          simp only [Sq.step] at h1
          rw [if_pos hr] at h1
          obtain ⟨⟨-, -, -, kf, kc, kwk, kw⟩, -⟩ := sent_keep h1
          unfold Sq.sent at h1
          rw [hout] at h1
          simp only at h1
          split at h1
          · cases h1
          · rename_i sl hsl
            have h1' := Option.some.inj h1
            obtain ⟨e1, e2⟩ := Prod.mk.inj h1'
            subst e2
            have hr1 : s1.ready = true := by
              unfold Sq.ready at hr ⊢
              rw [kc, kwk, kw]
              exact hr
            have hst1 : SqState env.sq s1 (queueEvs (tr ++ [SqEv.sent (err.map (fun _ => 0))].map WEv.sq)) := by
              rw [queueEvs_append, queueEvs_sq]
              exact h2 (clean_of_rejected rfl)
            obtain ⟨s', out, k1, k⟩ := settle_spec hv evs hst1 hr1 (by unfold OutIs; rw [← e1]; exact ho2) hh'
            have hq : queueEvs ([SqEv.sent (err.map (fun _ => 0))].map WEv.sq ++ out) = SqEv.sent (err.map (fun _ => 0)) :: queueEvs out := by
              rw [queueEvs_append, queueEvs_sq]
              rfl
            obtain ⟨sops, hs⟩ := k.run
            refine ⟨s', [SqEv.sent (err.map (fun _ => 0))].map WEv.sq ++ out, by simp only [MSt.settle, hstep, k1, Option.map_some], ⟨_, by rw [hq]; exact run_snoc hrun hs⟩, ?_, k.ready, k.held, ?_, ?_, ?_, ?_, ?_, ?_, ?_⟩
            · have := k.st
              rw [List.append_assoc] at this
              exact this
            · rw [k.fin, ← e1]
              show (if o.last = true then s.fin + 1 else s.fin) + _ = _
              show _ = s.fin + ((((p, err) :: accounted evs).filter (fun x => x.1.last)).length)
              have hpl : p.last = x.2 := by rw [← hp]; rfl
              rw [hlast, List.filter_cons]
              simp only [hpl]
              unfold lastCount
              by_cases hx : x.2 = true
              · rw [if_pos hx, if_pos hx, List.length_cons]; omega
              · rw [if_neg hx, if_neg hx]
            · exact ⟨k.keep.1.trans hkk.sender, k.keep.2.trans kf⟩
            · rw [leftWire_append, leftWire_sq]
              exact k.wire
            · rw [hq]
              show _ :: outcomes (queueEvs out) = _ :: _
              rw [k.outs]
            · rw [hq]; exact k.fet
            · rw [hq]; exact k.acc
            · rw [hq]; exact k.clean

/-! ### Every step -/

theorem ready_iff {s : Sq H π} : s.ready = true ↔ s.wk = .running ∧ s.calling = [] ∧ s.waking = [] := by
  unfold Sq.ready
  simp [Bool.and_eq_true, and_assoc]

theorem mmsgThen_ok {env : WEnv H π} {s : Sq H π} {u : UdpW} {k : Nat} {nx : MNext} {held : List ((π × Nat) × Bool)} (h1 : s.ready = true) (h2 : s.fin = k) (h3 : MNextOk env s u held nx) :
    MPcOk env ⟨s, u, mmsgThen k nx⟩ held := by
  unfold mmsgThen
  split
  · rename_i hk; exact ⟨h1, h2, hk, h3⟩
  · rename_i hk
    have : k = 0 := by omega
    subst this
    exact ⟨h1, h2, h3⟩

theorem MNextOk.keep {env : WEnv H π} {s s' : Sq H π} {u : UdpW} {held : List ((π × Nat) × Bool)} {nx : MNext} (h : MNextOk env s u held nx) (h1 : s'.active = s.active) (h2 : s'.wtail = s.wtail) : MNextOk env s' u held nx := by
  cases nx with
  | send => exact h
  | repost => exact h
  | request => exact ⟨h.1, h.2.1, by rw [h1, h2]; exact h.2.2⟩

theorem MPcOk.caller {env : WEnv H π} {s s' : Sq H π} {u : UdpW} {pc : MPc π} {held : List ((π × Nat) × Bool)} (hp : MPcOk env ⟨s, u, pc⟩ held)
    (h : s'.active = s.active ∧ s'.wtail = s.wtail ∧ s'.out = s.out ∧ s'.fin = s.fin ∧ s'.calling = s.calling ∧ s'.waking = s.waking) (hw : s'.wk = s.wk ∨ s.wk = .need ∧ s'.wk = .queued) :
    MPcOk env ⟨s', u, pc⟩ held := by
  obtain ⟨e1, e2, e3, e4, e5, e6⟩ := h
  have hrun : s.wk = .running → s'.wk = .running := by
    intro hr
    rcases hw with h | ⟨h, -⟩
    · rw [h, hr]
    · rw [hr] at h; cases h
  have hready : s.ready = true → s'.ready = true := by
    rw [ready_iff, ready_iff, e5, e6]
    exact fun h => ⟨hrun h.1, h.2⟩
  cases pc with
  | rest =>
    obtain ⟨a, b, c, d, e⟩ := hp
    refine ⟨?_, by rw [e5]; exact b, by rw [e6]; exact c, by rw [e4]; exact d, e⟩
    rcases hw with h | ⟨-, h⟩
    · show s'.wk ≠ _; rw [h]; exact a
    · show s'.wk ≠ _; rw [h]; decide
  | collect acc => exact ⟨hready hp.1, by rw [e4]; exact hp.2.1, hp.2.2⟩
  | sending => exact ⟨hready hp.1, by rw [e4]; exact hp.2.1, hp.2.2⟩
  | report k nx => exact ⟨hready hp.1, by rw [e4]; exact hp.2.1, hp.2.2.1, hp.2.2.2.keep e1 e2⟩
  | calling k nx => exact ⟨hrun hp.1, by rw [e4]; exact hp.2.1, hp.2.2.keep e1 e2⟩
  | next nx => exact ⟨hready hp.1, by rw [e4]; exact hp.2.1, hp.2.2.keep e1 e2⟩

theorem upkt_bytes (env : WEnv H π) (x : (π × Nat) × Bool) : (env.upkt x).bytes = env.data x.1.1 := rfl

/-- The end of the loop of `wakeup`. -/
theorem batch_ok {genv : UEnv} {env : WEnv H π} {s : Sq H π} {u : UdpW} {acc : List ((π × Nat) × Bool)} {nx : MNext} {refuse : Bool} {ev : List (WEv π)} (hu : UInv genv u) (hb : u.busy = false)
    (hr : s.ready = true) (hf : s.fin = 0) (hl : acc.length ≤ udpMaxBatch) (hne : ∀ x ∈ acc, 0 < (env.data x.1.1).length) (hnx : acc = [] → MNextOk env s u [] nx) :
    ∃ m', MSt.batch genv env s u acc nx refuse ev = some (m', ev) ∧ m'.sq = s ∧ UInv genv m'.u ∧ MPcOk env m' acc ∧ (m'.pc = .next nx ∧ acc = [] ∨ m'.pc = .sending ∧ acc ≠ []) := by
  unfold MSt.batch
  cases acc with
  | nil => exact ⟨_, rfl, rfl, hu, ⟨hr, hf, hnx rfl⟩, Or.inl ⟨rfl, rfl⟩⟩
  | cons x acc =>
    obtain ⟨u', evs, h1, h2, h3⟩ := wakeup_spec hu ((x :: acc).map env.upkt) refuse (by
      intro p hp
      obtain ⟨y, hy, rfl⟩ := List.mem_map.1 hp
      rw [upkt_bytes]
      exact hne y hy)
    obtain ⟨g1, g2⟩ := wakeup_got hb (by simp) (by rw [List.length_map]; exact hl) h1
    simp only [h1]
    refine ⟨_, rfl, rfl, h2.inv, ⟨hr, hf, g2, ?_⟩, Or.inr ⟨rfl, by simp⟩⟩
    have hp := h2.pend
    have h0 : u.pend = [] := by unfold UdpW.pend; rw [hb]; rfl
    rw [g1, h3, h0, List.map_nil, List.nil_append, List.nil_append] at hp
    exact hp.symm

theorem clean_nil : CleanRejects ([] : List (SqEv π)) := fun _ _ _ h => by cases h

theorem mstep {genv : UEnv} {env : WEnv H π} (hv : env.MValid) {all : List (WOp H)} {m : MSt H π} {tr : List (WEv π)} {done held : List ((π × Nat) × Bool)} (st : SqState env.sq m.sq (queueEvs tr))
    (inv : MInv genv env all m tr done held) (op : WOp H) (hop : op ∈ all) : MSteps genv env all m tr (m.step genv env op) := by
  obtain ⟨s, u, pc⟩ := m
  have hpc := inv.pc
  have hsq := hv.sq
  cases op with
  | caller op =>
    simp only [MSt.step]
    by_cases ho : op.ofCaller = true
    · rw [if_pos ho]
      refine MSteps.on hsq st inv (Or.inl hop) (fun s' ev h => ?_)
      obtain ⟨a, b, c, d⟩ := caller_keep ho h
      exact ⟨hpc.caller a b, a.2.2.1, c, d⟩
    · rw [if_neg ho]
      exact MSteps.still st inv inv.uinv hpc
  | tick sleepy r =>
    simp only [MSt.step]
    cases pc with
    | rest =>
      simp only [MSt.tick]
      by_cases hw : s.wk = .queued
      · rw [if_pos hw]
        refine MSteps.on hsq st inv (Or.inr rfl) (fun s' ev h => ?_)
        simp only [Sq.step] at h
        rw [if_pos hw] at h
        cases h
        obtain ⟨a, b, c, d, e, f⟩ := hpc
        exact ⟨⟨ready_iff.2 ⟨rfl, b, c⟩, d, e, Nat.zero_lt_succ 63, f⟩, rfl, rfl, rfl⟩
      · rw [if_neg hw]
        exact MSteps.still st inv inv.uinv hpc
    | collect acc =>
      obtain ⟨hr, hf, rfl, hl, hb⟩ := hpc
      simp only at hr hf hb
      have hne := fetched_nonempty hv st inv.core.acc
      simp only [MSt.tick]
      by_cases hs : sleepy = true
      · rw [if_pos hs]
        obtain ⟨m', h1, rfl, h3, h4, -⟩ := batch_ok (acc := held) (nx := .repost) (refuse := r.refuse) (ev := []) inv.uinv hb hr hf (Nat.le_of_lt hl)
          (fun x hx => hne x (by rw [inv.core.pend]; exact List.mem_append_right _ hx)) (fun _ => ⟨hb, rfl⟩)
        exact ⟨m', [], h1, ⟨[], rfl⟩, fun _ => ⟨by rw [List.append_nil]; exact st, done, held, by rw [List.append_nil]; exact inv.core, h3, h4⟩⟩
      · rw [if_neg hs]
        obtain ⟨s', ev, h1, h2⟩ := step_state hsq st .get
        have hrun := sq_run_one h1
        have hkk := step_kept h1 (by intro h; cases h) (by intro _ _ h; cases h) (by intro _ _ h; cases h)
        simp only at h1 hrun
        rw [h1]
        simp only [Sq.step] at h1
        rw [if_pos hr] at h1
        obtain ⟨⟨e1, e2, e3, e4, e5, e6⟩, hcase⟩ := get_writer h1
        have hr' : s'.ready = true := by rw [ready_iff, e4, e2, e3]; exact ready_iff.1 hr
        have hf' : s'.fin = 0 := by rw [e1]; exact hf
        have hsend : ∀ c, s'.sender = some c → WOp.caller (.enter c.refs c.mode) ∈ all := fun c hc => inv.core.sender c (e5 ▸ hc)
        rcases hcase with ⟨rfl, ho, ha, ht⟩ | ⟨p, n, l, rfl, ho⟩
        · simp only [MSt.got]
          obtain ⟨m', k1, rfl, k3, k4, -⟩ := batch_ok (acc := held) (nx := .request) (refuse := r.refuse) (ev := ([] : List (SqEv π)).map WEv.sq) inv.uinv hb hr' hf' (Nat.le_of_lt hl)
            (fun x hx => hne x (by rw [inv.core.pend]; exact List.mem_append_right _ hx)) (fun _ => ⟨hb, rfl, ha⟩)
          refine ⟨m', ([] : List (SqEv π)).map WEv.sq, k1, ⟨[.get], hrun⟩, fun hc => ⟨by rw [queueEvs_append]; exact h2 hc, done, held, inv.core.quiet ho rfl rfl rfl hsend (fun a ha => by cases ha), k3, k4⟩⟩
        · have hcl : CleanRejects [SqEv.packet p n l] := clean_of_rejected rfl
          have st' : SqState env.sq s' (queueEvs (tr ++ [SqEv.packet p n l].map WEv.sq)) := by
            rw [queueEvs_append, queueEvs_sq]; exact h2 hcl
          have hc' : MCore env all s' (tr ++ [SqEv.packet p n l].map WEv.sq) done (held ++ [((p, n), l)]) := by
            have eo : outcomes (queueEvs (tr ++ [SqEv.packet p n l].map WEv.sq)) = outcomes (queueEvs tr) := by
              rw [queueEvs_append, outcomes_append, queueEvs_sq]
              exact List.append_nil _
            have ew : leftWire (tr ++ [SqEv.packet p n l].map WEv.sq) = leftWire tr := by
              rw [leftWire_append, leftWire_sq, List.append_nil]
            refine ⟨?_, by rw [eo]; exact inv.core.len, ?_, by rw [eo, ew]; exact inv.core.wire, by rw [eo]; exact inv.core.zero, hsend, ?_⟩
            · rw [queueEvs_append, fetched_append, inv.core.pend, queueEvs_sq, List.append_assoc]; rfl
            · have := inv.core.out
              unfold OutIs at this ⊢
              simp only at this
              rw [ho, List.map_append, this, List.map_append]
              rfl
            · rw [queueEvs_append, accepted_append, queueEvs_sq]
              intro a ha
              rcases List.mem_append.1 ha with h | h
              · exact inv.core.acc a h
              · cases h
          have hne' := fetched_nonempty hv st' hc'.acc
          simp only [MSt.got]
          by_cases hlt : held.length + 1 < udpMaxBatch
          · rw [if_pos hlt]
            refine ⟨_, _, rfl, ⟨[.get], hrun⟩, fun _ => ⟨st', done, _, hc', inv.uinv, hr', hf', rfl, by simpa using hlt, hb⟩⟩
          · rw [if_neg hlt]
            obtain ⟨m', k1, rfl, k3, k4, -⟩ := batch_ok (nx := .repost) (refuse := r.refuse) (ev := [SqEv.packet p n l].map WEv.sq) inv.uinv hb hr' hf' (acc := held ++ [((p, n), l)]) (by simp; omega)
              (fun x hx => hne' x (by rw [hc'.pend]; exact List.mem_append_right _ hx)) (fun h => by simp at h)
            exact ⟨m', _, k1, ⟨[.get], hrun⟩, fun _ => ⟨st', done, _, hc', k3, k4⟩⟩
    | sending =>
      obtain ⟨hr, hf, hb, hp⟩ := hpc
      simp only at hr hf hb hp
      simp only [MSt.tick, MSt.sendPackets]
      obtain ⟨u', evs, h1, h2, h3, -⟩ := sendPackets_spec inv.uinv hb (u.answer r.kernel) r.refuse
      obtain ⟨g1, g2⟩ := sendPackets_plain hb h1
      have hpend := h2.pend
      simp only at h1 hpend
      rw [plain_got g1, List.append_nil, hp] at hpend
      obtain ⟨s', out, k1, k⟩ := settle_spec hsq evs st hr inv.core.out hpend
      simp only at k1
      rw [h1]
      simp only [k1]
      have hlen : (accounted evs).length ≤ held.length := by
        have := congrArg List.length hpend
        simp only [List.length_map, List.length_append] at this
        omega
      have hdrop : (held.drop (accounted evs).length).map env.upkt = u'.pend := by
        rw [List.map_drop, hpend, ← List.length_map (f := Prod.fst), List.drop_left]
      have htake : (held.take (accounted evs).length).map env.upkt = (accounted evs).map Prod.fst ++ [] := by
        rw [List.map_take, hpend, ← List.length_map (f := Prod.fst), List.take_left, List.append_nil]
      have hcore : MCore env all s' (tr ++ out) (done ++ held.take (accounted evs).length) (held.drop (accounted evs).length) := by
        have eo : outcomes (queueEvs (tr ++ out)) = outcomes (queueEvs tr) ++ (accounted evs).map (fun x => x.2.map (fun _ => 0)) := by
          rw [queueEvs_append, outcomes_append, k.outs]
        refine ⟨?_, ?_, k.held, ?_, ?_, fun c hc => inv.core.sender c (k.keep.1 ▸ hc), ?_⟩
        · rw [queueEvs_append, fetched_append, k.fet, inv.core.pend, List.append_nil, List.append_assoc, List.take_append_drop]
        · rw [eo, List.length_append, List.length_append, inv.core.len, List.length_map, List.length_take]
          omega
        · rw [leftWire_append, inv.core.wire, k.wire, h2.dgrams, eo, wantedPackets_append _ _ _ _ _ inv.core.len, wanted_upkt env _ _ _ htake]
        · rw [eo]
          intro y hy
          rcases List.mem_append.1 hy with hy | hy
          · exact inv.core.zero y hy
          · obtain ⟨z, -, rfl⟩ := List.mem_map.1 hy
            cases z.2 <;> simp
        · rw [queueEvs_append, accepted_append, k.acc, List.append_nil]
          exact inv.core.acc
      refine ⟨_, _, rfl, k.run, fun _ => ⟨k.st, _, _, hcore, h2.inv, ?_⟩⟩
      have hfin : s'.fin = groupsOf evs := by rw [k.fin, hf, groupsOf_eq, h2.groups, Nat.zero_add]
      rcases g2 with g2 | ⟨rfl, g2⟩
      · rw [if_pos g2]
        refine mmsgThen_ok k.ready hfin ?_
        cases hbu : u'.busy with
        | true => exact ⟨hbu, hdrop.symm⟩
        | false =>
          refine ⟨hbu, ?_⟩
          have : u'.pend = [] := by unfold UdpW.pend; rw [hbu]; rfl
          rw [this] at hdrop
          exact List.map_eq_nil_iff.1 hdrop
      · rw [if_neg (by simp)]
        exact ⟨k.ready, hfin, g2, hdrop.symm⟩
    | report k nx =>
      obtain ⟨hr, hf, hk, hn⟩ := hpc
      simp only [MSt.tick]
      refine MSteps.on hsq st inv (Or.inr rfl) (fun s' ev h => ?_)
      simp only at hr hf hn
      simp only [Sq.step] at h
      rw [if_pos hr] at h
      obtain ⟨e1, e2, e3, e4, e5, e6, e7, -⟩ := complete_writer h (by omega)
      subst e6
      refine ⟨⟨by show s'.wk = _; rw [e7]; exact (ready_iff.1 hr).1, ?_, hn.keep e1 e2⟩, e3, rfl, rfl⟩
      show s'.fin = _
      rw [e5]
      omega
    | calling k nx =>
      obtain ⟨a, b, hn⟩ := hpc
      simp only at a b hn
      simp only [MSt.tick]
      by_cases hc : s.calling = []
      · rw [if_neg (by simpa using hc)]
        by_cases hw : s.waking = []
        · rw [if_neg (by simpa using hw)]
          exact MSteps.still st inv inv.uinv (mmsgThen_ok (ready_iff.2 ⟨a, hc, hw⟩) b hn)
        · rw [if_pos hw]
          refine MSteps.on hsq st inv (Or.inr rfl) (fun s' ev h => ?_)
          simp only [Sq.step] at h
          rw [hc] at h
          split at h
          · cases h; exact ⟨⟨a, b, hn.keep rfl rfl⟩, rfl, rfl, rfl⟩
          · cases h; exact ⟨⟨a, b, hn⟩, rfl, rfl, rfl⟩
      · rw [if_pos hc]
        refine MSteps.on hsq st inv (Or.inr rfl) (fun s' ev h => ?_)
        simp only [Sq.step] at h
        split at h
        · cases h; exact ⟨⟨a, b, hn⟩, rfl, rfl, rfl⟩
        · cases h; exact ⟨⟨a, b, hn.keep rfl rfl⟩, rfl, rfl, rfl⟩
    | next nx =>
      obtain ⟨hr, hf, hn⟩ := hpc
      simp only at hr hf hn
      cases nx with
      | send => exact MSteps.still st inv inv.uinv ⟨hr, hf, hn⟩
      | repost =>
        simp only [MSt.tick]
        refine MSteps.on hsq st inv (Or.inr rfl) (fun s' ev h => ?_)
        simp only [Sq.step] at h
        rw [if_pos hr] at h
        cases h
        have hr2 := ready_iff.1 hr
        exact ⟨⟨by show Wake.queued ≠ _; decide, hr2.2.1, hr2.2.2, hf, hn.2, hn.1⟩, rfl, rfl, rfl⟩
      | request =>
        simp only [MSt.tick]
        by_cases hs : s.sender.isSome = true
        · rw [if_pos hs]
          exact MSteps.still st inv inv.uinv ⟨hr, hf, hn⟩
        · rw [if_neg hs]
          refine MSteps.on hsq st inv (Or.inr rfl) (fun s' ev h => ?_)
          simp only [Sq.step] at h
          rw [if_pos hr] at h
          obtain ⟨hn1, hn2, ha⟩ := hn
          have ho := inv.core.out
          unfold OutIs at ho
          rw [hn2] at ho
          have ho := List.map_eq_nil_iff.1 ho
          simp only at ho
          have hr2 := ready_iff.1 hr
          unfold Sq.request at h
          rw [if_neg (by rw [ho, hf]; simp [hs, ha])] at h
          split at h
          · cases h; exact ⟨⟨by show Wake.need ≠ _; decide, hr2.2.1, hr2.2.2, hf, hn2, hn1⟩, rfl, rfl, rfl⟩
          · cases h; exact ⟨⟨by show Wake.queued ≠ _; decide, hr2.2.1, hr2.2.2, hf, hn2, hn1⟩, rfl, rfl, rfl⟩

/-! ### Progress -/

/-- The kernel takes a packet, or refuses one with an error. -/
def SendResp.moves : SendResp → Bool
  | .sent k => decide (0 < k)
  | .error _ => true
  | .again => false

/-- What is still to be done after a call. -/
def mNextWeight (s : Sq H π) (u : UdpW) : MNext → Nat
  | .send => 11 + 8 * u.todo
  | .repost => 8
  | .request => if s.tail = s.wtail then 2 else 12

/-- What is still to be done, apart from packets that the writer does not have, handlers and calls of `flush`. -/
def MSt.weight (m : MSt H π) : Nat :=
  match m.pc with
  | .rest => if m.sq.wk = .need then 0 else 7
  | .collect acc => 6 + 26 * acc.length
  | .sending => 10 + 8 * m.u.todo
  | .report k nx => 2 * k + mNextWeight m.sq m.u nx + 1
  | .calling k nx => 2 * k + mNextWeight m.sq m.u nx + 2
  | .next nx => mNextWeight m.sq m.u nx

/-- What is still to be done. -/
def MSt.left (m : MSt H π) (tr : List (SqEv π)) : Nat :=
  40 * (((accepted tr).flatMap (fun a => markLast a.packets)).length - (fetched tr).length) + ((accepted tr).length - (completed tr).length) + (m.sq.flushes - (returned tr).length) + m.weight

theorem mleft_lt {env : SqEnv H π} {m m' : MSt H π} {tr ev : List (SqEv π)} (st : SqState env m'.sq (tr ++ ev)) (ha : accepted ev = []) (hf : m'.sq.flushes = m.sq.flushes)
    (h : m'.weight < 40 * (fetched ev).length + (completed ev).length + (returned ev).length + m.weight) : m'.left (tr ++ ev) < m.left tr := by
  have hb := toDo_bounds st
  have hr := returned_le st
  unfold MSt.left
  rw [accepted_append, ha, List.append_nil, fetched_append, completed_append] at hb ⊢
  have hra : returned (tr ++ ev) = returned tr ++ returned ev := List.filterMap_append
  rw [hra] at hr ⊢
  simp only [List.length_append] at hb hr ⊢
  omega

theorem mNextWeight_eq {s s' : Sq H π} (h1 : s'.tail = s.tail) (h2 : s'.wtail = s.wtail) (u : UdpW) (nx : MNext) : mNextWeight s' u nx = mNextWeight s u nx := by
  cases nx <;> simp only [mNextWeight, h1, h2]

theorem mmsgThen_weight (s : Sq H π) (u : UdpW) (k : Nat) (nx : MNext) : (⟨s, u, mmsgThen k nx⟩ : MSt H π).weight < 2 * k + mNextWeight s u nx + 2 := by
  unfold mmsgThen
  split
  · show 2 * k + mNextWeight s u nx + 1 < _; omega
  · show mNextWeight s u nx < _; omega

/-- What a step of the writer that does not sleep achieves. -/
def MNearer (m : MSt H π) (tr : List (WEv π)) (m' : MSt H π) (ev : List (WEv π)) : Prop :=
  m'.left (queueEvs (tr ++ ev)) < m.left (queueEvs tr) ∧ m'.sq.sender = m.sq.sender ∧ accepted (queueEvs ev) = [] ∧ CleanRejects (queueEvs ev)

theorem mon_left {env : WEnv H π} (hv : Spec.SqEnv.Valid env.sq) {m m' : MSt H π} {tr ev : List (WEv π)} (st : SqState env.sq m.sq (queueEvs tr))
    {op : SqOp H} {pc : MPc π} (h : m.on env op pc = some (m', ev)) (hw : op.ofCaller = false)
    (hq : ∀ s ev, m.sq.step env.sq op = some (s, ev) → s.flushes = m.sq.flushes ∧ (⟨s, m.u, pc⟩ : MSt H π).weight < 40 * (fetched ev).length + (completed ev).length + (returned ev).length + m.weight) :
    MNearer m tr m' ev := by
  obtain ⟨s, e, h1, h2⟩ := step_state hv st op
  unfold MSt.on at h
  rw [h1] at h
  cases h
  have hk := step_kept h1 (by rintro rfl; cases hw) (by rintro _ _ rfl; cases hw) (by rintro _ _ rfl; cases hw)
  have hr := step_unrejected h1 (by rintro rfl; cases hw) (by rintro _ _ rfl; cases hw)
  obtain ⟨hf, hl⟩ := hq s e h1
  have hst := h2 (clean_of_rejected hr)
  unfold MNearer
  rw [queueEvs_append, queueEvs_sq]
  exact ⟨mleft_lt hst hk.acc hf hl, hk.sender, hk.acc, clean_of_rejected hr⟩

theorem todo_le (u : UdpW) : u.todo ≤ u.pend.length + 1 := by
  unfold UdpW.todo
  split
  · split <;> omega
  · omega

theorem pend_le (u : UdpW) : u.pend.length ≤ u.todo := by
  unfold UdpW.todo
  split
  · omega
  · rename_i h
    unfold UdpW.pend
    rw [if_neg h]
    exact Nat.le_refl _

theorem lastCount_le (l : List (UPkt × Option Nat)) : lastCount l ≤ l.length := List.length_filter_le _ _

theorem mtick_left {genv : UEnv} {env : WEnv H π} (hv : env.MValid) {all : List (WOp H)} {m m' : MSt H π} {tr ev : List (WEv π)} {done held : List ((π × Nat) × Bool)} (st : SqState env.sq m.sq (queueEvs tr))
    (inv : MInv genv env all m tr done held) {r : WResp} (hr : r.kernel.moves = true) (hs : m.sq.sender = none) (hi : ¬ m.idle) (h : m.tick genv env false r = some (m', ev)) : MNearer m tr m' ev := by
  obtain ⟨s, u, pc⟩ := m
  have hpc := inv.pc
  have hsq := hv.sq
  have still : ∀ {pc' : MPc π}, (⟨s, u, pc'⟩ : MSt H π).weight < (⟨s, u, pc⟩ : MSt H π).weight → some ((⟨s, u, pc'⟩ : MSt H π), ([] : List (WEv π))) = some (m', ev) → MNearer ⟨s, u, pc⟩ tr m' ev := by
    intro pc' hl he
    cases he
    unfold MNearer
    rw [queueEvs_append]
    refine ⟨mleft_lt (by rw [show queueEvs ([] : List (WEv π)) = [] from rfl, List.append_nil]; exact st) rfl rfl ?_, rfl, rfl, clean_nil⟩
    show _ < 40 * 0 + 0 + 0 + _
    omega
  cases pc with
  | rest =>
    simp only [MSt.tick] at h
    have hn : s.wk ≠ .need := fun hn => hi ⟨rfl, hn⟩
    have hq : s.wk = .queued := by
      cases hw : s.wk with
      | need => exact absurd hw hn
      | queued => rfl
      | running => exact absurd hw hpc.1
    rw [if_pos hq] at h
    refine mon_left hsq st h rfl (fun s' ev h => ?_)
    simp only [Sq.step] at h
    rw [if_pos hq] at h
    cases h
    refine ⟨rfl, ?_⟩
    show 6 + 26 * 0 < 40 * 0 + 0 + 0 + (if s.wk = .need then 0 else 7)
    rw [if_neg hn]; omega
  | collect acc =>
    obtain ⟨hr, hf, rfl, hl, hb⟩ := hpc
    simp only at hr hf hb
    have hne := fetched_nonempty hv st inv.core.acc
    simp only [MSt.tick] at h
    rw [if_neg (by decide)] at h
    obtain ⟨s', e, h1, h2⟩ := step_state hsq st .get
    have hk := step_kept h1 (by intro h; cases h) (by intro _ _ h; cases h) (by intro _ _ h; cases h)
    simp only at h1
    rw [h1] at h
    simp only [Sq.step] at h1
    rw [if_pos hr] at h1
    obtain ⟨⟨-, -, -, kf, -⟩, -⟩ := get_keep h1
    obtain ⟨⟨e1, e2, e3, e4, e5, e6⟩, hcase⟩ := get_writer h1
    have hr' : s'.ready = true := by rw [ready_iff, e4, e2, e3]; exact ready_iff.1 hr
    have hf' : s'.fin = 0 := by rw [e1]; exact hf
    -- the batch
    have hbatch : ∀ {acc : List ((π × Nat) × Bool)} {nx : MNext} {ev0 : List (WEv π)} {m2 : MSt H π}, acc.length ≤ udpMaxBatch → (∀ x ∈ acc, 0 < (env.data x.1.1).length) → (acc = [] → MNextOk env s' u [] nx) →
        MSt.batch genv env s' u acc nx r.refuse ev0 = some (m2, ev) → ev = ev0 ∧ m2.sq = s' ∧ (acc ≠ [] → m2.weight ≤ 18 + 8 * acc.length) ∧ (acc = [] → m2.weight = mNextWeight s' u nx) := by
      intro acc nx ev0 m2 q1 q2 q3 q4
      obtain ⟨m3, k1, k2, k3, k4, k5⟩ := batch_ok (refuse := r.refuse) (ev := ev0) inv.uinv hb hr' hf' q1 q2 q3
      simp only at k1
      rw [k1] at q4
      cases q4
      refine ⟨rfl, k2, fun hne => ?_, fun hnil => ?_⟩
      · rcases k5 with ⟨-, h⟩ | ⟨k5, -⟩
        · exact absurd h hne
        · unfold MPcOk at k4
          unfold MSt.weight
          rw [k5] at k4 ⊢
          simp only at k4 ⊢
          have := todo_le m2.u
          rw [k4.2.2.2, List.length_map] at this
          omega
      · rcases k5 with ⟨k5, -⟩ | ⟨-, h⟩
        · subst hnil
          unfold MSt.batch at k1
          cases k1
          rfl
        · exact absurd hnil h
    rcases hcase with ⟨rfl, ho, ha, ht⟩ | ⟨p, n, l, rfl, ho⟩
    · simp only [MSt.got] at h
      obtain ⟨b1, b2, b3, b4⟩ := hbatch (Nat.le_of_lt hl) (fun x hx => hne x (by rw [inv.core.pend]; exact List.mem_append_right _ hx)) (nx := .request) (fun _ => ⟨hb, rfl, ha⟩) h
      subst b1
      unfold MNearer
      rw [queueEvs_append]
      refine ⟨mleft_lt (by rw [b2]; exact h2 clean_nil) rfl (by rw [b2]; exact kf) ?_, by rw [b2]; exact hk.sender, rfl, clean_nil⟩
      show _ < 40 * 0 + 0 + 0 + (6 + 26 * held.length)
      by_cases hn : held = []
      · rw [b4 hn]
        show (if s'.tail = s'.wtail then 2 else 12) < _
        rw [if_pos ht.symm]
        omega
      · have := b3 hn
        have : 0 < held.length := List.length_pos_iff.mpr hn
        omega
    · have hcl : CleanRejects [SqEv.packet p n l] := clean_of_rejected rfl
      simp only [MSt.got] at h
      by_cases hlt : held.length + 1 < udpMaxBatch
      · rw [if_pos hlt] at h
        cases h
        unfold MNearer
        rw [queueEvs_append]
        refine ⟨mleft_lt (h2 hcl) rfl kf ?_, hk.sender, rfl, hcl⟩
        show 6 + 26 * (held ++ [((p, n), l)]).length < 40 * 1 + 0 + 0 + (6 + 26 * held.length)
        rw [List.length_append, List.length_singleton]
        omega
      · rw [if_neg hlt] at h
        have st' : SqState env.sq s' (queueEvs (tr ++ [SqEv.packet p n l].map WEv.sq)) := by
          rw [queueEvs_append, queueEvs_sq]; exact h2 hcl
        have hacc' : ∀ a ∈ accepted (queueEvs (tr ++ [SqEv.packet p n l].map WEv.sq)), FromCall env.sq all a := by
          rw [queueEvs_append, accepted_append, queueEvs_sq]
          intro a ha
          rcases List.mem_append.1 ha with h | h
          · exact inv.core.acc a h
          · cases h
        have hne' := fetched_nonempty hv st' hacc'
        have hfet : fetched (queueEvs (tr ++ [SqEv.packet p n l].map WEv.sq)) = done ++ (held ++ [((p, n), l)]) := by
          rw [queueEvs_append, fetched_append, inv.core.pend, queueEvs_sq, List.append_assoc]; rfl
        obtain ⟨b1, b2, b3, b4⟩ := hbatch (by rw [List.length_append, List.length_singleton]; omega) (fun x hx => hne' x (by rw [hfet]; exact List.mem_append_right _ hx)) (fun h => by simp at h) h
        subst b1
        unfold MNearer
        rw [queueEvs_append]
        refine ⟨mleft_lt (by rw [b2]; exact h2 hcl) rfl (by rw [b2]; exact kf) ?_, by rw [b2]; exact hk.sender, rfl, hcl⟩
        show _ < 40 * 1 + 0 + 0 + (6 + 26 * held.length)
        have := b3 (by simp)
        rw [List.length_append, List.length_singleton] at this
        omega
  | sending =>
    obtain ⟨hrd, hf, hb, hp⟩ := hpc
    simp only at hrd hf hb hp
    simp only [MSt.tick, MSt.sendPackets] at h
    obtain ⟨u', evs, h1, h2, h3, h4⟩ := sendPackets_spec inv.uinv hb (u.answer r.kernel) r.refuse
    obtain ⟨g1, g2⟩ := sendPackets_plain hb h1
    have hpend := h2.pend
    simp only at h1 hpend h4
    rw [plain_got g1, List.append_nil, hp] at hpend
    obtain ⟨s', out, k1, k⟩ := settle_spec hsq evs st hrd inv.core.out hpend
    simp only at k1
    rw [h1] at h
    simp only [k1] at h
    cases h
    have hmv : u'.todo < u.todo := by
      apply h4
      obtain ⟨gE, gs, hne, hB⟩ := inv.uinv.batch hb
      have hcnt := hB.cnt
      have hgs : 0 < gs.length := List.length_pos_iff.mpr hne
      simp only at hcnt
      cases hkk : r.kernel with
      | error e => exact Or.inr ⟨e, rfl⟩
      | again => rw [hkk] at hr; cases hr
      | sent k =>
        rw [hkk] at hr
        have hk0 : 0 < k := by simpa [SendResp.moves] using hr
        exact Or.inl ⟨_, rfl, by omega, Or.inr (by omega)⟩
    have hk : groupsOf evs + u'.pend.length ≤ u.pend.length := by
      rw [groupsOf_eq, h2.groups, hp]
      have := congrArg List.length hpend
      rw [List.length_append, List.length_map (f := Prod.fst)] at this
      have := lastCount_le (accounted evs)
      omega
    unfold MNearer
    rw [queueEvs_append]
    refine ⟨mleft_lt (by rw [← queueEvs_append]; exact k.st) k.acc k.keep.2 ?_, k.keep.1, k.acc, clean_of_rejected k.clean⟩
    rw [k.fet]
    have hw : (⟨s, u, .sending⟩ : MSt H π).weight = 10 + 8 * u.todo := rfl
    rw [hw]
    have t1 := todo_le u
    have t2 := pend_le u'
    rcases g2 with g2 | ⟨rfl, g2⟩
    · rw [if_pos g2]
      have hlt := mmsgThen_weight s' u' (groupsOf evs) (if u'.busy then .send else .repost)
      have t3 := pend_le u
      have hd : groupsOf evs ≤ 2 * (u.todo - u'.todo) := by
        have := todo_le u'
        omega
      cases hbu : u'.busy with
      | true =>
        rw [hbu] at hlt
        simp only [if_true, mNextWeight] at hlt
        simp only [if_true]
        omega
      | false =>
        rw [hbu] at hlt
        have h0 : u'.todo = 0 := by unfold UdpW.todo; rw [hbu]; rfl
        simp only [Bool.false_eq_true, if_false, mNextWeight] at hlt
        simp only [Bool.false_eq_true, if_false]
        omega
    · rw [if_neg (by simp)]
      show 10 + 8 * u'.todo < _
      omega
  | report k nx =>
    obtain ⟨hr, hf, hk, hn⟩ := hpc
    simp only at hr hf hn
    simp only [MSt.tick] at h
    refine mon_left hsq st h rfl (fun s' ev h => ?_)
    simp only [Sq.step] at h
    rw [if_pos hr] at h
    obtain ⟨kt, -, -, kf, -⟩ := complete_keep h
    obtain ⟨e1, e2, e3, e4, e5, e6, e7, -⟩ := complete_writer h (by omega)
    refine ⟨kf, ?_⟩
    subst e6
    show 2 * (k - 16) + mNextWeight s' u nx + 2 < 40 * 0 + 0 + 0 + (2 * k + mNextWeight s u nx + 1)
    rw [mNextWeight_eq kt e2]
    omega
  | calling k nx =>
    simp only [MSt.tick] at h
    by_cases hc : s.calling = []
    · rw [if_neg (by simpa using hc)] at h
      by_cases hw : s.waking = []
      · rw [if_neg (by simpa using hw)] at h
        exact still (mmsgThen_weight s u k nx) h
      · rw [if_pos hw] at h
        refine mon_left hsq st h rfl (fun s' ev h => ?_)
        simp only [Sq.step] at h
        rw [hc] at h
        split at h
        · cases h
          refine ⟨rfl, ?_⟩
          have hx : ∀ s' : Sq H π, s'.tail = s.tail → s'.wtail = s.wtail → 2 * k + mNextWeight s' u nx + 2 < 40 * 0 + 0 + 1 + (2 * k + mNextWeight s u nx + 2) := by
            intro s' a b
            rw [mNextWeight_eq a b]
            omega
          exact hx _ rfl rfl
        · rename_i hx
          cases hwk : s.waking with
          | nil => exact absurd hwk hw
          | cons f fs => exact absurd hwk (fun hh => hx f fs rfl hh)
    · rw [if_pos hc] at h
      refine mon_left hsq st h rfl (fun s' ev h => ?_)
      simp only [Sq.step] at h
      split at h
      · rename_i he; exact absurd he hc
      · rename_i c r b rest he
        cases h
        refine ⟨rfl, ?_⟩
        have hh := completed_handler st he
        show 2 * k + mNextWeight ({ s with calling := rest } : Sq H π) u nx + 2 < 40 * 0 + (completed [SqEv.handler c r b]).length + 0 + (2 * k + mNextWeight s u nx + 2)
        rw [hh, mNextWeight_eq (s := s) (s' := { s with calling := rest }) rfl rfl]
        show _ < _ + 1 + 0 + _
        omega
  | next nx =>
    obtain ⟨hr, hf, hn⟩ := hpc
    simp only at hr hf hn
    cases nx with
    | send => exact still (by show 10 + 8 * u.todo < 11 + 8 * u.todo; omega) h
    | repost =>
      simp only [MSt.tick] at h
      refine mon_left hsq st h rfl (fun s' ev h => ?_)
      simp only [Sq.step] at h
      rw [if_pos hr] at h
      cases h
      refine ⟨rfl, ?_⟩
      show 7 < 40 * 0 + 0 + 0 + 8
      omega
    | request =>
      simp only [MSt.tick] at h
      simp only at hs
      rw [if_neg (by rw [hs]; simp)] at h
      refine mon_left hsq st h rfl (fun s' ev h => ?_)
      simp only [Sq.step] at h
      rw [if_pos hr] at h
      obtain ⟨hn1, hn2, ha⟩ := hn
      have ho := inv.core.out
      unfold OutIs at ho
      rw [hn2] at ho
      have ho := List.map_eq_nil_iff.1 ho
      simp only at ho
      unfold Sq.request at h
      rw [if_neg (by rw [ho, hf, hs]; simp [ha])] at h
      split at h
      · cases h
        refine ⟨rfl, ?_⟩
        show 0 < 40 * 0 + 0 + 0 + (if s.tail = s.wtail then 2 else 12)
        split <;> omega
      · rename_i ht
        cases h
        refine ⟨rfl, ?_⟩
        show 7 < 40 * 0 + 0 + 0 + (if s.tail = s.wtail then 2 else 12)
        rw [if_neg ht]
        omega

/-! ### Histories -/

theorem mrun_cons {genv : UEnv} {env : WEnv H π} {op : WOp H} {ops : List (WOp H)} {m m' : MSt H π} {ev : List (WEv π)} (h : MSt.run genv env (op :: ops) m = some (m', ev)) :
    ∃ m1 e1 e2, m.step genv env op = some (m1, e1) ∧ MSt.run genv env ops m1 = some (m', e2) ∧ ev = e1 ++ e2 := by
  unfold MSt.run at h
  split at h
  · cases h
  · rename_i w1 e1 h1
    split at h
    · cases h
    · rename_i w2 e2 h2
      cases h
      exact ⟨w1, e1, e2, h1, h2, rfl⟩

theorem mrun_snoc {genv : UEnv} {env : WEnv H π} : ∀ (a : List (WOp H)) {b : List (WOp H)} {w w1 w2 : MSt H π} {e1 e2 : List (WEv π)}, MSt.run genv env a w = some (w1, e1) → MSt.run genv env b w1 = some (w2, e2) →
    MSt.run genv env (a ++ b) w = some (w2, e1 ++ e2)
  | [], b, w, w1, w2, e1, e2, h1, h2 => by cases h1; exact h2
  | op :: a, b, w, w1, w2, e1, e2, h1, h2 => by
    obtain ⟨w3, f1, f2, g1, g2, rfl⟩ := mrun_cons h1
    show MSt.run genv env (op :: (a ++ b)) w = _
    unfold MSt.run
    rw [g1]
    simp only [mrun_snoc a g2 h2, List.append_assoc]

theorem mrun_state {genv : UEnv} {env : WEnv H π} (hv : env.MValid) {all : List (WOp H)} : ∀ (ops : List (WOp H)) {m m' : MSt H π} {tr ev : List (WEv π)} {done held : List ((π × Nat) × Bool)}, (∀ op ∈ ops, op ∈ all) →
    SqState env.sq m.sq (queueEvs tr) → MInv genv env all m tr done held → MSt.run genv env ops m = some (m', ev) → CleanRejects (queueEvs ev) →
    SqState env.sq m'.sq (queueEvs (tr ++ ev)) ∧ (∃ done held, MInv genv env all m' (tr ++ ev) done held) ∧ ∃ sops, Sq.run env.sq sops m.sq = some (m'.sq, queueEvs ev)
  | [], m, m', tr, ev, done, held, _, st, inv, h, _ => by
    cases h
    rw [List.append_nil]
    exact ⟨st, ⟨_, _, inv⟩, [], rfl⟩
  | op :: ops, m, m', tr, ev, done, held, hall, st, inv, h, hc => by
    obtain ⟨w1, e1, e2, h1, h2, rfl⟩ := mrun_cons h
    obtain ⟨w1', e1', h1', ⟨sops, hs⟩, hi⟩ := mstep hv st inv op (hall op List.mem_cons_self)
    rw [h1] at h1'
    cases h1'
    rw [queueEvs_append, clean_append] at hc
    obtain ⟨st1, done1, held1, inv1⟩ := hi hc.1
    obtain ⟨st2, inv2, sops2, hs2⟩ := mrun_state hv ops (fun o ho => hall o (List.mem_cons_of_mem _ ho)) st1 inv1 h2 hc.2
    rw [← List.append_assoc]
    refine ⟨st2, inv2, sops ++ sops2, ?_⟩
    rw [queueEvs_append]
    exact run_snoc hs hs2

theorem minit {genv : UEnv} {env : WEnv H π} {all : List (WOp H)} : SqState env.sq (MSt.new : MSt H π).sq (queueEvs []) ∧ MInv genv env all MSt.new [] [] [] :=
  ⟨init_state _, ⟨rfl, rfl, rfl, rfl, (fun r hr => by cases hr), (fun c hc => by cases hc), (fun a ha => by cases ha)⟩, uinv_init genv, rfl, rfl, rfl, rfl, rfl⟩

theorem mreach_state {genv : UEnv} {env : WEnv H π} (hv : env.MValid) {ops : List (WOp H)} {m : MSt H π} {tr : List (WEv π)} (h : MReach genv env ops m tr) (hc : CleanRejects (queueEvs tr)) :
    SqState env.sq m.sq (queueEvs tr) ∧ (∃ done held, MInv genv env ops m tr done held) ∧ ∃ sops, SqReach env.sq .running sops m.sq (queueEvs tr) :=
  mrun_state hv ops (fun _ h => h) (minit (genv := genv) (all := ops)).1 minit.2 h hc

theorem pend_max {genv : UEnv} {u : UdpW} (h : UInv genv u) : u.pend.length ≤ 64 := by
  unfold UdpW.pend
  split
  · rename_i hb
    obtain ⟨gE, gs, -, hB⟩ := h.batch hb
    have := hB.room
    rw [List.length_drop]
    have : udpMaxBatch = 64 := rfl
    omega
  · exact Nat.zero_le _

theorem held_le {genv : UEnv} {env : WEnv H π} {all : List (WOp H)} {m : MSt H π} {tr : List (WEv π)} {done held : List ((π × Nat) × Bool)} (inv : MInv genv env all m tr done held) : held.length ≤ 64 := by
  have hp := pend_max inv.uinv
  have hnx : ∀ nx, MNextOk env m.sq m.u held nx → held.length ≤ 64 := by
    intro nx h
    cases nx with
    | send => rw [h.2, List.length_map] at hp; exact hp
    | repost => rw [h.2]; exact Nat.zero_le _
    | request => rw [h.2.1]; exact Nat.zero_le _
  have h := inv.pc
  unfold MPcOk at h
  cases hpc : m.pc with
  | rest => rw [hpc] at h; rw [h.2.2.2.2.1]; exact Nat.zero_le _
  | collect acc => rw [hpc] at h; rw [h.2.2.1]; exact Nat.le_of_lt h.2.2.2.1
  | sending => rw [hpc] at h; rw [h.2.2.2, List.length_map] at hp; exact hp
  | report k nx => rw [hpc] at h; exact hnx nx h.2.2.2
  | calling k nx => rw [hpc] at h; exact hnx nx h.2.2
  | next nx => rw [hpc] at h; exact hnx nx h.2.2

end Spead2
