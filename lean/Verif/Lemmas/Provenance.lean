import Verif.Model.Transport
import Verif.Spec.Submit
import Verif.Lemmas.SendWriter
import Verif.Lemmas.Send
import Mathlib.Data.List.Forall2

/-!
# Where accepted groups come from
-/

namespace Spead2
open Spec

variable {H π : Type}

theorem on_kept {env : WEnv H π} {w w' : WSt H π} {op : SqOp H} {pc : WPc π} {more ev : List (WEv π)} (h1 : op ≠ .commit) (h2 : ∀ refs mode, op ≠ .enter refs mode) (h3 : ∀ a b, op ≠ .setCnt a b)
    (hm : queueEvs more = []) (h : w.on env op pc more = some (w', ev)) : w'.sq.sender = w.sq.sender ∧ accepted (queueEvs ev) = [] := by
  unfold WSt.on at h
  split at h
  · cases h
  · rename_i s e hs
    cases h
    have k := step_kept hs h1 (fun r m h => absurd h (h2 r m)) (fun a b h => absurd h (h3 a b))
    exact ⟨k.sender, by rw [queueEvs_append, hm, List.append_nil, queueEvs_sq]; exact k.acc⟩

theorem tick_kept {kind : WKind} {env : WEnv H π} {w w' : WSt H π} {sleepy : Bool} {r : WResp} {ev : List (WEv π)} (h : w.tick kind env sleepy r = some (w', ev)) :
    w'.sq.sender = w.sq.sender ∧ accepted (queueEvs ev) = [] := by
  unfold WSt.tick at h
  split at h
  · split at h
    · exact on_kept (by simp) (by simp) (by simp) rfl h
    · cases h; exact ⟨rfl, rfl⟩
  · split at h
    · cases h; exact ⟨rfl, rfl⟩
    · unfold WSt.got at h
      split at h
      · cases h
      · rename_i s p sub last e hs
        cases h
        have k := step_kept hs (by simp) (by simp) (by simp)
        exact ⟨k.sender, by rw [queueEvs_sq]; exact k.acc⟩
      · rename_i s e _ hs
        cases h
        have k := step_kept hs (by simp) (by simp) (by simp)
        exact ⟨k.sender, by rw [queueEvs_sq]; exact k.acc⟩
  · exact on_kept (by simp) (by simp) (by simp) (queueEvs_wire _ _) h
  · exact on_kept (by simp) (by simp) (by simp) rfl h
  · split at h
    · exact on_kept (by simp) (by simp) (by simp) rfl h
    · split at h
      · exact on_kept (by simp) (by simp) (by simp) rfl h
      · cases h; exact ⟨rfl, rfl⟩
  · cases h; exact ⟨rfl, rfl⟩
  · exact on_kept (by simp) (by simp) (by simp) rfl h
  · split at h
    · cases h; exact ⟨rfl, rfl⟩
    · exact on_kept (by simp) (by simp) (by simp) rfl h

/-- The group is that of a call. -/
def FromCall (env : SqEnv H π) (all : List (WOp H)) (a : Accepted π) : Prop := ∃ refs step next, WOp.caller (.enter refs a.mode) ∈ all ∧ Admits env refs (allot step next refs).1 a.hs

theorem caller_from {env : WEnv H π} (hv : Spec.SqEnv.Valid env.sq) {all : List (WOp H)} {w w' : WSt H π} {op : SqOp H} {tr ev : List (WEv π)} (ho : WOp.caller op ∈ all)
    (st : SqState env.sq w.sq (queueEvs tr)) (hs : ∀ c, w.sq.sender = some c → WOp.caller (.enter c.refs c.mode) ∈ all) (h : w.on env op w.pc [] = some (w', ev)) :
    (∀ c, w'.sq.sender = some c → WOp.caller (.enter c.refs c.mode) ∈ all) ∧ ∀ a ∈ accepted (queueEvs ev), FromCall env.sq all a := by
  have hquiet : w'.sq.sender = w.sq.sender ∧ accepted (queueEvs ev) = [] → (∀ c, w'.sq.sender = some c → WOp.caller (.enter c.refs c.mode) ∈ all) ∧ ∀ a ∈ accepted (queueEvs ev), FromCall env.sq all a := by
    rintro ⟨e1, e2⟩
    rw [e1, e2]
    exact ⟨hs, fun a ha => by cases ha⟩
  cases op with
  | enter refs mode =>
    unfold WSt.on Sq.step at h
    split at h
    · cases h
    · rename_i s e he
      cases h
      simp only at he
      split at he
      · cases he
        exact hquiet ⟨rfl, rfl⟩
      · unfold Sq.enter at he
        split at he
        · cases he
          exact hquiet ⟨rfl, rfl⟩
        · cases he
          refine ⟨fun c hc => ?_, fun a ha => by cases ha⟩
          cases hc
          exact ho
  | commit =>
    cases hse : w.sq.sender with
    | none =>
      apply hquiet
      unfold WSt.on Sq.step Sq.commit at h
      rw [hse] at h
      cases h
      exact ⟨hse ▸ rfl, rfl⟩
    | some c =>
      obtain ⟨⟨old, gl, n, inv⟩, -⟩ := st
      obtain ⟨s', e, k1, k2, -, k3⟩ := commit_spec hv inv hse
      unfold WSt.on at h
      rw [k1] at h
      cases h
      refine ⟨fun c hc => ?_, ?_⟩
      · replace hc : s'.sender = some c := hc
        rw [k2] at hc; cases hc
      · rw [List.append_nil, queueEvs_sq]
        rcases k3 with ⟨hs', rfl, ha, -⟩ | ⟨_, rfl, -⟩ | ⟨_, rfl, -⟩ | ⟨rfl, -⟩
        · intro a hm
          simp only [accepted, List.filterMap_cons, List.filterMap_nil, List.mem_singleton] at hm
          subst hm
          exact ⟨c.refs, _, _, hs c hse, ha⟩
        all_goals intro a hm; simp [accepted] at hm
  | setCnt a b =>
    apply hquiet
    unfold WSt.on Sq.step at h
    cases h
    refine ⟨?_, rfl⟩
    show (w.sq.setCnt a b).sender = _
    unfold Sq.setCnt
    split <;> rfl
  | unwind i => exact hquiet (on_kept (by simp) (by simp) (by simp) rfl h)
  | flush => exact hquiet (on_kept (by simp) (by simp) (by simp) rfl h)
  | dispatch i => exact hquiet (on_kept (by simp) (by simp) (by simp) rfl h)
  | wake => exact hquiet (on_kept (by simp) (by simp) (by simp) rfl h)
  | get => exact hquiet (on_kept (by simp) (by simp) (by simp) rfl h)
  | sent r => exact hquiet (on_kept (by simp) (by simp) (by simp) rfl h)
  | complete k => exact hquiet (on_kept (by simp) (by simp) (by simp) rfl h)
  | call => exact hquiet (on_kept (by simp) (by simp) (by simp) rfl h)
  | notify => exact hquiet (on_kept (by simp) (by simp) (by simp) rfl h)
  | repost => exact hquiet (on_kept (by simp) (by simp) (by simp) rfl h)
  | request => exact hquiet (on_kept (by simp) (by simp) (by simp) rfl h)

theorem wrun_from {kind : WKind} {env : WEnv H π} (hv : Spec.SqEnv.Valid env.sq) (all : List (WOp H)) : ∀ (ops : List (WOp H)), (∀ op ∈ ops, op ∈ all) → ∀ {w w' : WSt H π} {tr ev : List (WEv π)},
    SqState env.sq w.sq (queueEvs tr) → WInv kind env w tr → (∀ c, w.sq.sender = some c → WOp.caller (.enter c.refs c.mode) ∈ all) →
    WSt.run kind env ops w = some (w', ev) → CleanRejects (queueEvs ev) → ∀ a ∈ accepted (queueEvs ev), FromCall env.sq all a
  | [], _, w, w', tr, ev, st, inv, hs, h, _ => by
    cases h
    intro a ha
    cases ha
  | op :: ops, hall, w, w', tr, ev, st, inv, hs, h, hc => by
    obtain ⟨w1, e1, e2, h1, h2, rfl⟩ := wrun_cons h
    obtain ⟨w1', e1', h1', -, hi⟩ := wstep hv st inv op
    rw [h1] at h1'
    cases h1'
    rw [queueEvs_append, clean_append] at hc
    obtain ⟨st1, inv1⟩ := hi hc.1
    have key : (∀ c, w1.sq.sender = some c → WOp.caller (.enter c.refs c.mode) ∈ all) ∧ ∀ a ∈ accepted (queueEvs e1), FromCall env.sq all a := by
      cases op with
      | caller o =>
        unfold WSt.step at h1
        simp only at h1
        split at h1
        · exact caller_from hv (hall _ List.mem_cons_self) st hs h1
        · cases h1
          exact ⟨hs, fun a ha => by cases ha⟩
      | tick sl r =>
        obtain ⟨g1, g2⟩ := tick_kept h1
        rw [g1, g2]
        exact ⟨hs, fun a ha => by cases ha⟩
    have := wrun_from hv all ops (fun o ho => hall o (List.mem_cons_of_mem _ ho)) st1 inv1 key.1 h2 hc.2
    rw [queueEvs_append, accepted_append]
    intro a ha
    rcases List.mem_append.1 ha with h | h
    · exact key.2 a h
    · exact this a h

/-- Every accepted group is that of a call of `async_send_heaps`. -/
theorem accepted_from {kind : WKind} {env : WEnv H π} (hv : Spec.SqEnv.Valid env.sq) {c : Bool} {ops : List (WOp H)} {w : WSt H π} {tr : List (WEv π)} (h : WReach kind env c ops w tr) (hc : CleanRejects (queueEvs tr)) :
    ∀ a ∈ accepted (queueEvs tr), FromCall env.sq ops a := by
  obtain ⟨st0, inv0, e0⟩ := init_writer (kind := kind) (env := env) c
  refine wrun_from hv ops ops (fun _ h => h) st0 inv0 ?_ h hc
  intro k hk
  rw [e0] at hk
  cases hk

/-! ### With the packet generator -/

theorem packetise_ne {mps : Nat} {h : SendHeap} {cnt : Nat} {ps : List GenPacket} (hp : packetise mps h cnt = some ps) : ps ≠ [] := by
  unfold packetise at hp
  split at hp
  · cases hp
  · rename_i g hg
    have hpos : 0 < g.payloadSize := by
      unfold Gen.new at hg
      simp only at hg
      split at hg
      · cases hg
      · split at hg
        · cases hg
        · split at hg
          · cases hg; simp only; omega
          · cases hg; simp only; omega
    rw [Gen.run, if_pos (by simpa [Gen.hasNext] using hpos)] at hp
    split at hp
    · cases hp
    · split at hp
      · cases hp
      · cases hp; simp

theorem packetise_sends {mps : Nat} {h : SendHeap} {cnt w : Nat} {ps : List GenPacket} (hw : h.hab = 8 * w) (hf : Fits h cnt mps) (hp : packetise mps h cnt = some ps) : Sends h cnt mps ps := by
  unfold packetise at hp
  split at hp
  · cases hp
  · rename_i g hg
    obtain ⟨ok, -⟩ := gen_ok h cnt mps g hg w hw hf
    obtain ⟨pkts, st', parts, hr, hend, -⟩ := run_spec g w ok (g.payloadSize + 1) {} (GInv.init g w ok) (by simp)
    rw [hr] at hp
    cases hp
    exact ⟨g, _, st', hg, hr, hend⟩

theorem packetEnv_valid {size mask substreams mps : Nat} (hq : queueMask size = some mask) : (packetEnv size mask substreams mps).Valid :=
  ⟨⟨hq, fun _ _ _ h => packetise_ne h⟩, fun _ => rfl⟩

/-- The heaps of an accepted group. -/
theorem admits_heaps {env : SqEnv SendHeap GenPacket} {mps : Nat} (hg : env.gen = packetise mps) : ∀ {refs : List (SendRef SendHeap)} {cnts : List Nat} {hs : List (Admitted GenPacket)}, Admits env refs cnts hs →
    (∀ r ∈ refs, r.bits = r.heap.hab ∧ Faithful mps r.heap) → (∀ (i : Nat) (r : SendRef SendHeap) (c : Nat), refs[i]? = some r → cnts[i]? = some c → c < 2 ^ r.bits) →
    ∃ xs : List Sent, xs.map Sent.heap = refs.map SendRef.heap ∧ xs.map Sent.cnt = hs.map Admitted.cnt ∧ xs.map Sent.pkts = hs.map Admitted.pkts ∧
      hs.map Admitted.substream = refs.map SendRef.substream ∧ xs.map Sent.cnt = cnts ∧ (∀ x ∈ xs, x.mps = mps ∧ x.width = x.heap.hab / 8 ∧ x.Ok ∧ Faithful mps x.heap)
  | [], [], [], _, _, _ => ⟨[], rfl, rfl, rfl, rfl, rfl, fun _ h => by cases h⟩
  | [], [], _ :: _, ha, _, _ => ha.elim
  | [], _ :: _, _, ha, _, _ => ha.elim
  | _ :: _, [], _, ha, _, _ => ha.elim
  | _ :: _, _ :: _, [], ha, _, _ => ha.elim
  | r :: refs, c :: cnts, h :: hs, ha, hf, hc => by
    obtain ⟨⟨-, a2, a3, a4⟩, ha'⟩ := ha
    obtain ⟨xs, k1, k2, k3, k4, k5, k6⟩ := admits_heaps hg ha' (fun r hr => hf r (List.mem_cons_of_mem _ hr)) (fun i r c h1 h2 => hc (i + 1) r c h1 h2)
    obtain ⟨f1, f2⟩ := hf r List.mem_cons_self
    have hlt := hc 0 r c rfl rfl
    rw [f1] at hlt
    have fits := f2.fits c hlt
    obtain ⟨w, -, -, hw⟩ := fits.width
    rw [hg] at a2
    have e8 : r.heap.hab / 8 = w := by omega
    refine ⟨⟨r.heap, c, mps, r.heap.hab / 8, h.pkts⟩ :: xs, by rw [List.map_cons, List.map_cons, k1], by rw [List.map_cons, List.map_cons, k2, a3], by rw [List.map_cons, List.map_cons, k3],
      by rw [List.map_cons, List.map_cons, k4, a4], by rw [List.map_cons, k5], ?_⟩
    intro x hx
    rcases List.mem_cons.1 hx with rfl | hx
    · refine ⟨rfl, rfl, ⟨?_, fits, f2.ids, packetise_sends hw fits a2, f2.payload⟩, f2⟩
      show r.heap.hab = 8 * (r.heap.hab / 8)
      omega
    · exact k6 x hx

theorem allot_explicit {H : Type} {step : Nat} : ∀ {next : Nat} {refs : List (SendRef H)} {i : Nat} {r : SendRef H} {c : Nat}, refs[i]? = some r → r.cnt = some c → (allot step next refs).1[i]? = some c
  | _, [], i, _, _, h, _ => by simp at h
  | next, q :: refs, 0, r, c, h, hc => by
    cases h
    rw [allot, hc]
    rfl
  | next, q :: refs, i + 1, r, c, h, hc => by
    rw [List.getElem?_cons_succ] at h
    rw [allot]
    cases q.cnt with
    | some d => simpa using allot_explicit h hc
    | none => simpa using allot_explicit h hc

theorem allot_lt {env : SqEnv H π} {step : Nat} : ∀ {next : Nat} {refs : List (SendRef H)} {hs : List (Admitted π)}, Admits env refs (allot step next refs).1 hs →
    ∀ (i : Nat) (r : SendRef H) (c : Nat), refs[i]? = some r → (allot step next refs).1[i]? = some c → c < 2 ^ r.bits
  | _, [], hs, _, i, r, c, h, _ => by simp at h
  | next, q :: refs, hs, ha, i, r, c, h, hc => by
    rw [allot] at ha hc
    cases hq : q.cnt with
    | some d =>
      rw [hq] at ha hc
      cases hs with
      | nil => exact ha.elim
      | cons x hs =>
        cases i with
        | zero => cases h; cases hc; exact ha.1.1.2 _ hq
        | succ i => exact allot_lt ha.2 i r c h hc
    | none =>
      rw [hq] at ha hc
      cases hs with
      | nil => exact ha.elim
      | cons x hs =>
        cases i with
        | zero => cases h; cases hc; exact Nat.mod_lt _ (Nat.two_pow_pos _)
        | succ i => exact allot_lt ha.2 i r c h hc

/-- The group of heaps of an accepted group. -/
theorem from_submitted {ops : List (WOp SendHeap)} {env : SqEnv SendHeap GenPacket} {mps : Nat} (hg : env.gen = packetise mps) (hf : FaithfulCalls mps ops) {a : Accepted GenPacket} (h : FromCall env ops a) :
    ∃ g, Submitted ops mps a g ∧ ∀ x ∈ g.heaps, x.Ok ∧ Faithful mps x.heap := by
  obtain ⟨refs, step, next, hm, ha⟩ := h
  obtain ⟨xs, k1, k2, k3, k4, k5, k6⟩ := admits_heaps hg ha (hf refs _ hm) (allot_lt ha)
  refine ⟨⟨a.mode, xs⟩, ⟨refs, hm, rfl, k1, k2, k3, k4, fun i r c h1 h2 => ?_, fun x hx => ⟨(k6 x hx).1, (k6 x hx).2.1⟩⟩, fun x hx => (k6 x hx).2.2⟩
  show (xs.map Sent.cnt)[i]? = some c
  rw [k5]
  exact allot_explicit h1 h2

theorem forall_choose {α β : Type} {P : α → β → Prop} : ∀ (l : List α), (∀ a ∈ l, ∃ b, P a b) → ∃ m, List.Forall₂ P l m
  | [], _ => ⟨[], .nil⟩
  | a :: l, h => by
    obtain ⟨b, hb⟩ := h a List.mem_cons_self
    obtain ⟨m, hm⟩ := forall_choose l (fun a ha => h a (List.mem_cons_of_mem _ ha))
    exact ⟨b :: m, .cons hb hm⟩

end Spead2
