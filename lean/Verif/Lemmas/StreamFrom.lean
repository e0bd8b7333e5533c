import Verif.Lemmas.StreamAccount

/-!
# Where the packets of a heap come from

Any property of all presented packets holds of all packets of all heaps.
-/

namespace Spead2
open Spec

/-- Every packet of every live heap satisfies `P`. -/
def LiveFrom (P : Pkt → Prop) (a : AStream) : Prop := ∀ r ∈ a.live, ∀ q ∈ r.entry.pkts, P q
/-- Every packet of every heap handed over satisfies `P`. -/
def OutFrom (P : Pkt → Prop) (l : List Entry) : Prop := ∀ e ∈ l, ∀ q ∈ e.pkts, P q

theorem deliver_from {P : Pkt → Prop} {cfg : StreamConfig} {a : AStream} {ev : List Entry} {r : LiveRec} {p : Pkt} {res : AResult}
    (h : a.deliver cfg ev r p = some res) (hl : LiveFrom P a) (he : OutFrom P ev) (hr : ∀ q ∈ r.entry.pkts, P q) (hp : P p) :
    LiveFrom P res.stream ∧ OutFrom P (res.evicted ++ res.completed) := by
  unfold AStream.deliver at h
  cases hx : r.entry.heap.addPacket p cfg.allowOoo with
  | none => rw [hx] at h; simp at h
  | some x =>
    obtain ⟨h', b⟩ := x
    rw [hx] at h
    simp only at h
    have hnew : ∀ q ∈ r.entry.pkts ++ [p], P q := by
      intro q hq
      rcases List.mem_append.1 hq with hq | hq
      · exact hr q hq
      · rw [List.mem_singleton.1 hq]; exact hp
    split at h
    · simp only [Option.some.injEq] at h; subst h
      refine ⟨fun y hy => hl y ((List.mem_filter.1 hy).1), ?_⟩
      intro e hee
      rcases List.mem_append.1 hee with hee | hee
      · exact he e hee
      · simp only at hee
        split at hee
        · simp at hee
        · rw [List.mem_singleton.1 hee]; exact hnew
    · simp only [Option.some.injEq] at h; subst h
      refine ⟨fun y hy => ?_, fun e hee => he e (by simpa using hee)⟩
      obtain ⟨z, hz, rfl⟩ := List.mem_map.1 hy
      split
      · exact hnew
      · exact hl z hz

theorem addPacket_from {P : Pkt → Prop} {cfg : StreamConfig} {a : AStream} {p : Pkt} {res : AResult} (h : a.addPacket cfg p = some res)
    (hl : LiveFrom P a) (hp : P p) : LiveFrom P res.stream ∧ OutFrom P (res.evicted ++ res.completed) := by
  unfold AStream.addPacket at h
  by_cases hu : p.heapLength = none ∧ cfg.allowUnsized = false
  · rw [if_pos hu] at h; simp only [Option.some.injEq] at h; subst h; exact ⟨hl, fun e he => by simp at he⟩
  · rw [if_neg hu] at h
    cases hf : a.find p with
    | some r =>
      rw [hf] at h
      refine deliver_from h hl (fun e he => by simp at he) (hl r ?_) hp
      unfold AStream.find at hf
      split at hf
      · cases hf
      · exact List.mem_of_find?_eq_some hf
    | none =>
      rw [hf] at h
      simp only at h
      by_cases ho : cfg.allowOoo = false ∧ p.payloadOffset ≠ 0
      · rw [if_pos ho] at h; simp only [Option.some.injEq] at h; subst h; exact ⟨hl, fun e he => by simp at he⟩
      · rw [if_neg ho] at h
        have hnil : ∀ q ∈ (a.startHeap cfg p).2.entry.pkts, P q := by intro q hq; simp [AStream.startHeap] at hq
        refine deliver_from h ?_ ?_ hnil hp
        · intro y hy
          rcases List.mem_cons.1 hy with rfl | hy
          · exact hnil
          · exact hl y (evict_mem hy).1
        · intro e he
          obtain ⟨v, hv, rfl⟩ := List.mem_map.1 he
          rw [Option.mem_toList] at hv
          exact hl v (List.mem_of_find?_eq_some hv)

theorem handedOver_events (p : Pkt) (r : AResult) : handedOver (r.events p) = r.evicted ++ r.completed := by
  unfold handedOver AResult.events
  rw [List.filterMap_cons, List.filterMap_append]
  simp only [Ev.heap?, List.filterMap_map]
  rw [show (Ev.heap? ∘ Ev.evicted) = some from rfl, show (Ev.heap? ∘ Ev.completed) = some from rfl, List.filterMap_some, List.filterMap_some]

theorem handedOver_flushed (l : List Entry) : handedOver (l.map Ev.flushed) = l := by
  unfold handedOver
  rw [List.filterMap_map, show (Ev.heap? ∘ Ev.flushed) = some from rfl, List.filterMap_some]

theorem OutFrom.append {P : Pkt → Prop} {l l' : List Entry} (h : OutFrom P l) (h' : OutFrom P l') : OutFrom P (l ++ l') := by
  intro e he
  rcases List.mem_append.1 he with he | he
  · exact h e he
  · exact h' e he

theorem packets_from {P : Pkt → Prop} {cfg : StreamConfig} : ∀ {ops : List BatchOp} {a a' : AStream} {t : List Ev} {e : Bool},
    AStream.packets cfg ops a = some (a', t, e) → LiveFrom P a → (∀ p, BatchOp.packet p ∈ ops → P p) →
    LiveFrom P a' ∧ OutFrom P (handedOver t)
  | [], a, a', t, e, h, hl, _ => by
    simp only [AStream.packets, Option.some.injEq, Prod.mk.injEq] at h; obtain ⟨rfl, rfl, _⟩ := h
    exact ⟨hl, fun e he => by simp [handedOver] at he⟩
  | .stop :: _, a, a', t, e, h, hl, _ => by
    simp only [AStream.packets, Option.some.injEq, Prod.mk.injEq] at h; obtain ⟨rfl, rfl, _⟩ := h
    exact ⟨hl, fun e he => by simp [handedOver] at he⟩
  | .packet p :: ops, a, a', t, e, h, hl, hp => by
    rw [AStream.packets] at h
    cases hx : a.addPacket cfg p with
    | none => rw [hx] at h; simp at h
    | some r =>
      rw [hx] at h
      simp only at h
      have h1 := addPacket_from hx hl (hp p List.mem_cons_self)
      by_cases he : r.ended = true
      · rw [if_pos he] at h
        simp only [Option.some.injEq, Prod.mk.injEq] at h
        obtain ⟨rfl, rfl, _⟩ := h
        rw [handedOver_events]
        exact h1
      · rw [if_neg he] at h
        cases hr : AStream.packets cfg ops r.stream with
        | none => rw [hr] at h; simp at h
        | some x =>
          obtain ⟨a2, t2, e2⟩ := x
          rw [hr] at h
          simp only [Option.some.injEq, Prod.mk.injEq] at h
          obtain ⟨rfl, rfl, _⟩ := h
          have h2 := packets_from hr h1.1 (fun q hq => hp q (List.mem_cons_of_mem _ hq))
          refine ⟨h2.1, ?_⟩
          rw [show handedOver (r.events p ++ t2) = handedOver (r.events p) ++ handedOver t2 from List.filterMap_append, handedOver_events]
          exact h1.2.append h2.2

theorem flushed_from {P : Pkt → Prop} {cfg : StreamConfig} {a : AStream} (hl : LiveFrom P a) : OutFrom P (a.flushed cfg) := by
  intro e he
  unfold AStream.flushed at he
  obtain ⟨i, _, he⟩ := List.mem_flatMap.1 he
  obtain ⟨r, hr, rfl⟩ := List.mem_map.1 he
  exact hl r ((List.mem_filter.1 (List.mem_reverse.1 hr)).1)

theorem step_from {P : Pkt → Prop} {cfg : StreamConfig} {a a' : AStream} {op : StreamOp} {t : List Ev} (h : a.step cfg op = some (a', t))
    (hl : LiveFrom P a) (hp : ∀ p ∈ presented [op], P p) : LiveFrom P a' ∧ OutFrom P (handedOver t) := by
  have hbe : ∀ n e, handedOver (batchEvent n e) = [] := by
    intro n e; unfold batchEvent; split <;> rfl
  cases op with
  | flush =>
    simp only [AStream.step, Option.some.injEq, Prod.mk.injEq] at h
    obtain ⟨rfl, rfl⟩ := h
    exact ⟨fun r hr => by simp [AStream.clear] at hr, by rw [handedOver_flushed]; exact flushed_from hl⟩
  | stop =>
    simp only [AStream.step] at h
    split at h
    · simp only [Option.some.injEq, Prod.mk.injEq] at h
      obtain ⟨rfl, rfl⟩ := h
      exact ⟨hl, fun e he => by simp [handedOver] at he⟩
    · simp only [Option.some.injEq, AStream.halt, Prod.mk.injEq] at h
      obtain ⟨rfl, rfl⟩ := h
      exact ⟨fun r hr => by simp at hr, by rw [handedOver_flushed]; exact flushed_from hl⟩
  | batch ops =>
    have hp' : ∀ p, BatchOp.packet p ∈ ops → P p := by
      intro p hpm
      apply hp
      simp only [presented, List.flatMap_cons, List.flatMap_nil, List.append_nil, batchPackets, List.mem_filterMap]
      exact ⟨_, hpm, rfl⟩
    simp only [AStream.step] at h
    split at h
    · simp only [Option.some.injEq, Prod.mk.injEq] at h
      obtain ⟨rfl, rfl⟩ := h
      exact ⟨hl, fun e he => by simp [handedOver] at he⟩
    · split at h
      · cases h
      · rename_i a1 t1 hx
        simp only [Option.some.injEq, Prod.mk.injEq] at h
        obtain ⟨rfl, rfl⟩ := h
        have h2 := packets_from hx hl hp'
        refine ⟨h2.1, ?_⟩
        rw [show handedOver (t1 ++ batchEvent (packetCount t1) false) = handedOver t1 ++ handedOver (batchEvent (packetCount t1) false) from List.filterMap_append,
          hbe, List.append_nil]
        exact h2.2
      · rename_i a1 t1 hx
        simp only [Option.some.injEq, Prod.mk.injEq] at h
        obtain ⟨rfl, rfl⟩ := h
        have h2 := packets_from hx hl hp'
        refine ⟨fun r hr => by simp [AStream.halt] at hr, ?_⟩
        rw [show handedOver (t1 ++ (a1.halt cfg).2 ++ batchEvent (packetCount t1) true) =
          handedOver t1 ++ handedOver (a1.halt cfg).2 ++ handedOver (batchEvent (packetCount t1) true) from by
            unfold handedOver; rw [List.filterMap_append, List.filterMap_append],
          hbe, List.append_nil]
        refine h2.2.append ?_
        simp only [AStream.halt, handedOver_flushed]
        exact flushed_from h2.1

theorem run_from {P : Pkt → Prop} {cfg : StreamConfig} : ∀ {ops : List StreamOp} {a a' : AStream} {t : List Ev},
    AStream.run cfg ops a = some (a', t) → LiveFrom P a → (∀ p ∈ presented ops, P p) → LiveFrom P a' ∧ OutFrom P (handedOver t)
  | [], a, a', t, h, hl, _ => by
    simp only [AStream.run, Option.some.injEq, Prod.mk.injEq] at h
    obtain ⟨rfl, rfl⟩ := h
    exact ⟨hl, fun e he => by simp [handedOver] at he⟩
  | op :: ops, a, a', t, h, hl, hp => by
    rw [AStream.run] at h
    cases hs : a.step cfg op with
    | none => rw [hs] at h; cases h
    | some x =>
      obtain ⟨a1, t1⟩ := x
      rw [hs] at h
      simp only at h
      cases hr : AStream.run cfg ops a1 with
      | none => rw [hr] at h; cases h
      | some y =>
        obtain ⟨a2, t2⟩ := y
        rw [hr] at h
        simp only [Option.some.injEq, Prod.mk.injEq] at h
        obtain ⟨rfl, rfl⟩ := h
        have hsplit : presented (op :: ops) = presented [op] ++ presented ops := by
          simp only [presented, List.flatMap_cons, List.flatMap_nil, List.append_nil]
        rw [hsplit] at hp
        have h1 := step_from hs hl (fun p hq => hp p (List.mem_append_left _ hq))
        have h2 := run_from hr h1.1 (fun p hq => hp p (List.mem_append_right _ hq))
        refine ⟨h2.1, ?_⟩
        rw [show handedOver (t1 ++ t2) = handedOver t1 ++ handedOver t2 from List.filterMap_append]
        exact h1.2.append h2.2

end Spead2
