import Verif.Lemmas.Provenance
import Verif.Lemmas.Quiet
import Verif.Lemmas.Framing
import Verif.Props.SendWriter

/-!
# From accepted groups to a receiver
-/

namespace Spead2
open Spec

theorem wire_of {g : SentGroup} {mode : GroupMode} {hs : List (Admitted GenPacket)} (h1 : g.mode = mode) (h2 : g.heaps.map Sent.pkts = hs.map Admitted.pkts) : (groupPackets mode hs).map (fun x => x.1.bytes) = g.wire := by
  have e : hs.map (fun h => (h.pkts.map (fun p => (p, h.substream))).map (fun x => x.1.bytes)) = g.heaps.map Sent.wire := by
    have : hs.map (fun h => (h.pkts.map (fun p => (p, h.substream))).map (fun x => x.1.bytes)) = (hs.map Admitted.pkts).map (fun l => l.map GenPacket.bytes) := by
      simp only [List.map_map]
      apply List.map_congr_left
      intro x _
      simp only [Function.comp_apply, List.map_map]
      rfl
    rw [this, ← h2, List.map_map]
    rfl
  unfold groupPackets SentGroup.wire
  rw [h1]
  cases mode with
  | serial =>
    simp only
    rw [List.map_flatten, List.map_map, ← e]
    rfl
  | roundRobin =>
    simp only
    rw [← roundRobin_map, List.map_map, ← e]
    rfl

theorem submitted_packets {ops : List (WOp SendHeap)} {mps : Nat} {a : Accepted GenPacket} {g : SentGroup} (h : Submitted ops mps a g) : a.packets.map (fun x => x.1.bytes) = g.wire := by
  obtain ⟨refs, -, h1, -, -, h2, -⟩ := h
  exact wire_of h1 h2

theorem submitted_all {ops : List (WOp SendHeap)} {mps : Nat} : ∀ {as : List (Accepted GenPacket)} {gs : List SentGroup}, List.Forall₂ (Submitted ops mps) as gs →
    (as.flatMap Accepted.packets).map (fun x => x.1.bytes) = gs.flatMap SentGroup.wire
  | _, _, .nil => rfl
  | _, _, .cons h t => by rw [List.flatMap_cons, List.flatMap_cons, List.map_append, submitted_packets h, submitted_all t]

theorem submitted_cnts {ops : List (WOp SendHeap)} {mps : Nat} : ∀ {as : List (Accepted GenPacket)} {gs : List SentGroup}, List.Forall₂ (Submitted ops mps) as gs →
    gs.flatMap SentGroup.cnts = as.flatMap (fun a => a.hs.map Admitted.cnt)
  | _, _, .nil => rfl
  | _, _, .cons h t => by
    obtain ⟨refs, -, -, -, h1, -⟩ := h
    rw [List.flatMap_cons, List.flatMap_cons, h1, submitted_cnts t]

theorem forall₂_right {α β : Type} {P : α → β → Prop} : ∀ {l : List α} {m : List β}, List.Forall₂ P l m → ∀ b ∈ m, ∃ a ∈ l, P a b
  | _, _, .nil, b, hb => by cases hb
  | _, _, .cons h t, b, hb => by
    rcases List.mem_cons.1 hb with rfl | hb
    · exact ⟨_, List.mem_cons_self, h⟩
    · obtain ⟨a, ha, hp⟩ := forall₂_right t b hb
      exact ⟨a, List.mem_cons_of_mem _ ha, hp⟩

theorem forall₂_and {α β : Type} {P Q : α → β → Prop} : ∀ {l : List α} {m : List β}, List.Forall₂ (fun a b => P a b ∧ Q a b) l m → List.Forall₂ P l m ∧ List.Forall₂ Q l m
  | _, _, .nil => ⟨.nil, .nil⟩
  | _, _, .cons h t => ⟨.cons h.1 (forall₂_and t).1, .cons h.2 (forall₂_and t).2⟩

theorem submitted_groups {ops : List (WOp SendHeap)} {env : SqEnv SendHeap GenPacket} {mps : Nat} (hg : env.gen = packetise mps) (hf : FaithfulCalls mps ops) (as : List (Accepted GenPacket))
    (h : ∀ a ∈ as, FromCall env ops a) : ∃ gs, List.Forall₂ (Submitted ops mps) as gs ∧ ∀ x ∈ gs.flatMap SentGroup.heaps, x.Ok ∧ Faithful mps x.heap := by
  obtain ⟨gs, hgs⟩ := forall_choose as (fun a ha => from_submitted hg hf (h a ha))
  obtain ⟨h1, h2⟩ := forall₂_and hgs
  refine ⟨gs, h1, fun x hx => ?_⟩
  obtain ⟨g, hg, hx⟩ := List.mem_flatMap.1 hx
  obtain ⟨a, -, hp⟩ := forall₂_right h2 g hg
  exact hp x hx

theorem submitted_deliverable {cfg : StreamConfig} {ops : List (WOp SendHeap)} {mps : Nat} {as : List (Accepted GenPacket)} {gs : List SentGroup} (h : List.Forall₂ (Submitted ops mps) as gs) (hr : Receivable cfg ops as) :
    Deliverable cfg gs where
  distinct := by rw [submitted_cnts h]; exact hr.distinct
  few := by
    intro g hg hm
    obtain ⟨a, ha, refs, -, h1, -, h2, -⟩ := forall₂_right h g hg
    rw [h1] at hm
    have := hr.few a ha hm
    rw [← List.length_map (f := Sent.cnt)]
    have e : g.heaps.map Sent.cnt = a.hs.map Admitted.cnt := h2
    rw [e, List.length_map]
    exact this
  nostop := by
    intro hs g hg x hx
    obtain ⟨a, ha, refs, h0, h1, h3, -, -, -, -, h4⟩ := forall₂_right h g hg
    have : x.heap ∈ refs.map SendRef.heap := by rw [← h3]; exact List.mem_map_of_mem hx
    obtain ⟨r, hr', he⟩ := List.mem_map.1 this
    rw [(h4 x hx).2, ← he]
    exact hr.nostop hs refs a.mode h0 r hr'

end Spead2
