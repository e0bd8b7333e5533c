import Verif.Spec.Delivery
import Verif.Lemmas.RoundRobin
import Verif.Lemmas.Framing

/-!
# Groups of heaps that arrive in order
-/

namespace Spead2
open Spec

/-! ### Round robin -/

theorem rrRow_none {α : Type} (p : α → Bool) {ls : List (List α)} (h : ∀ l ∈ ls, ∀ a ∈ l, p a = false) (k : Nat) : (rrRow ls k).filter p = [] := by
  rw [List.filter_eq_nil_iff]
  intro a ha
  obtain ⟨l, hl, hla⟩ := List.mem_filterMap.1 ha
  rw [h l hl a (List.mem_of_getElem? hla)]
  decide

theorem rrRow_pick {α : Type} (p : α → Bool) {A B : List (List α)} {l : List α} (hl : ∀ a ∈ l, p a = true) (hA : ∀ m ∈ A, ∀ a ∈ m, p a = false) (hB : ∀ m ∈ B, ∀ a ∈ m, p a = false) (k : Nat) :
    (rrRow (A ++ l :: B) k).filter p = l[k]?.toList := by
  rw [rrRow_append, List.filter_append, rrRow_none p hA, List.nil_append]
  unfold rrRow
  rw [List.filterMap_cons]
  cases hk : l[k]? with
  | none => exact rrRow_none p hB k
  | some a =>
    simp only
    rw [List.filter_cons, if_pos (hl a (List.mem_of_getElem? hk))]
    show a :: _ = [a]
    have := rrRow_none p hB k
    unfold rrRow at this
    rw [this]

theorem range_getElem {α : Type} : ∀ (l : List α) (n : Nat), l.length ≤ n → (List.range n).flatMap (fun k => l[k]?.toList) = l
  | [], n, _ => by simp
  | a :: l, 0, h => by simp at h
  | a :: l, n + 1, h => by
    rw [List.range_succ_eq_map, List.flatMap_cons, List.flatMap_map]
    simp only [List.getElem?_cons_zero, Option.toList_some, Nat.succ_eq_add_one, List.getElem?_cons_succ]
    rw [range_getElem l n (by simp at h; omega)]
    rfl

theorem longest_le {α : Type} {ls : List (List α)} {l : List α} (h : l ∈ ls) : l.length ≤ longest ls := by
  induction ls with
  | nil => simp at h
  | cons m ls ih =>
    rw [longest_cons]
    rcases List.mem_cons.1 h with rfl | h
    · omega
    · have := ih h; omega

theorem filter_flatMap' {α β : Type} (p : β → Bool) (f : α → List β) (l : List α) : (l.flatMap f).filter p = l.flatMap (fun a => (f a).filter p) := by
  induction l with
  | nil => rfl
  | cons a l ih => rw [List.flatMap_cons, List.filter_append, ih, List.flatMap_cons]

theorem roundRobin_pick {α : Type} (p : α → Bool) {A B : List (List α)} {l : List α} (hl : ∀ a ∈ l, p a = true) (hA : ∀ m ∈ A, ∀ a ∈ m, p a = false) (hB : ∀ m ∈ B, ∀ a ∈ m, p a = false) :
    (roundRobin (A ++ l :: B)).filter p = l := by
  unfold roundRobin
  rw [filter_flatMap']
  rw [show (fun k : Nat => ((A ++ l :: B).filterMap (fun l => l[k]?)).filter p) = (fun k => l[k]?.toList) from funext (fun k => rrRow_pick p hl hA hB k)]
  exact range_getElem l _ (longest_le (by simp))

theorem flatten_none {α : Type} (p : α → Bool) {ls : List (List α)} (h : ∀ l ∈ ls, ∀ a ∈ l, p a = false) : ls.flatten.filter p = [] := by
  rw [List.filter_eq_nil_iff]
  intro a ha
  obtain ⟨l, hl, hla⟩ := List.mem_flatten.1 ha
  rw [h l hl a hla]
  decide

theorem flatten_pick {α : Type} (p : α → Bool) {A B : List (List α)} {l : List α} (hl : ∀ a ∈ l, p a = true) (hA : ∀ m ∈ A, ∀ a ∈ m, p a = false) (hB : ∀ m ∈ B, ∀ a ∈ m, p a = false) :
    (A ++ l :: B).flatten.filter p = l := by
  rw [List.flatten_append, List.flatten_cons, List.filter_append, List.filter_append, flatten_none p hA, flatten_none p hB, List.nil_append, List.append_nil, List.filter_eq_self.2 hl]

theorem mem_roundRobin {α : Type} {ls : List (List α)} {a : α} : a ∈ roundRobin ls ↔ ∃ l ∈ ls, a ∈ l := by
  unfold roundRobin
  rw [List.mem_flatMap]
  constructor
  · rintro ⟨k, -, hk⟩
    obtain ⟨l, hl, hla⟩ := List.mem_filterMap.1 hk
    exact ⟨l, hl, List.mem_of_getElem? hla⟩
  · rintro ⟨l, hl, hla⟩
    obtain ⟨k, hk, hka⟩ := List.mem_iff_getElem.1 hla
    have := longest_le hl
    exact ⟨k, List.mem_range.2 (by omega), List.mem_filterMap.2 ⟨l, hl, by rw [List.getElem?_eq_getElem hk, hka]⟩⟩

theorem roundRobin_map {α β : Type} (f : α → β) (ls : List (List α)) : roundRobin (ls.map (List.map f)) = (roundRobin ls).map f := by
  have hlong : longest (ls.map (List.map f)) = longest ls := by
    induction ls with
    | nil => rfl
    | cons l ls ih => rw [List.map_cons, longest_cons, longest_cons, ih, List.length_map]
  unfold roundRobin
  rw [hlong, List.map_flatMap]
  congr 1
  funext k
  rw [List.filterMap_map, List.map_filterMap]
  congr 1
  funext l
  simp

theorem mem_wire {g : SentGroup} {d : Bytes} : d ∈ g.wire ↔ ∃ x ∈ g.heaps, d ∈ x.wire := by
  unfold SentGroup.wire
  split
  · rw [List.mem_flatten]
    constructor
    · rintro ⟨l, hl, hd⟩
      obtain ⟨x, hx, rfl⟩ := List.mem_map.1 hl
      exact ⟨x, hx, hd⟩
    · rintro ⟨x, hx, hd⟩
      exact ⟨_, List.mem_map_of_mem hx, hd⟩
  · rw [mem_roundRobin]
    constructor
    · rintro ⟨l, hl, hd⟩
      obtain ⟨x, hx, rfl⟩ := List.mem_map.1 hl
      exact ⟨x, hx, hd⟩
    · rintro ⟨x, hx, hd⟩
      exact ⟨_, List.mem_map_of_mem hx, hd⟩

/-! ### Arrival -/

theorem wire_cnt {x y : Sent} (hx : x.Ok) (hy : y.Ok) {d : Bytes} (h1 : d ∈ x.wire) (h2 : d ∈ y.wire) : x.cnt = y.cnt := by
  obtain ⟨S, r⟩ := hx.rx
  obtain ⟨S', r'⟩ := hy.rx
  rw [← r.cnt h1, ← r'.cnt h2]

theorem wire_nodup {x : Sent} (hx : x.Ok) : x.wire.Nodup := by
  obtain ⟨S, r⟩ := hx.rx
  have := r.sp.nodup
  rw [← r.wire] at this
  exact List.Pairwise.of_map recvOr (fun a b h he => h (he ▸ rfl)) this

/-- The elements between two others are in the segment that those are in. -/
theorem segment {α : Type} {A G B l1 l2 l3 : List α} {d1 d2 : α} (h : A ++ G ++ B = l1 ++ d1 :: l2 ++ d2 :: l3) (h1 : d1 ∉ A) (h2 : d2 ∉ B) : ∀ d ∈ l2, d ∈ G := by
  intro d hd
  rw [List.append_assoc, List.append_assoc] at h
  have key : ∃ a, l1 = A ++ a ∧ G ++ B = a ++ (d1 :: l2 ++ d2 :: l3) := by
    rcases List.append_eq_append_iff.1 h with ⟨a, ha1, ha2⟩ | ⟨c, hc1, hc2⟩
    · exact ⟨a, ha1, ha2⟩
    · cases c with
      | nil => exact ⟨[], by simpa using hc1.symm, by simpa using hc2.symm⟩
      | cons z c =>
        exfalso
        rw [List.cons_append, List.cons_append, List.cons.injEq] at hc2
        apply h1
        rw [hc1, hc2.1]
        simp
  obtain ⟨a, -, ha⟩ := key
  rw [show a ++ (d1 :: l2 ++ d2 :: l3) = (a ++ d1 :: l2) ++ d2 :: l3 by simp] at ha
  rcases List.append_eq_append_iff.1 ha with ⟨c, hc1, hc2⟩ | ⟨c, hc1, hc2⟩
  · exfalso
    apply h2
    rw [hc2]; simp
  · rw [hc1]; simp [hd]

section
variable {cfg : StreamConfig} {gs : List SentGroup}

theorem mem_cnts {gs : List SentGroup} {x : Sent} (h : x ∈ gs.flatMap SentGroup.heaps) : x.cnt ∈ gs.flatMap SentGroup.cnts := by
  obtain ⟨g, hg, hx⟩ := List.mem_flatMap.1 h
  exact List.mem_flatMap.2 ⟨g, hg, List.mem_map_of_mem hx⟩

theorem flatMap_cnts (gs : List SentGroup) : gs.flatMap SentGroup.cnts = (gs.flatMap SentGroup.heaps).map Sent.cnt := by
  rw [List.map_flatMap]; rfl

/-- The heap `x` of group `g`, among the groups. -/
structure WirePlace (gs G1 G2 : List SentGroup) (g : SentGroup) (H1 H2 : List Sent) (x : Sent) : Prop where
  groups : gs = G1 ++ g :: G2
  heaps : g.heaps = H1 ++ x :: H2

theorem place {gs : List SentGroup} {x : Sent} (h : x ∈ gs.flatMap SentGroup.heaps) : ∃ G1 G2 g H1 H2, WirePlace gs G1 G2 g H1 H2 x := by
  obtain ⟨g, hg, hx⟩ := List.mem_flatMap.1 h
  obtain ⟨G1, G2, h1⟩ := List.append_of_mem hg
  obtain ⟨H1, H2, h2⟩ := List.append_of_mem hx
  exact ⟨G1, G2, g, H1, H2, h1, h2⟩

/-- Other heaps have other cnts. -/
theorem WirePlace.apart {G1 G2 : List SentGroup} {g : SentGroup} {H1 H2 : List Sent} {x : Sent} (pl : WirePlace gs G1 G2 g H1 H2 x)
    (hd : (gs.flatMap SentGroup.cnts).Nodup) :
    (∀ y ∈ G1.flatMap SentGroup.heaps ++ H1, y.cnt ≠ x.cnt) ∧ (∀ y ∈ H2 ++ G2.flatMap SentGroup.heaps, y.cnt ≠ x.cnt) := by
  rw [flatMap_cnts, pl.groups, List.flatMap_append, List.flatMap_cons, pl.heaps] at hd
  rw [show G1.flatMap SentGroup.heaps ++ (H1 ++ x :: H2 ++ G2.flatMap SentGroup.heaps) = (G1.flatMap SentGroup.heaps ++ H1) ++ x :: (H2 ++ G2.flatMap SentGroup.heaps) by simp] at hd
  rw [List.map_append, List.map_cons, List.nodup_append] at hd
  obtain ⟨-, h2, h3⟩ := hd
  rw [List.nodup_cons] at h2
  constructor
  · intro y hy
    exact h3 _ (List.mem_map_of_mem hy) _ List.mem_cons_self
  · intro y hy he
    exact h2.1 (he ▸ List.mem_map_of_mem hy)

theorem WirePlace.mem {G1 G2 : List SentGroup} {g : SentGroup} {H1 H2 : List Sent} {x : Sent} (pl : WirePlace gs G1 G2 g H1 H2 x) : x ∈ gs.flatMap SentGroup.heaps := by
  rw [pl.groups, List.flatMap_append, List.flatMap_cons, pl.heaps]; simp

theorem WirePlace.none {G1 G2 : List SentGroup} {g : SentGroup} {H1 H2 : List Sent} {x : Sent} (pl : WirePlace gs G1 G2 g H1 H2 x)
    (hok : ∀ x ∈ gs.flatMap SentGroup.heaps, x.Ok) (hd : (gs.flatMap SentGroup.cnts).Nodup) :
    (∀ y ∈ G1.flatMap SentGroup.heaps ++ H1, ∀ d ∈ y.wire, d ∉ x.wire) ∧ (∀ y ∈ H2 ++ G2.flatMap SentGroup.heaps, ∀ d ∈ y.wire, d ∉ x.wire) := by
  obtain ⟨a1, a2⟩ := pl.apart hd
  have hx := hok x pl.mem
  constructor
  · intro y hy d hdy hdx
    refine a1 y hy (wire_cnt (hok y ?_) hx hdy hdx)
    rw [pl.groups, List.flatMap_append, List.flatMap_cons, pl.heaps]
    rcases List.mem_append.1 hy with h | h <;> simp [h]
  · intro y hy d hdy hdx
    refine a2 y hy (wire_cnt (hok y ?_) hx hdy hdx)
    rw [pl.groups, List.flatMap_append, List.flatMap_cons, pl.heaps]
    rcases List.mem_append.1 hy with h | h <;> simp [h]

theorem wires_mem {G : List SentGroup} {d : Bytes} (h : d ∈ G.flatMap SentGroup.wire) : ∃ y ∈ G.flatMap SentGroup.heaps, d ∈ y.wire := by
  obtain ⟨g, hg, hd⟩ := List.mem_flatMap.1 h
  obtain ⟨y, hy, hdy⟩ := mem_wire.1 hd
  exact ⟨y, List.mem_flatMap.2 ⟨g, hg, hy⟩, hdy⟩

/-- The packets of a heap arrive in order. -/
theorem among_wire (hok : ∀ x ∈ gs.flatMap SentGroup.heaps, x.Ok) (hd : (gs.flatMap SentGroup.cnts).Nodup) {x : Sent} (hx : x ∈ gs.flatMap SentGroup.heaps) :
    x.among (gs.flatMap SentGroup.wire) = x.wire := by
  obtain ⟨G1, G2, g, H1, H2, pl⟩ := place hx
  obtain ⟨n1, n2⟩ := pl.none hok hd
  unfold Sent.among
  rw [pl.groups, List.flatMap_append, List.flatMap_cons, List.filter_append, List.filter_append]
  have e1 : (G1.flatMap SentGroup.wire).filter (fun d => decide (d ∈ x.wire)) = [] := by
    rw [List.filter_eq_nil_iff]
    intro d hdm hdx
    obtain ⟨y, hy, hdy⟩ := wires_mem hdm
    exact n1 y (List.mem_append_left _ hy) d hdy (of_decide_eq_true hdx)
  have e2 : (G2.flatMap SentGroup.wire).filter (fun d => decide (d ∈ x.wire)) = [] := by
    rw [List.filter_eq_nil_iff]
    intro d hdm hdx
    obtain ⟨y, hy, hdy⟩ := wires_mem hdm
    exact n2 y (List.mem_append_right _ hy) d hdy (of_decide_eq_true hdx)
  rw [e1, e2, List.nil_append, List.append_nil]
  · have hA : ∀ m ∈ H1.map Sent.wire, ∀ a ∈ m, decide (a ∈ x.wire) = false := by
      intro m hm a ha
      obtain ⟨y, hy, rfl⟩ := List.mem_map.1 hm
      exact decide_eq_false (n1 y (List.mem_append_right _ hy) a ha)
    have hB : ∀ m ∈ H2.map Sent.wire, ∀ a ∈ m, decide (a ∈ x.wire) = false := by
      intro m hm a ha
      obtain ⟨y, hy, rfl⟩ := List.mem_map.1 hm
      exact decide_eq_false (n2 y (List.mem_append_left _ hy) a ha)
    unfold SentGroup.wire
    rw [pl.heaps, List.map_append, List.map_cons]
    split
    · exact flatten_pick _ (fun a ha => decide_eq_true ha) hA hB
    · exact roundRobin_pick _ (fun a ha => decide_eq_true ha) hA hB

/-- Groups that arrive in order meet the conditions for a stream to drop nothing. -/
theorem delivery_arrival (hm : 0 < cfg.maxHeaps) (hok : ∀ x ∈ gs.flatMap SentGroup.heaps, x.Ok) (hdel : Deliverable cfg gs) :
    Arrival cfg (gs.flatMap SentGroup.heaps) (gs.flatMap SentGroup.wire) := by
  have hd := hdel.distinct
  refine ⟨fun d hdm => wires_mem hdm, ?_, ?_, ?_⟩
  · intro l1 d l2 hds x hx hdx
    refine ⟨d, hdx, fun hd1 => ?_⟩
    have h1 := among_wire hok hd hx
    unfold Sent.among at h1
    rw [hds, List.filter_append, List.filter_cons, if_pos (decide_eq_true hdx)] at h1
    have h2 := wire_nodup (hok x hx)
    rw [← h1, List.nodup_append] at h2
    exact h2.2.2 d (List.mem_filter.2 ⟨hd1, decide_eq_true hdx⟩) d List.mem_cons_self rfl
  · intro l1 d1 l2 d2 l3 hds x hx hd1 hd2
    obtain ⟨G1, G2, g, H1, H2, pl⟩ := place hx
    obtain ⟨n1, n2⟩ := pl.none hok hd
    have hinj : ∀ y ∈ gs.flatMap SentGroup.heaps, ∀ z ∈ gs.flatMap SentGroup.heaps, ∀ d, d ∈ y.wire → d ∈ z.wire → y = z := by
      intro y hy z hz d h1 h2
      rw [flatMap_cnts] at hd
      exact inj_of_nodup_map Sent.cnt hd y hy z hz (wire_cnt (hok y hy) (hok z hz) h1 h2)
    have hg : g ∈ gs := by rw [pl.groups]; simp
    have hgmem : ∀ y ∈ g.heaps, y ∈ gs.flatMap SentGroup.heaps := fun y hy => List.mem_flatMap.2 ⟨g, hg, hy⟩
    cases hmode : g.mode with
    | serial =>
      refine Nat.lt_of_le_of_lt (Nat.le_of_eq ?_) hm
      rw [List.length_eq_zero_iff, List.filter_eq_nil_iff]
      intro y hy hyp
      obtain ⟨-, ⟨d, hd2', hdy⟩, hny⟩ := of_decide_eq_true hyp
      have hds' : (G1.flatMap SentGroup.wire ++ (H1.map Sent.wire).flatten) ++ x.wire ++ ((H2.map Sent.wire).flatten ++ G2.flatMap SentGroup.wire) = l1 ++ d1 :: l2 ++ d2 :: l3 := by
        rw [← hds, pl.groups, List.flatMap_append, List.flatMap_cons]
        have : g.wire = (H1.map Sent.wire).flatten ++ x.wire ++ (H2.map Sent.wire).flatten := by
          unfold SentGroup.wire
          rw [hmode, pl.heaps]
          simp
        rw [this]
        simp only [List.append_assoc]
      have hdx : d ∈ x.wire := by
        refine segment hds' ?_ ?_ d hd2'
        · intro h
          rcases List.mem_append.1 h with h | h
          · obtain ⟨z, hz, hdz⟩ := wires_mem h
            exact n1 z (List.mem_append_left _ hz) d1 hdz hd1
          · obtain ⟨l, hl, hdl⟩ := List.mem_flatten.1 h
            obtain ⟨z, hz, rfl⟩ := List.mem_map.1 hl
            exact n1 z (List.mem_append_right _ hz) d1 hdl hd1
        · intro h
          rcases List.mem_append.1 h with h | h
          · obtain ⟨l, hl, hdl⟩ := List.mem_flatten.1 h
            obtain ⟨z, hz, rfl⟩ := List.mem_map.1 hl
            exact n2 z (List.mem_append_left _ hz) d2 hdl hd2
          · obtain ⟨z, hz, hdz⟩ := wires_mem h
            exact n2 z (List.mem_append_right _ hz) d2 hdz hd2
      have := hinj y hy x hx d hdy hdx
      subst this
      exact hny d1 (by simp) hd1
    | roundRobin =>
      have hfew := hdel.few g hg hmode
      refine Nat.lt_of_lt_of_le ?_ hfew
      have hds' : G1.flatMap SentGroup.wire ++ g.wire ++ G2.flatMap SentGroup.wire = l1 ++ d1 :: l2 ++ d2 :: l3 := by
        rw [← hds, pl.groups, List.flatMap_append, List.flatMap_cons, List.append_assoc]
      have hseg := segment hds' (fun h => by
          obtain ⟨z, hz, hdz⟩ := wires_mem h
          exact n1 z (List.mem_append_left _ hz) d1 hdz hd1) (fun h => by
          obtain ⟨z, hz, hdz⟩ := wires_mem h
          exact n2 z (List.mem_append_right _ hz) d2 hdz hd2)
      have hlen : g.heaps.length = (H1 ++ H2).length + 1 := by rw [pl.heaps]; simp; omega
      rw [hlen, Nat.lt_succ_iff, ← List.length_map Sent.cnt, ← List.length_map (as := H1 ++ H2) Sent.cnt]
      apply List.Nodup.length_le_of_subset
      · rw [flatMap_cnts] at hd
        exact hd.sublist (List.Sublist.map _ List.filter_sublist)
      · intro c hc
        obtain ⟨y, hy, rfl⟩ := List.mem_map.1 hc
        obtain ⟨hy1, hy2⟩ := List.mem_filter.1 hy
        obtain ⟨-, ⟨d, hdl, hdy⟩, hny⟩ := of_decide_eq_true hy2
        obtain ⟨z, hz, hdz⟩ := mem_wire.1 (hseg d hdl)
        have := hinj y hy1 z (hgmem z hz) d hdy hdz
        subst this
        apply List.mem_map_of_mem
        rw [pl.heaps] at hz
        rcases List.mem_append.1 hz with h | h
        · exact List.mem_append_left _ h
        · rcases List.mem_cons.1 h with rfl | h
          · exact absurd hd1 (hny d1 (by simp))
          · exact List.mem_append_right _ h
  · intro _ l1 d l2 hds x hx hdx hno
    have h1 := among_wire hok hd hx
    unfold Sent.among at h1
    rw [hds, List.filter_append, List.filter_cons, if_pos (decide_eq_true hdx), List.filter_eq_nil_iff.2] at h1
    · rw [← h1]; rfl
    · intro b hb hbx
      exact hno b hb (of_decide_eq_true hbx)

theorem delivery_arrives (hok : ∀ x ∈ gs.flatMap SentGroup.heaps, x.Ok) (hd : (gs.flatMap SentGroup.cnts).Nodup) {x : Sent} (hx : x ∈ gs.flatMap SentGroup.heaps)
    (hi : NoEmpty x.width x.heap.items ∨ (heapPtrs x.mps x.heap).Nodup) : x.Arrives cfg (gs.flatMap SentGroup.wire) := by
  have h := among_wire hok hd hx
  refine ⟨?_, ?_⟩
  · rcases hi with hi | hi
    · exact Or.inl hi
    · exact Or.inr ⟨hi, Or.inr (by rw [h]; exact eraseDups_of_nodup (wire_nodup (hok x hx)))⟩
  · split
    · intro b hb
      rw [← h] at hb
      exact (List.mem_filter.1 hb).1
    · exact h

end

end Spead2
