import Verif.Lemmas.VerifyTool
import Verif.Props.SendTool

/-!
# C90: `spead2_recv --verify` accepts what `spead2_send --verify` sends, and nothing else
-/

namespace Spead2.VerifyTool
open SendTool Spec

/-- **C90 (`fast_discard`).** It has the same effect as taking `z` values from the generator, for every `z` of 64 bits and wherever the generator stands. -/
theorem C90_discard (p z : Nat) (hz : z < 2 ^ 64) : fastDiscard (Nat.iterate next p (seed 1)) z = Nat.iterate next z (Nat.iterate next p (seed 1)) := by
  have h : ∀ n q, Nat.iterate next n (state q) = state (q + n) := by
    intro n
    induction n with
    | zero => intro q; rfl
    | succ n ih =>
      intro q
      show Nat.iterate next n (next (state q)) = _
      rw [next_state, ih, show q + 1 + n = q + (n + 1) by omega]
  rw [← state_zero, h, fastDiscard_state _ _ hz, h]

example : fastDiscard (seed 1) 1000000000000 = fastDiscard (fastDiscard (seed 1) 999999999999) 1 := by decide +kernel

theorem startOf_eq {cnt n el : Nat} (h : 1 ≤ cnt) : startOf cnt n el = el * n * (cnt - 1) % 2 ^ 64 := by
  unfold startOf
  rw [show cnt + (2 ^ 64 - 1) = (cnt - 1) + 2 ^ 64 by omega, Nat.mul_add, Nat.add_mul_mod_self_right]

/-- **C90 (the receiver).** Whatever is received: a heap is accepted just if its items with data hold, one after the other, the numbers from the position
that its cnt and its number of items say, the same number of them in each; or if it has no such items but ends the stream. -/
theorem C90_exact (cnt : Nat) (items : List RxItem) (hc : 1 ≤ cnt) (hd : Defined items) :
    verifyHeap cnt items = some .good ↔
      if dataOf items = [] then isEndOfStream items = some true
      else ∃ el, Holds (el * items.length * (cnt - 1) % 2 ^ 64) el (dataOf items) := by
  unfold verifyHeap
  rw [← state_zero]
  rcases verifyItems_first cnt items.length items hd with ⟨h1, h2⟩ | ⟨it, l, h1, h⟩
  · rw [if_pos h1, h2]
    simp only [if_true]
    cases isEndOfStream items with
    | none => simp
    | some b => cases b <;> simp
  · rw [if_neg (by rw [h1]; simp), h1]
    have hlen : ∀ el p, Holds p el (it :: l) → el = it.data.length / 4 := by
      intro el p h
      have := ((holds_cons _ _ _ _).mp h).1
      rw [this, List.length_map, numbers_length]
      omega
    rw [startOf_eq hc] at h
    rcases h with ⟨h2, h3⟩ | ⟨h2, v, h3, h4⟩
    · rw [h3]
      simp only [Bool.false_eq_true, if_false, true_iff]
      exact ⟨_, h2⟩
    · rw [h3]
      constructor
      · intro h
        obtain rfl := Option.some.inj h
        exact h4.elim
      · rintro ⟨el, h⟩
        obtain rfl := hlen _ _ h
        exact absurd h h2

/-- **C90 (reports).** Verification is never undefined for items that are there, and what it reports is true. -/
theorem C90_reports (cnt : Nat) (items : List RxItem) (hd : Defined items) (hne : dataOf items ≠ []) :
    ∃ v, verifyHeap cnt items = some v ∧ (v = .good ∨ ∃ it, (dataOf items).head? = some it ∧ TrueReport items (it.data.length / 4) v) := by
  unfold verifyHeap
  rw [← state_zero]
  rcases verifyItems_first cnt items.length items hd with ⟨h1, h2⟩ | ⟨it, l, h1, ⟨h2, h3⟩ | ⟨h2, v, h3, h4⟩⟩
  · exact absurd h1 hne
  · rw [h3]
    exact ⟨_, rfl, Or.inl rfl⟩
  · rw [h3]
    exact ⟨v, rfl, Or.inr ⟨it, by rw [h1]; rfl, h4⟩⟩

/-- Two items with the right numbers are accepted; a wrong one is reported. -/
example : verifyHeap 1 [⟨0x1000, false, 0, 0, (numbers 0 2).map some⟩, ⟨0x1001, false, 8, 0, (numbers 2 2).map some⟩] = some .good := by decide +kernel
example : verifyHeap 3 [⟨0x1000, false, 0, 0, (numbers 8 2).map some⟩, ⟨0x1001, false, 8, 0, (numbers 10 2).map some⟩] = some .good := by decide +kernel
example : verifyHeap 3 [⟨0x1000, false, 0, 0, (numbers 8 2).map some⟩, ⟨0x1001, false, 8, 0, (numbers 11 2).map some⟩] =
    some (.mismatch 0x1001 0 (random 10) (random 11)) := by decide +kernel
example : Defined [⟨0x1000, false, 0, 0, (numbers 0 2).map some⟩, ⟨0x1001, false, 8, 0, (numbers 2 2).map some⟩] := by
  intro it h
  have h : it ∈ [_, _] := h
  simp only [List.mem_cons, List.not_mem_nil, or_false] at h
  rcases h with rfl | rfl <;> exact ⟨_, rfl⟩

/-! ### The heaps of the sender -/

theorem sender_fields {o : Options} {c : Sender} (hc : o.sender = some c) : c.elements = o.heapSize / (o.items * 4) ∧ c.items = o.items ∧ c.verify = o.verify := by
  unfold Options.sender at hc
  simp only at hc
  generalize (if (decide (o.heaps < 0) || decide (o.heaps.toNat + o.dests > o.maxHeaps)) = true then o.maxHeaps else o.heaps.toNat + o.dests) = M at hc
  split at hc
  · cases hc
  · split at hc
    · cases hc
    · obtain rfl := Option.some.inj hc
      exact ⟨rfl, rfl, rfl⟩

/-- **C90 (the sender).** With `--verify`, the heaps hold the numbers of the sequence, heap after heap. -/
theorem C90_sender (o : Options) (ok : o.Ok) (hv : o.verify = true) (c : Sender) (hc : o.sender = some c) (mem : Nat → List Bytes) (ops : List Op) (s : St (List Bytes))
    (hr : St.run c (fill c) { mem := mem } ops = some s) :
    ∀ e ∈ s.queued, e.what ≠ .last → e.contents = heapData (o.heapSize / (o.items * 4)) o.items e.idx := by
  obtain ⟨p1, p2, p3, p4, p5, p6, p7, p8, p9⟩ := sender_ok ok hc
  obtain ⟨q1, q2, q3⟩ := sender_fields hc
  obtain ⟨s', h1, h2⟩ := inv_run (fill := fill c) p1 p2 p3 ops (Inv.init (c := c) (fill := fill c) mem)
  rw [hr] at h1
  obtain rfl := Option.some.inj h1
  intro e he hw
  rw [h2.filled (by rw [q3, hv]) e he hw, fill_eq, q1, q2]

/-! ### Through the network -/

theorem received_spec {h : SendHeap} {cnt mps w : Nat} {s : LiveHeap} {items : List RxItem} (hr : Received h cnt mps s items) (hw : h.hab = 8 * w) (hf : Fits h cnt mps)
    (hid : ∀ it ∈ h.items, 4 < it.id) (hgood : minPayload mps h ≤ (realPayload w h.items).length ∨ (realPayload w h.items).length % 8 = 0) (hne : NoEmpty w h.items) :
    s.cnt = cnt ∧ ∃ adr imm, items = adr ++ imm ∧ adr.map (fun it => (it.id, it.data)) = (addressedItems w h.items).map (fun x => (x.1, x.2.map some)) ∧
      (∀ it ∈ imm, it.isImm = true ∧ it.data = (beBytes w it.value).map some) ∧ (imm.map (fun it => (it.id, it.value))).Perm (immediateItems w h.items).eraseDups := by
  obtain ⟨pkts, ds, ps, p0, acc, h1, h2, h3, h4, h5, h6⟩ := hr
  obtain ⟨ps', g1, g2⟩ := C10_end_to_end_partial h cnt mps w pkts ds hw hf hid h1 hgood (Or.inl hne) h2
  have : ps' = ps := by
    rw [h3] at g1
    refine ((List.map_inj_right ?_).mp g1).symm
    intro a b hab
    exact Option.some.inj (Option.some.inj hab)
  subst this
  obtain ⟨s', acc', adr, imm, a1, a2, a3, a4, a5, a6, a7, a8⟩ := g2 p0 h4
  rw [h5] at a1
  obtain ⟨rfl, rfl⟩ := Prod.mk.inj (Option.some.inj a1)
  rw [h6] at a4
  exact ⟨a2, adr, imm, Option.some.inj a4, a6, a7, a8⟩

/-- Ids and contents of the items with data, from number `j` on. -/
def pairs : Nat → List Bytes → List (Nat × Bytes)
  | _, [] => []
  | j, b :: l => (0x1000 + j, b) :: pairs (j + 1) l

theorem pairs_snd (j : Nat) (l : List Bytes) : (pairs j l).map Prod.snd = l := by
  induction l generalizing j with
  | nil => rfl
  | cons b l ih => show b :: (pairs (j + 1) l).map Prod.snd = _; rw [ih]

theorem pairs_id {j : Nat} {l : List Bytes} : ∀ x ∈ pairs j l, 0x1000 ≤ x.1 := by
  induction l generalizing j with
  | nil => intro x h; cases h
  | cons b l ih =>
    intro x h
    rcases List.mem_cons.mp h with rfl | h
    · exact Nat.le_add_right _ _
    · exact ih x h

theorem dataItems_length (j : Nat) (l : List Bytes) : (dataItems j l).length = l.length := by
  induction l generalizing j with
  | nil => rfl
  | cons b l ih => show (dataItems (j + 1) l).length + 1 = l.length + 1; rw [ih]

theorem dataItems_mem {j : Nat} {l : List Bytes} : ∀ it ∈ dataItems j l, 0x1000 ≤ it.id ∧ ∃ b ∈ l, it.value = .buffer b true := by
  induction l generalizing j with
  | nil => intro x h; cases h
  | cons b l ih =>
    intro x h
    rcases List.mem_cons.mp h with rfl | h
    · exact ⟨Nat.le_add_right _ _, b, List.mem_cons_self, rfl⟩
    · obtain ⟨h1, b', h2, h3⟩ := ih x h
      exact ⟨h1, b', List.mem_cons_of_mem _ h2, h3⟩

/-- Large items travel in the payload. -/
theorem data_large {w j : Nat} {l : List Bytes} (h : ∀ b ∈ l, w < b.length) :
    addressedItems w (dataItems j l) = pairs j l ∧ immediateItems w (dataItems j l) = [] ∧ realPayload w (dataItems j l) = l.flatten := by
  induction l generalizing j with
  | nil => exact ⟨rfl, rfl, rfl⟩
  | cons b l ih =>
    have hb := h b List.mem_cons_self
    obtain ⟨h1, h2, h3⟩ := ih (j := j + 1) (fun x hx => h x (List.mem_cons_of_mem _ hx))
    have hp : itemPayload w ⟨0x1000 + j, .buffer b true⟩ = b := if_neg (by omega)
    have hne : b ≠ [] := by
      rintro rfl
      simp at hb
    refine ⟨?_, ?_, ?_⟩
    · unfold addressedItems at h1 ⊢
      show List.filterMap _ ((⟨0x1000 + j, .buffer b true⟩ : SendItem) :: dataItems (j + 1) l) = _
      rw [List.filterMap_cons, hp, if_neg hne, h1]
      rfl
    · unfold immediateItems at h2 ⊢
      show List.filterMap _ ((⟨0x1000 + j, .buffer b true⟩ : SendItem) :: dataItems (j + 1) l) = _
      rw [List.filterMap_cons]
      simp only
      rw [if_neg (by omega)]
      exact h2
    · unfold realPayload at h3 ⊢
      show List.flatMap _ ((⟨0x1000 + j, .buffer b true⟩ : SendItem) :: dataItems (j + 1) l) = _
      rw [List.flatMap_cons, hp, h3]
      rfl

/-- Small items travel in their item pointers. -/
theorem data_small {w j : Nat} {l : List Bytes} (h : ∀ b ∈ l, b.length ≤ w) :
    addressedItems w (dataItems j l) = [] ∧ immediateItems w (dataItems j l) = (pairs j l).map (fun x => (x.1, beNat x.2)) ∧ realPayload w (dataItems j l) = [] := by
  induction l generalizing j with
  | nil => exact ⟨rfl, rfl, rfl⟩
  | cons b l ih =>
    have hb := h b List.mem_cons_self
    obtain ⟨h1, h2, h3⟩ := ih (j := j + 1) (fun x hx => h x (List.mem_cons_of_mem _ hx))
    have hp : itemPayload w ⟨0x1000 + j, .buffer b true⟩ = [] := if_pos ⟨rfl, hb⟩
    refine ⟨?_, ?_, ?_⟩
    · unfold addressedItems at h1 ⊢
      show List.filterMap _ ((⟨0x1000 + j, .buffer b true⟩ : SendItem) :: dataItems (j + 1) l) = _
      rw [List.filterMap_cons, hp, if_pos rfl]
      exact h1
    · unfold immediateItems at h2 ⊢
      show List.filterMap _ ((⟨0x1000 + j, .buffer b true⟩ : SendItem) :: dataItems (j + 1) l) = _
      rw [List.filterMap_cons]
      simp only [true_and]
      rw [if_pos hb]
      simp only
      rw [h2]
      rfl
    · unfold realPayload at h3 ⊢
      show List.flatMap _ ((⟨0x1000 + j, .buffer b true⟩ : SendItem) :: dataItems (j + 1) l) = _
      rw [List.flatMap_cons, hp, h3]
      rfl

/-- The descriptors of a first heap. -/
def descrItems (c : Sender) (n : Nat) : List SendItem := (List.range n).map (fun i => addDescriptor ⟨40, 0⟩ (descriptor c.elements i))

theorem descr_size (c : Sender) {i : Nat} (h : 0x1000 + i < 2 ^ 23) : ∃ b, addDescriptor ⟨40, 0⟩ (descriptor c.elements i) = ⟨5, .buffer b false⟩ ∧ 16 < b.length := by
  unfold addDescriptor encodeDescriptor
  simp only
  rw [if_neg]
  · refine ⟨_, rfl, ?_⟩
    simp only [List.length_append, beBytes_length, List.map_cons, List.flatMap_cons, List.cons_append, List.flatMap_append]
    omega
  · show ¬ ((0x1000 + (i : Int)) ≤ 0 ∨ (0x1000 + (i : Int)) ≥ 2 ^ (8 * 8 - 1 - 40))
    omega

theorem descr_spec (c : Sender) (w : Nat) : ∀ n, 0x1000 + n ≤ 2 ^ 23 → ∃ bs : List Bytes, bs.length = n ∧ (∀ b ∈ bs, 16 < b.length) ∧
    descrItems c n = bs.map (fun b => ⟨5, .buffer b false⟩) ∧ addressedItems w (descrItems c n) = bs.map (fun b => (5, b)) ∧ immediateItems w (descrItems c n) = [] ∧
    realPayload w (descrItems c n) = bs.flatten
  | 0, _ => ⟨[], rfl, (by intro b h; cases h), rfl, rfl, rfl, rfl⟩
  | n + 1, h => by
    obtain ⟨bs, h1, h2, h3, h4, h5, h6⟩ := descr_spec c w n (by omega)
    obtain ⟨b, g1, g2⟩ := descr_size c (i := n) (by omega)
    have e : descrItems c (n + 1) = descrItems c n ++ [⟨5, .buffer b false⟩] := by
      unfold descrItems
      rw [List.range_succ, List.map_append, List.map_singleton, g1]
    have hp : itemPayload w ⟨5, .buffer b false⟩ = b := by simp [itemPayload]
    have hne : b ≠ [] := by
      rintro rfl
      simp at g2
    refine ⟨bs ++ [b], by rw [List.length_append, h1]; rfl, ?_, ?_, ?_, ?_, ?_⟩
    · intro x hx
      rcases List.mem_append.mp hx with hx | hx
      · exact h2 x hx
      · rw [List.mem_singleton.mp hx]; exact g2
    · rw [e, h3, List.map_append]; rfl
    · rw [e, List.map_append, ← h4]
      unfold addressedItems
      rw [List.filterMap_append, List.filterMap_cons, hp, if_neg hne]
      rfl
    · rw [e]
      unfold immediateItems at h5 ⊢
      rw [List.filterMap_append, h5, List.filterMap_cons]
      simp
    · rw [e, List.flatten_append, ← h6]
      unfold realPayload
      rw [List.flatMap_append, List.flatMap_cons, hp]
      simp

theorem flatten_ge {k : Nat} : ∀ {l : List Bytes}, (∀ b ∈ l, k ≤ b.length) → k * l.length ≤ l.flatten.length
  | [], _ => Nat.zero_le _
  | b :: l, h => by
    have h1 := h b List.mem_cons_self
    have h2 := flatten_ge (l := l) (fun x hx => h x (List.mem_cons_of_mem _ hx))
    rw [List.length_cons, List.flatten_cons, List.length_append, Nat.mul_succ]
    omega

theorem flatten_eq {k : Nat} : ∀ {l : List Bytes}, (∀ b ∈ l, b.length = k) → l.flatten.length = k * l.length
  | [], _ => rfl
  | b :: l, h => by
    have h1 := h b List.mem_cons_self
    have h2 := flatten_eq (l := l) (fun x hx => h x (List.mem_cons_of_mem _ hx))
    rw [List.length_cons, List.flatten_cons, List.length_append, Nat.mul_succ, h2]
    omega

/-- The items with data, from what was received. -/
theorem dataOf_map (l : List RxItem) : (dataOf l).map (fun it => (it.id, it.data)) = (l.map (fun it => (it.id, it.data))).filter (fun x => 0x1000 ≤ x.1) := by
  unfold dataOf
  rw [List.filter_map]
  rfl

theorem holds_of_map {el p : Nat} {l : List RxItem} {bs : List Bytes} (h : l.map RxItem.data = bs.map (fun b => b.map some))
    (hb : ∀ j b, bs[j]? = some b → b = numbers (p + j * el) el) : Holds p el l := by
  intro j it hj
  have h1 : (l.map RxItem.data)[j]? = some it.data := by rw [List.getElem?_map, hj]; rfl
  rw [h, List.getElem?_map] at h1
  cases hb' : bs[j]? with
  | none => rw [hb'] at h1; cases h1
  | some b =>
    rw [hb'] at h1
    obtain rfl := hb j b hb'
    exact (Option.some.inj h1).symm

theorem heapData_get {el items i j : Nat} {b : Bytes} (h : (heapData el items i)[j]? = some b) : b = numbers (i * items * el + j * el) el := by
  unfold heapData at h
  rw [List.getElem?_map] at h
  cases hr : (List.range items)[j]? with
  | none => rw [hr] at h; cases h
  | some k =>
    rw [hr] at h
    obtain ⟨h1, h2⟩ := List.getElem?_eq_some_iff.mp hr
    rw [List.getElem_range] at h2
    subst h2
    rw [← Option.some.inj h]
    show numbers ((i * items + j) * el) el = _
    rw [show (i * items + j) * el = i * items * el + j * el by ring]

theorem heapData_len {el items i : Nat} : ∀ b ∈ heapData el items i, b.length = 4 * el := by
  intro b hb
  obtain ⟨j, -, rfl⟩ := List.mem_map.mp hb
  exact numbers_length _ _

theorem heapData_length (el items i : Nat) : (heapData el items i).length = items := by
  unfold heapData
  rw [List.length_map, List.length_range]

theorem dataItems_id {j : Nat} {l : List Bytes} : ∀ k < l.length, ∃ it ∈ dataItems j l, it.id = 0x1000 + j + k := by
  induction l generalizing j with
  | nil => intro k hk; cases hk
  | cons b l ih =>
    intro k hk
    cases k with
    | zero => exact ⟨_, List.mem_cons_self, rfl⟩
    | succ k =>
      obtain ⟨it, h1, h2⟩ := ih (j := j + 1) k (by simpa using hk)
      exact ⟨it, List.mem_cons_of_mem _ h1, by omega⟩

/-- The items of a heap with data: perhaps descriptors, then the data. -/
theorem items_of {c : Sender} {e : Entry (List Bytes)} (hw : e.what ≠ .last) (hf : e.flavour = ⟨40, 0⟩) :
    (heapOf c e).hab = 8 * 5 ∧ ∃ k, (k = 0 ∨ k = c.items ∧ e.what = .first) ∧ (heapOf c e).items = descrItems c k ++ dataItems 0 e.contents := by
  unfold heapOf
  simp only
  rw [hf]
  refine ⟨rfl, ?_⟩
  cases h : e.what with
  | first => exact ⟨c.items, Or.inr ⟨rfl, rfl⟩, rfl⟩
  | data => exact ⟨0, Or.inl rfl, rfl⟩
  | last => exact absurd h hw

/-- What is received of such a heap. -/
theorem received_data {c : Sender} {e : Entry (List Bytes)} (hw : e.what ≠ .last) (hf : e.flavour = ⟨40, 0⟩) (hi : 1 ≤ c.items) {el : Nat} (hl : e.contents.length = c.items)
    (hlen : ∀ b ∈ e.contents, b.length = 4 * el) {cnt mps : Nat} (fit : Fits (heapOf c e) cnt mps) {s : LiveHeap} {items : List RxItem} (hr : Received (heapOf c e) cnt mps s items) :
    s.cnt = cnt ∧ Defined items ∧ (if 2 ≤ el then (dataOf items).map RxItem.data = e.contents.map (fun b => b.map some) ∧ (e.what = .data → items.length = c.items)
      else dataOf items ≠ [] ∧ ∀ it ∈ dataOf items, it.data.length = 5) := by
  obtain ⟨hab, k, hk, hit⟩ := items_of (c := c) hw hf
  have hn : 0x1000 + c.items ≤ 2 ^ 23 := by
    obtain ⟨it, h1, h2⟩ := dataItems_id (j := 0) (l := e.contents) (c.items - 1) (by omega)
    have := fit.ids it (by rw [hit]; exact List.mem_append_right _ h1)
    rw [hab] at this
    have : it.id < 2 ^ 23 := this
    omega
  have hk' : 0x1000 + k ≤ 2 ^ 23 := by omega
  obtain ⟨bs, d1, d2, d3, d4, d5, d6⟩ := descr_spec c 5 k hk'
  have hids : ∀ it ∈ (heapOf c e).items, 4 < it.id := by
    intro it h
    rw [hit] at h
    rcases List.mem_append.mp h with h | h
    · rw [d3] at h
      obtain ⟨b, -, rfl⟩ := List.mem_map.mp h
      show 4 < 5
      omega
    · have := (dataItems_mem it h).1
      omega
  have hne : NoEmpty 5 (heapOf c e).items := by
    intro it h b allow hv hn
    rw [hit] at h
    rintro rfl
    rcases List.mem_append.mp h with h | h
    · rw [d3] at h
      obtain ⟨b', hb', rfl⟩ := List.mem_map.mp h
      have := d2 b' hb'
      cases hv
      simp at this
    · obtain ⟨-, b', -, h3⟩ := dataItems_mem it h
      rw [h3] at hv
      cases hv
      exact hn ⟨rfl, by simp⟩
  have hpay : realPayload 5 (heapOf c e).items = bs.flatten ++ realPayload 5 (dataItems 0 e.contents) := by
    rw [← d6, hit]
    unfold realPayload
    rw [List.flatMap_append]
  have hcount : (heapOf c e).items.length = k + c.items := by
    rw [hit, List.length_append, dataItems_length, hl, d3, List.length_map, d1]
  have hmin : minPayload mps (heapOf c e) ≤ 8 * (k + c.items) + 1 := by
    unfold minPayload
    rw [hcount]
    have := Nat.div_le_self (k + c.items) (maxPointers mps)
    omega
  have hbs := flatten_ge (k := 17) (l := bs) (fun b hb => d2 b hb)
  rw [d1] at hbs
  have hadr : addressedItems 5 (heapOf c e).items = bs.map (fun b => (5, b)) ++ addressedItems 5 (dataItems 0 e.contents) := by
    rw [← d4, hit]
    unfold addressedItems
    rw [List.filterMap_append]
  have himm : immediateItems 5 (heapOf c e).items = immediateItems 5 (dataItems 0 e.contents) := by
    rw [hit]
    unfold immediateItems at d5 ⊢
    rw [List.filterMap_append, d5]
    rfl
  have hdesc : ∀ x ∈ bs.map (fun b => ((5 : Nat), b.map some)), ¬ (decide (0x1000 ≤ x.1)) = true := by
    intro x hx
    obtain ⟨b, -, rfl⟩ := List.mem_map.mp hx
    simp
  by_cases h2 : 2 ≤ el
  · obtain ⟨g1, g2, g3⟩ := data_large (w := 5) (j := 0) (l := e.contents) (fun b hb => by rw [hlen b hb]; omega)
    have hflat := flatten_eq (l := e.contents) hlen
    rw [hl] at hflat
    have hgood : minPayload mps (heapOf c e) ≤ (realPayload 5 (heapOf c e).items).length ∨ (realPayload 5 (heapOf c e).items).length % 8 = 0 := by
      rw [hpay, g3, List.length_append, hflat]
      rcases hk with rfl | ⟨rfl, -⟩
      · have hb0 : bs = [] := List.length_eq_zero_iff.mp d1
        subst hb0
        rcases Nat.lt_or_ge 2 el with h3 | h3
        · left
          have : 12 * c.items ≤ 4 * el * c.items := Nat.mul_le_mul_right _ (by omega)
          omega
        · right
          have : el = 2 := by omega
          subst this
          show (0 + 4 * 2 * c.items) % 8 = 0
          omega
      · left
        have : 8 * c.items ≤ 4 * el * c.items := Nat.mul_le_mul_right _ (by omega)
        omega
    obtain ⟨r1, adr, imm, r2, r3, r4, r5⟩ := received_spec hr hab fit hids hgood hne
    rw [himm, g2] at r5
    have him : imm = [] := by
      have := r5.length_eq
      simpa using this
    subst him
    rw [List.append_nil] at r2
    subst r2
    rw [hadr, g1] at r3
    have hdata : (dataOf items).map (fun it => (it.id, it.data)) = (pairs 0 e.contents).map (fun x => (x.1, x.2.map some)) := by
      rw [dataOf_map, r3, List.map_append, List.filter_append, List.map_map]
      rw [List.filter_eq_nil_iff.mpr (by intro x hx; exact hdesc x hx), List.nil_append, List.filter_eq_self]
      intro x hx
      obtain ⟨y, hy, rfl⟩ := List.mem_map.mp hx
      simpa using pairs_id y hy
    have hdata2 : (dataOf items).map RxItem.data = e.contents.map (fun b => b.map some) := by
      have := congrArg (List.map Prod.snd) hdata
      rw [List.map_map, List.map_map] at this
      rw [show RxItem.data = (Prod.snd ∘ fun it : RxItem => (it.id, it.data)) from rfl, this]
      conv => rhs; rw [← pairs_snd 0 e.contents, List.map_map]
      rfl
    refine ⟨r1, ?_, ?_⟩
    · intro it hi'
      have : it.data ∈ (dataOf items).map RxItem.data := List.mem_map_of_mem hi'
      rw [hdata2] at this
      obtain ⟨b, -, hb⟩ := List.mem_map.mp this
      exact ⟨b, hb.symm⟩
    · rw [if_pos h2]
      refine ⟨hdata2, ?_⟩
      intro hd
      have : k = 0 := by
        rcases hk with h | ⟨-, h⟩
        · exact h
        · rw [hd] at h; cases h
      subst this
      have hb0 : bs = [] := List.length_eq_zero_iff.mp d1
      have := congrArg List.length r3
      rw [List.length_map, List.length_map, List.length_append, hb0] at this
      have hp : (pairs 0 e.contents).length = c.items := by
        rw [← hl]
        conv => rhs; rw [← pairs_snd 0 e.contents, List.length_map]
      rw [hp] at this
      simpa using this
  · obtain ⟨g1, g2, g3⟩ := data_small (w := 5) (j := 0) (l := e.contents) (fun b hb => by rw [hlen b hb]; omega)
    have hgood : minPayload mps (heapOf c e) ≤ (realPayload 5 (heapOf c e).items).length ∨ (realPayload 5 (heapOf c e).items).length % 8 = 0 := by
      rw [hpay, g3, List.append_nil]
      rcases hk with rfl | ⟨rfl, -⟩
      · right
        have hb0 : bs = [] := List.length_eq_zero_iff.mp d1
        subst hb0
        rfl
      · left
        omega
    obtain ⟨r1, adr, imm, r2, r3, r4, r5⟩ := received_spec hr hab fit hids hgood hne
    rw [himm, g2] at r5
    rw [hadr, g1, List.append_nil] at r3
    have hd : dataOf items = dataOf imm := by
      have h0 : (dataOf adr).map (fun it => (it.id, it.data)) = [] := by
        rw [dataOf_map, r3, List.map_map, List.filter_eq_nil_iff]
        intro x hx
        exact hdesc x hx
      have h0 := List.map_eq_nil_iff.mp h0
      unfold dataOf at h0 ⊢
      rw [r2, List.filter_append, h0, List.nil_append]
    have hfive : ∀ it ∈ imm, it.data.length = 5 := by
      intro it h
      rw [(r4 it h).2, List.length_map, beBytes_length]
    refine ⟨r1, ?_, ?_⟩
    · intro it h
      rw [hd] at h
      exact ⟨_, (r4 it (List.mem_filter.mp h).1).2⟩
    · rw [if_neg h2, hd]
      constructor
      · -- there is an item
        obtain ⟨b, l, hbl⟩ : ∃ b l, e.contents = b :: l := by
          cases h : e.contents with
          | nil => rw [h] at hl; simp at hl; omega
          | cons b l => exact ⟨b, l, rfl⟩
        have hm : (0x1000, beNat b) ∈ imm.map (fun it => (it.id, it.value)) := by
          rw [r5.mem_iff, List.mem_eraseDups, hbl]
          exact List.mem_map.mpr ⟨(0x1000, b), List.mem_cons_self, rfl⟩
        obtain ⟨it, h1, h3⟩ := List.mem_map.mp hm
        have hm2 : it ∈ dataOf imm := by
          unfold dataOf
          rw [List.mem_filter]
          have : it.id = 0x1000 := congrArg Prod.fst h3
          exact ⟨h1, by simp [this]⟩
        exact List.ne_nil_of_mem hm2
      · intro it h
        exact hfive it (List.mem_filter.mp h).1

/-- What is received of the end of the stream. -/
theorem received_last {c : Sender} {e : Entry (List Bytes)} (hw : e.what = .last) {cnt mps : Nat} (fit : Fits (heapOf c e) cnt mps) {s : LiveHeap} {items : List RxItem}
    (hr : Received (heapOf c e) cnt mps s items) : s.cnt = cnt ∧ dataOf items = [] ∧ isEndOfStream items = some true := by
  obtain ⟨w, w1, w2, w3⟩ := fit.width
  have hit : (heapOf c e).items = [⟨6, .inline 2⟩] := by
    unfold heapOf
    simp only
    rw [hw]
    rfl
  have hpay : realPayload w (heapOf c e).items = [] := by rw [hit]; rfl
  obtain ⟨r1, adr, imm, r2, r3, r4, r5⟩ := received_spec hr w3 fit (by rw [hit]; intro it h; rw [List.mem_singleton.mp h]; show 4 < 6; omega) (Or.inr (by rw [hpay]; rfl))
    (by rw [hit]; intro it h b a hv; rw [List.mem_singleton.mp h] at hv; cases hv)
  have hadr : adr = [] := by
    have h0 : (addressedItems w (heapOf c e).items) = [] := by rw [hit]; rfl
    rw [h0] at r3
    exact List.map_eq_nil_iff.mp r3
  have himm : immediateItems w (heapOf c e).items = [(6, 2)] := by rw [hit]; rfl
  rw [himm] at r5
  have he : ([(6, 2)] : List (Nat × Nat)).eraseDups = [(6, 2)] := by decide
  rw [he, List.perm_singleton] at r5
  subst hadr
  rw [List.nil_append] at r2
  subst r2
  obtain ⟨it, rfl⟩ : ∃ it, items = [it] := List.length_eq_one_iff.mp (by have := congrArg List.length r5; simpa using this)
  have hiv : (it.id, it.value) = (6, 2) := by simpa using r5
  obtain ⟨h1, h2⟩ := Prod.mk.inj hiv
  have hdat := (r4 it List.mem_cons_self).2
  rw [h2] at hdat
  refine ⟨r1, ?_, ?_⟩
  · unfold dataOf
    rw [List.filter_cons_of_neg (by rw [h1]; decide)]
    rfl
  · unfold isEndOfStream isCtrlItem
    rw [if_pos (show it.id = STREAM_CTRL_ID from h1)]
    have : loadBytesBe? it.data = some 2 := by
      unfold loadBytesBe?
      rw [if_pos (by rw [hdat, List.length_map, beBytes_length]; omega), hdat, mapM_map_some]
      show some (beNat (beBytes w 2)) = some 2
      rw [beNat_beBytes_of_lt (Nat.lt_of_lt_of_le (by decide) (Nat.pow_le_pow_right (by decide) w1))]
    rw [this]
    rfl

/-! ### The two programs -/

/-- **C90 (full statement).** Every heap that `spead2_send --verify` sends and `spead2_recv --verify` gets (all its packets, in any order), is accepted; as long as
heap cnts and positions do not wrap around.  False: for items of fewer than two numbers, and with several destinations. -/
def C90_statement : Prop :=
  ∀ (o : Options), o.Ok → o.verify = true → ∀ c, o.sender = some c → ∀ (mem : Nat → List Bytes) (ops : List Op) (s : St (List Bytes)), St.run c (fill c) { mem := mem } ops = some s →
    ∀ e ∈ s.queued, e.idx + 1 < 2 ^ 40 → c.elements * c.items * e.idx < 2 ^ 64 → ∀ mps, Fits (heapOf c e) (cntOf (heapOf c e).hab e.idx) mps →
      ∀ r items, Received (heapOf c e) (cntOf (heapOf c e).hab e.idx) mps r items → verifyHeap r.cnt items = some .good

/-- What is known of a heap. -/
theorem entry_ok {o : Options} (ok : o.Ok) {c : Sender} (hc : o.sender = some c) {fill mem : Nat → List Bytes} {ops : List Op} {s : St (List Bytes)}
    (hr : St.run c fill { mem := mem } ops = some s) {e : Entry (List Bytes)} (he : e ∈ s.queued) : EntryOk c e := by
  obtain ⟨p1, p2, p3, p4, p5, p6, p7, p8, p9⟩ := sender_ok ok hc
  obtain ⟨s', h1, h2⟩ := inv_run (fill := fill) p1 p2 p3 ops (Inv.init (c := c) (fill := fill) mem)
  rw [hr] at h1
  obtain rfl := Option.some.inj h1
  exact h2.ent e he

theorem cntOf_eq {i : Nat} (h : i + 1 < 2 ^ 40) : cntOf 40 i = i + 1 := by
  unfold cntOf
  rw [Nat.mod_eq_of_lt (a := 1 + i) (by omega), Nat.mod_eq_of_lt (by omega)]
  omega

/-- **C90 (partial).** With at least two numbers in each item, every heap is accepted, except perhaps the first heaps of destinations other than the first one.
Heaps that were lost make no difference.  Missing from the full statement: smaller items, and these first heaps. -/
theorem C90_partial (o : Options) (ok : o.Ok) (hv : o.verify = true) (hsize : 8 * o.items ≤ o.heapSize) (c : Sender) (hc : o.sender = some c) (mem : Nat → List Bytes) (ops : List Op)
    (s : St (List Bytes)) (hr : St.run c (fill c) { mem := mem } ops = some s) (e : Entry (List Bytes)) (he : e ∈ s.queued) (hd : e.idx = 0 ∨ o.dests ≤ e.idx)
    (hcnt : e.idx + 1 < 2 ^ 40) (hpos : c.elements * c.items * e.idx < 2 ^ 64) (mps : Nat) (fit : Fits (heapOf c e) (cntOf (heapOf c e).hab e.idx) mps)
    (r : LiveHeap) (items : List RxItem) (hrec : Received (heapOf c e) (cntOf (heapOf c e).hab e.idx) mps r items) : verifyHeap r.cnt items = some .good := by
  obtain ⟨p1, p2, p3, p4, p5, p6, p7, p8, p9⟩ := sender_ok ok hc
  obtain ⟨q1, q2, q3⟩ := sender_fields hc
  have hk := entry_ok ok hc hr he
  by_cases hw : e.what = .last
  · obtain ⟨h1, h2, h3⟩ := received_last hw fit hrec
    unfold verifyHeap
    rw [← state_zero]
    rcases verifyItems_first r.cnt items.length items (by intro it h; rw [h2] at h; cases h) with ⟨-, h4⟩ | ⟨it, l, h4, -⟩
    · rw [h4]
      simp only [if_true, h3]
      rfl
    · rw [h2] at h4
      cases h4
  · have hfl : e.flavour = ⟨40, 0⟩ := by rw [hk.flavour, if_neg hw, p8]
    have hcont := C90_sender o ok hv c hc mem ops s hr e he hw
    rw [← q1, ← q2] at hcont
    have hi : 1 ≤ c.items := by rw [q2]; exact ok.items
    have hel : 2 ≤ c.elements := by
      rw [q1, Nat.le_div_iff_mul_le (by have := ok.items; omega)]
      omega
    have hab : (heapOf c e).hab = 40 := (items_of (c := c) hw hfl).1
    obtain ⟨h1, h2, h3⟩ := received_data hw hfl hi (by rw [hcont, heapData_length]) (by rw [hcont]; exact heapData_len) fit hrec
    rw [if_pos hel] at h3
    obtain ⟨h3, h4⟩ := h3
    rw [hab, cntOf_eq hcnt] at h1
    have hne : dataOf items ≠ [] := by
      intro h
      rw [h] at h3
      have := congrArg List.length h3
      rw [List.length_map, List.length_map, hcont, heapData_length] at this
      simp at this
      omega
    rw [C90_exact r.cnt items (by omega) h2, if_neg hne]
    refine ⟨c.elements, ?_⟩
    rw [h1, Nat.add_sub_cancel]
    have hstart : c.elements * items.length * e.idx % 2 ^ 64 = e.idx * c.items * c.elements := by
      rcases hd with hd | hd
      · rw [hd]; simp
      · have hdat : e.what = .data := by
          have := hk.what
          unfold Sender.what at this
          rw [if_neg (by omega)] at this
          split at this
          · exact absurd this hw
          · exact this
        rw [h4 hdat, Nat.mod_eq_of_lt hpos]
        ring
    rw [hstart]
    exact holds_of_map h3 (fun j b hb => heapData_get (by rw [← hcont]; exact hb))

/-- **C90 (small items).** With items of less than two numbers, the receiver rejects *every* heap with data, although nothing is wrong: the items travel as
immediates of 5 bytes. -/
theorem C90_small (o : Options) (ok : o.Ok) (hv : o.verify = true) (hsize : o.heapSize < 8 * o.items) (c : Sender) (hc : o.sender = some c) (mem : Nat → List Bytes) (ops : List Op)
    (s : St (List Bytes)) (hr : St.run c (fill c) { mem := mem } ops = some s) (e : Entry (List Bytes)) (he : e ∈ s.queued) (hw : e.what ≠ .last)
    (mps : Nat) (fit : Fits (heapOf c e) (cntOf (heapOf c e).hab e.idx) mps)
    (r : LiveHeap) (items : List RxItem) (hrec : Received (heapOf c e) (cntOf (heapOf c e).hab e.idx) mps r items) :
    ∃ v, verifyHeap r.cnt items = some v ∧ TrueReport items 1 v := by
  obtain ⟨p1, p2, p3, p4, p5, p6, p7, p8, p9⟩ := sender_ok ok hc
  obtain ⟨q1, q2, q3⟩ := sender_fields hc
  have hk := entry_ok ok hc hr he
  have hfl : e.flavour = ⟨40, 0⟩ := by rw [hk.flavour, if_neg hw, p8]
  have hcont := C90_sender o ok hv c hc mem ops s hr e he hw
  rw [← q1, ← q2] at hcont
  have hi : 1 ≤ c.items := by rw [q2]; exact ok.items
  have hel : ¬ 2 ≤ c.elements := by
    rw [q1, Nat.le_div_iff_mul_le (by have := ok.items; omega)]
    omega
  obtain ⟨h1, h2, h3⟩ := received_data hw hfl hi (by rw [hcont, heapData_length]) (by rw [hcont]; exact heapData_len) fit hrec
  rw [if_neg hel] at h3
  obtain ⟨h3, h4⟩ := h3
  obtain ⟨v, g1, g2⟩ := C90_reports r.cnt items h2 h3
  refine ⟨v, g1, ?_⟩
  rcases g2 with rfl | ⟨it, g2, g3⟩
  · exfalso
    unfold verifyHeap at g1
    rw [← state_zero] at g1
    rcases verifyItems_first r.cnt items.length items h2 with ⟨h5, h6⟩ | ⟨it, l, h5, ⟨h6, h7⟩ | ⟨h6, v, h7, h8⟩⟩
    · exact h3 h5
    · have ha := ((holds_cons _ _ _ _).mp h6).1
      have hb := h4 it (by rw [h5]; exact List.mem_cons_self)
      rw [ha, List.length_map, numbers_length] at hb
      omega
    · rw [h7] at g1
      obtain rfl := Option.some.inj g1
      exact h8.elim
  · rwa [h4 it (List.mem_of_mem_head? g2)] at g3

/-! ### Witnesses -/

/-- Two destinations, and heaps of one item with two numbers. -/
def exTwo : Options := ⟨2, 2, 4, 1, 8, true, ⟨40, 0⟩⟩

/-- The packets of a heap. -/
def packetsOf (h : SendHeap) (cnt mps : Nat) : List GenPacket := (((Gen.new h cnt mps).toOption.bind (fun g => g.run 100 {})).getD ([], {})).1

/-- The datagrams as packets. -/
def decoded (h : SendHeap) (cnt mps : Nat) : List Pkt := (packetsOf h cnt mps).map fun p => ((recvPkt? p.bytes).getD none).getD ⟨0, 0, none, 0, [], []⟩

/-- The heap that the receiver makes of them, in order. -/
def receivedOf (h : SendHeap) (cnt mps : Nat) : Option LiveHeap :=
  match decoded h cnt mps with
  | [] => none
  | p :: ps => ((LiveHeap.new p).run true (p :: ps)).map Prod.fst

theorem received_of {h : SendHeap} {cnt mps : Nat} {s : LiveHeap} {items : List RxItem} (h1 : ∃ g st, Gen.new h cnt mps = .ok g ∧ g.run 100 {} = some (packetsOf h cnt mps, st) ∧ g.hasNext st = false)
    (h2 : ((packetsOf h cnt mps).map fun p => recvPkt? p.bytes) = (decoded h cnt mps).map (fun p => some (some p))) (h3 : receivedOf h cnt mps = some s) (h4 : s.load true = some items) :
    Received h cnt mps s items := by
  obtain ⟨g, st, g1, g2, g3⟩ := h1
  unfold receivedOf at h3
  cases hd : decoded h cnt mps with
  | nil => rw [hd] at h3; cases h3
  | cons p ps =>
    rw [hd] at h3 h2
    replace h3 : ((LiveHeap.new p).run true (p :: ps)).map Prod.fst = some s := h3
    cases hrun : (LiveHeap.new p).run true (p :: ps) with
    | none => rw [hrun] at h3; cases h3
    | some x =>
      simp only [hrun, Option.map_some] at h3
      obtain rfl := Option.some.inj h3
      exact ⟨packetsOf h cnt mps, (packetsOf h cnt mps).map GenPacket.bytes, p :: ps, p, x.2, ⟨g, 100, st, g1, g2, g3⟩, ⟨fun d hd => hd, fun p hp => List.mem_map_of_mem hp⟩,
        by rw [List.map_map]; exact h2, List.mem_cons_self, hrun, h4⟩

/-- Whether all this works, and what the receiver says. -/
def checkRun (h : SendHeap) (cnt mps : Nat) (v : Verdict) : Bool :=
  match Gen.new h cnt mps with
  | .error _ => false
  | .ok g =>
    match g.run 100 {} with
    | none => false
    | some (_, st) =>
      !g.hasNext st && decide (((packetsOf h cnt mps).map fun p => recvPkt? p.bytes) = (decoded h cnt mps).map (fun p => some (some p))) &&
      match receivedOf h cnt mps with
      | none => false
      | some s =>
        match s.load true with
        | none => false
        | some items => decide (verifyHeap s.cnt items = some v)

theorem checkRun_spec {h : SendHeap} {cnt mps : Nat} {v : Verdict} (hk : checkRun h cnt mps v = true) : ∃ s items, Received h cnt mps s items ∧ verifyHeap s.cnt items = some v := by
  unfold checkRun at hk
  cases hg : Gen.new h cnt mps with
  | error x => rw [hg] at hk; cases hk
  | ok g =>
    rw [hg] at hk
    simp only at hk
    cases hrun : g.run 100 {} with
    | none => rw [hrun] at hk; cases hk
    | some x =>
      rw [hrun] at hk
      simp only [Bool.and_eq_true, Bool.not_eq_true', decide_eq_true_eq] at hk
      obtain ⟨⟨h1, h2⟩, h3⟩ := hk
      cases hs : receivedOf h cnt mps with
      | none => rw [hs] at h3; cases h3
      | some s =>
        rw [hs] at h3
        simp only at h3
        cases hl : s.load true with
        | none => rw [hl] at h3; cases h3
        | some items =>
          rw [hl] at h3
          simp only [decide_eq_true_eq] at h3
          have hp : packetsOf h cnt mps = x.1 := by
            unfold packetsOf
            rw [hg]
            show ((g.run 100 {}).getD ([], {})).1 = x.1
            rw [hrun]
            rfl
          exact ⟨s, items, received_of ⟨g, x.2, hg, by rw [hrun, hp], h1⟩ h2 hs hl, h3⟩

/-- The sender, and the heaps that it queues first: one for each destination, and two ends of stream. -/
def exSender : Sender := ⟨4, 2, 2, 2, 1, true, ⟨40, 0⟩, ⟨40, 0⟩, 4⟩

def exEntry (i : Nat) : Entry (List Bytes) := ⟨i, .first, i, i, ⟨40, 0⟩, heapData 2 1 i⟩

theorem exTwo_run : ∃ s, St.run exSender (fill exSender) { mem := fun _ => [] } [.start] = some s ∧ exEntry 0 ∈ s.queued ∧ exEntry 1 ∈ s.queued := by
  have h : ((St.run exSender (fill exSender) { mem := fun _ => [] } [.start]).map fun s => (s.queued[0]?, s.queued[1]?)) = some (some (exEntry 0), some (exEntry 1)) := by decide +kernel
  cases hr : St.run exSender (fill exSender) { mem := fun _ => [] } [.start] with
  | none => rw [hr] at h; cases h
  | some s =>
    rw [hr] at h
    have h := Option.some.inj h
    exact ⟨s, rfl, List.mem_of_getElem? (congrArg Prod.fst h), List.mem_of_getElem? (congrArg Prod.snd h)⟩

/-- Values in item pointers are only in the last heap. -/
theorem no_inline {c : Sender} {e : Entry (List Bytes)} (hw : e.what ≠ .last) : ∀ it ∈ (heapOf c e).items, ∀ v, it.value ≠ .inline v := by
  intro it h v hv
  have key : ∀ it ∈ dataItems 0 e.contents, it.value ≠ .inline v := by
    intro it h hv
    obtain ⟨-, b, -, hb⟩ := dataItems_mem it h
    rw [hb] at hv
    cases hv
  unfold heapOf at h
  simp only at h
  cases hwh : e.what with
  | first =>
    rw [hwh] at h
    simp only at h
    rcases List.mem_append.mp h with h | h
    · obtain ⟨i, -, rfl⟩ := List.mem_map.mp h
      cases hv
    · exact key it h hv
  | data =>
    rw [hwh] at h
    exact key it h hv
  | last => exact hw hwh

theorem ex_fits (i : Nat) (h : i < 2) : Fits (heapOf exSender (exEntry i)) (i + 1) 1472 := by
  have hi : i = 0 ∨ i = 1 := by omega
  refine ⟨⟨5, by decide, by decide, rfl⟩, ?_, fun it hit v hv => absurd hv (no_inline (show What.first ≠ .last by decide) it hit v), ?_, ?_, ?_⟩
  · rcases hi with rfl | rfl <;> decide +kernel
  · rcases hi with rfl | rfl <;> decide +kernel
  · rcases hi with rfl | rfl <;> decide +kernel
  · rcases hi with rfl | rfl <;> decide +kernel

/-- With two destinations, the receiver rejects the first heap of the second one, although nothing is wrong. -/
theorem C90_two : ∃ r items, Received (heapOf exSender (exEntry 1)) 2 1472 r items ∧ verifyHeap r.cnt items = some (.mismatch 0x1000 0 (random 4) (random 2)) :=
  checkRun_spec (by decide +kernel)

theorem exTwo_ok : exTwo.Ok := ⟨by decide, by decide, by decide, by decide, by decide⟩

theorem C90_violated : ¬ C90_statement := by
  intro h
  obtain ⟨s, h1, -, h2⟩ := exTwo_run
  obtain ⟨r, items, h3, h4⟩ := C90_two
  have := h exTwo exTwo_ok rfl exSender rfl _ _ s h1 (exEntry 1) h2 (by decide) (by decide) 1472 (ex_fits 1 (by decide)) r items h3
  rw [this] at h4
  cases h4

/-- The first heap of the first destination is accepted, as `C90_partial` says. -/
example : ∃ s r items, St.run exSender (fill exSender) { mem := fun _ => [] } [.start] = some s ∧ Received (heapOf exSender (exEntry 0)) 1 1472 r items ∧ verifyHeap r.cnt items = some .good := by
  obtain ⟨s, h1, h2, -⟩ := exTwo_run
  obtain ⟨r, items, h3, -⟩ := checkRun_spec (h := heapOf exSender (exEntry 0)) (cnt := 1) (mps := 1472) (v := .good) (by decide +kernel)
  exact ⟨s, r, items, h1, h3, C90_partial exTwo exTwo_ok rfl (by decide) exSender rfl _ _ s h1 (exEntry 0) h2 (Or.inl rfl) (by decide) (by decide) 1472 (ex_fits 0 (by decide)) r items h3⟩

/-- One destination, heaps of two items with one number: `spead2_send --verify --heap-size 8 --items 2`. -/
def exTiny : Options := ⟨1, 1, 2, 2, 8, true, ⟨40, 0⟩⟩

/-- The receiver reports an inconsistent length. -/
theorem C90_tiny : ∃ c s e r items, exTiny.sender = some c ∧ St.run c (fill c) { mem := fun _ => [] } [.start] = some s ∧ e ∈ s.queued ∧ e.idx = 0 ∧
    Received (heapOf c e) 1 1472 r items ∧ verifyHeap r.cnt items = some (.inconsistent 0x1000) := by
  have h : ((St.run ⟨2, 1, 1, 1, 2, true, ⟨40, 0⟩, ⟨40, 0⟩, 2⟩ (fill ⟨2, 1, 1, 1, 2, true, ⟨40, 0⟩, ⟨40, 0⟩, 2⟩) { mem := fun _ => [] } [.start]).map fun s => s.queued[0]?) =
      some (some ⟨0, .first, 0, 0, ⟨40, 0⟩, heapData 1 2 0⟩) := by decide +kernel
  obtain ⟨r, items, h3, h4⟩ := checkRun_spec (h := heapOf ⟨2, 1, 1, 1, 2, true, ⟨40, 0⟩, ⟨40, 0⟩, 2⟩ ⟨0, .first, 0, 0, ⟨40, 0⟩, heapData 1 2 0⟩) (cnt := 1) (mps := 1472)
    (v := .inconsistent 0x1000) (by decide +kernel)
  cases hr : St.run ⟨2, 1, 1, 1, 2, true, ⟨40, 0⟩, ⟨40, 0⟩, 2⟩ (fill ⟨2, 1, 1, 1, 2, true, ⟨40, 0⟩, ⟨40, 0⟩, 2⟩) { mem := fun _ => [] } [.start] with
  | none => rw [hr] at h; cases h
  | some s =>
    rw [hr] at h
    exact ⟨⟨2, 1, 1, 1, 2, true, ⟨40, 0⟩, ⟨40, 0⟩, 2⟩, s, _, r, items, rfl, hr, List.mem_of_getElem? (Option.some.inj h), rfl, h3, h4⟩

end Spead2.VerifyTool
