import Verif.Lemmas.LiveHeap
import Verif.Spec.Stream

namespace Spead2
open Spec

/-! ### Lists -/

theorem length_le_of_nodup_lt : ∀ (n : Nat) (l : List Nat), l.Nodup → (∀ x ∈ l, x < n) → l.length ≤ n
  | 0, l, _, h => by
    cases l with
    | nil => simp
    | cons x l => exact absurd (h x (by simp)) (by omega)
  | n + 1, l, hn, h => by
    have h1 := length_le_of_nodup_lt n (l.filter (· ≠ n)) (hn.sublist List.filter_sublist) (by
      intro x hx
      obtain ⟨hx1, hx2⟩ := List.mem_filter.1 hx
      have := h x hx1
      have : x ≠ n := by simpa using hx2
      omega)
    have h2 : l.length ≤ (l.filter (· ≠ n)).length + 1 := by
      clear h h1
      induction l with
      | nil => simp
      | cons x l ih =>
        rw [List.nodup_cons] at hn
        rw [List.filter_cons]
        by_cases hx : x = n
        · subst hx
          have : l.filter (· ≠ x) = l := by
            rw [List.filter_eq_self]
            intro y hy
            have : y ≠ x := fun e => hn.1 (e ▸ hy)
            simpa using this
          rw [if_neg (by simp), this]
          simp
        · have := ih hn.2
          rw [if_pos (by simpa using hx)]
          simp only [List.length_cons]
          omega
    omega

attribute [local irreducible] StreamConfig.bucketOf StreamConfig.bucketCount

/-! ### Chains -/

/-- The chain that starts with link `l` has the given entries. -/
def ChainAt (slots : List Slot) : Link → List Nat → Prop
  | l, [] => l = .null
  | l, i :: rest => l = .entry i ∧ ∃ nx, slots[i]?.map Slot.next = some nx ∧ ChainAt slots nx rest

theorem ChainAt.ne_invalid {slots : List Slot} {l : Link} {C : List Nat} (h : ChainAt slots l C) : l ≠ .invalid := by
  cases C with
  | nil => rw [show l = .null from h]; simp
  | cons i C => rw [show l = .entry i from h.1]; simp

theorem ChainAt.frame {slots slots' : List Slot} {l : Link} {C : List Nat} (h : ChainAt slots l C)
    (hf : ∀ i ∈ C, slots'[i]?.map Slot.next = slots[i]?.map Slot.next) : ChainAt slots' l C := by
  induction C generalizing l with
  | nil => exact h
  | cons i C ih =>
    obtain ⟨h1, nx, h2, h3⟩ := h
    exact ⟨h1, nx, by rw [hf i (by simp), h2], ih h3 (fun j hj => hf j (by simp [hj]))⟩

theorem set_next {slots : List Slot} {j i : Nat} {sl : Slot} (hj : j < slots.length) :
    (slots.set j sl)[i]?.map Slot.next = if i = j then some sl.next else slots[i]?.map Slot.next := by
  rw [List.getElem?_set]
  by_cases h : j = i
  · subst h; simp [hj]
  · rw [if_neg h, if_neg (fun e => h e.symm)]

/-- Following the chain from `r`, the loop of `unlink_entry` finds the reference to `i`. -/
theorem unlinkLoop_spec {s : Stream} {i : Nat} {post : List Nat} : ∀ {pre : List Nat} {fuel : Nat} {r : LinkRef} {l : Link},
    s.deref r = some l → ChainAt s.slots l (pre ++ i :: post) → i ∉ pre → pre.length < fuel →
    s.unlinkLoop i fuel r = some (match pre.getLast? with | none => r | some j => .next j)
  | pre, 0, _, _, _, _, _, hf => by omega
  | [], fuel + 1, r, l, hd, hc, _, _ => by
    obtain ⟨h1, _⟩ := hc
    simp [Stream.unlinkLoop, hd, h1]
  | j :: pre, fuel + 1, r, l, hd, hc, hn, hf => by
    obtain ⟨h1, nx, h2, h3⟩ := hc
    rw [List.mem_cons, not_or] at hn
    simp only [Stream.unlinkLoop, hd, h1]
    rw [if_neg (fun e => hn.1 e.symm)]
    have := unlinkLoop_spec (pre := pre) (fuel := fuel) (r := .next j) (l := nx) (by simpa [Stream.deref] using h2) h3 hn.2
      (by simp at hf; omega)
    rw [this]
    cases hp : pre.getLast? with
    | none =>
      rw [List.getLast?_eq_none_iff] at hp
      subst hp; rfl
    | some k => rw [List.getLast?_cons, hp]; rfl

theorem chain_nodup_ne {pre post : List Nat} {i : Nat} (h : (pre ++ i :: post).Nodup) : i ∉ pre ∧ i ∉ post := by
  rw [List.nodup_append] at h
  obtain ⟨_, h2, h3⟩ := h
  rw [List.nodup_cons] at h2
  exact ⟨fun hi => h3 i hi i (by simp) rfl, h2.1⟩

theorem ChainAt.next_of {slots : List Slot} {l : Link} {pre post : List Nat} {i : Nat} (h : ChainAt slots l (pre ++ i :: post)) :
    ∃ nx, slots[i]?.map Slot.next = some nx ∧ ChainAt slots nx post := by
  induction pre generalizing l with
  | nil => exact h.2
  | cons j pre ih => obtain ⟨_, nx, _, h3⟩ := h; exact ih h3

/-- Redirecting the `next` field of the predecessor removes an entry from its chain. -/
theorem ChainAt.skip {slots : List Slot} {l nx : Link} {pre post : List Nat} {i j : Nat} {slj : Slot}
    (h : ChainAt slots l (pre ++ j :: i :: post)) (hnd : (pre ++ j :: i :: post).Nodup) (hj : j < slots.length)
    (hi : slots[i]?.map Slot.next = some nx) (hs : slj.next = nx) : ChainAt (slots.set j slj) l (pre ++ j :: post) := by
  induction pre generalizing l with
  | nil =>
    obtain ⟨h1, nxj, _, h3⟩ := h
    obtain ⟨h4, nxi, h5, h6⟩ := h3
    rw [hi] at h5
    simp only [Option.some.injEq] at h5
    subst h5
    refine ⟨h1, nx, by rw [set_next hj, if_pos rfl, hs], ?_⟩
    apply h6.frame
    intro k hk
    rw [set_next hj, if_neg]
    intro e
    subst e
    simp at hnd
    exact hnd.1.2 hk
  | cons k pre ih =>
    obtain ⟨h1, nxk, h2, h3⟩ := h
    rw [List.cons_append, List.nodup_cons] at hnd
    refine ⟨h1, nxk, ?_, ih h3 hnd.2⟩
    rw [set_next hj, if_neg, h2]
    intro e
    exact hnd.1 (by rw [e]; simp)

/-! ### The table of live heaps -/

/-- The slots and buckets hold exactly the live heaps `L` (entry number and heap, newest first). -/
structure Core (cfg : StreamConfig) (s : Stream) (L : List (Nat × Entry)) : Prop where
  nslots : s.slots.length = cfg.maxHeaps * cfg.substreams
  nbuckets : s.buckets.length = cfg.bucketCount
  nodup : (L.map Prod.fst).Nodup
  used : ∀ x ∈ L, ∃ nx, s.slots[x.1]? = some ⟨nx, some x.2⟩ ∧ nx ≠ .invalid
  free : ∀ i, i < s.slots.length → i ∉ L.map Prod.fst → s.slots[i]? = some ⟨.invalid, none⟩
  chain : ∀ b, b < cfg.bucketCount → ∃ l, s.buckets[b]? = some l ∧
    ChainAt s.slots l ((L.filter (fun x => cfg.bucketOf x.2.heap.cnt = b)).map Prod.fst)

theorem Core.lt {cfg : StreamConfig} {s : Stream} {L : List (Nat × Entry)} (h : Core cfg s L) {x : Nat × Entry} (hx : x ∈ L) :
    x.1 < s.slots.length := by
  obtain ⟨nx, h1, _⟩ := h.used x hx
  rcases Nat.lt_or_ge x.1 s.slots.length with h2 | h2
  · exact h2
  · rw [List.getElem?_eq_none h2] at h1; simp at h1

theorem Core.length_le {cfg : StreamConfig} {s : Stream} {L : List (Nat × Entry)} (h : Core cfg s L) : L.length ≤ s.slots.length := by
  have := length_le_of_nodup_lt s.slots.length (L.map Prod.fst) h.nodup (by
    intro i hi
    obtain ⟨x, hx, rfl⟩ := List.mem_map.1 hi
    exact h.lt hx)
  simpa using this

theorem search_spec {s : Stream} {cnt : Nat} : ∀ {C : List (Nat × Entry)} {fuel : Nat} {l : Link} {d : Nat},
    ChainAt s.slots l (C.map Prod.fst) → (∀ x ∈ C, ∃ nx, s.slots[x.1]? = some ⟨nx, some x.2⟩) → C.length < fuel →
    ∃ d', s.search cnt fuel l d = some ((C.find? (fun x => x.2.heap.cnt = cnt)).map Prod.fst, d') ∧ d ≤ d' ∧ d' ≤ d + C.length
  | C, 0, _, _, _, _, h => by omega
  | [], fuel + 1, l, d, hc, _, _ => by
    rw [show l = .null from hc]
    exact ⟨d, rfl, by omega, by simp⟩
  | x :: C, fuel + 1, l, d, hc, hu, hf => by
    obtain ⟨h1, nx, h2, h3⟩ := hc
    rw [h1]
    obtain ⟨nx', hx⟩ := hu x (by simp)
    have hnx : nx' = nx := by rw [hx] at h2; simpa using h2
    subst hnx
    simp only [Stream.search, hx]
    by_cases hcnt : x.2.heap.cnt = cnt
    · exact ⟨d, by simp [hcnt], by omega, by omega⟩
    · rw [if_neg hcnt]
      obtain ⟨d', h4, h5, h6⟩ := search_spec (C := C) (fuel := fuel) (l := nx') (d := d + 1) h3 (fun y hy => hu y (by simp [hy]))
        (by simp at hf; omega)
      refine ⟨d', ?_, by omega, by simp only [List.length_cons]; omega⟩
      rw [h4]
      simp [hcnt]

theorem getElem?_of_mem_pair {L : List (Nat × Entry)} (hn : (L.map Prod.fst).Nodup) {x y : Nat × Entry} (hx : x ∈ L) (hy : y ∈ L)
    (h : x.1 = y.1) : x = y := by
  induction L with
  | nil => simp at hx
  | cons z L ih =>
    rw [List.map_cons, List.nodup_cons] at hn
    rcases List.mem_cons.1 hx with hx' | hx' <;> rcases List.mem_cons.1 hy with hy' | hy'
    · rw [hx', hy']
    · exact absurd (List.mem_map.2 ⟨y, hy', by rw [← h, hx']⟩) hn.1
    · exact absurd (List.mem_map.2 ⟨x, hx', by rw [h, hy']⟩) hn.1
    · exact ih hn.2 hx' hy'

/-- Splitting the chain of a live heap's bucket at that heap. -/
theorem chain_split {L : List (Nat × Entry)} (hn : (L.map Prod.fst).Nodup) (f : Nat × Entry → Bool) {x : Nat × Entry} (hx : x ∈ L)
    (hf : f x = true) : ∃ pre post, (L.filter f).map Prod.fst = pre ++ x.1 :: post ∧
      ((L.filter (fun y => y.1 ≠ x.1)).filter f).map Prod.fst = pre ++ post ∧ (pre ++ x.1 :: post).Nodup := by
  obtain ⟨a, b, rfl⟩ := List.append_of_mem hx
  have hnd : ((List.filter f (a ++ x :: b)).map Prod.fst).Nodup := hn.sublist (List.filter_sublist.map _)
  refine ⟨(a.filter f).map Prod.fst, (b.filter f).map Prod.fst, ?_, ?_, ?_⟩
  · simp [List.filter_cons, hf]
  · rw [List.map_append, List.map_cons] at hn
    obtain ⟨h1, h2⟩ := chain_nodup_ne hn
    have ha : a.filter (fun y => y.1 ≠ x.1) = a := by
      rw [List.filter_eq_self]
      intro y hy
      have : y.1 ≠ x.1 := fun e => h1 (e ▸ List.mem_map_of_mem hy)
      simpa using this
    have hb : b.filter (fun y => y.1 ≠ x.1) = b := by
      rw [List.filter_eq_self]
      intro y hy
      have : y.1 ≠ x.1 := fun e => h2 (e ▸ List.mem_map_of_mem hy)
      simpa using this
    rw [List.filter_append, List.filter_cons, ha, hb]
    simp
  · have : (List.filter f (a ++ x :: b)).map Prod.fst = (a.filter f).map Prod.fst ++ x.1 :: (b.filter f).map Prod.fst := by
      simp [List.filter_cons, hf]
    rw [← this]; exact hnd

/-- Everything but slots and buckets is the same. -/
def SameRest (s s' : Stream) : Prop :=
  s'.heads = s.heads ∧ s'.stopped = s.stopped ∧ s'.stats = s.stats ∧ s'.created = s.created

/-- Unlinking and destroying a live heap. -/
theorem remove_spec {cfg : StreamConfig} {s : Stream} {L : List (Nat × Entry)} (h : Core cfg s L)
    (hb : ∀ cnt, cfg.bucketOf cnt < cfg.bucketCount) {x : Nat × Entry} (hx : x ∈ L) :
    ∃ s1 s2, s.unlink cfg x.1 = some s1 ∧ s1.destroy x.1 = some s2 ∧ Core cfg s2 (L.filter (fun y => y.1 ≠ x.1)) ∧ SameRest s s2 := by
  obtain ⟨nx, hsl, hnx⟩ := h.used x hx
  have hlt := h.lt hx
  obtain ⟨l, hl, hch⟩ := h.chain _ (hb x.2.heap.cnt)
  obtain ⟨pre, post, he, he', hnd⟩ := chain_split h.nodup (fun y => cfg.bucketOf y.2.heap.cnt = cfg.bucketOf x.2.heap.cnt) hx
    (by simp)
  rw [he] at hch
  obtain ⟨hi1, hi2⟩ := chain_nodup_ne hnd
  have hprelen : pre.length < s.slots.length + 1 := by
    have h1 := congrArg List.length he
    have h2 := h.length_le
    have h3 : (L.filter (fun y => decide (cfg.bucketOf y.2.heap.cnt = cfg.bucketOf x.2.heap.cnt))).length ≤ L.length :=
      List.length_filter_le _ _
    simp only [List.length_map, List.length_append, List.length_cons] at h1
    omega
  have hloop := unlinkLoop_spec (s := s) (i := x.1) (post := post) (pre := pre) (fuel := s.slots.length + 1)
    (r := .bucket (cfg.bucketOf x.2.heap.cnt)) (l := l) hl hch hi1 hprelen
  obtain ⟨nx', hnx1, hnx2⟩ := hch.next_of
  have : nx' = nx := by rw [hsl] at hnx1; simpa using hnx1.symm
  subst this
  -- members of other chains
  have hother : ∀ b, b ≠ cfg.bucketOf x.2.heap.cnt → x.1 ∉ (L.filter (fun y => cfg.bucketOf y.2.heap.cnt = b)).map Prod.fst := by
    intro b hbne hmem
    obtain ⟨y, hy, hyx⟩ := List.mem_map.1 hmem
    obtain ⟨hyL, hyb⟩ := List.mem_filter.1 hy
    have : y = x := getElem?_of_mem_pair h.nodup hyL hx hyx
    subst this
    exact hbne (by simpa using (of_decide_eq_true hyb).symm)
  have hfil : ∀ b, b ≠ cfg.bucketOf x.2.heap.cnt → (L.filter (fun y => y.1 ≠ x.1)).filter (fun y => cfg.bucketOf y.2.heap.cnt = b) =
      L.filter (fun y => cfg.bucketOf y.2.heap.cnt = b) := by
    intro b hbne
    rw [List.filter_filter]
    apply List.filter_congr
    intro y hy
    by_cases hyb : cfg.bucketOf y.2.heap.cnt = b
    · have : y.1 ≠ x.1 := by
        intro e
        have : y = x := getElem?_of_mem_pair h.nodup hy hx e
        subst this
        exact hbne hyb.symm
      simp [hyb, this]
    · simp [hyb]
  have hremnd : ((L.filter (fun y => y.1 ≠ x.1)).map Prod.fst).Nodup := h.nodup.sublist (List.filter_sublist.map _)
  have hremmem : ∀ i, i ∉ (L.filter (fun y => y.1 ≠ x.1)).map Prod.fst → i ≠ x.1 → i ∉ L.map Prod.fst := by
    intro i hi hne hmem
    obtain ⟨y, hy, rfl⟩ := List.mem_map.1 hmem
    exact hi (List.mem_map.2 ⟨y, List.mem_filter.2 ⟨hy, by simpa using hne⟩, rfl⟩)
  have hunl : s.unlink cfg x.1 = ((match pre.getLast? with | none => LinkRef.bucket (cfg.bucketOf x.2.heap.cnt) | some j => .next j) |>
      fun r => (s.store r nx').bind (fun s => s.setNext x.1 .invalid)) := by
    unfold Stream.unlink
    simp only [hsl, Option.bind_eq_bind, Option.bind_some, hloop]
  cases hp : pre.getLast? with
  | none =>
    rw [List.getLast?_eq_none_iff] at hp
    subst hp
    simp only [List.getLast?_nil] at hunl
    have hblt : cfg.bucketOf x.2.heap.cnt < s.buckets.length := by rw [h.nbuckets]; exact hb _
    simp only [Stream.store, if_pos hblt, Option.bind_some, Stream.setNext, hsl] at hunl
    refine ⟨_, { s with slots := (s.slots.set x.1 ⟨Link.invalid, some x.2⟩).set x.1 ⟨Link.invalid, none⟩,
                        buckets := s.buckets.set (cfg.bucketOf x.2.heap.cnt) nx' }, hunl, by
      have : (s.slots.set x.1 ⟨Link.invalid, some x.2⟩)[x.1]? = some ⟨Link.invalid, some x.2⟩ := List.getElem?_set_self hlt
      simp only [Stream.destroy, this], ?_, rfl, rfl, rfl, rfl⟩
    simp only [List.set_set]
    refine ⟨by simp [h.nslots], by simp [h.nbuckets], hremnd, ?_, ?_, ?_⟩
    · intro y hy
      obtain ⟨hyL, hyne⟩ := List.mem_filter.1 hy
      have hyne : y.1 ≠ x.1 := by simpa using hyne
      obtain ⟨ny, h1, h2⟩ := h.used y hyL
      exact ⟨ny, by rw [List.getElem?_set, if_neg (fun e => hyne e.symm), h1], h2⟩
    · intro i hi hmem
      simp only [List.length_set] at hi
      rw [List.getElem?_set]
      by_cases hix : x.1 = i
      · subst hix; rw [if_pos rfl, if_pos hlt]
      · rw [if_neg hix]
        exact h.free i hi (hremmem i hmem (fun e => hix e.symm))
    · intro b hbb
      by_cases hbe : cfg.bucketOf x.2.heap.cnt = b
      · subst hbe
        refine ⟨nx', by rw [List.getElem?_set, if_pos rfl, if_pos hblt], ?_⟩
        rw [he', List.nil_append]
        apply hnx2.frame
        intro k hk
        rw [set_next hlt, if_neg]
        intro e
        exact hi2 (e ▸ hk)
      · obtain ⟨l', hl', hch'⟩ := h.chain b hbb
        refine ⟨l', by rw [List.getElem?_set, if_neg hbe, hl'], ?_⟩
        rw [hfil b (fun e => hbe e.symm)]
        apply hch'.frame
        intro k hk
        rw [set_next hlt, if_neg]
        intro e
        exact hother b (fun e => hbe e.symm) (e ▸ hk)
  | some j =>
    obtain ⟨pre', rfl⟩ : ∃ pre', pre = pre' ++ [j] := List.getLast?_eq_some_iff.1 hp
    rw [hp] at hunl
    have hjL : j ∈ (L.filter (fun y => decide (cfg.bucketOf y.2.heap.cnt = cfg.bucketOf x.2.heap.cnt))).map Prod.fst := by
      rw [he]; simp
    obtain ⟨yj, hyj, hyje⟩ := List.mem_map.1 hjL
    obtain ⟨hyjL, hyjb⟩ := List.mem_filter.1 hyj
    obtain ⟨nj, hslj, hnj⟩ := h.used yj hyjL
    rw [hyje] at hslj
    have hjlt : j < s.slots.length := by rw [← hyje]; exact h.lt hyjL
    have hjx : j ≠ x.1 := by
      intro e
      exact hi1 (by rw [← e]; simp)
    simp only [Stream.store, Stream.setNext, hslj, Option.bind_some, List.getElem?_set, if_neg hjx, hsl] at hunl
    refine ⟨_, { s with slots := ((s.slots.set j ⟨nx', some yj.2⟩).set x.1 ⟨Link.invalid, some x.2⟩).set x.1 ⟨Link.invalid, none⟩ },
      hunl, by
      have : ((s.slots.set j ⟨nx', some yj.2⟩).set x.1 ⟨Link.invalid, some x.2⟩)[x.1]? = some ⟨Link.invalid, some x.2⟩ :=
        List.getElem?_set_self (by simpa using hlt)
      simp only [Stream.destroy, this], ?_, rfl, rfl, rfl, rfl⟩
    simp only [List.set_set]
    have hnext : ∀ k, ((s.slots.set j ⟨nx', some yj.2⟩).set x.1 ⟨.invalid, none⟩)[k]?.map Slot.next =
        if k = x.1 then some .invalid else (s.slots.set j ⟨nx', some yj.2⟩)[k]?.map Slot.next := by
      intro k
      rw [set_next (by simpa using hlt)]
    refine ⟨by simp [h.nslots], h.nbuckets, hremnd, ?_, ?_, ?_⟩
    · intro y hy
      obtain ⟨hyL, hyne⟩ := List.mem_filter.1 hy
      have hyne : y.1 ≠ x.1 := by simpa using hyne
      obtain ⟨ny, h1, h2⟩ := h.used y hyL
      have hxy : ¬ x.1 = y.1 := fun e => hyne e.symm
      simp only [List.getElem?_set, if_neg hxy]
      by_cases hyj' : j = y.1
      · have : y = yj := getElem?_of_mem_pair h.nodup hyL hyjL (by rw [← hyj', hyje])
        subst this
        rw [if_pos hyj', if_pos hjlt]
        refine ⟨nx', rfl, hnx⟩
      · rw [if_neg hyj']
        exact ⟨ny, h1, h2⟩
    · intro i hi hmem
      simp only [List.length_set] at hi
      rw [List.getElem?_set]
      by_cases hix : x.1 = i
      · subst hix; rw [if_pos rfl, if_pos (by simpa using hlt)]
      · rw [if_neg hix]
        have := hremmem i hmem (fun e => hix e.symm)
        rw [List.getElem?_set, if_neg]
        · exact h.free i hi this
        · intro e
          subst e
          exact this (List.mem_map.2 ⟨yj, hyjL, hyje⟩)
    · intro b hbb
      by_cases hbe : cfg.bucketOf x.2.heap.cnt = b
      · subst hbe
        refine ⟨l, hl, ?_⟩
        rw [he']
        rw [List.append_assoc, List.cons_append, List.nil_append] at hch hnd ⊢
        have := hch.skip (slj := ⟨nx', some yj.2⟩) hnd hjlt hnx1 rfl
        apply this.frame
        intro k hk
        rw [hnext, if_neg]
        intro e
        subst e
        rcases List.mem_append.1 hk with hk | hk
        · exact hi1 (by simp [hk])
        · rcases List.mem_cons.1 hk with hk | hk
          · exact hjx hk.symm
          · exact hi2 hk
      · obtain ⟨l', hl', hch'⟩ := h.chain b hbb
        refine ⟨l', hl', ?_⟩
        rw [hfil b (fun e => hbe e.symm)]
        apply hch'.frame
        intro k hk
        rw [hnext, if_neg, set_next hjlt, if_neg]
        · intro e
          subst e
          obtain ⟨y, hy, hye⟩ := List.mem_map.1 hk
          obtain ⟨hyL, hyb⟩ := List.mem_filter.1 hy
          have : y = yj := getElem?_of_mem_pair h.nodup hyL hyjL (by rw [hye, hyje])
          subst this
          exact hbe ((of_decide_eq_true hyjb).symm.trans (of_decide_eq_true hyb))
        · intro e
          exact hother b (fun e => hbe e.symm) (e ▸ hk)


theorem eject_spec {cfg : StreamConfig} {s : Stream} {L : List (Nat × Entry)} (h : Core cfg s L)
    (hb : ∀ cnt, cfg.bucketOf cnt < cfg.bucketCount) {i : Nat} (hi : i < s.slots.length) :
    ∃ s', s.eject cfg i = some (s', (L.find? (fun x => x.1 = i)).toList.map Prod.snd) ∧
      Core cfg s' (L.filter (fun y => y.1 ≠ i)) ∧ SameRest s s' := by
  cases hf : L.find? (fun x => x.1 = i) with
  | none =>
    rw [List.find?_eq_none] at hf
    have hfree := h.free i hi (by
      intro hmem
      obtain ⟨x, hx, hxi⟩ := List.mem_map.1 hmem
      exact hf x hx (by simpa using hxi))
    refine ⟨s, by simp [Stream.eject, hfree], ?_, rfl, rfl, rfl, rfl⟩
    rw [List.filter_eq_self.2]
    · exact h
    · intro y hy
      simpa using hf y hy
  | some x =>
    have hx := List.mem_of_find?_eq_some hf
    have hxi : x.1 = i := by simpa using List.find?_some hf
    subst hxi
    obtain ⟨nx, hsl, hnx⟩ := h.used x hx
    obtain ⟨s1, s2, h1, h2, h3, h4⟩ := remove_spec h hb hx
    refine ⟨s2, ?_, h3, h4⟩
    simp [Stream.eject, hsl, hnx, h1, h2]

theorem construct_spec {cfg : StreamConfig} {s : Stream} {L : List (Nat × Entry)} (h : Core cfg s L)
    (hb : ∀ cnt, cfg.bucketOf cnt < cfg.bucketCount) {i : Nat} (hi : i < s.slots.length) (hn : i ∉ L.map Prod.fst) (p : Pkt) :
    ∃ s', s.construct cfg i p = some s' ∧ Core cfg s' ((i, ⟨s.created, [], LiveHeap.new p⟩) :: L) ∧
      s'.heads = s.heads ∧ s'.stopped = s.stopped ∧ s'.stats = s.stats ∧ s'.created = s.created + 1 := by
  have hfree := h.free i hi hn
  obtain ⟨l, hl, hch⟩ := h.chain _ (hb p.heapCnt)
  have hbl : cfg.bucketOf p.heapCnt < s.buckets.length := by rw [h.nbuckets]; exact hb _
  refine ⟨{ s with slots := s.slots.set i ⟨l, some ⟨s.created, [], LiveHeap.new p⟩⟩,
                   buckets := s.buckets.set (cfg.bucketOf p.heapCnt) (.entry i), created := s.created + 1 }, ?_, ?_, rfl, rfl, rfl, rfl⟩
  · have : (s.slots.set i ⟨l, none⟩)[i]? = some ⟨l, none⟩ := List.getElem?_set_self hi
    have hst : ∀ l' : Link, Stream.store { s with slots := s.slots.set i ⟨l, none⟩ } (.bucket (cfg.bucketOf p.heapCnt)) l' =
        some { s with slots := s.slots.set i ⟨l, none⟩, buckets := s.buckets.set (cfg.bucketOf p.heapCnt) l' } := by
      intro l'
      simp only [Stream.store, if_pos hbl]
    have hsn : s.setNext i l = some { s with slots := s.slots.set i ⟨l, none⟩ } := by
      unfold Stream.setNext; rw [hfree]
    unfold Stream.construct
    rw [Option.bind_eq_bind, hl, Option.bind_some, hsn, Option.bind_eq_bind, Option.bind_some, hst, Option.bind_some]
    dsimp only
    rw [this]
    dsimp only
    rw [List.set_set]
  · have hni : ∀ y ∈ L, i ≠ y.1 := fun y hy e => hn (e ▸ List.mem_map_of_mem hy)
    refine ⟨by simp [h.nslots], by simp [h.nbuckets], ?_, ?_, ?_, ?_⟩
    · rw [List.map_cons, List.nodup_cons]; exact ⟨hn, h.nodup⟩
    · intro x hx
      rcases List.mem_cons.1 hx with rfl | hx
      · exact ⟨l, List.getElem?_set_self hi, hch.ne_invalid⟩
      · obtain ⟨nx, h1, h2⟩ := h.used x hx
        exact ⟨nx, by rw [List.getElem?_set, if_neg (hni x hx), h1], h2⟩
    · intro j hj hmem
      rw [List.map_cons, List.mem_cons, not_or] at hmem
      simp only [List.length_set] at hj
      rw [List.getElem?_set, if_neg (fun e => hmem.1 e.symm)]
      exact h.free j hj hmem.2
    · intro b hbb
      have hframe : ∀ (l' : Link) (f : Nat × Entry → Bool), ChainAt s.slots l' ((L.filter f).map Prod.fst) →
          ChainAt (s.slots.set i ⟨l, some ⟨s.created, [], LiveHeap.new p⟩⟩) l' ((L.filter f).map Prod.fst) := by
        intro l' f hc
        apply hc.frame
        intro k hk
        rw [set_next hi, if_neg]
        intro e
        subst e
        obtain ⟨y, hy, hyk⟩ := List.mem_map.1 hk
        exact hni y (List.mem_filter.1 hy).1 hyk.symm
      by_cases hbe : cfg.bucketOf p.heapCnt = b
      · subst hbe
        refine ⟨.entry i, List.getElem?_set_self hbl, ?_⟩
        rw [List.filter_cons, if_pos (by simp [LiveHeap.new])]
        exact ⟨rfl, l, by rw [set_next hi, if_pos rfl], hframe _ _ hch⟩
      · obtain ⟨l', hl', hch'⟩ := h.chain b hbb
        refine ⟨l', by rw [List.getElem?_set, if_neg hbe, hl'], ?_⟩
        rw [List.filter_cons, if_neg (by simp [LiveHeap.new, hbe])]
        exact hframe _ _ hch'

theorem putHeap_spec {cfg : StreamConfig} {s : Stream} {L : List (Nat × Entry)} (h : Core cfg s L) {x : Nat × Entry} (hx : x ∈ L)
    {e' : Entry} (he : e'.heap.cnt = x.2.heap.cnt) :
    ∃ s', s.putHeap x.1 e' = some s' ∧ Core cfg s' (L.map (fun y => if y.1 = x.1 then (y.1, e') else y)) ∧ SameRest s s' := by
  obtain ⟨nx, hsl, hnx⟩ := h.used x hx
  have hlt := h.lt hx
  have hfst : (L.map (fun y => if y.1 = x.1 then (y.1, e') else y)).map Prod.fst = L.map Prod.fst := by
    rw [List.map_map]
    apply List.map_congr_left
    intro y _
    by_cases hy : y.1 = x.1 <;> simp [hy]
  refine ⟨{ s with slots := s.slots.set x.1 ⟨nx, some e'⟩ }, by unfold Stream.putHeap; rw [hsl], ?_, rfl, rfl, rfl, rfl⟩
  refine ⟨by simp [h.nslots], h.nbuckets, by rw [hfst]; exact h.nodup, ?_, ?_, ?_⟩
  · intro y hy
    obtain ⟨z, hz, rfl⟩ := List.mem_map.1 hy
    by_cases hzx : z.1 = x.1
    · rw [if_pos hzx]
      exact ⟨nx, by rw [hzx]; exact List.getElem?_set_self hlt, hnx⟩
    · rw [if_neg hzx]
      obtain ⟨nz, h1, h2⟩ := h.used z hz
      exact ⟨nz, by rw [List.getElem?_set, if_neg (fun e => hzx e.symm), h1], h2⟩
  · intro j hj hmem
    rw [hfst] at hmem
    simp only [List.length_set] at hj
    have hxj : x.1 ≠ j := by
      intro e
      exact hmem (e ▸ List.mem_map_of_mem hx)
    rw [List.getElem?_set, if_neg hxj]
    exact h.free j hj hmem
  · intro b hbb
    obtain ⟨l, hl, hch⟩ := h.chain b hbb
    refine ⟨l, hl, ?_⟩
    have heq : ∀ M : List (Nat × Entry), (∀ y ∈ M, y ∈ L) →
        ((M.map (fun y => if y.1 = x.1 then (y.1, e') else y)).filter (fun y => cfg.bucketOf y.2.heap.cnt = b)).map Prod.fst =
        (M.filter (fun y => cfg.bucketOf y.2.heap.cnt = b)).map Prod.fst := by
      intro M hM
      induction M with
      | nil => rfl
      | cons y M ih =>
        have ih' := ih (fun z hz => hM z (List.mem_cons_of_mem _ hz))
        have hbe : cfg.bucketOf (if y.1 = x.1 then (y.1, e') else y).2.heap.cnt = cfg.bucketOf y.2.heap.cnt := by
          by_cases hyx : y.1 = x.1
          · have : y = x := getElem?_of_mem_pair h.nodup (hM y List.mem_cons_self) hx hyx
            rw [if_pos hyx, this, he]
          · rw [if_neg hyx]
        have hfe : (if y.1 = x.1 then (y.1, e') else y).1 = y.1 := by
          by_cases hyx : y.1 = x.1
          · rw [if_pos hyx]
          · rw [if_neg hyx]
        rw [List.map_cons, List.filter_cons, List.filter_cons, hbe]
        by_cases hyb : cfg.bucketOf y.2.heap.cnt = b
        · rw [if_pos (decide_eq_true hyb), if_pos (decide_eq_true hyb), List.map_cons, List.map_cons, ih', hfe]
        · rw [if_neg (fun e => hyb (of_decide_eq_true e)), if_neg (fun e => hyb (of_decide_eq_true e)), ih']
    rw [heq L (fun _ hy => hy)]
    apply hch.frame
    intro k hk
    rw [set_next hlt]
    by_cases hkx : k = x.1
    · rw [if_pos hkx, hkx, hsl]; rfl
    · rw [if_neg hkx]

theorem bucket_search_spec {cfg : StreamConfig} {s : Stream} {L : List (Nat × Entry)} (h : Core cfg s L)
    (hb : ∀ cnt, cfg.bucketOf cnt < cfg.bucketCount) (cnt : Nat) :
    ∃ l d, s.buckets[cfg.bucketOf cnt]? = some l ∧
      s.search cnt (s.slots.length + 1) l 1 = some ((L.find? (fun x => x.2.heap.cnt = cnt)).map Prod.fst, d) := by
  obtain ⟨l, hl, hch⟩ := h.chain _ (hb cnt)
  obtain ⟨d, hd, _⟩ := search_spec (cnt := cnt) (fuel := s.slots.length + 1) (d := 1) hch (by
    intro x hx
    obtain ⟨nx, h1, _⟩ := h.used x (List.mem_filter.1 hx).1
    exact ⟨nx, h1⟩) (by
    have h1 := h.length_le
    have h2 : (L.filter (fun y => decide (cfg.bucketOf y.2.heap.cnt = cfg.bucketOf cnt))).length ≤ L.length :=
      List.length_filter_le _ _
    omega)
  refine ⟨l, d, hl, ?_⟩
  rw [hd, List.find?_filter]
  congr 3
  congr 1
  funext x
  by_cases hx : x.2.heap.cnt = cnt <;> simp [hx]

/-! ### Hash buckets -/

attribute [local semireducible] StreamConfig.bucketOf StreamConfig.bucketCount

theorem bucketLoop_pow (total : Nat) : ∀ (fuel k : Nat), ∃ k', k ≤ k' ∧ bucketLoop total fuel (2 ^ k) = 2 ^ k'
  | 0, k => ⟨k, Nat.le_refl _, rfl⟩
  | fuel + 1, k => by
    unfold bucketLoop
    by_cases h : 2 ^ k < total
    · rw [if_pos h, ← Nat.pow_succ]
      obtain ⟨k', h1, h2⟩ := bucketLoop_pow total fuel (k + 1)
      exact ⟨k', by omega, h2⟩
    · rw [if_neg h]; exact ⟨k, Nat.le_refl _, rfl⟩

theorem bucketLoop_ge (total : Nat) : ∀ (fuel b : Nat), 0 < b → total ≤ b + fuel → total ≤ bucketLoop total fuel b
  | 0, b, _, h => by simpa [bucketLoop] using h
  | fuel + 1, b, hb, h => by
    unfold bucketLoop
    by_cases h' : b < total
    · rw [if_pos h']; exact bucketLoop_ge total fuel (b * 2) (by omega) (by omega)
    · rw [if_neg h']; omega

theorem computeBucketCount_pow (total : Nat) : ∃ k, 4 ≤ k ∧ computeBucketCount total = 2 ^ k ∧ 4 * total ≤ 2 ^ k := by
  obtain ⟨k, h1, h2⟩ := bucketLoop_pow total total 2
  have h3 := bucketLoop_ge total total 4 (by omega) (by omega)
  refine ⟨k + 2, by omega, ?_, ?_⟩
  · unfold computeBucketCount
    rw [show (4 : Nat) = 2 ^ 2 from rfl, h2, Nat.pow_add]
  · rw [show (4 : Nat) = 2 ^ 2 from rfl] at h3
    rw [h2] at h3
    rw [Nat.pow_add]
    omega

theorem shiftLoop_pow : ∀ (k fuel shift : Nat), k ≤ fuel → shiftLoop fuel (2 ^ k) shift = shift - k
  | 0, 0, shift, _ => by simp [shiftLoop]
  | 0, fuel + 1, shift, _ => by simp [shiftLoop]
  | k + 1, 0, _, h => by omega
  | k + 1, fuel + 1, shift, h => by
    have h1 : 2 ^ (k + 1) > 1 := Nat.one_lt_two_pow (by omega)
    have h2 : 2 ^ (k + 1) >>> 1 = 2 ^ k := by
      rw [Nat.shiftRight_eq_div_pow, Nat.pow_succ]; omega
    rw [shiftLoop, if_pos h1, h2, shiftLoop_pow k fuel (shift - 1) (by omega)]
    omega

theorem bucketOf_lt (cfg : StreamConfig) (cnt : Nat) : cfg.bucketOf cnt < cfg.bucketCount := by
  unfold StreamConfig.bucketOf
  unfold StreamConfig.bucketCount
  obtain ⟨k, _, h2, _⟩ := computeBucketCount_pow (cfg.maxHeaps * cfg.substreams)
  rw [h2]
  have h3 : computeBucketShift (2 ^ k) = 64 - k := shiftLoop_pow k _ 64 (Nat.le_of_lt Nat.lt_two_pow_self)
  rw [h3, Nat.shiftRight_eq_div_pow, Nat.div_lt_iff_lt_mul (Nat.two_pow_pos _), ← Nat.pow_add]
  refine Nat.lt_of_lt_of_le (Nat.mod_lt _ (Nat.two_pow_pos _)) ?_
  exact Nat.pow_le_pow_right (by omega) (by omega)

end Spead2
