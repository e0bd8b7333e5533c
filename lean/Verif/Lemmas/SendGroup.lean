import Verif.Lemmas.RoundRobin

/-!
# Groups in the send queue: the entries of a group, and taking packets from it
-/

namespace Spead2
open Spec

variable {H π : Type}

/-- The entry with an index. -/
def view (mask : Nat) (sl : SqSlots π) (i : Nat) : Option (SqEntry π) := sl (i &&& mask)

/-- An accepted group that has not been freed: which of its packets the transport is done with, how many it was given, the
heap to take the next from, and the waiting calls of `flush`. -/
structure SGroup (π : Type) where
  acc : Accepted π
  results : List (Option Nat) := []
  got : Nat := 0
  pos : Nat := 0
  ws : List Nat := []

abbrev SGroup.len (g : SGroup π) : Nat := g.acc.hs.length
abbrev SGroup.P (g : SGroup π) : List (π × Nat) := g.acc.packets

/-- What heap `j` of the group at `i` has left. -/
def left (V : Nat → Option (SqEntry π)) (i j : Nat) : List (π × Nat) :=
  match V (i + j) with
  | some e => e.pkts.map (fun p => (p, e.substream))
  | none => []

/-- The round-robin links skip only exhausted heaps. -/
def Links (V : Nat → Option (SqEntry π)) (i len : Nat) : Prop :=
  ∀ j, j < len → ∀ e, V (i + j) = some e → ∃ d, 0 < d ∧ d ≤ len ∧ e.groupNext = i + (j + d) % len ∧ ∀ t, 0 < t → t < d → left V i ((j + t) % len) = []

/-- What is left of a group. -/
def RestOk (V : Nat → Option (SqEntry π)) (i : Nat) (g : SGroup π) : Prop :=
  g.got < g.P.length → g.pos < g.len ∧ left V i g.pos ≠ [] ∧
    match g.acc.mode with
    | .serial => g.P.drop g.got = ((List.range g.len).map (left V i)).flatten ∧ ∀ j, j < g.pos → left V i j = []
    | .roundRobin => g.P.drop g.got = roundRobin ((List.range g.len).map (fun u => left V i ((g.pos + u) % g.len))) ∧ Links V i g.len

/-- The fields of an entry that are fixed when the group is accepted, and the waiters. -/
structure SqEntryOk (g : SGroup π) (i j : Nat) (e : SqEntry π) : Prop where
  gend : e.groupEnd = i + g.len
  mode : e.mode = g.acc.mode
  waiters : e.waiters = if j + 1 = g.len then g.ws else []

/-- The group at index `i`. -/
structure GroupAt (bytes : π → Nat) (V : Nat → Option (SqEntry π)) (i : Nat) (g : SGroup π) : Prop where
  pos : 0 < g.len
  entry : ∀ j, j < g.len → ∃ e, V (i + j) = some e ∧ SqEntryOk g i j e
  first : ∀ e, V i = some e → e.handler = some g.acc.call ∧ e.bytes = sentBytes bytes g.P g.results ∧ e.failed = !(g.results.all Option.isNone)
  rest : RestOk V i g

theorem left_some {V : Nat → Option (SqEntry π)} {i j : Nat} {e : SqEntry π} (h : V (i + j) = some e) : left V i j = e.pkts.map (fun p => (p, e.substream)) := by
  unfold left; rw [h]

theorem left_congr {V V' : Nat → Option (SqEntry π)} {i j : Nat} (h : V' (i + j) = V (i + j)) : left V' i j = left V i j := by
  unfold left; rw [h]

theorem wrap_self {pos t len : Nat} (hpos : pos < len) (ht : 0 < t) (htl : t ≤ len) : (pos + t) % len = pos ↔ t = len := by
  constructor
  · intro h
    rcases Nat.lt_or_ge (pos + t) len with h' | h'
    · rw [Nat.mod_eq_of_lt h'] at h; omega
    · rcases Nat.eq_or_lt_of_le htl with h2 | h2
      · exact h2
      · rw [Nat.mod_eq_sub_mod h', Nat.mod_eq_of_lt (by omega)] at h; omega
  · rintro rfl
    rw [Nat.add_mod_right, Nat.mod_eq_of_lt hpos]

theorem wrap_cover {pos len j : Nat} (hpos : pos < len) (hj : j < len) : ∃ u, 0 < u ∧ u ≤ len ∧ (pos + u) % len = j := by
  rcases Nat.lt_or_ge pos j with h | h
  · exact ⟨j - pos, by omega, by omega, by rw [show pos + (j - pos) = j by omega, Nat.mod_eq_of_lt hj]⟩
  · refine ⟨j + len - pos, by omega, by omega, ?_⟩
    rw [show pos + (j + len - pos) = j + len by omega, Nat.add_mod_right, Nat.mod_eq_of_lt hj]

/-- The search for the next heap in a round. `R` is what the heaps had before heap `pos` gave its packet. -/
theorem rrLoop_spec {mask : Nat} {sl : SqSlots π} {i len pos : Nat} (hpos : pos < len) (hV : ∀ j, j < len → ∃ e, view mask sl (i + j) = some e) (R : Nat → List (π × Nat))
    (hlink : ∀ j, j < len → ∀ e, view mask sl (i + j) = some e → ∃ d, 0 < d ∧ d ≤ len ∧ e.groupNext = i + (j + d) % len ∧ ∀ t, 0 < t → t < d → R ((j + t) % len) = [])
    (hR : ∀ j, j < len → j ≠ pos → left (view mask sl) i j = R j) (hpre : R pos ≠ []) :
    ∀ f t, len - t < f → 0 < t → t ≤ len → (∀ u, 0 < u → u < t → left (view mask sl) i ((pos + u) % len) = []) →
      (rrLoop mask sl (i + pos) f (i + (pos + t) % len) = some none ∧ ∀ j, j < len → left (view mask sl) i j = []) ∨
      ∃ t', 0 < t' ∧ t' ≤ len ∧ rrLoop mask sl (i + pos) f (i + (pos + t) % len) = some (some (i + (pos + t') % len)) ∧ left (view mask sl) i ((pos + t') % len) ≠ [] ∧
        ∀ u, 0 < u → u < t' → left (view mask sl) i ((pos + u) % len) = []
  | 0, t, hf, _, _, _ => by omega
  | f + 1, t, hf, ht, htl, hskip => by
    have hx : (pos + t) % len < len := Nat.mod_lt _ (by omega)
    obtain ⟨e, he⟩ := hV _ hx
    have hl := left_some he
    unfold rrLoop
    rw [show sl ((i + (pos + t) % len) &&& mask) = some e from he]
    simp only
    by_cases hp : e.pkts = []
    · rw [if_neg (by simpa using hp)]
      have hemp : left (view mask sl) i ((pos + t) % len) = [] := by rw [hl, hp]; rfl
      by_cases ha : i + (pos + t) % len = i + pos
      · rw [if_pos ha]
        refine Or.inl ⟨rfl, ?_⟩
        have htlen : t = len := (wrap_self hpos ht htl).mp (by omega)
        intro j hj
        obtain ⟨u, h1, h2, h3⟩ := wrap_cover hpos hj
        rw [← h3]
        rcases Nat.eq_or_lt_of_le h2 with h4 | h4
        · have : u = t := by omega
          rw [this]; exact hemp
        · exact hskip u h1 (by omega)
      · rw [if_neg ha]
        have htlen : t < len := by
          rcases Nat.eq_or_lt_of_le htl with h | h
          · exact absurd (by rw [(wrap_self hpos ht htl).mpr h]) ha
          · exact h
        obtain ⟨d, hd, hdl, hn, hs⟩ := hlink _ hx e he
        have hbound : t + d ≤ len := by
          rcases Nat.lt_or_ge len (t + d) with h | h
          · exfalso
            have := hs (len - t) (by omega) (by omega)
            rw [Nat.mod_add_mod, show pos + t + (len - t) = pos + len by omega, Nat.add_mod_right, Nat.mod_eq_of_lt hpos] at this
            exact hpre this
          · exact h
        rw [hn, Nat.mod_add_mod, Nat.add_assoc]
        refine rrLoop_spec hpos hV R hlink hR hpre f (t + d) (by omega) (by omega) hbound ?_
        intro u h1 h2
        rcases Nat.lt_trichotomy u t with h3 | h3 | h3
        · exact hskip u h1 h3
        · rw [h3]; exact hemp
        · have := hs (u - t) (by omega) (by omega)
          rw [Nat.mod_add_mod, show pos + t + (u - t) = pos + u by omega] at this
          rw [hR _ (Nat.mod_lt _ (by omega)) (fun h => by have := (wrap_self hpos h1 (by omega)).mp h; omega)]
          exact this
    · rw [if_pos (by simpa using hp)]
      refine Or.inr ⟨t, ht, htl, rfl, ?_, hskip⟩
      rw [hl]
      simpa using hp

/-- The search for the next heap in serial mode. -/
theorem serialLoop_spec {mask : Nat} {sl : SqSlots π} {i len : Nat} (hV : ∀ j, j < len → ∃ e, view mask sl (i + j) = some e) :
    ∀ f q, q < len → len - q ≤ f →
      (serialLoop mask sl (i + len) f (i + q) = some (i + len, true) ∧ ∀ j, q ≤ j → j < len → left (view mask sl) i j = []) ∨
      ∃ q', q ≤ q' ∧ q' < len ∧ serialLoop mask sl (i + len) f (i + q) = some (i + q', false) ∧ left (view mask sl) i q' ≠ [] ∧ ∀ j, q ≤ j → j < q' → left (view mask sl) i j = []
  | 0, q, hq, hf => by omega
  | f + 1, q, hq, hf => by
    obtain ⟨e, he⟩ := hV q hq
    have hl := left_some he
    unfold serialLoop
    rw [show sl ((i + q) &&& mask) = some e from he]
    simp only
    by_cases hp : e.pkts = []
    · rw [if_neg (by simpa using hp)]
      have hemp : left (view mask sl) i q = [] := by rw [hl, hp]; rfl
      by_cases hend : i + q + 1 = i + len
      · rw [if_pos hend, hend]
        refine Or.inl ⟨rfl, fun j h1 h2 => ?_⟩
        have : j = q := by omega
        rw [this]; exact hemp
      · rw [if_neg hend]
        rcases serialLoop_spec hV f (q + 1) (by omega) (by omega) with ⟨h1, h2⟩ | ⟨q', h1, h2, h3, h4, h5⟩
        · refine Or.inl ⟨h1, fun j h3 h4 => ?_⟩
          rcases Nat.eq_or_lt_of_le h3 with h | h
          · rw [← h]; exact hemp
          · exact h2 j h h4
        · refine Or.inr ⟨q', by omega, h2, h3, h4, fun j h6 h7 => ?_⟩
          rcases Nat.eq_or_lt_of_le h6 with h | h
          · rw [← h]; exact hemp
          · exact h5 j h h7
    · rw [if_pos (by simpa using hp)]
      exact Or.inr ⟨q, Nat.le_refl _, hq, rfl, by rw [hl]; simpa using hp, fun j h1 h2 => by omega⟩

theorem view_set {mask : Nat} {sl : SqSlots π} {a j : Nat} {v : Option (SqEntry π)} : view mask (sl.set (a &&& mask) v) j = if j &&& mask = a &&& mask then v else view mask sl j := rfl

theorem flatten_step {α : Type} {len pos : Nat} (hpos : pos < len) (L L1 : Nat → List α) {x : α} {xs : List α} (hpre : ∀ j, j < pos → L j = []) (hL : L pos = x :: xs) (hL1 : L1 pos = xs)
    (hne : ∀ j, j < len → j ≠ pos → L1 j = L j) : ((List.range len).map L).flatten = x :: ((List.range len).map L1).flatten := by
  have hr : List.range len = List.range' 0 pos ++ (pos :: List.range' (pos + 1) (len - pos - 1)) := by
    rw [← List.range'_succ, show List.range' pos (len - pos - 1 + 1) = List.range' (0 + 1 * pos) (len - pos - 1 + 1) by congr 1; omega, List.range'_append, List.range_eq_range']
    congr 1
    omega
  have e0 : ∀ M : Nat → List α, (∀ j, j < pos → M j = []) → ((List.range' 0 pos).map M).flatten = [] := by
    intro M hM
    rw [List.flatten_eq_nil_iff]
    intro l hl
    rw [List.mem_map] at hl
    obtain ⟨u, hu, rfl⟩ := hl
    rw [List.mem_range'_1] at hu
    exact hM u (by omega)
  rw [hr, List.map_append, List.map_append, List.flatten_append, List.flatten_append, e0 L hpre, e0 L1 (fun j hj => by rw [hne j (by omega) (by omega)]; exact hpre j hj)]
  simp only [List.map_cons, List.flatten_cons, hL, hL1, List.nil_append, List.cons_append]
  congr 3
  apply List.map_congr_left
  intro u hu
  rw [List.mem_range'_1] at hu
  exact (hne u (by omega) (by omega)).symm

theorem flatten_all_nil {α : Type} {len : Nat} {L : Nat → List α} (h : ∀ j, j < len → L j = []) : ((List.range len).map L).flatten = [] := by
  rw [List.flatten_eq_nil_iff]
  intro l hl
  rw [List.mem_map] at hl
  obtain ⟨u, hu, rfl⟩ := hl
  exact h u (List.mem_range.mp hu)

theorem drop_cons_of {α : Type} {l : List α} {n : Nat} {x : α} {xs : List α} (h : l.drop n = x :: xs) : l[n]? = some x ∧ l.drop (n + 1) = xs ∧ n < l.length := by
  have h1 : (l.drop n)[0]? = some x := by rw [h]; rfl
  rw [List.getElem?_drop, Nat.add_zero] at h1
  refine ⟨h1, ?_, (List.getElem?_eq_some_iff.mp h1).1⟩
  have : (l.drop n).drop 1 = xs := by rw [h]; rfl
  rwa [List.drop_drop] at this

theorem drop_nil_len {α : Type} {l : List α} {n : Nat} (hn : n < l.length) (h : l.drop (n + 1) = []) : n + 1 = l.length := by
  have := List.drop_eq_nil_iff.mp h
  omega

theorem drop_ne_len {α : Type} {l : List α} {n : Nat} (h : l.drop (n + 1) ≠ []) : n + 1 < l.length := by
  rcases Nat.lt_or_ge (n + 1) l.length with h' | h'
  · exact h'
  · exact absurd (List.drop_eq_nil_of_le h') h

/-- `get_packet` takes the next packet of a group. -/
theorem group_get {env : SqEnv H π} {s : Sq H π} {g : SGroup π} {i : Nat} (hg : GroupAt env.bytes (view env.mask s.slots) i g)
    (hinj : ∀ j k, j < g.len → k < g.len → (i + j) &&& env.mask = (i + k) &&& env.mask → j = k) (hlen : g.len ≤ env.mask + 1) (hgot : g.got < g.P.length)
    (ha : s.active = i + g.pos) (hst : s.start = i) :
    ∃ cur p rest, view env.mask s.slots s.active = some cur ∧ cur.pkts = p :: rest ∧ g.P[g.got]? = some (p, cur.substream) ∧
      ∃ sl' pos', s.advance env (s.slots.set (s.active &&& env.mask) (some { cur with pkts := rest })) cur p =
        some ({ s with slots := sl', active := (if g.got + 1 = g.P.length then i + g.len else i + pos'), start := (if g.got + 1 = g.P.length then i + g.len else i), out := s.out ++ [⟨p, i, decide (g.got + 1 = g.P.length)⟩] }, [.packet p cur.substream (decide (g.got + 1 = g.P.length))]) ∧
        GroupAt env.bytes (view env.mask sl') i { g with got := g.got + 1, pos := pos' } ∧
        ∀ x, (∀ j, j < g.len → x ≠ (i + j) &&& env.mask) → sl' x = s.slots x := by
  obtain ⟨hpos, hne, hrest⟩ := hg.rest hgot
  obtain ⟨cur, hcur, hok⟩ := hg.entry _ hpos
  have hleft := left_some hcur
  match hp : cur.pkts with
  | [] => rw [hleft, hp] at hne; exact absurd rfl hne
  | p :: rest =>
    rw [hp] at hleft
    let cur1 : SqEntry π := { cur with pkts := rest }
    let sl1 : SqSlots π := s.slots.set (s.active &&& env.mask) (some cur1)
    have v1 : ∀ j, j < g.len → view env.mask sl1 (i + j) = if j = g.pos then some cur1 else view env.mask s.slots (i + j) := by
      intro j hj
      show view env.mask (s.slots.set (s.active &&& env.mask) (some cur1)) (i + j) = _
      rw [view_set, ha]
      by_cases h : j = g.pos
      · rw [if_pos (by rw [h]), if_pos h]
      · rw [if_neg (fun h' => h (hinj _ _ hj hpos h')), if_neg h]
    have frame : ∀ x, (∀ j, j < g.len → x ≠ (i + j) &&& env.mask) → sl1 x = s.slots x := by
      intro x hx
      show (if x = s.active &&& env.mask then _ else _) = _
      rw [if_neg (by rw [ha]; exact hx _ hpos)]
    have l1 : left (view env.mask sl1) i g.pos = rest.map (fun p => (p, cur.substream)) := by
      have : view env.mask sl1 (i + g.pos) = some cur1 := by rw [v1 _ hpos, if_pos rfl]
      exact left_some this
    have l2 : ∀ j, j < g.len → j ≠ g.pos → left (view env.mask sl1) i j = left (view env.mask s.slots) i j := by
      intro j hj h
      exact left_congr (by rw [v1 j hj, if_neg h])
    have ex1 : ∀ j, j < g.len → ∃ e, view env.mask sl1 (i + j) = some e := by
      intro j hj
      rw [v1 j hj]
      by_cases h : j = g.pos
      · rw [if_pos h]; exact ⟨_, rfl⟩
      · rw [if_neg h]
        obtain ⟨e, he, -⟩ := hg.entry j hj
        exact ⟨e, he⟩
    -- the parts of `GroupAt` that do not concern what is left
    have mk : ∀ (sl' : SqSlots π) (pos' : Nat), (∀ j, j < g.len → ∀ e, view env.mask s.slots (i + j) = some e → ∃ e', view env.mask sl' (i + j) = some e' ∧
        e'.groupEnd = e.groupEnd ∧ e'.mode = e.mode ∧ e'.waiters = e.waiters ∧ e'.handler = e.handler ∧ e'.bytes = e.bytes ∧ e'.failed = e.failed) →
        RestOk (view env.mask sl') i { g with got := g.got + 1, pos := pos' } → GroupAt env.bytes (view env.mask sl') i { g with got := g.got + 1, pos := pos' } := by
      intro sl' pos' h1 h2
      refine ⟨hg.pos, ?_, ?_, h2⟩
      · intro j hj
        obtain ⟨e, he, hek⟩ := hg.entry j hj
        obtain ⟨e', h3, h4, h5, h6, -⟩ := h1 j hj e he
        exact ⟨e', h3, ⟨by rw [h4]; exact hek.gend, by rw [h5]; exact hek.mode, by rw [h6]; exact hek.waiters⟩⟩
      · intro e' he'
        obtain ⟨e, he, -⟩ := hg.entry 0 hg.pos
        obtain ⟨e'', h3, -, -, -, h4, h5, h6⟩ := h1 0 hg.pos e he
        rw [Nat.add_zero] at h3 he
        rw [he', Option.some.injEq] at h3
        subst h3
        obtain ⟨f1, f2, f3⟩ := hg.first e he
        exact ⟨by rw [h4]; exact f1, by rw [h5]; exact f2, by rw [h6]; exact f3⟩
    have fields1 : ∀ j, j < g.len → ∀ e, view env.mask s.slots (i + j) = some e → ∃ e', view env.mask sl1 (i + j) = some e' ∧
        e'.groupEnd = e.groupEnd ∧ e'.mode = e.mode ∧ e'.waiters = e.waiters ∧ e'.handler = e.handler ∧ e'.bytes = e.bytes ∧ e'.failed = e.failed := by
      intro j hj e he
      rw [v1 j hj]
      by_cases h : j = g.pos
      · subst h
        rw [hcur, Option.some.injEq] at he
        subst he
        exact ⟨cur1, by rw [if_pos rfl], rfl, rfl, rfl, rfl, rfl, rfl⟩
      · exact ⟨e, by rw [if_neg h]; exact he, rfl, rfl, rfl, rfl, rfl, rfl⟩
    refine ⟨cur, p, rest, by rw [ha]; exact hcur, hp, ?_⟩
    cases hm : g.acc.mode with
    | serial =>
      rw [hm] at hrest
      obtain ⟨hr1, hr2⟩ := hrest
      have hstep := flatten_step hpos (left (view env.mask s.slots) i) (left (view env.mask sl1) i) hr2 hleft l1 l2
      rw [hstep] at hr1
      obtain ⟨d1, d2, d3⟩ := drop_cons_of hr1
      refine ⟨d1, ?_⟩
      have hmode : cur.mode = .serial := by rw [hok.mode, hm]
      rcases serialLoop_spec ex1 (env.mask + 1) g.pos hpos (by omega) with ⟨h1, h2⟩ | ⟨q', h1, h2, h3, h4, h5⟩
      · have hall : ((List.range g.len).map (left (view env.mask sl1) i)).flatten = [] := by
          apply flatten_all_nil
          intro j hj
          rcases Nat.lt_or_ge j g.pos with h | h
          · rw [l2 j hj (by omega)]; exact hr2 j h
          · exact h2 j h hj
        rw [hall] at d2
        have hlast := drop_nil_len d3 d2
        refine ⟨sl1, 0, ?_, mk sl1 0 fields1 (fun h => ?_), frame⟩
        · show Sq.advance env s sl1 cur p = _
          unfold Sq.advance
          rw [hmode]
          simp only
          rw [hok.gend, ha, h1]
          simp only [hlast, if_true, decide_true, hst]
        · have : g.got + 1 < g.P.length := h
          omega
      · have hlast : g.got + 1 < g.P.length := by
          apply drop_ne_len
          rw [d2]
          intro hc
          rw [List.flatten_eq_nil_iff] at hc
          exact h4 (hc _ (List.mem_map_of_mem (List.mem_range.mpr h2)))
        refine ⟨sl1, q', ?_, mk sl1 q' fields1 (fun h => ⟨h2, h4, ?_⟩), frame⟩
        · show Sq.advance env s sl1 cur p = _
          unfold Sq.advance
          rw [hmode]
          simp only
          rw [hok.gend, ha, h3]
          simp only [hst, if_neg (show ¬ g.got + 1 = g.P.length by omega), decide_eq_false (show ¬ g.got + 1 = g.P.length by omega)]
        · simp only [hm]
          refine ⟨d2, fun j hj => ?_⟩
          rcases Nat.lt_or_ge j g.pos with h | h
          · rw [l2 j (by omega) (by omega)]; exact hr2 j h
          · exact h5 j h hj
    | roundRobin =>
      rw [hm] at hrest
      obtain ⟨hr1, hr2⟩ := hrest
      have hmode : cur.mode = .roundRobin := by rw [hok.mode, hm]
      obtain ⟨d, hd, hdl, hnext, hskip⟩ := hr2 _ hpos cur hcur
      have hskip1 : ∀ u, 0 < u → u < d → left (view env.mask sl1) i ((g.pos + u) % g.len) = [] := by
        intro u h1 h2
        rw [l2 _ (Nat.mod_lt _ hg.pos) (fun h => by have := (wrap_self hpos h1 (by omega)).mp h; omega)]
        exact hskip u h1 h2
      have hlink1 : ∀ j, j < g.len → ∀ e, view env.mask sl1 (i + j) = some e → ∃ d, 0 < d ∧ d ≤ g.len ∧ e.groupNext = i + (j + d) % g.len ∧
          ∀ t, 0 < t → t < d → left (view env.mask s.slots) i ((j + t) % g.len) = [] := by
        intro j hj e he
        rw [v1 j hj] at he
        by_cases h : j = g.pos
        · rw [if_pos h, Option.some.injEq] at he
          subst he
          exact ⟨d, hd, hdl, by rw [h]; exact hnext, by rw [h]; exact hskip⟩
        · rw [if_neg h] at he
          exact hr2 j hj e he
      have stepT : ∀ t, 0 < t → t ≤ g.len → (∀ u, 0 < u → u < t → left (view env.mask sl1) i ((g.pos + u) % g.len) = []) →
          g.P.drop g.got = (p, cur.substream) :: roundRobin ((List.range g.len).map (fun u => left (view env.mask sl1) i (((g.pos + t) % g.len + u) % g.len))) := by
        intro t h1 h2 h3
        rw [hr1]
        exact rot_step hpos h1 h2 (left (view env.mask s.slots) i) (left (view env.mask sl1) i) hleft l1 l2 h3
      rcases rrLoop_spec hpos ex1 (left (view env.mask s.slots) i) hlink1 l2 (by rw [hleft]; simp) (env.mask + 1) d (by omega) hd hdl hskip1 with ⟨h1, h2⟩ | ⟨t, h1, h2, h3, h4, h5⟩
      · have hs := stepT d hd hdl hskip1
        obtain ⟨d1, d2, d3⟩ := drop_cons_of hs
        rw [roundRobin_empty (by
          intro l hl
          rw [List.mem_map] at hl
          obtain ⟨u, hu, rfl⟩ := hl
          exact h2 _ (Nat.mod_lt _ hg.pos))] at d2
        have hlast := drop_nil_len d3 d2
        refine ⟨d1, sl1, 0, ?_, mk sl1 0 fields1 (fun h => ?_), frame⟩
        · show Sq.advance env s sl1 cur p = _
          unfold Sq.advance
          rw [hmode]
          simp only
          rw [hnext, ha, h1]
          simp only [hlast, if_true, decide_true, hst, hok.gend]
        · have : g.got + 1 < g.P.length := h
          omega
      · have hs := stepT t h1 h2 h5
        obtain ⟨d1, d2, d3⟩ := drop_cons_of hs
        have hlast : g.got + 1 < g.P.length := by
          apply drop_ne_len
          rw [d2]
          have hl : g.len = (g.len - 1) + 1 := by omega
          rw [List.range_eq_range', hl, List.range'_succ, List.map_cons, ← hl]
          rw [Nat.add_zero, Nat.mod_mod]
          match hq : left (view env.mask sl1) i ((g.pos + t) % g.len), h4 with
          | x :: xs, _ => rw [roundRobin_shift]; simp
        let sl2 : SqSlots π := sl1.set (s.active &&& env.mask) (some { cur1 with groupNext := i + (g.pos + t) % g.len })
        have v2 : ∀ j, j < g.len → view env.mask sl2 (i + j) = if j = g.pos then some { cur1 with groupNext := i + (g.pos + t) % g.len } else view env.mask sl1 (i + j) := by
          intro j hj
          show view env.mask (sl1.set (s.active &&& env.mask) _) (i + j) = _
          rw [view_set, ha]
          by_cases h : j = g.pos
          · rw [if_pos (by rw [h]), if_pos h]
          · rw [if_neg (fun h' => h (hinj _ _ hj hpos h')), if_neg h]
        have ll : ∀ j, j < g.len → left (view env.mask sl2) i j = left (view env.mask sl1) i j := by
          intro j hj
          by_cases h : j = g.pos
          · rw [h, l1]
            have := v2 _ hpos
            rw [if_pos rfl] at this
            exact left_some this
          · exact left_congr (by rw [v2 j hj, if_neg h])
        refine ⟨d1, sl2, (g.pos + t) % g.len, ?_, mk sl2 _ ?_ (fun h => ⟨Nat.mod_lt _ hg.pos, ?_, ?_⟩), ?_⟩
        · show Sq.advance env s sl1 cur p = _
          unfold Sq.advance
          rw [hmode]
          simp only
          rw [hnext, ha, h3]
          have hmod : SqSlots.modify env.mask sl1 (i + g.pos) (fun e => { e with groupNext := i + (g.pos + t) % g.len }) = some sl2 := by
            unfold SqSlots.modify
            have hv := v1 _ hpos
            rw [if_pos rfl] at hv
            rw [show sl1 ((i + g.pos) &&& env.mask) = some cur1 from hv]
            simp only
            show some _ = some (sl1.set (s.active &&& env.mask) _)
            rw [ha]
          simp only
          rw [hmod]
          simp only [hst, if_neg (show ¬ g.got + 1 = g.P.length by omega), decide_eq_false (show ¬ g.got + 1 = g.P.length by omega)]
        · intro j hj e he
          rw [v2 j hj]
          obtain ⟨e', h6, h7⟩ := fields1 j hj e he
          by_cases h : j = g.pos
          · rw [v1 j hj, if_pos h, Option.some.injEq] at h6
            subst h6
            exact ⟨{ cur1 with groupNext := i + (g.pos + t) % g.len }, by rw [if_pos h], h7⟩
          · exact ⟨e', by rw [if_neg h]; exact h6, h7⟩
        · show left (view env.mask sl2) i ((g.pos + t) % g.len) ≠ []
          rw [ll _ (Nat.mod_lt _ hg.pos)]
          exact h4
        · simp only [hm]
          refine ⟨?_, ?_⟩
          · rw [d2]
            congr 1
            apply List.map_congr_left
            intro u _
            exact (ll _ (Nat.mod_lt _ hg.pos)).symm
          · intro j hj e he
            rw [v2 j hj] at he
            by_cases h : j = g.pos
            · rw [if_pos h, Option.some.injEq] at he
              subst he
              refine ⟨t, h1, h2, by rw [h], fun u hu1 hu2 => ?_⟩
              rw [h, ll _ (Nat.mod_lt _ hg.pos)]
              exact h5 u hu1 hu2
            · rw [if_neg h] at he
              obtain ⟨d', k1, k2, k3, k4⟩ := hlink1 j hj e he
              refine ⟨d', k1, k2, k3, fun u hu1 hu2 => ?_⟩
              have := k4 u hu1 hu2
              rw [ll _ (Nat.mod_lt _ hg.pos), l2 _ (Nat.mod_lt _ hg.pos) (fun hc => by rw [hc, hleft] at this; simp at this)]
              exact this
        · intro x hx
          show (if x = s.active &&& env.mask then _ else sl1 x) = _
          rw [if_neg (by rw [ha]; exact hx _ hpos)]
          exact frame x hx

end Spead2
