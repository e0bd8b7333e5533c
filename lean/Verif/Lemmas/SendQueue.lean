import Verif.Lemmas.SendGroup

/-!
# The invariant of the send queue
-/

namespace Spead2
open Spec

variable {H π : Type}

/-! ## Masks -/

theorem pow2Loop_spec (size : Nat) : ∀ f a, size ≤ 2 ^ (a + f) → ∃ b, pow2Loop size f (2 ^ a) = 2 ^ b ∧ size ≤ 2 ^ b
  | 0, a, h => ⟨a, rfl, by simpa using h⟩
  | f + 1, a, h => by
    unfold pow2Loop
    split
    · rw [show 2 * 2 ^ a = 2 ^ (a + 1) by rw [Nat.pow_succ]; omega]
      exact pow2Loop_spec size f (a + 1) (by rw [show a + 1 + f = a + (f + 1) by omega]; exact h)
    · exact ⟨a, rfl, by omega⟩

theorem queueMask_spec {size mask : Nat} (h : queueMask size = some mask) : (∀ i, i &&& mask = i % (mask + 1)) ∧ size ≤ mask + 1 ∧ 0 < size := by
  unfold queueMask at h
  split at h
  · cases h
  · rename_i h0
    split at h
    · cases h
    · rename_i h1
      rw [Option.some.injEq] at h
      have hle : size ≤ 2 ^ (0 + 64) := Nat.le_trans (Nat.le_of_not_lt h1) (Nat.pow_le_pow_right (by omega) (by omega))
      obtain ⟨b, hb, hs⟩ := pow2Loop_spec size 64 0 hle
      rw [show (1 : Nat) = 2 ^ 0 from rfl, hb] at h
      have hp : 0 < 2 ^ b := Nat.two_pow_pos b
      have hm : mask + 1 = 2 ^ b := by simp at h; omega
      refine ⟨fun i => ?_, by omega, by omega⟩
      rw [hm, ← Nat.and_two_pow_sub_one_eq_mod]
      congr 1
      omega

theorem mask_inj {mask : Nat} (hm : ∀ i, i &&& mask = i % (mask + 1)) {h i j : Nat} (hi : h ≤ i) (hj : h ≤ j) (hi' : i < h + (mask + 1)) (hj' : j < h + (mask + 1))
    (he : i &&& mask = j &&& mask) : i = j := by
  rw [hm, hm] at he
  have h1 := Nat.div_add_mod i (mask + 1)
  have h2 := Nat.div_add_mod j (mask + 1)
  rcases Nat.lt_trichotomy (i / (mask + 1)) (j / (mask + 1)) with h3 | h3 | h3
  · have := Nat.mul_le_mul_left (mask + 1) (show i / (mask + 1) + 1 ≤ j / (mask + 1) from h3)
    rw [Nat.mul_add] at this
    omega
  · rw [h3] at h1; omega
  · have := Nat.mul_le_mul_left (mask + 1) (show j / (mask + 1) + 1 ≤ i / (mask + 1) from h3)
    rw [Nat.mul_add] at this
    omega

/-! ## Lists of groups -/

/-- The number of heaps of some groups. -/
def heapTotal (gl : List (SGroup π)) : Nat := (gl.map SGroup.len).sum

theorem heapTotal_cons (g : SGroup π) (gl : List (SGroup π)) : heapTotal (g :: gl) = g.len + heapTotal gl := by simp [heapTotal]
theorem heapTotal_append (a b : List (SGroup π)) : heapTotal (a ++ b) = heapTotal a + heapTotal b := by simp [heapTotal]

theorem heapTotal_take_succ {gl : List (SGroup π)} {k : Nat} {g : SGroup π} (h : gl[k]? = some g) : heapTotal (gl.take (k + 1)) = heapTotal (gl.take k) + g.len := by
  rw [List.take_add_one, h, heapTotal_append]
  simp [heapTotal]

theorem heapTotal_take_le {gl : List (SGroup π)} : ∀ {a b : Nat}, a ≤ b → heapTotal (gl.take a) ≤ heapTotal (gl.take b) := by
  intro a b h
  have : gl.take b = gl.take a ++ (gl.drop a).take (b - a) := by
    rw [← List.take_add]; congr 1; omega
  rw [this, heapTotal_append]
  omega

theorem heapTotal_take_all (gl : List (SGroup π)) (a : Nat) : heapTotal (gl.take a) ≤ heapTotal gl := by
  have := heapTotal_append (gl.take a) (gl.drop a)
  rw [List.take_append_drop] at this
  omega

theorem heapTotal_set {gl : List (SGroup π)} : ∀ {k : Nat} {g g' : SGroup π}, gl[k]? = some g → g'.len = g.len → ∀ a, heapTotal ((gl.set k g').take a) = heapTotal (gl.take a) := by
  induction gl with
  | nil => intro k g g' h; simp at h
  | cons x gl ih =>
    intro k g g' h hl a
    cases a with
    | zero => rfl
    | succ a =>
      cases k with
      | zero =>
        simp at h; subst h
        simp only [List.set_cons_zero, List.take_succ_cons, heapTotal_cons, hl]
      | succ k =>
        rw [List.getElem?_cons_succ] at h
        simp only [List.set_cons_succ, List.take_succ_cons, heapTotal_cons, ih h hl a]

theorem heapTotal_set_all {gl : List (SGroup π)} {k : Nat} {g g' : SGroup π} (h : gl[k]? = some g) (hl : g'.len = g.len) : heapTotal (gl.set k g') = heapTotal gl := by
  have := heapTotal_set h hl gl.length
  rwa [List.take_of_length_le (by simp), List.take_of_length_le (Nat.le_refl _)] at this

/-- Collect something from each group, given its index. -/
def walk {β : Type} (f : Nat → SGroup π → List β) : Nat → List (SGroup π) → List β
  | _, [] => []
  | i, g :: gl => f i g ++ walk f (i + g.len) gl

theorem walk_const {β : Type} (f : SGroup π → List β) : ∀ (gl : List (SGroup π)) (i : Nat), walk (fun _ => f) i gl = gl.flatMap f
  | [], _ => rfl
  | g :: gl, i => by rw [walk, walk_const f gl, List.flatMap_cons]

theorem walk_append {β : Type} (f : Nat → SGroup π → List β) : ∀ (a b : List (SGroup π)) (i : Nat), walk f i (a ++ b) = walk f i a ++ walk f (i + heapTotal a) b
  | [], b, i => by simp [walk, heapTotal]
  | g :: a, b, i => by rw [List.cons_append, walk, walk, walk_append f a b, heapTotal_cons, List.append_assoc, Nat.add_assoc]

theorem walk_nil {β : Type} {f : Nat → SGroup π → List β} : ∀ {gl : List (SGroup π)} {i : Nat}, (∀ g ∈ gl, ∀ i, f i g = []) → walk f i gl = []
  | [], _, _ => rfl
  | g :: gl, i, h => by
    rw [walk, h g List.mem_cons_self, walk_nil (fun x hx => h x (List.mem_cons_of_mem _ hx))]
    rfl

theorem split_at {α : Type} {l : List α} {k : Nat} {x : α} (h : l[k]? = some x) : l = l.take k ++ x :: l.drop (k + 1) := by
  have hk := (List.getElem?_eq_some_iff.mp h).1
  have he := (List.getElem?_eq_some_iff.mp h).2
  rw [← he, ← List.drop_eq_getElem_cons hk, List.take_append_drop]

theorem set_at {α : Type} {l : List α} {k : Nat} {x : α} (h : l[k]? = some x) (y : α) : l.set k y = l.take k ++ y :: l.drop (k + 1) := by
  have hk := (List.getElem?_eq_some_iff.mp h).1
  rw [List.set_eq_take_append_cons_drop, if_pos hk]

theorem walk_set_last {β : Type} {f : Nat → SGroup π → List β} {gl : List (SGroup π)} {k i : Nat} {g g' : SGroup π} {y : List β} (h : gl[k]? = some g) (hl : g'.len = g.len)
    (hn : ∀ j x, gl[j]? = some x → k < j → ∀ i, f i x = []) (hf : f (i + heapTotal (gl.take k)) g' = f (i + heapTotal (gl.take k)) g ++ y) : walk f i (gl.set k g') = walk f i gl ++ y := by
  have hz : ∀ i, walk f i (gl.drop (k + 1)) = [] := by
    intro i
    apply walk_nil
    intro x hx i
    obtain ⟨j, hj⟩ := List.mem_iff_getElem?.mp hx
    rw [List.getElem?_drop] at hj
    exact hn _ x hj (by omega) i
  conv => rhs; rw [split_at h]
  rw [set_at h, walk_append, walk_append, walk, walk, hz, hz, hf]
  simp

theorem walk_set_first {β : Type} {f : Nat → SGroup π → List β} {gl : List (SGroup π)} {k i : Nat} {g g' : SGroup π} {y : List β} (h : gl[k]? = some g) (hl : g'.len = g.len)
    (hn : ∀ j x, gl[j]? = some x → j < k → ∀ i, f i x = []) (hf : f (i + heapTotal (gl.take k)) g = y ++ f (i + heapTotal (gl.take k)) g') : walk f i gl = y ++ walk f i (gl.set k g') := by
  have hz : ∀ i, walk f i (gl.take k) = [] := by
    intro i
    apply walk_nil
    intro x hx i
    obtain ⟨j, hj⟩ := List.mem_iff_getElem?.mp hx
    rw [List.getElem?_take] at hj
    split at hj
    · exact hn _ x hj (by assumption) i
    · cases hj
  conv => lhs; rw [split_at h]
  rw [set_at h, walk_append, walk_append, walk, walk, hz, hf, hl]
  simp

theorem markLast_length {α : Type} : ∀ (l : List α), (markLast l).length = l.length
  | [] => rfl
  | [x] => rfl
  | x :: y :: l => by simp only [markLast, List.length_cons, markLast_length (y :: l)]

theorem markLast_get {α : Type} : ∀ (l : List α) (n : Nat), (markLast l)[n]? = l[n]?.map (fun x => (x, decide (n + 1 = l.length)))
  | [], n => by simp [markLast]
  | [x], n => by cases n <;> simp [markLast]
  | x :: y :: l, n => by
    cases n with
    | zero => simp [markLast]
    | succ n =>
      simp only [markLast, List.getElem?_cons_succ, markLast_get (y :: l) n]
      simp

/-- The packets of a group that the transport was given, and those that it has. -/
def gotOf (g : SGroup π) : List ((π × Nat) × Bool) := (markLast g.P).take g.got
def outOf (i : Nat) (g : SGroup π) : List (SqOut π) := ((gotOf g).drop g.results.length).map (fun x => ⟨x.1.1, i, x.2⟩)

theorem gotOf_succ {g : SGroup π} {p : π × Nat} (h : g.P[g.got]? = some p) (pos : Nat) : gotOf { g with got := g.got + 1, pos := pos } = gotOf g ++ [(p, decide (g.got + 1 = g.P.length))] := by
  show (markLast g.P).take (g.got + 1) = _
  rw [List.take_add_one, markLast_get, h]
  rfl

/-! ## Changes that leave a group in place -/

theorem groupAt_fields {bytes : π → Nat} {V V' : Nat → Option (SqEntry π)} {i : Nat} {g : SGroup π} (hg : GroupAt bytes V i g) (rs : List (Option Nat)) (ws : List Nat)
    (h : ∀ j, j < g.len → ∀ e, V (i + j) = some e → ∃ e', V' (i + j) = some e' ∧ e'.pkts = e.pkts ∧ e'.substream = e.substream ∧ e'.groupEnd = e.groupEnd ∧ e'.groupNext = e.groupNext ∧
      e'.mode = e.mode ∧ e'.waiters = (if j + 1 = g.len then ws else []))
    (hf : ∀ e', V' i = some e' → e'.handler = some g.acc.call ∧ e'.bytes = sentBytes bytes g.P rs ∧ e'.failed = !(rs.all Option.isNone)) :
    GroupAt bytes V' i { g with results := rs, ws := ws } := by
  have hleft : ∀ j, j < g.len → left V' i j = left V i j := by
    intro j hj
    obtain ⟨e, he, -⟩ := hg.entry j hj
    obtain ⟨e', he', h1, h2, -⟩ := h j hj e he
    rw [left_some he, left_some he', h1, h2]
  refine ⟨hg.pos, ?_, hf, ?_⟩
  · intro j hj
    obtain ⟨e, he, hok⟩ := hg.entry j hj
    obtain ⟨e', he', -, -, h3, -, h5, h6⟩ := h j hj e he
    exact ⟨e', he', ⟨by rw [h3]; exact hok.gend, by rw [h5]; exact hok.mode, h6⟩⟩
  · intro hgot
    obtain ⟨h1, h2, h3⟩ := hg.rest hgot
    refine ⟨h1, by show left V' i g.pos ≠ []; rw [hleft _ h1]; exact h2, ?_⟩
    show match g.acc.mode with
      | .serial => g.P.drop g.got = ((List.range g.len).map (left V' i)).flatten ∧ ∀ j, j < g.pos → left V' i j = []
      | .roundRobin => g.P.drop g.got = roundRobin ((List.range g.len).map (fun u => left V' i ((g.pos + u) % g.len))) ∧ Links V' i g.len
    cases hm : g.acc.mode with
    | serial =>
      rw [hm] at h3
      refine ⟨?_, fun j hj => by rw [hleft j (by omega)]; exact h3.2 j hj⟩
      rw [h3.1]
      congr 1
      apply List.map_congr_left
      intro j hj
      exact (hleft j (List.mem_range.mp hj)).symm
    | roundRobin =>
      rw [hm] at h3
      refine ⟨?_, ?_⟩
      · rw [h3.1]
        congr 1
        apply List.map_congr_left
        intro j hj
        exact (hleft _ (Nat.mod_lt _ hg.pos)).symm
      · intro j hj e' he'
        obtain ⟨e, he, -⟩ := hg.entry j hj
        obtain ⟨e'', he'', -, -, -, h4, -⟩ := h j hj e he
        rw [he', Option.some.injEq] at he''
        subst he''
        obtain ⟨d, k1, k2, k3, k4⟩ := h3.2 j hj e he
        exact ⟨d, k1, k2, by rw [h4]; exact k3, fun t ht1 ht2 => by rw [hleft _ (Nat.mod_lt _ hg.pos)]; exact k4 t ht1 ht2⟩

theorem groupAt_congr {bytes : π → Nat} {V V' : Nat → Option (SqEntry π)} {i : Nat} {g : SGroup π} (hg : GroupAt bytes V i g) (h : ∀ j, j < g.len → V' (i + j) = V (i + j)) : GroupAt bytes V' i g := by
  refine groupAt_fields hg g.results g.ws ?_ ?_
  · intro j hj e he
    obtain ⟨e2, he2, hok⟩ := hg.entry j hj
    rw [he, Option.some.injEq] at he2
    subst he2
    exact ⟨e, by rw [h j hj]; exact he, rfl, rfl, rfl, rfl, rfl, hok.waiters⟩
  · intro e he
    have := h 0 hg.pos
    rw [Nat.add_zero] at this
    rw [this] at he
    exact hg.first e he

/-! ## The invariant -/

/-- The state of a stream whose history is `tr`: `old` are the groups that were freed, `gl` those in the queue, of which the
first `n` have been given to the transport completely. -/
structure SqCore (env : SqEnv H π) (s : Sq H π) (tr : List (SqEv π)) (old gl : List (SGroup π)) (n : Nat) : Prop where
  acc : accepted tr = (old ++ gl).map SGroup.acc
  fet : fetched tr = (old ++ gl).flatMap gotOf
  outc : outcomes tr = (old ++ gl).flatMap SGroup.results
  comp : completed tr ++ s.calling = old.map (fun g : SGroup π => completion env.bytes g.acc g.results)
  oldk : ∀ g : SGroup π, g ∈ old → g.got = g.P.length ∧ g.results.length = g.P.length
  grp : ∀ (k : Nat) (g : SGroup π), gl[k]? = some g → GroupAt env.bytes (view env.mask s.slots) (s.whead + heapTotal (gl.take k)) g
  tail : s.tail = s.whead + heapTotal gl
  start : s.start = s.whead + heapTotal (gl.take n)
  nle : n ≤ gl.length
  before : ∀ (k : Nat) (g : SGroup π), gl[k]? = some g → k < n → g.got = g.P.length
  cur : ∀ g : SGroup π, gl[n]? = some g → g.got < g.P.length ∧ s.active = s.start + g.pos
  after : ∀ (k : Nat) (g : SGroup π), gl[k]? = some g → n < k → g.got = 0 ∧ g.pos = 0
  idle : n = gl.length → s.active = s.start
  finle : s.fin ≤ gl.length
  resa : ∀ (k : Nat) (g : SGroup π), gl[k]? = some g → k < s.fin → g.results.length = g.P.length
  resb : ∀ g : SGroup π, gl[s.fin]? = some g → g.results.length < g.P.length
  resc : ∀ (k : Nat) (g : SGroup π), gl[k]? = some g → s.fin < k → g.results = []
  resl : ∀ (k : Nat) (g : SGroup π), gl[k]? = some g → g.results.length ≤ g.got
  nonempty : ∀ (k : Nat) (g : SGroup π), gl[k]? = some g → 0 < g.P.length
  out : s.out = walk outOf s.whead gl
  wt : ∃ m, n ≤ m ∧ m ≤ gl.length ∧ s.wtail = s.whead + heapTotal (gl.take m) ∧ (m = n → s.active = s.start)
  vac : ∀ x, s.slots x ≠ none → ∃ i, s.whead ≤ i ∧ i < s.tail ∧ x = i &&& env.mask
  bnd : s.tail ≤ s.whead + env.size
  snd : ∀ c, s.sender = some c → c.head ≤ s.whead ∧ c.refs ≠ [] ∧ s.tail ≤ c.head + env.size
  unw : ∀ p ∈ s.unwinding, p.1 = p.2
  need : s.wk = .need → s.active = s.tail ∧ s.out = [] ∧ s.fin = 0 ∧ s.calling = [] ∧ s.waking = []
  fls : ∀ (k : Nat) (g : SGroup π), gl[k]? = some g → ∀ f ∈ g.ws, SqEv.flush f ∈ tr ∧ beforeFlush tr f ≤ old.length + k + 1
  wks : ∀ f ∈ s.waking, SqEv.flush f ∈ tr ∧ beforeFlush tr f ≤ old.length
  fln : ∀ f, s.flushes ≤ f → SqEv.flush f ∉ tr
  flo : FlushOk tr

/-- The invariant. Each call of `flush` has returned, or is to be woken, or waits for a group. -/
structure SqInv (env : SqEnv H π) (s : Sq H π) (tr : List (SqEv π)) (old gl : List (SGroup π)) (n : Nat) : Prop extends SqCore env s tr old gl n where
  flp : (returned tr ++ s.waking ++ gl.flatMap SGroup.ws).Perm (List.range s.flushes)

theorem group_end {gl : List (SGroup π)} {k : Nat} {g : SGroup π} (h : gl[k]? = some g) : heapTotal (gl.take k) + g.len ≤ heapTotal gl := by
  rw [← heapTotal_take_succ h]
  exact heapTotal_take_all _ _

/-- Different heaps in the queue are in different slots. -/
theorem SqInv.inj {env : SqEnv H π} (hv : Spec.SqEnv.Valid env) {s : Sq H π} {tr : List (SqEv π)} {old gl : List (SGroup π)} {n : Nat} (inv : SqInv env s tr old gl n) {i j : Nat}
    (hi : s.whead ≤ i) (hj : s.whead ≤ j) (hi' : i < s.tail) (hj' : j < s.tail) (he : i &&& env.mask = j &&& env.mask) : i = j := by
  obtain ⟨hm, hs, -⟩ := queueMask_spec hv.mask
  have := inv.bnd
  exact mask_inj hm hi hj (by omega) (by omega) he

theorem SqInv.group_bound {env : SqEnv H π} {s : Sq H π} {tr : List (SqEv π)} {old gl : List (SGroup π)} {n : Nat} (inv : SqInv env s tr old gl n) {k : Nat} {g : SGroup π} (h : gl[k]? = some g) :
    s.whead + heapTotal (gl.take k) + g.len ≤ s.tail := by
  have := group_end h
  have := inv.tail
  omega

/-- The heaps of different groups have different indices. -/
theorem groups_apart {gl : List (SGroup π)} {k l : Nat} {g x : SGroup π} (hk : gl[k]? = some g) (hl : gl[l]? = some x) (h : k ≠ l) :
    heapTotal (gl.take k) + g.len ≤ heapTotal (gl.take l) ∨ heapTotal (gl.take l) + x.len ≤ heapTotal (gl.take k) := by
  rcases Nat.lt_or_ge k l with h' | h'
  · left
    rw [← heapTotal_take_succ hk]
    exact heapTotal_take_le h'
  · right
    rw [← heapTotal_take_succ hl]
    exact heapTotal_take_le (show l + 1 ≤ k by omega)

/-- Change one group and the slots of its heaps. -/
theorem SqInv.set_groups {env : SqEnv H π} (hv : Spec.SqEnv.Valid env) {s : Sq H π} {tr : List (SqEv π)} {old gl : List (SGroup π)} {n : Nat} (inv : SqInv env s tr old gl n) {k : Nat} {g g' : SGroup π} (hk : gl[k]? = some g)
    (hlen : g'.len = g.len) {sl : SqSlots π} (hg : GroupAt env.bytes (view env.mask sl) (s.whead + heapTotal (gl.take k)) g')
    (frame : ∀ x, (∀ j, j < g.len → x ≠ (s.whead + heapTotal (gl.take k) + j) &&& env.mask) → sl x = s.slots x) :
    (∀ l x, (gl.set k g')[l]? = some x → GroupAt env.bytes (view env.mask sl) (s.whead + heapTotal ((gl.set k g').take l)) x) ∧
    (∀ x, sl x ≠ none → ∃ i, s.whead ≤ i ∧ i < s.tail ∧ x = i &&& env.mask) := by
  refine ⟨?_, ?_⟩
  · intro l x hx
    rw [heapTotal_set hk hlen]
    by_cases hkl : l = k
    · subst hkl
      rw [List.getElem?_set_self (List.getElem?_eq_some_iff.mp hk).1, Option.some.injEq] at hx
      subst hx
      exact hg
    · rw [List.getElem?_set_ne (fun h => hkl h.symm)] at hx
      refine groupAt_congr (inv.grp l x hx) ?_
      intro j hj
      show sl _ = s.slots _
      apply frame
      intro j' hj' he
      have b1 := inv.group_bound hk
      have b2 := inv.group_bound hx
      have := inv.inj hv (i := s.whead + heapTotal (gl.take l) + j) (j := s.whead + heapTotal (gl.take k) + j') (by omega) (by omega) (by omega) (by omega) he
      rcases groups_apart hk hx (fun h => hkl h.symm) with h | h <;> omega
  · intro x hx
    by_cases h : ∀ j, j < g.len → x ≠ (s.whead + heapTotal (gl.take k) + j) &&& env.mask
    · rw [frame x h] at hx
      exact inv.vac x hx
    · have : ∃ j, j < g.len ∧ x = (s.whead + heapTotal (gl.take k) + j) &&& env.mask := by
        refine Classical.byContradiction (fun hc => h (fun j hj he => hc ⟨j, hj, he⟩))
      obtain ⟨j, hj, he⟩ := this
      have b1 := inv.group_bound hk
      exact ⟨_, by omega, by omega, he⟩

end Spead2
