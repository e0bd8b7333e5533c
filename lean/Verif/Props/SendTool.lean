import Verif.Lemmas.SendTool

/-!
# C88: `spead2_send` sends what it was asked to send
-/

namespace Spead2.SendTool

/-- What is known of the sender. -/
theorem sender_ok {o : Options} (ok : o.Ok) {c : Sender} (h : o.sender = some c) :
    0 < c.maxHeaps ∧ c.maxHeaps ≤ c.cap ∧ 0 < c.nSub ∧ c.nSub = o.dests ∧ c.nHeaps = o.heaps ∧ c.cap = o.maxHeaps ∧ c.lastFlavour = o.flavour ∧ c.flavour = ⟨40, 0⟩ ∧
      (0 ≤ o.heaps → c.maxHeaps ≤ o.heaps.toNat + o.dests) := by
  have hd := ok.dests
  unfold Options.sender at h
  simp only at h
  generalize hM : (if (decide (o.heaps < 0) || decide (o.heaps.toNat + o.dests > o.maxHeaps)) = true then o.maxHeaps else o.heaps.toNat + o.dests) = M at h
  have hM' : M ≤ o.maxHeaps ∧ (0 ≤ o.heaps → M ≤ o.heaps.toNat + o.dests) := by
    split at hM
    · rename_i hn
      simp only [Bool.or_eq_true, decide_eq_true_eq] at hn
      omega
    · rename_i hn
      simp only [Bool.or_eq_true, decide_eq_true_eq, not_or] at hn
      omega
  split at h
  · cases h
  · split at h
    · cases h
    · rename_i h0
      obtain rfl := Option.some.inj h
      exact ⟨Nat.pos_of_ne_zero h0, hM'.1, hd, rfl, rfl, rfl, rfl, rfl, hM'.2⟩

/-- **C88 (full statement).** If `run` returns, what was asked for has been sent.  False: with fewer heaps than destinations, too many heaps are sent and some
destinations get no end of stream; and heaps other than the last are not sent in the flavour that was asked for. -/
def C88_statement : Prop :=
  ∀ (o : Options), o.Ok → 0 ≤ o.heaps → ∀ c, o.sender = some c → ∀ (fill mem : Nat → Nat) (ops : List Op) (s : St Nat) (b : Nat),
    St.run c fill { mem := mem } ops = some s → s.result c = some (.ok b) → Asked o s.queued

/-- `spead2_send --heaps 1` with two destinations. -/
def exFew : Options := ⟨1, 2, 4, 1, 64, true, ⟨40, 0⟩⟩

def exOps : List Op := [.start, .complete none 10, .complete none 10, .complete none 10, .get, .get, .get]

theorem C88_few : ∃ c s, exFew.sender = some c ∧ St.run c id { mem := fun _ => 0 } exOps = some s ∧ s.result c = some (.ok 30) ∧
    s.queued.map (fun e => (e.sub, e.what)) = [(0, .first), (1, .first), (0, .last)] := by
  refine ⟨_, _, rfl, rfl, ?_, ?_⟩ <;> decide +kernel

theorem C88_violated : ¬ C88_statement := by
  intro h
  obtain ⟨c, s, h1, h2, h3, h4⟩ := C88_few
  have := (h exFew ⟨by decide, by decide, by decide, by decide, by decide⟩ (by decide) c h1 id (fun _ => 0) exOps s 30 h2 h3).count
  have e : s.queued.map Entry.what = (s.queued.map (fun e => (e.sub, e.what))).map Prod.snd := by rw [List.map_map]; rfl
  rw [e, h4] at this
  exact absurd this (by decide)

/-- `spead2_send --heaps 2 --addr-bits 48`. -/
def exBits : Options := ⟨2, 1, 4, 1, 64, true, ⟨48, 0⟩⟩

/-- The flavour is ignored but for the end of the stream. -/
theorem C88_flavour : ∃ c s, exBits.sender = some c ∧ St.run c id { mem := fun _ => 0 } exOps = some s ∧ s.result c = some (.ok 30) ∧
    s.queued.map (fun e => (e.what, e.flavour.heapAddressBits)) = [(.first, 40), (.data, 40), (.last, 48)] := by
  refine ⟨_, _, rfl, rfl, ?_, ?_⟩ <;> decide +kernel

/-- With `--max-heaps 0` or `--items 0` the behaviour of the program is undefined. -/
theorem C88_zero (o : Options) (h : o.items = 0 ∨ (o.maxHeaps = 0 ∧ 1 ≤ o.dests)) : o.sender = none := by
  unfold Options.sender
  simp only
  rcases h with h | ⟨h, hd⟩
  · rw [if_pos (by omega)]
  · split
    · rfl
    · rw [if_pos]
      split
      · exact h
      · rename_i hn
        simp only [Bool.or_eq_true, decide_eq_true_eq, not_or] at hn
        omega

/-- The heap with a number: to which destination, and what it is. -/
def plan (o : Options) (i : Nat) : Nat × What :=
  (i % o.dests, if i < o.dests then .first else if 0 ≤ o.heaps ∧ o.heaps.toNat ≤ i then .last else .data)

variable {α : Type}

/-- **C88 (every moment).** Whatever happens: the stream has room for every heap it is given; the heaps are given to it in the order of their numbers, those of
the plan; what it reads of a heap is what was put there for it, although the memory is used again; no more than `--max-heaps` are with the stream,
and the callbacks come in order. -/
theorem C88_safe (o : Options) (ok : o.Ok) (c : Sender) (hc : o.sender = some c) (fill mem : Nat → α) (ops : List Op) :
    ∃ s, St.run c fill { mem := mem } ops = some s ∧
      s.queued.map (fun e => (e.idx, e.sub, e.what)) = (List.range s.queued.length).map (fun i => (i, plan o i)) ∧
      s.inflight = s.queued.drop s.done.length ∧ s.inflight.length ≤ o.maxHeaps ∧ s.done.map Prod.fst = List.range s.done.length ∧ Intact s := by
  obtain ⟨p1, p2, p3, p4, p5, p6, p7, p8, p9⟩ := sender_ok ok hc
  obtain ⟨s, h1, h2⟩ := inv_run (fill := fill) p1 p2 p3 ops (Inv.init (c := c) (fill := fill) mem)
  refine ⟨s, h1, ?_, h2.fl, ?_, h2.dn, h2.intact⟩
  · have e : s.queued.map (fun e => (e.idx, e.sub, e.what)) = (s.queued.map Entry.idx).map (fun i => (i, plan o i)) := by
      rw [List.map_map]
      apply List.map_congr_left
      intro e he
      have hk := h2.ent e he
      show (e.idx, e.sub, e.what) = (e.idx, plan o e.idx)
      unfold plan
      rw [hk.sub, hk.what, p4]
      unfold Sender.what
      rw [p4, p5]
      simp only [Bool.and_eq_true, decide_eq_true_eq]
    rw [e, h2.q]
  · cases hs : s.started
    · have := h2.len
      rw [(h2.fresh hs).1] at this
      simp only [List.length_nil] at this
      omega
    · have := h2.chains hs
      omega

/-- **C88 (what `run` returns).** When `run` returns or throws, the stream has no heap of the sender any more.  It throws the first error that was reported,
if there was one.  Otherwise it returns the number of bytes that were reported, and (for `--heaps` from 0 on) all heaps of the plan were sent. -/
theorem C88_result (o : Options) (ok : o.Ok) (c : Sender) (hc : o.sender = some c) (fill mem : Nat → α) (ops : List Op) (s : St α)
    (hr : St.run c fill { mem := mem } ops = some s) (r : Except Nat Nat) (hres : s.result c = some r) :
    s.inflight = [] ∧
    match r with
    | .error e => (s.done.filterMap fun d => d.2.1).head? = some e
    | .ok b => (∀ d ∈ s.done, d.2.1 = none) ∧ b = (s.done.map fun d => d.2.2).sum ∧
        (0 ≤ o.heaps → s.queued.length = o.heaps.toNat + o.dests ∧ s.done.length = o.heaps.toNat + o.dests) := by
  obtain ⟨p1, p2, p3, p4, p5, p6, p7, p8, p9⟩ := sender_ok ok hc
  obtain ⟨s', h1, h2⟩ := inv_run (fill := fill) p1 p2 p3 ops (Inv.init (c := c) (fill := fill) mem)
  rw [hr] at h1
  obtain rfl := Option.some.inj h1
  unfold St.result at hres
  split at hres
  · cases hres
  · rename_i hg
    have hst : s.started = true := by
      cases hs : s.started
      · have := (h2.fresh hs).2.2
        omega
      · rfl
    have hch := h2.chains hst
    have hin : s.inflight = [] := List.length_eq_zero_iff.mp (by omega)
    refine ⟨hin, ?_⟩
    have herr := h2.error
    cases he : s.error with
    | some e =>
      rw [he] at hres herr
      obtain rfl := Option.some.inj hres
      exact herr.symm
    | none =>
      rw [he] at hres herr
      obtain rfl := Option.some.inj hres
      have hnil := List.head?_eq_none_iff.mp herr.symm
      rw [List.filterMap_eq_nil_iff] at hnil
      refine ⟨hnil, h2.bytes, ?_⟩
      intro hp
      have hcnt := h2.count hst he
      have hlen := h2.len
      rw [hin] at hlen
      simp only [List.length_nil, Nat.add_zero] at hlen
      rw [p5, if_neg (by omega)] at hcnt
      have hlim : c.limit = o.heaps.toNat + o.dests := by
        have := ok.heaps64
        have := ok.dests64
        unfold Sender.limit
        rw [p4, p5]
        omega
      have := p9 hp
      omega

/-- **C88 (no deadlock).** As long as `run` has not returned, something remains to be done: the posted function has not run, the stream has heaps, or `run` can
get something from the semaphore. -/
theorem C88_live (o : Options) (ok : o.Ok) (c : Sender) (hc : o.sender = some c) (fill mem : Nat → α) (ops : List Op) (s : St α)
    (hr : St.run c fill { mem := mem } ops = some s) (hres : s.result c = none) : s.started = false ∨ s.inflight ≠ [] ∨ 0 < s.sem := by
  obtain ⟨p1, p2, p3, p4, p5, p6, p7, p8, p9⟩ := sender_ok ok hc
  obtain ⟨s', h1, h2⟩ := inv_run (fill := fill) p1 p2 p3 ops (Inv.init (c := c) (fill := fill) mem)
  rw [hr] at h1
  obtain rfl := Option.some.inj h1
  unfold St.result at hres
  split at hres
  · rename_i hg
    cases hs : s.started
    · exact Or.inl rfl
    · right
      have hch := h2.chains hs
      by_cases hi : s.inflight = []
      · rw [hi] at hch
        simp only [List.length_nil] at hch
        exact Or.inr (by omega)
      · exact Or.inl hi
  · split at hres <;> cases hres

/-- **C88 (it ends).** For `--heaps` from 0 on there are never more callbacks than heaps of the plan. -/
theorem C88_bounded (o : Options) (ok : o.Ok) (hp : 0 ≤ o.heaps) (c : Sender) (hc : o.sender = some c) (fill mem : Nat → α) (ops : List Op) (s : St α)
    (hr : St.run c fill { mem := mem } ops = some s) : s.queued.length ≤ o.heaps.toNat + o.dests ∧ s.done.length ≤ s.queued.length := by
  obtain ⟨p1, p2, p3, p4, p5, p6, p7, p8, p9⟩ := sender_ok ok hc
  have hlim : c.limit = o.heaps.toNat + o.dests := by
    have := ok.heaps64
    have := ok.dests64
    unfold Sender.limit
    rw [p4, p5]
    omega
  have hp9 := p9 hp
  obtain ⟨s', h1, h2⟩ := inv_run (fill := fill) p1 p2 p3 ops (Inv.init (c := c) (fill := fill) mem)
  rw [hr] at h1
  obtain rfl := Option.some.inj h1
  have := h2.bound (by rw [p5]; omega)
  exact ⟨by omega, h2.le⟩

/-! ### What the destinations get -/

theorem filter_single {l : List Nat} {p : Nat → Bool} {x : Nat} (hn : l.Nodup) (hx : x ∈ l) (h : ∀ y ∈ l, p y = true ↔ y = x) : l.filter p = [x] := by
  induction l with
  | nil => cases hx
  | cons a l ih =>
    obtain ⟨hna, hnl⟩ := List.nodup_cons.mp hn
    by_cases ha : a = x
    · subst ha
      rw [List.filter_cons_of_pos ((h a (by simp)).mpr rfl)]
      congr 1
      rw [List.filter_eq_nil_iff]
      intro y hy hp
      have := (h y (List.mem_cons_of_mem _ hy)).mp hp
      exact hna (this ▸ hy)
    · have hp : ¬ p a = true := fun hp => ha ((h a (by simp)).mp hp)
      rw [List.filter_cons_of_neg hp]
      refine ih hnl ?_ (fun y hy => h y (List.mem_cons_of_mem _ hy))
      rcases List.mem_cons.mp hx with e | e
      · exact absurd e.symm ha
      · exact e

/-- In `d` numbers in a row, one is `t` modulo `d`. -/
theorem one_of {a d t : Nat} (ht : t < d) : ∃ x, (List.range' a d).filter (fun i => decide (i % d = t)) = [x] ∧ a ≤ x ∧ x < a + d := by
  -- x = a + (t - a) mod d
  let x := a + (t + (d - a % d)) % d
  have hlt : (t + (d - a % d)) % d < d := Nat.mod_lt _ (by omega)
  have ha : a % d < d := Nat.mod_lt _ (by omega)
  have hx : x % d = t := by
    show (a + (t + (d - a % d)) % d) % d = t
    rw [Nat.add_mod_mod]
    have : a + (t + (d - a % d)) = t + d * (a / d + 1) := by
      have := Nat.div_add_mod a d
      rw [Nat.mul_succ]
      omega
    rw [this, Nat.add_mul_mod_self_left, Nat.mod_eq_of_lt ht]
  refine ⟨x, filter_single List.nodup_range' (List.mem_range'_1.mpr ⟨by omega, by omega⟩) ?_, by omega, by omega⟩
  intro y hy
  rw [decide_eq_true_eq]
  have hy := List.mem_range'_1.mp hy
  constructor
  · intro h
    rcases Nat.lt_trichotomy y x with hl | hl | hl
    · exact absurd (hx.trans h.symm) (mod_ne hl (by omega))
    · exact hl
    · exact absurd (h.trans hx.symm) (mod_ne hl (by omega))
  · rintro rfl
    exact hx

theorem range_split {n d : Nat} (h : d ≤ n) : List.range (n + d) = List.range' 0 d ++ (List.range' d (n - d) ++ List.range' n d) := by
  rw [List.range_eq_range']
  have e1 : List.range' d (n - d) ++ List.range' n d = List.range' d n := by
    have := List.range'_append (s := d) (m := n - d) (n := d) (step := 1)
    rw [show d + 1 * (n - d) = n by omega, show n - d + d = n by omega] at this
    exact this
  rw [e1]
  have := List.range'_append (s := 0) (m := d) (n := n) (step := 1)
  rw [show 0 + 1 * d = d by omega, show d + n = n + d by omega] at this
  exact this.symm

/-- **C88 (partial).** With at least as many heaps as destinations and the usual flavour, what was asked for has been sent when `run` returns.  Missing from
the full statement: fewer heaps than destinations, and other flavours. -/
theorem C88_partial (o : Options) (ok : o.Ok) (hp : (o.dests : Int) ≤ o.heaps) (hf : o.flavour = ⟨40, 0⟩) (c : Sender) (hc : o.sender = some c) (fill mem : Nat → α)
    (ops : List Op) (s : St α) (b : Nat) (hr : St.run c fill { mem := mem } ops = some s) (hres : s.result c = some (.ok b)) :
    Asked o s.queued ∧ ∀ t < o.dests, .first ∈ (s.queued.filter (·.sub = t)).map Entry.what := by
  obtain ⟨p1, p2, p3, p4, p5, p6, p7, p8, p9⟩ := sender_ok ok hc
  have hd := ok.dests
  obtain ⟨s', a1, a2, -⟩ := C88_safe o ok c hc fill mem ops
  obtain ⟨s'', h1, h2⟩ := inv_run (fill := fill) p1 p2 p3 ops (Inv.init (c := c) (fill := fill) mem)
  rw [hr] at a1 h1
  obtain rfl := Option.some.inj a1
  obtain rfl := Option.some.inj h1
  obtain ⟨-, -, -, hfin⟩ := C88_result o ok c hc fill mem ops s hr _ hres
  obtain ⟨hlen, -⟩ := hfin (by omega)
  obtain ⟨N, hN⟩ : ∃ N, o.heaps.toNat = N := ⟨_, rfl⟩
  have hDN : o.dests ≤ N := by omega
  have h0 : 0 ≤ o.heaps := by omega
  rw [hlen, hN, range_split hDN] at a2
  have w1 : ∀ i ∈ List.range' 0 o.dests, (plan o i).2 = .first := by
    intro i hi
    have := List.mem_range'_1.mp hi
    unfold plan
    simp only
    rw [if_pos (by omega)]
  have w2 : ∀ i ∈ List.range' o.dests (N - o.dests), (plan o i).2 = .data := by
    intro i hi
    have := List.mem_range'_1.mp hi
    unfold plan
    simp only
    rw [if_neg (by omega), if_neg (by omega)]
  have w3 : ∀ i ∈ List.range' N o.dests, (plan o i).2 = .last := by
    intro i hi
    have := List.mem_range'_1.mp hi
    unfold plan
    simp only
    rw [if_neg (by omega), if_pos ⟨h0, by omega⟩]
  have hwhat : s.queued.map Entry.what = (List.range' 0 o.dests ++ (List.range' o.dests (N - o.dests) ++ List.range' N o.dests)).map (fun i => (plan o i).2) := by
    have := congrArg (List.map fun x : Nat × Nat × What => x.2.2) a2
    simp only [List.map_map] at this
    exact this
  have hmapc : ∀ (l : List Nat) (w : What), (∀ i ∈ l, (plan o i).2 = w) → l.map (fun i => (plan o i).2) = List.replicate l.length w := by
    intro l w h
    rw [List.eq_replicate_iff]
    refine ⟨by simp, ?_⟩
    intro x hx
    obtain ⟨i, hi, rfl⟩ := List.mem_map.mp hx
    exact h i hi
  have hdest : ∀ t < o.dests, ∃ n, (s.queued.filter (·.sub = t)).map Entry.what = (.first :: List.replicate n .data) ++ [.last] := by
    intro t ht
    obtain ⟨x, f1, f2, f3⟩ := one_of (a := 0) ht
    obtain ⟨y, g1, g2, g3⟩ := one_of (a := N) ht
    refine ⟨((List.range' o.dests (N - o.dests)).filter (fun i => decide (i % o.dests = t))).length, ?_⟩
    have e : (s.queued.filter (·.sub = t)).map Entry.what =
        ((s.queued.map (fun e => (e.idx, e.sub, e.what))).filter (fun x => x.2.1 = t)).map (fun x => x.2.2) := by
      rw [List.filter_map, List.map_map]
      rfl
    rw [e, a2, List.filter_map, List.map_map]
    have e2 : ((fun x : Nat × Nat × What => decide (x.2.1 = t)) ∘ fun i => (i, plan o i)) = fun i => decide (i % o.dests = t) := rfl
    have e3 : ((fun x : Nat × Nat × What => x.2.2) ∘ fun i => (i, plan o i)) = fun i => (plan o i).2 := rfl
    rw [e2, e3, List.filter_append, List.filter_append, f1, g1, List.map_append, List.map_append,
      hmapc _ .data (fun i hi => w2 i (List.mem_filter.mp hi).1)]
    have q1 := w1 x (List.mem_range'_1.mpr ⟨f2, f3⟩)
    have q2 := w3 y (List.mem_range'_1.mpr ⟨g2, g3⟩)
    simp [q1, q2]
  refine ⟨⟨?_, ?_, ?_, ?_⟩, ?_⟩
  · rw [hwhat, List.map_append, List.map_append, hmapc _ .first w1, hmapc _ .data w2, hmapc _ .last w3]
    simp only [List.length_range', List.filter_append, List.length_append]
    rw [List.filter_replicate_of_pos (by decide), List.filter_replicate_of_pos (by decide), List.filter_replicate_of_neg (by decide)]
    simp only [List.length_replicate, List.length_nil]
    omega
  · intro e he
    rw [(h2.ent e he).sub, p4]
    exact Nat.mod_lt _ (by omega)
  · intro t ht
    obtain ⟨n, hn⟩ := hdest t ht
    exact ⟨_, hn, Or.inr ⟨n, rfl⟩⟩
  · intro e he
    rw [(h2.ent e he).flavour, p7, p8, hf]
    split <;> rfl
  · intro t ht
    obtain ⟨n, hn⟩ := hdest t ht
    rw [hn]
    simp

/-- **C88 (layout).** The items of the heaps that are in memory at the same time do not overlap, and are inside the storage; a heap is no larger than asked for, and
smaller by less than one element of each item. -/
theorem C88_layout (o : Options) (ok : o.Ok) (c : Sender) (hc : o.sender = some c) :
    (∀ i j, i < c.maxHeaps → j < c.items → c.pointer i j + c.elements * 4 ≤ c.heapSize * c.maxHeaps) ∧
    (∀ i j i' j', j < c.items → j' < c.items → (i, j) ≠ (i', j') → c.pointer i j + c.elements * 4 ≤ c.pointer i' j' ∨ c.pointer i' j' + c.elements * 4 ≤ c.pointer i j) ∧
    c.heapSize ≤ o.heapSize ∧ o.heapSize < c.heapSize + 4 * o.items := by
  have hi := ok.items
  have hinside : ∀ j, j < c.items → j * (c.elements * 4) + c.elements * 4 ≤ c.heapSize := by
    intro j hj
    have := Nat.mul_le_mul_right (c.elements * 4) (show j + 1 ≤ c.items from hj)
    rw [Nat.succ_mul] at this
    unfold Sender.heapSize
    rw [Nat.mul_comm (c.elements * 4) c.items]
    exact this
  have hstep : ∀ i i', i < i' → i * c.heapSize + c.heapSize ≤ i' * c.heapSize := by
    intro i i' h
    have := Nat.mul_le_mul_right c.heapSize (show i + 1 ≤ i' from h)
    rwa [Nat.succ_mul] at this
  refine ⟨?_, ?_, ?_⟩
  · intro i j h1 h2
    have := hstep i c.maxHeaps h1
    have := hinside j h2
    unfold Sender.pointer
    rw [Nat.mul_comm c.heapSize c.maxHeaps]
    omega
  · intro i j i' j' hj hj' hne
    have h1 := hinside j hj
    have h2 := hinside j' hj'
    unfold Sender.pointer
    rcases Nat.lt_trichotomy i i' with h | h | h
    · left
      have := hstep i i' h
      omega
    · subst h
      have hjj : j ≠ j' := fun e => hne (by rw [e])
      rcases Nat.lt_or_gt_of_ne hjj with h | h
      · left
        have := Nat.mul_le_mul_right (c.elements * 4) (show j + 1 ≤ j' from h)
        rw [Nat.succ_mul] at this
        omega
      · right
        have := Nat.mul_le_mul_right (c.elements * 4) (show j' + 1 ≤ j from h)
        rw [Nat.succ_mul] at this
        omega
    · right
      have := hstep i' i h
      omega
  · have e : c.elements = o.heapSize / (o.items * 4) ∧ c.items = o.items := by
      unfold Options.sender at hc
      simp only at hc
      generalize (if (decide (o.heaps < 0) || decide (o.heaps.toNat + o.dests > o.maxHeaps)) = true then o.maxHeaps else o.heaps.toNat + o.dests) = M at hc
      split at hc
      · cases hc
      · split at hc
        · cases hc
        · obtain rfl := Option.some.inj hc
          exact ⟨rfl, rfl⟩
    unfold Sender.heapSize
    rw [e.1, e.2, Nat.mul_assoc, Nat.mul_comm 4 o.items]
    have hpos : 0 < o.items * 4 := by omega
    have h1 := Nat.div_mul_le_self o.heapSize (o.items * 4)
    have h2 := Nat.lt_mul_div_succ o.heapSize hpos
    rw [Nat.mul_comm, Nat.succ_mul] at h2
    omega

/-! ### A run -/

/-- `spead2_send --heaps 5 --max-heaps 3 --verify` with two destinations: the memory of three heaps is used again and again. -/
def exMore : Options := ⟨5, 2, 3, 2, 70, true, ⟨40, 0⟩⟩

def exMoreOps : List Op :=
  [.start, .read 0, .complete none 10, .read 2, .get, .complete none 10, .complete none 10, .read 0, .read 1, .complete none 10, .complete none 10, .complete none 3, .get, .get, .complete none 3, .get]

theorem exMore_ok : exMore.Ok := ⟨by decide, by decide, by decide, by decide, by decide⟩

example : ∃ c s, exMore.sender = some c ∧ c.heapSize = 64 ∧ c.pointer 2 1 = 160 ∧ (exMore.dests : Int) ≤ exMore.heaps ∧ exMore.flavour = ⟨40, 0⟩ ∧
    St.run c (fun k => 100 + k) { mem := fun _ => 0 } exMoreOps = some s ∧ s.result c = some (.ok 56) ∧
    s.queued.map (fun e => (e.sub, e.what)) = [(0, .first), (1, .first), (0, .data), (1, .data), (0, .data), (1, .last), (0, .last)] ∧
    s.reads = [(0, 100), (3, 103), (3, 103), (4, 104)] := by
  refine ⟨_, _, rfl, ?_, ?_, ?_, ?_, rfl, ?_, ?_, ?_⟩ <;> decide +kernel

/-- An error: the other heaps that are with the stream are waited for, and nothing more is sent. -/
example : ∃ c s, exMore.sender = some c ∧
    St.run c (fun k => 100 + k) { mem := fun _ => 0 } [.start, .complete none 10, .complete (some 7) 0, .get, .complete (some 8) 0, .get, .complete none 10, .get] = some s ∧
    s.result c = some (.error 7) ∧ s.queued.length = 4 := by
  refine ⟨_, _, rfl, rfl, ?_, ?_⟩ <;> decide +kernel

end Spead2.SendTool
