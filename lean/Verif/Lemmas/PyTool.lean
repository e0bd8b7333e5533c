import Verif.Spec.PyTool

/-!
# Lemmas about `send_asyncio.py`
-/

namespace Spead2.PyTool

section
variable {D V R : Type}

/-! ## The heap generator, if items are only sent -/

/-- All items of a list were described at the same time. -/
def Uniform (q : PyGen) (l : List (Nat × PyItemObj D V)) (k : Option Nat) : Prop :=
  ∀ e ∈ l, (q.getInfo e.2.id e.1).item = e.1 ∧ (q.getInfo e.2.id e.1).descriptorCnt = k

/-- Whether descriptors are sent. -/
def sends (q : PyGen) (m : SendMode) (k : Option Nat) : Bool :=
  match m with
  | .all => true
  | .none => false
  | .stale =>
    match k with
    | none => true
    | some k => q.due k

theorem decideDesc_eq {q : PyGen} {m : SendMode} {o : Nat} {i : PyItemInfo} {k : Option Nat} (h1 : i.item = o) (h2 : i.descriptorCnt = k) :
    (q.decideDesc m o i).1 = sends q m k ∧ (q.decideDesc m o i).2.item = o ∧ (q.decideDesc m o i).2.descriptorCnt = if sends q m k then some q.cnt else k := by
  cases m with
  | all => exact ⟨rfl, h1, rfl⟩
  | none => exact ⟨rfl, h1, h2⟩
  | stale =>
    obtain ⟨v, dc, it⟩ := i
    simp only at h1 h2
    subst h1 h2
    simp only [PyGen.decideDesc, PyGen.descriptorStale, sends]
    cases dc with
    | none => exact ⟨rfl, rfl, rfl⟩
    | some k =>
      by_cases hd : q.due k = true
      · simp [hd]
      · simp [hd]

theorem decideData_eq (x : PyItemObj D V) (i : PyItemInfo) :
    (decideData .all x i).1 = x.value ∧ (decideData .all x i).2.item = i.item ∧ (decideData .all x i).2.descriptorCnt = i.descriptorCnt := by
  unfold decideData
  cases x.value with
  | none => exact ⟨rfl, rfl, rfl⟩
  | some v => simp

theorem addAll_eq (enc : D → V → R) (m : SendMode) (k : Option Nat) : ∀ (l : List (Nat × PyItemObj D V)) (q : PyGen) (h : PyHeap D R),
    (l.map (fun e => e.2.id)).Nodup → Uniform q l k →
    (PyGen.addAll enc m .all l (q, h)).1.frequency = q.frequency ∧ (PyGen.addAll enc m .all l (q, h)).1.cnt = q.cnt ∧
    Uniform (PyGen.addAll enc m .all l (q, h)).1 l (if sends q m k then some q.cnt else k) ∧
    (∀ id, id ∉ l.map (fun e => e.2.id) → (PyGen.addAll enc m .all l (q, h)).1.info id = q.info id) ∧
    (PyGen.addAll enc m .all l (q, h)).2.descs = h.descs ++ (if sends q m k then l.map (fun e => (e.2.id, e.2.name, e.2.rest)) else []) ∧
    (PyGen.addAll enc m .all l (q, h)).2.items = h.items ++ l.filterMap (fun e => e.2.value.map (fun v => (e.2.id, enc e.2.rest v))) := by
  intro l
  induction l with
  | nil => intro q h _ _; exact ⟨rfl, rfl, (fun e he => by cases he), fun _ _ => rfl, by simp [PyGen.addAll], by simp [PyGen.addAll]⟩
  | cons e l ih =>
    intro q h hn hu
    obtain ⟨o, x⟩ := e
    simp only [List.map_cons, List.nodup_cons] at hn
    have h0 := hu (o, x) (by simp)
    have hd := decideDesc_eq (q := q) (m := m) (o := o) h0.1 h0.2
    have hv := decideData_eq x (q.decideDesc m o (q.getInfo x.id o)).2
    simp only [PyGen.addAll]
    generalize hq1 : q.addOne enc m .all h o x = r
    obtain ⟨q1, h1⟩ := r
    have hinfo : ∀ id, q1.info id = if id = x.id then some (decideData .all x (q.decideDesc m o (q.getInfo x.id o)).2).2 else q.info id := by
      intro id
      have := congrArg Prod.fst hq1
      simp only [PyGen.addOne] at this
      rw [← this]
    have hfreq : q1.frequency = q.frequency := by
      have := congrArg Prod.fst hq1
      simp only [PyGen.addOne] at this
      rw [← this]
    have hcnt : q1.cnt = q.cnt := by
      have := congrArg Prod.fst hq1
      simp only [PyGen.addOne] at this
      rw [← this]
    have hdescs : h1.descs = h.descs ++ (if sends q m k then [(x.id, x.name, x.rest)] else []) := by
      have := congrArg Prod.snd hq1
      simp only [PyGen.addOne] at this
      rw [← this, hd.1]
      cases sends q m k <;> simp
    have hitems : h1.items = h.items ++ (x.value.map (fun v => (x.id, enc x.rest v))).toList := by
      have := congrArg Prod.snd hq1
      simp only [PyGen.addOne] at this
      rw [← this, hv.1]
      cases x.value <;> simp
    have hsend : sends q1 m k = sends q m k := by
      unfold sends PyGen.due
      rw [hfreq, hcnt]
    have hu1 : Uniform q1 l k := by
      intro e he
      have hne : e.2.id ≠ x.id := fun heq => hn.1 (List.mem_map.2 ⟨e, he, heq⟩)
      have : q1.getInfo e.2.id e.1 = q.getInfo e.2.id e.1 := by
        unfold PyGen.getInfo
        rw [hinfo, if_neg hne]
      rw [this]
      exact hu e (List.mem_cons_of_mem _ he)
    obtain ⟨i1, i2, i3, i4, i5, i6⟩ := ih q1 h1 hn.2 hu1
    rw [hsend, hcnt] at i3
    rw [hsend] at i5
    refine ⟨i1.trans hfreq, i2.trans hcnt, ?_, ?_, ?_, ?_⟩
    · intro e he
      rcases List.mem_cons.1 he with he | he
      · subst he
        have : (PyGen.addAll enc m .all l (q1, h1)).1.getInfo x.id o = (decideData .all x (q.decideDesc m o (q.getInfo x.id o)).2).2 := by
          unfold PyGen.getInfo
          rw [i4 x.id hn.1, hinfo, if_pos rfl]
          rfl
        show (PyGen.getInfo _ x.id o).item = o ∧ (PyGen.getInfo _ x.id o).descriptorCnt = _
        rw [this, hv.2.1, hv.2.2]
        exact hd.2
      · exact i3 e he
    · intro id hid
      simp only [List.map_cons, List.mem_cons, not_or] at hid
      rw [i4 id hid.2, hinfo, if_neg hid.1]
    · rw [i5, hdescs]
      cases sends q m k <;> simp
    · rw [i6, hitems, List.filterMap_cons]
      cases x.value <;> simp

/-- A heap of a group that does not change. -/
theorem getHeap_eq {c : Cfg D V R} (hn : (c.group.values.map (fun e => e.2.id)).Nodup) {q : PyGen} {k : Option Nat} (m : SendMode) (hu : Uniform q c.group.values k) :
    (q.getHeap c.group c.enc m .all).2 = ⟨if sends q m k then allDescs c.group else [], allItems c⟩ ∧
    (q.getHeap c.group c.enc m .all).1.frequency = q.frequency ∧ (q.getHeap c.group c.enc m .all).1.cnt = q.cnt + 1 ∧
    Uniform (q.getHeap c.group c.enc m .all).1 c.group.values (if sends q m k then some q.cnt else k) := by
  obtain ⟨i1, i2, i3, _, i5, i6⟩ := addAll_eq c.enc m k c.group.values q (⟨[], []⟩ : PyHeap D R) hn hu
  simp only [PyGen.getHeap]
  refine ⟨?_, i1, by rw [i2], ?_⟩
  · cases hh : (PyGen.addAll c.enc m .all c.group.values (q, (⟨[], []⟩ : PyHeap D R))).2 with
    | mk a b =>
      rw [hh] at i5 i6
      simp only [List.nil_append] at i5 i6
      rw [i5, i6]
      rfl
  · intro e he
    have := i3 e he
    exact this

/-! ## When descriptors are due -/

/-- The number of the last heap with descriptors before a heap. -/
def lastDesc (c : Cfg D V R) (i : Nat) : Option Nat :=
  if i = 0 then none
  else if i ≤ c.dests then some (i - 1)
  else match c.freq with
    | none => some (c.dests - 1)
    | some f => if f = 0 then some (i - 1) else some (i - 1 - (i - c.dests) % f)

theorem succ_mod_eq {k f : Nat} (hf : 0 < f) : (f ≤ k % f + 1 ↔ (k + 1) % f = 0) ∧ ((k + 1) % f ≠ 0 → (k + 1) % f = k % f + 1) := by
  have h1 := Nat.mod_lt k hf
  have h2 : (k + 1) % f = (k % f + 1) % f := (Nat.mod_add_mod k f 1).symm
  by_cases h : k % f + 1 = f
  · rw [h2, h, Nat.mod_self]
    exact ⟨⟨fun _ => rfl, fun _ => Nat.le_refl _⟩, fun h => absurd rfl h⟩
  · have h3 : (k + 1) % f = k % f + 1 := h2.trans (Nat.mod_eq_of_lt (by omega))
    rw [h3]
    exact ⟨⟨fun _ => by omega, fun _ => by omega⟩, fun _ => rfl⟩

theorem sends_eq {c : Cfg D V R} (hd : 0 < c.dests) {q : PyGen} (hf : q.frequency = c.freq) (hc : q.cnt = i) :
    sends q (if i < c.dests then .all else .stale) (lastDesc c i) = hasDescs c i ∧
    (if hasDescs c i then some i else lastDesc c i) = lastDesc c (i + 1) := by
  unfold hasDescs lastDesc
  by_cases h1 : i < c.dests
  · have : i + 1 ≤ c.dests := h1
    simp [sends, h1, this]
  · have h2 : i ≠ 0 := by omega
    have h4 : ¬ i + 1 ≤ c.dests := by omega
    have h5 : i + 1 - c.dests = (i - c.dests) + 1 := by omega
    simp only [h1, if_false, h2, h4, decide_false, Bool.false_or, sends, Nat.add_eq_zero_iff, Nat.one_ne_zero, and_false, Nat.add_sub_cancel, h5]
    cases hfr : c.freq with
    | none =>
      by_cases h3 : i ≤ c.dests
      · have : i = c.dests := by omega
        subst this
        simp [PyGen.due, hf, hfr]
      · simp [h3, PyGen.due, hf, hfr]
    | some f =>
      simp only
      generalize hk : i - c.dests = k
      have hik : i = c.dests + k := by omega
      by_cases hf0 : f = 0
      · subst hf0
        simp [PyGen.due, hf, hfr]
      · simp only [hf0, if_false]
        have hfp : 0 < f := by omega
        have hm := succ_mod_eq (k := k) hfp
        have hle := Nat.mod_le k f
        have hlt := Nat.mod_lt k hfp
        have : (if i ≤ c.dests then some (i - 1) else some (i - 1 - k % f)) = some (i - 1 - k % f) := by
          split
          · rename_i h; have : k = 0 := by omega
            subst this; simp
          · rfl
        rw [this]
        have hi2 : i - (i - 1 - k % f) = k % f + 1 := by omega
        simp only [PyGen.due, hf, hfr, hc, hi2]
        have hf0' : (f == 0) = false := by simp [hf0]
        rw [hf0', Bool.false_or]
        by_cases h6 : (k + 1) % f = 0
        · have := hm.1.2 h6
          simp [h6, this]
        · have h7 : ¬ f ≤ k % f + 1 := fun h => h6 (hm.1.1 h)
          have h8 := hm.2 h6
          simp [h6, h7, h8]
          omega

/-! ## The program -/

/-- The futures that were awaited: the number of bytes, and the errors. -/
def bytesOf (res : Nat → Option Outcome) (n : Nat) : Nat := ((List.range n).map (fun t => okBytes (res t))).sum
def errorsOf (res : Nat → Option Outcome) (n : Nat) : List Err := (List.range n).filterMap (fun t => errOf (res t))

theorem bytesOf_congr {r r' : Nat → Option Outcome} {n : Nat} (h : ∀ t, t < n → r t = r' t) : bytesOf r n = bytesOf r' n := by
  unfold bytesOf
  rw [List.map_congr_left (fun t ht => by rw [h t (List.mem_range.1 ht)])]

theorem errorsOf_congr {r r' : Nat → Option Outcome} {n : Nat} (h : ∀ t, t < n → r t = r' t) : errorsOf r n = errorsOf r' n := by
  unfold errorsOf
  induction n with
  | zero => rfl
  | succ n ih =>
    rw [List.range_succ, List.filterMap_append, List.filterMap_append, ih (fun t ht => h t (by omega))]
    simp only [List.filterMap_cons, List.filterMap_nil, h n (by omega)]

structure Inv (c : Cfg D V R) (s : St D R) : Prop where
  tasksLe : s.tasks.length ≤ s.i
  tasks : s.tasks = List.range' (s.i - s.tasks.length) s.tasks.length
  queueLe : s.queue.length ≤ s.tasks.length
  queue : s.queue = List.range' (s.i - s.queue.length) s.queue.length
  res : ∀ t, (s.results t).isSome = true ↔ t < s.i - s.queue.length
  io : ∀ t e, s.results t = some (.error e) → ∃ n, e = .io n
  window : s.tasks.length ≤ c.maxHeaps
  room : s.phase = .make → s.tasks.length < c.maxHeaps
  sent : s.sent = (List.range s.i).map (expected c)
  bytes : s.bytes = bytesOf s.results (s.i - s.tasks.length)
  errors : s.errors = (errorsOf s.results (s.i - s.tasks.length)).length
  last : s.lastErr = (errorsOf s.results (s.i - s.tasks.length)).getLast?
  gen : (∀ n, c.heaps = some n → s.i ≤ n) → s.gen.cnt = s.i ∧ s.gen.frequency = c.freq ∧ Uniform s.gen c.group.values (lastDesc c s.i)
  before : s.phase = .top ∨ s.phase = .make → ∀ t, c.total = some t → s.i ≤ t ∧ (s.phase = .make → s.i < t)
  after : s.phase = .drain ∨ s.phase = .finished → c.total = some s.i
  fin : s.phase = .finished → s.tasks = []

theorem Inv.init (c : Cfg D V R) : Inv c (St.init c) := by
  refine ⟨Nat.le_refl _, rfl, Nat.le_refl _, rfl, ?_, ?_, Nat.zero_le _, ?_, rfl, rfl, rfl, rfl, ?_, ?_, ?_, ?_⟩
  · intro t; simp [St.init]
  · intro t e h; cases h
  · intro h; cases h
  · intro _; exact ⟨rfl, rfl, fun e _ => ⟨rfl, rfl⟩⟩
  · intro _ t _; exact ⟨Nat.zero_le _, fun h => by cases h⟩
  · intro h; rcases h with h | h <;> cases h
  · intro h; cases h

theorem Inv.complete {c : Cfg D V R} {s : St D R} (hi : Inv c s) {t : Nat} {ts : List Nat} (hq : s.queue = t :: ts) (r : Except Nat Nat) :
    Inv c { s with queue := ts, results := fun u => if u = t then some (outcome r) else s.results u } := by
  have hlen : s.queue.length = ts.length + 1 := by rw [hq]; rfl
  have hle := hi.queueLe
  have hle2 := hi.tasksLe
  have h0 := hi.queue
  rw [hq, List.length_cons, List.range'_succ] at h0
  injection h0 with h1 h2
  have hsame : ∀ u, u < s.i - s.tasks.length → (fun u => if u = t then some (outcome r) else s.results u) u = s.results u := by
    intro u hu
    have : u ≠ t := by omega
    simp [this]
  refine ⟨hi.tasksLe, hi.tasks, by simp only; omega, ?_, ?_, ?_, hi.window, hi.room, hi.sent, ?_, ?_, ?_, hi.gen, hi.before, hi.after, hi.fin⟩
  · simp only
    have : s.i - ts.length = s.i - (ts.length + 1) + 1 := by omega
    rw [this]
    exact h2
  · intro u
    simp only
    by_cases hu : u = t
    · simp only [hu, if_true, Option.isSome_some, true_iff]; omega
    · simp only [hu, if_false]
      rw [hi.res u]
      omega
  · intro u e h
    simp only at h
    by_cases hu : u = t
    · rw [if_pos hu] at h
      cases r with
      | ok n => cases h
      | error n => cases h; exact ⟨n, rfl⟩
    · rw [if_neg hu] at h
      exact hi.io u e h
  · rw [bytesOf_congr hsame]; exact hi.bytes
  · rw [errorsOf_congr hsame]; exact hi.errors
  · rw [errorsOf_congr hsame]; exact hi.last

/-- Awaiting the oldest future. -/
theorem Inv.await {c : Cfg D V R} {s s' : St D R} (hi : Inv c s) (hne : s.tasks ≠ []) {next : Phase} (h : s.await next = some s')
    (hroom : next = .make → True) (hbefore : next = .top ∨ next = .make → ∀ t, c.total = some t → s.i ≤ t ∧ (next = .make → s.i < t))
    (hafter : next = .drain ∨ next = .finished → c.total = some s.i) (hfin : next ≠ .finished) : Inv c s' := by
  cases ht : s.tasks with
  | nil => exact absurd ht hne
  | cons t ts =>
    have hlen : s.tasks.length = ts.length + 1 := by rw [ht]; rfl
    have hle := hi.queueLe
    have hle2 := hi.tasksLe
    have h0 := hi.tasks
    rw [ht, List.length_cons, List.range'_succ] at h0
    injection h0 with h1 h2
    simp only [St.await, ht] at h
    cases hr : s.results t with
    | none => rw [hr] at h; cases h
    | some r =>
      rw [hr] at h
      have htq := (hi.res t).1 (by rw [hr]; rfl)
      have hb : bytesOf s.results (s.i - ts.length) = bytesOf s.results (s.i - s.tasks.length) + okBytes (some r) := by
        have : s.i - ts.length = t + 1 := by omega
        have h4 : s.i - s.tasks.length = t := by omega
        rw [this, h4]
        unfold bytesOf
        rw [List.range_succ, List.map_append, List.sum_append_nat, ← hr]
        simp
      have he : errorsOf s.results (s.i - ts.length) = errorsOf s.results (s.i - s.tasks.length) ++ (errOf (some r)).toList := by
        have : s.i - ts.length = t + 1 := by omega
        have h4 : s.i - s.tasks.length = t := by omega
        rw [this, h4]
        unfold errorsOf
        rw [List.range_succ, List.filterMap_append, ← hr]
        simp only [List.filterMap_cons, List.filterMap_nil]
        cases errOf (s.results t) <;> rfl
      have hbytes := hi.bytes
      have herrs := hi.errors
      have hlast := hi.last
      have hw := hi.window
      have htasks : ts = List.range' (s.i - ts.length) ts.length := by
        have : s.i - ts.length = s.i - (ts.length + 1) + 1 := by omega
        rw [this]
        exact h2
      have hql : s.queue.length ≤ ts.length := by omega
      cases h
      cases r with
      | ok n =>
        refine ⟨?_, htasks, hql, hi.queue, hi.res, hi.io, ?_, ?_, hi.sent, ?_, ?_, ?_, hi.gen, hbefore, hafter, fun h => absurd h hfin⟩
        · simp only [St.account]; omega
        · simp only [St.account]; omega
        · intro _; simp only [St.account]; omega
        · simp only [St.account]; rw [hb, hbytes]; rfl
        · simp only [St.account]; rw [he, herrs]; simp [errOf]
        · simp only [St.account]; rw [he, hlast]; simp [errOf]
      | error e =>
        refine ⟨?_, htasks, hql, hi.queue, hi.res, hi.io, ?_, ?_, hi.sent, ?_, ?_, ?_, hi.gen, hbefore, hafter, fun h => absurd h hfin⟩
        · simp only [St.account]; omega
        · simp only [St.account]; omega
        · intro _; simp only [St.account]; omega
        · simp only [St.account]; rw [hb, hbytes]; rfl
        · simp only [St.account]; rw [he, herrs]; simp [errOf]
        · simp only [St.account]; rw [he]; simp [errOf]

theorem makeHeap_eq {c : Cfg D V R} (hv : Valid c) {s : St D R} (hi : Inv c s) (hm : s.phase = .make) :
    (s.i % c.dests, (s.makeHeap c).2) = expected c s.i ∧
    ((∀ n, c.heaps = some n → s.i + 1 ≤ n) → (s.makeHeap c).1.cnt = s.i + 1 ∧ (s.makeHeap c).1.frequency = c.freq ∧ Uniform (s.makeHeap c).1 c.group.values (lastDesc c (s.i + 1))) := by
  unfold St.makeHeap expected
  cases he : c.isEnd s.i with
  | true =>
    refine ⟨rfl, fun h => ?_⟩
    unfold Cfg.isEnd at he
    cases hh : c.heaps with
    | none => rw [hh] at he; cases he
    | some n =>
      rw [hh] at he
      have := h n hh
      simp at he
      omega
  | false =>
    have hle : ∀ n, c.heaps = some n → s.i ≤ n := by
      intro n hn
      unfold Cfg.isEnd at he
      rw [hn] at he
      simp at he
      omega
    obtain ⟨g1, g2, g3⟩ := hi.gen hle
    obtain ⟨e1, e2⟩ := sends_eq (i := s.i) hv.dests g2 g1
    obtain ⟨f1, f2, f3, f4⟩ := getHeap_eq hv.ids (if s.i < c.dests then .all else .stale) g3
    rw [e1] at f1 f4
    rw [g1, e2] at f4
    rw [g1] at f3
    refine ⟨?_, fun _ => ⟨f3, f2.trans g2, f4⟩⟩
    simp only [Bool.false_eq_true, if_false]
    rw [f1]

theorem Inv.send {c : Cfg D V R} (hv : Valid c) {s : St D R} (hi : Inv c s) (hm : s.phase = .make) : Inv c (s.send c) := by
  have hmk := makeHeap_eq hv hi hm
  have hroom := hi.room hm
  have hq := hi.queueLe
  have ht := hi.tasksLe
  have hlt : s.queue.length < c.maxHeaps := by omega
  have hpush : ∀ (l : List Nat), l.length ≤ s.i → l = List.range' (s.i - l.length) l.length →
      l ++ [s.i] = List.range' (s.i + 1 - (l ++ [s.i]).length) (l ++ [s.i]).length := by
    intro l hl he
    have h1 : s.i + 1 - (l ++ [s.i]).length = s.i - l.length := by rw [List.length_append, List.length_singleton]; omega
    rw [h1, List.length_append, List.length_singleton, List.range'_concat, ← he]
    have h2 : s.i - l.length + 1 * l.length = s.i := by omega
    rw [h2]
  have haw : s.i + 1 - (s.tasks ++ [s.i]).length = s.i - s.tasks.length := by rw [List.length_append, List.length_singleton]; omega
  have haq : s.i + 1 - (s.queue ++ [s.i]).length = s.i - s.queue.length := by rw [List.length_append, List.length_singleton]; omega
  unfold St.send
  simp only [hlt, if_true]
  refine ⟨?_, hpush _ ht hi.tasks, ?_, hpush _ (by omega) hi.queue, ?_, hi.io, ?_, ?_, ?_, ?_, ?_, ?_, hmk.2, ?_, ?_, ?_⟩
  · simp; omega
  · simp; omega
  · simp only [haq]; exact hi.res
  · simp; omega
  · intro h; cases h
  · simp only
    rw [List.range_succ, List.map_append, hi.sent, List.map_singleton, hmk.1]
  · simp only [haw]; exact hi.bytes
  · simp only [haw]; exact hi.errors
  · simp only [haw]; exact hi.last
  · intro _ t htot
    have := (hi.before (Or.inr hm) t htot).2 hm
    exact ⟨this, fun h => by cases h⟩
  · intro h; rcases h with h | h <;> cases h
  · intro h; cases h

theorem step_inv {c : Cfg D V R} (hv : Valid c) {s s' : St D R} (hi : Inv c s) {e : Ev} (h : step c s e = some s') : Inv c s' := by
  cases e with
  | complete r =>
    simp only [step] at h
    cases hq : s.queue with
    | nil => rw [hq] at h; cases h
    | cons t ts => rw [hq] at h; cases h; exact hi.complete hq r
  | prog =>
    simp only [step] at h
    cases hp : s.phase with
    | top =>
      rw [hp] at h
      simp only at h
      by_cases h1 : c.total = some s.i
      · rw [if_pos h1] at h
        cases h
        exact ⟨hi.tasksLe, hi.tasks, hi.queueLe, hi.queue, hi.res, hi.io, hi.window, (fun h => by cases h), hi.sent, hi.bytes, hi.errors, hi.last, hi.gen,
          (fun h => by rcases h with h | h <;> cases h), fun _ => h1, fun h => by cases h⟩
      · rw [if_neg h1] at h
        have hb : ∀ t, c.total = some t → s.i ≤ t ∧ s.i < t := by
          intro t ht
          have := (hi.before (Or.inl hp) t ht).1
          refine ⟨this, Nat.lt_of_le_of_ne this (fun he => h1 (by rw [he]; exact ht))⟩
        by_cases h2 : c.maxHeaps ≤ s.tasks.length
        · rw [if_pos h2] at h
          have hne : s.tasks ≠ [] := by
            intro h0
            rw [h0] at h2
            have := hv.window
            simp at h2
            omega
          exact hi.await hne h (fun _ => trivial) (fun _ t ht => ⟨(hb t ht).1, fun _ => (hb t ht).2⟩) (fun h => by rcases h with h | h <;> cases h) (by simp)
        · rw [if_neg h2] at h
          cases h
          exact ⟨hi.tasksLe, hi.tasks, hi.queueLe, hi.queue, hi.res, hi.io, hi.window, (fun _ => by simp only; omega), hi.sent, hi.bytes, hi.errors, hi.last, hi.gen,
            (fun _ t ht => ⟨(hb t ht).1, fun _ => (hb t ht).2⟩), (fun h => by rcases h with h | h <;> cases h), fun h => by cases h⟩
    | make => rw [hp] at h; cases h; exact hi.send hv hp
    | drain =>
      rw [hp] at h
      simp only at h
      have ha := hi.after (Or.inl hp)
      by_cases h1 : s.tasks.isEmpty = true
      · rw [if_pos h1] at h
        cases h
        have h0 : s.tasks = [] := List.isEmpty_iff.1 h1
        exact ⟨hi.tasksLe, hi.tasks, hi.queueLe, hi.queue, hi.res, hi.io, hi.window, (fun h => by cases h), hi.sent, hi.bytes, hi.errors, hi.last, hi.gen,
          (fun h => by rcases h with h | h <;> cases h), fun _ => ha, fun _ => h0⟩
      · rw [if_neg h1] at h
        have hne : s.tasks ≠ [] := fun h0 => h1 (by rw [h0]; rfl)
        exact hi.await hne h (fun h => by cases h) (fun h => by rcases h with h | h <;> cases h) (fun _ => ha) (by simp)
    | finished => rw [hp] at h; cases h

theorem run_inv {c : Cfg D V R} (hv : Valid c) : ∀ (evs : List Ev) {s s' : St D R}, Inv c s → run c s evs = some s' → Inv c s' := by
  intro evs
  induction evs with
  | nil => intro s s' hi h; cases h; exact hi
  | cons e evs ih =>
    intro s s' hi h
    simp only [run] at h
    cases hs : step c s e with
    | none => rw [hs] at h; cases h
    | some s1 => rw [hs] at h; exact ih (step_inv hv hi hs) h

theorem reach_inv {c : Cfg D V R} (hv : Valid c) {evs : List Ev} {s : St D R} (h : Reach c evs s) : Inv c s := run_inv hv evs (Inv.init c) h

end

end Spead2.PyTool
