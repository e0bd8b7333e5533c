import Verif.Lemmas.PyChunk

/-!
# C97: Python's chunks travel through ringbuffers with their buffers
-/

namespace Spead2.PyChunk

/-- Whatever the program does, each buffer it has ever assigned is in exactly one place: in one field of one chunk, under way in one ringbuffer, call or stream, or released (once).
There are no others. -/
theorem C97_exclusive {rings : List Nat} {s : St} (h : Run rings s) (b : Nat) : s.places.count b = if b < s.next then 1 else 0 := by
  rw [cnt_eq]; exact (run_good h).once b

/-- A chunk that is not under way has what was assigned to it; one that is under way is so once, with what was assigned to it, and the Python object is empty. -/
theorem C97_partial {rings : List Nat} {s : St} {u : List Content} (h : Reach true rings s u) {o : Nat} {c cu : Content} (hc : s.objs[o]? = some c) (hu : u[o]? = some cu) :
    ((∀ w ∈ s.away, w.obj ≠ o) → c.buffers = cu.buffers) ∧
    (∀ w ∈ s.away, w.obj = o → w.c.buffers = cu.buffers ∧ c.buffers = (none, none, none) ∧ (s.away.filter (fun w => w.obj == o)).length = 1) := by
  have hh := (reach_kept h).here o _ cu.buffers (tri_get hc) (by rw [List.getElem?_map, hu]; rfl)
  have hlen : (s.away.filter (fun w => w.obj == o)).length = (mine o (keys s)).length := by
    simp only [mine, keys, List.filter_map, List.length_map]
    rfl
  constructor
  · intro hn
    rcases hh with ⟨_, h2⟩ | ⟨h1, _⟩
    · exact h2
    · have : (o, cu.buffers) ∈ mine o (keys s) := by rw [h1]; simp
      obtain ⟨w, hw, hk⟩ := List.mem_map.1 (List.mem_filter.1 this).1
      exact absurd (congrArg Prod.fst hk) (hn w hw)
  · intro w hw ho
    have hm : key w ∈ mine o (keys s) := List.mem_filter.2 ⟨List.mem_map.2 ⟨w, hw, rfl⟩, by simp [key, ho]⟩
    rcases hh with ⟨h1, _⟩ | ⟨h1, h2⟩
    · rw [h1] at hm; cases hm
    · rw [h1] at hm
      have := List.mem_singleton.1 hm
      exact ⟨congrArg Prod.snd this, h2, by rw [hlen, h1]; rfl⟩

/-- There are as many entries in `u` as chunks. -/
theorem C97_known {rings : List Nat} {s : St} {u : List Content} (h : Reach true rings s u) : s.objs.length = u.length := by
  have := (reach_kept h).length
  simpa [tri] using this

/-- Assigning to a field gives it a new buffer with the contents of the array, or none; what it had is released; and nothing else changes. -/
theorem C97_set {s : St} {o : Nat} {c : Content} (hc : s.objs[o]? = some c) (hm : s.mem.length = s.next) (f : Field) (v : Option Nat) :
    ∃ s' c', s.step (.set o f v) = some (s', .ok) ∧ s'.objs = s.objs.set o c' ∧ s'.rings = s.rings ∧ s'.pend = s.pend ∧ s'.held = s.held ∧ s'.released = s.released ++ (f.get c).toList ∧
      (f.get c').map (fun b => s'.mem[b]?) = v.map some ∧ (∀ g, g ≠ f → g.get c' = g.get c) ∧ (∀ b, b < s.next → s'.mem[b]? = s.mem[b]?) := by
  cases v with
  | none =>
    refine ⟨s.setField o c f none, f.put c none, by simp only [St.step, hc], rfl, rfl, rfl, rfl, rfl, by cases f <;> rfl, ?_, fun _ _ => rfl⟩
    intro g hg
    cases f <;> cases g <;> first | rfl | exact absurd rfl hg
  | some v =>
    refine ⟨s.setField o c f (some v), f.put c (some s.next), by simp only [St.step, hc], rfl, rfl, rfl, rfl, rfl, ?_, ?_, ?_⟩
    · have : (f.get (f.put c (some s.next))) = some s.next := by cases f <;> rfl
      rw [this]
      show some ((s.mem ++ [v])[s.next]?) = some (some v)
      rw [← hm]
      simp
    · intro g hg
      cases f <;> cases g <;> first | rfl | exact absurd rfl hg
    · intro b hb
      show (s.mem ++ [v])[b]? = s.mem[b]?
      rw [List.getElem?_append_left (by omega)]

/-- There is memory for each buffer. -/
theorem C97_memory {rings : List Nat} {s : St} (h : Run rings s) : s.mem.length = s.next := by
  induction h with
  | init => rfl
  | @step s s' e res _ hs ih =>
    have hrest : ∀ (t : St) (w : Wrapper), (t.restore w).mem = t.mem ∧ (t.restore w).next = t.next := by
      intro t w
      unfold St.restore
      cases t.objs[w.obj]? <;> exact ⟨rfl, rfl⟩
    have hclear : ∀ (t : St) (c : Content), (t.clear c).mem.length = t.mem.length ∧ (t.clear c).next = t.next := by
      intro t c
      unfold St.clear
      cases c.present <;> simp
    cases e with
    | new => cases hs; exact ih
    | set o f v =>
      simp only [St.step] at hs
      cases hc : s.objs[o]? with
      | none => rw [hc] at hs; cases hs
      | some c =>
        rw [hc] at hs
        cases hs
        cases v with
        | none => exact ih
        | some v => simp [St.setField, ih]
    | putNowait o r =>
      simp only [St.step, St.putNowait] at hs
      split at hs
      · split at hs
        · split at hs
          · cases hs; rw [(hrest _ _).1, (hrest _ _).2]; exact ih
          · split at hs
            · cases hs; exact ih
            · cases hs; rw [(hrest _ _).1, (hrest _ _).2]; exact ih
        · cases hs; exact ih
      · cases hs
    | put o r =>
      simp only [St.step, St.putBegin] at hs
      split at hs
      · split at hs <;> cases hs <;> exact ih
      · cases hs
    | putEnd i =>
      simp only [St.step, St.putEnd] at hs
      split at hs
      · split at hs
        · split at hs
          · cases hs; rw [(hrest _ _).1, (hrest _ _).2]; exact ih
          · split at hs
            · cases hs; exact ih
            · cases hs
        · cases hs
      · cases hs
    | putInterrupt i =>
      simp only [St.step, St.putInterrupt] at hs
      split at hs
      · cases hs; rw [(hrest _ _).1, (hrest _ _).2]; exact ih
      · cases hs
    | get r =>
      simp only [St.step, St.get] at hs
      split at hs
      · split at hs
        · cases hs; rw [(hrest _ _).1, (hrest _ _).2]; exact ih
        · cases hs; exact ih
      · cases hs
    | addFree o r =>
      have he := fun c => hclear (s.wrap o c) c
      simp only [St.step, St.addFree] at hs
      split at hs
      · split at hs
        · split at hs
          · cases hs; exact (he _).1.trans (ih.trans (he _).2.symm)
          · split at hs
            · cases hs; exact (he _).1.trans (ih.trans (he _).2.symm)
            · cases hs; rw [(hrest _ _).1, (hrest _ _).2]; exact (he _).1.trans (ih.trans (he _).2.symm)
        · cases hs; exact ih
      · cases hs
    | stop r =>
      simp only [St.step] at hs
      split at hs <;> cases hs
      exact ih
    | take r =>
      simp only [St.step, St.take] at hs
      split at hs
      · split at hs <;> cases hs
        exact ih
      · cases hs
    | work i id v =>
      simp only [St.step, St.work] at hs
      split at hs
      · cases hs
        have hf : ∀ (l m : List Nat), (l.foldl (fun m b => m.set b v) m).length = m.length := by
          intro l
          induction l with
          | nil => intro m; rfl
          | cons b l ihl => intro m; rw [List.foldl_cons, ihl, List.length_set]
        exact (hf _ _).trans ih
      · cases hs
    | give i r =>
      simp only [St.step, St.give] at hs
      split at hs
      · split at hs
        · cases hs; exact ih
        · split at hs <;> cases hs
          exact ih
      · cases hs

/-- A call of `put` that waits ends exactly if the ringbuffer is stopped, with that exception, or has space, with the chunk at its end. -/
theorem C97_wait {s : St} {i r : Nat} {w : Wrapper} {ring : Ring} (hp : s.pend[i]? = some (w, r)) (hg : s.rings[r]? = some ring) :
    (s.step (.putEnd i) = none ↔ ring.stopped = false ∧ ring.cap ≤ ring.q.length) ∧
    (∀ s' res, s.step (.putEnd i) = some (s', res) → s'.pend = s.pend.eraseIdx i ∧
      ((ring.stopped = true ∧ res = .stopped) ∨ (ring.stopped = false ∧ res = .ok ∧ s'.rings = s.rings.set r { ring with q := ring.q ++ [w] } ∧ s'.objs = s.objs ∧ s'.mem = s.mem))) := by
  have hrest : ∀ (t : St) (w : Wrapper), (t.restore w).pend = t.pend := by
    intro t w
    unfold St.restore
    cases t.objs[w.obj]? <;> rfl
  simp only [St.step, St.putEnd, hp, hg]
  cases hst : ring.stopped with
  | true =>
    simp only [if_true]
    refine ⟨by simp, ?_⟩
    intro s' res h
    cases h
    exact ⟨by rw [hrest], by simp⟩
  | false =>
    simp only [Bool.false_eq_true, if_false]
    split
    · rename_i hlt
      refine ⟨by simp; omega, ?_⟩
      intro s' res h
      cases h
      exact ⟨rfl, Or.inr ⟨trivial, rfl, by rw [St.push, ← hst], rfl, rfl⟩⟩
    · rename_i hlt
      refine ⟨by simp; omega, ?_⟩
      intro s' res h
      cases h

/-- `put_nowait` puts the chunk at the end of the ringbuffer, or raises an exception and changes nothing at all. -/
theorem C97_put {s s' : St} {o r : Nat} {res : Res} (h : s.step (.putNowait o r) = some (s', res)) :
    (res ≠ .ok ∧ s' = s) ∨
    (res = .ok ∧ ∃ c ring, s.objs[o]? = some c ∧ s.rings[r]? = some ring ∧ ring.stopped = false ∧ ring.q.length < ring.cap ∧
      s'.rings = s.rings.set r { ring with q := ring.q ++ [⟨c, o⟩] } ∧ s'.mem = s.mem) := by
  simp only [St.step, St.putNowait] at h
  cases hc : s.objs[o]? with
  | none => rw [hc] at h; cases h
  | some c =>
    cases hg : s.rings[r]? with
    | none => rw [hc, hg] at h; cases h
    | some ring =>
      rw [hc, hg] at h
      simp only at h
      rw [wrap_restore hc] at h
      split at h
      · split at h
        · cases h; exact Or.inl ⟨by simp, rfl⟩
        · rename_i hst
          split at h
          · rename_i hlt
            cases h
            exact Or.inr ⟨rfl, c, ring, rfl, rfl, by simpa using hst, hlt, rfl, rfl⟩
          · cases h; exact Or.inl ⟨by simp, rfl⟩
      · cases h; exact Or.inl ⟨by simp, rfl⟩

/-- It raises ValueError exactly if `data` or `present` is not set, and otherwise that the ringbuffer is stopped or full exactly if it is. -/
theorem C97_error {s s' : St} {o r : Nat} {res : Res} {c : Content} {ring : Ring} (hc : s.objs[o]? = some c) (hg : s.rings[r]? = some ring) (h : s.step (.putNowait o r) = some (s', res)) :
    (res = .valueError ↔ c.data = none ∨ c.present = none) ∧
    (c.data ≠ none → c.present ≠ none → (res = .stopped ↔ ring.stopped = true) ∧ (res = .full ↔ ring.stopped = false ∧ ring.cap ≤ ring.q.length)) := by
  simp only [St.step, St.putNowait, hc, hg] at h
  obtain ⟨d, p, e, i⟩ := c
  cases d with
  | none => simp only [Content.valid] at h; cases h; simp
  | some d =>
    cases p with
    | none => simp only [Content.valid] at h; cases h; simp
    | some p =>
      simp only [Content.valid, Option.isSome_some, Bool.and_self, if_true] at h
      cases hst : ring.stopped with
      | true => rw [hst] at h; cases h; simp
      | false =>
        rw [hst] at h
        simp only [Bool.false_eq_true, if_false] at h
        split at h
        · rename_i hlt; cases h; simp; omega
        · rename_i hlt; cases h; simp; omega

/-- A call of `put` that waited and then fails, because the ringbuffer was stopped or of a signal, gives the chunk its contents back; rings and memory stay. -/
theorem C97_interrupt {rings : List Nat} {s s' : St} (hr : Run rings s) {i : Nat} {w : Wrapper} {r : Nat} (hp : s.pend[i]? = some (w, r)) {e : Ev} {res : Res}
    (he : e = .putInterrupt i ∨ e = .putEnd i) (h : s.step e = some (s', res)) (hres : res ≠ .ok) : s'.objs[w.obj]? = some w.c ∧ s'.rings = s.rings ∧ s'.mem = s.mem ∧ s'.held = s.held := by
  have hm : w ∈ s.away := by
    have h1 : w ∈ s.pend.map (·.1) := List.mem_map.2 ⟨(w, r), List.mem_of_getElem? hp, rfl⟩
    simp only [St.away, List.mem_append]
    exact Or.inr (Or.inl h1)
  have hlt : w.obj < s.objs.length := (run_good hr).bound (key w) (List.mem_map.2 ⟨w, hm, rfl⟩)
  have hs' : s' = ({ s with pend := s.pend.eraseIdx i } : St).restore w := by
    rcases he with he | he
    · subst he
      simp only [St.step, St.putInterrupt, hp] at h
      cases h; rfl
    · subst he
      simp only [St.step, St.putEnd, hp] at h
      split at h
      · split at h
        · cases h; rfl
        · split at h
          · cases h; exact absurd rfl hres
          · cases h
      · cases h
  obtain ⟨c, hc⟩ : ∃ c, s.objs[w.obj]? = some c := ⟨_, List.getElem?_eq_getElem hlt⟩
  rw [hs']
  simp only [St.restore, hc]
  refine ⟨?_, trivial, trivial, trivial⟩
  rw [List.getElem?_set, if_pos rfl, if_pos hlt]

/-- `get` returns the chunk that was put first, the same Python object, with the contents it has in the ringbuffer; the others stay. -/
theorem C97_get {rings : List Nat} {s s' : St} (hr : Run rings s) {r o : Nat} (h : s.step (.get r) = some (s', .obj o)) :
    ∃ ring w q, s.rings[r]? = some ring ∧ ring.q = w :: q ∧ w.obj = o ∧ s'.objs[o]? = some w.c ∧ s'.rings = s.rings.set r { ring with q := q } ∧ s'.mem = s.mem := by
  simp only [St.step, St.get] at h
  cases hg : s.rings[r]? with
  | none => rw [hg] at h; cases h
  | some ring =>
    rw [hg] at h
    simp only at h
    cases hq : ring.q with
    | nil =>
      rw [hq] at h
      simp only [Option.some.injEq, Prod.mk.injEq] at h
      have := h.2
      split at this <;> cases this
    | cons w q =>
      rw [hq] at h
      simp only [Option.some.injEq, Prod.mk.injEq, Res.obj.injEq] at h
      obtain ⟨h, ho⟩ := h
      subst ho
      have hm : w ∈ s.away := (pop_away hg hq).mem_iff.2 (by simp)
      have hlt : w.obj < s.objs.length := (run_good hr).bound (key w) (List.mem_map.2 ⟨w, hm, rfl⟩)
      obtain ⟨c, hc⟩ : ∃ c, s.objs[w.obj]? = some c := ⟨_, List.getElem?_eq_getElem hlt⟩
      refine ⟨ring, w, q, rfl, hq, rfl, ?_⟩
      rw [← h]
      simp only [St.restore, hc]
      refine ⟨?_, trivial, trivial⟩
      rw [List.getElem?_set, if_pos rfl, if_pos hlt]

/-- `add_free_chunk` puts the chunk at the end of the free ring with its flags cleared. If the ring is full, it raises an exception and the chunk stays as it is, but for its flags. -/
theorem C97_free {s s' : St} {o r : Nat} {res : Res} {c : Content} {ring : Ring} (hc : s.objs[o]? = some c) (hg : s.rings[r]? = some ring) {d p : Nat} (hd : c.data = some d)
    (hp : c.present = some p) (hst : ring.stopped = false) (h : s.step (.addFree o r) = some (s', res)) :
    s'.mem = s.mem.set p 0 ∧
    ((ring.q.length < ring.cap ∧ res = .ok ∧ s'.rings = s.rings.set r { ring with q := ring.q ++ [⟨c, o⟩] }) ∨
     (ring.cap ≤ ring.q.length ∧ res = .full ∧ s'.objs = s.objs ∧ s'.rings = s.rings)) := by
  simp only [St.step, St.addFree, hc, hg, Content.valid, hd, hp, Option.isSome_some, Bool.and_self, if_true, hst, Bool.false_eq_true, if_false] at h
  rw [clear_wrap_restore hc] at h
  simp only [St.clear, hp] at h
  split at h
  · rename_i hlt; cases h; exact ⟨rfl, Or.inl ⟨hlt, rfl, rfl⟩⟩
  · rename_i hlt; cases h; exact ⟨rfl, Or.inr ⟨by omega, rfl, rfl, rfl⟩⟩

/-- If the ring is stopped, `add_free_chunk` succeeds, but the chunk goes nowhere: its buffers are released and the Python object is left without them. -/
theorem C97_lost {s : St} {o r : Nat} {c : Content} {ring : Ring} (hc : s.objs[o]? = some c) (hg : s.rings[r]? = some ring) (hd : c.data ≠ none) (hp : c.present ≠ none)
    (hst : ring.stopped = true) : ∃ s', s.step (.addFree o r) = some (s', .ok) ∧ s'.rings = s.rings ∧ (∃ c', s'.objs[o]? = some c' ∧ c'.buffers = (none, none, none)) ∧
      s'.released = s.released ++ c.bufs := by
  have hv : c.valid = true := by
    obtain ⟨d, hd⟩ := Option.ne_none_iff_exists'.1 hd
    obtain ⟨p, hp⟩ := Option.ne_none_iff_exists'.1 hp
    simp [Content.valid, hd, hp]
  have ho : o < s.objs.length := by
    rcases Nat.lt_or_ge o s.objs.length with h1 | h1
    · exact h1
    · rw [List.getElem?_eq_none h1] at hc; cases hc
  obtain ⟨_, _, k3, _, k5, k6⟩ := clear_keys (s.wrap o c) c
  refine ⟨((s.wrap o c).clear c).drop ⟨c, o⟩, ?_, ?_, ⟨c.moved, ?_, rfl⟩, ?_⟩
  · simp only [St.step, St.addFree, hc, hg, hv, hst, if_true]
  · show ((s.wrap o c).clear c).rings = _
    rw [k5]; rfl
  · show ((s.wrap o c).clear c).objs[o]? = _
    rw [k6]
    simp [St.wrap, ho]
  · show ((s.wrap o c).clear c).released ++ c.bufs = _
    rw [k3]; rfl

/-- A chunk that is not under way has what was assigned to it, also if `add_free_chunk` was called with a ring that is stopped. -/
def C97_statement : Prop := ∀ (rings : List Nat) (s : St) (u : List Content), Reach false rings s u → ∀ (o : Nat) (c cu : Content), s.objs[o]? = some c → u[o]? = some cu →
  (∀ w ∈ s.away, w.obj ≠ o) → c.buffers = cu.buffers

theorem C97_violated : ¬ C97_statement := by
  intro hst
  have r0 : Reach false [1] { rings := [{ cap := 1 }] } [] := Reach.init
  have r1 := Reach.step (e := .new) r0 trivial rfl
  have r2 := Reach.step (e := .set 0 .data (some 5)) r1 (by intro w hw; cases hw) rfl
  have r3 := Reach.step (e := .set 0 .present (some 1)) r2 (by intro w hw; cases hw) rfl
  have r4 := Reach.step (e := .stop 0) r3 trivial rfl
  have r5 := Reach.step (e := .addFree 0 0) r4 (by intro h; cases h) rfl
  have := hst _ _ _ r5 0 {} { data := some 0, present := some 1 } rfl rfl (by intro w hw; cases hw)
  cases this

/-- A chunk goes through a free ring, a stream and a data ring. -/
def exampleEvs : List Ev := [.new, .set 0 .data (some 5), .set 0 .present (some 1), .addFree 0 0, .take 0, .work 0 7 9, .give 0 1, .get 1]

def runEvs (s : St) : List Ev → Option St
  | [] => some s
  | e :: es => (s.step e).bind (fun p => runEvs p.1 es)

example : runEvs { rings := [{ cap := 1 }, { cap := 1 }] } exampleEvs =
    some { objs := [{ data := some 0, present := some 1, id := 7 }], rings := [{ cap := 1 }, { cap := 1 }], next := 2, mem := [9, 9] } := by decide

example : ∃ s u, Reach true [1] s u ∧ s.objs = [{}] ∧ s.away = [⟨{ data := some 0, present := some 1 }, 0⟩] ∧ u = [{ data := some 0, present := some 1 }] := by
  have r0 : Reach true [1] { rings := [{ cap := 1 }] } [] := Reach.init
  have r1 := Reach.step (e := .new) r0 trivial rfl
  have r2 := Reach.step (e := .set 0 .data (some 5)) r1 (by intro w hw; cases hw) rfl
  have r3 := Reach.step (e := .set 0 .present (some 1)) r2 (by intro w hw; cases hw) rfl
  have r4 := Reach.step (e := .putNowait 0 0) r3 trivial rfl
  exact ⟨_, _, r4, rfl, rfl, rfl⟩

end Spead2.PyChunk
