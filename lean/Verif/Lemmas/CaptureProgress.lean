import Verif.Lemmas.CaptureCount

/-!
# The end of the capture of mcdump
-/

namespace Spead2.Cap

/-! ## What holds in all histories -/

structure Base (nChunks : Nat) (s : St) : Prop where
  doneP : s.ringStopped = true ↔ s.net = .done
  finP : s.coll = .finished → s.net = .done
  count : s.coll.chunks.length + s.ring.length + s.net.chunks.length + s.free.length = nChunks

theorem init_base (cfg : Cfg) (nChunks : Nat) (mem : Nat → Nat → List UInt8) (jh : Nat → Header) (jl : Nat → Nat) :
    Base nChunks (St.init cfg nChunks mem jh jl) := by
  refine ⟨⟨(fun h => by cases h), (fun h => by cases h)⟩, (fun h => by cases h), ?_⟩
  show 0 + 0 + 0 + ((List.range nChunks).map (makeChunk jh jl)).length = nChunks
  simp

/-- What the threads and the rings have. -/
def Same (s s' : St) : Prop :=
  s'.net = s.net ∧ s'.coll = s.coll ∧ s'.ring = s.ring ∧ s'.free = s.free ∧ s'.ringStopped = s.ringStopped

theorem Same.refl (s : St) : Same s s := ⟨rfl, rfl, rfl, rfl, rfl⟩

theorem Same.trans {a b c : St} (h : Same a b) (g : Same b c) : Same a c :=
  ⟨g.1.trans h.1, g.2.1.trans h.2.1, g.2.2.1.trans h.2.2.1, g.2.2.2.1.trans h.2.2.2.1, g.2.2.2.2.trans h.2.2.2.2⟩

theorem Base.same {n : Nat} {s s' : St} (b : Base n s) (h : Same s s') : Base n s' := by
  obtain ⟨h1, h2, h3, h4, h5⟩ := h
  refine ⟨?_, ?_, ?_⟩
  · rw [h1, h5]; exact b.doneP
  · rw [h1, h2]; exact b.finP
  · rw [h1, h2, h3, h4]; exact b.count

theorem frame_same (cfg : Cfg) (s : St) (f : Frame) : Same s (hwFrame cfg s f) := by
  unfold hwFrame hwFail
  split
  · exact Same.refl s
  · dsimp only
    split
    · exact ⟨rfl, rfl, rfl, rfl, rfl⟩
    · split
      · exact ⟨rfl, rfl, rfl, rfl, rfl⟩
      · exact Same.refl s

theorem filler_same (cfg : Cfg) (s : St) : Same s (hwFiller cfg s) := by
  unfold hwFiller
  split
  · exact Same.refl s
  · split
    · exact ⟨rfl, rfl, rfl, rfl, rfl⟩
    · exact Same.refl s

theorem net_base {cfg : Cfg} {n : Nat} {s : St} (b : Base n s) : Base n (netStep cfg s) := by
  have hnd : ∀ {m : Net}, s.net = m → m ≠ .done → s.ringStopped = false ∧ s.coll ≠ .finished := by
    intro m hm hne
    refine ⟨?_, fun h => hne (hm ▸ b.finP h)⟩
    cases hr : s.ringStopped with
    | false => rfl
    | true => exact absurd (hm ▸ b.doneP.mp hr) hne
  have hc := b.count
  unfold netStep
  split
  · rename_i hn
    obtain ⟨h1, h2⟩ := hnd hn (by intro h; cases h)
    rw [hn] at hc
    split
    · exact ⟨⟨fun _ => rfl, fun _ => rfl⟩, fun _ => rfl, hc⟩
    · exact ⟨⟨(fun h => by rw [h1] at h; cases h), (fun h => by cases h)⟩, fun h => absurd h h2, hc⟩
  · rename_i hn
    obtain ⟨h1, h2⟩ := hnd hn (by intro h; cases h)
    rw [hn] at hc
    split
    · exact b
    · rename_i c fs hf
      rw [hf] at hc
      refine ⟨⟨(fun h => by rw [h1] at h; cases h), (fun h => by cases h)⟩, fun h => absurd h h2, ?_⟩
      show s.coll.chunks.length + s.ring.length + 1 + fs.length = n
      simp only [Net.chunks, List.length_cons, List.length_nil] at hc
      omega
  · rename_i c e hn
    obtain ⟨h1, h2⟩ := hnd hn (by intro h; cases h)
    rw [hn] at hc
    simp only [Net.chunks, List.length_cons, List.length_nil] at hc
    split
    · refine ⟨⟨(fun h => by have h' : s.ringStopped = true := h; rw [h1] at h'; cases h'), (fun h => by cases h)⟩, fun h => absurd h h2, ?_⟩
      show s.coll.chunks.length + (s.ring ++ [_]).length + 0 + s.free.length = n
      rw [List.length_append]
      simp only [List.length_cons, List.length_nil]
      omega
    · have hin : ∀ (qs : List Cqe) (c' : Chunk) (e' p by' er : Nat) (r : Option Nat),
          Base n { s with cq := qs, net := .inner c' e', packets := p, bytes := by', errors := er, remaining := r } := by
        intro qs c' e' p by' er r
        exact ⟨⟨(fun h => by rw [h1] at h; cases h), (fun h => by cases h)⟩, fun h => absurd h h2, hc⟩
      split
      · exact b
      · rename_i q qs hq
        split
        · cases q with
          | ok _ _ _ _ _ _ => exact hin _ _ _ _ _ _ _
          | filler _ _ _ => exact hin _ _ _ _ _ _ _
          | fail => exact b.same ⟨rfl, rfl, rfl, rfl, rfl⟩
        · cases q with
          | ok _ _ _ _ _ _ => exact hin _ _ _ _ _ _ _
          | filler _ _ _ => exact b.same ⟨rfl, rfl, rfl, rfl, rfl⟩
          | fail => exact hin _ _ _ _ _ _ _
  · exact b

theorem coll_base {cfg : Cfg} {n : Nat} {s : St} (b : Base n s) : Base n (collStep cfg s) := by
  have hc := b.count
  unfold collStep
  split
  · rename_i hco
    rw [hco] at hc
    exact ⟨b.doneP, (fun h => by cases h), hc⟩
  · rename_i hco
    rw [hco] at hc
    split
    · rename_i c r hr
      rw [hr] at hc
      refine ⟨b.doneP, (fun h => by cases h), ?_⟩
      show 1 + r.length + s.net.chunks.length + s.free.length = n
      simp only [Coll.chunks, List.length_cons, List.length_nil] at hc
      omega
    · rename_i hr
      split
      · rename_i hs
        exact ⟨b.doneP, fun _ => b.doneP.mp hs, hc⟩
      · exact b
  · rename_i c i hco
    rw [hco] at hc
    split
    · exact ⟨b.doneP, (fun h => by cases h), hc⟩
    · simp only [Coll.chunks, List.length_cons, List.length_nil] at hc
      unfold chunkDone addToFree post
      dsimp only
      split
      · split
        · refine ⟨b.doneP, (fun h => by cases h), ?_⟩
          show 0 + s.ring.length + s.net.chunks.length + (s.free ++ [_]).length = n
          rw [List.length_append]
          simp only [List.length_cons, List.length_nil]
          omega
        · refine ⟨b.doneP, (fun h => by cases h), ?_⟩
          show 0 + s.ring.length + s.net.chunks.length + (s.free ++ [_]).length = n
          rw [List.length_append]
          simp only [List.length_cons, List.length_nil]
          omega
      · refine ⟨b.doneP, (fun h => by cases h), ?_⟩
        show 0 + s.ring.length + s.net.chunks.length + (s.free ++ [_]).length = n
        rw [List.length_append]
        simp only [List.length_cons, List.length_nil]
        omega
  · exact b

theorem step_base {cfg : Cfg} {n : Nat} {s : St} (b : Base n s) (op : Op) : Base n (step cfg s op) := by
  cases op with
  | frame f => exact b.same (frame_same cfg s f)
  | filler => exact b.same (filler_same cfg s)
  | fail => exact b.same ⟨rfl, rfl, rfl, rfl, rfl⟩
  | net => exact net_base b
  | coll => exact coll_base b
  | interrupt => exact b.same ⟨rfl, rfl, rfl, rfl, rfl⟩

/-! ## What is left to do -/

def netRank : Net → Nat
  | .pop => 3
  | .inner _ _ => 2
  | .top => 1
  | .done => 0

def collW : Coll → Nat
  | .start => 2
  | .idle => 1
  | .writing c i => 2 + (2 * c.n - i)
  | .finished => 0

def work (s : St) : Nat := collW s.coll + (s.ring.map (fun c => 2 * c.n + 2)).sum

/-- Less is left to do. -/
def Less (a b : Nat × Nat) : Prop := a.1 < b.1 ∨ (a.1 = b.1 ∧ a.2 < b.2)

def left (s : St) : Nat × Nat := (netRank s.net, work s)

theorem less_wf : WellFounded Less := by
  refine Subrelation.wf (r := Prod.Lex (· < ·) (· < ·)) ?_ (Prod.lex Nat.lt_wfRel Nat.lt_wfRel).wf
  rintro ⟨a1, a2⟩ ⟨b1, b2⟩ h
  rcases h with h | ⟨h1, h2⟩
  · exact Prod.Lex.left _ _ h
  · have h1 : a1 = b1 := h1
    subst h1
    exact Prod.Lex.right _ h2

/-- The network thread is about to end. -/
def Ending (cfg : Cfg) (s : St) : Prop := Over s ∧ ∀ c e, s.net = .inner c e → leaves cfg s c e = true

/-- The network thread can go on. -/
def NetCan (s : St) : Prop := s.net ≠ .done ∧ (s.net = .pop → s.free ≠ [])

/-- The collecting thread can go on. -/
def CollCan (s : St) : Prop := s.coll ≠ .finished ∧ (s.coll = .idle → s.ring = [] → s.ringStopped = true)

theorem net_less {cfg : Cfg} {s : St} (he : Ending cfg s) :
    (NetCan s → Less (left (netStep cfg s)) (left s)) ∧ (¬ NetCan s → Same s (netStep cfg s)) := by
  unfold netStep
  split
  · rename_i hn
    rw [if_pos (show s.stop = true ∨ s.remaining = some 0 from he.1)]
    refine ⟨fun _ => Or.inl ?_, fun h => absurd ⟨(by rw [hn]; intro h; cases h), (by rw [hn]; intro h; cases h)⟩ h⟩
    show 0 < netRank s.net
    rw [hn]
    exact Nat.one_pos
  · rename_i hn
    split
    · rename_i hf
      refine ⟨fun h => absurd hf (h.2 hn), fun _ => Same.refl s⟩
    · rename_i c fs hf
      refine ⟨fun _ => Or.inl ?_, fun h => absurd ⟨(by rw [hn]; intro h; cases h), (fun _ => by rw [hf]; intro h; cases h)⟩ h⟩
      show 2 < netRank s.net
      rw [hn]
      exact Nat.lt_succ_self 2
  · rename_i c e hn
    rw [if_pos (he.2 c e hn)]
    refine ⟨fun _ => Or.inl ?_, fun h => absurd ⟨(by rw [hn]; intro h; cases h), (by rw [hn]; intro h; cases h)⟩ h⟩
    show 1 < netRank s.net
    rw [hn]
    exact Nat.lt_succ_self 1
  · rename_i hn
    exact ⟨fun h => absurd hn h.1, fun _ => Same.refl s⟩

theorem coll_less {cfg : Cfg} {s : St} :
    (CollCan s → Less (left (collStep cfg s)) (left s)) ∧ (¬ CollCan s → Same s (collStep cfg s)) := by
  unfold collStep
  split
  · rename_i hco
    refine ⟨fun _ => Or.inr ⟨rfl, ?_⟩, fun h => absurd ⟨(by rw [hco]; intro h; cases h), (by rw [hco]; intro h; cases h)⟩ h⟩
    show 1 + (s.ring.map (fun c => 2 * c.n + 2)).sum < collW s.coll + (s.ring.map (fun c => 2 * c.n + 2)).sum
    rw [hco]
    show _ < 2 + _
    omega
  · rename_i hco
    split
    · rename_i c r hr
      refine ⟨fun _ => Or.inr ⟨rfl, ?_⟩, fun h => absurd ⟨(by rw [hco]; intro h; cases h), (fun _ h => by rw [hr] at h; cases h)⟩ h⟩
      show 2 + (2 * c.n - 0) + (r.map _).sum < collW s.coll + (s.ring.map _).sum
      rw [hco, hr, List.map_cons, List.sum_cons]
      show _ < 1 + _
      omega
    · rename_i hr
      split
      · rename_i hs
        refine ⟨fun _ => Or.inr ⟨rfl, ?_⟩, fun h => absurd ⟨(by rw [hco]; intro h; cases h), fun _ _ => hs⟩ h⟩
        show 0 + (s.ring.map (fun c => 2 * c.n + 2)).sum < collW s.coll + (s.ring.map (fun c => 2 * c.n + 2)).sum
        rw [hco]
        show _ < 1 + _
        omega
      · rename_i hs
        exact ⟨fun h => absurd (h.2 hco hr) hs, fun _ => Same.refl s⟩
  · rename_i c i hco
    have hcan : CollCan s := ⟨(by rw [hco]; intro h; cases h), (by rw [hco]; intro h; cases h)⟩
    refine ⟨fun _ => ?_, fun h => absurd hcan h⟩
    split
    · refine Or.inr ⟨rfl, ?_⟩
      show 2 + (2 * c.n - (i + 1)) + (s.ring.map (fun c => 2 * c.n + 2)).sum < collW s.coll + (s.ring.map (fun c => 2 * c.n + 2)).sum
      rw [hco]
      show _ < 2 + (2 * c.n - i) + _
      omega
    · have hw : 1 + (s.ring.map (fun c => 2 * c.n + 2)).sum < collW s.coll + (s.ring.map (fun c => 2 * c.n + 2)).sum := by
        rw [hco]
        show _ < 2 + (2 * c.n - i) + _
        omega
      unfold chunkDone addToFree post
      dsimp only
      split
      · split <;> exact Or.inr ⟨rfl, hw⟩
      · exact Or.inr ⟨rfl, hw⟩
  · rename_i hco
    exact ⟨fun h => absurd hco h.1, fun _ => Same.refl s⟩

theorem left_same {s s' : St} (h : Same s s') : left s' = left s := by
  unfold left work
  rw [h.1, h.2.1, h.2.2.1]

theorem step_less {cfg : Cfg} {s : St} (he : Ending cfg s) (op : Op) :
    Less (left (step cfg s op)) (left s) ∨ Same s (step cfg s op) := by
  cases op with
  | frame f => exact Or.inr (frame_same cfg s f)
  | filler => exact Or.inr (filler_same cfg s)
  | fail => exact Or.inr ⟨rfl, rfl, rfl, rfl, rfl⟩
  | net =>
    by_cases h : NetCan s
    · exact Or.inl ((net_less he).1 h)
    · exact Or.inr ((net_less he).2 h)
  | coll =>
    by_cases h : CollCan s
    · exact Or.inl (coll_less.1 h)
    · exact Or.inr (coll_less.2 h)
  | interrupt => exact Or.inr ⟨rfl, rfl, rfl, rfl, rfl⟩

/-- Until the collecting thread has ended, one of the threads can go on. -/
theorem somebody {n : Nat} (hn0 : 0 < n) {s : St} (b : Base n s) (hf : s.coll ≠ .finished) : NetCan s ∨ CollCan s := by
  have hc := b.count
  by_cases hd : s.net = .done
  · exact Or.inr ⟨hf, fun _ _ => b.doneP.mpr hd⟩
  · by_cases hp : s.net = .pop ∧ s.free = []
    · refine Or.inr ⟨hf, fun hi hr => ?_⟩
      rw [hi, hr, hp.1, hp.2] at hc
      simp [Coll.chunks, Net.chunks] at hc
      omega
    · exact Or.inl ⟨hd, fun h1 h2 => hp ⟨h1, h2⟩⟩

theorem trace_base {cfg : Cfg} {n : Nat} {s : St} (b : Base n s) (sched : Nat → Op) :
    ∀ k, Base n (trace cfg s sched k)
  | 0 => b
  | k + 1 => step_base (trace_base b sched k) (sched k)

/-- As long as less is not left, nothing that the threads have changes. -/
theorem stays {cfg : Cfg} {s : St} {sched : Nat → Op} {t : Nat}
    (hend : ∀ k, t ≤ k → Ending cfg (trace cfg s sched k)) (d : Nat) :
    (∃ k, t ≤ k ∧ Less (left (trace cfg s sched k)) (left (trace cfg s sched t))) ∨
    Same (trace cfg s sched t) (trace cfg s sched (t + d)) := by
  induction d with
  | zero => exact Or.inr (Same.refl _)
  | succ d ih =>
    rcases ih with h | h
    · exact Or.inl h
    · rcases step_less (hend (t + d) (Nat.le_add_right t d)) (sched (t + d)) with hl | hs
      · refine Or.inl ⟨t + d + 1, by omega, ?_⟩
        rw [left_same h] at hl
        exact hl
      · exact Or.inr (h.trans hs)

theorem ends {cfg : Cfg} {n : Nat} (hn0 : 0 < n) {s : St} (b : Base n s) {sched : Nat → Op} (hf : Fair sched) {t0 : Nat}
    (hend : ∀ k, t0 ≤ k → Ending cfg (trace cfg s sched k)) : ∃ k, (trace cfg s sched k).coll = .finished := by
  have main : ∀ m : Nat × Nat, ∀ t, t0 ≤ t → left (trace cfg s sched t) = m →
      ∃ k, (trace cfg s sched k).coll = .finished := by
    intro m
    induction m using less_wf.induction with
    | _ m ih =>
      intro t ht hm
      by_cases hfin : (trace cfg s sched t).coll = .finished
      · exact ⟨t, hfin⟩
      · have hend' : ∀ k, t ≤ k → Ending cfg (trace cfg s sched k) := fun k hk => hend k (by omega)
        have hless : ∃ k, t ≤ k ∧ Less (left (trace cfg s sched k)) (left (trace cfg s sched t)) := by
          rcases somebody hn0 (trace_base b sched t) hfin with hcan | hcan
          · obtain ⟨j, hj, hop⟩ := hf.1 t
            rcases stays hend' (j - t) with h | h
            · exact h
            · rw [show t + (j - t) = j by omega] at h
              refine ⟨j + 1, by omega, ?_⟩
              rw [← left_same h]
              show Less (left (step cfg (trace cfg s sched j) (sched j))) _
              rw [hop]
              refine (net_less (hend' j hj)).1 ⟨(by rw [h.1]; exact hcan.1), by rw [h.1, h.2.2.2.1]; exact hcan.2⟩
          · obtain ⟨j, hj, hop⟩ := hf.2 t
            rcases stays hend' (j - t) with h | h
            · exact h
            · rw [show t + (j - t) = j by omega] at h
              refine ⟨j + 1, by omega, ?_⟩
              rw [← left_same h]
              show Less (left (step cfg (trace cfg s sched j) (sched j))) _
              rw [hop]
              refine coll_less.1 ⟨(by rw [h.2.1]; exact hcan.1), by rw [h.2.1, h.2.2.1, h.2.2.2.2]; exact hcan.2⟩
        obtain ⟨k, hk, hl⟩ := hless
        rw [hm] at hl
        exact ih _ hl k (by omega) rfl
  exact main _ t0 (Nat.le_refl _) rfl

/-! ## Why it ends -/

theorem step_stop {cfg : Cfg} {s : St} (h : s.stop = true) (op : Op) : (step cfg s op).stop = true := by
  cases op with
  | frame f =>
    show (hwFrame cfg s f).stop = true
    unfold hwFrame hwFail
    split
    · exact h
    · dsimp only
      split
      · exact h
      · split <;> exact h
  | filler =>
    show (hwFiller cfg s).stop = true
    unfold hwFiller
    split
    · exact h
    · split <;> exact h
  | fail => exact h
  | net =>
    show (netStep cfg s).stop = true
    unfold netStep
    split
    · split <;> exact h
    · split <;> exact h
    · split
      · exact h
      · split
        · exact h
        · rename_i q qs _
          split <;> (cases q <;> exact h)
    · exact h
  | coll =>
    show (collStep cfg s).stop = true
    unfold collStep chunkDone addToFree post
    dsimp only
    split
    · exact h
    · split
      · exact h
      · split <;> exact h
    · split
      · exact h
      · split
        · split <;> exact h
        · exact h
    · exact h
  | interrupt => rfl

theorem ending_stop {cfg : Cfg} {s : St} (h : s.stop = true) : Ending cfg s := by
  refine ⟨Or.inl h, fun c e _ => ?_⟩
  unfold leaves
  rw [h, Bool.true_or]

theorem step_rem {cfg : Cfg} {s : St} (h : s.remaining = some 0) (op : Op) : (step cfg s op).remaining = some 0 := by
  have hd : dec s.remaining = some 0 := by rw [h]; rfl
  cases op with
  | frame f =>
    show (hwFrame cfg s f).remaining = some 0
    unfold hwFrame hwFail
    split
    · exact h
    · dsimp only
      split
      · exact h
      · split <;> exact h
  | filler =>
    show (hwFiller cfg s).remaining = some 0
    unfold hwFiller
    split
    · exact h
    · split <;> exact h
  | fail => exact h
  | net =>
    show (netStep cfg s).remaining = some 0
    unfold netStep
    split
    · split <;> exact h
    · split <;> exact h
    · split
      · exact h
      · split
        · exact h
        · rename_i q qs _
          split <;> cases q <;> first | exact h | exact hd
    · exact h
  | coll =>
    show (collStep cfg s).remaining = some 0
    unfold collStep chunkDone addToFree post
    dsimp only
    split
    · exact h
    · split
      · exact h
      · split <;> exact h
    · split
      · exact h
      · split
        · split <;> exact h
        · exact h
    · exact h
  | interrupt => exact h

theorem ending_rem {cfg : Cfg} {s : St} (v : Inv cfg s) (h : s.remaining = some 0) : Ending cfg s := by
  refine ⟨Or.inr h, fun c e hn => ?_⟩
  unfold leaves
  cases hm : cfg.mprq with
  | true => simp [h]
  | false =>
    obtain ⟨_, pos, cu⟩ := v.cur c e hn
    have := (cu.plain hm).2.2
    rw [h] at this
    have := this.1
    have : e = 0 := by omega
    simp [this]

theorem trace_inv {cfg : Cfg} (hM : 0 < cfg.maxRecords) {s : St} (v : Inv cfg s) {sched : Nat → Op}
    (h : ∀ i, OpOk cfg (sched i)) : ∀ k, Inv cfg (trace cfg s sched k)
  | 0 => v
  | k + 1 => step_inv hM (trace_inv hM v h k) (sched k) (h k)

theorem trace_cnt {cfg : Cfg} (hM : 0 < cfg.maxRecords) {s : St} (v : Inv cfg s) (c : Cnt cfg s) {sched : Nat → Op}
    (h : ∀ i, OpOk cfg (sched i)) : ∀ k, Cnt cfg (trace cfg s sched k)
  | 0 => c
  | k + 1 => step_cnt (trace_inv hM v h k) (trace_cnt hM v c h k) (sched k)

theorem trace_keeps {cfg : Cfg} {s : St} {sched : Nat → Op} {P : St → Prop}
    (hP : ∀ s op, P s → P (step cfg s op)) {i : Nat} (hi : P (trace cfg s sched i)) :
    ∀ k, i ≤ k → P (trace cfg s sched k) := by
  intro k hk
  induction k with
  | zero => have : i = 0 := by omega
            subst this; exact hi
  | succ k ih =>
    rcases Nat.lt_or_ge i (k + 1) with h | h
    · exact hP _ _ (ih (by omega))
    · have : i = k + 1 := by omega
      subst this; exact hi

end Spead2.Cap
