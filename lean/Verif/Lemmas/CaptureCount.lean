import Verif.Lemmas.DumpCapture

/-!
# The counters of the capture of mcdump
-/

namespace Spead2.Cap

/-- The length that a completion reports. -/
def lenOf : Cqe → Option Nat
  | .ok _ _ _ len _ _ => some len
  | _ => none

structure Cnt (cfg : Cfg) (s : St) : Prop where
  rem : s.remaining = cfg.count.map (fun n => n - s.packets)
  le : ∀ n, cfg.count = some n → s.packets ≤ n
  lens : (s.delivered.drop s.packets).map (fun f => f.data.length) = s.cq.filterMap lenOf
  bytes : s.bytes = ((s.delivered.take s.packets).map (fun f => f.data.length)).sum
  over : s.net = .done → Over s

theorem init_cnt (cfg : Cfg) (nChunks : Nat) (mem : Nat → Nat → List UInt8) (jh : Nat → Header) (jl : Nat → Nat) :
    Cnt cfg (St.init cfg nChunks mem jh jl) := by
  refine ⟨?_, fun n _ => Nat.zero_le n, rfl, rfl, ?_⟩
  · show cfg.count = cfg.count.map (fun n => n - 0)
    simp
  · intro h; cases h

theorem fail_cnt {cfg : Cfg} {s : St} (c : Cnt cfg s) : Cnt cfg (hwFail s) := by
  refine ⟨c.rem, c.le, ?_, c.bytes, c.over⟩
  show (s.delivered.drop s.packets).map _ = (s.cq ++ [Cqe.fail]).filterMap lenOf
  rw [List.filterMap_append, c.lens]
  simp [lenOf]

theorem frame_cnt {cfg : Cfg} {s : St} (c : Cnt cfg s) (hp : s.packets ≤ s.delivered.length) (f : Frame) :
    Cnt cfg (hwFrame cfg s f) := by
  unfold hwFrame
  split
  · exact c
  · dsimp only
    split
    · exact fail_cnt c
    · split
      · refine ⟨c.rem, c.le, ?_, ?_, c.over⟩
        · show ((s.delivered ++ [f]).drop s.packets).map _ = (s.cq ++ [_]).filterMap lenOf
          rw [List.drop_append_of_le_length hp, List.map_append, c.lens, List.filterMap_append]
          simp [lenOf]
        · show s.bytes = (((s.delivered ++ [f]).take s.packets).map _).sum
          rw [List.take_append_of_le_length hp, c.bytes]
      · exact c

theorem filler_cnt {cfg : Cfg} {s : St} (c : Cnt cfg s) : Cnt cfg (hwFiller cfg s) := by
  unfold hwFiller
  split
  · exact c
  · split
    · refine ⟨c.rem, c.le, ?_, c.bytes, c.over⟩
      show (s.delivered.drop s.packets).map _ = (s.cq ++ [_]).filterMap lenOf
      rw [List.filterMap_append, c.lens]
      simp [lenOf]
    · exact c

theorem ok_cnt {cfg : Cfg} {s : St} (c : Cnt cfg s) {qs : List Cqe} {c' i k len ns : Nat} {last : Bool}
    (hcq : s.cq = .ok c' i k len ns last :: qs) (hr : s.remaining ≠ some 0) (cn : Chunk) (e : Nat) :
    Cnt cfg { s with cq := qs, net := .inner cn e, packets := s.packets + 1, bytes := s.bytes + len, remaining := dec s.remaining } := by
  have hl := c.lens
  rw [hcq, List.filterMap_cons] at hl
  simp only [lenOf] at hl
  have hplt : s.packets < s.delivered.length := by
    rcases Nat.lt_or_ge s.packets s.delivered.length with h | h
    · exact h
    · rw [List.drop_eq_nil_of_le h] at hl
      cases hl
  rw [List.drop_eq_getElem_cons hplt, List.map_cons] at hl
  injection hl with h1 h2
  refine ⟨?_, ?_, h2, ?_, ?_⟩
  · show dec s.remaining = cfg.count.map (fun n => n - (s.packets + 1))
    rw [c.rem]
    cases cfg.count with
    | none => rfl
    | some n =>
      show some (n - s.packets - 1) = some (n - (s.packets + 1))
      rw [Nat.sub_add_eq]
  · intro n hn
    have h := c.rem
    rw [hn] at h
    have h' : s.remaining = some (n - s.packets) := h
    have : n - s.packets ≠ 0 := fun h0 => hr (by rw [h', h0])
    show s.packets + 1 ≤ n
    omega
  · show s.bytes + len = ((s.delivered.take (s.packets + 1)).map _).sum
    rw [List.take_succ_eq_append_getElem hplt, List.map_append, List.sum_append, ← c.bytes]
    simp [h1]
  · intro h; cases h

theorem net_cnt {cfg : Cfg} {s : St} (v : Inv cfg s) (c : Cnt cfg s) : Cnt cfg (netStep cfg s) := by
  unfold netStep
  split
  · rename_i hn
    split
    · rename_i ho
      exact ⟨c.rem, c.le, c.lens, c.bytes, fun _ => ho⟩
    · exact ⟨c.rem, c.le, c.lens, c.bytes, by intro h; cases h⟩
  · rename_i hn
    split
    · exact c
    · exact ⟨c.rem, c.le, c.lens, c.bytes, by intro h; cases h⟩
  · rename_i ch e hn
    split
    · exact ⟨c.rem, c.le, c.lens, c.bytes, by intro h; cases h⟩
    · rename_i hl
      have hl' : leaves cfg s ch e = false := by simpa using hl
      obtain ⟨_, pos, cu⟩ := v.cur ch e hn
      split
      · exact c
      · rename_i q qs hcq
        have hfail : q = .fail → (s.delivered.drop s.packets).map (fun f => f.data.length) = qs.filterMap lenOf := by
          intro hq
          rw [c.lens, hcq, hq]
          rfl
        cases hm : cfg.mprq with
        | true =>
          rw [if_pos rfl]
          have hr : s.remaining ≠ some 0 := by
            unfold leaves at hl'
            rw [hm] at hl'
            simp at hl'
            exact hl'.2.1
          cases q with
          | ok c' i k len ns last => exact ok_cnt c hcq hr _ _
          | filler c' i k =>
            refine ⟨c.rem, c.le, ?_, c.bytes, by intro h; cases h⟩
            show (s.delivered.drop s.packets).map _ = qs.filterMap lenOf
            rw [c.lens, hcq]
            rfl
          | fail =>
            refine ⟨c.rem, c.le, hfail rfl, c.bytes, ?_⟩
            intro h
            have h' : s.net = .done := h
            rw [hn] at h'
            cases h'
        | false =>
          simp only [Bool.false_eq_true, if_false]
          obtain ⟨_, _, hleft⟩ := cu.plain hm
          have he : e ≠ 0 := by
            unfold leaves at hl'
            rw [hm] at hl'
            simp at hl'
            exact hl'.2
          have hr : s.remaining ≠ some 0 := by
            intro h
            rw [h] at hleft
            have := hleft.1
            omega
          cases q with
          | ok c' i k len ns last => exact ok_cnt c hcq hr _ _
          | filler c' i k =>
            have := (v.cqOk _ (show Cqe.filler c' i k ∈ s.cq by rw [hcq]; simp)).2.2
            rw [hm] at this; cases this
          | fail =>
            have : cfg.mprq = true := v.cqOk _ (show Cqe.fail ∈ s.cq by rw [hcq]; simp)
            rw [hm] at this; cases this
  · exact c

theorem coll_cnt {cfg : Cfg} {s : St} (c : Cnt cfg s) : Cnt cfg (collStep cfg s) := by
  unfold collStep
  split
  · exact ⟨c.rem, c.le, c.lens, c.bytes, c.over⟩
  · split
    · exact ⟨c.rem, c.le, c.lens, c.bytes, c.over⟩
    · split
      · exact ⟨c.rem, c.le, c.lens, c.bytes, c.over⟩
      · exact c
  · split
    · exact ⟨c.rem, c.le, c.lens, c.bytes, c.over⟩
    · unfold chunkDone addToFree post
      dsimp only
      split
      · split <;> exact ⟨c.rem, c.le, c.lens, c.bytes, c.over⟩
      · exact ⟨c.rem, c.le, c.lens, c.bytes, c.over⟩
  · exact c

theorem step_cnt {cfg : Cfg} {s : St} (v : Inv cfg s) (c : Cnt cfg s) (op : Op) : Cnt cfg (step cfg s op) := by
  cases op with
  | frame f => exact frame_cnt c v.packetsLe f
  | filler => exact filler_cnt c
  | fail => exact fail_cnt c
  | net => exact net_cnt v c
  | coll => exact coll_cnt c
  | interrupt => exact ⟨c.rem, c.le, c.lens, c.bytes, fun _ => Or.inl rfl⟩

theorem run_cnt {cfg : Cfg} (hM : 0 < cfg.maxRecords) (ops : List Op) : ∀ {s : St}, Inv cfg s → Cnt cfg s →
    (∀ op ∈ ops, OpOk cfg op) → Cnt cfg (run cfg s ops) := by
  induction ops with
  | nil => intro s _ c _; exact c
  | cons op ops ih =>
    intro s v c h
    exact ih (step_inv hM v op (h op List.mem_cons_self)) (step_cnt v c op)
      (fun o ho => h o (List.mem_cons_of_mem _ ho))

end Spead2.Cap
