import Verif.Lemmas.ChunkGroup

/-!
# C31, C32: chunk stream groups
-/

namespace Spead2
open Spec

/-- C31 (no undefined behaviour): whatever the interleaving of the members, no assertion of the group fails. -/
theorem C31_total {cfg : GroupConfig} (hmax : 0 < cfg.maxChunks) {maxs : List Nat} (hm : ∀ m ∈ maxs, 0 < m ∧ m ≤ cfg.maxChunks)
    {ops : List GroupOp} (hv : ∀ op ∈ ops, op.Valid) : ∃ g tr, GroupReach cfg maxs ops g tr := by
  obtain ⟨g0, k1, k2, k3, k4, -⟩ := group_new_spec hmax hm
  obtain ⟨g, ev, _, _, r1, -⟩ := group_run_spec hmax hv k2 k3 k4
  exact ⟨g, ev, hm, hv, g0, k1, r1⟩

/-- C31: a group cannot be given a member whose window is larger than its own. -/
theorem C31_reject (cfg : GroupConfig) (maxs : List Nat) : Group.new cfg maxs = none ↔ ∃ m ∈ maxs, cfg.maxChunks < m := by
  unfold Group.new
  split
  · rename_i h
    rw [List.all_eq_true] at h
    simp only [reduceCtorEq, false_iff, not_exists, not_and, Nat.not_lt]
    intro m hm
    exact of_decide_eq_true (h m hm)
  · rename_i h
    simp only [true_iff]
    simpa using h

/-- C31: the head of the group's window is the minimum of the heads of its members. -/
theorem C31_head {cfg : GroupConfig} (hmax : 0 < cfg.maxChunks) {maxs : List Nat} {ops : List GroupOp} {g : Group} {tr : List GroupEv}
    (hr : GroupReach cfg maxs ops g tr) :
    g.members.length = maxs.length ∧ (∀ m ∈ g.members, g.window.headChunk ≤ m.window.headChunk) ∧
      (g.members ≠ [] → ∃ m ∈ g.members, m.window.headChunk = g.window.headChunk) := by
  obtain ⟨h, win, inv, ex, -⟩ := group_reach_spec hmax hr
  have hl : g.members.length = maxs.length := by
    obtain ⟨hm, hv, g0, h0, hrun⟩ := hr
    obtain ⟨g0', k1, -, -, -, k5⟩ := group_new_spec hmax hm
    rw [h0] at k1; cases k1
    rw [group_run_length hrun, k5]
  rw [inv.rel.head]
  refine ⟨hl, ?_, ?_⟩
  · intro m hm
    obtain ⟨i, hi, rfl⟩ := List.getElem_of_mem hm
    have hhl : i < g.heads.length := by rw [inv.len]; exact hi
    rw [← ex i _ _ (List.getElem?_eq_getElem hi) (List.getElem?_eq_getElem hhl)]
    exact inv.low _ (List.getElem_mem hhl)
  · intro hne
    rcases inv.min with hmin | hnil
    · obtain ⟨i, hi, hie⟩ := List.getElem_of_mem hmin
      have hml : i < g.members.length := by rw [← inv.len]; exact hi
      refine ⟨g.members[i], List.getElem_mem hml, ?_⟩
      rw [← ex i _ _ (List.getElem?_eq_getElem hml) (List.getElem?_eq_getElem hi), hie]
    · have := inv.len
      rw [hnil] at this
      exact absurd (List.length_eq_zero_iff.mp this.symm) hne

/-- C31: every chunk that the user supplied is handed over once, in the order of supply, which is the order of ids; those
not yet handed over are in the window, which holds at most `max_chunks` chunks. -/
theorem C31_order {cfg : GroupConfig} (hmax : 0 < cfg.maxChunks) {maxs : List Nat} {ops : List GroupOp} {g : Group} {tr : List GroupEv}
    (hr : GroupReach cfg maxs ops g tr) :
    readied (groupEvs tr) ++ inWindow g.window = supplied cfg.alloc (groupEvs tr) ∧
      (supplied cfg.alloc (groupEvs tr)).Pairwise (fun a b => a.chunkId < b.chunkId) ∧
      (requested (groupEvs tr)).Pairwise (· < ·) ∧ (inWindow g.window).length ≤ cfg.maxChunks := by
  obtain ⟨h, win, inv, ex, -⟩ := group_reach_spec hmax hr
  have hf := inv.st.flow
  rw [← inWindow_rel inv.rel] at hf
  refine ⟨by simpa using hf, ?_, inv.st.reqSorted, ?_⟩
  · exact supplied_sorted inv.st.reqSorted
  · rw [inWindow_rel inv.rel]
    exact Nat.le_trans (List.length_filterMap_le _ _) inv.rel.fits

/-- C31: a chunk is handed over only when every member is past it, so that none can write to it again. -/
theorem C31_all_past {cfg : GroupConfig} (hmax : 0 < cfg.maxChunks) {maxs : List Nat} {ops : List GroupOp} {g : Group} {tr : List GroupEv}
    (hr : GroupReach cfg maxs ops g tr) {c : Chunk} (hc : c ∈ readied (groupEvs tr)) : ∀ m ∈ g.members, c.chunkId < m.window.headChunk := by
  obtain ⟨h, win, inv, ex, -⟩ := group_reach_spec hmax hr
  intro m hm
  have := (C31_head hmax hr).2.1 m hm
  have hc2 := (inv.st.readyRange (WIds.nil _ _) c hc).2
  rw [inv.rel.head] at this
  omega

/-- C31: every write by a member goes to a chunk that the user supplied and that has not been handed over. -/
theorem C31_no_late_write {cfg : GroupConfig} (hmax : 0 < cfg.maxChunks) {maxs : List Nat} {ops : List GroupOp} {g : Group} {tr : List GroupEv}
    (hr : GroupReach cfg maxs ops g tr) {before after : List GroupEv} {i : Nat} {c : Chunk} (htr : tr = before ++ .touch i c :: after) : GroupHeld cfg before c := by
  obtain ⟨h, win, inv, ex, -⟩ := group_reach_spec hmax hr
  simpa using inv.held.split htr

/-- C31: all members that write to a given id write to the same chunk. -/
theorem C31_shared {cfg : GroupConfig} (hmax : 0 < cfg.maxChunks) {maxs : List Nat} {ops : List GroupOp} {g : Group} {tr : List GroupEv}
    (hr : GroupReach cfg maxs ops g tr) {i j : Nat} {c d : Chunk} (hc : .touch i c ∈ tr) (hd : .touch j d ∈ tr) (hid : c.chunkId = d.chunkId) : c = d := by
  obtain ⟨h, win, inv, ex, -⟩ := group_reach_spec hmax hr
  have hs : ∀ {k : Nat} {x : Chunk}, .touch k x ∈ tr → x ∈ supplied cfg.alloc (groupEvs tr) := by
    intro k x hx
    obtain ⟨a, b, hab⟩ := List.append_of_mem hx
    have := (C31_no_late_write hmax hr hab).1
    rw [hab, groupEvs_append, supplied_append, List.mem_append]
    exact Or.inl this
  exact pairwise_inj (C31_order hmax hr).2.1 (hs hc) (hs hd) hid

/-- C31: once every member has stopped, everything has been handed over. -/
theorem C31_all_stopped {cfg : GroupConfig} (hmax : 0 < cfg.maxChunks) {maxs : List Nat} {ops : List GroupOp} {g : Group} {tr : List GroupEv}
    (hr : GroupReach cfg maxs ops g tr) (hne : maxs ≠ []) (hs : ∀ m ∈ g.members, m.window.headChunk = 2 ^ 64 - 1) :
    readied (groupEvs tr) = supplied cfg.alloc (groupEvs tr) := by
  obtain ⟨h, win, inv, ex, -⟩ := group_reach_spec hmax hr
  obtain ⟨k1, -, k3⟩ := C31_head hmax hr
  obtain ⟨m, hm, hmh⟩ := k3 (fun hnil => hne (List.length_eq_zero_iff.mp (by rw [← k1, hnil]; rfl)))
  rw [hs m hm, inv.rel.head] at hmh
  have hl := inv.lt
  have hwin : win = [] := List.length_eq_zero_iff.mp (by omega)
  have := (C31_order hmax hr).1
  rw [inWindow_rel inv.rel, hwin] at this
  simpa using this

/-- C31: a member that stops leaves the window to the others. -/
theorem C31_stop {cfg : GroupConfig} (hmax : 0 < cfg.maxChunks) {maxs : List Nat} {ops : List GroupOp} {g : Group} {tr : List GroupEv}
    (hr : GroupReach cfg maxs ops g tr) {i : Nat} {m : Member} (hm : g.members[i]? = some m) (hpc : m.pc = .idle) :
    ∃ g' ev m', g.step cfg (.stop i) = some (g', ev) ∧ g'.members = g.members.set i m' ∧ m'.window.headChunk = 2 ^ 64 - 1 := by
  obtain ⟨h, win, inv, ex, -⟩ := group_reach_spec hmax hr
  have hhl : i < g.heads.length := by rw [inv.len]; exact lt_of_getElem? hm
  obtain ⟨mx, hi, wini, ok⟩ := inv.mem i m _ hm (List.getElem?_eq_getElem hhl)
  have hl := ok.lt
  obtain ⟨w', ev, q1, q2, q3, q4⟩ := flushAll_rel cfg.alloc ok.rel (2 ^ 64 - 1) (by omega)
  obtain ⟨g', ev', h', win', r1, r2, r3, r4, r5, r6, r7⟩ := group_local_spec inv ex (m' := m) hm (List.getElem?_eq_getElem hhl) ok q2 q3 q4
    (by simp) (by rw [hpc]; trivial) ok.pend
  refine ⟨g', ev', _, ?_, r4, q2.head⟩
  simp only [Group.step, hm, hpc, if_true]
  rw [q1, r1]

/-- C32: the member furthest behind never waits for room. -/
theorem C32_furthest {cfg : GroupConfig} (hmax : 0 < cfg.maxChunks) {maxs : List Nat} {ops : List GroupOp} {g : Group} {tr : List GroupEv}
    (hr : GroupReach cfg maxs ops g tr) {j : Nat} {m : Member} (hm : g.members[j]? = some m) (hlow : ∀ m' ∈ g.members, m.window.headChunk ≤ m'.window.headChunk) :
    ¬ Blocked cfg g j := by
  obtain ⟨h, win, inv, ex, -⟩ := group_reach_spec hmax hr
  obtain ⟨-, -, k3⟩ := C31_head hmax hr
  rintro ⟨m', id, h1, h2, h3⟩
  rw [hm] at h1; cases h1
  obtain ⟨x, hx, hxe⟩ := k3 (fun hnil => by rw [hnil] at hm; simp at hm)
  have := hlow x hx
  have hhl : j < g.heads.length := by rw [inv.len]; exact lt_of_getElem? hm
  obtain ⟨mx, hi, wini, ok⟩ := inv.mem j m _ hm (List.getElem?_eq_getElem hhl)
  have hpc := ok.pc
  rw [h2] at hpc
  obtain ⟨_, _, p3⟩ := hpc
  have := ok.le
  have e1 := ok.rel.tail
  have e2 := ok.rel.head
  omega

/-- C32: in lossy mode, while a member waits, the member furthest behind is in `get_chunk` without having to wait, or
it has a request to flush that makes enough room. -/
theorem C32_pending {cfg : GroupConfig} (hmax : 0 < cfg.maxChunks) (hx : cfg.lossy = true) {maxs : List Nat} {ops : List GroupOp} {g : Group} {tr : List GroupEv}
    (hr : GroupReach cfg maxs ops g tr) {i : Nat} (hb : Blocked cfg g i) :
    ∃ j m, j ≠ i ∧ g.members[j]? = some m ∧ (∀ m' ∈ g.members, m.window.headChunk ≤ m'.window.headChunk) ∧ ¬ Blocked cfg g j ∧
      (m.pc ≠ .idle ∨ m.pc = .idle ∧ ∃ t ∈ m.pending, waitsFor g i < t + cfg.maxChunks) := by
  obtain ⟨h, win, inv, ex, l⟩ := group_reach_spec hmax hr
  obtain ⟨-, k2, k3⟩ := C31_head hmax hr
  obtain ⟨l1, l2⟩ := l hx
  obtain ⟨mi, id, b1, b2, b3⟩ := hb
  obtain ⟨m, hm, hme⟩ := k3 (fun hnil => by rw [hnil] at b1; simp at b1)
  obtain ⟨j, hj, rfl⟩ := List.getElem_of_mem hm
  have hmj := List.getElem?_eq_getElem hj
  have hlow : ∀ m' ∈ g.members, (g.members[j]).window.headChunk ≤ m'.window.headChunk := by rw [hme]; exact k2
  have hnb := C32_furthest hmax hr hmj hlow
  refine ⟨j, _, ?_, hmj, hlow, hnb, ?_⟩
  · rintro rfl
    exact hnb ⟨mi, id, b1, b2, b3⟩
  · by_cases hpc : (g.members[j]).pc = .idle
    · right
      refine ⟨hpc, ?_⟩
      have hT := l1 i mi id b1 b2
      have hw : waitsFor g i = mi.window.tailChunk := by unfold waitsFor; rw [b1]; rfl
      rw [hw]
      unfold flushTarget at hT
      rcases l2 j _ hmj with a | ⟨t, a, b⟩
      · omega
      · exact ⟨t, a, by omega⟩
    · exact Or.inl hpc

/-- C32: when no thread can move, nobody waits and no request is outstanding. -/
theorem C32_no_deadlock {cfg : GroupConfig} (hmax : 0 < cfg.maxChunks) (hx : cfg.lossy = true) {maxs : List Nat} {ops : List GroupOp} {g : Group} {tr : List GroupEv}
    (hr : GroupReach cfg maxs ops g tr) (hstuck : ∀ op, Internal op → g.step cfg op = some (g, [])) :
    ∀ m ∈ g.members, m.pc = .idle ∧ m.pending = [] := by
  obtain ⟨h, win, inv, ex, l⟩ := group_reach_spec hmax hr
  rcases group_enabled hmax hx inv ex l with hall | ⟨j, m, hm, hen⟩
  · exact hall
  · exfalso
    obtain ⟨op, g', ev, hop, hs, hw⟩ := group_enabled_step hmax inv ex hm hen
    have := hstuck op (by rcases hop with rfl | rfl <;> trivial)
    rw [this] at hs
    cases hs
    omega

/-- C32: in lossy mode, from any reachable state and under any fair schedule in which no further packets arrive, every
member gets its chunk: after finitely many transitions no thread is in `get_chunk`, and all requests have been executed. -/
theorem C32_progress {cfg : GroupConfig} (hmax : 0 < cfg.maxChunks) (hx : cfg.lossy = true) {maxs : List Nat} {ops : List GroupOp} {g : Group} {tr : List GroupEv}
    (hr : GroupReach cfg maxs ops g tr) {sched : Nat → GroupOp} (hint : ∀ n, Internal (sched n)) (hfair : FairSchedule maxs.length sched) :
    ∃ n g' ev, Group.run cfg (prefixOf sched n) g = some (g', ev) ∧ ∀ m ∈ g'.members, m.pc = .idle ∧ m.pending = [] := by
  obtain ⟨h, win, inv, ex, l⟩ := group_reach_spec hmax hr
  exact fair_progress hmax hx (work g) inv ex l (Nat.le_refl _) sched hint (by rw [(C31_head hmax hr).1]; exact hfair)

/-- C32: whenever the group's head moves, the threads that wait are notified. -/
theorem C32_notified {cfg : GroupConfig} (hmax : 0 < cfg.maxChunks) {maxs : List Nat} {ops : List GroupOp} {g g' : Group} {tr ev : List GroupEv} {op : GroupOp}
    (hr : GroupReach cfg maxs ops g tr) (hv : op.Valid) (hs : g.step cfg op = some (g', ev)) (hmove : g'.window.headChunk ≠ g.window.headChunk) :
    .win (.head g'.window.headChunk) ∈ ev := by
  obtain ⟨h, win, inv, ex, l⟩ := group_reach_spec hmax hr
  obtain ⟨g1, e1, h1, win1, q1, q2⟩ := group_step_spec hmax inv ex hv
  rw [hs] at q1; cases q1
  rw [inv.rel.head, q2.inv.rel.head] at hmove
  rw [q2.inv.rel.head]
  have hmem : ∀ (x : Nat), x ∈ headsOf (groupEvs ev) → GroupEv.win (.head x) ∈ ev := by
    intro x hx
    unfold headsOf groupEvs at hx
    simp only [List.mem_filterMap] at hx
    obtain ⟨e, ⟨e', he', hee⟩, hex⟩ := hx
    cases e' with
    | touch i c => cases hee
    | win w =>
      simp only [Option.some.injEq] at hee
      subst hee
      cases w with
      | head n => simp only [Option.some.injEq] at hex; rw [← hex]; exact he'
      | ready c => cases hex
      | alloc a b => cases hex
  have hmono := q2.mono
  have hlast := q2.inv.st.headLast (by omega)
  rw [groupEvs_append, headsOf_append] at hlast
  rw [List.getLast?_append] at hlast
  cases he : (headsOf (groupEvs ev)).getLast? with
  | some x =>
    rw [he] at hlast
    simp only [Option.some_or, Option.some.injEq] at hlast
    subst hlast
    exact hmem _ (List.mem_of_getLast? he)
  | none =>
    rw [he, Option.none_or] at hlast
    have := inv.st.headRange _ (List.mem_of_getLast? hlast)
    omega

/-! ### Examples -/

/-- Two members of a lossy group with room for two chunks, each with a window of two. -/
private def exCfg : GroupConfig := { maxChunks := 2, lossy := true, alloc := fun _ => true }

/-- Member 0 fills the window, and member 1 joins in chunk 0. -/
private def exOps : List GroupOp :=
  [.get 0 1, .advance 0, .advance 0, .advance 0, .advance 0, .advance 0, .touch 0 0,
   .get 1 0, .advance 1, .advance 1, .advance 1, .touch 1 0]

/-- Member 0 wants chunk 2, for which it has to wait. -/
private def exWait : List GroupOp := exOps ++ [.get 0 2, .advance 0, .advance 0]

private theorem exMax : ∀ m ∈ [2, 2], 0 < m ∧ m ≤ exCfg.maxChunks := by simp [exCfg]
private theorem exValid : ∀ op ∈ exWait, op.Valid := by simp [exWait, exOps, GroupOp.Valid]

example : ∃ g tr, GroupReach exCfg [2, 2] exWait g tr := C31_total (by decide) exMax exValid

/-- Both write to the same chunk. -/
example : ((Group.new exCfg [2, 2]).bind (Group.run exCfg exOps)).map Prod.snd =
    some [.win (.alloc 0 0), .win (.alloc 1 0), .touch 0 ⟨0, 0, 0⟩, .touch 1 ⟨0, 0, 0⟩] := by decide +kernel

/-- The member has to wait, and the other one has a request to flush. -/
example : ((Group.new exCfg [2, 2]).bind (Group.run exCfg exWait)).map (fun p => (p.1.members.map (fun m => (m.pc, m.pending)), p.1.window.headChunk, p.1.window.tailChunk)) =
    some ([(.wait 2, [1]), (.idle, [1])], 0, 2) := by decide +kernel

private theorem exBlocked : ∃ g tr, GroupReach exCfg [2, 2] exWait g tr ∧ Blocked exCfg g 0 := by
  obtain ⟨g0, h0⟩ : ∃ g0, Group.new exCfg [2, 2] = some g0 := ⟨_, rfl⟩
  obtain ⟨g, tr, hr⟩ := C31_total (ops := exWait) (by decide) exMax exValid
  have hr' := hr
  obtain ⟨_, _, g1, h1, h2⟩ := hr'
  rw [h0] at h1; cases h1
  have hx : ((Group.new exCfg [2, 2]).bind (Group.run exCfg exWait)).bind (fun p => p.1.members[0]?.map (fun m => (m.pc, decide (p.1.window.headChunk + 2 ≤ m.window.tailChunk)))) =
      some (.wait 2, true) := by decide +kernel
  rw [h0] at hx
  simp only [Option.bind_some] at hx
  rw [h2] at hx
  simp only [Option.bind_some, Option.map_eq_some_iff] at hx
  obtain ⟨m, hm, hmx⟩ := hx
  simp only [Prod.mk.injEq, decide_eq_true_eq] at hmx
  exact ⟨g, tr, hr, m, 2, hm, hmx.1, hmx.2⟩

/-- A fair schedule for two members. -/
private def exSched (k : Nat) : GroupOp := if k % 4 = 0 then .advance 0 else if k % 4 = 1 then .advance 1 else if k % 4 = 2 then .flush 0 else .flush 1

private theorem exFair : FairSchedule [2, 2].length exSched := by
  intro i hi n
  have : i = 0 ∨ i = 1 := by simp at hi; omega
  rcases this with rfl | rfl
  · exact ⟨⟨4 * n, by omega, by unfold exSched; rw [if_pos (by omega)]⟩,
      ⟨4 * n + 2, by omega, by unfold exSched; rw [if_neg (by omega), if_neg (by omega), if_pos (by omega)]⟩⟩
  · exact ⟨⟨4 * n + 1, by omega, by unfold exSched; rw [if_neg (by omega), if_pos (by omega)]⟩,
      ⟨4 * n + 3, by omega, by unfold exSched; rw [if_neg (by omega), if_neg (by omega), if_neg (by omega)]⟩⟩

private theorem exInternal : ∀ n, Internal (exSched n) := by
  intro n
  unfold exSched
  split
  · trivial
  · split
    · trivial
    · split <;> trivial

/-- In the state in which member 0 waits, the hypotheses of the theorems of C32 hold. -/
example : ∃ g tr, GroupReach exCfg [2, 2] exWait g tr ∧ Blocked exCfg g 0 ∧
    ∃ n g' ev, Group.run exCfg (prefixOf exSched n) g = some (g', ev) ∧ ∀ m ∈ g'.members, m.pc = .idle ∧ m.pending = [] := by
  obtain ⟨g, tr, hr, hb⟩ := exBlocked
  exact ⟨g, tr, hr, hb, C32_progress (by decide) rfl hr exInternal exFair⟩

/-- When both members have flushed, chunk 0 is handed over, and member 0 gets chunk 2. -/
example : ((Group.new exCfg [2, 2]).bind (Group.run exCfg (exWait ++ [.flush 1, .advance 0, .advance 0, .flush 0, .touch 0 2]))).map Prod.snd =
    some [.win (.alloc 0 0), .win (.alloc 1 0), .touch 0 ⟨0, 0, 0⟩, .touch 1 ⟨0, 0, 0⟩, .win (.ready ⟨0, 0, 0⟩), .win (.head 1), .win (.alloc 2 0), .touch 0 ⟨2, 2, 0⟩] := by
  decide +kernel

/-- In lossless mode the same member waits although no request is outstanding: C32 is about lossy mode only. -/
example : ((Group.new { exCfg with lossy := false } [2, 2]).bind (Group.run { exCfg with lossy := false } exWait)).map (fun p => p.1.members.map (fun m => (m.pc, m.pending))) =
    some [(.wait 2, []), (.idle, [])] := by decide +kernel

end Spead2
