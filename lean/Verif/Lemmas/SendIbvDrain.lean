import Verif.Lemmas.SendIbvRing

/-! # The ring of slots: everything can be completed -/

namespace Spead2

open Spec

theorem IbvRun.trans {c : IbvCfg} {um : Nat → UInt8} {w w' w'' : IbvW} {o1 o2 : List IOp} {e1 e2 : List IEv} (h1 : IbvRun c um w o1 w' e1)
    (h2 : IbvRun c um w' o2 w'' e2) : IbvRun c um w (o1 ++ o2) w'' (e1 ++ e2) := by
  induction h2 with
  | nil => simpa using h1
  | snoc _ en ex ih =>
    rw [← List.append_assoc, ← List.append_assoc]
    exact .snoc ih en ex

theorem IbvRun.one {c : IbvCfg} {um : Nat → UInt8} {w w' : IbvW} {op : IOp} {evs : List IEv} (en : w.enabled c op) (ex : w.exec c um op = some (w', evs)) :
    IbvRun c um w [op] w' evs := IbvRun.snoc (.nil w) en ex

/-- The state can be brought to one with property `P` without new packets. -/
def Drains (c : IbvCfg) (um : Nat → UInt8) (w : IbvW) (evs : List IEv) (P : IbvW → List IEv → Prop) : Prop :=
  ∃ ops w' evs', (∀ op ∈ ops, IOp.drains op = true) ∧ IbvRun c um w ops w' evs' ∧ IbvInv c um w' (evs ++ evs') ∧
    takenPkts evs' = [] ∧ P w' (evs ++ evs')

/-- Reports only grow. -/
theorem Drains.grow {c : IbvCfg} {um : Nat → UInt8} {w : IbvW} {evs : List IEv} {P : IbvW → List IEv → Prop} (h : Drains c um w evs P) :
    Drains c um w evs (fun w' evs' => P w' evs' ∧ (reports evs).length ≤ (reports evs').length) := by
  obtain ⟨o1, w1, e1, a1, a2, a3, a4, a5⟩ := h
  exact ⟨o1, w1, e1, a1, a2, a3, a4, a5, by rw [reports_append, List.length_append]; omega⟩

theorem Drains.trans {c : IbvCfg} {um : Nat → UInt8} {w : IbvW} {evs : List IEv} {P Q : IbvW → List IEv → Prop} (h : Drains c um w evs P)
    (hq : ∀ w' evs', IbvInv c um w' evs' → takenPkts evs' = takenPkts evs → P w' evs' → Drains c um w' evs' Q) : Drains c um w evs Q := by
  obtain ⟨o1, w1, e1, a1, a2, a3, a4, a5⟩ := h
  obtain ⟨o2, w2, e2, b1, b2, b3, b4, b5⟩ := hq w1 (evs ++ e1) a3 (by rw [takenPkts_append, a4, List.append_nil]) a5
  refine ⟨o1 ++ o2, w2, e1 ++ e2, ?_, a2.trans b2, by rw [← List.append_assoc]; exact b3, by rw [takenPkts_append, a4, b4]; rfl,
    by rw [← List.append_assoc]; exact b5⟩
  intro op ho
  rcases List.mem_append.mp ho with ho | ho
  · exact a1 op ho
  · exact b1 op ho

theorem Drains.done {c : IbvCfg} {um : Nat → UInt8} {w : IbvW} {evs : List IEv} {P : IbvW → List IEv → Prop} (h : IbvInv c um w evs) (hp : P w evs) :
    Drains c um w evs P :=
  ⟨[], w, [], by simp, .nil w, by simpa using h, rfl, by simpa using hp⟩

theorem Drains.one {c : IbvCfg} (hv : IbvValid c) {um : Nat → UInt8} {w : IbvW} {evs : List IEv} {P : IbvW → List IEv → Prop} (h : IbvInv c um w evs) {op : IOp}
    (hd : IOp.drains op = true) (en : w.enabled c op) (hg : ∀ w' evs', w.exec c um op = some (w', evs') → takenPkts evs' = [])
    (hp : ∀ w' evs', w.exec c um op = some (w', evs') → P w' (evs ++ evs')) : Drains c um w evs P := by
  obtain ⟨w', evs', h1, h2⟩ := h.step hv en (by rintro rfl; cases hd) (by rintro p rfl; cases hd)
  exact ⟨[op], w', evs', by simpa using hd, .one en h1, h2, hg _ _ h1, hp _ _ h1⟩

theorem exec_finish {c : IbvCfg} {um : Nat → UInt8} {w w' : IbvW} {evs : List IEv} {r : IEnd} (h : w.exec c um (.finish r) = some (w', evs)) :
    evs = [] ∧ (w'.pc = .idle ∨ w'.pc = .toArm) := by
  rw [IbvW.exec] at h
  split at h
  · rw [Option.map_eq_some_iff] at h
    obtain ⟨x, h1, h2⟩ := h
    cases h2
    refine ⟨rfl, ?_⟩
    rw [IbvW.finish, Option.map_eq_some_iff] at h1
    obtain ⟨y, _, h2⟩ := h1
    subst h2
    split
    · exact Or.inl rfl
    · split
      · exact Or.inl rfl
      · split
        · unfold IbvW.waitForSpace
          split
          · exact Or.inr rfl
          · exact Or.inl rfl
        · exact Or.inl rfl
  · cases h

/-- The thread can leave `wakeup`. -/
theorem IbvInv.leave {c : IbvCfg} (hv : IbvValid c) {um : Nat → UInt8} {w : IbvW} {evs : List IEv} (h : IbvInv c um w evs) :
    Drains c um w evs (fun w' _ => w'.pc = .idle) := by
  have arm : ∀ w evs, IbvInv c um w evs → w.pc = .toArm → Drains c um w evs (fun w' _ => w'.pc = .idle) := by
    intro w evs h hpc
    refine Drains.one hv h (op := .arm) rfl hpc ?_ ?_
    · intro w' evs' hx
      cases Option.some.inj hx
      rfl
    · intro w' evs' hx
      cases Option.some.inj hx
      rfl
  cases hpc : w.pc with
  | idle => exact .done h hpc
  | toArm => exact arm w evs h hpc
  | building i more =>
    refine Drains.trans (P := fun w' _ => w'.pc = .idle ∨ w'.pc = .toArm)
      (Drains.one hv h (op := .finish (if i < c.targetBatch then .empty else .full)) rfl ⟨i, more, hpc, ?_⟩ ?_ ?_) ?_
    · split <;> simp [*]
    · intro w' evs' hx
      rw [(exec_finish hx).1]
      rfl
    · intro w' evs' hx
      exact (exec_finish hx).2
    · rintro w' evs' h' _ (h1 | h1)
      · exact .done h' h1
      · exact arm w' evs' h' h1

theorem IbvInv.dead {c : IbvCfg} {um : Nat → UInt8} {w : IbvW} {evs : List IEv} (h : IbvInv c um w evs) : w.dead = false := by
  obtain ⟨G, a, b, s, q, _, hc, _⟩ := h
  exact hc.dead

/-- The card can send everything that was posted. -/
theorem IbvInv.sendAll {c : IbvCfg} (hv : IbvValid c) {um : Nat → UInt8} : ∀ (n : Nat) {w : IbvW} {evs : List IEv}, IbvInv c um w evs → w.wq.length = n →
    w.pc = .idle → Drains c um w evs (fun w' _ => w'.pc = .idle ∧ w'.wq = [])
  | 0, w, evs, h, hn, hp => .done h ⟨hp, List.length_eq_zero_iff.mp hn⟩
  | n + 1, w, evs, h, hn, hp => by
    have hex : ∀ w' evs', w.exec c um .send = some (w', evs') → takenPkts evs' = [] ∧ w'.wq.length = n ∧ w'.pc = .idle := by
      intro w' evs' hx
      rw [IbvW.exec] at hx
      split at hx
      · cases hx
      · rename_i q wq hwq
        rw [Option.map_eq_some_iff] at hx
        obtain ⟨f, _, hf⟩ := hx
        rw [hwq] at hn
        simp only [List.length_cons, Nat.add_right_cancel_iff] at hn
        injection hf with hf1 hf2
        subst hf1 hf2
        refine ⟨rfl, ?_, ?_⟩
        · split <;> exact hn
        · split <;> exact hp
    refine Drains.trans (P := fun w' _ => w'.wq.length = n ∧ w'.pc = .idle)
      (Drains.one hv h (op := .send) rfl ⟨(by intro h0; rw [h0] at hn; cases hn), h.dead⟩ (fun w' e hx => (hex w' e hx).1) (fun w' e hx => (hex w' e hx).2)) ?_
    intro w' evs' h' _ hp'
    exact IbvInv.sendAll hv n h' hp'.1 hp'.2

/-- With a completion in the queue, `wakeup` reports packets. -/
theorem IbvInv.wakeMore {c : IbvCfg} (hv : IbvValid c) {um : Nat → UInt8} {w : IbvW} {evs : List IEv} (h : IbvInv c um w evs) (hcq : w.cq ≠ [])
    (en : w.sched = .posted ∨ w.sched = .waiting ∧ w.event = true) :
    Drains c um w evs (fun _ evs' => (reports evs).length < (reports evs').length) := by
  have hs : w.sched ≠ .running := by rcases en with en | ⟨en, _⟩ <;> (rw [en]; decide)
  obtain ⟨G, a, b, s, q, hr, hc, hseen⟩ := id h
  cases hc' : w.cq with
  | nil => exact absurd hc' hcq
  | cons x cq =>
    obtain ⟨n, ok⟩ := x
    have hr0 : IbvRing c um { w with sched := .running, event := false } G a b s q := hr.cong rfl rfl rfl rfl rfl rfl rfl rfl
    have hn : 0 < n := (hr.ok (n, ok) (by rw [hc']; simp)).2
    obtain ⟨_, hab, h3, h4⟩ := hr0.reapOne (n := n) (ok := ok) (cq := cq) hc'
    have h1 := hr.sb; have h2 := hr.sq; have hqG := hr.qG
    have hav := hr.avail
    have htb := targetBatch_pos hv
    have hg : takenPkts (sentEvs ((G.drop a).take n)) = [] := (sentEvs_seen _).1
    have hx : ∀ w' evs', w.exec c um (.wake [true]) = some (w', evs') → takenPkts evs' = [] ∧ (reports evs').length = n := by
      intro w' evs' hx
      have hlim : ¬ min c.nSlots (w.avail + c.targetBatch) ≤ w.avail := by omega
      have hloop : ∃ r, IbvW.reapLoop c (min c.nSlots (w.avail + c.targetBatch)) [true] c.maxPoll { w with sched := .running, event := false } =
          some ({ w with sched := .running, event := false, cq := cq, head := (a + n) % c.nSlots, avail := w.avail + n },
            sentEvs ((G.drop a).take n), ibvLastCount ((G.drop a).take n), r) := by
        rw [IbvW.reapLoop, if_neg hlim]
        dsimp only
        rw [hc']
        dsimp only
        rw [if_pos rfl, h3]
        dsimp only
        rw [IbvW.reapLoop]
        by_cases hh : min c.nSlots (w.avail + c.targetBatch) ≤ w.avail + n
        · rw [if_pos hh]
          exact ⟨_, by simp only [List.append_nil, Nat.add_zero]; rfl⟩
        · rw [if_neg hh]
          exact ⟨_, by simp only [List.append_nil, Nat.add_zero]; rfl⟩
      obtain ⟨r, hloop⟩ := hloop
      have hx : w.wake c [true] = some (w', evs') := hx
      rw [IbvW.wake, IbvW.reap] at hx
      dsimp only at hx
      rw [hloop] at hx
      cases Option.some.inj hx
      obtain ⟨g1, g2, g3, g4⟩ := sentEvs_seen ((G.drop a).take n)
      constructor
      · rw [takenPkts_append, g1]
        split <;> rfl
      · rw [reports_append, g3]
        have : reports (if 0 < ibvLastCount ((G.drop a).take n) then [IEv.groups (ibvLastCount ((G.drop a).take n))] else []) = [] := by split <;> rfl
        rw [this, List.append_nil, List.length_map, List.length_take, List.length_drop]
        omega
    refine Drains.one hv h (op := .wake [true]) rfl en (fun w' e he => (hx w' e he).1) ?_
    intro w' e he
    rw [reports_append, List.length_append, (hx w' e he).2]
    omega

theorem IbvInv.counts {c : IbvCfg} {um : Nat → UInt8} {w : IbvW} {evs : List IEv} (h : IbvInv c um w evs) : (reports evs).length ≤ (takenPkts evs).length := by
  obtain ⟨G, a, b, s, q, hr, hc, hseen⟩ := h
  rw [hseen.rep, hseen.got, List.length_map, List.length_map, List.length_take]
  omega

/-- With packets outstanding of which nothing is left to be sent, there is a completion. -/
theorem IbvInv.cq_ne {c : IbvCfg} {um : Nat → UInt8} {w : IbvW} {evs : List IEv} (h : IbvInv c um w evs) (hlt : (reports evs).length < (takenPkts evs).length)
    (hp : w.pc = .idle) (hw : w.wq = []) : w.cq ≠ [] ∧ w.sched ≠ .requested ∧ w.sched ≠ .running ∧
      (w.sched = .waiting → c.channel = true ∧ (c.pending = true → w.event = true)) := by
  obtain ⟨G, a, b, s, q, hr, hc, hseen⟩ := h
  rw [hseen.rep, hseen.got, List.length_map, List.length_map, List.length_take] at hlt
  have hq : q = G.length := hc.other (by rw [hp]; simp)
  have hwqs := congrArg List.length hr.wqs
  rw [hw] at hwqs
  simp only [List.map_nil, List.length_nil, List.length_map, List.length_take, List.length_drop] at hwqs
  have hb := hr.wqb
  rw [hw] at hb
  have hb : s - b = 0 := hb
  have h1 := hr.sb; have h2 := hr.sq; have h3 := hr.qG; have h4 := hr.cq
  have hcq : w.cq ≠ [] := by
    intro h0
    rw [h0] at h4
    simp only [List.map_nil, List.sum_nil] at h4
    omega
  refine ⟨hcq, (fun h => by have := hc.req h; omega), hc.idle.mp hp, fun h => ⟨(hc.wait (Or.inl h)).2, fun hpd => ?_⟩⟩
  rcases hc.pend hpd h with h5 | ⟨_, h5⟩
  · exact h5
  · exact absurd h5 hcq

/-- One round. -/
theorem IbvInv.round {c : IbvCfg} (hv : IbvValid c) (hch : c.channel = false ∨ c.pending = true) {um : Nat → UInt8} {w : IbvW} {evs : List IEv}
    (h : IbvInv c um w evs) (hlt : (reports evs).length < (takenPkts evs).length) :
    Drains c um w evs (fun _ evs' => (reports evs).length < (reports evs').length) := by
  refine (h.leave hv).grow.trans ?_
  rintro w1 e1 i1 g1 ⟨p1, hge1⟩
  refine (i1.sendAll hv _ rfl p1).grow.trans ?_
  rintro w2 e2 i2 g2 ⟨⟨p2, p3⟩, hge2⟩
  by_cases hmore : (reports evs).length < (reports e2).length
  · exact .done i2 hmore
  have hlt2 : (reports e2).length < (takenPkts e2).length := by rw [g2, g1]; omega
  have key : ∀ w3 e3, IbvInv c um w3 e3 → w3.cq ≠ [] → (w3.sched = .posted ∨ w3.sched = .waiting ∧ w3.event = true) →
      (reports evs).length ≤ (reports e3).length → Drains c um w3 e3 (fun _ evs' => (reports evs).length < (reports evs').length) := by
    intro w3 e3 i3 hq hs hle
    obtain ⟨ops, w', evs', a1, a2, a3, a4, a5⟩ := i3.wakeMore hv hq hs
    exact ⟨ops, w', evs', a1, a2, a3, a4, by omega⟩
  obtain ⟨q1, q2, q3, q4⟩ := i2.cq_ne hlt2 p2 p3
  have hle : (reports evs).length ≤ (reports e2).length := by omega
  cases hs : w2.sched with
  | running => exact absurd hs q3
  | requested => exact absurd hs q2
  | posted => exact key w2 e2 i2 q1 (Or.inl hs) hle
  | waiting =>
    obtain ⟨r1, r2⟩ := q4 hs
    rcases hch with hch | hch
    · rw [r1] at hch; cases hch
    · exact key w2 e2 i2 q1 (Or.inr ⟨hs, r2 hch⟩) hle
  | sleeping =>
    refine Drains.trans (P := fun w' e' => w'.cq ≠ [] ∧ w'.sched = .posted ∧ e' = e2) (Drains.one hv i2 (op := .timer) rfl hs ?_ ?_) ?_
    · intro w' e' hx
      cases Option.some.inj hx
      rfl
    · intro w' e' hx
      cases Option.some.inj hx
      exact ⟨q1, rfl, List.append_nil _⟩
    · rintro w' e' i3 _ ⟨k1, k2, k3⟩
      exact key w' e' i3 k1 (Or.inl k2) (by rw [k3]; exact hle)

/-- Everything can be completed. -/
theorem IbvInv.drain {c : IbvCfg} (hv : IbvValid c) (hch : c.channel = false ∨ c.pending = true) {um : Nat → UInt8} : ∀ (n : Nat) {w : IbvW} {evs : List IEv},
    IbvInv c um w evs → (takenPkts evs).length - (reports evs).length = n → Drains c um w evs (fun _ evs' => (reports evs').length = (takenPkts evs).length) := by
  intro n
  induction n using Nat.strongRecOn with
  | _ n ih =>
    intro w evs h hn
    have hle := h.counts
    by_cases heq : (reports evs).length = (takenPkts evs).length
    · exact .done h heq
    · refine (h.round hv hch (by omega)).trans ?_
      intro w' evs' h' hg hm
      have := ih ((takenPkts evs').length - (reports evs').length) (by rw [hg]; omega) h' rfl
      rw [hg] at this
      exact this

end Spead2
