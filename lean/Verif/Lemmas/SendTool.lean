import Verif.Spec.SendTool
import Mathlib.Data.List.Basic
import Mathlib.Data.List.Nodup

/-!
# Lemmas: `spead2_send`
-/

namespace Spead2.SendTool
variable {α : Type}

/-- A heap as the index says. -/
structure EntryOk (c : Sender) (e : Entry α) : Prop where
  what : e.what = c.what e.idx
  slot : e.slot = e.idx % c.maxHeaps
  sub : e.sub = e.idx % c.nSub
  flavour : e.flavour = if e.what = .last then c.lastFlavour else c.flavour

/-- From some index on, all heaps are the last one. -/
theorem what_last {c : Sender} {i j : Nat} (h : c.what i = .last) (hij : i ≤ j) : c.what j = .last := by
  unfold Sender.what at h ⊢
  split at h
  · cases h
  · split at h
    · rename_i h1 h2
      simp only [Bool.and_eq_true, decide_eq_true_eq] at h2
      rw [if_neg (by omega), if_pos (by simp only [Bool.and_eq_true, decide_eq_true_eq]; omega)]
    · cases h

structure Core (c : Sender) (fill : Nat → α) (s : St α) : Prop where
  q : s.queued.map Entry.idx = List.range s.queued.length
  ent : ∀ e ∈ s.queued, EntryOk c e
  fl : s.inflight = s.queued.drop s.done.length
  dn : s.done.map Prod.fst = List.range s.done.length
  le : s.done.length ≤ s.queued.length
  stored : ∀ e ∈ s.inflight, e.what ≠ .last → s.mem e.slot = e.contents
  intact : Intact s
  fills : c.verify = true → c.what s.queued.length ≠ .last → s.fills = s.queued.length
  filled : c.verify = true → ∀ e ∈ s.queued, e.what ≠ .last → e.contents = fill e.idx

theorem mod_ne {a b m : Nat} (h1 : a < b) (h2 : b < a + m) : b % m ≠ a % m := by
  intro h
  have := Nat.sub_mod_eq_zero_of_mod_eq h
  rw [Nat.mod_eq_of_lt (by omega)] at this
  omega

theorem Core.idx {c : Sender} {fill : Nat → α} {s : St α} (h : Core c fill s) {k : Nat} {e : Entry α} (he : s.queued[k]? = some e) : e.idx = k := by
  have h1 : (s.queued.map Entry.idx)[k]? = some e.idx := by rw [List.getElem?_map, he]; rfl
  rw [h.q] at h1
  obtain ⟨hk, e1⟩ := List.getElem?_eq_some_iff.mp h1
  rw [List.getElem_range] at e1
  exact e1.symm

theorem Core.len {c : Sender} {fill : Nat → α} {s : St α} (h : Core c fill s) : s.done.length + s.inflight.length = s.queued.length := by
  have := h.le
  rw [h.fl, List.length_drop]
  omega

theorem Core.send {c : Sender} {fill : Nat → α} {s : St α} (h : Core c fill s) (hm : s.inflight.length < c.maxHeaps) (hc : c.maxHeaps ≤ c.cap) (hs : 0 < c.nSub) :
    ∃ s', s.send c fill s.queued.length = some s' ∧ Core c fill s' ∧ s'.queued.length = s.queued.length + 1 ∧ s'.inflight.length = s.inflight.length + 1 ∧ s'.done = s.done ∧
      s'.error = s.error ∧ s'.bytes = s.bytes ∧ s'.sem = s.sem ∧ s'.gets = s.gets ∧ s'.started = s.started := by
  have hlen := h.len
  have hslot : s.queued.length % c.maxHeaps < c.maxHeaps := Nat.mod_lt _ (by omega)
  -- the memory afterwards
  obtain ⟨mem, fills, e1, e2, e3⟩ : ∃ mem fills, (if c.what s.queued.length ≠ .last && c.verify then
        { s with mem := fun j => if j = s.queued.length % c.maxHeaps then fill s.fills else s.mem j, fills := s.fills + 1 } else s) =
        { s with mem := mem, fills := fills } ∧ (∀ j, j ≠ s.queued.length % c.maxHeaps → mem j = s.mem j) ∧
        (c.verify = true → c.what s.queued.length ≠ .last → mem (s.queued.length % c.maxHeaps) = fill s.fills ∧ fills = s.fills + 1) := by
    split
    · exact ⟨_, _, rfl, fun j hj => if_neg hj, fun _ _ => ⟨if_pos rfl, rfl⟩⟩
    · rename_i hn
      exact ⟨s.mem, s.fills, rfl, fun j _ => rfl, fun hv hw => absurd (by simp [hv, hw]) hn⟩
  let e : Entry α := ⟨s.queued.length, c.what s.queued.length, s.queued.length % c.maxHeaps, s.queued.length % c.nSub,
    if c.what s.queued.length = .last then c.lastFlavour else c.flavour, mem (s.queued.length % c.maxHeaps)⟩
  refine ⟨{ s with mem := mem, fills := fills, inflight := s.inflight ++ [e], queued := s.queued ++ [e] }, ?_, ?_, ?_, ?_, rfl, rfl, rfl, rfl, rfl, rfl⟩
  · unfold St.send
    simp only [e1]
    rw [if_neg (by omega), if_neg (by omega), if_neg (by omega)]
  · refine ⟨?_, ?_, ?_, h.dn, ?_, ?_, ?_, ?_, ?_⟩
    · show (s.queued ++ [e]).map Entry.idx = List.range (s.queued ++ [e]).length
      rw [List.map_append, h.q, List.length_append, List.length_singleton, List.range_succ]
      rfl
    · intro x hx
      rcases List.mem_append.mp hx with hx | hx
      · exact h.ent x hx
      · rw [List.mem_singleton] at hx
        subst hx
        exact ⟨rfl, rfl, rfl, rfl⟩
    · show s.inflight ++ [e] = (s.queued ++ [e]).drop s.done.length
      rw [List.drop_append_of_le_length h.le, h.fl]
    · show s.done.length ≤ (s.queued ++ [e]).length
      have := h.le
      rw [List.length_append]
      omega
    · intro x hx hw
      rcases List.mem_append.mp hx with hx | hx
      · show mem x.slot = _
        rw [e2]
        · exact h.stored x hx hw
        · have hx' := hx
          rw [h.fl] at hx
          obtain ⟨k, hk⟩ := List.mem_iff_getElem?.mp hx
          rw [List.getElem?_drop] at hk
          have hi := h.idx hk
          have hlt : s.done.length + k < s.queued.length := (List.getElem?_eq_some_iff.mp hk).1
          rw [(h.ent x (List.mem_of_mem_drop hx)).slot, hi]
          exact (mod_ne (by omega) (by omega)).symm
      · rw [List.mem_singleton] at hx
        subst hx
        rfl
    · intro r hr
      obtain ⟨x, hx, h1⟩ := h.intact r hr
      exact ⟨x, List.mem_append_left _ hx, h1⟩
    · intro hv hw
      have hl : (s.queued ++ [e]).length = s.queued.length + 1 := by rw [List.length_append]; rfl
      show fills = (s.queued ++ [e]).length
      have hw : c.what (s.queued ++ [e]).length ≠ .last := hw
      rw [hl] at hw ⊢
      have hw' : c.what s.queued.length ≠ .last := fun hw' => hw (what_last hw' (Nat.le_succ _))
      rw [(e3 hv hw').2, h.fills hv hw']
    · intro hv x hx hw
      rcases List.mem_append.mp hx with hx | hx
      · exact h.filled hv x hx hw
      · rw [List.mem_singleton] at hx
        subst hx
        show mem _ = fill s.queued.length
        rw [(e3 hv hw).1, h.fills hv hw]
  · show (s.queued ++ [e]).length = _
    rw [List.length_append]
    rfl
  · show (s.inflight ++ [e]).length = _
    rw [List.length_append]
    rfl

theorem Core.sendFrom {c : Sender} {fill : Nat → α} (hc : c.maxHeaps ≤ c.cap) (hs : 0 < c.nSub) : ∀ (k : Nat) {s : St α}, Core c fill s → s.inflight.length + k ≤ c.maxHeaps →
    ∃ s', s.sendFrom c fill k s.queued.length = some s' ∧ Core c fill s' ∧ s'.queued.length = s.queued.length + k ∧ s'.inflight.length = s.inflight.length + k ∧ s'.done = s.done ∧
      s'.error = s.error ∧ s'.bytes = s.bytes ∧ s'.sem = s.sem ∧ s'.gets = s.gets ∧ s'.started = s.started
  | 0, s, h, _ => ⟨s, rfl, h, rfl, rfl, rfl, rfl, rfl, rfl, rfl, rfl⟩
  | k + 1, s, h, hk => by
    obtain ⟨s1, a1, a2, a3, a4, a5, a6, a7, a8, a9, a10⟩ := h.send (fill := fill) (by omega) hc hs
    obtain ⟨s2, b1, b2, b3, b4, b5, b6, b7, b8, b9, b10⟩ := Core.sendFrom hc hs k a2 (by omega)
    refine ⟨s2, ?_, b2, by omega, by omega, by rw [b5, a5], by rw [b6, a6], by rw [b7, a7], by rw [b8, a8], by rw [b9, a9], by rw [b10, a10]⟩
    unfold St.sendFrom
    rw [a1, Option.bind_some, ← a3]
    exact b1

/-- The invariant. -/
structure Inv (c : Sender) (fill : Nat → α) (s : St α) : Prop extends Core c fill s where
  fresh : s.started = false → s.queued = [] ∧ s.sem = 0 ∧ s.gets = 0
  chains : s.started = true → s.inflight.length + s.sem + s.gets = c.maxHeaps
  count : s.started = true → s.error = none → s.queued.length = if c.nHeaps = -1 then s.done.length + c.maxHeaps else max c.maxHeaps (min (s.done.length + c.maxHeaps) c.limit)
  bound : c.nHeaps ≠ -1 → s.queued.length ≤ max c.maxHeaps c.limit
  error : s.error = (s.done.filterMap fun d => d.2.1).head?
  bytes : s.bytes = (s.done.map fun d => d.2.2).sum

theorem Inv.init {c : Sender} {fill : Nat → α} (mem : Nat → α) : Inv c fill { mem := mem } where
  q := rfl
  ent := by intro e he; cases he
  fl := rfl
  dn := rfl
  le := Nat.le_refl _
  stored := by intro e he; cases he
  intact := by intro e he; cases he
  fills := fun _ _ => rfl
  filled := by intro _ e he; cases he
  fresh := fun _ => ⟨rfl, rfl, rfl⟩
  chains := by intro h; cases h
  count := by intro h; cases h
  bound := fun _ => Nat.zero_le _
  error := rfl
  bytes := rfl

theorem inv_step {c : Sender} {fill : Nat → α} (hm : 0 < c.maxHeaps) (hc : c.maxHeaps ≤ c.cap) (hs : 0 < c.nSub) {s : St α} (h : Inv c fill s) (op : Op) :
    ∃ s', s.step c fill op = some s' ∧ Inv c fill s' := by
  have hlen := h.len
  cases op with
  | start =>
    unfold St.step
    simp only
    cases hst : s.started
    · obtain ⟨f1, f2, f3⟩ := h.fresh hst
      rw [f1] at hlen
      simp only [List.length_nil] at hlen
      have hd : s.done = [] := List.length_eq_zero_iff.mp (by omega)
      have core : Core c fill { s with started := true } := ⟨h.q, h.ent, h.fl, h.dn, h.le, h.stored, h.intact, h.fills, h.filled⟩
      obtain ⟨s', a1, a2, a3, a4, a5, a6, a7, a8, a9, a10⟩ := core.sendFrom (fill := fill) hc hs c.maxHeaps (by show s.inflight.length + _ ≤ _; omega)
      have a3 : s'.queued.length = s.queued.length + c.maxHeaps := a3
      have a4 : s'.inflight.length = s.inflight.length + c.maxHeaps := a4
      have hq : ({ s with started := true } : St α).queued.length = 0 := by show s.queued.length = 0; rw [f1]; rfl
      rw [hq] at a1
      refine ⟨s', by rw [if_neg (by decide)]; exact a1, ⟨a2, ?_, ?_, ?_, ?_, ?_, ?_⟩⟩
      · intro e; rw [a10] at e; cases e
      · intro _
        rw [a8, a9, a4]
        show s.inflight.length + c.maxHeaps + s.sem + s.gets = _
        omega
      · intro _ _
        rw [a3, f1, a5]
        show 0 + c.maxHeaps = if c.nHeaps = -1 then s.done.length + c.maxHeaps else max c.maxHeaps (min (s.done.length + c.maxHeaps) c.limit)
        rw [hd]
        split
        · rfl
        · simp only [List.length_nil]; omega
      · intro _
        rw [a3, f1]
        simp only [List.length_nil]
        omega
      · rw [a6, a5]; exact h.error
      · rw [a7, a5]; exact h.bytes
    · exact ⟨s, rfl, h⟩
  | read k =>
    unfold St.step
    simp only
    split
    · exact ⟨s, rfl, h⟩
    · rename_i e he
      split
      · exact ⟨s, rfl, h⟩
      · rename_i hw
        refine ⟨_, rfl, { h with intact := ?_ }⟩
        intro r hr
        rcases List.mem_append.mp hr with hr | hr
        · exact h.intact r hr
        · rw [List.mem_singleton] at hr
          subst hr
          have hmem : e ∈ s.inflight := List.mem_of_getElem? he
          have hq : e ∈ s.queued := by
            rw [h.fl] at hmem
            exact List.mem_of_mem_drop hmem
          exact ⟨e, hq, rfl, (h.stored e hmem hw).symm⟩
  | complete ec bytes =>
    unfold St.step
    cases hin : s.inflight with
    | nil => exact ⟨s, rfl, h⟩
    | cons e rest =>
      simp only
      have hlt : s.done.length < s.queued.length := by rw [hin] at hlen; simp only [List.length_cons] at hlen; omega
      have hst : s.started = true := by
        cases hs0 : s.started
        · rw [(h.fresh hs0).1] at hlt
          simp at hlt
        · rfl
      have hch := h.chains hst
      have hcnt := h.count hst
      rw [hin, List.length_cons] at hch hlen
      have hdrop : s.queued.drop s.done.length = e :: rest := by rw [← h.fl, hin]
      have he : s.queued[s.done.length]? = some e := by
        have := congrArg (fun l => l[0]?) hdrop
        simpa [List.getElem?_drop] using this
      have hidx : e.idx = s.done.length := h.idx he
      -- after the completion, before the callback
      let s1 : St α := { s with inflight := rest, done := s.done ++ [(e.idx, ec, bytes)], bytes := s.bytes + bytes, error := if ec.isSome && s.error.isNone then ec else s.error }
      have hd1 : s1.done.length = s.done.length + 1 := by show (s.done ++ [_]).length = _; rw [List.length_append]; rfl
      have core : Core c fill s1 := by
        refine ⟨h.q, h.ent, ?_, ?_, ?_, ?_, h.intact, h.fills, h.filled⟩
        · show rest = s.queued.drop s1.done.length
          rw [hd1, ← List.drop_drop, hdrop]
          rfl
        · show (s.done ++ [(e.idx, ec, bytes)]).map Prod.fst = List.range s1.done.length
          rw [hd1, List.map_append, h.dn, List.range_succ, ← hidx]
          rfl
        · rw [hd1]
          exact hlt
        · intro x hx hw
          exact h.stored x (by rw [hin]; exact List.mem_cons_of_mem _ hx) hw
      have herr : s1.error = (s1.done.filterMap fun d => d.2.1).head? := by
        show (if ec.isSome && s.error.isNone then ec else s.error) = ((s.done ++ [(e.idx, ec, bytes)]).filterMap fun d => d.2.1).head?
        rw [List.filterMap_append, List.head?_append, ← h.error]
        cases s.error <;> cases ec <;> rfl
      have hby : s1.bytes = (s1.done.map fun d => d.2.2).sum := by
        show s.bytes + bytes = ((s.done ++ [(e.idx, ec, bytes)]).map fun d => d.2.2).sum
        rw [List.map_append, List.sum_append, ← h.bytes]
        simp
      have hin1 : s1.inflight.length = rest.length := rfl
      have hq1 : s1.queued.length = s.queued.length := rfl
      have hsg : s1.sem = s.sem ∧ s1.gets = s.gets ∧ s1.started = s.started := ⟨rfl, rfl, rfl⟩
      have hnone : s1.error = none → s.error = none := by
        intro hn
        show s.error = none
        have hn : (if ec.isSome && s.error.isNone then ec else s.error) = none := hn
        cases hse : s.error with
        | none => rfl
        | some x => rw [hse] at hn; cases ec <;> cases hn
      show ∃ s', (if s1.error.isSome then some { s1 with sem := s1.sem + 1 }
        else if c.nHeaps = -1 || e.idx + c.maxHeaps < c.limit then s1.send c fill (e.idx + c.maxHeaps) else some { s1 with sem := s1.sem + 1 }) = some s' ∧ Inv c fill s'
      have hend : (s1.error = none → ¬ (c.nHeaps = -1) ∧ c.limit ≤ s.done.length + c.maxHeaps) → Inv c fill { s1 with sem := s1.sem + 1 } := by
        intro hno
        refine ⟨⟨core.q, core.ent, core.fl, core.dn, core.le, core.stored, core.intact, core.fills, core.filled⟩, ?_, ?_, ?_, h.bound, herr, hby⟩
        · intro hs0
          have hs0 : s1.started = false := hs0
          rw [hsg.2.2, hst] at hs0
          cases hs0
        · intro _
          show s1.inflight.length + (s1.sem + 1) + s1.gets = _
          rw [hin1, hsg.1, hsg.2.1]
          omega
        · intro _ hn
          obtain ⟨n1, n2⟩ := hno hn
          have := hcnt (hnone hn)
          show s1.queued.length = if c.nHeaps = -1 then s1.done.length + c.maxHeaps else max c.maxHeaps (min (s1.done.length + c.maxHeaps) c.limit)
          rw [if_neg n1] at this ⊢
          rw [hq1, hd1]
          omega
      split
      · rename_i hsome
        exact ⟨_, rfl, hend (by intro hn; rw [hn] at hsome; cases hsome)⟩
      · rename_i hsome
        have hn : s1.error = none := by simpa using hsome
        have hcnt := hcnt (hnone hn)
        split
        · rename_i hmore
          have hmore : c.nHeaps = -1 ∨ e.idx + c.maxHeaps < c.limit := by simpa using hmore
          have hK : s.queued.length = s.done.length + c.maxHeaps := by
            rw [hcnt]
            split
            · rfl
            · rename_i hne
              rcases hmore with hmore | hmore
              · exact absurd hmore hne
              · omega
          obtain ⟨s2, b1, b2, b3, b4, b5, b6, b7, b8, b9, b10⟩ := core.send (fill := fill) (by rw [hin1]; omega) hc hs
          rw [hq1, hK, ← hidx] at b1
          refine ⟨s2, b1, ⟨b2, ?_, ?_, ?_, ?_, ?_, ?_⟩⟩
          · intro hs0
            rw [b10, hsg.2.2, hst] at hs0
            cases hs0
          · intro _
            rw [b4, b8, b9, hin1, hsg.1, hsg.2.1]
            omega
          · intro _ _
            rw [b3, b5, hq1, hd1, hK]
            split
            · omega
            · rename_i hne
              rcases hmore with hmore | hmore
              · exact absurd hmore hne
              · omega
          · intro hne
            rw [b3, hq1, hK]
            rcases hmore with hmore | hmore
            · exact absurd hmore hne
            · omega
          · rw [b6, b5]; exact herr
          · rw [b7, b5]; exact hby
        · rename_i hmore
          have hmore : ¬ (c.nHeaps = -1) ∧ ¬ (e.idx + c.maxHeaps < c.limit) := by
            simpa [not_or] using hmore
          exact ⟨_, rfl, hend (fun _ => ⟨hmore.1, by omega⟩)⟩
  | get =>
    unfold St.step
    simp only
    split
    · exact ⟨s, rfl, h⟩
    · rename_i hg
      simp only [Bool.or_eq_true, decide_eq_true_eq, not_or] at hg
      refine ⟨_, rfl, { h with fresh := ?_, chains := ?_ }⟩
      · intro hs0
        have := h.fresh hs0
        omega
      · intro hs0
        have := h.chains hs0
        show s.inflight.length + (s.sem - 1) + (s.gets + 1) = _
        omega

theorem inv_run {c : Sender} {fill : Nat → α} (hm : 0 < c.maxHeaps) (hc : c.maxHeaps ≤ c.cap) (hs : 0 < c.nSub) : ∀ (ops : List Op) {s : St α}, Inv c fill s →
    ∃ s', s.run c fill ops = some s' ∧ Inv c fill s'
  | [], s, h => ⟨s, rfl, h⟩
  | op :: ops, s, h => by
    obtain ⟨s1, h1, h2⟩ := inv_step (fill := fill) hm hc hs h op
    obtain ⟨s2, h3, h4⟩ := inv_run hm hc hs ops h2
    exact ⟨s2, by rw [St.run, h1]; exact h3, h4⟩

end Spead2.SendTool
