import Verif.Spec.IbvSlots
import Verif.Lemmas.Mprq
import Mathlib.Data.List.Basic
import Mathlib.Data.List.Nodup
import Mathlib.Data.List.Infix

/-!
# Lemmas: receive requests
-/

namespace Spead2.Slots

/-- A completion with the data that belongs to it. -/
def comp (x : Nat × Option (List UInt8)) : Nat × Option Nat := (x.1, x.2.map List.length)

/-- `wr.next` leads through the list. -/
def Linked (next : Nat → Option Nat) : List Nat → Prop
  | a :: b :: l => next a = some b ∧ Linked next (b :: l)
  | _ => True

theorem Linked.snoc {next : Nat → Option Nat} {i : Nat} : ∀ {l : List Nat} {t : Nat}, Linked next (l ++ [t]) → (l ++ [t]).Nodup →
    Linked (setNext next t (some i)) (l ++ [t] ++ [i])
  | [], t, _, _ => ⟨by simp [setNext], trivial⟩
  | [a], t, h, hn => by
    have hne : a ≠ t := by simpa using hn
    exact ⟨by simp only [setNext, if_neg hne]; exact h.1, by simp [setNext], trivial⟩
  | a :: b :: l, t, h, hn => by
    have hne : a ≠ t := by
      intro e
      rw [e] at hn
      simp at hn
    exact ⟨by simp only [setNext, if_neg hne]; exact h.1, Linked.snoc (l := b :: l) h.2 (by simpa using (List.nodup_cons.mp hn).2)⟩

theorem walk_linked {next : Nat → Option Nat} : ∀ {l : List Nat} {t f : Nat}, Linked next (l ++ [t]) → (l ++ [t]).Nodup → l.length + 1 ≤ f →
    walk (setNext next t none) f (l ++ [t]).head? = some (l ++ [t])
  | [], t, f + 1, _, _, _ => by
    simp only [List.nil_append, List.head?_cons, walk, setNext, if_pos]
    cases f <;> rfl
  | [a], t, f + 1, h, hn, hf => by
    have hne : a ≠ t := by simpa using hn
    have ih := walk_linked (next := next) (l := []) (t := t) (f := f) trivial (by simp) (by simpa using hf)
    have h1 : next a = some t := h.1
    simp only [List.cons_append, List.nil_append, List.head?_cons, walk]
    rw [show setNext next t none a = some t by simp only [setNext, if_neg hne]; exact h1]
    have ih' : walk (setNext next t none) f (some t) = some [t] := ih
    rw [ih']
    rfl
  | a :: b :: l, t, f + 1, h, hn, hf => by
    have hne : a ≠ t := by
      intro e
      rw [e] at hn
      simp at hn
    have ih := walk_linked (next := next) (l := b :: l) (t := t) (f := f) h.2 (by simpa using (List.nodup_cons.mp hn).2) (by simpa using hf)
    have h1 : next a = some b := h.1
    simp only [List.cons_append, List.head?_cons, walk]
    rw [show setNext next t none a = some b by simp only [setNext, if_neg hne]; exact h1]
    have ih' : walk (setNext next t none) f (some b) = some (b :: (l ++ [t])) := ih
    rw [ih']
    rfl

/-- The invariant. -/
structure Inv (c : Shape) (s : St) (chain : List Nat) (g1 g2 : List (Nat × Option (List UInt8))) : Prop where
  all : (chain ++ (s.pending.toList ++ (g1.map Prod.fst ++ (g2.map Prod.fst ++ s.rq)))).Perm (List.range c.n)
  wcs : s.wcs = g1.map comp
  cq : s.cq = g2.map comp
  stored : ∀ x ∈ g1 ++ g2, ∀ d, x.2 = some d → Mprq.bytes s.mem (x.1 * c.raw) d.length = d ∧ d.length ≤ c.len
  acc : s.accepted = s.out ++ (g1 ++ g2).filterMap Prod.snd
  head : s.head = chain.head?
  tail : s.tail = chain.getLast?
  link : Linked s.next chain
  cur : s.cur = chain.length
  batch : chain.length < c.postBatch
  view : ∀ p l, s.view = some (p, l) → ∃ i d, s.pending = some i ∧ p = i * c.raw ∧ l = d.length ∧ d.length ≤ c.len ∧ Mprq.bytes s.mem p l = d ∧ s.out.getLast? = some d

theorem postBatch_pos (c : Shape) : 1 ≤ c.postBatch := by
  unfold Shape.postBatch Mprq.clamp
  split
  · omega
  · split <;> omega

theorem Inv.init {c : Shape} (mem : Nat → UInt8) : Inv c (St.init c mem) [] [] [] where
  all := by simp [St.init]
  wcs := rfl
  cq := rfl
  stored := by simp
  acc := rfl
  head := rfl
  tail := rfl
  link := trivial
  cur := rfl
  batch := postBatch_pos c
  view := by intro p l h; cases h

section
variable {c : Shape} {s : St} {chain : List Nat} {g1 g2 : List (Nat × Option (List UInt8))}

theorem Inv.nodup (h : Inv c s chain g1 g2) : (chain ++ (s.pending.toList ++ (g1.map Prod.fst ++ (g2.map Prod.fst ++ s.rq)))).Nodup :=
  h.all.nodup_iff.mpr List.nodup_range

theorem Inv.lt (h : Inv c s chain g1 g2) {i : Nat} (hi : i ∈ chain ++ (s.pending.toList ++ (g1.map Prod.fst ++ (g2.map Prod.fst ++ s.rq)))) : i < c.n :=
  List.mem_range.mp (h.all.mem_iff.mp hi)

theorem Inv.count (h : Inv c s chain g1 g2) : chain.length + (s.pending.toList.length + (g1.length + (g2.length + s.rq.length))) = c.n := by
  have := h.all.length_eq
  simpa using this

/-- Slots do not overlap. -/
theorem apart {raw len i j l l' : Nat} (hl : len ≤ raw) (h1 : l ≤ len) (h2 : l' ≤ len) (h : i ≠ j) : i * raw + l ≤ j * raw ∨ j * raw + l' ≤ i * raw := by
  rcases Nat.lt_or_gt_of_ne h with h | h
  · left
    have := Nat.mul_le_mul_right raw (show i + 1 ≤ j from h)
    rw [Nat.succ_mul] at this
    omega
  · right
    have := Nat.mul_le_mul_right raw (show j + 1 ≤ i from h)
    rw [Nat.succ_mul] at this
    omega

theorem Inv.post (h : Inv c s chain g1 g2) (hne : chain ≠ []) : ∃ s', s.post c = some s' ∧ Inv c s' [] g1 g2 := by
  obtain ⟨l, t, rfl⟩ : ∃ l t, chain = l ++ [t] := ⟨chain.dropLast, chain.getLast hne, (List.dropLast_append_getLast hne).symm⟩
  have hn : (l ++ [t]).Nodup := (List.nodup_append.mp h.nodup).1
  have hc := h.count
  rw [List.length_append, List.length_singleton] at hc
  have hw := walk_linked (f := c.n) h.link hn (by omega)
  have ht : s.tail = some t := by rw [h.tail]; simp
  refine ⟨{ s with next := setNext s.next t none, rq := s.rq ++ (l ++ [t]), cur := 0, head := none, tail := none }, ?_, ?_⟩
  · unfold St.post
    rw [ht, h.head]
    simp only [hw]
    rw [if_neg (by simp only [List.length_append, List.length_singleton]; omega)]
  · refine { h with all := ?_, head := rfl, tail := rfl, link := trivial, cur := rfl, batch := postBatch_pos c }
    have p := h.all
    refine List.Perm.trans ?_ p
    show ([] ++ (s.pending.toList ++ (g1.map Prod.fst ++ (g2.map Prod.fst ++ (s.rq ++ (l ++ [t])))))).Perm _
    rw [List.nil_append]
    have e : s.pending.toList ++ (g1.map Prod.fst ++ (g2.map Prod.fst ++ (s.rq ++ (l ++ [t])))) =
        (s.pending.toList ++ (g1.map Prod.fst ++ (g2.map Prod.fst ++ s.rq))) ++ (l ++ [t]) := by simp [List.append_assoc]
    rw [e]
    exact List.perm_append_comm

theorem inv_step (ok : c.Ok) (h : Inv c s chain g1 g2) (op : Op) : ∃ s' chain' g1' g2', s.step c op = some s' ∧ Inv c s' chain' g1' g2' := by
  have hc := h.count
  cases op with
  | frame data =>
    unfold St.step
    simp only
    split
    · exact ⟨s, chain, g1, g2, rfl, h⟩
    · rename_i i rq hrq
      split
      · exact ⟨s, chain, g1, g2, rfl, h⟩
      · rename_i hlen
        have hlen : data.length ≤ c.len := by omega
        have hcq : s.cq.length = g2.length := by rw [h.cq, List.length_map]
        have hr : s.rq.length = rq.length + 1 := by rw [hrq]; rfl
        rw [if_neg (by omega)]
        have hnd := h.nodup
        rw [hrq] at hnd
        have hne : ∀ j ∈ chain ++ (s.pending.toList ++ (g1.map Prod.fst ++ g2.map Prod.fst)), j ≠ i := by
          intro j hj e
          rw [e] at hj
          have e2 : chain ++ (s.pending.toList ++ (g1.map Prod.fst ++ (g2.map Prod.fst ++ (i :: rq)))) =
              (chain ++ (s.pending.toList ++ (g1.map Prod.fst ++ g2.map Prod.fst))) ++ (i :: rq) := by simp [List.append_assoc]
          rw [e2] at hnd
          exact (List.nodup_append.mp hnd).2.2 i hj i (by simp) rfl
        refine ⟨_, chain, g1, g2 ++ [(i, some data)], rfl, ?_⟩
        refine { h with all := ?_, cq := ?_, stored := ?_, acc := ?_, view := ?_ }
        · have := h.all
          rw [hrq] at this
          simpa [List.append_assoc] using this
        · show s.cq ++ _ = _
          rw [h.cq, List.map_append]
          rfl
        · intro x hx d hd
          rw [← List.append_assoc] at hx
          rcases List.mem_append.mp hx with hx | hx
          · obtain ⟨s1, s2⟩ := h.stored x hx d hd
            refine ⟨?_, s2⟩
            show Mprq.bytes (Mprq.write s.mem (i * c.raw) data) (x.1 * c.raw) d.length = d
            rw [Mprq.bytes_write_other _ (apart ok.len s2 hlen (hne x.1 ?_))]
            · exact s1
            · rcases List.mem_append.mp hx with hx | hx
              · exact List.mem_append_right _ (List.mem_append_right _ (List.mem_append_left _ (List.mem_map_of_mem hx)))
              · exact List.mem_append_right _ (List.mem_append_right _ (List.mem_append_right _ (List.mem_map_of_mem hx)))
          · rw [List.mem_singleton] at hx
            subst hx
            obtain rfl := Option.some.inj hd
            exact ⟨Mprq.bytes_write_self _ _ _, hlen⟩
        · show s.accepted ++ [data] = _
          rw [h.acc, ← List.append_assoc g1, List.filterMap_append]
          simp
        · intro p l hv
          obtain ⟨j, d, v1, v2, v3, v4, v5, v6⟩ := h.view p l hv
          refine ⟨j, d, v1, v2, v3, v4, ?_, v6⟩
          show Mprq.bytes (Mprq.write s.mem (i * c.raw) data) p l = d
          rw [v2, v3, Mprq.bytes_write_other _ (apart ok.len v4 hlen (hne j ?_)), ← v2, ← v3]
          · exact v5
          · rw [v1]
            simp
  | fail =>
    unfold St.step
    simp only
    split
    · exact ⟨s, chain, g1, g2, rfl, h⟩
    · rename_i i rq hrq
      have hcq : s.cq.length = g2.length := by rw [h.cq, List.length_map]
      have hr : s.rq.length = rq.length + 1 := by rw [hrq]; rfl
      rw [if_neg (by omega)]
      refine ⟨_, chain, g1, g2 ++ [(i, none)], rfl, ?_⟩
      refine { h with all := ?_, cq := ?_, stored := ?_, acc := ?_ }
      · have := h.all
        rw [hrq] at this
        simpa [List.append_assoc] using this
      · show s.cq ++ _ = _
        rw [h.cq, List.map_append]
        rfl
      · intro x hx d hd
        rw [← List.append_assoc] at hx
        rcases List.mem_append.mp hx with hx | hx
        · exact h.stored x hx d hd
        · rw [List.mem_singleton] at hx
          subst hx
          cases hd
      · show s.accepted = _
        rw [h.acc, ← List.append_assoc g1, List.filterMap_append]
        simp
  | poll k =>
    unfold St.step
    simp only
    split
    · exact ⟨s, chain, g1, g2, rfl, h⟩
    · rename_i hg
      simp only [Bool.or_eq_true, not_or, Bool.not_eq_true, Option.isSome_eq_false_iff, Option.isNone_iff_eq_none, Bool.not_eq_false', List.isEmpty_iff] at hg
      obtain ⟨⟨⟨-, -⟩, -⟩, hw⟩ := hg
      have hg1 : g1 = [] := List.map_eq_nil_iff.mp (by rw [← h.wcs, hw])
      subst hg1
      refine ⟨_, chain, g2.take (min k c.n), g2.drop (min k c.n), rfl, ?_⟩
      refine { h with all := ?_, wcs := ?_, cq := ?_, stored := ?_, acc := ?_ }
      · have := h.all
        show (chain ++ (s.pending.toList ++ ((g2.take (min k c.n)).map Prod.fst ++ ((g2.drop (min k c.n)).map Prod.fst ++ s.rq)))).Perm _
        rw [← List.append_assoc ((g2.take (min k c.n)).map Prod.fst), ← List.map_append, List.take_append_drop]
        exact this
      · show s.cq.take _ = _
        rw [h.cq, List.map_take]
      · show s.cq.drop _ = _
        rw [h.cq, List.map_drop]
      · rw [List.take_append_drop]
        exact h.stored
      · rw [List.take_append_drop]
        exact h.acc
  | look =>
    unfold St.step
    simp only
    split
    · exact ⟨s, chain, g1, g2, rfl, h⟩
    · rename_i hg
      simp only [Bool.or_eq_true, not_or, Bool.not_eq_true, Option.isSome_eq_false_iff, Option.isNone_iff_eq_none] at hg
      have hw := h.wcs
      have hv0 : ∀ p l, s.view = some (p, l) → False := by
        intro p l hv
        obtain ⟨i, _, e, _⟩ := h.view p l hv
        rw [hg.2] at e
        cases e
      cases g1 with
      | nil =>
        rw [hw]
        exact ⟨s, chain, [], g2, rfl, h⟩
      | cons x g1 =>
        have hmem : x.1 ∈ chain ++ (s.pending.toList ++ ((x :: g1).map Prod.fst ++ (g2.map Prod.fst ++ s.rq))) := by simp
        have hx := h.lt hmem
        obtain ⟨i, d⟩ := x
        have hall : (chain ++ ((some i).toList ++ (g1.map Prod.fst ++ (g2.map Prod.fst ++ s.rq)))).Perm (List.range c.n) := by
          have := h.all
          rw [hg.2] at this
          simpa using this
        have hst : ∀ x ∈ g1 ++ g2, ∀ d, x.2 = some d → Mprq.bytes s.mem (x.1 * c.raw) d.length = d ∧ d.length ≤ c.len :=
          fun y hy => h.stored y (by simpa using Or.inr (List.mem_append.mp hy))
        cases d with
        | none =>
          rw [hw]
          simp only [List.map_cons, comp, Option.map_none]
          rw [if_neg (Nat.not_le.mpr hx)]
          refine ⟨_, chain, g1, g2, rfl, ?_⟩
          refine { h with all := hall, wcs := rfl, stored := hst, acc := ?_, view := ?_ }
          · show s.accepted = _
            rw [h.acc]
            rfl
          · intro p l hv
            exact (hv0 p l hv).elim
        | some d =>
          rw [hw]
          simp only [List.map_cons, comp, Option.map_some]
          rw [if_neg (Nat.not_le.mpr hx)]
          obtain ⟨s1, s2⟩ := h.stored (i, some d) (by simp) d rfl
          refine ⟨_, chain, g1, g2, rfl, ?_⟩
          refine { h with all := hall, wcs := rfl, stored := hst, acc := ?_, view := ?_ }
          · show s.accepted = (s.out ++ [Mprq.bytes s.mem (i * c.raw) d.length]) ++ _
            rw [h.acc, s1]
            simp
          · intro p l hv
            obtain ⟨rfl, rfl⟩ := Prod.mk.inj (Option.some.inj hv)
            exact ⟨i, d, rfl, rfl, rfl, s2, s1, by simp [s1]⟩
  | done =>
    unfold St.step
    simp only
    split
    · exact ⟨s, chain, g1, g2, rfl, h⟩
    · cases hp : s.pending with
      | none => exact ⟨s, chain, g1, g2, rfl, h⟩
      | some i =>
        have hnd := h.nodup
        rw [hp] at hnd
        have hn : (chain ++ [i]).Nodup := by
          have e : chain ++ ((some i).toList ++ (g1.map Prod.fst ++ (g2.map Prod.fst ++ s.rq))) = (chain ++ [i]) ++ (g1.map Prod.fst ++ (g2.map Prod.fst ++ s.rq)) := by simp
          rw [e] at hnd
          exact (List.nodup_append.mp hnd).1
        have hall : ((chain ++ [i]) ++ ((none : Option Nat).toList ++ (g1.map Prod.fst ++ (g2.map Prod.fst ++ s.rq)))).Perm (List.range c.n) := by
          have := h.all
          rw [hp] at this
          simpa using this
        have key : ∀ s1 : St, s1 = { s with pending := none, view := none, cur := s.cur + 1, head := s1.head, tail := s1.tail, next := s1.next } →
            s1.head = (chain ++ [i]).head? → s1.tail = some i → Linked s1.next (chain ++ [i]) →
            ∃ s' chain' g1' g2', (if s1.cur = c.postBatch then s1.post c else some s1) = some s' ∧ Inv c s' chain' g1' g2' := by
          intro s1 e1 e2 e3 e4
          have hcur : s1.cur = chain.length + 1 := by rw [e1, ← h.cur]
          have hbase : (chain ++ [i]).length < c.postBatch → Inv c s1 (chain ++ [i]) g1 g2 := by
            intro hlt
            refine ⟨?_, ?_, ?_, ?_, ?_, e2, by rw [e3]; simp, e4, by rw [hcur]; simp, hlt, ?_⟩
            · rw [e1]; exact hall
            · rw [e1]; exact h.wcs
            · rw [e1]; exact h.cq
            · rw [e1]; exact h.stored
            · rw [e1]; exact h.acc
            · intro p l hv
              rw [e1] at hv
              cases hv
          split
          · -- the batch is full: the invariant but for the bound
            obtain ⟨s', q1, q2⟩ := (show ∃ s', s1.post c = some s' ∧ Inv c s' [] g1 g2 from by
              have hcl := h.count
              rw [hp] at hcl
              have hcl : chain.length + (1 + (g1.length + (g2.length + s.rq.length))) = c.n := hcl
              have hw := walk_linked (f := c.n) e4 hn (by omega)
              have hrq : s1.rq = s.rq := by rw [e1]
              refine ⟨{ s1 with next := setNext s1.next i none, rq := s1.rq ++ (chain ++ [i]), cur := 0, head := none, tail := none }, ?_, ?_⟩
              · unfold St.post
                rw [e3, e2]
                simp only [hw]
                rw [if_neg (by rw [hrq]; simp only [List.length_append, List.length_singleton]; omega)]
              · refine ⟨?_, ?_, ?_, ?_, ?_, rfl, rfl, trivial, rfl, postBatch_pos c, ?_⟩
                · show ([] ++ (s1.pending.toList ++ (g1.map Prod.fst ++ (g2.map Prod.fst ++ (s1.rq ++ (chain ++ [i])))))).Perm _
                  rw [hrq, show s1.pending = none by rw [e1]]
                  refine List.Perm.trans ?_ hall
                  have e : ([] : List Nat) ++ ((none : Option Nat).toList ++ (g1.map Prod.fst ++ (g2.map Prod.fst ++ (s.rq ++ (chain ++ [i]))))) =
                      ((none : Option Nat).toList ++ (g1.map Prod.fst ++ (g2.map Prod.fst ++ s.rq))) ++ (chain ++ [i]) := by simp [List.append_assoc]
                  rw [e]
                  exact List.perm_append_comm
                · show s1.wcs = _
                  rw [e1]; exact h.wcs
                · show s1.cq = _
                  rw [e1]; exact h.cq
                · show ∀ x ∈ g1 ++ g2, ∀ d, x.2 = some d → Mprq.bytes s1.mem (x.1 * c.raw) d.length = d ∧ d.length ≤ c.len
                  rw [e1]; exact h.stored
                · show s1.accepted = s1.out ++ _
                  rw [e1]; exact h.acc
                · intro p l hv
                  have hv : s1.view = some (p, l) := hv
                  rw [e1] at hv
                  cases hv)
            exact ⟨s', [], g1, g2, q1, q2⟩
          · rename_i hne
            have := h.batch
            exact ⟨s1, chain ++ [i], g1, g2, rfl, hbase (by rw [List.length_append, List.length_singleton]; omega)⟩
        cases ht : s.tail with
        | none =>
          have hch : chain = [] := by
            have := h.tail
            rw [ht] at this
            exact List.getLast?_eq_none_iff.mp this.symm
          subst hch
          exact key { s with pending := none, view := none, cur := s.cur + 1, head := some i, tail := some i } rfl rfl rfl trivial
        | some t =>
          have hlast : chain.getLast? = some t := by rw [← h.tail, ht]
          have hne : chain ≠ [] := by rintro rfl; cases hlast
          obtain ⟨l, rfl⟩ : ∃ l, chain = l ++ [t] := by
            refine ⟨chain.dropLast, ?_⟩
            rw [List.getLast?_eq_some_getLast hne] at hlast
            rw [← Option.some.inj hlast]
            exact (List.dropLast_append_getLast hne).symm
          refine key { s with pending := none, view := none, cur := s.cur + 1, next := setNext s.next t (some i), tail := some i } rfl ?_ rfl ?_
          · show s.head = _
            rw [h.head, List.head?_append_of_ne_nil _ hne]
          · exact Linked.snoc h.link (List.nodup_append.mp hn).1
  | finish =>
    unfold St.step
    simp only
    split
    · exact ⟨s, chain, g1, g2, rfl, h⟩
    · rename_i hg
      simp only [Bool.or_eq_true, not_or, Bool.not_eq_true, Option.isSome_eq_false_iff, Option.isNone_iff_eq_none, Option.isNone_eq_false_iff] at hg
      have hne : chain ≠ [] := by
        rintro rfl
        have := hg.2
        rw [h.head] at this
        exact this rfl
      obtain ⟨s', h1, h2⟩ := h.post hne
      exact ⟨s', [], g1, g2, h1, h2⟩
  | stop =>
    unfold St.step
    simp only
    split
    · refine ⟨_, chain, g1, g2, rfl, { h with view := ?_ }⟩
      intro p l hv
      cases hv
    · exact ⟨s, chain, g1, g2, rfl, h⟩

end

theorem inv_run {c : Shape} (ok : c.Ok) : ∀ (ops : List Op) {s : St} {chain : List Nat} {g1 g2 : List (Nat × Option (List UInt8))}, Inv c s chain g1 g2 →
    ∃ s' chain' g1' g2', s.run c ops = some s' ∧ Inv c s' chain' g1' g2'
  | [], s, chain, g1, g2, h => ⟨s, chain, g1, g2, rfl, h⟩
  | op :: ops, s, chain, g1, g2, h => by
    obtain ⟨s1, c1, a1, b1, h1, h2⟩ := inv_step ok h op
    obtain ⟨s2, c2, a2, b2, h3, h4⟩ := inv_run ok ops h2
    exact ⟨s2, c2, a2, b2, by rw [St.run, h1]; exact h3, h4⟩

end Spead2.Slots
