import Verif.Lemmas.RingStreamInv

/-!
# Progress of streams that put heaps in a ring buffer
-/

namespace Spead2
open Spec

variable {cfg : RsConfig} {cap : Nat} {t : Nat} {k : RKind} {p p' : RsPc} {pc pc' : RPc Entry} {ev tr : List RsEv} {c : RsCall} {s s' : RsState}

/-- Operations on the stream still to be started. -/
def rsPrim : RsPc → Nat
  | .stopRing => 2 | .lock _ => 1 | _ => 0

/-- Actions left in a push. -/
def rsPushW (first : Nat) : RPc Entry → Nat
  | .getSpace _ _ => first | .fullCheck => 8 | .emplace _ => 5 | _ => 1

/-- Actions left after the heaps in hand. -/
def rsTail (hs : List Entry) (fin : Bool) : Nat := 10 * hs.length + if fin then 6 else 1

/-- Actions left in a stop. -/
def rsStopW : RPc Entry → Nat
  | .stopTail _ => 4 | .stopHead _ => 3 | .stopSpace => 2 | .stopData => 1 | _ => 0

/-- Actions left in a pop. -/
def rsPopW : RPc Entry → Nat
  | .getData _ => 3 | .popInternal => 2 | .putSpace _ => 4 | .backData => 1 | .emptyCheck => 1 | _ => 0

/-- Actions left; a heap in the ring buffer counts 3. -/
def rsSec : RsPc → RPc Entry → Nat
  | .deliver hs fin, _ => rsTail hs fin
  | .tryPush _ hs fin, pc => rsTail hs fin + rsPushW 9 pc
  | .retry _ hs fin, _ => rsTail hs fin + 7
  | .push _ hs fin, pc => rsTail hs fin + rsPushW 6 pc
  | .sealing, pc => rsStopW pc
  | .stopRing, pc => rsStopW pc
  | .pop _, pc => rsPopW pc
  | .popLive _, pc => rsPopW pc
  | _, _ => 0

theorem RsRule.decreases {st st' : Stream} (r : RsRule cfg t st st' k p pc p' pc' ev) : rsPrim p' < rsPrim p ∨
    (rsPrim p' = rsPrim p ∧ rsSec p' pc' + 3 * (pushed (ringEvs ev)).length < rsSec p pc + 3 * (popped (ringEvs ev)).length) := by
  cases r <;> (try casesm* Pushing _ _ _ _ _, Stopping _, Popping _ _, _ ∧ _) <;> (try subst_vars) <;>
    simp [rsPrim, rsSec, rsTail, rsPushW, rsStopW, rsPopW, ringEvs, pushed, popped] <;> omega

/-- Sums over the threads. -/
def rsPrimOf (s : RsState) : Nat := (s.progs.map rsPrim).sum
def rsSecOf (s : RsState) (tr : List RsEv) : Nat :=
  (List.zipWith rsSec s.progs s.ring.threads).sum + 3 * ((pushed (ringEvs tr)).length - (popped (ringEvs tr)).length)

theorem sum_set_eq : ∀ {l : List Nat} {i x : Nat}, l[i]? = some x → ∀ y, (l.set i y).sum + x = l.sum + y
  | [], i, x, h => by simp at h
  | z :: l, 0, x, h => by intro y; simp at h; subst h; simp; omega
  | z :: l, i + 1, x, h => by
    intro y
    rw [List.getElem?_cons_succ] at h
    have := sum_set_eq h y
    simp
    omega

theorem zipWith_set_eq {α β γ : Type} (f : α → β → γ) : ∀ (l : List α) (m : List β) (i : Nat) (a : α) (b : β), List.zipWith f (l.set i a) (m.set i b) = (List.zipWith f l m).set i (f a b)
  | [], m, i, a, b => by simp
  | x :: l, [], i, a, b => by cases i <;> simp
  | x :: l, y :: m, 0, a, b => by simp
  | x :: l, y :: m, i + 1, a, b => by simp [zipWith_set_eq f l m i a b]

theorem RsInv.flowLen (inv : RsInv cfg cap s tr) : (popped (ringEvs tr)).length ≤ (pushed (ringEvs tr)).length := by
  obtain ⟨q, e, e', sys⟩ := inv.sys
  rw [← sys.inv.flow, List.length_append]
  omega

theorem move_decreases (inv : RsInv cfg cap s tr) (inv' : RsInv cfg cap s' (tr ++ ev)) (hp : s.progs[t]? = some p) (hpc : s.ring.threads[t]? = some pc)
    (r : RsRule cfg t s.stream s'.stream k p pc p' pc' ev) (eff : RsEff s s' t p' pc' ev) :
    rsPrimOf s' < rsPrimOf s ∨ (rsPrimOf s' = rsPrimOf s ∧ rsSecOf s' (tr ++ ev) < rsSecOf s tr) := by
  have h1 : rsPrimOf s' + rsPrim p = rsPrimOf s + rsPrim p' := by
    unfold rsPrimOf
    rw [eff.progs, List.map_set]
    exact sum_set_eq (by rw [List.getElem?_map, hp]; rfl) _
  have h2 : (List.zipWith rsSec s'.progs s'.ring.threads).sum + rsSec p pc = (List.zipWith rsSec s.progs s.ring.threads).sum + rsSec p' pc' := by
    rw [eff.progs, eff.threads, zipWith_set_eq]
    exact sum_set_eq (by rw [List.getElem?_zipWith, hp, hpc]) _
  have h3 := inv.flowLen
  have h4 := inv'.flowLen
  have h5 : (pushed (ringEvs (tr ++ ev))).length = (pushed (ringEvs tr)).length + (pushed (ringEvs ev)).length := by rw [ringEvs_append, pushed_append, List.length_append]
  have h6 : (popped (ringEvs (tr ++ ev))).length = (popped (ringEvs tr)).length + (popped (ringEvs ev)).length := by rw [ringEvs_append, popped_append, List.length_append]
  unfold rsSecOf
  rcases r.decreases with h | ⟨h, h'⟩ <;> omega

/-- No thread can act. -/
def AllStuck (s : RsState) : Prop := ∀ (t : Nat) (p : RsPc) (pc : RPc Entry), s.progs[t]? = some p → s.ring.threads[t]? = some pc → Stuck s p pc

def RsLt (s' s : RsState) (tr' tr : List RsEv) : Prop := rsPrimOf s' < rsPrimOf s ∨ (rsPrimOf s' = rsPrimOf s ∧ rsSecOf s' tr' < rsSecOf s tr)

theorem act_valid (t : Nat) : ∀ t' c, RsOp.act t = .call t' c → c.Valid := by intro t' c h; cases h

theorem rs_act_cases (hm : 0 < cfg.stream.maxHeaps) (hsub : 0 < cfg.stream.substreams) (inv : RsInv cfg cap s tr) (t : Nat) :
    (s.step cfg (.act t) = some (s, []) ∧ ∀ p pc, s.progs[t]? = some p → s.ring.threads[t]? = some pc → Stuck s p pc) ∨
    (∃ s' ev, s.step cfg (.act t) = some (s', ev) ∧ RsInv cfg cap s' (tr ++ ev) ∧ s'.progs.length = s.progs.length ∧ RsLt s' s (tr ++ ev) tr) := by
  cases hs : s.step cfg (.act t) with
  | none => exact absurd hs (rs_step_total hm hsub inv _)
  | some q =>
    obtain ⟨s', ev⟩ := q
    have inv' := rs_step_inv hm hsub inv (act_valid t) hs
    have hs' := hs
    simp only [RsState.step] at hs
    split at hs
    · rename_i hp
      cases hs
      left
      exact ⟨rfl, fun p pc h => by rw [hp] at h; cases h⟩
    · rename_i p hp
      obtain ⟨pc, hpc, hcm⟩ := inv.thread hp
      rcases act_rule hp hpc hcm hs with ⟨rfl, rfl, h3⟩ | ⟨⟨k, p', pc', r, ho, eff⟩, -⟩
      · left
        exact ⟨rfl, fun p2 pc2 h1 h2 => by rw [hp] at h1; rw [hpc] at h2; cases h1; cases h2; exact h3⟩
      · right
        exact ⟨s', ev, rfl, inv', by rw [eff.progs, List.length_set], move_decreases inv inv' hp hpc r eff⟩

theorem rsActs_succ (sched : Nat → Nat) (n : Nat) : rsActs sched (n + 1) = .act (sched 0) :: rsActs (fun k => sched (k + 1)) n := by
  simp only [rsActs, List.range_succ_eq_map, List.map_cons, List.map_map]
  rfl

theorem rsActs_add (sched : Nat → Nat) (n k : Nat) : rsActs sched (n + k) = rsActs sched n ++ rsActs (fun x => sched (n + x)) k := by
  simp only [rsActs, List.range_add, List.map_append, List.map_map]
  rfl

theorem rs_run_append : ∀ {a b : List RsOp} {s s1 s2 : RsState} {e1 e2 : List RsEv}, RsState.run cfg a s = some (s1, e1) → RsState.run cfg b s1 = some (s2, e2) →
    RsState.run cfg (a ++ b) s = some (s2, e1 ++ e2)
  | [], b, s, s1, s2, e1, e2, h1, h2 => by cases h1; exact h2
  | op :: a, b, s, s1, s2, e1, e2, h1, h2 => by
    simp only [RsState.run] at h1
    cases hs : s.step cfg op with
    | none => rw [hs] at h1; cases h1
    | some q =>
      obtain ⟨s3, e3⟩ := q
      rw [hs] at h1
      dsimp only at h1
      cases hr : RsState.run cfg a s3 with
      | none => rw [hr] at h1; cases h1
      | some q =>
        obtain ⟨s4, e4⟩ := q
        rw [hr] at h1
        cases h1
        simp only [List.cons_append, RsState.run, hs, rs_run_append hr h2, List.append_assoc]

theorem rs_first_effective (hm : 0 < cfg.stream.maxHeaps) (hsub : 0 < cfg.stream.substreams) (inv : RsInv cfg cap s tr) : ∀ (k : Nat) (sched : Nat → Nat) {p : RsPc} {pc : RPc Entry},
    s.progs[sched k]? = some p → s.ring.threads[sched k]? = some pc → ¬ Stuck s p pc →
    ∃ n s' ev, RsState.run cfg (rsActs sched n) s = some (s', ev) ∧ RsInv cfg cap s' (tr ++ ev) ∧ s'.progs.length = s.progs.length ∧ RsLt s' s (tr ++ ev) tr
  | 0, sched, p, pc, h1, h2, h3 => by
    rcases rs_act_cases hm hsub inv (sched 0) with ⟨-, h⟩ | ⟨s', ev, h4, h5⟩
    · exact absurd (h p pc h1 h2) h3
    · exact ⟨1, s', ev, by rw [rsActs_succ]; simp [RsState.run, h4, rsActs], h5⟩
  | k + 1, sched, p, pc, h1, h2, h3 => by
    rcases rs_act_cases hm hsub inv (sched 0) with ⟨h, -⟩ | ⟨s', ev, h4, h5⟩
    · obtain ⟨n, s', ev, h6, h7⟩ := rs_first_effective hm hsub inv k (fun x => sched (x + 1)) h1 h2 h3
      exact ⟨n + 1, s', ev, by rw [rsActs_succ]; simp only [RsState.run, h, h6, List.nil_append], h7⟩
    · exact ⟨1, s', ev, by rw [rsActs_succ]; simp [RsState.run, h4, rsActs], h5⟩

theorem rs_fair (hm : 0 < cfg.stream.maxHeaps) (hsub : 0 < cfg.stream.substreams) (m : Nat × Nat) : ∀ {s : RsState} {tr : List RsEv}, RsInv cfg cap s tr → (rsPrimOf s, rsSecOf s tr) = m →
    ∀ (sched : Nat → Nat), FairTo s.progs.length sched →
    ∃ n s' ev, RsState.run cfg (rsActs sched n) s = some (s', ev) ∧ RsInv cfg cap s' (tr ++ ev) ∧ s'.progs.length = s.progs.length ∧ AllStuck s' := by
  induction m using WellFounded.induction (Prod.lex Nat.lt_wfRel Nat.lt_wfRel).wf with
  | _ m ih =>
    intro s tr inv hms sched hf
    by_cases hall : AllStuck s
    · exact ⟨0, s, [], rfl, by simpa using inv, rfl, hall⟩
    · unfold AllStuck at hall
      simp only [Classical.not_forall] at hall
      obtain ⟨t, p, pc, hp, hpc, hns⟩ := hall
      obtain ⟨k, -, hk⟩ := hf t (List.getElem?_eq_some_iff.mp hp).1 0
      obtain ⟨n, s1, e1, hr, inv1, hl, hlt⟩ := rs_first_effective hm hsub inv k sched (by rw [hk]; exact hp) (by rw [hk]; exact hpc) hns
      obtain ⟨n2, s2, e2, r1, r2, r3, r4⟩ := ih (rsPrimOf s1, rsSecOf s1 (tr ++ e1)) (by
          rw [← hms]
          rcases hlt with h | ⟨h, h'⟩
          · exact Prod.Lex.left _ _ h
          · show Prod.Lex _ _ _ _
            rw [h]; exact Prod.Lex.right _ h') inv1 rfl (fun x => sched (n + x)) (by
        intro i hi x
        obtain ⟨a, ha1, ha⟩ := hf i (by rw [← hl]; exact hi) (n + x)
        exact ⟨a - n, by omega, by show sched (n + (a - n)) = _; rw [show n + (a - n) = a by omega]; exact ha⟩)
      exact ⟨n + n2, s2, e1 ++ e2, by rw [rsActs_add]; exact rs_run_append hr r1, by rw [← List.append_assoc]; exact r2, r3.trans hl, r4⟩

/-- What a state in which nobody can act looks like. -/
theorem RsInv.settled (inv : RsInv cfg cap s tr) (h : AllStuck s) (t : Nat) (ht : t < s.progs.length) :
    RsIdle s t ∨ (RsPopWaits s t ∧ contents s.ring.ring = [] ∧ isClosed (ringEvs tr) = false) ∨
    (RsPushWaits s t ∧ (contents s.ring.ring).length = cap ∧ isClosed (ringEvs tr) = false) ∨
    (RsLockWaits s t ∧ ∃ t', RsPushWaits s t' ∧ (contents s.ring.ring).length = cap ∧ isClosed (ringEvs tr) = false) := by
  have idle : ∀ pc ∈ s.ring.threads, pc = .idle ∨ Waits s.ring.ring pc := by
    intro pc hmem
    obtain ⟨i, hi⟩ := List.getElem?_of_mem hmem
    have hlt : i < s.progs.length := by rw [inv.len]; exact (List.getElem?_eq_some_iff.mp hi).1
    have hp := List.getElem?_eq_getElem hlt
    have hc := inv.compat i _ pc hp hi
    rcases h i _ pc hp hi with h1 | ⟨op, h1, -⟩ | h1
    · rw [h1] at hc; exact Or.inl hc
    · rw [h1] at hc; exact Or.inl hc
    · exact Or.inr h1
  obtain ⟨q, e, e', sys⟩ := inv.sys
  obtain ⟨w1, w2⟩ := sys.no_lost_wakeup idle
  have pusher : ∀ i p pc, s.progs[i]? = some p → s.ring.threads[i]? = some pc → holds p = true → RsPushWaits s i := by
    intro i p pc hp hpc hh
    have hc := inv.compat i p pc hp hpc
    refine ⟨inv.mutex i p hp hh, ?_⟩
    rcases h i p pc hp hpc with h1 | ⟨op, h1, -⟩ | h1
    · rw [h1] at hh; cases hh
    · rw [h1] at hh; cases hh
    · rcases waits_cases h1 with ⟨v, hv⟩ | hv
      · exact ⟨v, by rw [hpc, hv]⟩
      · subst hv
        cases p <;> first | (cases hh; done) | (simp [Compat] at hc)
  have hp := List.getElem?_eq_getElem ht
  obtain ⟨pc, hpc, hc⟩ := inv.thread hp
  rcases h t _ pc hp hpc with h1 | ⟨op, h1, h2⟩ | h1
  · left; unfold RsIdle; rw [hp, h1]
  · right; right; right
    refine ⟨⟨op, by rw [hp, h1]⟩, ?_⟩
    cases ho : s.owner with
    | none => exact absurd ho h2
    | some i =>
      obtain ⟨p', h3, h4⟩ := inv.owner i ho
      obtain ⟨pc', h5, -⟩ := inv.thread h3
      have := pusher i p' pc' h3 h5 h4
      exact ⟨i, this, w1 i this.2⟩
  · right
    rcases waits_cases h1 with ⟨v, hv⟩ | hv
    · right; left
      have hh : holds s.progs[t] = true := by
        rw [hv] at hc
        revert hc
        cases s.progs[t] <;> simp [Compat, holds]
      have := pusher t _ pc hp hpc hh
      exact ⟨this, w1 t this.2⟩
    · left
      have hd : waitsForData s.ring t := by unfold waitsForData; rw [hpc, hv]
      refine ⟨⟨?_, hd⟩, w2 t hd⟩
      rw [hp]
      rw [hv] at hc
      revert hc
      cases s.progs[t] <;> simp [Compat] <;> intro h <;> simp [h]

end Spead2
