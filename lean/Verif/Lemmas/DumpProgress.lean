import Verif.Lemmas.DumpWriter
import Verif.Spec.DumpWriter
import Mathlib.Tactic.Ring

/-!
# Progress of the file writer of mcdump
-/

namespace Spead2.Dump

def workerW (B : Nat) : Worker → Nat
  | .idle => 1
  | .writing _ d => 2 + (B - d)
  | .finished => 0
  | .failed _ _ => 0

def pcW (B T : Nat) : Pc → Nat
  | .call => T + B + 10
  | .copy r => T + B + 11 + r.length * (B + 6)
  | .push r false => (B + 4) + (T + B + 11 + r.length * (B + 6))
  | .push _ true => (B + 4) + (T + 4)
  | .pop r false => 1 + (T + B + 11 + r.length * (B + 6))
  | .pop _ true => 1 + (T + 4)
  | .stopRing => T + 4
  | .join k => (T - k) + 3
  | .truncate => 2
  | .closed => 1
  | .threw => 1
  | _ => 0

def callsW (B : Nat) (calls : List (List UInt8)) : Nat := (calls.map (fun c => 2 + c.length * (B + 6))).sum

/-- What is left to do. -/
def weight (B : Nat) (s : St) : Nat :=
  pcW B s.workers.length s.pc + callsW B s.calls + s.ring.length * (B + 2) + (s.workers.map (workerW B)).sum

theorem sum_set {B : Nat} {l : List Worker} {t : Nat} {x y : Worker} (ht : l[t]? = some y) :
    ((l.set t x).map (workerW B)).sum + workerW B y = (l.map (workerW B)).sum + workerW B x := by
  induction l generalizing t with
  | nil => cases ht
  | cons a l ih =>
    cases t with
    | zero =>
      have : a = y := by simpa using ht
      subst this
      simp only [List.set_cons_zero, List.map_cons, List.sum_cons]
      omega
    | succ t =>
      have := ih (t := t) (by simpa using ht)
      simp only [List.set_cons_succ, List.map_cons, List.sum_cons]
      omega

theorem set_same {l : List Worker} {t : Nat} {y : Worker} (ht : l[t]? = some y) : l.set t y = l := by
  apply List.ext_getElem?
  intro j
  by_cases h : t = j
  · subst h
    rw [List.getElem?_set_self (List.getElem?_eq_some_iff.mp ht).1, ht]
  · rw [List.getElem?_set_ne h]

/-- The main thread moves unless it waits. -/
theorem main_weight {B D : Nat} {W : List UInt8} {s : St} (v : Inv B D W s) :
    mainStep B D s = s ∨ weight B (mainStep B D s) < weight B s := by
  unfold mainStep
  split
  · rename_i hpc
    refine Or.inr ?_
    unfold callStep
    split
    · rename_i c cs hc
      unfold weight callsW
      simp only [hpc, hc, pcW, List.map_cons, List.sum_cons]
      omega
    · split <;> · unfold weight; simp only [hpc, pcW]; omega
  · rename_i hpc
    refine Or.inr ?_
    unfold weight
    simp only [hpc, pcW]
    omega
  · rename_i rest hne hpc
    refine Or.inr ?_
    have hlt := v.curLt (by rw [hpc]; intro r c h; cases h) (by rw [hpc]; rfl)
    have hr : 0 < rest.length := List.length_pos_iff.mpr (by intro h; exact hne h)
    have hn : 1 ≤ min rest.length (B - s.cur.length) := by omega
    have hd : (rest.drop (min rest.length (B - s.cur.length))).length + min rest.length (B - s.cur.length) = rest.length := by
      rw [List.length_drop]; omega
    generalize hm : min rest.length (B - s.cur.length) = n at hn hd
    have hmul : rest.length * (B + 6) = (rest.drop n).length * (B + 6) + n * (B + 6) := by
      rw [← hd]; ring
    have hge : B + 6 ≤ n * (B + 6) := Nat.le_mul_of_pos_left _ hn
    unfold copyStep
    simp only [hm]
    split
    · unfold weight; simp only [hpc, pcW]; omega
    · unfold weight; simp only [hpc, pcW]; omega
  · rename_i rest c hpc
    unfold pushStep
    split
    · refine Or.inr ?_
      unfold weight
      simp only [hpc, List.length_append, List.length_cons, List.length_nil]
      have : (s.ring.length + (0 + 1)) * (B + 2) = s.ring.length * (B + 2) + (B + 2) := by ring
      rw [this]
      cases c <;> simp only [pcW] <;> omega
    · exact Or.inl rfl
  · rename_i rest c hpc
    unfold popStep
    split
    · exact Or.inl rfl
    · refine Or.inr ?_
      unfold weight
      cases c <;> simp only [hpc, pcW, if_true, Bool.false_eq_true, if_false] <;> omega
  · rename_i hpc
    refine Or.inr ?_
    unfold weight
    simp only [hpc, pcW]
    omega
  · rename_i k hpc
    unfold joinStep
    split
    · refine Or.inr ?_
      unfold weight
      simp only [hpc, pcW]
      omega
    · rename_i hk
      have := (List.getElem?_eq_some_iff.mp hk).1
      refine Or.inr ?_
      unfold weight
      simp only [hpc, pcW]
      omega
    · refine Or.inr ?_
      unfold weight
      simp only [hpc, pcW]
      omega
    · exact Or.inl rfl
  · rename_i hpc
    refine Or.inr ?_
    unfold weight
    simp only [hpc, pcW]
    omega
  · exact Or.inl rfl

theorem setWorker_weight {B : Nat} {s : St} {t : Nat} {y w : Worker} (ht : s.workers[t]? = some y) (ring free : List Buf)
    (file : List UInt8) (stop : Bool)
    (h : ring.length * (B + 2) + workerW B w < s.ring.length * (B + 2) + workerW B y) :
    weight B (setWorker { s with ring := ring, free := free, file := file, stop := stop } t w) < weight B s := by
  have := sum_set (B := B) (x := w) ht
  unfold weight setWorker
  simp only [List.length_set]
  omega

theorem take_weight {B : Nat} {s : St} {t : Nat} (ht : s.workers[t]? = some .idle) :
    takeStep s t = s ∧ s.ring = [] ∧ s.ringStopped = false ∨ weight B (takeStep s t) < weight B s := by
  unfold takeStep
  split
  · rename_i b r hr
    refine Or.inr (setWorker_weight ht r s.free s.file s.stop ?_)
    rw [hr]
    simp only [workerW, List.length_cons]
    have : (r.length + 1) * (B + 2) = r.length * (B + 2) + (B + 2) := by ring
    omega
  · rename_i hr
    split
    · exact Or.inr (setWorker_weight ht s.ring s.free s.file s.stop (by simp [workerW]))
    · rename_i h
      exact Or.inl ⟨rfl, hr, by simpa using h⟩

theorem wrote_weight {B : Nat} {s : St} {t : Nat} {b : Buf} {d : Nat} (ht : s.workers[t]? = some (.writing b d))
    (hd : d < B) (n : Nat) (hn : 0 < n) : weight B (pwriteStep B s t b d (.wrote n)) < weight B s := by
  refine setWorker_weight ht s.ring s.free _ s.stop ?_
  simp only [workerW]
  omega

theorem giveBack_weight {B D : Nat} {s : St} {t : Nat} {b : Buf} {d : Nat} (ht : s.workers[t]? = some (.writing b d)) :
    giveBack D s t b = s ∧ D ≤ s.free.length ∨ weight B (giveBack D s t b) < weight B s := by
  unfold giveBack
  split
  · refine Or.inr (setWorker_weight ht s.ring _ s.file s.stop ?_)
    simp only [workerW]
    omega
  · rename_i h
    exact Or.inl ⟨rfl, by omega⟩

/-- Every step either changes nothing or brings the end nearer. -/
theorem step_weight {B D : Nat} {W : List UInt8} {s : St} (v : Inv B D W s) (op : Op) :
    step B D s op = s ∨ weight B (step B D s op) < weight B s := by
  cases op with
  | main => exact main_weight v
  | destroy =>
    show destroyStep s = s ∨ weight B (destroyStep s) < _
    unfold destroyStep
    split
    · rename_i hpc
      refine Or.inr ?_
      unfold weight
      simp only [hpc, pcW]
      omega
    · rename_i hpc
      refine Or.inr ?_
      unfold weight
      simp only [hpc]
      split <;> simp only [pcW] <;> omega
    · exact Or.inl rfl
  | worker t a =>
    show workerStep B D s t a = s ∨ weight B (workerStep B D s t a) < _
    unfold workerStep
    split
    · rename_i ht
      rcases take_weight (B := B) ht with h | h
      · exact Or.inl h.1
      · exact Or.inr h
    · rename_i b d ht
      split
      · rename_i hd
        cases a with
        | eintr => exact Or.inl rfl
        | error =>
          refine Or.inr (setWorker_weight ht s.ring s.free s.file true ?_)
          simp only [workerW]
          omega
        | wrote n =>
          cases n with
          | succ n => exact Or.inr (wrote_weight ht hd (n + 1) (by omega))
          | zero =>
            refine Or.inl ?_
            show setWorker { s with file := pwrite s.file (b.offset + d) ((b.data.drop d).take (min 0 (B - d))) } t
              (.writing b (d + min 0 (B - d))) = s
            have hm : min 0 (B - d) = 0 := by omega
            rw [hm]
            unfold setWorker
            simp only [List.take_zero, pwrite, if_true, Nat.add_zero, set_same ht]
      · rcases giveBack_weight (B := B) (D := D) ht with h | h
        · exact Or.inl h.1
        · exact Or.inr h
    · exact Or.inl rfl

/-- Unless a write has failed, somebody can go on. -/
theorem helpful {B D : Nat} (hB : 0 < B) (hD : 0 < D) {W : List UInt8} {s : St} (v : Inv B D W s)
    (hw : s.workers ≠ []) (hf : ¬ Failed s) (hpc : s.pc ≠ .ended) :
    ∃ a : Actor, (∀ t, a = .worker t → t < s.workers.length) ∧
      ∀ op, Acts a op → weight B (step B D s op) < weight B s := by
  have hmain : mainStep B D s ≠ s → ∃ a : Actor, (∀ t, a = .worker t → t < s.workers.length) ∧
      ∀ op, Acts a op → weight B (step B D s op) < weight B s := by
    intro h
    refine ⟨.main, (by intro t h; cases h), ?_⟩
    rintro op rfl
    exact (main_weight v).resolve_left h
  have hwriting : ∀ (t : Nat) (b : Buf) (d : Nat), s.workers[t]? = some (Worker.writing b d) →
      ∃ a : Actor, (∀ t, a = .worker t → t < s.workers.length) ∧
      ∀ op, Acts a op → weight B (step B D s op) < weight B s := by
    intro t b d ht
    refine ⟨.worker t, (by intro t' h; cases h; exact (List.getElem?_eq_some_iff.mp ht).1), ?_⟩
    rintro op ⟨n, hn, rfl⟩
    show weight B (workerStep B D s t (.wrote n)) < _
    unfold workerStep
    rw [ht]
    simp only
    split
    · rename_i hd
      exact wrote_weight ht hd n hn
    · rcases giveBack_weight (B := B) (D := D) ht with h | h
      · have hc := v.count
        have hb : 0 < s.workers.countP busy :=
          List.countP_pos_iff.mpr ⟨_, List.mem_of_getElem? ht, rfl⟩
        omega
      · exact h
  have hidle : ∀ t : Nat, s.workers[t]? = some Worker.idle → (s.ring ≠ [] ∨ s.ringStopped = true) →
      ∃ a : Actor, (∀ t, a = .worker t → t < s.workers.length) ∧
      ∀ op, Acts a op → weight B (step B D s op) < weight B s := by
    intro t ht hr
    refine ⟨.worker t, (by intro t' h; cases h; exact (List.getElem?_eq_some_iff.mp ht).1), ?_⟩
    rintro op ⟨n, hn, rfl⟩
    show weight B (workerStep B D s t (.wrote n)) < _
    unfold workerStep
    rw [ht]
    simp only
    rcases take_weight (B := B) ht with ⟨_, h1, h2⟩ | h
    · rcases hr with hr | hr
      · exact absurd h1 hr
      · rw [h2] at hr; cases hr
    · exact h
  have ne : ∀ {s' : St}, s'.pc ≠ s.pc → s' ≠ s := by intro s' h he; exact h (by rw [he])
  cases hp : s.pc with
  | call =>
    apply hmain
    apply ne
    unfold mainStep callStep
    rw [hp]
    simp only
    split
    · simp
    · split <;> simp
  | copy r =>
    apply hmain
    cases r with
    | nil => apply ne; unfold mainStep; rw [hp]; simp
    | cons x xs =>
      intro he
      have hlt := v.curLt (by rw [hp]; intro r c h; cases h) (by rw [hp]; rfl)
      have : (mainStep B D s).pc = .copy (x :: xs) := by rw [he, hp]
      unfold mainStep copyStep at this
      rw [hp] at this
      simp only at this
      split at this
      · cases this
      · have h := congrArg (fun p => p.rest.length) this
        simp only [Pc.rest, List.length_drop, List.length_cons] at h
        omega
  | push r c =>
    apply hmain
    have hc := v.count
    rw [hp] at hc
    simp only [Pc.isPop, Bool.false_eq_true, if_false] at hc
    apply ne
    unfold mainStep pushStep
    rw [hp]
    simp only
    rw [if_pos (by omega)]
    simp
  | pop r c =>
    cases hfr : s.free with
    | cons b fs =>
      apply hmain
      apply ne
      unfold mainStep popStep
      rw [hp, hfr]
      simp only
      cases c <;> simp
    | nil =>
      have hc := v.count
      rw [hp, hfr] at hc
      simp only [Pc.isPop, if_true, List.length_nil] at hc
      by_cases hb : 0 < s.workers.countP busy
      · obtain ⟨w, hwm, hwb⟩ := List.countP_pos_iff.mp hb
        obtain ⟨t, ht, rfl⟩ := List.mem_iff_getElem.mp hwm
        cases hx : s.workers[t] with
        | idle => rw [hx] at hwb; cases hwb
        | finished => rw [hx] at hwb; cases hwb
        | failed b d => rw [hx] at hwm; exact absurd ⟨b, d, hwm⟩ hf
        | writing b d => exact hwriting t b d (by rw [List.getElem?_eq_getElem ht, hx])
      · have hr : s.ring ≠ [] := by intro h; rw [h] at hc; simp at hc; omega
        have h0 : 0 < s.workers.length := List.length_pos_iff.mpr hw
        have hmem : s.workers[0] ∈ s.workers := List.getElem_mem h0
        cases hx : s.workers[0] with
        | idle => exact hidle 0 (by rw [List.getElem?_eq_getElem h0, hx]) (Or.inl hr)
        | finished => rw [hx] at hmem; exact absurd (v.finW hmem).1 hr
        | failed b d => rw [hx] at hmem; exact absurd ⟨b, d, hmem⟩ hf
        | writing b d => exact hwriting 0 b d (by rw [List.getElem?_eq_getElem h0, hx])
  | stopRing => apply hmain; apply ne; unfold mainStep; rw [hp]; simp
  | join k =>
    cases hk : s.workers[k]? with
    | none => apply hmain; apply ne; unfold mainStep joinStep; rw [hp]; simp only [hk]; simp
    | some w =>
      cases w with
      | finished => apply hmain; apply ne; unfold mainStep joinStep; rw [hp]; simp only [hk]; simp
      | failed b d => exact absurd ⟨b, d, List.mem_of_getElem? hk⟩ hf
      | writing b d => exact hwriting k b d hk
      | idle => exact hidle k hk (Or.inr (by rw [v.late, hp]; rfl))
  | truncate => apply hmain; apply ne; unfold mainStep; rw [hp]; simp
  | closed =>
    refine ⟨.destroy, (by intro t h; cases h), ?_⟩
    rintro op rfl
    show weight B (destroyStep s) < _
    unfold destroyStep weight
    simp only [hp, pcW]
    omega
  | ended => exact absurd hp hpc
  | threw => exact absurd (v.threwF (Or.inl hp)) hf
  | terminated => exact absurd (v.threwF (Or.inr hp)) hf

end Spead2.Dump
