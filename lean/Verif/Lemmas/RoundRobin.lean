import Verif.Spec.SendQueue

/-!
# Round-robin order
-/

namespace Spead2
open Spec

/-- The `k`-th elements. -/
def rrRow {α : Type} (ls : List (List α)) (k : Nat) : List α := ls.filterMap (fun l => l[k]?)

/-- The first `n` rounds. -/
def rrRounds {α : Type} (n : Nat) (ls : List (List α)) : List α := (List.range n).flatMap (rrRow ls)

theorem rrRow_nil {α : Type} {ls : List (List α)} {k : Nat} (h : longest ls ≤ k) : rrRow ls k = [] := by
  induction ls with
  | nil => rfl
  | cons l ls ih =>
    simp only [longest, List.foldr_cons] at h ih
    unfold rrRow
    rw [List.filterMap_cons, List.getElem?_eq_none (by omega)]
    exact ih (by omega)

theorem rrRounds_succ {α : Type} (n : Nat) (ls : List (List α)) : rrRounds (n + 1) ls = rrRounds n ls ++ rrRow ls n := by
  unfold rrRounds
  rw [List.range_succ, List.flatMap_append]
  simp

theorem rrRounds_ge {α : Type} {ls : List (List α)} : ∀ (d : Nat), rrRounds (longest ls + d) ls = roundRobin ls
  | 0 => rfl
  | d + 1 => by
    rw [← Nat.add_assoc, rrRounds_succ, rrRow_nil (by omega), List.append_nil]
    exact rrRounds_ge d

theorem roundRobin_eq {α : Type} {ls : List (List α)} {n : Nat} (h : longest ls ≤ n) : roundRobin ls = rrRounds n ls := by
  rw [← rrRounds_ge (n - longest ls)]
  congr 1
  omega

theorem rrRow_append {α : Type} (a b : List (List α)) (k : Nat) : rrRow (a ++ b) k = rrRow a k ++ rrRow b k := List.filterMap_append

theorem rrRow_filter {α : Type} (ls : List (List α)) (k : Nat) : rrRow (ls.filter (fun l => !l.isEmpty)) k = rrRow ls k := by
  induction ls with
  | nil => rfl
  | cons l ls ih =>
    unfold rrRow at *
    cases l with
    | nil => simpa using ih
    | cons x l => simp only [List.filter_cons, List.isEmpty_cons, Bool.not_false, if_true, List.filterMap_cons, ih]

theorem roundRobin_filter {α : Type} (ls : List (List α)) : roundRobin (ls.filter (fun l => !l.isEmpty)) = roundRobin ls := by
  have e : ∀ n, rrRounds n (ls.filter (fun l => !l.isEmpty)) = rrRounds n ls := fun n => by
    unfold rrRounds
    congr 1
    funext k
    exact rrRow_filter ls k
  rw [roundRobin_eq (Nat.le_max_left _ (longest ls)), e, ← roundRobin_eq (Nat.le_max_right _ _)]

theorem longest_cons {α : Type} (l : List α) (ls : List (List α)) : longest (l :: ls) = max l.length (longest ls) := rfl

theorem longest_append {α : Type} (a b : List (List α)) : longest (a ++ b) = max (longest a) (longest b) := by
  induction a with
  | nil => simp [longest]
  | cons l a ih => rw [List.cons_append, longest_cons, longest_cons, ih]; omega

theorem rrRounds_shift {α : Type} (p : α) (ps : List α) (m : List (List α)) : ∀ n, rrRounds (n + 1) ((p :: ps) :: m) = p :: (rrRounds n (m ++ [ps]) ++ rrRow m n)
  | 0 => by simp [rrRounds, rrRow]
  | n + 1 => by
    rw [rrRounds_succ, rrRounds_shift p ps m n, rrRounds_succ n (m ++ [ps]), rrRow_append]
    have h1 : rrRow ((p :: ps) :: m) (n + 1) = rrRow [ps] n ++ rrRow m (n + 1) := by
      unfold rrRow
      rw [List.filterMap_cons, List.getElem?_cons_succ]
      cases h : ps[n]? <;> simp [h]
    rw [h1]
    simp

/-- The first packet is the first of the first list; then that list goes last. -/
theorem roundRobin_shift {α : Type} (p : α) (ps : List α) (m : List (List α)) : roundRobin ((p :: ps) :: m) = p :: roundRobin (m ++ [ps]) := by
  have h1 : longest ((p :: ps) :: m) ≤ longest (m ++ [ps]) + 1 := by
    rw [longest_cons, longest_append, longest_cons]
    simp only [List.length_cons, longest, List.foldr_nil]
    omega
  rw [roundRobin_eq h1, rrRounds_shift, rrRow_nil (by rw [longest_append]; omega), List.append_nil]
  rfl

theorem roundRobin_empty {α : Type} {ls : List (List α)} (h : ∀ l ∈ ls, l = []) : roundRobin ls = [] := by
  rw [← roundRobin_filter, List.filter_eq_nil_iff.mpr]
  · rfl
  · intro l hl
    rw [h l hl]
    simp

theorem filter_empties {α : Type} {f : Nat → List α} {s n : Nat} (h : ∀ u, s ≤ u → u < s + n → f u = []) : ((List.range' s n).map f).filter (fun l => !l.isEmpty) = [] := by
  rw [List.filter_eq_nil_iff]
  intro l hl
  rw [List.mem_map] at hl
  obtain ⟨u, hu, rfl⟩ := hl
  rw [List.mem_range'_1] at hu
  rw [h u hu.1 hu.2]
  simp

/-- One step of the round: heap `pos` gives a packet, and the next heap is `t` places further, all between being exhausted. -/
theorem rot_step {α : Type} {len pos t : Nat} (hpos : pos < len) (ht : 0 < t) (htl : t ≤ len) (R R1 : Nat → List α) {p : α} {ps : List α} (hR : R pos = p :: ps) (hR1 : R1 pos = ps)
    (hne : ∀ j, j < len → j ≠ pos → R1 j = R j) (hskip : ∀ u, 0 < u → u < t → R1 ((pos + u) % len) = []) :
    roundRobin ((List.range len).map (fun u => R ((pos + u) % len))) = p :: roundRobin ((List.range len).map (fun u => R1 (((pos + t) % len + u) % len))) := by
  have hmod : (pos + len) % len = pos := by rw [Nat.add_mod_right, Nat.mod_eq_of_lt hpos]
  have hother : ∀ u, 0 < u → u < len → (pos + u) % len ≠ pos := by
    intro u h1 h2 h3
    rcases Nat.lt_or_ge (pos + u) len with h | h
    · rw [Nat.mod_eq_of_lt h] at h3; omega
    · rw [Nat.mod_eq_sub_mod h, Nat.mod_eq_of_lt (by omega)] at h3; omega
  let f : Nat → List α := fun u => R1 ((pos + u) % len)
  have hA : (List.range len).map (fun u => R ((pos + u) % len)) = (p :: ps) :: (List.range' 1 (len - 1)).map f := by
    rw [List.range_eq_range', show len = (len - 1) + 1 by omega, List.range'_succ, List.map_cons]
    rw [show len - 1 + 1 = len by omega]
    congr 1
    · rw [Nat.add_zero, Nat.mod_eq_of_lt hpos, hR]
    · rw [show len - 1 = len - 1 from rfl]
      apply List.map_congr_left
      intro u hu
      rw [List.mem_range'_1] at hu
      exact (hne _ (Nat.mod_lt _ (by omega)) (hother u (by omega) (by omega))).symm
  have hB : (List.range len).map (fun u => R1 (((pos + t) % len + u) % len)) = (List.range' t len).map f := by
    rw [show List.range' t len = (List.range len).map (fun u => t + u) by rw [List.range'_eq_map_range], List.map_map]
    apply List.map_congr_left
    intro u _
    show R1 _ = R1 _
    rw [Nat.mod_add_mod, Nat.add_assoc]
  have hlast : [ps] = (List.range' len 1).map f := by
    show [ps] = [R1 ((pos + len) % len)]
    rw [hmod, hR1]
  rw [hA, hB, roundRobin_shift, hlast, ← List.map_append]
  congr 1
  rw [← roundRobin_filter, ← roundRobin_filter ((List.range' t len).map f)]
  congr 1
  rw [show List.range' 1 (len - 1) ++ List.range' len 1 = List.range' 1 (t - 1) ++ List.range' t (len - t + 1) by
    rw [show List.range' len 1 = List.range' (1 + 1 * (len - 1)) 1 by congr 1; omega, List.range'_append,
      show List.range' t (len - t + 1) = List.range' (1 + 1 * (t - 1)) (len - t + 1) by congr 1; omega, List.range'_append]
    congr 1
    omega]
  rw [show List.range' t len = List.range' t (len - t + 1) ++ List.range' (len + 1) (t - 1) by
    rw [show List.range' (len + 1) (t - 1) = List.range' (t + 1 * (len - t + 1)) (t - 1) by congr 1; omega, List.range'_append]
    congr 1
    omega]
  have e1 : ((List.range' 1 (t - 1)).map f).filter (fun l => !l.isEmpty) = [] := filter_empties (fun u h1 h2 => hskip u (by omega) (by omega))
  have e2 : ((List.range' (len + 1) (t - 1)).map f).filter (fun l => !l.isEmpty) = [] := filter_empties (fun u h1 h2 => by
    have : pos + u = (pos + (u - len)) + len := by omega
    show R1 ((pos + u) % len) = []
    rw [this, Nat.add_mod_right]
    exact hskip _ (by omega) (by omega))
  rw [List.map_append, List.map_append, List.filter_append, List.filter_append, e1, e2, List.nil_append, List.append_nil]

end Spead2
