import Verif.Model.GroupSeq

/-!
# Python's rules for sequences

"Common sequence operations" in the Python Library Reference, on integers without bound.
-/

namespace Spead2.GroupSeq

/-- `x` before the bound `j`, when going in steps of `k`. -/
def Before (k x j : Int) : Prop := if 0 < k then x < j else j < x

/-- A bound of a slice: omitted, or counted from the end if negative, and then limited to the sequence. -/
def bound (len k : Int) (omitted : Int) : Option Int → Int
  | none => omitted
  | some x => max (if 0 < k then 0 else -1) (min (if 0 < k then len else len - 1) (if x < 0 then len + x else x))

/-- `out` has the items with indices `i`, `i + k`, `i + 2k` and so on, stopping when `j` is reached (but never including `j`). -/
def Steps {α : Type} (xs : List α) (i j k : Int) (out : List α) : Prop :=
  (∀ m : Nat, m < out.length → Before k (i + m * k) j ∧ 0 ≤ i + m * k ∧ i + m * k < xs.length ∧ out[m]? = xs[(i + m * k).toNat]?) ∧ ¬ Before k (i + out.length * k) j

/-- `out` is `xs[start:stop:step]`, for a step other than 0. -/
def IsSlice {α : Type} (xs : List α) (s : Slice) (out : List α) : Prop :=
  let k := s.step.getD 1
  Steps xs (bound xs.length k (if 0 < k then 0 else (xs.length : Int) - 1) s.start) (bound xs.length k (if 0 < k then (xs.length : Int) else -1) s.stop) k out

end Spead2.GroupSeq
