/-!
# A chunk stream group as a Python sequence

`__getitem__` and `__len__` of `ChunkStreamRingGroup` (src/py_recv.cpp 940-967), and the iteration it takes from `collections.abc.Sequence` (src/spead2/recv/__init__.py 87-95).

The group is the list of its streams.  Python's integers have no bound; `std::ptrdiff_t` and `std::size_t` have 64 bits, and conversions between them wrap around.  `slice.compute` is modelled from CPython's `PySlice_Unpack` and `PySlice_AdjustIndices`, which are not in /repo.
-/

namespace Spead2.GroupSeq

/-- Conversion to `std::size_t`. -/
def toU (x : Int) : Nat := (x % 18446744073709551616).toNat

/-- Conversion from `std::size_t` to `std::ptrdiff_t`. -/
def toS (n : Nat) : Int := if n < 9223372036854775808 then n else (n : Int) - 18446744073709551616

/-- What Python sees. -/
inductive Outcome (α : Type) where
  | value (a : α)
  | raises
  /-- an element that does not exist is used -/
  | undefined
  deriving DecidableEq, Repr

/-- `group[index]` (src/py_recv.cpp 941-952).  Integers that do not fit `std::ptrdiff_t` match no overload: TypeError. -/
def getItem {α : Type} (xs : List α) (index : Int) : Outcome α :=
  if index < -9223372036854775808 ∨ 9223372036854775808 ≤ index then .raises
  else
    let index := if index < 0 then toS ((toU index + xs.length) % 18446744073709551616) else index
    if 0 ≤ index ∧ toU index < xs.length then
      match xs[toU index]? with
      | some a => .value a
      | none => .undefined
    else .raises

/-- A Python slice; `none` is None. -/
structure Slice where
  start : Option Int
  stop : Option Int
  step : Option Int

/-- Integers are limited to `Py_ssize_t` (CPython, `_PyEval_SliceIndex`). -/
def clamp (x : Int) : Int := if x < -9223372036854775808 then -9223372036854775808 else if 9223372036854775807 < x then 9223372036854775807 else x

/-- `PySlice_Unpack` (CPython): start, stop and step; `none` if the step is 0. -/
def unpack (s : Slice) : Option (Int × Int × Int) :=
  let step := match s.step with
    | none => 1
    | some k => if clamp k < -9223372036854775807 then -9223372036854775807 else clamp k
  if step = 0 then none
  else
    let start := match s.start with
      | none => if step < 0 then 9223372036854775807 else 0
      | some x => clamp x
    let stop := match s.stop with
      | none => if step < 0 then -9223372036854775808 else 9223372036854775807
      | some x => clamp x
    some (start, stop, step)

/-- `PySlice_AdjustIndices` (CPython), for one of start and stop. -/
def adjust (len step x : Int) : Int :=
  if x < 0 then
    if x + len < 0 then (if step < 0 then -1 else 0) else x + len
  else if len ≤ x then (if step < 0 then len - 1 else len)
  else x

/-- `PySlice_AdjustIndices` (CPython): the number of elements. -/
def count (start stop step : Int) : Int :=
  if step < 0 then (if stop < start then (start - stop - 1) / (-step) + 1 else 0)
  else if start < stop then (stop - start - 1) / step + 1 else 0

/-- The loop (src/py_recv.cpp 961-964); `start` and `step` are `std::size_t`. -/
def loop {α : Type} (xs : List α) (start step : Nat) : Nat → Option (List α)
  | 0 => some []
  | n + 1 =>
    match xs[start]? with
    | none => none
    | some a => (loop xs ((start + step) % 18446744073709551616) step n).map (a :: ·)

/-- `group[slice]` (src/py_recv.cpp 953-967). -/
def getSlice {α : Type} (xs : List α) (s : Slice) : Outcome (List α) :=
  match unpack s with
  | none => .raises
  | some (start, stop, step) =>
    let i := adjust xs.length step start
    let j := adjust xs.length step stop
    match loop xs (toU i) (toU step) (count i j step).toNat with
    | none => .undefined
    | some l => .value l

/-- `Sequence.__iter__` (collections.abc): the elements from `i` on until IndexError; `n` is the number of steps taken. -/
def iter {α : Type} (xs : List α) (i : Nat) : Nat → List α
  | 0 => []
  | n + 1 =>
    match getItem xs i with
    | .value a => a :: iter xs (i + 1) n
    | _ => []

end Spead2.GroupSeq
