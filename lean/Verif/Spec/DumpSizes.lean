import Verif.Model.DumpSizes

/-!
# Words used in the statements about the buffer sizes of mcdump
-/

namespace Spead2.Sizes

/-- The card can do at least one thing of each kind. -/
def Device.Usable (d : Device) : Prop :=
  0 < d.maxCqe ∧ 0 < d.maxQpWr ∧ 0 < d.maxMr ∧ d.maxCqe < 2 ^ 31 ∧ d.maxQpWr < 2 ^ 31 ∧ d.maxMr < 2 ^ 31

/-- A card that can do strided receives reports ranges that are not empty; chunks have less than
4 GiB. -/
def Striding.Usable (c : Striding) : Prop :=
  c.minStride ≤ c.maxStride ∧ c.minStrides ≤ c.maxStrides ∧ c.maxStrides < 31 ∧ c.maxStride + c.maxStrides < 32

/-- What is asked for is not more than the card reports. -/
def Request.Within (r : Request) (d : Device) : Prop :=
  r.cqe ≤ d.maxCqe ∧ r.wr ≤ d.maxQpWr ∧ r.regions ≤ d.maxMr

/-- `k` is the number from `lo` to `hi` that is nearest to `v`. -/
def Nearest (v lo hi k : Nat) : Prop :=
  lo ≤ k ∧ k ≤ hi ∧ ∀ j, lo ≤ j → j ≤ hi → (v - k) + (k - v) ≤ (v - j) + (j - v)

/-- The bytes that an entry lets the card write. -/
def Entry.covers (e : Entry) (p : Nat) : Prop := e.addr ≤ p ∧ p < e.addr + e.length

end Spead2.Sizes
