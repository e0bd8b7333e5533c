import Verif.Model.Mprq

/-!
# What the multi-packet receive queue should do
-/

namespace Spead2.Mprq

/-- Sizes that a card can have: a frame begins in its first stride, the numbers of strides fit into 15 bits and offsets into 32,
the memory of the work queue is a power of two, at most 2^15, with room for all entries, and there is a completion for every
stride. -/
structure Shape.Ok (c : Shape) : Prop where
  stride : c.shift < c.stride
  pos : 0 < c.n
  n : c.n < 2 ^ 15
  offset : c.n * c.stride ≤ 2 ^ 32
  wqe : 0 < c.wqe
  cnt : c.wqe ≤ c.cnt
  pow : ∃ k, k ≤ 15 ∧ c.cnt = 2 ^ k
  cqe : c.wqe * c.n ≤ c.cqe

/-- The handler has got the frames that the card has accepted, in their order, unchanged and without gaps, and the frame it
works on is in the buffer, unchanged. -/
def Right (c : Shape) (s : St) : Prop :=
  s.out <+: s.accepted ∧
  ∀ p l, s.view = some (p, l) → p + l ≤ c.bufSize ∧ s.out.getLast? = some (bytes s.mem p l)

/-- The handler posts no entry again before `start` has posted all of them. -/
def Calm (c : Shape) (s : St) : List Op → Prop
  | [] => True
  | op :: ops =>
    (op = .repost → s.last = true → s.posted = c.wqe) ∧
    match s.step c op with
    | none => True
    | some s => Calm c s ops

/-- `k` is the number from `lo` to `hi` that is nearest to `v`. -/
def Nearest (v lo hi k : Nat) : Prop :=
  lo ≤ k ∧ k ≤ hi ∧ ∀ j, lo ≤ j → j ≤ hi → (v - k) + (k - v) ≤ (v - j) + (j - v)

/-- What a card can say about itself, and how the driver chooses the memory of the work queue. -/
structure Caps.Sane (d : Caps) (cnt : Nat → Nat) : Prop where
  stride : d.minStrideLog ≤ d.maxStrideLog
  num : d.minNumLog ≤ d.maxNumLog
  atLeast : 6 ≤ d.maxStrideLog
  small : d.minStrideLog ≤ 13
  few : d.minNumLog ≤ 14
  wr : d.maxQpWr ≤ 2 ^ 15
  cnt : ∀ w, w ≤ d.maxQpWr → w ≤ cnt w ∧ ∃ k, k ≤ 15 ∧ cnt w = 2 ^ k

end Spead2.Mprq
