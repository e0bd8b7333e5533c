import Verif.Model.Rate

/-!
# What rate limiting promises

A heap is sent at the rate given for it, in bytes per second: zero means without limit, and if it is negative the rate of the
stream applies. At a rate `r`, `n` bytes are due to take `n / r` seconds.
-/

namespace Spead2.Spec

/-- The rate that applies to a heap. -/
def effRate (c : RateConfig) (r : Rat) : Rat := if r < 0 then c.rate else r

/-- How long `size` bytes at a rate `r` should take, in ticks. -/
def dueTicks (c : RateConfig) (size : Nat) (r : Rat) : Rat := if effRate c r = 0 then 0 else size * c.hz / effRate c r

/-- How long the packets of a trace should take, in ticks. -/
def rateDue (c : RateConfig) : List RateEv → Rat
  | [] => 0
  | .packet _ size r :: tr => dueTicks c size r + rateDue c tr
  | _ :: tr => rateDue c tr

/-- The bytes of the packets of a trace. -/
def rateBytes : List RateEv → Nat
  | [] => 0
  | .packet _ size _ :: tr => size + rateBytes tr
  | _ :: tr => rateBytes tr

/-- The times in a list of transitions. -/
def opTimes : List RateOp → List Int
  | [] => []
  | .woken t :: ops => t :: opTimes ops
  | .timer t :: ops => t :: opTimes ops
  | .get t1 t2 t3 _ :: ops => t1 :: t2 :: t3 :: opTimes ops

/-- The clock shows no time before its epoch and does not go back. -/
def ClockOk (ops : List RateOp) : Prop := (0 :: opTimes ops).Pairwise (· ≤ ·)

/-- `size` bounds the packets of a trace, and `wait` the ticks due per byte. -/
def Bounded (c : RateConfig) (size : Nat) (wait : Rat) (tr : List RateEv) : Prop :=
  ∀ t n r, RateEv.packet t n r ∈ tr → n ≤ size ∧ dueTicks c n r ≤ n * wait

/-- The packets of a trace all go at the rate of the stream, and none is larger than `size`. -/
def PlainRate (size : Nat) (tr : List RateEv) : Prop := ∀ t n r, RateEv.packet t n r ∈ tr → n ≤ size ∧ r < 0

/-- The time of an event at which `get_packet` did not ask for sleep. -/
def RateEv.served : RateEv → Option Int
  | .none t => some t
  | .packet t _ _ => some t
  | _ => .none

/-- By the average rate, the packets of a trace justify waiting until `u`: since the writer was last woken at some time, or
since the epoch, as much has been sent as can be at that rate, up to one tick. -/
def AverageReached (c : RateConfig) (tr : List RateEv) (u : Int) : Prop :=
  u ≤ rateDue c tr + 1 ∨ ∃ a T b, tr = a ++ RateEv.woken T :: b ∧ u - T ≤ rateDue c b + 1

/-- By the burst rate, the packets of a trace justify waiting until `u`: since some call that was served, or since the epoch, as
much has been sent as can be at that rate. -/
def BurstReached (c : RateConfig) (tr : List RateEv) (u : Int) : Prop :=
  u * c.ratio ≤ rateDue c tr ∨ ∃ a e T b, tr = a ++ e :: b ∧ RateEv.served e = some T ∧ (u - T) * c.ratio ≤ rateDue c (e :: b)

end Spead2.Spec
