/-!
# Rate limiting of a send stream

Models `precise_time` and the rate limiting of `writer` (src/send_writer.cpp, include/spead2/send_writer.h). Times are in ticks
of the clock (`high_resolution_clock`). Simplification: where the code uses `double`, the model uses exact rational numbers, so
rounding is not modelled; time points and byte counts do not wrap.
-/

namespace Spead2

/-- `precise_time` (include/spead2/send_writer.h:45-63): a whole number of ticks and a correction. -/
structure PTime where
  coarse : Int := 0
  corr : Rat := 0
  deriving DecidableEq, Repr

/-- `duration_cast` from a floating-point to an integral duration: truncates towards zero. -/
def truncTicks (x : Rat) : Int := x.num.tdiv x.den

/-- `precise_time::precise_time` (src/send_writer.cpp:36-39). -/
def PTime.of (c : Int) : PTime := { coarse := c, corr := 0 }

/-- `precise_time::normalize` (src/send_writer.cpp:41-48). -/
def PTime.normalize (t : PTime) : PTime :=
  let fl := truncTicks t.corr
  let fl := if t.corr < fl then fl - 1 else fl
  { coarse := t.coarse + fl, corr := t.corr - fl }

/-- `precise_time::operator+=` (src/send_writer.cpp:50-55). -/
def PTime.add (t : PTime) (d : Rat) : PTime := PTime.normalize { t with corr := t.corr + d }

/-- `precise_time::operator<` (src/send_writer.cpp:57-60). -/
def PTime.lt (a b : PTime) : Bool := decide (a.coarse < b.coarse) || (decide (a.coarse = b.coarse) && decide (a.corr < b.corr))

/-- `std::max`. -/
def PTime.max (a b : PTime) : PTime := if a.lt b then b else a

/-- The parts of `stream_config` that matter (include/spead2/send_stream_config.h), the ticks per second of the clock, and
`hw_rate` (include/spead2/send_writer.h:131-132). -/
structure RateConfig where
  rate : Rat
  burstSize : Nat
  ratio : Rat
  hz : Rat
  hw : Bool := false
  deriving DecidableEq, Repr

/-- `set_rate` and `set_burst_rate_ratio` (src/send_stream_config.cpp:35-41, 57-63): `none` is an exception. A `double` here is
finite. -/
def RateConfig.make (rate : Rat) (burstSize : Nat) (ratio hz : Rat) (hw : Bool) : Option RateConfig :=
  if rate < 0 then none else if ratio < 1 then none else some { rate := rate, burstSize := burstSize, ratio := ratio, hz := hz, hw := hw }

/-- `default_wait_per_byte` (src/send_stream.cpp:82-84), in ticks. -/
def RateConfig.defaultWait (c : RateConfig) : Rat := (if 0 < c.rate then 1 / c.rate else 0) * c.hz

/-- The choice of `wait_per_byte` for a heap (include/spead2/send_stream.h:311-324), in ticks. -/
def RateConfig.waitPerByte (c : RateConfig) (rate : Rat) : Rat :=
  if rate = 0 then 0
  else if 0 < rate then 1 / rate * c.hz
  else c.defaultWait

/-- The rate limiting state of a writer (include/spead2/send_writer.h:125-138): `send_time_burst`, `send_time`, `must_sleep`,
`rate_bytes`, `rate_wait`. -/
structure Limiter where
  burst : PTime := {}
  avg : PTime := {}
  mustSleep : Bool := false
  bytes : Nat := 0
  wait : Rat := 0
  deriving DecidableEq, Repr

/-- `update_send_times` (src/send_writer.cpp:78-92): the new state and the target time. -/
def Limiter.update (c : RateConfig) (l : Limiter) (now : Int) : Limiter × Int :=
  let burst := l.burst.add (l.wait / c.ratio)
  let avg := l.avg.add l.wait
  let target := PTime.max burst avg
  ({ l with burst := PTime.max (PTime.of now) target, avg := avg, bytes := 0, wait := 0 }, target.coarse)

/-- `update_send_time_empty` (src/send_writer.cpp:94-104). -/
def Limiter.wakeEmpty (l : Limiter) (now : Int) : Limiter :=
  { l with avg := PTime.max l.avg (PTime.of (now - truncTicks l.wait)) }

/-- Events: `woken`: the writer is woken after it had run out of packets; `slept`: `get_packet` returns `SLEEP` at some time,
and the timer is set to `until`; `none`: it returns `EMPTY`; `packet`: it returns a packet of some size, of a heap sent with
some rate. -/
inductive RateEv
  | woken (t : Int)
  | slept (t until_ : Int)
  | none (t : Int)
  | packet (t : Int) (size : Nat) (rate : Rat)
  deriving DecidableEq, Repr

/-- Transitions: `woken t`: the handler posted by `async_send_heaps` for a waiting writer runs (include/spead2/send_stream.h:
394-398); `timer t`: the handler of the timer runs; `get t1 t2 t3 p`: a call of `get_packet`, which may read the clock at `t1`
and at `t2`, and returns at `t3`; `p` is the next packet in the queue and the rate of its heap. -/
inductive RateOp
  | woken (t : Int)
  | timer (t : Int)
  | get (t1 t2 t3 : Int) (p : Option (Nat × Rat))
  deriving DecidableEq, Repr

/-- The end of `get_packet` (src/send_writer.cpp:127-149). -/
def Limiter.take (c : RateConfig) (l : Limiter) (t3 : Int) (p : Option (Nat × Rat)) : Limiter × RateEv :=
  match p with
  | .none => (l, .none t3)
  | some (size, rate) =>
    (if c.hw then l else { l with bytes := l.bytes + size, wait := l.wait + size * c.waitPerByte rate }, .packet t3 size rate)

/-- The second part of `get_packet` (src/send_writer.cpp:116-125). -/
def Limiter.check (c : RateConfig) (l : Limiter) (t2 t3 : Int) (p : Option (Nat × Rat)) : Limiter × RateEv :=
  if c.burstSize ≤ l.bytes then
    let (l, target) := l.update c t2
    if t2 < target then ({ l with mustSleep := true }, .slept t2 l.burst.coarse) else l.take c t3 p
  else l.take c t3 p

/-- `get_packet` (src/send_writer.cpp:106-149). When it returns `SLEEP`, `writer::sleep` (lines 267-276) sets the timer. -/
def Limiter.get (c : RateConfig) (l : Limiter) (t1 t2 t3 : Int) (p : Option (Nat × Rat)) : Limiter × RateEv :=
  if l.mustSleep then
    if t1 < l.burst.coarse then (l, .slept t1 l.burst.coarse)
    else Limiter.check c { l with mustSleep := false } t2 t3 p
  else l.check c t2 t3 p

/-- One transition. The timer does not run its handler before it has expired (src/send_writer.cpp:267-276). -/
def Limiter.step (c : RateConfig) (l : Limiter) : RateOp → Limiter × List RateEv
  | .woken t => (l.wakeEmpty t, [.woken t])
  | .timer t => (if l.mustSleep = true ∧ l.burst.coarse ≤ t then { l with mustSleep := false } else l, [])
  | .get t1 t2 t3 p => ((l.get c t1 t2 t3 p).1, [(l.get c t1 t2 t3 p).2])

/-- An execution. -/
def Limiter.run (c : RateConfig) : List RateOp → Limiter → Limiter × List RateEv
  | [], l => (l, [])
  | op :: ops, l => ((Limiter.run c ops (l.step c op).1).1, (l.step c op).2 ++ (Limiter.run c ops (l.step c op).1).2)

end Spead2
