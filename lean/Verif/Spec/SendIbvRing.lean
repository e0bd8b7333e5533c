import Verif.Model.SendIbvRing
import Verif.Spec.SendIbv

/-!
# What can be observed of an ibverbs sender
-/

namespace Spead2.Spec

/-- The packets taken from the queue of heaps. -/
def takenPkts (evs : List IEv) : List IPkt := evs.filterMap fun e => match e with | .got p => some p | _ => none

/-- The frames on the wire. -/
def wireFrames (evs : List IEv) : List Bytes := evs.filterMap fun e => match e with | .wire f => some f | _ => none

/-- What is reported to heaps about packets: the heap, and the number of bytes sent or `none` for a failure. -/
def reports (evs : List IEv) : List (Nat × Option Nat) :=
  evs.filterMap fun e => match e with | .sent i n => some (i, some n) | .failed i => some (i, none) | _ => none

/-- The number of groups reported as complete. -/
def groupCount (evs : List IEv) : Nat := (evs.map fun e => match e with | .groups n => n | _ => 0).sum

/-- Everything that can happen to a sender; the packets are such as the packet generator may produce. -/
structure IbvExec (c : IbvCfg) (um : Nat → UInt8) (ops : List IOp) (w : IbvW) (evs : List IEv) : Prop where
  valid : IbvValid c
  pkts : ∀ p, .packet p ∈ ops → IPktOk c p
  run : ∃ w0, c.start = some w0 ∧ IbvRun c um w0 ops w evs

/-- `f` is the frame with packet `p` for the endpoint of its substream. -/
def IsFrameOf (c : IbvCfg) (um : Nat → UInt8) (p : IPkt) (f : Bytes) : Prop :=
  ∃ e, c.endpoints[p.sub]? = some e ∧ IsFrameTo c e (ipktBytes um p) f

/-- Actions that neither take packets nor are failures nor are up to the user. -/
def IOp.drains : IOp → Bool
  | .heap | .err | .packet _ => false
  | _ => true

end Spead2.Spec
