import Verif.Model.SendQueue

/-!
# Specification of the send queue
-/

namespace Spead2.Spec

/-- The length of the longest of some lists. -/
def longest {α : Type} (ls : List (List α)) : Nat := ls.foldr (fun l n => max l.length n) 0

/-- Round-robin order: the first elements of all lists that have one, in order, then the second elements, and so on. -/
def roundRobin {α : Type} (ls : List (List α)) : List α := (List.range (longest ls)).flatMap (fun k => ls.filterMap (fun l => l[k]?))

/-- The packets of a group, with their substreams, in the order in which they are to be sent: heap by heap, or round robin. -/
def groupPackets {π : Type} (mode : GroupMode) (hs : List (Admitted π)) : List (π × Nat) :=
  match mode with
  | .serial => (hs.map (fun h => h.pkts.map (fun p => (p, h.substream)))).flatten
  | .roundRobin => roundRobin (hs.map (fun h => h.pkts.map (fun p => (p, h.substream))))

/-- Mark the last element of a list. -/
def markLast {α : Type} : List α → List (α × Bool)
  | [] => []
  | [x] => [(x, true)]
  | x :: y :: l => (x, false) :: markLast (y :: l)

/-- An accepted group: the call, the mode and the heaps. -/
structure Accepted (π : Type) where
  call : Nat
  mode : GroupMode
  hs : List (Admitted π)
  deriving DecidableEq, Repr

def Accepted.packets {π : Type} (g : Accepted π) : List (π × Nat) := groupPackets g.mode g.hs

/-- The groups accepted so far, in order. -/
def accepted {π : Type} (tr : List (SqEv π)) : List (Accepted π) := tr.filterMap (fun | .accept c m hs => some ⟨c, m, hs⟩ | _ => none)

/-- The packets given to the transport so far, with substream and whether it was said to be the last of its group. -/
def fetched {π : Type} (tr : List (SqEv π)) : List ((π × Nat) × Bool) := tr.filterMap (fun | .packet p n l => some ((p, n), l) | _ => none)

/-- What happened to the packets given to the transport, which handles them in order: sent, or failed after some bytes. -/
def outcomes {π : Type} (tr : List (SqEv π)) : List (Option Nat) := tr.filterMap (fun | .sent r => some r | _ => none)

/-- The completion handlers of accepted and of rejected groups called so far, in order. -/
def completed {π : Type} (tr : List (SqEv π)) : List (Nat × SqResult × Nat) :=
  tr.filterMap (fun | .handler c .ok b => some (c, .ok, b) | .handler c .failed b => some (c, .failed, b) | _ => none)
def refused {π : Type} (tr : List (SqEv π)) : List (Nat × SqResult × Nat) :=
  tr.filterMap (fun | .handler c .invalid b => some (c, .invalid, b) | .handler c .wouldBlock b => some (c, .wouldBlock, b) | _ => none)

/-- The calls rejected so far. -/
def rejected {π : Type} (tr : List (SqEv π)) : List (Nat × SqResult) := tr.filterMap (fun | .reject c r _ => some (c, r) | _ => none)

/-- The calls of `async_send_heaps` that have returned or thrown, and the calls of `flush` that can return, in order. -/
def answers {π : Type} (tr : List (SqEv π)) : List Nat := tr.filterMap (fun | .accept c _ _ => some c | .reject c _ _ => some c | .threw c => some c | _ => none)
def returned {π : Type} (tr : List (SqEv π)) : List Nat := tr.filterMap (fun | .flushed f => some f | _ => none)

/-- The bytes that were sent. -/
def sentBytes {π : Type} (bytes : π → Nat) : List (π × Nat) → List (Option Nat) → Nat
  | (p, _) :: ps, r :: rs => r.getD (bytes p) + sentBytes bytes ps rs
  | _, _ => 0

/-- What the handler of a group must be called with, given what happened to its packets. -/
def completion {π : Type} (bytes : π → Nat) (g : Accepted π) (rs : List (Option Nat)) : Nat × SqResult × Nat :=
  (g.call, (if rs.all Option.isNone then .ok else .failed), sentBytes bytes g.packets rs)

/-- The calls of handlers that are due: one for each group all of whose packets the transport is done with. -/
def due {π : Type} (bytes : π → Nat) : List (Accepted π) → List (Option Nat) → List (Nat × SqResult × Nat)
  | [], _ => []
  | g :: gs, rs => if g.packets.length ≤ rs.length then completion bytes g (rs.take g.packets.length) :: due bytes gs (rs.drop g.packets.length) else []

/-- The number of groups accepted before a call of `flush` began. -/
def isFlush {π : Type} (f : Nat) : SqEv π → Bool
  | .flush f' => f' == f
  | _ => false
def beforeFlush {π : Type} (tr : List (SqEv π)) (f : Nat) : Nat := (accepted (tr.takeWhile (fun ev => !isFlush f ev))).length

/-- When a call of `flush` can return, the transport is done with all packets of the groups that were accepted before the
call began. -/
def FlushOk {π : Type} (tr : List (SqEv π)) : Prop :=
  ∀ a f, a ++ [.flushed f] <+: tr → SqEv.flush f ∈ a ∧ (((accepted a).take (beforeFlush a f)).map (fun g => g.packets.length)).sum ≤ (outcomes a).length

/-- The number of heaps in some groups. -/
def heapCount {π : Type} (gs : List (Accepted π)) : Nat := (gs.map (fun g => g.hs.length)).sum

/-- A use of a stream by any number of threads, with a writer that starts in any state. -/
def SqReach {H π : Type} (env : SqEnv H π) (w : Wake) (ops : List (SqOp H)) (s : Sq H π) (tr : List (SqEv π)) : Prop :=
  Sq.run env ops { wk := w } = some (s, tr)

/-- No call failed after it had put a heap in the queue. -/
def CleanRejects {π : Type} (tr : List (SqEv π)) : Prop := ∀ c r n, SqEv.reject c r n ∈ tr → n = 0

/-- A stream with a valid configuration: the mask is that computed by the constructor, and each heap has at least one packet. -/
structure SqEnv.Valid {H π : Type} (env : SqEnv H π) : Prop where
  mask : queueMask env.size = some env.mask
  gen : ∀ h cnt ps, env.gen h cnt = some ps → ps ≠ []

/-- The cnts that the heaps of a group get when the next cnt of the sequence is `next`, and the next cnt after the group: the
explicit cnt, or the next of the sequence, truncated to the address bits. -/
def allot {H : Type} (step : Nat) : Nat → List (SendRef H) → List Nat × Nat
  | next, [] => ([], next)
  | next, r :: rs =>
    match r.cnt with
    | some c => (c :: (allot step next rs).1, (allot step next rs).2)
    | none => (next % 2 ^ r.bits :: (allot step ((next + step) % 2 ^ 64) rs).1, (allot step ((next + step) % 2 ^ 64) rs).2)

/-- A heap of a group is acceptable on its own: its substream exists and its explicit cnt fits in the address bits. -/
def RefOk {H π : Type} (env : SqEnv H π) (r : SendRef H) : Prop := r.substream < env.substreams ∧ ∀ c, r.cnt = some c → c < 2 ^ r.bits

/-- Heaps `hs` are what a group gives with some cnts: each is acceptable on its own and its packets can be generated. -/
def Admits {H π : Type} (env : SqEnv H π) : List (SendRef H) → List Nat → List (Admitted π) → Prop
  | [], [], [] => True
  | r :: rs, c :: cs, h :: hs => (RefOk env r ∧ env.gen r.heap c = some h.pkts ∧ h.cnt = c ∧ h.substream = r.substream) ∧ Admits env rs cs hs
  | _, _, _ => False

end Spead2.Spec
