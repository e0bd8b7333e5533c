/-!
# Synchronous sends from Python

`send_heap` and `send_heaps` of the stream classes that Python programs use (src/py_send.cpp 147-219): the heap is queued, and the thread waits
on a semaphore, without the GIL, until the callback has run.  A signal can interrupt the wait.

The stream below is any stream that may read the heaps of an accepted call until it runs the callback, and that runs each callback once (C39).
-/

namespace Spead2.PySend

/-- What a callback is given: an error code (0: none) and a number of bytes. -/
structure Outcome where
  ec : Nat
  bytes : Nat
  deriving DecidableEq, Repr

/-- Where the callback is: queued, or between two of its statements (src/py_send.cpp 183-188), or destroyed. -/
inductive Handler where
  | queued
  | wroteEc (r : Outcome)
  | wroteBytes (r : Outcome)
  | posted (r : Outcome)
  | gone (r : Outcome)
  deriving DecidableEq, Repr

/-- Where the call is. -/
inductive Phase where
  | waiting
  | returned (r : Outcome)
  | interrupted
  deriving DecidableEq, Repr

/-- A call of `send_heap` or `send_heaps`: the heaps, whether the stream had space for them, and the `callback_state` with the number of its
owners (src/py_send.cpp 151-167). -/
structure Call where
  heaps : List Nat
  accepted : Bool
  phase : Phase := .waiting
  handler : Handler := .queued
  sem : Nat := 0
  ec : Nat := 0
  bytes : Nat := 0
  owners : Nat := 2
  deriving DecidableEq, Repr

/-- `refs` are the reference counts of the heap objects; `mine` are those references that the Python program has outside of running calls. -/
structure St where
  heaps : Nat := 0
  refs : Nat → Nat := fun _ => 0
  mine : Nat → Nat := fun _ => 0
  calls : List Call := []

inductive Ev where
  /-- the program makes a heap -/
  | new
  /-- the program makes another reference to a heap -/
  | keep (h : Nat)
  /-- the program gives up a reference to a heap -/
  | drop (h : Nat)
  /-- the program calls `send_heap` or `send_heaps` -/
  | send (hs : List Nat) (accepted : Bool)
  /-- the stream reads the heaps of a call -/
  | read (c : Nat)
  /-- the stream starts the callback of a call -/
  | callback (c : Nat) (r : Outcome)
  /-- the callback goes on -/
  | next (c : Nat)
  /-- the wait ends because the semaphore could be decremented -/
  | wake (c : Nat)
  /-- the wait is interrupted by a signal, whose Python handler does or does not raise an exception -/
  | signal (c : Nat) (raises : Bool)
  deriving DecidableEq, Repr

/-- The event is not possible; it is undefined behaviour; or it gives a new state. -/
inductive Res where
  | disabled
  | undefined
  | ok (s : St)

def St.setCall (s : St) (c : Nat) (x : Call) : St := { s with calls := s.calls.set c x }

/-- References are added: those of the arguments of a call. -/
def addRefs (refs : Nat → Nat) (hs : List Nat) : Nat → Nat := fun h => refs h + hs.count h

/-- References are given up when a call is left. -/
def dropRefs (refs : Nat → Nat) (hs : List Nat) : Nat → Nat := fun h => refs h - hs.count h

/-- The call ends: its `shared_ptr` and its arguments are released. -/
def St.leave (s : St) (c : Nat) (x : Call) (p : Phase) : St :=
  { s.setCall c { x with phase := p, owners := x.owners - 1 } with refs := dropRefs s.refs x.heaps }

/-- The statements of the callback (src/py_send.cpp 183-188 and 204-209).  Undefined if the `callback_state` is gone. -/
def callbackStep (s : St) (c : Nat) (x : Call) : Res :=
  match x.handler with
  | .wroteEc r => if x.owners = 0 then .undefined else .ok (s.setCall c { x with bytes := r.bytes, handler := .wroteBytes r })
  | .wroteBytes r => if x.owners = 0 then .undefined else .ok (s.setCall c { x with sem := x.sem + 1, handler := .posted r })
  | .posted r => .ok (s.setCall c { x with owners := x.owners - 1, handler := .gone r })
  | _ => .disabled

/-- One event. -/
def step (s : St) : Ev → Res
  | .new => .ok { s with heaps := s.heaps + 1, refs := addRefs s.refs [s.heaps], mine := addRefs s.mine [s.heaps] }
  | .keep h => if s.mine h = 0 then .disabled else .ok { s with refs := addRefs s.refs [h], mine := addRefs s.mine [h] }
  | .drop h => if s.mine h = 0 then .disabled else .ok { s with refs := dropRefs s.refs [h], mine := dropRefs s.mine [h] }
  | .send hs accepted =>
    -- src/py_send.cpp 172-190 and 199-211
    if hs.all (fun h => decide (0 < s.mine h)) then .ok { s with refs := addRefs s.refs hs, calls := s.calls ++ [{ heaps := hs, accepted := accepted }] }
    else .disabled
  | .read c =>
    match s.calls[c]? with
    | none => .disabled
    | some x =>
      if x.accepted = true ∧ x.handler = .queued then
        if x.heaps.all (fun h => decide (0 < s.refs h)) then .ok s else .undefined
      else .disabled
  | .callback c r =>
    match s.calls[c]? with
    | none => .disabled
    | some x =>
      if x.handler = .queued then
        if x.owners = 0 then .undefined else .ok (s.setCall c { x with ec := r.ec, handler := .wroteEc r })
      else .disabled
  | .next c =>
    match s.calls[c]? with
    | none => .disabled
    | some x => callbackStep s c x
  | .wake c =>
    -- include/spead2/py_common.h 290-308, src/py_send.cpp 191-194 and 212-215
    match s.calls[c]? with
    | none => .disabled
    | some x =>
      if x.phase = .waiting then
        if x.owners = 0 then .undefined
        else if x.sem = 0 then .disabled
        else .ok (s.leave c { x with sem := x.sem - 1 } (.returned ⟨x.ec, x.bytes⟩))
      else .disabled
  | .signal c raises =>
    -- include/spead2/py_common.h 299-304
    match s.calls[c]? with
    | none => .disabled
    | some x =>
      if x.phase = .waiting then
        if raises then .ok (s.leave c x .interrupted) else .ok s
      else .disabled

/-- A history. -/
def run : St → List Ev → Res
  | s, [] => .ok s
  | s, e :: es =>
    match step s e with
    | .ok s => run s es
    | r => r

end Spead2.PySend
