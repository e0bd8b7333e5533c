import Verif.Model.PyAsyncSend

/-!
# What a user of asynchronous sends sees
-/

namespace Spead2.AioSend

/-- The states that a stream can get into. -/
def Reachable (s : St) : Prop := ∃ ops, s = run St.init ops

/-- The callback of send `i` has still to be called. -/
def Outstanding (s : St) (i : Nat) : Prop := i < s.n ∧ s.ran i = 0

/-- A call of `async_flush` in state `s` returns in state `t`: there is nothing to wait for, or the
future it waits for is done. -/
def FlushReturns (s t : St) : Prop :=
  match flushTarget s with
  | none => True
  | some i => (t.fut i).isDone = true

/-- Everything that the stream had accepted in state `s` has been sent in state `t`, as far as the
user can tell: the stream is done with it and its callback has been called. -/
def AllSent (s t : St) : Prop := ∀ j, j < s.n → s.queued j = true → t.ran j = 1

end Spead2.AioSend
