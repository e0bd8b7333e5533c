import Verif.Model.PyBench

/-!
# What the agent of the Python benchmark should do
-/

namespace Spead2.PyBench

/-- States that an agent can reach. -/
inductive Run (ibv : Bool) : St → Prop where
  | init : Run ibv { ibv := ibv }
  | step {s s' : St} {e : Ev} : Run ibv s → s.step e = some s' → Run ibv s'

/-- States that it can reach without exceptions. -/
inductive Calm (ibv : Bool) : St → Prop where
  | init : Calm ibv { ibv := ibv }
  | step {s s' : St} {e : Ev} : Calm ibv s → s.step e = some s' → (∀ c, e ≠ .fault c) → Calm ibv s'

/-- A connection has the stream. -/
def St.owned (s : St) (k : Nat) : Prop := ∃ (c : Nat) (x : Conn), s.conns[c]? = some x ∧ x.cur = some k

/-- Replies to start and stop commands in turn. -/
def Alternate : List Reply → Prop
  | [] => True
  | [.ready] => True
  | .ready :: .heaps _ :: l => Alternate l
  | _ => False

end Spead2.PyBench
