import Verif.Model.PySend

/-!
# What users of synchronous sends in Python rely on
-/

namespace Spead2.PySend

/-- The history is possible, and leads to a state. -/
def Reach (evs : List Ev) (s : St) : Prop := run {} evs = .ok s

/-- The program keeps the heaps of interrupted calls until the stream has sent them. -/
def Kept (s : St) : Prop := ∀ x ∈ s.calls, x.phase = .interrupted → x.accepted = true → x.handler = .queued → ∀ h ∈ x.heaps, 0 < s.mine h

/-- It does so all the time. -/
def AlwaysKept (evs : List Ev) : Prop := ∀ pre post s, evs = pre ++ post → Reach pre s → Kept s

/-- How often the stream has run the callback of a call. -/
def callbacks (evs : List Ev) (c : Nat) : List Outcome :=
  evs.filterMap (fun e => match e with | .callback c' r => if c' = c then some r else none | _ => none)

/-- The event belongs to the stream's threads, and to a call. -/
def OfStream (c : Nat) : Ev → Prop
  | .callback c' _ => c' = c
  | .next c' => c' = c
  | _ => False

end Spead2.PySend
