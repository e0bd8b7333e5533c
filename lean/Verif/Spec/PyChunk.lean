import Verif.Model.PyChunk

/-!
# What Python programs rely on for their chunks
-/

namespace Spead2.PyChunk

/-- All chunks that are under way: in a ringbuffer, in a call of `put`, or with a stream. -/
def St.away (s : St) : List Wrapper := s.rings.flatMap (·.q) ++ (s.pend.map (·.1) ++ s.held)

/-- The states that a program can reach, whatever it does. -/
inductive Run (rings : List Nat) : St → Prop where
  | init : Run rings { rings := rings.map (fun c => { cap := c }) }
  | step {s s' : St} {e : Ev} {res : Res} : Run rings s → s.step e = some (s', res) → Run rings s'

/-- Where buffers are. -/
def St.places (s : St) : List Nat := s.objs.flatMap Content.bufs ++ (s.away.flatMap (·.c.bufs) ++ s.released)

/-- The three buffers of a chunk, without its number. -/
def Content.buffers (c : Content) : Option Nat × Option Nat × Option Nat := (c.data, c.present, c.extra)

/-- What the program has assigned last to the fields of its chunks. -/
def assigned (s : St) (u : List Content) : Ev → List Content
  | .new => u ++ [{}]
  | .set o f v => u.modify o (fun c => f.put c (v.map (fun _ => s.next)))
  | _ => u

/-- What the property does not cover: assigning to a chunk while it is under way, and a stream whose data ring was stopped by someone else.  If `strict`, also `add_free_chunk` with a
ring that is stopped. -/
def Allowed (strict : Bool) (s : St) : Ev → Prop
  | .set o _ _ => ∀ w ∈ s.away, w.obj ≠ o
  | .give _ r => ∀ ring, s.rings[r]? = some ring → ring.stopped = false
  | .addFree _ r => strict = true → ∀ ring, s.rings[r]? = some ring → ring.stopped = false
  | _ => True

/-- The states of programs that keep to this, with what they have assigned. -/
inductive Reach (strict : Bool) (rings : List Nat) : St → List Content → Prop where
  | init : Reach strict rings { rings := rings.map (fun c => { cap := c }) } []
  | step {s s' : St} {u : List Content} {e : Ev} {res : Res} : Reach strict rings s u → Allowed strict s e → s.step e = some (s', res) → Reach strict rings s' (assigned s u e)

end Spead2.PyChunk
