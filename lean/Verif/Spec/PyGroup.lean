import Verif.Model.PyGroup

/-!
# Item groups: calls, and what they promise

Stated with the look-ups that a user has: `group[id]` and `group[name]`.
-/

namespace Spead2.Spec

variable {D V R : Type}

/-- `group[id]` (src/spead2/__init__.py 747-752). -/
def _root_.Spead2.PyGroup.getId (g : PyGroup D V) (i : Nat) : Option (Nat × PyItemObj D V) := g.deref (dictGet i g.byId)

/-- `group[name]`. -/
def _root_.Spead2.PyGroup.getName (g : PyGroup D V) (n : String) : Option (Nat × PyItemObj D V) :=
  g.deref (dictGet n g.byName)

/-- A call that changes the group: `add_item`, an assignment to the value of an item (in the group or
not), an increment of its version, or `update` with a received heap. -/
inductive GroupCall (D V R : Type) where
  | add (id : Option Nat) (name : String) (rest : D) (value : Option V)
  | set (o : Nat) (v : V)
  | bump (o : Nat)
  | update (h : PyHeap D R)

/-- One call; `none` would be a `KeyError` inside the group.  An exception from decoding a value only
ends the call. -/
def GroupCall.run [DecidableEq D] (dec : D → R → Option V) (g : PyGroup D V) : GroupCall D V R → Option (PyGroup D V)
  | .add i n d v => (g.addItem i n d v).map Prod.fst
  | .set o v => some (g.setValue o v)
  | .bump o => some (g.bump o)
  | .update h => (g.update dec h).map Prod.fst

/-- The calls, in order. -/
def runCalls [DecidableEq D] (dec : D → R → Option V) : PyGroup D V → List (GroupCall D V R) → Option (PyGroup D V)
  | g, [] => some g
  | g, c :: cs => match c.run dec g with
    | none => none
    | some g => runCalls dec g cs

/-- The two ways to look an item up agree: what is found under an id has this id, and is what is
found under its name; and the other way round. -/
structure KeysAgree (g : PyGroup D V) : Prop where
  byId : ∀ i o x, g.getId i = some (o, x) → x.id = i ∧ g.getName x.name = some (o, x)
  byName : ∀ n o x, g.getName n = some (o, x) → x.name = n ∧ g.getId x.id = some (o, x)
  count : g.byId.length = g.byName.length

/-- Seen through the same key before and after: either nothing changed, or the version increased. -/
def Newer (a b : Option (Nat × PyItemObj D V)) : Prop :=
  ∀ o x o' x', a = some (o, x) → b = some (o', x') → (o = o' ∧ x = x') ∨ x.version < x'.version

/-- The key is never missing while the call runs.  Only `update` takes several steps: one for each
descriptor of the heap. -/
def GroupCall.Keeps [DecidableEq D] (g : PyGroup D V) (look : PyGroup D V → Option (Nat × PyItemObj D V)) :
    GroupCall D V R → Prop
  | .update h => ∀ k g1, g.updateDescs (h.descs.take k) = some g1 → look g1 ≠ none
  | _ => True

/-- The key is never missing while the calls run. -/
def KeepsAll [DecidableEq D] (dec : D → R → Option V) (look : PyGroup D V → Option (Nat × PyItemObj D V)) :
    PyGroup D V → List (GroupCall D V R) → Prop
  | _, [] => True
  | g, c :: cs => c.Keeps g look ∧ ∀ g', c.run dec g = some g' → look g' ≠ none ∧ KeepsAll dec look g' cs

end Spead2.Spec
