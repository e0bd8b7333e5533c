import Verif.Model.DataClass

/-!
# What keyword arguments mean
-/

namespace Spead2.DataClass

/-- The class has a property of this name whose setter takes `v`, and keeps it as `x`. -/
def Takes {V : Type} (cls : Cls V) (name : String) (v x : V) : Prop :=
  ∃ d set, cls name = some (.property d set) ∧ set v = .ok x

/-- What is wrong with a keyword argument taken alone: no such attribute, an attribute that cannot be set, or a value its setter refuses. -/
inductive Wrong {V : Type} (cls : Cls V) : String × V → Err → Prop where
  | unknown (name : String) (v : V) : cls name = none → Wrong cls (name, v) .typeError
  | readOnly (name : String) (v : V) : cls name = some .fixed → Wrong cls (name, v) .attributeError
  | refused (name : String) (v : V) (d : V) (set : V → Except Err V) (e : Err) : cls name = some (.property d set) → set v = .error e → Wrong cls (name, v) e

/-- `o` has the value given for each property that is named, and the default of the class for each that is not. -/
structure Configured {V : Type} (cls : Cls V) (kwargs : List (String × V)) (o : Obj V) : Prop where
  given : ∀ name v, (name, v) ∈ kwargs → ∃ x, Takes cls name v x ∧ o name = some x
  default : ∀ name d set, (∀ v, (name, v) ∉ kwargs) → cls name = some (.property d set) → o name = some d
  nothing : ∀ name, (cls name = none ∨ cls name = some .fixed) → o name = none

/-- Python passes each keyword at most once. -/
def Kwargs {V : Type} (kwargs : List (String × V)) : Prop := (kwargs.map Prod.fst).Nodup

end Spead2.DataClass
