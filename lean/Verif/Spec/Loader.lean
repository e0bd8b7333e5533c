import Verif.Model.Loader

/-!
# What users of a library that is loaded at run time expect

The library works if it is installed and has every function that is not optional.  A call then runs the function, or raises an error if it is an optional one that is missing.
If the library does not work, every call raises one error that says why.
-/

namespace Spead2.Loader

/-- A function the library must have and has not. -/
def Lacks (d : Decl) (l : Lib) (k : Nat) : Prop := k < d.n ∧ l.has k = false ∧ d.optional k = false

/-- The library is installed, with every function that is required. -/
def Works (d : Decl) (l : Lib) : Prop := l.present = true ∧ ∀ k, ¬ Lacks d l k

/-- Why a library does not work: it is absent, or `k` is the first function it lacks. -/
def Reason (d : Decl) (l : Lib) (e : Err) : Prop :=
  (l.present = false ∧ e = .library) ∨ (l.present = true ∧ ∃ k, e = .symbol k ∧ Lacks d l k ∧ ∀ j < k, ¬ Lacks d l j)

/-- What a call of `i` is expected to do. -/
def Expected (d : Decl) (l : Lib) (i : Nat) (o : Outcome) : Prop :=
  (Works d l ∧ l.has i = true ∧ o = .ran) ∨ (Works d l ∧ l.has i = false ∧ o = .raised (.unsupported i)) ∨
  (¬ Works d l ∧ ∃ e, Reason d l e ∧ o = .raised e)

/-- No call starts while another thread is loading the library. -/
def Calm (d : Decl) (l : Lib) : St → List Ev → Prop
  | _, [] => True
  | s, e :: es =>
    (∀ t i, e = .call t i → ∀ t' p, s.once ≠ .running t' p) ∧
    (∀ s', step d l s e = some s' → Calm d l s' es)

end Spead2.Loader
