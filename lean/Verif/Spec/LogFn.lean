import Verif.Model.LogFn

/-!
# What a program expects of its log function
-/

namespace Spead2.LogFn

/-- The level is compiled in: warnings always, information unless only warnings are wanted, debugging only if all is. -/
def Enabled : Level → Level → Bool
  | .warning, _ => true
  | .info, .warning => false
  | .info, _ => true
  | .debug, .debug => true
  | .debug, _ => false

/-- Calls of log functions in progress for thread `t` after `p`: those that have begun, and those that have ended. -/
def begun {F : Type} (max : Level) (t : Nat) (p : List (Ev F)) : Nat :=
  p.countP (fun e => match e with | .log t' l _ => t' == t && Enabled l max | _ => false)

def ended {F : Type} (t : Nat) (p : List (Ev F)) : Nat :=
  p.countP (fun e => match e with | .done t' => t' == t | _ => false)

/-- Any number of threads log messages, in any order, also from within log functions; at the end none is still doing so. -/
structure Batch {F : Type} (max : Level) (b : List (Ev F)) : Prop where
  only : ∀ e ∈ b, (∃ t l m, e = .log t l m) ∨ ∃ t, e = .done t
  before : ∀ p q, b = p ++ q → ∀ t, ended t p ≤ begun max t p
  all : ∀ t, ended t b = begun max t b

/-- A phase of a program that replaces the log function only while nothing is logged. -/
inductive Phase (F : Type) where
  | messages (b : List (Ev F))
  | install (t : Nat) (f : Option F)

/-- The events of a phase. -/
def Phase.events {F : Type} : Phase F → List (Ev F)
  | .messages b => b
  | .install t f => [.set t f, .setDone t]

/-- The messages of a batch that are compiled in, in order. -/
def texts {F : Type} (max : Level) (b : List (Ev F)) : List (Level × String) :=
  b.filterMap (fun e => match e with | .log _ l m => if Enabled l max then some (l, m) else none | _ => none)

/-- What the functions should have been called with, what should have been thrown, and what set_log_function should have returned, if `f` is installed. -/
def expected {F : Type} (max : Level) : Option F → List (Phase F) → List (F × Level × String) × List (Level × String) × List (Option F)
  | _, [] => ([], [], [])
  | f, .messages b :: rest =>
    let r := expected max f rest
    match f with
    | some g => ((texts max b).map (fun x => (g, x)) ++ r.1, r.2.1, r.2.2)
    | none => (r.1, texts max b ++ r.2.1, r.2.2)
  | f, .install _ g :: rest =>
    let r := expected max g rest
    (r.1, r.2.1, f :: r.2.2)

end Spead2.LogFn
