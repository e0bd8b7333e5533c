import Verif.Model.PyAsync

/-!
# What a user of asynchronous gets and puts sees
-/

namespace Spead2.Aio

/-- What call `i` has taken from its callback, whether or not the caller has it yet: it has
returned it, is about to, or was cancelled after it had taken it. -/
def taken {σ α β : Type} (s : St σ α β) (i : Nat) : Option β :=
  match s.phase i with
  | some (.sleeping b _) => some b
  | some (.awaiting _) => match s.fut i with
    | .result b => some b
    | _ => none
  | some (.returned b) => some b
  | some (.cancelled l) => l
  | _ => none

/-- The calls that have taken something, in the order in which they were made, with what they
passed to the callback and what they took. -/
def served {σ α β : Type} (s : St σ α β) : List (α × β) :=
  (List.range s.next).filterMap fun i => (s.arg i).bind fun a => (taken s i).map fun b => (a, b)

/-- Call `i` waits and nothing has happened to it yet. -/
def Waiting {σ α β : Type} (s : St σ α β) (i : Nat) : Prop :=
  (∃ m, s.phase i = some (.awaiting m)) ∧ s.fut i = .pending

/-- What has been pushed on a ringbuffer: everything until it was stopped. -/
def pushed {H : Type} : List (Op Unit (GetEnv H)) → List H
  | [] => []
  | .env (.push h) :: ops => h :: pushed ops
  | .env .stop :: _ => []
  | _ :: ops => pushed ops

/-- A history in which call `i` is not cancelled. -/
def NotCancelled {α ε : Type} (i : Nat) (ops : List (Op α ε)) : Prop :=
  ∀ j, Op.cancel j ∈ ops → j ≠ i

/-- What a gate has to keep to: `Stopped` is for ever and for everybody, and a readable descriptor
means that the callback will not find itself blocked. -/
structure Gate.Lawful {σ α β ε : Type} (g : Gate σ α β ε) : Prop where
  stopped_all : ∀ s a, g.attempt s a = .stopped → ∀ a', g.attempt s a' = .stopped
  stopped_env : ∀ s a, g.attempt s a = .stopped → ∀ e, g.attempt (g.env s e) a = .stopped
  readable : ∀ s a, g.readable s = true → g.attempt s a ≠ .blocked

end Spead2.Aio
