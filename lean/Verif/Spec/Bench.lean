import Verif.Model.Bench

/-!
# What users of spead2_bench rely on
-/

namespace Spead2.Bench

/-- The history of a measurement with `n` heaps and the option `--max-heaps`. -/
def Reach (n maxHeaps : Nat) (evs : List SendEv) (s : SendSt) : Prop := SendSt.run (SendCfg.make n maxHeaps) {} evs = some s

/-- What the stream has reported: errors and numbers of bytes, in order. -/
def outcomes (evs : List SendEv) : List (Option Nat × Nat) := evs.filterMap (fun e => match e with | .done ec b => some (ec, b) | _ => none)

/-- Error `e` is the first one. -/
def FirstError (l : List (Option Nat × Nat)) (e : Nat) : Prop := ∃ pre b post, l = pre ++ (some e, b) :: post ∧ ∀ x ∈ pre, x.1 = none

/-- The measurements of a search are those of a network that sustains exactly the rates up to `T`: each is good if and only if its rate is at most `T`. -/
def Threshold (T : Rat) : Search → List (Bool × Rat) → Prop
  | _, [] => True
  | s, (good, actual) :: ms => s.go = true → ((good = true ↔ s.rate ≤ T) ∧ Threshold T (s.step good actual) ms)

/-- What a well-behaved master sends for one measurement. -/
def session (cfg : List String) : List String := "start" :: cfg ++ ["end_config", "stop"]

end Spead2.Bench
