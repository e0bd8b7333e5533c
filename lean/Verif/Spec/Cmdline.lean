import Verif.Model.Cmdline
import Verif.Spec.ThreadPool

/-!
# What users of the tools expect from command lines

An endpoint is `host:port` or `port`, with the port in decimal; anything that cannot be one is the name of a file.
-/

namespace Spead2.Cmdline

/-- The digit for a number below 10. -/
def digit (d : Nat) : Char := Char.ofNat (48 + d)

/-- A decimal number, possibly with zeros in front. -/
inductive Decimal : Text → Nat → Prop
  | one (d : Nat) (h : d < 10) : Decimal [digit d] d
  | more (t : Text) (v d : Nat) (ht : Decimal t v) (h : d < 10) : Decimal (t ++ [digit d]) (10 * v + d)

/-- The resolver understands decimal ports. -/
def SvcOk (svc : Text → Option Nat) : Prop := ∀ t v, Decimal t v → v ≤ 65535 → svc t = some v

/-- What follows the last colon, or everything. -/
def IsPort (e p : Text) : Prop := ':' ∉ p ∧ (e = p ∨ ∃ h, e = h ++ ':' :: p)

/-- A character that is in no number, in any language. -/
def Odd (c : Char) : Prop := digitVal c = none ∧ isSpace c = false ∧ c ≠ '+' ∧ c ≠ '-' ∧ c ≠ '_'

/-- The endpoints and files that a reader reads from. -/
def Reader.sources : Reader → List Source
  | .tcp h p _ _ => [.net h p]
  | .udp h p _ _ _ => [.net h p]
  | .ibv eps _ _ _ _ _ => eps.map fun x => .net x.1 x.2
  | .pcap f => [.file f]

/-- An endpoint, as opposed to a file. -/
def Source.isNet : Source → Bool
  | .net _ _ => true
  | _ => false

/-- A reader of the right kind with the right settings; addresses are bound for those in `bound`. -/
def Reader.Fits (o : Opts) (packet buffer : Nat) (bound : Text → Bool) : Reader → Prop
  | .tcp _ _ p b => o.tcp = true ∧ p = packet ∧ b = buffer
  | .udp h _ p b i => o.tcp = false ∧ o.ibv = false ∧ p = packet ∧ b = buffer ∧ i = (if bound h then o.bind else [])
  | .ibv eps i p b v m => o.tcp = false ∧ o.ibv = true ∧ eps ≠ [] ∧ i = o.bind ∧ p = packet ∧ b = buffer ∧ v = o.vector ∧ m = o.poll
  | .pcap _ => True

/-- The last value that was given for a flag. -/
def lastGiven {V : Type} (f : Text) (args : List (Text × V)) : Option V := (args.reverse.find? fun a => a.1 == f).map fun a => a.2

/-- The flags of the options that are not hidden. -/
def flags {V : Type} (xs : List (Entry V)) : List Text := xs.filterMap fun x => x.mapped.map flag

/-- One part of a list of cores: a number, or two with a dash. -/
inductive Part : Text → List Int → Prop
  | one (t : Text) (v : Nat) (h : Decimal t v) : Part t [(v : Int)]
  | range (s t : Text) (a n : Nat) (hs : Decimal s a) (ht : Decimal t (a + n)) : Part (s ++ '-' :: t) ((List.range (n + 1)).map fun (i : Nat) => (a : Int) + (i : Int))

end Spead2.Cmdline
