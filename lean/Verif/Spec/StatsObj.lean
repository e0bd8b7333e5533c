import Verif.Model.StatsObj

/-!
# What users expect of statistics objects

Each is a table of its own: names, modes and values.  No sharing, indices only where the program uses them.
-/

namespace Spead2.StatsObj

structure Row where
  name : String
  mode : StatMode
  value : UInt64
  deriving DecidableEq, Repr

/-- A table, or an object that was moved from. -/
inductive Table where
  | live (rows : List Row)
  | moved

structure Tables where
  objs : Nat → Option Table
  next : Nat

def Tables.init : Tables := ⟨fun _ => none, 0⟩

def Tables.rows (t : Tables) (a : Nat) : Option (List Row) :=
  match t.objs a with
  | some (.live r) => some r
  | _ => none

/-- Two values of a statistic together. -/
def merge (mode : StatMode) (v w : UInt64) : UInt64 :=
  match mode with
  | .counter => v + w
  | .maximum => max v w

def columns (r : List Row) : List (String × StatMode) := r.map fun e => (e.name, e.mode)

/-- The core statistics. -/
def coreNames : List String :=
  ["heaps", "incomplete_heaps_evicted", "incomplete_heaps_flushed", "packets", "batches", "worker_blocked", "max_batch", "single_packet_heaps", "search_dist"]

def lookup (r : List Row) (n : String) : Option UInt64 := (r.find? fun e => e.name == n).map (·.value)

def update (r : List Row) (n : String) (v : UInt64) : List Row := r.map fun e => if e.name = n then { e with value := v } else e

def Tables.set (t : Tables) (a : Nat) (r : List Row) : Tables := { t with objs := put t.objs a (some (.live r)) }

/-- What an operation should do; `none` if the program may not do this: use an object that does not exist, or one that was moved from, except to destroy it and (if `reuse`) to assign to it. -/
def expect (reuse : Bool) (t : Tables) : Op → Option (Tables × Res)
  | .make custom =>
    if ((defaultStats ++ custom).map (·.name)).Nodup then
      some ({ (t.set t.next ((defaultStats ++ custom).map fun c => ⟨c.name, c.mode, 0⟩)) with next := t.next + 1 }, .done)
    else none
  | .copy a => (t.rows a).map fun r => ({ (t.set t.next r) with next := t.next + 1 }, .done)
  | .move a => (t.rows a).map fun r => ({ objs := put (put t.objs a (some .moved)) t.next (some (.live r)), next := t.next + 1 }, .done)
  | .assign a b =>
    (t.rows b).bind fun s =>
      match t.objs a with
      | some (.live r) => if columns r = columns s then some (t.set a s, .done) else some (t, .threw)
      | some .moved => if reuse then some (t.set a s, .done) else none
      | none => none
  | .add a b =>
    (t.rows a).bind fun r => (t.rows b).map fun s =>
      if columns r = columns s then (t.set a (r.zipWith (fun x y => { x with value := merge x.mode x.value y.value }) s), .done) else (t, .threw)
  | .destroy a => (t.objs a).map fun _ => ({ t with objs := put t.objs a none }, .done)
  | .getIdx a i => (t.rows a).map fun r => (t, match r[i]? with | some e => .val e.value | none => .threw)
  | .setIdx a i v => (t.rows a).map fun r => match r[i]? with | some e => (t.set a (r.set i { e with value := v }), .done) | none => (t, .threw)
  | .getName a n => (t.rows a).map fun r => (t, match lookup r n with | some v => .val v | none => .threw)
  | .setName a n v => (t.rows a).map fun r => if (lookup r n).isSome then (t.set a (update r n v), .done) else (t, .threw)
  | .getAttr a n => (t.rows a).map fun r => (t, if n ∈ coreNames then (match lookup r n with | some v => .val v | none => .threw) else .threw)
  | .setAttr a n v => (t.rows a).map fun r => if n ∈ coreNames then (t.set a (update r n v), .done) else (t, .threw)
  | .items a => (t.rows a).map fun r => (t, .list (r.map fun e => (e.name, e.value)))

/-- What a program should see, and the tables at its end. -/
def expectAll (reuse : Bool) (t : Tables) : List Op → Option (Tables × List Res)
  | [] => some (t, [])
  | op :: ops => (expect reuse t op).bind fun x => (expectAll reuse x.1 ops).map fun y => (y.1, x.2 :: y.2)

end Spead2.StatsObj
