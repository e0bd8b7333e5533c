/-!
# Stream statistics

Models `stream_stat_config`, `stream_stats` and `stream_config::add_stat` (src/recv_stream.cpp:38-218,362-373).
Values are 64-bit and wrap around. `none` is undefined behaviour (an index out of range); a C++ exception is
`.error ()`.  The shared-pointer identity shortcut in the configuration comparison is not modelled: it only
avoids comparing a vector with itself.
-/

namespace Spead2

deriving instance DecidableEq for Except

/-- `stream_stat_config::mode` (include/spead2/recv_stream.h:66-72). -/
inductive StatMode
  | counter | maximum
  deriving DecidableEq, Repr

/-- `stream_stat_config` (include/spead2/recv_stream.h:58-95; `operator==` src/recv_stream.cpp:60-63). -/
structure StatConfig where
  name : String
  mode : StatMode
  deriving DecidableEq, Repr

/-- `stream_stat_config::combine` (src/recv_stream.cpp:43-58). -/
def StatConfig.combine (c : StatConfig) (a b : UInt64) : UInt64 :=
  match c.mode with
  | .counter => a + b
  | .maximum => if a < b then b else a

/-- `stream_stats` (include/spead2/recv_stream.h:184-330), without the reference members. -/
structure Stats where
  config : List StatConfig
  values : List UInt64
  deriving DecidableEq, Repr

/-- `stream_stats(config)` (src/recv_stream.cpp:130-135). -/
def Stats.zero (config : List StatConfig) : Stats := ⟨config, List.replicate config.length 0⟩

/-- The loop of `operator+=` (src/recv_stream.cpp:215-216): `values` decides the number of iterations. -/
def addLoop : List StatConfig → List UInt64 → List UInt64 → Option (List UInt64)
  | _, [], _ => some []
  | c :: cs, v :: vs, w :: ws => (addLoop cs vs ws).map (fun r => c.combine v w :: r)
  | _, _ :: _, _ => none

/-- `operator+=` and `operator+` (src/recv_stream.cpp:204-218). -/
def Stats.add (s t : Stats) : Option (Except Unit Stats) :=
  if s.config ≠ t.config then some (.error ())
  else (addLoop s.config s.values t.values).map (fun v => .ok ⟨s.config, v⟩)

/-- `s += t` for each `t` of a list in turn (caller's loop; src/recv_stream.cpp:211-218 for each step). -/
def Stats.addAll (s : Stats) : List Stats → Option (Except Unit Stats)
  | [] => some (.ok s)
  | t :: ts =>
    match s.add t with
    | none => none
    | some (.error e) => some (.error e)
    | some (.ok r) => r.addAll ts

/-- The loop of `operator=` (src/recv_stream.cpp:162-163). -/
def assignLoop : List UInt64 → List UInt64 → Option (List UInt64)
  | [], _ => some []
  | _ :: vs, w :: ws => (assignLoop vs ws).map (fun r => w :: r)
  | _ :: _, [] => none

/-- `operator=` (src/recv_stream.cpp:158-165). -/
def Stats.assign (s t : Stats) : Option (Except Unit Stats) :=
  if s.config ≠ t.config then some (.error ())
  else (assignLoop s.values t.values).map (fun v => .ok ⟨s.config, v⟩)

/-- `get_stat_index_nothrow` (src/recv_stream.cpp:74-82). -/
def statIndex : List StatConfig → String → Nat
  | [], _ => 0
  | c :: cs, name => if c.name = name then 0 else statIndex cs name + 1

/-- `at(name)`, `operator[](name)` (src/recv_stream.cpp:89-97,167-185). -/
def Stats.atName (s : Stats) (name : String) : Option (Except Unit UInt64) :=
  if statIndex s.config name = s.config.length then some (.error ())
  else s.values[statIndex s.config name]?.map .ok

/-- `count(name)` (src/recv_stream.cpp:197-200). -/
def Stats.countName (s : Stats) (name : String) : Nat := if statIndex s.config name ≠ s.values.length then 1 else 0

/-- `stream_config::add_stat` (src/recv_stream.cpp:362-373): the new list and the index. -/
def addStat (config : List StatConfig) (name : String) (mode : StatMode) : Except Unit (List StatConfig × Nat) :=
  if statIndex config name ≠ config.length then .error ()
  else .ok (config ++ [⟨name, mode⟩], config.length)

/-- The default statistics (src/recv_stream.cpp:100-117). -/
def defaultStats : List StatConfig :=
  [⟨"heaps", .counter⟩, ⟨"incomplete_heaps_evicted", .counter⟩, ⟨"incomplete_heaps_flushed", .counter⟩,
   ⟨"packets", .counter⟩, ⟨"batches", .counter⟩, ⟨"max_batch", .maximum⟩, ⟨"single_packet_heaps", .counter⟩,
   ⟨"search_dist", .counter⟩, ⟨"worker_blocked", .counter⟩]

/-- `stream_stat_indices::custom` (include/spead2/recv_stream.h:107). -/
def customIndex : Nat := 9

/-- Custom-statistics merge in `~add_packet_state` (src/recv_stream.cpp:470-473): indices `i ≥ custom`. -/
def mergeCustom (config : List StatConfig) (i : Nat) (vals batch : List UInt64) : Option (List UInt64) :=
  if i < config.length then
    match config[i]?, vals[i]?, batch[i]? with
    | some c, some v, some w => mergeCustom config (i + 1) (vals.set i (c.combine v w)) batch
    | _, _, _ => none
  else some vals
termination_by config.length - i

/-- Several counted batches one after another, as far as custom statistics are concerned
(src/recv_stream.cpp:440-474 for each). Each batch is given by the contents of `batch_stats` when its destructor
runs; the constructor zeroed it (src/recv_stream.cpp:446) and the subclass wrote to it since. -/
def mergeBatches (config : List StatConfig) (vals : List UInt64) : List (List UInt64) → Option (List UInt64)
  | [] => some vals
  | b :: rest =>
    match mergeCustom config customIndex vals b with
    | none => none
    | some v => mergeBatches config v rest

end Spead2
