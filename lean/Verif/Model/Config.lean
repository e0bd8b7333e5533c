import Verif.Model.Stats

/-!
# Configuration objects

`recv::stream_config` (include/spead2/recv_stream.h:337-476, src/recv_stream.cpp:254-373) with the statistics in vectors
that objects share through `shared_ptr`, and the other configuration classes.  A `std::function` or `shared_ptr` that is
only stored is a number.  Not modelled: the reference counts (a vector is never changed or reused once made).
-/

namespace Spead2.Cfg

/-- What `memcpy` holds: one of the two built-in functions or one of the user's (src/recv_stream.cpp:291-326). -/
inductive Copier where
  | std
  | nontemporal
  | user (f : Nat)
  deriving DecidableEq

/-- The members of `recv::stream_config` other than the statistics (include/spead2/recv_stream.h:344-365). -/
structure Settings where
  maxHeaps : Nat
  substreams : Nat
  bugCompat : Nat
  memcpy : Copier
  allocator : Nat
  stopOnStopItem : Bool
  allowUnsized : Bool
  allowOoo : Bool
  streamId : Nat
  explicitStart : Bool
  deriving DecidableEq

/-- `recv::stream_config` (include/spead2/recv_stream.h:344-374).  `stats` is the address of a vector. -/
structure RecvConfig where
  set : Settings
  stats : Nat
  deriving DecidableEq

/-- The constructor (src/recv_stream.cpp:254-259, include/spead2/recv_stream.h:341-374).  `default_stats` is vector 0. -/
def RecvConfig.initial : RecvConfig :=
  { set := { maxHeaps := 4, substreams := 1, bugCompat := 0, memcpy := .std, allocator := 0, stopOnStopItem := true
             allowUnsized := true, allowOoo := false, streamId := 0, explicitStart := false }
    stats := 0 }

/-- A call that changes a configuration. -/
inductive Setter where
  | maxHeaps (n : Nat)
  | substreams (n : Nat)
  | bugCompat (m : Nat)
  | allocator (a : Nat)
  | memcpyFunction (f : Nat)
  | memcpyId (id : Nat)
  | stopOnStopItem (b : Bool)
  | allowUnsized (b : Bool)
  | allowOoo (b : Bool)
  | streamId (i : Nat)
  | explicitStart (b : Bool)
  | addStat (name : String) (mode : StatMode)
  deriving DecidableEq

/-- What a call gives: an exception, nothing, or an index. -/
inductive Answer where
  | invalid
  | done
  | index (i : Nat)
  deriving DecidableEq

/-- The setters and `add_stat` (src/recv_stream.cpp:261-373) on a configuration, with all vectors made so far.  `none`:
an invalid pointer.  `~BUG_COMPAT_PYSPEAD_0_5_2` are the bits from 3 on (include/spead2/common_defines.h:59);
`MEMCPY_STD` and `MEMCPY_NONTEMPORAL` are 0 and 1 (include/spead2/common_defines.h:87-91). -/
def RecvConfig.call (vectors : List (List StatConfig)) (c : RecvConfig) :
    Setter → Option (List (List StatConfig) × RecvConfig × Answer)
  | .maxHeaps n => if n = 0 then some (vectors, c, .invalid) else some (vectors, { c with set := { c.set with maxHeaps := n } }, .done)
  | .substreams n => if n = 0 then some (vectors, c, .invalid) else some (vectors, { c with set := { c.set with substreams := n } }, .done)
  | .bugCompat m => if m >>> 3 ≠ 0 then some (vectors, c, .invalid) else some (vectors, { c with set := { c.set with bugCompat := m } }, .done)
  | .allocator a => some (vectors, { c with set := { c.set with allocator := a } }, .done)
  | .memcpyFunction f => some (vectors, { c with set := { c.set with memcpy := .user f } }, .done)
  | .memcpyId 0 => some (vectors, { c with set := { c.set with memcpy := .std } }, .done)
  | .memcpyId 1 => some (vectors, { c with set := { c.set with memcpy := .nontemporal } }, .done)
  | .memcpyId (_ + 2) => some (vectors, c, .invalid)
  | .stopOnStopItem b => some (vectors, { c with set := { c.set with stopOnStopItem := b } }, .done)
  | .allowUnsized b => some (vectors, { c with set := { c.set with allowUnsized := b } }, .done)
  | .allowOoo b => some (vectors, { c with set := { c.set with allowOoo := b } }, .done)
  | .streamId i => some (vectors, { c with set := { c.set with streamId := i } }, .done)
  | .explicitStart b => some (vectors, { c with set := { c.set with explicitStart := b } }, .done)
  | .addStat name mode =>
    match vectors[c.stats]? with
    | none => none
    | some stats =>
      match addStat stats name mode with
      | .error _ => some (vectors, c, .invalid)
      | .ok (new, i) => some (vectors ++ [new], { c with stats := vectors.length }, .index i)

/-- `stream_stats` as `get_stats` makes it (src/recv_stream.cpp:620-625): the address of the vector and the values. -/
structure StatsObj where
  config : Nat
  values : List UInt64
  deriving DecidableEq

/-- All objects of a program: the vectors of statistics, the configurations, the configurations kept by streams with their
counters (src/recv_stream.cpp:378-388), and the statistics that were asked for. -/
structure World where
  vectors : List (List StatConfig)
  configs : List RecvConfig
  streams : List (RecvConfig × List UInt64)
  results : List StatsObj
  deriving DecidableEq

/-- Before `main` (src/recv_stream.cpp:119-123). -/
def World.initial : World := { vectors := [defaultStats], configs := [], streams := [], results := [] }

/-- What a program can do: make a configuration, copy one, assign `j` to `i`, call a setter, make a stream, count in a
stream (its counters get any values), ask a stream for its statistics. -/
inductive Op where
  | create
  | copy (i : Nat)
  | assign (i j : Nat)
  | call (i : Nat) (s : Setter)
  | stream (i : Nat)
  | count (k : Nat) (values : List UInt64)
  | getStats (k : Nat)
  deriving DecidableEq

/-- One step and its answer.  `none`: an object that does not exist, an invalid pointer, or counters of another number. -/
def World.step (w : World) : Op → Option (World × Answer)
  | .create => some ({ w with configs := w.configs ++ [RecvConfig.initial] }, .done)
  | .copy i =>
    match w.configs[i]? with
    | none => none
    | some c => some ({ w with configs := w.configs ++ [c] }, .done)
  | .assign i j =>
    match w.configs[i]?, w.configs[j]? with
    | some _, some c => some ({ w with configs := w.configs.set i c }, .done)
    | _, _ => none
  | .call i s =>
    match w.configs[i]? with
    | none => none
    | some c =>
      match c.call w.vectors s with
      | none => none
      | some (v, c', a) => some ({ w with vectors := v, configs := w.configs.set i c' }, a)
  | .stream i =>
    match w.configs[i]? with
    | none => none
    | some c =>
      match w.vectors[c.stats]? with
      | none => none
      | some st => some ({ w with streams := w.streams ++ [(c, List.replicate st.length 0)] }, .done)
  | .count k values =>
    match w.streams[k]? with
    | none => none
    | some (c, old) => if values.length = old.length then some ({ w with streams := w.streams.set k (c, values) }, .done) else none
  | .getStats k =>
    match w.streams[k]? with
    | none => none
    | some (c, values) => some ({ w with results := w.results ++ [⟨c.stats, values⟩] }, .done)

/-- A program. -/
def World.run (w : World) : List Op → Option (World × List Answer)
  | [] => some (w, [])
  | op :: ops =>
    match w.step op with
    | none => none
    | some (w', a) =>
      match w'.run ops with
      | none => none
      | some (w'', as) => some (w'', a :: as)

/-- `adjust_config` (include/spead2/recv_chunk_stream.h:702-716) for the chunk stream `self`: its allocator and its function
for copying, and two more statistics.  `none`: an invalid pointer; `some none`: an exception. -/
def adjustConfig (self : Nat) (vectors : List (List StatConfig)) (c : RecvConfig) :
    Option (Option (List (List StatConfig) × RecvConfig)) :=
  match ({ c with set := { c.set with allowUnsized := false, allocator := self, memcpy := .user self } } : RecvConfig).call
      vectors (.addStat "too_old_heaps" .counter) with
  | none => none
  | some (v, c', .index _) =>
    match c'.call v (.addStat "rejected_heaps" .counter) with
    | none => none
    | some (v', c'', .index _) => some (some (v', c''))
    | some _ => some none
  | some _ => some none

/-- A `double`. -/
inductive Dbl where
  | nan
  | inf (negative : Bool)
  | fin (q : Rat)
  deriving DecidableEq

/-- `x < y` for a finite `y`. -/
def Dbl.lt : Dbl → Rat → Bool
  | .nan, _ => false
  | .inf neg, _ => neg
  | .fin x, y => x < y

/-- `std::isfinite`. -/
def Dbl.finite : Dbl → Bool
  | .fin _ => true
  | _ => false

/-- `send::stream_config` (include/spead2/send_stream_config.h:40-90).  The method is a number.  The default ratio 1.05 is
exact here. -/
structure SendConfig where
  maxPacketSize : Nat := 1472
  rate : Dbl := .fin 0
  burstSize : Nat := 65536
  maxHeaps : Nat := 4
  ratio : Dbl := .fin (21 / 20)
  method : Nat := 2
  deriving DecidableEq

inductive SendSetter where
  | maxPacketSize (n : Nat)
  | rate (x : Dbl)
  | maxHeaps (n : Nat)
  | burstSize (n : Nat)
  | ratio (x : Dbl)
  | method (m : Nat)

/-- The setters (src/send_stream_config.cpp:28-69).  `none`: an exception. -/
def SendConfig.call (c : SendConfig) : SendSetter → Option SendConfig
  | .maxPacketSize n => some { c with maxPacketSize := n }
  | .rate x => if x.lt 0 || !x.finite then none else some { c with rate := x }
  | .maxHeaps n => if n = 0 then none else some { c with maxHeaps := n }
  | .burstSize n => some { c with burstSize := n }
  | .ratio x => if x.lt 1 || !x.finite then none else some { c with ratio := x }
  | .method m => some { c with method := m }

/-- `chunk_stream_config` (include/spead2/recv_chunk_stream.h:133-215); functions are numbers. -/
structure ChunkCfg where
  items : List Nat := []
  maxChunks : Nat := 2
  place : Option Nat := none
  allocate : Option Nat := none
  ready : Option Nat := none
  presence : Nat := 0
  extra : Nat := 0
  deriving DecidableEq

inductive ChunkSetter where
  | items (l : List Nat)
  | maxChunks (n : Nat)
  | place (f : Option Nat)
  | allocate (f : Option Nat)
  | ready (f : Option Nat)
  | enablePresence (n : Nat)
  | disablePresence
  | extra (n : Nat)

/-- The setters (src/recv_chunk_stream.cpp:42-92).  `none`: an exception. -/
def ChunkCfg.call (c : ChunkCfg) : ChunkSetter → Option ChunkCfg
  | .items l => some { c with items := l }
  | .maxChunks n => if n = 0 then none else some { c with maxChunks := n }
  | .place f => some { c with place := f }
  | .allocate f => some { c with allocate := f }
  | .ready f => some { c with ready := f }
  | .enablePresence n => if n = 0 then none else some { c with presence := n }
  | .disablePresence => some { c with presence := 0 }
  | .extra n => some { c with extra := n }

/-- Whether `chunk_stream` accepts the configuration (src/recv_chunk_stream.cpp:114-115, 223-229). -/
def ChunkCfg.accepted (c : ChunkCfg) : Bool := c.place.isSome && c.allocate.isSome && c.ready.isSome

/-- `ring_stream_config` (include/spead2/recv_ring_stream.h:36-58). -/
structure RingCfg where
  heaps : Nat := 4
  contiguousOnly : Bool := true
  deriving DecidableEq

inductive RingSetter where
  | heaps (n : Nat)
  | contiguousOnly (b : Bool)

/-- The setters (src/recv_ring_stream.cpp:28-40).  `none`: an exception. -/
def RingCfg.call (c : RingCfg) : RingSetter → Option RingCfg
  | .heaps n => if n = 0 then none else some { c with heaps := n }
  | .contiguousOnly b => some { c with contiguousOnly := b }

/-- `chunk_stream_group_config` (include/spead2/recv_chunk_stream_group.h:40-90). -/
structure GroupCfg where
  maxChunks : Nat := 2
  lossless : Bool := false
  allocate : Option Nat := none
  ready : Option Nat := none
  deriving DecidableEq

inductive GroupSetter where
  | maxChunks (n : Nat)
  | lossless (b : Bool)
  | allocate (f : Option Nat)
  | ready (f : Option Nat)

/-- The setters (src/recv_chunk_stream_group.cpp:31-55).  `none`: an exception. -/
def GroupCfg.call (c : GroupCfg) : GroupSetter → Option GroupCfg
  | .maxChunks n => if n = 0 then none else some { c with maxChunks := n }
  | .lossless b => some { c with lossless := b }
  | .allocate f => some { c with allocate := f }
  | .ready f => some { c with ready := f }

/-- A history of calls; a call that throws leaves the object as it is. -/
def history {C S : Type} (call : C → S → Option C) (c : C) : List S → C
  | [] => c
  | s :: ss => history call ((call c s).getD c) ss

end Spead2.Cfg
