import Verif.Model.Config

/-!
# What a configuration should be: a value

Every object has its own settings and its own list of statistics; nothing is shared.
-/

namespace Spead2.Cfg

/-- A configuration with its statistics. -/
structure Value where
  set : Settings
  stats : List StatConfig
  deriving DecidableEq

/-- A new configuration, as documented: four heaps, one substream, `memcpy`, stop items are heeded, packets without a heap length are
allowed, packets out of order are not. -/
def Value.initial : Value :=
  { set := { maxHeaps := 4, substreams := 1, bugCompat := 0, memcpy := .std, allocator := 0, stopOnStopItem := true
             allowUnsized := true, allowOoo := false, streamId := 0, explicitStart := false }
    stats := defaultStats }

/-- What the documentation allows a call to be given, for a configuration that has these statistics. -/
def Allowed (stats : List StatConfig) : Setter → Prop
  | .maxHeaps n => 0 < n
  | .substreams n => 0 < n
  | .bugCompat m => m < 8
  | .memcpyId i => i = 0 ∨ i = 1
  | .addStat name _ => ∀ c ∈ stats, c.name ≠ name
  | _ => True

instance (stats : List StatConfig) (s : Setter) : Decidable (Allowed stats s) := by
  cases s <;> unfold Allowed <;> infer_instance

/-- What an allowed call does. -/
def Value.put (v : Value) : Setter → Value
  | .maxHeaps n => { v with set := { v.set with maxHeaps := n } }
  | .substreams n => { v with set := { v.set with substreams := n } }
  | .bugCompat m => { v with set := { v.set with bugCompat := m } }
  | .allocator a => { v with set := { v.set with allocator := a } }
  | .memcpyFunction f => { v with set := { v.set with memcpy := .user f } }
  | .memcpyId i => { v with set := { v.set with memcpy := if i = 0 then .std else .nontemporal } }
  | .stopOnStopItem b => { v with set := { v.set with stopOnStopItem := b } }
  | .allowUnsized b => { v with set := { v.set with allowUnsized := b } }
  | .allowOoo b => { v with set := { v.set with allowOoo := b } }
  | .streamId i => { v with set := { v.set with streamId := i } }
  | .explicitStart b => { v with set := { v.set with explicitStart := b } }
  | .addStat name mode => { v with stats := v.stats ++ [⟨name, mode⟩] }

/-- What an allowed call answers. -/
def Value.answer (v : Value) : Setter → Answer
  | .addStat _ _ => .index v.stats.length
  | _ => .done

/-- A configuration that streams can work with. -/
structure Value.Valid (v : Value) : Prop where
  heaps : 0 < v.set.maxHeaps
  substreams : 0 < v.set.substreams
  compat : v.set.bugCompat < 8
  builtin : defaultStats <+: v.stats
  names : (v.stats.map StatConfig.name).Nodup

/-- All objects of a program, as values. -/
structure Objects where
  configs : List Value
  /-- streams: the configuration they were made with, and their counters -/
  streams : List (Value × List UInt64)
  /-- statistics that streams were asked for -/
  results : List (List StatConfig × List UInt64)
  deriving DecidableEq

def Objects.initial : Objects := ⟨[], [], []⟩

/-- What an operation should do. -/
def Objects.step (o : Objects) : Op → Option (Objects × Answer)
  | .create => some ({ o with configs := o.configs ++ [Value.initial] }, .done)
  | .copy i => (o.configs[i]?).map fun v => ({ o with configs := o.configs ++ [v] }, .done)
  | .assign i j =>
    match o.configs[i]?, o.configs[j]? with
    | some _, some v => some ({ o with configs := o.configs.set i v }, .done)
    | _, _ => none
  | .call i s => (o.configs[i]?).map fun v =>
      if Allowed v.stats s then ({ o with configs := o.configs.set i (v.put s) }, v.answer s) else (o, .invalid)
  | .stream i => (o.configs[i]?).map fun v =>
      ({ o with streams := o.streams ++ [(v, List.replicate v.stats.length 0)] }, .done)
  | .count k values =>
    match o.streams[k]? with
    | none => none
    | some (v, _) => if values.length = v.stats.length then some ({ o with streams := o.streams.set k (v, values) }, .done) else none
  | .getStats k => (o.streams[k]?).map fun s => ({ o with results := o.results ++ [(s.1.stats, s.2)] }, .done)

/-- A program on values. -/
def Objects.run (o : Objects) : List Op → Option (Objects × List Answer)
  | [] => some (o, [])
  | op :: ops =>
    match o.step op with
    | none => none
    | some (o', a) =>
      match o'.run ops with
      | none => none
      | some (o'', as) => some (o'', a :: as)

/-- What a program sees of a configuration. -/
def World.value (w : World) (c : RecvConfig) : Value := ⟨c.set, (w.vectors[c.stats]?).getD []⟩

/-- What a program sees of its objects. -/
def World.objects (w : World) : Objects :=
  { configs := w.configs.map w.value
    streams := w.streams.map fun s => (w.value s.1, s.2)
    results := w.results.map fun r => ((w.vectors[r.config]?).getD [], r.values) }

/-- What a call of a sender's configuration may be given. -/
def SendAllowed : SendSetter → Prop
  | .rate x => ∃ r : Rat, x = .fin r ∧ 0 ≤ r
  | .ratio x => ∃ r : Rat, x = .fin r ∧ 1 ≤ r
  | .maxHeaps n => 0 < n
  | _ => True

end Spead2.Cfg
