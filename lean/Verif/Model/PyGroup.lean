import Verif.Model.PyItem

/-!
# Item groups and heap generators

Model of `ItemGroup` (src/spead2/__init__.py 657-820) and `HeapGenerator`
(src/spead2/send/__init__.py 42-173).  Items are objects: they are numbered, both dictionaries of a
group refer to them by number, and assigning to one is seen through every reference.  Numbers are
not used again, so a dead weak reference is one that differs from every live object.

`D` is the rest of a descriptor (description, shape, dtype, order, format), `V` a value, `R` the raw
bytes of an item.
-/

namespace Spead2

/-- An `Item` (src/spead2/__init__.py 350-386). -/
structure PyItemObj (D V : Type) where
  id : Nat
  name : String
  rest : D
  value : Option V
  version : Nat
  deriving DecidableEq, Repr

/-- `d[k]` for a dictionary in the order of insertion. -/
def dictGet {K : Type} [DecidableEq K] (k : K) : List (K × Nat) → Option Nat
  | [] => none
  | (k', v) :: rest => if k' = k then some v else dictGet k rest

/-- `d[k] = v`. -/
def dictSet {K : Type} [DecidableEq K] (k : K) (v : Nat) : List (K × Nat) → List (K × Nat)
  | [] => [(k, v)]
  | (k', v') :: rest => if k' = k then (k, v) :: rest else (k', v') :: dictSet k v rest

/-- `del d[k]`: `none` is `KeyError`. -/
def dictDel {K : Type} [DecidableEq K] (k : K) : List (K × Nat) → Option (List (K × Nat))
  | [] => none
  | (k', v) :: rest => if k' = k then some rest else (dictDel k rest).map ((k', v) :: ·)

/-- An `ItemGroup` (src/spead2/__init__.py 674-676), with the item objects. -/
structure PyGroup (D V : Type) where
  objs : Nat → Option (PyItemObj D V)
  fresh : Nat
  byId : List (Nat × Nat)
  byName : List (String × Nat)

section
variable {D V R : Type}

/-- A group without items. -/
def PyGroup.empty : PyGroup D V := ⟨fun _ => none, 0, [], []⟩

/-- Change an object. -/
def PyGroup.put (g : PyGroup D V) (o : Nat) (x : PyItemObj D V) : PyGroup D V :=
  { g with objs := fun k => if k = o then some x else g.objs k }

/-- A new object (`Item.__init__`, src/spead2/__init__.py 360-364). -/
def PyGroup.alloc (g : PyGroup D V) (x : PyItemObj D V) : PyGroup D V :=
  { g with objs := fun k => if k = g.fresh then some x else g.objs k, fresh := g.fresh + 1 }

/-- `item.value = v` (src/spead2/__init__.py 380-385). -/
def PyGroup.setValue (g : PyGroup D V) (o : Nat) (v : V) : PyGroup D V :=
  match g.objs o with
  | none => g
  | some x => g.put o { x with value := some v, version := x.version + 1 }

/-- `item.version += 1`. -/
def PyGroup.bump (g : PyGroup D V) (o : Nat) : PyGroup D V :=
  match g.objs o with
  | none => g
  | some x => g.put o { x with version := x.version + 1 }

/-- `_remove_item` (src/spead2/__init__.py 678-680). -/
def PyGroup.remove (g : PyGroup D V) (x : PyItemObj D V) : Option (PyGroup D V) :=
  match dictDel x.id g.byId, dictDel x.name g.byName with
  | some a, some b => some { g with byId := a, byName := b }
  | _, _ => none

/-- `new_version = max(new_version, old.version + 1)` (src/spead2/__init__.py 713-716). -/
def bumpPast (v : Nat) : Option (Nat × PyItemObj D V) → Nat
  | none => v
  | some (_, x) => max v (x.version + 1)

/-- Look an object up, with its contents. -/
def PyGroup.deref (g : PyGroup D V) : Option Nat → Option (Nat × PyItemObj D V)
  | none => none
  | some o => (g.objs o).map (fun x => (o, x))

/-- `self._remove_item(old)`, if there is one (src/spead2/__init__.py 720-723). -/
def PyGroup.removeOpt (g : PyGroup D V) : Option (Nat × PyItemObj D V) → Option (PyGroup D V)
  | none => some g
  | some (_, x) => g.remove x

/-- The new item is installed (src/spead2/__init__.py 708-727). -/
def PyGroup.install (g : PyGroup D V) (o : Nat) (x : PyItemObj D V)
    (old oldName : Option (Nat × PyItemObj D V)) : Option (PyGroup D V) :=
  let g := g.put o { x with version := bumpPast (bumpPast x.version old) oldName }
  match g.removeOpt old with
  | none => none
  | some g =>
    match g.removeOpt (if oldName.map Prod.fst = old.map Prod.fst then none else oldName) with
    | none => none
    | some g => some { g with byId := dictSet x.id o g.byId, byName := dictSet x.name o g.byName }

/-- The item has the same descriptor as the one found by id (src/spead2/__init__.py 693-701). -/
def sameDesc [DecidableEq D] (x : PyItemObj D V) : Option (Nat × PyItemObj D V) → Option Nat
  | none => none
  | some (o, y) => if y.name = x.name ∧ y.rest = x.rest then some o else none

/-- The value is transferred to the item with the same descriptor (src/spead2/__init__.py 702-706). -/
def PyGroup.transfer (g : PyGroup D V) (o : Nat) : Option V → PyGroup D V
  | none => g
  | some v => g.setValue o v

/-- `_add_item` (src/spead2/__init__.py 682-727). -/
def PyGroup.addObj [DecidableEq D] (g : PyGroup D V) (o : Nat) (x : PyItemObj D V) : Option (PyGroup D V) :=
  let old := g.deref (dictGet x.id g.byId)
  let oldName := g.deref (dictGet x.name g.byName)
  match sameDesc x old with
  | some o' => some (g.transfer o' x.value)
  | none => g.install o x old oldName

/-- `while item.id in self._by_id: item.id += 1` (src/spead2/__init__.py 742-743).  There are no more
used ids than entries in the dictionary, so that many tries are enough. -/
def autoId (byId : List (Nat × Nat)) : Nat → Nat → Nat
  | 0, i => i
  | n + 1, i => if (dictGet i byId).isSome then autoId byId n (i + 1) else i

/-- `add_item` (src/spead2/__init__.py 729-745), with the number of the item it returns. -/
def PyGroup.addItem [DecidableEq D] (g : PyGroup D V) (id : Option Nat) (name : String) (rest : D) (value : Option V) :
    Option (PyGroup D V × Nat) :=
  let i := id.getD (autoId g.byId g.byId.length 0x1000)
  let x : PyItemObj D V := ⟨i, name, rest, value, 1⟩
  ((g.alloc x).addObj g.fresh x).map (fun g' => (g', g.fresh))

/-- A heap: descriptors, and items with their raw values. -/
structure PyHeap (D R : Type) where
  descs : List (Nat × String × D)
  items : List (Nat × R)
  deriving DecidableEq, Repr

/-- The loop over the descriptors of a heap (src/spead2/__init__.py 799-801). -/
def PyGroup.updateDescs [DecidableEq D] : PyGroup D V → List (Nat × String × D) → Option (PyGroup D V)
  | g, [] => some g
  | g, (i, n, d) :: rest =>
    match (g.alloc ⟨i, n, d, none, 1⟩).addObj g.fresh ⟨i, n, d, none, 1⟩ with
    | none => none
    | some g => g.updateDescs rest

/-- The loop over the items (src/spead2/__init__.py 802-814): items of the protocol, with ids up to
`STREAM_CTRL_ID`, and items without a descriptor are skipped.  The flag is set if `set_from_raw`
raises, which ends the loop. -/
def PyGroup.updateItems (dec : D → R → Option V) : PyGroup D V → List (Nat × R) → PyGroup D V × Bool
  | g, [] => (g, false)
  | g, (i, r) :: rest =>
    if i ≤ 6 then g.updateItems dec rest
    else
      match g.deref (dictGet i g.byId) with
      | none => g.updateItems dec rest
      | some (o, x) =>
        match dec x.rest r with
        | none => (g, true)
        | some v => ((g.setValue o v).bump o).updateItems dec rest

/-- `update` (src/spead2/__init__.py 781-814). -/
def PyGroup.update [DecidableEq D] (g : PyGroup D V) (dec : D → R → Option V) (h : PyHeap D R) :
    Option (PyGroup D V × Bool) :=
  (g.updateDescs h.descs).map (fun g => g.updateItems dec h.items)

/-! ## Sending -/

/-- `_ItemInfo` (src/spead2/send/__init__.py 42-46); the weak reference is the number of the object. -/
structure PyItemInfo where
  version : Option Nat
  descriptorCnt : Option Nat
  item : Nat
  deriving DecidableEq, Repr

/-- `HeapGenerator` (src/spead2/send/__init__.py 65-74). -/
structure PyGen where
  info : Nat → Option PyItemInfo
  frequency : Option Nat
  cnt : Nat

/-- A new generator. -/
def PyGen.new (frequency : Option Nat) : PyGen := ⟨fun _ => none, frequency, 0⟩

/-- The values of the parameters `descriptors` and `data` (src/spead2/send/__init__.py 125-128). -/
inductive SendMode where
  | stale | all | none
  deriving DecidableEq, Repr

/-- The descriptor is due for a resend (src/spead2/send/__init__.py 85-90). -/
def PyGen.due (q : PyGen) (sent : Nat) : Bool :=
  match q.frequency with
  | none => false
  | some f => decide (f ≤ q.cnt - sent)

/-- `_descriptor_stale` (src/spead2/send/__init__.py 81-97), with its changes to the information. -/
def PyGen.descriptorStale (q : PyGen) (o : Nat) (i : PyItemInfo) : Bool × PyItemInfo :=
  match i.descriptorCnt with
  | none => (true, i)
  | some sent =>
    if q.due sent then (true, i)
    else if i.item ≠ o then (true, { i with version := none, item := o })
    else (false, i)

/-- Whether the descriptor is sent (src/spead2/send/__init__.py 132-136). -/
def PyGen.decideDesc (q : PyGen) (m : SendMode) (o : Nat) (i : PyItemInfo) : Bool × PyItemInfo :=
  match m with
  | .all => (true, { i with descriptorCnt := some q.cnt })
  | .none => (false, i)
  | .stale =>
    let (b, i) := q.descriptorStale o i
    (b, if b then { i with descriptorCnt := some q.cnt } else i)

/-- Whether the value is sent (src/spead2/send/__init__.py 137-140). -/
def decideData (m : SendMode) (x : PyItemObj D V) (i : PyItemInfo) : Option V × PyItemInfo :=
  match x.value with
  | none => (none, i)
  | some v =>
    if m = .all ∨ (m = .stale ∧ i.version ≠ some x.version) then (some v, { i with version := some x.version })
    else (none, i)

/-- `_get_info` (src/spead2/send/__init__.py 76-79). -/
def PyGen.getInfo (q : PyGen) (id o : Nat) : PyItemInfo := (q.info id).getD ⟨none, none, o⟩

/-- One item in `add_to_heap` (src/spead2/send/__init__.py 130-140). -/
def PyGen.addOne (q : PyGen) (enc : D → V → R) (dm vm : SendMode) (h : PyHeap D R) (o : Nat) (x : PyItemObj D V) :
    PyGen × PyHeap D R :=
  let (sd, i) := q.decideDesc dm o (q.getInfo x.id o)
  let (sv, i) := decideData vm x i
  ({ q with info := fun k => if k = x.id then some i else q.info k },
    { descs := if sd then h.descs ++ [(x.id, x.name, x.rest)] else h.descs,
      items := match sv with | some v => h.items ++ [(x.id, enc x.rest v)] | none => h.items })

/-- The loop of `add_to_heap` (src/spead2/send/__init__.py 130-140). -/
def PyGen.addAll (enc : D → V → R) (dm vm : SendMode) :
    List (Nat × PyItemObj D V) → PyGen × PyHeap D R → PyGen × PyHeap D R
  | [], s => s
  | (o, x) :: rest, (q, h) => PyGen.addAll enc dm vm rest (q.addOne enc dm vm h o x)

/-- `values()` (src/spead2/__init__.py 769-771): the items in the order of `_by_name`. -/
def PyGroup.values (g : PyGroup D V) : List (Nat × PyItemObj D V) :=
  g.byName.filterMap (fun e => g.deref (some e.2))

/-- `get_heap` (src/spead2/send/__init__.py 99-151). -/
def PyGen.getHeap (q : PyGen) (g : PyGroup D V) (enc : D → V → R) (dm vm : SendMode) : PyGen × PyHeap D R :=
  let (q, h) := PyGen.addAll enc dm vm g.values (q, ⟨[], []⟩)
  ({ q with cnt := q.cnt + 1 }, h)

end

end Spead2
