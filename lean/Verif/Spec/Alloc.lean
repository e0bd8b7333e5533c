import Verif.Model.Alloc

/-!
# What memory allocators should do
-/

namespace Spead2.Alloc

/-- States that can be reached from a kernel without mappings. -/
inductive Run (k : Kernel) : St → Prop where
  | init : k.maps = [] → Run k { k := k }
  | step {s s' : St} {e : Ev} {r : Res} : Run k s → s.step e = some (s', r) → Run k s'

/-- All pointers were released. -/
def AllReleased (s : St) : Prop := ∀ x ∈ s.ptrs, x.live = false

/-- The pointer was given a mapping with huge pages, and its size in ordinary pages is not a multiple of theirs. -/
def Ptr.odd (k : Kernel) (x : Ptr) : Bool := x.huge && decide (pagesFor x.size k.page * k.page % k.huge ≠ 0)

/-- The allocation is a mapping. -/
def Ptr.mapped (x : Ptr) : Bool :=
  match x.del with
  | .unmap _ => true
  | _ => false

/-- The pointer has a reference to an allocator. -/
def Ptr.refers (a : Nat) (x : Ptr) : Bool :=
  match x.del with
  | .legacy b _ => x.live && b == a
  | _ => false

/-- References that live pointers have to an allocator. -/
def St.holds (s : St) (a : Nat) : Nat := s.ptrs.countP (Ptr.refers a)

/-- Events in order; `none` if one is impossible. -/
def runs (s : St) : List Ev → Option St
  | [] => some s
  | e :: es =>
    match s.step e with
    | some (s', _) => runs s' es
    | none => none

end Spead2.Alloc
