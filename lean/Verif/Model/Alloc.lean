/-!
# Memory allocators

`memory_allocator` and `mmap_allocator` (include/spead2/common_memory_allocator.h, src/common_memory_allocator.cpp), with the kernel's part as it is described in mmap(2): lengths are rounded
up to pages; `munmap` of a mapping with huge pages fails unless the length, rounded up to ordinary pages, is a multiple of their size (the manual page asks for the length itself to be one).  Addresses are numbers of allocations.  Not modelled: `new[]` that throws, limits
on mappings other than the number of pages, flags other than `MAP_HUGETLB`.
-/

namespace Spead2.Alloc

/-- A mapping: the allocation it was made for, and its pages. -/
structure Mapping where
  id : Nat
  pages : Nat
  huge : Bool
  deriving DecidableEq, Repr

/-- The kernel: sizes of pages, how many there are, and the mappings of the process. -/
structure Kernel where
  page : Nat
  huge : Nat
  totalSmall : Nat
  totalHuge : Nat
  maps : List Mapping := []
  deriving DecidableEq, Repr

/-- Size of a page of a kind. -/
def Kernel.unit (k : Kernel) (h : Bool) : Nat := if h then k.huge else k.page

/-- Pages of a kind that are in use. -/
def Kernel.used (k : Kernel) (h : Bool) : Nat := ((k.maps.filter (fun m => m.huge == h)).map (·.pages)).sum

/-- Pages of a kind that exist. -/
def Kernel.total (k : Kernel) (h : Bool) : Nat := if h then k.totalHuge else k.totalSmall

/-- Pages for a number of bytes. -/
def pagesFor (size unit : Nat) : Nat := (size + unit - 1) / unit

/-- `mmap` of anonymous memory: `EINVAL` for no bytes, `ENOMEM` if there are not enough pages. -/
def Kernel.mmap (k : Kernel) (id size : Nat) (h : Bool) : Option Kernel :=
  if size = 0 then none
  else if k.used h + pagesFor size (k.unit h) ≤ k.total h then some { k with maps := k.maps ++ [⟨id, pagesFor size (k.unit h), h⟩] }
  else none

/-- What `munmap` leaves of a mapping. -/
def Kernel.cut (k : Kernel) (id size : Nat) (m : Mapping) : Option Mapping :=
  if m.id = id then
    if size = 0 ∨ (m.huge = true ∧ pagesFor size k.page * k.page % k.huge ≠ 0) then some m
    else if m.pages ≤ pagesFor size (k.unit m.huge) then none
    else some { m with pages := m.pages - pagesFor size (k.unit m.huge) }
  else some m

/-- `munmap`; its result is not looked at. -/
def Kernel.munmap (k : Kernel) (id size : Nat) : Kernel := { k with maps := k.maps.filterMap (k.cut id size) }

/-- Function objects that free memory. -/
inductive Deleter where
  /-- `std::default_delete<std::uint8_t[]>` (src/common_memory_allocator.cpp 65-70) -/
  | array
  /-- the lambda of `mmap_allocator::allocate` (src/common_memory_allocator.cpp 114) -/
  | unmap (size : Nat)
  /-- `legacy_deleter` (include/spead2/common_memory_allocator.h 42-68): an allocator, and the user's pointer -/
  | legacy (a user : Nat)
  deriving DecidableEq, Repr

/-- A `memory_allocator::pointer`.  `size` is what was asked for, and `huge` whether the mapping has huge pages; the program does not see them. -/
structure Ptr where
  size : Nat
  del : Deleter
  huge : Bool := false
  live : Bool := true
  deriving DecidableEq, Repr

/-- Pointers by number; arrays that are allocated; calls of `free` of an allocator with a legacy deleter; the reference counts of such allocators, and whether one of the references
is the user's. -/
structure St where
  k : Kernel
  ptrs : List Ptr := []
  arrays : List Nat := []
  frees : List (Nat × Nat × Nat) := []
  refs : Nat → Nat := fun _ => 1
  held : Nat → Bool := fun _ => true

inductive Ev where
  /-- `memory_allocator::allocate` -/
  | plain (size : Nat)
  /-- `mmap_allocator(flags, prefer_huge).allocate`; the flags have `MAP_HUGETLB`, or not -/
  | mmap (flagHuge prefer : Bool) (size : Nat)
  /-- an allocator of the user, which is used with its own `free` -/
  | custom (a user size : Nat)
  /-- the user gives up their reference to an allocator -/
  | drop (a : Nat)
  /-- a pointer is reset or destroyed -/
  | release (p : Nat)
  deriving DecidableEq, Repr

inductive Res where
  | ok | ptr (p : Nat) | badAlloc
  deriving DecidableEq, Repr

/-- `prefault` (src/common_memory_allocator.cpp 58-63): the indices that are written. -/
def touched (size i : Nat) : List Nat := if i < size then i :: touched size (i + 4096) else []
termination_by size - i
decreasing_by omega

/-- A new pointer. -/
def St.push (s : St) (p : Ptr) : St × Res := ({ s with ptrs := s.ptrs ++ [p] }, .ptr s.ptrs.length)

/-- The calls of `mmap` in `mmap_allocator::allocate` (src/common_memory_allocator.cpp 98-108), in order: with huge pages or not. -/
def attempts (flagHuge prefer : Bool) : List Bool := (if prefer then [true] else []) ++ [flagHuge]

/-- The first of them that succeeds. -/
def tryMap (k : Kernel) (id size : Nat) : List Bool → Option (Kernel × Bool)
  | [] => none
  | h :: hs =>
    match k.mmap id size h with
    | some k' => some (k', h)
    | none => tryMap k id size hs

/-- `mmap_allocator::allocate` (src/common_memory_allocator.cpp 90-115). -/
def St.allocMmap (s : St) (flagHuge prefer : Bool) (size : Nat) : St × Res :=
  match tryMap s.k s.ptrs.length size (attempts flagHuge prefer) with
  | some (k, h) => { s with k := k }.push { size := size, del := .unmap size, huge := h }
  | none => (s, .badAlloc)

/-- The deleter is called (src/common_memory_allocator.cpp 40-45, 65-78, 114). -/
def St.delete (s : St) (p : Nat) : Deleter → St
  | .array => { s with arrays := s.arrays.erase p }
  | .unmap size => { s with k := s.k.munmap p size }
  | .legacy a user => { s with frees := s.frees ++ [(a, p, user)], refs := fun b => if b = a then s.refs b - 1 else s.refs b }

/-- One event; impossible ones give `none`. -/
def St.step (s : St) : Ev → Option (St × Res)
  | .plain size => some ({ s with arrays := s.arrays ++ [s.ptrs.length] }.push { size := size, del := .array })
  | .mmap f pr size => some (s.allocMmap f pr size)
  | .custom a user size =>
    if s.held a then some ({ s with refs := fun b => if b = a then s.refs b + 1 else s.refs b }.push { size := size, del := .legacy a user })
    else none
  | .drop a =>
    if s.held a then some ({ s with refs := fun b => if b = a then s.refs b - 1 else s.refs b, held := fun b => if b = a then false else s.held b }, .ok)
    else none
  | .release p =>
    match s.ptrs[p]? with
    | some x => if x.live then some ({ s.delete p x.del with ptrs := s.ptrs.set p { x with live := false } }, .ok) else none
    | none => none

/-- The buffer of a `udp_ibv_stream` (src/send_udp_ibv.cpp 443-446, 486-487, 519-520) and of a `udp_ibv_reader` (src/recv_udp_ibv.cpp 236-242, 254-255): a whole number of slots, in
the latter case if the card can have as many. -/
def ibvBuffer (packet buffer : Nat) : Nat := max 1 (buffer / (packet + 42)) * (packet + 42)

/-- They are allocated with `mmap_allocator(0, true)` when the stream is made, and released when it is destroyed. -/
def ibvLife (p size : Nat) : List Ev := [.mmap false true size, .release p]

end Spead2.Alloc
