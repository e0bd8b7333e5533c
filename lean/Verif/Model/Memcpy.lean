import Verif.Model.Bytes

/-!
# Non-temporal memcpy

Models `memcpy_nontemporal` for SSE2, AVX and AVX-512 (src/common_memcpy_x86.h) and for SVE (src/common_memcpy.cpp:71-137). Memory is a
function from addresses to bytes. `size_t` and `uintptr_t` are 64 bits and wrap around. `none` is undefined behaviour or a fault: reading outside the source, writing
outside the destination, or a non-temporal store to an address that is not a multiple of its size (which faults on x86).
-/

namespace Spead2

/-- Arithmetic on `size_t`/`uintptr_t`. -/
def w64 (x : Nat) : Nat := x % 2 ^ 64

/-- Memory, and whether there are non-temporal stores that other processors may not see in order yet. -/
structure CpState where
  mem : Nat → UInt8
  weak : Bool := false

/-- The two buffers. -/
structure CpArgs where
  dest : Nat
  src : Nat
  n : Nat

/-- Read `len` bytes at `a`. -/
def CpArgs.load (b : CpArgs) (s : CpState) (a len : Nat) : Option (List UInt8) :=
  if b.src ≤ a ∧ a + len ≤ b.src + b.n then some ((List.range len).map (fun k => s.mem (a + k))) else none

/-- Write bytes at `a`. -/
def CpArgs.store (b : CpArgs) (s : CpState) (a : Nat) (l : List UInt8) : Option CpState :=
  if b.dest ≤ a ∧ a + l.length ≤ b.dest + b.n then
    some { s with mem := fun x => if a ≤ x ∧ x < a + l.length then (l[x - a]?).getD 0 else s.mem x }
  else none

/-- A non-temporal store of a vector of `l.length` bytes (`_mm_stream_si128` and so on). -/
def CpArgs.stream (b : CpArgs) (s : CpState) (a : Nat) (l : List UInt8) : Option CpState :=
  if a % l.length = 0 then b.store { s with weak := true } a l else none

/-- `std::memcpy` of a part. -/
def CpArgs.copy (b : CpArgs) (s : CpState) (d a len : Nat) : Option CpState :=
  match b.load s a len with
  | none => none
  | some l => b.store s d l

/-- The loads of an iteration: `u` vectors of `w` bytes (src/common_memcpy_x86.h:78 and 89). -/
def CpArgs.loads (b : CpArgs) (s : CpState) (a w : Nat) : Nat → Option (List (List UInt8))
  | 0 => some []
  | u + 1 =>
    match b.load s a w with
    | none => none
    | some v =>
      match b.loads s (a + w) w u with
      | none => none
      | some vs => some (v :: vs)

/-- The stores of an iteration (lines 79 and 90). -/
def CpArgs.streams (b : CpArgs) (a w : Nat) : List (List UInt8) → CpState → Option CpState
  | [], s => some s
  | v :: vs, s =>
    match b.stream s a v with
    | none => none
    | some s => b.streams (a + w) w vs s

/-- A loop (lines 72-80 and 83-91) over `n` bytes with `u` vectors of `w` bytes per iteration, from `offset`: the state and the
offset at which it ends. `fuel` bounds the loop, and running out of it is `none`. -/
def CpArgs.loop (b : CpArgs) (d a n u w : Nat) : Nat → Nat → CpState → Option (CpState × Nat)
  | 0, _, _ => none
  | fuel + 1, offset, s =>
    if w64 (offset + u * w) ≤ n then
      match b.loads s (a + offset) w u with
      | none => none
      | some vs =>
        match b.streams (d + offset) w vs s with
        | none => none
        | some s => b.loop d a n u w fuel (w64 (offset + u * w)) s
    else some (s, offset)

/-- `_mm_sfence`. -/
def CpState.sfence (s : CpState) : CpState := { s with weak := false }

/-- `cache_line_size` (include/spead2/common_defines.h:132). -/
def cacheLine : Nat := 64

/-- The part after the destination has been aligned (lines 71-99). -/
def CpArgs.x86Body (b : CpArgs) (d a n u1 u2 w : Nat) (s : CpState) : Option CpState :=
  match b.loop d a n u1 w (n + 1) 0 s with
  | none => none
  | some (s, offset) =>
    match (if u2 < u1 then b.loop d a n u2 w (n + 1) offset s else some (s, offset)) with
    | none => none
    | some (s, offset) =>
      match b.copy s (d + offset) (a + offset) (n - offset) with
      | none => none
      | some s => some s.sfence

/-- `detail::SPEAD2_MEMCPY_NAME` (lines 38-100) with unrolling `u1` and `u2` and vectors of `w` bytes. -/
def CpArgs.x86 (b : CpArgs) (u1 u2 w : Nat) (s : CpState) : Option CpState :=
  let aligned := w64 (b.dest + (cacheLine - 1)) / cacheLine * cacheLine
  let head := w64 (aligned + 2 ^ 64 - b.dest)
  if 0 < head then
    if b.n ≤ head then
      match b.copy s b.dest b.src b.n with
      | none => none
      | some s => some s.sfence
    else
      match b.copy s b.dest b.src head with
      | none => none
      | some s => b.x86Body (b.dest + head) (b.src + head) (b.n - head) u1 u2 w s
  else b.x86Body b.dest b.src b.n u1 u2 w s

/-- `memcpy_nontemporal_sse2` (src/common_memcpy.cpp:25-35), `memcpy_nontemporal_avx` (lines 37-47) and `memcpy_nontemporal_avx512` (lines 49-59): `unroll2` is the
cache line over the vector (src/common_memcpy_x86.h:107). -/
def memcpySse2 (b : CpArgs) (s : CpState) : Option CpState := b.x86 16 (cacheLine / 16) 16 s
def memcpyAvx (b : CpArgs) (s : CpState) : Option CpState := b.x86 8 (cacheLine / 32) 32 s
def memcpyAvx512 (b : CpArgs) (s : CpState) : Option CpState := b.x86 8 (cacheLine / 64) 64 s

/-- `svwhilelt_b8(i, n)`: the number of active lanes of a vector of `vl` bytes. -/
def svWhile (vl i n : Nat) : Nat := min vl (n - i)

/-- `svstnt1_u8(pg, &destc[i], svldnt1_u8(pg, &srcc[i]))` where the first `lanes` lanes are active. Inactive lanes are not accessed. -/
def CpArgs.svCopy (b : CpArgs) (s : CpState) (i lanes : Nat) : Option CpState :=
  match b.load s (b.src + i) lanes with
  | none => none
  | some l => b.store { s with weak := true } (b.dest + i) l

/-- The unrolled loop (src/common_memcpy.cpp:120-127). -/
def CpArgs.svLoop (b : CpArgs) (vl : Nat) : Nat → Nat → CpState → Option (CpState × Nat)
  | 0, _, _ => none
  | fuel + 1, i, s =>
    if w64 (i + 2 * vl) ≤ b.n then
      match b.load s (b.src + i) vl with
      | none => none
      | some data0 =>
        match b.load s (b.src + i + vl) vl with
        | none => none
        | some data1 =>
          match b.store { s with weak := true } (b.dest + i) data0 with
          | none => none
          | some s =>
            match b.store { s with weak := true } (b.dest + i + vl) data1 with
            | none => none
            | some s => b.svLoop vl fuel (w64 (i + 2 * vl)) s
    else some (s, i)

/-- The final loop (lines 130-135), which copies with `lanes` active lanes first. -/
def CpArgs.svTail (b : CpArgs) (vl : Nat) : Nat → Nat → Nat → CpState → Option CpState
  | 0, _, _, _ => none
  | fuel + 1, i, lanes, s =>
    match b.svCopy s i lanes with
    | none => none
    | some s =>
      let i := w64 (i + vl)
      let lanes := svWhile vl i b.n
      if 0 < lanes then b.svTail vl fuel i lanes s else some s

/-- `memcpy_nontemporal_sve` (lines 71-137) with vectors of `vl` bytes. -/
def memcpySve (vl : Nat) (b : CpArgs) (s : CpState) : Option CpState :=
  if w64 (4 * vl) ≤ b.n then
    let head := (2 ^ 64 - b.src) % 2 ^ 64 &&& (vl - 1)
    match b.svCopy s 0 (svWhile vl 0 head) with
    | none => none
    | some s =>
      match b.svLoop vl (b.n + 1) head s with
      | none => none
      | some (s, i) => b.svTail vl (b.n + 1) i (svWhile vl i b.n) s
  else b.svTail vl (b.n + 1) 0 (svWhile vl 0 b.n) s

end Spead2
