/-!
# Libraries loaded at run time

The functions of libibverbs, librdmacm and libmlx5 are reached through pointers that gen/gen_loader.py generates from gen/template.cpp; `dl_handle` (src/common_loader_utils.cpp 74-113)
opens the library.  Any number of threads call any of the functions; each event is one read or write of a pointer, or one system call.
Simplified: functions are numbered in the order of the declarations; what a function of the library does is not modelled, only that it is entered.
-/

namespace Spead2.Loader

/-- The declarations (gen/gen_loader.py 30-108): how many functions there are and which are optional (line 297). -/
structure Decl where
  n : Nat
  optional : Nat → Bool

/-- What is installed: whether `dlopen` finds the library, and which symbols `dlsym` finds. -/
structure Lib where
  present : Bool
  has : Nat → Bool

/-- What a pointer points at: `*_first`, `*_stub`, `*_missing` (gen/template.cpp 46-72), or the symbol in the library. -/
inductive Target where
  | first | stub | missing | real
  deriving DecidableEq, Repr

/-- The errors: `LIBRARY_ERROR` and `SYMBOL_ERROR` of `dl_handle` (src/common_loader_utils.cpp 79, 107), and `EOPNOTSUPP` (gen/template.cpp 54). -/
inductive Err where
  | library | symbol (k : Nat) | unsupported (i : Nat)
  deriving DecidableEq, Repr

/-- Where `init` is (gen/template.cpp 87-118): at the constructor of `lib`, at function `k`, at the destructor of `lib` after the exception for `k`, or at assignment `k` of `reset_stubs`. -/
inductive Phase where
  | opening | sym (k : Nat) | closing (k : Nat) | resetting (k : Nat)
  deriving DecidableEq, Repr

/-- `init_once`. -/
inductive Once where
  | idle | running (t : Nat) (p : Phase) | done
  deriving DecidableEq, Repr

/-- What users do: call function `i`, or ask `has_i()`. -/
inductive Op where
  | call (i : Nat) | query (i : Nat)
  deriving DecidableEq, Repr

/-- A thread: outside, about to jump to the target it has read, or in `std::call_once`. -/
inductive Thr where
  | idle | loaded (i : Nat) (tgt : Target) | waiting (op : Op)
  deriving DecidableEq, Repr

inductive Outcome where
  | ran | raised (e : Err) | crashed | answered (b : Bool)
  deriving DecidableEq, Repr

structure St where
  ptr : Nat → Target := fun _ => .first
  mapped : Bool := false
  once : Once := .idle
  err : Option Err := none
  opens : Nat := 0
  closes : Nat := 0
  logs : Nat := 0
  thr : List Thr
  out : List (Op × Outcome) := []

inductive Ev where
  | call (t i : Nat) | query (t i : Nat) | enter (t : Nat) | init (t : Nat) | resume (t : Nat) | jump (t : Nat)
  deriving DecidableEq, Repr

def start (threads : Nat) : St := { thr := List.replicate threads .idle }

/-- One step of `init` (gen/template.cpp 87-118).  If a symbol is not found, the destructor of `lib` closes the library before the handler starts; `init_result` is set before the stubs are. -/
def initStep (d : Decl) (l : Lib) (s : St) (t : Nat) : Phase → St
  | .opening =>
    if l.present then { s with opens := s.opens + 1, mapped := true, once := .running t (.sym 0) }
    else { s with opens := s.opens + 1, err := some .library, once := .running t (.resetting 0) }
  | .sym k =>
    if k < d.n then
      if l.has k then { s with ptr := fun i => if i = k then .real else s.ptr i, once := .running t (.sym (k + 1)) }
      else if d.optional k then { s with ptr := fun i => if i = k then .missing else s.ptr i, once := .running t (.sym (k + 1)) }
      else { s with once := .running t (.closing k) }
    else { s with once := .done }
  | .closing k => { s with mapped := false, closes := s.closes + 1, err := some (.symbol k), once := .running t (.resetting 0) }
  | .resetting k =>
    if k < d.n then { s with ptr := fun i => if i = k then .stub else s.ptr i, once := .running t (.resetting (k + 1)) }
    else { s with logs := s.logs + 1, once := .done }

/-- A call returns (or does not). -/
def finish (s : St) (t : Nat) (op : Op) (o : Outcome) : St := { s with thr := s.thr.set t .idle, out := (op, o) :: s.out }

/-- The jump to what was read: `*_first` goes to `std::call_once` (gen/template.cpp 66-70); `*_stub` rethrows (46-49; rethrowing nothing is undefined);
`*_missing` throws (52-55); a function of a library that is closed is not there any more. -/
def jump (s : St) (t i : Nat) : Target → St
  | .first => { s with thr := s.thr.set t (.waiting (.call i)) }
  | .stub => finish s t (.call i) (match s.err with | some e => .raised e | none => .crashed)
  | .missing => finish s t (.call i) (.raised (.unsupported i))
  | .real => finish s t (.call i) (if s.mapped then .ran else .crashed)

/-- One event, if it can happen.  `has_i` exists for optional functions only (gen/template.cpp 51-62); after `std::call_once`, a call reads the pointer again (69). -/
def step (d : Decl) (l : Lib) (s : St) : Ev → Option St
  | .call t i => if s.thr[t]? = some .idle ∧ i < d.n then some { s with thr := s.thr.set t (.loaded i (s.ptr i)) } else none
  | .query t i => if s.thr[t]? = some .idle ∧ i < d.n ∧ d.optional i = true then some { s with thr := s.thr.set t (.waiting (.query i)) } else none
  | .enter t =>
    match s.thr[t]?, s.once with
    | some (.waiting _), .idle => some { s with once := .running t .opening }
    | _, _ => none
  | .init t =>
    match s.once with
    | .running t' p => if t = t' then some (initStep d l s t p) else none
    | _ => none
  | .resume t =>
    match s.thr[t]?, s.once with
    | some (.waiting (.call i)), .done => some { s with thr := s.thr.set t (.loaded i (s.ptr i)) }
    | some (.waiting (.query i)), .done => some (finish s t (.query i) (.answered (decide (s.ptr i ≠ .missing))))
    | _, _ => none
  | .jump t =>
    match s.thr[t]? with
    | some (.loaded i tgt) => some (jump s t i tgt)
    | _ => none

def run (d : Decl) (l : Lib) : St → List Ev → Option St
  | s, [] => some s
  | s, e :: es =>
    match step d l s e with
    | some s' => run d l s' es
    | none => none

/-- The number in an error code of the loader (include/spead2/common_loader_utils.h 35-40). -/
def Err.value : Err → Nat
  | .library => 0
  | .symbol _ => 1
  | .unsupported _ => 95

/-- Whether an error code counts as an error where it is tested (`std::error_code::operator bool`). -/
def Err.truthy (e : Err) : Bool := decide (e.value ≠ 0)

/-- The flags that are optional (src/common_ibv.cpp 380). -/
def optionalRange : BitVec 32 := 0x3ff00000#32

/-- `IBV_ACCESS_RELAXED_ORDERING` (src/common_ibv.cpp 381). -/
def relaxed : BitVec 32 := 0x00100000#32

/-- Which function registers memory, with which flags (`ibv_mr_t`, src/common_ibv.cpp 376-402); `hasIova2` is what `has_ibv_reg_mr_iova2` answers. -/
def register (hasIova2 : Bool) (access : BitVec 32) (allowRelaxed : Bool) : Bool × BitVec 32 :=
  let a := if allowRelaxed then access ||| relaxed else access
  if a &&& optionalRange = 0#32 then (false, a)
  else if hasIova2 then (true, a)
  else (false, a &&& ~~~ optionalRange)

end Spead2.Loader
