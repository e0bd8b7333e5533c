/-!
# `spead2_net_raw` and Linux capabilities

`main` of src/spead2_net_raw.cpp.  The kernel's part (`execve`, `capset`, `PR_CAP_AMBIENT_RAISE`) is modelled from capabilities(7), not from /repo.

Simplified: the user is not root, and no program is set-uid root (for root, files count as having all capabilities).  `cap_get_proc`, `cap_set_flag` and memory do not fail.
-/

namespace Spead2.NetRaw

/-- The kernel has sets of 64 capabilities. -/
abbrev Cap := Fin 64

abbrev Caps := Cap → Bool

/-- CAP_NET_RAW and CAP_SETPCAP (linux/capability.h). -/
def netRaw : Cap := 13
def setPcap : Cap := 8

/-- Sets of capabilities (of the kernel, not in /repo). -/
def none : Caps := fun _ => false
def only (c : Cap) : Caps := fun d => d == c
def Caps.union (a b : Caps) : Caps := fun c => a c || b c
def Caps.inter (a b : Caps) : Caps := fun c => a c && b c
def Caps.sub (a b : Caps) : Bool := decide (∀ c, a c = true → b c = true)

/-- The capability state of a thread; `noRaise` is SECBIT_NO_CAP_AMBIENT_RAISE. -/
structure Proc where
  permitted : Caps
  effective : Caps
  inheritable : Caps
  ambient : Caps
  bounding : Caps
  noRaise : Bool := false
  noNewPrivs : Bool := false

/-- An executable file: whether it has capabilities (setcap), which, and whether it is set-uid or set-gid. -/
structure File where
  hasCaps : Bool := false
  permitted : Caps := none
  inheritable : Caps := none
  effective : Bool := false
  setId : Bool := false

/-- `execve` (capabilities(7), "Transformation of capabilities during execve"); `none` if it fails with EPERM. -/
def exec (p : Proc) (f : File) : Option Proc :=
  let fP := if f.hasCaps then f.permitted else NetRaw.none
  let fI := if f.hasCaps then f.inheritable else NetRaw.none
  let fE := f.hasCaps && f.effective
  let gained := (p.inheritable.inter fI).union (fP.inter p.bounding)
  if fE && !fP.sub gained then Option.none
  else
    let kept := if p.noNewPrivs then gained.inter p.permitted else gained
    let ambient := if f.hasCaps || f.setId && !p.noNewPrivs then NetRaw.none else p.ambient
    let permitted := kept.union ambient
    some { p with permitted := permitted, effective := if fE then permitted else ambient, ambient := ambient }

/-- `cap_set_proc` (capset(2)); `none` is EPERM.  The ambient set stays within the two others. -/
def capset (p : Proc) (permitted effective inheritable : Caps) : Option Proc :=
  if !p.effective setPcap && !inheritable.sub (p.inheritable.union p.permitted) then Option.none
  else if !inheritable.sub (p.inheritable.union p.bounding) then Option.none
  else if !permitted.sub p.permitted then Option.none
  else if !effective.sub permitted then Option.none
  else some { p with permitted := permitted, effective := effective, inheritable := inheritable, ambient := p.ambient.inter (permitted.inter inheritable) }

/-- `prctl(PR_CAP_AMBIENT, PR_CAP_AMBIENT_RAISE, c)`. -/
def raise (p : Proc) (c : Cap) : Option Proc :=
  if p.permitted c && p.inheritable c && !p.noRaise then some { p with ambient := p.ambient.union (only c) }
  else Option.none

/-- How `spead2_net_raw` ends: with an exit status, or by becoming the program, with its arguments (the first is its name). -/
inductive Outcome where
  | exit (status : Nat)
  | becomes (q : Proc) (argv : List String)

/-- Set the flags, then raise the capability (src/spead2_net_raw.cpp 51-81). -/
def prepare (p : Proc) : Option Proc :=
  (capset p (p.permitted.union (only netRaw)) p.effective (p.inheritable.union (only netRaw))).bind fun p1 => raise p1 netRaw

/-- `main` (src/spead2_net_raw.cpp 39-91); `find` is what `execvp` finds for a name. -/
def main (p : Proc) (find : String → Option File) (argv : List String) : Outcome :=
  if argv.length < 2 then .exit 2
  else
    match prepare p with
    | .none => .exit 1
    | some p2 =>
      match argv.drop 1 with
      | [] => .exit 1
      | prog :: args =>
        match find prog with
        | .none => .exit 1
        | some f =>
          match exec p2 f with
          | .none => .exit 1
          | some q => .becomes q (prog :: args)

/-- A process that executes one program after the other, or its children do (fork changes no capabilities). -/
def chain (p : Proc) : List File → Option Proc
  | [] => some p
  | f :: fs => (exec p f).bind fun q => chain q fs

end Spead2.NetRaw
