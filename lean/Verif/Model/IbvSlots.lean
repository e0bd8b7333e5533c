import Verif.Model.Mprq

/-!
# The receive requests of an ibverbs reader without a multi-packet receive queue

`udp_ibv_reader` (src/recv_udp_ibv.cpp:126-277) with a card that runs at the same time.  The card takes the requests in the order in which
they were posted, puts a frame into the slot of the request, and reports it by a completion; a request can also fail.

Not modelled: the lkey, and the waking of the handler (C63).  What is done with a frame is C54.
-/

namespace Spead2.Slots

/-! ## The constructor -/

/-- What the card says about itself (`ibv_device_attr`). -/
structure Caps where
  steering : Bool
  maxMr : Nat
  maxQpWr : Nat
  maxCqe : Nat

/-- The exceptions of `compute_n_slots`. -/
inductive Err where
  | steering
  | tooLarge
  | unusable
  deriving DecidableEq, Repr

/-- `compute_n_slots` (src/recv_udp_ibv.cpp:126-153).  `none`: undefined (a division by zero). -/
def nSlots (d : Caps) (bufferSize maxRaw : Nat) : Option (Except Err Nat) :=
  if !d.steering then some (.error .steering)
  else if d.maxMr < maxRaw then some (.error .tooLarge)
  else
    let bufferSize := if d.maxMr < bufferSize then d.maxMr else bufferSize
    if maxRaw = 0 then none
    else
      let n := max 1 (bufferSize / maxRaw)
      let hw := min d.maxQpWr d.maxCqe
      if hw = 0 then some (.error .unusable)
      else some (.ok (if hw < n then hw else n))

/-- The slots: how far apart they are, the length that the card is told, and their number. -/
structure Shape where
  raw : Nat
  len : Nat
  n : Nat
  deriving DecidableEq

/-- The constructor (src/recv_udp_ibv.cpp:232-270): `max_raw_size` is a `size_t`, and `sge.length` a `uint32_t`. -/
def shape (d : Caps) (bufferSize maxSize : Nat) : Option (Except Err Shape) :=
  let raw := (maxSize + 42) % 2 ^ 64
  (nSlots d bufferSize raw).map fun r => r.map fun n => ⟨raw, raw % 2 ^ 32, n⟩

/-- `post_batch` (src/recv_udp_ibv.cpp:176). -/
def Shape.postBatch (c : Shape) : Nat := Mprq.clamp (c.n / 4) 1 64

/-! ## Receiving -/

/-- The state of everything.  `rq` and `cq` are the card's queues: slots of the requests; slots of the completions with the length, or
failed.  `wcs`, `head`, `tail` and `cur` are those of `poll_once`, `pending` is the slot that it is working on and `view` is where the frame is;
`next` is `wr.next` of each slot.  `out` are the frames that `poll_once` has looked at, `accepted` (ghost) those that the card has accepted. -/
structure St where
  rq : List Nat
  cq : List (Nat × Option Nat) := []
  wcs : List (Nat × Option Nat) := []
  pending : Option Nat := none
  view : Option (Nat × Nat) := none
  head : Option Nat := none
  tail : Option Nat := none
  cur : Nat := 0
  next : Nat → Option Nat := fun _ => none
  stopped : Bool := false
  mem : Nat → UInt8
  out : List (List UInt8) := []
  accepted : List (List UInt8) := []

/-- After the constructor (src/recv_udp_ibv.cpp:259-269): all requests have been posted. -/
def St.init (c : Shape) (mem : Nat → UInt8) : St := { rq := List.range c.n, mem := mem }

/-- What can happen: a frame arrives; a request fails; `poll_once` is called and finds at most `k` completions; it looks at the next one; it is done
with it; it comes to its end; the stream is stopped while it is working on a frame. -/
inductive Op where
  | frame (data : List UInt8)
  | fail
  | poll (k : Nat)
  | look
  | done
  | finish
  | stop
  deriving DecidableEq

/-- The requests from `i` on (`wr.next`), as `ibv_post_recv` follows them.  `none`: there are more than `fuel`. -/
def walk (next : Nat → Option Nat) : Nat → Option Nat → Option (List Nat)
  | _, none => some []
  | 0, some _ => none
  | f + 1, some i => (walk next f (next i)).map (i :: ·)

/-- `next` of one slot is set. -/
def setNext (next : Nat → Option Nat) (i : Nat) (x : Option Nat) : Nat → Option Nat := fun j => if j = i then x else next j

/-- `tail->next = nullptr; qp.post_recv(head); cur_batch = 0; head = tail = nullptr;` (src/recv_udp_ibv.cpp:218-221).  `none`: a null pointer, or more
requests than the queue has room for. -/
def St.post (c : Shape) (s : St) : Option St :=
  match s.tail with
  | none => none
  | some t =>
    let next := setNext s.next t none
    match walk next c.n s.head with
    | none => none
    | some l =>
      if c.n < (s.rq ++ l).length then none
      else some { s with next := next, rq := s.rq ++ l, cur := 0, head := none, tail := none }

/-- One step.  `none`: something went wrong.  A step that is not possible changes nothing. -/
def St.step (c : Shape) (s : St) : Op → Option St
  | .frame data =>
    -- the card: a frame for which there is no request is dropped; so is one that does not fit, and then the request fails
    match s.rq with
    | [] => some s
    | i :: rq =>
      if c.len < data.length then some s
      else if c.n ≤ s.cq.length then none
      else
        some { s with
          rq := rq, cq := s.cq ++ [(i, some data.length)], mem := Mprq.write s.mem (i * c.raw) data, accepted := s.accepted ++ [data] }
  | .fail =>
    match s.rq with
    | [] => some s
    | i :: rq => if c.n ≤ s.cq.length then none else some { s with rq := rq, cq := s.cq ++ [(i, none)] }
  | .poll k =>
    -- src/recv_udp_ibv.cpp:177-179
    if s.stopped || s.pending.isSome || s.head.isSome || !s.wcs.isEmpty then some s
    else some { s with wcs := s.cq.take (min k c.n), cq := s.cq.drop (min k c.n) }
  | .look =>
    -- src/recv_udp_ibv.cpp:180-191
    if s.stopped || s.pending.isSome then some s
    else
      match s.wcs with
      | [] => some s
      | (i, none) :: wcs => if c.n ≤ i then none else some { s with wcs := wcs, pending := some i }
      | (i, some len) :: wcs =>
        if c.n ≤ i then none
        else some { s with wcs := wcs, pending := some i, view := some (i * c.raw, len), out := s.out ++ [Mprq.bytes s.mem (i * c.raw) len] }
  | .done =>
    -- src/recv_udp_ibv.cpp:211-222
    if s.stopped then some s
    else
      match s.pending with
      | none => some s
      | some i =>
        let s := { s with pending := none, view := none }
        let s :=
          match s.tail with
          | none => { s with head := some i, tail := some i }
          | some t => { s with next := setNext s.next t (some i), tail := some i }
        let s := { s with cur := s.cur + 1 }
        if s.cur = c.postBatch then s.post c else some s
  | .finish =>
    -- src/recv_udp_ibv.cpp:224-228
    if s.stopped || s.pending.isSome || !s.wcs.isEmpty || s.head.isNone then some s
    else s.post c
  | .stop =>
    -- src/recv_udp_ibv.cpp:199-200
    if s.pending.isSome then some { s with stopped := true, view := none } else some s

/-- A history. -/
def St.run (c : Shape) (s : St) : List Op → Option St
  | [] => some s
  | op :: ops =>
    match s.step c op with
    | none => none
    | some s => s.run c ops

end Spead2.Slots
