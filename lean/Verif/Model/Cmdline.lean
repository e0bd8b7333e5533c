import Verif.Model.ThreadPool

/-!
# What the tools make of their command lines

src/spead2_cmdline.cpp and src/spead2_cmdline.h (the C++ tools), src/spead2/tools/cmdline.py and `parse_range_list` of src/spead2/__init__.py (the Python tools).
Texts are lists of characters.  Simplified: white space and digits are those of ASCII (Python knows more); names of options are given in full (argparse takes unique prefixes);
`svc` stands for what the resolver makes of the text of a port; hosts are not resolved, `v6` tells which are IPv6 addresses.
-/

namespace Spead2.Cmdline

abbrev Text := List Char

/-- `rfind(':')` with the two calls of `substr` (src/spead2_cmdline.cpp 60-77, 171-180), and `rsplit(":", 1)` (cmdline.py 27): before and after the last colon. -/
def splitLast : Text → Option (Text × Text)
  | [] => none
  | c :: cs =>
    match splitLast cs with
    | some (h, p) => some (c :: h, p)
    | none => if c = ':' then some ([], cs) else none

/-- A digit. -/
def digitVal (c : Char) : Option Nat := if 48 ≤ c.toNat ∧ c.toNat ≤ 57 then some (c.toNat - 48) else none

/-- Digits, with the number that was read so far. -/
def natFrom : Nat → Text → Option Nat
  | acc, [] => some acc
  | acc, c :: cs =>
    match digitVal c with
    | some d => natFrom (10 * acc + d) cs
    | none => none

def natOf : Text → Option Nat
  | [] => none
  | c :: cs => natFrom 0 (c :: cs)

/-- `boost::lexical_cast<std::uint16_t>` (src/spead2_cmdline.cpp 195): an optional sign and digits; negative numbers wrap around. -/
def lexU16 : Text → Option Nat
  | '-' :: cs => (natOf cs).bind fun v => if v ≤ 65535 then some ((65536 - v) % 65536) else none
  | '+' :: cs => (natOf cs).bind fun v => if v ≤ 65535 then some v else none
  | cs => (natOf cs).bind fun v => if v ≤ 65535 then some v else none

def isSpace (c : Char) : Bool := c.toNat == 32 || (9 ≤ c.toNat && c.toNat ≤ 13) || (28 ≤ c.toNat && c.toNat ≤ 31)

def strip (t : Text) : Text := ((t.dropWhile isSpace).reverse.dropWhile isSpace).reverse

/-- Digits with single underscores between them. -/
def pyFrom : Nat → Text → Option Nat
  | acc, [] => some acc
  | acc, '_' :: c :: cs =>
    match digitVal c with
    | some d => pyFrom (10 * acc + d) cs
    | none => none
  | acc, c :: cs =>
    match digitVal c with
    | some d => pyFrom (10 * acc + d) cs
    | none => none

def pyNat : Text → Option Nat
  | [] => none
  | c :: cs =>
    match digitVal c with
    | some d => pyFrom d cs
    | none => none

/-- Python's `int(str)`. -/
def pyInt (t : Text) : Option Int :=
  match strip t with
  | '-' :: cs => (pyNat cs).map fun v => - (v : Int)
  | '+' :: cs => (pyNat cs).map fun v => (v : Int)
  | cs => (pyNat cs).map fun v => (v : Int)

/-- What an endpoint on the command line of a receiver stands for. -/
inductive Source where
  | net (host : Text) (port : Nat) | file (path : Text) | error
  deriving DecidableEq, Repr

/-- `parse_endpoints` of one endpoint (src/spead2_cmdline.cpp 48-83). -/
def cppEndpoint (svc : Text → Option Nat) (passive : Bool) (e : Text) : Source :=
  match splitLast e with
  | none => if passive then (match svc e with | some v => .net [] v | none => .error) else .error
  | some ([], p) => if passive then (match svc p with | some v => .net [] v | none => .error) else .error
  | some (h, p) => match svc p with | some v => .net h v | none => .error

/-- An endpoint in `receiver_options::add_readers` (src/spead2_cmdline.cpp 167-202). -/
def cppSource (svc : Text → Option Nat) (allowPcap : Bool) (e : Text) : Source :=
  let port := match splitLast e with | some (_, p) => p | none => e
  if allowPcap && (lexU16 port).isNone then .file e else cppEndpoint svc true e

/-- `parse_endpoint` (cmdline.py 25-32): the host, and the port if it is an integer. -/
def pyEndpoint (e : Text) : Text × Option Int :=
  match splitLast e with
  | some (h, p) => (h, pyInt p)
  | none => ([], pyInt e)

/-- A port passed to C++ must fit in 16 bits. -/
def pyPort (host : Text) (v : Int) : Source := if 0 ≤ v ∧ v ≤ 65535 then .net host v.toNat else .error

/-- An endpoint in `ReceiverOptions.add_readers` (cmdline.py 240-251). -/
def pySource (allowPcap : Bool) (e : Text) : Source :=
  match pyEndpoint e with
  | (h, some v) => pyPort h v
  | (_, none) => if allowPcap then .file e else .error

/-- A destination of spead2_send (src/spead2_cmdline.cpp 349, 364). -/
def cppDest (svc : Text → Option Nat) (e : Text) : Source := cppEndpoint svc false e

/-- A destination of send_asyncio.py (lines 38-41, 46). -/
def pyDest (e : Text) : Source :=
  match splitLast e with
  | none => .error
  | some _ =>
    match pyEndpoint e with
    | (h, some v) => pyPort h v
    | (_, none) => .error

/-- The options of a receiver that matter here; `bind` is empty if it is not given. -/
structure Opts where
  tcp : Bool := false
  ibv : Bool := false
  bind : Text := []
  buffer : Option Nat := none
  packet : Option Nat := none
  vector : Int := 0
  poll : Int := 10
  deriving DecidableEq, Repr

inductive Refusal where
  | needsBind | incompatible
  deriving DecidableEq, Repr

/-- `receiver_options::notify` (src/spead2_cmdline.cpp 109-142): socket buffer and packet size. -/
def cppRecvNotify (o : Opts) : Except Refusal (Nat × Nat) :=
  if o.ibv && o.bind.isEmpty then .error .needsBind
  else if o.tcp && o.ibv then .error .incompatible
  else .ok (o.buffer.getD (if o.tcp then 208 * 1024 else if o.ibv then 16 * 1024 * 1024 else 8 * 1024 * 1024),
            o.packet.getD (if o.tcp then 65536 else if o.ibv then 9200 else 9200))

/-- `ReceiverOptions.notify` (cmdline.py 198-220). -/
def pyRecvNotify (o : Opts) : Except Refusal (Nat × Nat) :=
  if o.ibv then
    if o.bind.isEmpty then .error .needsBind
    else if o.tcp then .error .incompatible
    else .ok (o.buffer.getD (16 * 1024 * 1024), o.packet.getD 9200)
  else .ok (match o.buffer with | some b => b | none => if o.tcp then 208 * 1024 else 8 * 1024 * 1024,
            match o.packet with | some b => b | none => if o.tcp then 65536 else 9200)

/-- `sender_options::notify` (src/spead2_cmdline.cpp 295-317): the buffer. -/
def cppSendNotify (o : Opts) : Except Refusal Nat :=
  if o.tcp && o.ibv then .error .incompatible
  else if o.ibv && o.bind.isEmpty then .error .needsBind
  else .ok (o.buffer.getD (if o.tcp then 208 * 1024 else if o.ibv then 512 * 1024 else 512 * 1024))

/-- `SenderOptions.notify` (cmdline.py 345-358). -/
def pySendNotify (o : Opts) : Except Refusal Nat :=
  if o.ibv && o.bind.isEmpty then .error .needsBind
  else if o.tcp && o.ibv then .error .incompatible
  else .ok (match o.buffer with | some b => b | none => if o.tcp then 208 * 1024 else if o.ibv then 512 * 1024 else 512 * 1024)

/-- The readers that are added to a stream. -/
inductive Reader where
  | tcp (host : Text) (port packet buffer : Nat)
  | udp (host : Text) (port packet buffer : Nat) (bind : Text)
  | ibv (eps : List (Text × Nat)) (bind : Text) (packet buffer : Nat) (vector poll : Int)
  | pcap (path : Text)
  deriving DecidableEq, Repr

/-- The loop of `receiver_options::add_readers` (src/spead2_cmdline.cpp 167-235): readers, and endpoints kept for ibverbs; none after an exception. -/
def cppLoop (v6 : Text → Bool) (o : Opts) (packet buffer : Nat) : List Source → List Reader → List (Text × Nat) → Option (List Reader × List (Text × Nat))
  | [], rs, eps => some (rs, eps)
  | .error :: _, _, _ => none
  | .file f :: xs, rs, eps => cppLoop v6 o packet buffer xs (rs ++ [.pcap f]) eps
  | .net h p :: xs, rs, eps =>
    if o.tcp then cppLoop v6 o packet buffer xs (rs ++ [.tcp h p packet buffer]) eps
    else if o.ibv then cppLoop v6 o packet buffer xs rs (eps ++ [(h, p)])
    else if !v6 h && !o.bind.isEmpty then cppLoop v6 o packet buffer xs (rs ++ [.udp h p packet buffer o.bind]) eps
    else cppLoop v6 o packet buffer xs (rs ++ [.udp h p packet buffer []]) eps

/-- `receiver_options::add_readers` (src/spead2_cmdline.cpp 159-250). -/
def cppReaders (v6 : Text → Bool) (o : Opts) (packet buffer : Nat) (srcs : List Source) : Option (List Reader) :=
  match cppLoop v6 o packet buffer srcs [] [] with
  | none => none
  | some (rs, eps) => some (if eps.isEmpty then rs else rs ++ [.ibv eps o.bind packet buffer o.vector o.poll])

/-- The loop of `ReceiverOptions.add_readers` (cmdline.py 238-260). -/
def pyLoop (o : Opts) (packet buffer : Nat) : List Source → List Reader → List (Text × Nat) → Option (List Reader × List (Text × Nat))
  | [], rs, eps => some (rs, eps)
  | .error :: _, _, _ => none
  | .file f :: xs, rs, eps => pyLoop o packet buffer xs (rs ++ [.pcap f]) eps
  | .net h p :: xs, rs, eps =>
    if o.tcp then pyLoop o packet buffer xs (rs ++ [.tcp h p packet buffer]) eps
    else if o.ibv then pyLoop o packet buffer xs rs (eps ++ [(h, p)])
    else if o.bind.isEmpty then pyLoop o packet buffer xs (rs ++ [.udp h p packet buffer []]) eps
    else pyLoop o packet buffer xs (rs ++ [.udp h p packet buffer o.bind]) eps

/-- `ReceiverOptions.add_readers` (cmdline.py 238-271). -/
def pyReaders (o : Opts) (packet buffer : Nat) (srcs : List Source) : Option (List Reader) :=
  match pyLoop o packet buffer srcs [] [] with
  | none => none
  | some (rs, eps) => some (if eps.isEmpty then rs else rs ++ [.ibv eps o.bind packet buffer o.vector o.poll])

/-! ## Renamed options -/

/-- An attribute of an options object: its name, what the name map makes of it (`none` hides the option), and its value. -/
structure Entry (V : Type) where
  name : Text
  mapped : Option Text
  value : V

/-- The flag of an option without the two dashes (cmdline.py 72). -/
def flag (t : Text) : Text := t.map fun c => if c = '_' then '-' else c

/-- The options that a parser has: flag, destination and value so far. -/
abbrev Parser (V : Type) := List (Text × Text × V)

/-- `_add_argument` for every attribute (cmdline.py 53-73); argparse refuses a flag it already has. -/
def addArguments {V : Type} : Parser V → List (Entry V) → Option (Parser V)
  | p, [] => some p
  | p, x :: xs =>
    match x.mapped with
    | none => addArguments p xs
    | some m => if (p.any fun a => a.1 == flag m) then none else addArguments (p ++ [(flag m, m, x.value)]) xs

/-- argparse: every argument replaces the value of its option; unknown flags are refused. -/
def parse {V : Type} : Parser V → List (Text × V) → Option (Parser V)
  | p, [] => some p
  | p, (f, v) :: as => if (p.any fun a => a.1 == f) then parse (p.map fun a => if a.1 == f then (a.1, a.2.1, v) else a) as else none

/-- `_extract_args` (cmdline.py 75-86). -/
def extract {V : Type} (p : Parser V) (xs : List (Entry V)) : List (Entry V) :=
  xs.map fun x =>
    match x.mapped with
    | none => x
    | some m => { x with value := match p.find? (fun a => a.2.1 == m) with | some a => a.2.2 | none => x.value }

/-- Options from definition to values. -/
def options {V : Type} (xs : List (Entry V)) (args : List (Text × V)) : Option (List (Entry V)) :=
  match addArguments [] xs with
  | none => none
  | some p =>
    match parse p args with
    | none => none
    | some p => some (extract p xs)

/-! ## Cores -/

/-- `str.split(",")`. -/
def splitCommas : Text → List Text
  | [] => [[]]
  | c :: cs =>
    if c = ',' then [] :: splitCommas cs
    else
      match splitCommas cs with
      | [] => [[c]]
      | p :: ps => (c :: p) :: ps

/-- `str.split("-", 1)`. -/
def splitDash : Text → Option (Text × Text)
  | [] => none
  | c :: cs =>
    if c = '-' then some ([], cs)
    else
      match splitDash cs with
      | some (a, b) => some (c :: a, b)
      | none => none

/-- `range(start, end + 1)`. -/
def pyRange (a b : Int) : List Int := (List.range (b + 1 - a).toNat).map fun (i : Nat) => a + (i : Int)

/-- One part of a list of ranges (src/spead2/__init__.py 89-95). -/
def parsePart (t : Text) : Option (List Int) :=
  match splitDash t with
  | some (a, b) =>
    match pyInt a, pyInt b with
    | some x, some y => some (pyRange x y)
    | _, _ => none
  | none => (pyInt t).map fun v => [v]

def parseParts : List Text → Option (List Int)
  | [] => some []
  | t :: ts =>
    match parsePart t, parseParts ts with
    | some x, some y => some (x ++ y)
    | _, _ => none

/-- `parse_range_list` (src/spead2/__init__.py 80-96). -/
def parseRangeList (t : Text) : Option (List Int) := if t.isEmpty then some [] else parseParts (splitCommas t)

/-- `make_thread_pool` (cmdline.py 147-152): the core of the main thread, and those of the threads of the pool. -/
def poolCores (affinity : List Int) (threads : Nat) : Option Int × List (Option Int) :=
  match affinity with
  | [] => (none, List.replicate threads none)
  | a :: as => (some a, (List.range threads).map (ThreadPool.core (as ++ [a])))

end Spead2.Cmdline
