import Verif.Model.DumpCapture

/-!
# Words used in the statements about the capture of mcdump

`readPcap` reads the pcap format (the little-endian variant with nanoseconds) as its documentation describes
it; nothing of the model is used for it.
-/

namespace Spead2.Cap

/-! ## The pcap format -/

def num16 (a b : UInt8) : Nat := a.toNat + 256 * b.toNat

def num32 (a b c d : UInt8) : Nat := a.toNat + 256 * b.toNat + 65536 * c.toNat + 16777216 * d.toNat

/-- A record of a pcap file. -/
structure Rec where
  sec : Nat
  nsec : Nat
  /-- the length of the packet on the wire -/
  orig : Nat
  /-- what was captured of it -/
  data : List UInt8
  deriving DecidableEq

/-- The records after the file header; `none` if they are cut off. -/
def readRecords : List UInt8 → Option (List Rec)
  | [] => some []
  | s0 :: s1 :: s2 :: s3 :: n0 :: n1 :: n2 :: n3 :: i0 :: i1 :: i2 :: i3 :: o0 :: o1 :: o2 :: o3 :: rest =>
    if num32 i0 i1 i2 i3 ≤ rest.length then
      (readRecords (rest.drop (num32 i0 i1 i2 i3))).map
        (fun rs => ⟨num32 s0 s1 s2 s3, num32 n0 n1 n2 n3, num32 o0 o1 o2 o3, rest.take (num32 i0 i1 i2 i3)⟩ :: rs)
    else none
  | _ => none
termination_by bs => bs.length
decreasing_by simp; omega

structure PcapFile where
  snaplen : Nat
  linkType : Nat
  records : List Rec
  deriving DecidableEq

/-- A pcap file: magic number 0xA1B23C4D, version 2.4, two reserved words, snap length, link type, records. -/
def readPcap : List UInt8 → Option PcapFile
  | m0 :: m1 :: m2 :: m3 :: a0 :: a1 :: b0 :: b1 :: _ :: _ :: _ :: _ :: _ :: _ :: _ :: _ ::
    s0 :: s1 :: s2 :: s3 :: l0 :: l1 :: l2 :: l3 :: rest =>
    if num32 m0 m1 m2 m3 = 0xa1b23c4d ∧ num16 a0 a1 = 2 ∧ num16 b0 b1 = 4 then
      (readRecords rest).map (fun rs => ⟨num32 s0 s1 s2 s3, num32 l0 l1 l2 l3, rs⟩)
    else none
  | _ => none

/-! ## What the user expects -/

/-- The record for a frame: the time at which it arrived, its length and its first `snaplen` bytes. -/
def expectedRec (cfg : Cfg) (f : Frame) : Rec :=
  { sec := if cfg.timestamps then f.ns / 1000000000 else 0
    nsec := if cfg.timestamps then f.ns % 1000000000 else 0
    orig := f.data.length
    data := f.data.take cfg.snaplen }

/-- The numbers fit into the fields of the format. -/
def Fits (f : Frame) : Prop := f.data.length < 2 ^ 32 ∧ f.ns / 1000000000 < 2 ^ 32

/-- What may happen without MPRQ: no errors, in particular no frame that is longer than the snap length. -/
def OpOk (cfg : Cfg) : Op → Prop
  | .frame f => cfg.mprq = false → f.data.length ≤ cfg.snaplen
  | .fail => cfg.mprq = true
  | _ => True

/-- Every frame of the history fits. -/
def AllFit (ops : List Op) : Prop := ∀ f, Op.frame f ∈ ops → Fits f

/-- The frames that arrive in a history. -/
def arrivals (ops : List Op) : List Frame :=
  ops.filterMap (fun op => match op with | .frame f => some f | _ => none)

/-- The chunks that wait to be written, are being written or are being filled. -/
def held (s : St) : List Chunk :=
  (match s.coll with | .writing c _ => [c] | _ => []) ++ s.ring ++ (match s.net with | .inner c _ => [c] | _ => [])

/-- Both threads go on again and again. -/
def Fair (sched : Nat → Op) : Prop :=
  (∀ i, ∃ j, i ≤ j ∧ sched j = .net) ∧ (∀ i, ∃ j, i ≤ j ∧ sched j = .coll)

/-- The states along an infinite schedule. -/
def trace (cfg : Cfg) (s : St) (sched : Nat → Op) : Nat → St
  | 0 => s
  | k + 1 => step cfg (trace cfg s sched k) (sched k)

end Spead2.Cap
