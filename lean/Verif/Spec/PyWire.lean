import Verif.Model.PyWire
import Verif.Spec.PySync
import Verif.Spec.PyItem
import Verif.Spec.PyDescr
import Verif.Spec.Delivery
import Verif.Props.EndToEnd

/-!
# What users of item groups in Python rely on, from one process to another
-/

namespace Spead2.PyWire.Spec
open PyDescr

/-- The receiver has every item of the sender, with the same name, descriptor and value. -/
def Mirrors (sender receiver : PyGroup Rest PyValue) : Prop :=
  ∀ i o x, sender.getId i = some (o, x) → receiver.Shows i x.name x.rest x.value

/-- The descriptors that were added. -/
def descsE : List Entry → List (Nat × String × Rest)
  | [] => []
  | .desc i n d :: es => (i, n, d) :: descsE es
  | .value _ _ _ :: es => descsE es

/-- The values that were added. -/
def valsE : List Entry → List (Nat × (Rest × PyValue))
  | [] => []
  | .desc _ _ _ :: es => valsE es
  | .value i d v :: es => (i, (d, v)) :: valsE es

/-- Descriptors that the constructor accepts and that have no oddities. -/
def DescOk (d : Rest) : Prop := ∀ i n, PyDescr.Spec.Valid (d.full i n) ∧ PyDescr.Spec.Plain (d.full i n)

/-- An item that holds a string: one dimension of 8-bit characters. -/
def IsString (d : Rest) : Prop := d.shape.length = 1 ∧ d.dtype = none ∧ d.format = some [('c'.toNat, 8)]

/-- A value for an item: it fits the descriptor, is regular (C72), and is a string for an item that holds strings and an array otherwise. -/
structure Fitting (wraps : Bool) (d : Rest) (v : PyValue) : Prop where
  fits : Spead2.Spec.ValueFits d.values (asArray v)
  regular : Spead2.Spec.Regular d.values (asArray v) wraps
  string : IsString d ↔ ∃ s, v = .str s

/-- A value that can be sent: it is also not empty, unless it takes whole bytes and has a fixed size. -/
structure Good (wraps : Bool) (d : Rest) (v : PyValue) : Prop extends Fitting wraps d v where
  nonempty : 0 < (asArray v).shape.prod ∨ (none ∉ d.shape ∧ 8 ∣ d.values.itemsizeBits)

/-- A descriptor that can be sent (C89): its numbers fit the fields that carry them. -/
def Described (f : Setup) (id : Nat) (name : String) (d : Rest) : Prop :=
  ∀ raw, toRaw f.text f.bc (d.full id name) = some raw → Spead2.Spec.DescriptorFits f.w f.bc raw ∧ raw.id < 2 ^ (8 * f.w)

/-- Everything in a heap can be sent. -/
def Sendable (f : Setup) (es : List Entry) : Prop :=
  ∀ e ∈ es, match e with | .desc i n d => Described f i n d | .value _ d v => Good f.wraps d v

/-- The same, but values may also be empty. -/
def SendableOrEmpty (f : Setup) (es : List Entry) : Prop :=
  ∀ e ∈ es, match e with | .desc i n d => Described f i n d | .value _ d v => Fitting f.wraps d v

/-- What C10, C55 and C69 say about the items of a heap that arrives: the items in the payload in order with their bytes (without empty ones),
and the immediate items with their values. -/
def Arrived (w : Nat) (items : List SendItem) (rx : List RxItem) : Prop :=
  ∃ adr imm, rx = adr ++ imm ∧ (∀ it ∈ adr, it.isImm = false) ∧
    adr.map (fun it => (it.id, it.data)) = (Spead2.Spec.addressedItems w items).map (fun y => (y.1, y.2.map some)) ∧
    (∀ it ∈ imm, it.isImm = true ∧ it.data = (beBytes w it.value).map some) ∧
    (imm.map (fun it => (it.id, it.value))).Perm (Spead2.Spec.immediateItems w items).eraseDups

/-- Ids up to 6 belong to the protocol, and values are not sent without descriptors. -/
def Proper : Op → Prop
  | .add (some i) _ _ _ => 6 < i
  | .send dm vm => dm = .none → vm = .none
  | _ => True

/-- The defect of C74 is avoided: the same name always gets the same id, or descriptors are only ever sent because they are stale. -/
def Steady (frequency : Option Nat) (ops : List Op) : Prop :=
  (∃ idOf : String → Nat, ∀ i n d v, Op.add i n d v ∈ ops → i = some (idOf n)) ∨
    (frequency = none ∧ ∀ dm vm, Op.send dm vm ∈ ops → dm ≠ .all)

/-- A heap with these items was sent as packets, with any cnt, packet size and repetition of pointers for which C09 holds; the network has delivered each packet at least once,
in any order; and `rx` is what the receiver has got from them. -/
def OverNetwork (w : Nat) (items : List SendItem) (rx : List RxItem) : Prop :=
  ∃ rep cnt mps pkts ds ps p0 s acc, Spead2.Spec.Fits ⟨8 * w, rep, items⟩ cnt mps ∧
    (Spead2.Spec.minPayload mps ⟨8 * w, rep, items⟩ ≤ (Spead2.Spec.realPayload w items).length ∨ (Spead2.Spec.realPayload w items).length % 8 = 0) ∧
    Sends ⟨8 * w, rep, items⟩ cnt mps pkts ∧ Carried pkts ds ∧ ds.map recvPkt? = ps.map (fun p => some (some p)) ∧ p0 ∈ ps ∧
    (LiveHeap.new p0).run true ps = some (s, acc) ∧ s.load true = some rx

/-- A group of one heap with these items (for the streams of C55, C56 and C69). -/
def OneHeap (w : Nat) (items : List SendItem) (g : Spead2.Spec.SentGroup) : Prop := ∃ x, g.heaps = [x] ∧ x.width = w ∧ x.heap.items = items

end Spead2.PyWire.Spec
