import Verif.Model.ToolSocket
import Verif.Spec.Socket

/-! # What users expect of the sockets of the tools -/

namespace Spead2.ToolSocket

open Socket

/-- Two attempts to make a sender agree: both fail, or both succeed and all datagrams to the endpoints are sent alike. -/
def Agree (h : Host) (eps : List Endpoint) (x y : Except Err OutSock) : Prop :=
  ((∃ s, x = .ok s) ↔ ∃ s, y = .ok s) ∧ ∀ s t, x = .ok s → y = .ok t → ∀ e ∈ eps, effect h s e.addr = effect h t e.addr

def AllGroups4 (eps : List Endpoint) : Prop := ∀ e ∈ eps, e.addr.isV4 = true ∧ e.addr.multicast = true

def AllGroups6 (eps : List Endpoint) : Prop := ∀ e ∈ eps, e.addr.isV4 = false ∧ e.addr.multicast = true

def NoGroups (eps : List Endpoint) : Prop := ∀ e ∈ eps, e.addr.multicast = false

end Spead2.ToolSocket
