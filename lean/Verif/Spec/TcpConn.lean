import Verif.Model.TcpConn
import Verif.Spec.Tcp

/-! # What users expect of a TCP reader -/

namespace Spead2.TcpConn

/-- Nothing more will happen in the reader by itself. -/
def Finished (s : St) : Prop := s.phase = .idle ∨ ∃ k r u, s.phase = .reading k r u ∧ r.reading = false

/-- The client whose connection the reader has taken. -/
def Taken (s : St) (k : Nat) : Prop := ∃ r u, s.phase = .reading k r u

end Spead2.TcpConn
