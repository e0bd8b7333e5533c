import Verif.Model.SendMmsg
import Verif.Spec.SendWriter

/-!
# What is seen of a UDP writer that uses `sendmmsg`

The functions of the trace are those of Verif/Spec/SendWriter.lean.
-/

namespace Spead2.Spec

/-- A use of a stream with this writer. -/
def MReach {H π : Type} (genv : UEnv) (env : WEnv H π) (ops : List (WOp H)) (m : MSt H π) (tr : List (WEv π)) : Prop :=
  MSt.run genv env ops MSt.new = some (m, tr)

/-- The writer waits to be woken by the next call of `async_send_heaps`. -/
def _root_.Spead2.MSt.idle {H π : Type} (m : MSt H π) : Prop := m.pc = .rest ∧ m.sq.wk = .need

/-- The stream is set up consistently, and heaps have no empty packets. -/
structure _root_.Spead2.WEnv.MValid {H π : Type} (env : WEnv H π) : Prop extends env.Valid where
  nonempty : ∀ h c ps, env.sq.gen h c = some ps → ∀ p ∈ ps, 0 < (env.data p).length

end Spead2.Spec
