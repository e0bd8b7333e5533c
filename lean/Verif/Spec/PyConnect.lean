import Verif.Model.PyConnect

/-!
# What Python programs rely on when they connect
-/

namespace Spead2.PyConnect

def Reach (sync : Bool) (evs : List Ev) (s : St) : Prop := St.run sync {} evs = some s

/-- The call has returned or raised an exception. -/
def St.over (s : St) : Prop := s.main = .returned ∨ ∃ f, s.main = .raised f

/-- Nothing at all can happen any more. -/
def Dead (sync : Bool) (s : St) : Prop := ∀ e, s.step sync e = none

/-- Events other than that threads take or give up the GIL. -/
def Ev.useful : Ev → Bool
  | .mainTake | .mainYield | .poolTake | .poolYield => false
  | _ => true

end Spead2.PyConnect
