import Verif.Model.NetRaw

/-! # What users expect of `spead2_net_raw` -/

namespace Spead2.NetRaw

/-- An ordinary program: neither set-uid or set-gid nor with capabilities of its own. -/
def Ordinary (f : File) : Prop := f.hasCaps = false ∧ f.setId = false

/-- The kernel keeps the ambient capabilities within the permitted and inheritable ones. -/
def Sound (p : Proc) : Prop := ∀ c, p.ambient c = true → p.permitted c = true ∧ p.inheritable c = true

/-- `sudo setcap cap_net_raw+p spead2_net_raw` (doc/tools.rst). -/
def installed : File := { hasCaps := true, permitted := only netRaw }

/-- The number of CAP_NET_RAW in linux/capability.h. -/
def capNetRaw : Cap := 13

/-- The program can make raw sockets. -/
def CanRaw (q : Proc) : Prop := q.effective capNetRaw = true

end Spead2.NetRaw
