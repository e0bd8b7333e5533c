import Verif.Model.Stats

namespace Spead2.Spec

/-- The total of some values of one statistic: their sum modulo 2^64, or their maximum (0 if there are none). -/
def statTotal : StatMode → List UInt64 → UInt64
  | .counter, l => UInt64.ofNat (l.map UInt64.toNat).sum
  | .maximum, l => UInt64.ofNat ((l.map UInt64.toNat).foldr max 0)

/-- A statistics object has one value per statistic (asserted by the constructor). -/
def StatsOk (s : Stats) : Prop := s.values.length = s.config.length

/-- Configurations a user can build: the default statistics and then any number of successful `add_stat` calls. -/
inductive ConfigReach : List StatConfig → Prop
  | default : ConfigReach defaultStats
  | add {cs cs' : List StatConfig} {n m i} : ConfigReach cs → addStat cs n m = .ok (cs', i) → ConfigReach cs'

end Spead2.Spec
