import Mathlib.Tactic.Linarith
import Mathlib.Algebra.Order.Ring.Rat
import Mathlib.Algebra.Order.Field.Basic
import Mathlib.Tactic.FieldSimp
import Mathlib.Tactic.Ring
import Verif.Spec.Rate

/-! Lemmas on rate limiting. -/

namespace Spead2

open Spec

/-! ## Times -/

/-- The time that a `precise_time` stands for. -/
def PTime.val (t : PTime) : Rat := t.coarse + t.corr

/-- The correction is a fraction of a tick. -/
def PTime.Norm (t : PTime) : Prop := 0 ≤ t.corr ∧ t.corr < 1

theorem trunc_nonneg {x : Rat} (h : 0 ≤ x) : truncTicks x = x.floor := by
  unfold truncTicks
  rw [Rat.floor_def, Int.tdiv_eq_ediv_of_nonneg (Rat.num_nonneg.mpr h)]

theorem trunc_neg {x : Rat} (h : x < 0) : truncTicks x = -(-x).floor := by
  unfold truncTicks
  have hn := Rat.num_neg.mpr h
  rw [Rat.floor_def, Rat.neg_num, Rat.neg_den]
  conv => lhs; rw [show x.num = -(-x.num) by omega]
  rw [Int.neg_tdiv, Int.tdiv_eq_ediv_of_nonneg (by omega)]

theorem trunc_floor (x : Rat) : (if x < truncTicks x then truncTicks x - 1 else truncTicks x) = x.floor := by
  by_cases h : 0 ≤ x
  · rw [trunc_nonneg h, if_neg]
    have := Rat.floor_le x
    linarith
  · have h' : x < 0 := not_le.mp h
    rw [trunc_neg h']
    have h1 := Rat.floor_le (-x)
    have h2 := Rat.lt_floor_add_one (-x)
    have h3 := Rat.floor_le x
    have h4 := Rat.lt_floor_add_one x
    push_cast at h2 h4 ⊢
    split
    · rename_i hc
      have e1 : ((-(-x).floor - 1 : Int) : Rat) < x.floor + 1 := by push_cast; linarith
      have e2 : (x.floor : Rat) < ((-(-x).floor - 1 : Int) : Rat) + 1 := by push_cast; linarith
      have e1' : -(-x).floor - 1 < x.floor + 1 := by exact_mod_cast e1
      have e2' : x.floor < -(-x).floor - 1 + 1 := by exact_mod_cast e2
      omega
    · rename_i hc
      have hc' := not_lt.mp hc
      have e0 : (-x).floor = -x := by linarith
      have e1 : ((-(-x).floor : Int) : Rat) < x.floor + 1 := by push_cast; linarith
      have e2 : (x.floor : Rat) ≤ ((-(-x).floor : Int) : Rat) := by push_cast; linarith
      have e1' : -(-x).floor < x.floor + 1 := by exact_mod_cast e1
      have e2' : x.floor ≤ -(-x).floor := by exact_mod_cast e2
      omega

theorem normalize_val (t : PTime) : t.normalize.val = t.val := by
  unfold PTime.normalize PTime.val
  push_cast
  ring

theorem normalize_norm (t : PTime) : t.normalize.Norm := by
  unfold PTime.normalize PTime.Norm
  dsimp only
  rw [trunc_floor]
  have h1 := Rat.floor_le t.corr
  have h2 := Rat.lt_floor_add_one t.corr
  push_cast at h2
  constructor <;> linarith

theorem add_val (t : PTime) (d : Rat) : (t.add d).val = t.val + d := by
  unfold PTime.add
  rw [normalize_val]
  unfold PTime.val
  ring

theorem add_norm (t : PTime) (d : Rat) : (t.add d).Norm := normalize_norm _

theorem of_val (c : Int) : (PTime.of c).val = c := by
  unfold PTime.of PTime.val
  simp

theorem of_norm (c : Int) : (PTime.of c).Norm := by
  unfold PTime.of PTime.Norm
  constructor <;> norm_num

theorem coarse_le {t : PTime} (h : t.Norm) : (t.coarse : Rat) ≤ t.val := by
  have := h.1
  unfold PTime.val
  linarith

theorem val_lt {t : PTime} (h : t.Norm) : t.val < t.coarse + 1 := by
  have := h.2
  unfold PTime.val
  linarith

theorem lt_iff {a b : PTime} (ha : a.Norm) (hb : b.Norm) : a.lt b = true ↔ a.val < b.val := by
  have h1 := coarse_le ha
  have h2 := val_lt ha
  have h3 := coarse_le hb
  have h4 := val_lt hb
  unfold PTime.lt
  simp only [Bool.or_eq_true, Bool.and_eq_true, decide_eq_true_eq]
  constructor
  · rintro (h | ⟨h, h'⟩)
    · have : (a.coarse : Rat) + 1 ≤ b.coarse := by exact_mod_cast h
      linarith
    · unfold PTime.val
      rw [h]
      linarith
  · intro h
    have : (a.coarse : Rat) < b.coarse + 1 := by linarith
    have h5 : a.coarse < b.coarse + 1 := by exact_mod_cast this
    rcases Int.lt_or_eq_of_le (Int.lt_add_one_iff.mp h5) with h6 | h6
    · exact Or.inl h6
    · refine Or.inr ⟨h6, ?_⟩
      unfold PTime.val at h
      rw [h6] at h
      linarith

theorem max_norm {a b : PTime} (ha : a.Norm) (hb : b.Norm) : (a.max b).Norm := by
  unfold PTime.max
  split <;> assumption

theorem le_max_l {a b : PTime} (ha : a.Norm) (hb : b.Norm) : a.val ≤ (a.max b).val := by
  unfold PTime.max
  split
  · rename_i h
    exact le_of_lt ((lt_iff ha hb).mp h)
  · exact le_refl _

theorem le_max_r {a b : PTime} (ha : a.Norm) (hb : b.Norm) : b.val ≤ (a.max b).val := by
  unfold PTime.max
  split
  · exact le_refl _
  · rename_i h
    rw [lt_iff ha hb] at h
    exact not_lt.mp h

theorem max_cases (a b : PTime) : a.max b = a ∨ a.max b = b := by
  unfold PTime.max
  split
  · exact Or.inr rfl
  · exact Or.inl rfl

theorem coarse_mono {a b : PTime} (ha : a.Norm) (hb : b.Norm) (h : a.val ≤ b.val) : a.coarse ≤ b.coarse := by
  have h1 := coarse_le ha
  have h4 := val_lt hb
  have : (a.coarse : Rat) < b.coarse + 1 := by linarith
  have h5 : a.coarse < b.coarse + 1 := by exact_mod_cast this
  omega

/-! ## Traces -/

/-- What the configuration guarantees. -/
structure RateOk (c : RateConfig) : Prop where
  rate : 0 ≤ c.rate
  ratio : 1 ≤ c.ratio
  hz : 0 < c.hz

theorem make_ok {rate : Rat} {burst : Nat} {ratio hz : Rat} {hw : Bool} {c : RateConfig} (hhz : 0 < hz)
    (h : RateConfig.make rate burst ratio hz hw = some c) : RateOk c ∧ c.hw = hw ∧ c.burstSize = burst ∧ c.rate = rate ∧ c.ratio = ratio ∧ c.hz = hz := by
  unfold RateConfig.make at h
  split at h
  · exact absurd h (by simp)
  · rename_i h1
    split at h
    · exact absurd h (by simp)
    · rename_i h2
      cases h
      exact ⟨⟨not_lt.mp h1, not_lt.mp h2, hhz⟩, rfl, rfl, rfl, rfl, rfl⟩

theorem wait_due {c : RateConfig} (ok : RateOk c) (size : Nat) (r : Rat) : size * c.waitPerByte r = dueTicks c size r := by
  unfold RateConfig.waitPerByte dueTicks effRate RateConfig.defaultWait
  by_cases h0 : r = 0
  · subst h0
    simp
  · rw [if_neg h0]
    by_cases h1 : 0 < r
    · rw [if_pos h1, if_neg (show ¬ r < 0 by linarith), if_neg h0]
      field_simp
    · rw [if_neg h1, if_pos (lt_of_le_of_ne (not_lt.mp h1) h0)]
      by_cases h2 : 0 < c.rate
      · rw [if_pos h2, if_neg (show ¬ c.rate = 0 by linarith)]
        field_simp
      · have h3 : c.rate = 0 := le_antisymm (not_lt.mp h2) ok.rate
        rw [if_neg h2, if_pos h3]
        ring

theorem dueTicks_nonneg {c : RateConfig} (ok : RateOk c) (size : Nat) (r : Rat) : 0 ≤ dueTicks c size r := by
  unfold dueTicks
  have h1 : (0 : Rat) ≤ size := Nat.cast_nonneg _
  have h2 : 0 ≤ effRate c r := by
    unfold effRate
    split
    · exact ok.rate
    · linarith
  have := ok.hz
  split
  · exact le_refl _
  · positivity

theorem rateDue_append (c : RateConfig) (a b : List RateEv) : rateDue c (a ++ b) = rateDue c a + rateDue c b := by
  induction a with
  | nil => simp [rateDue]
  | cons e a ih =>
    cases e with
    | packet t n r =>
      simp only [List.cons_append, rateDue, ih]
      ring
    | _ => simpa only [List.cons_append, rateDue] using ih

theorem rateDue_nonneg {c : RateConfig} (ok : RateOk c) (a : List RateEv) : 0 ≤ rateDue c a := by
  induction a with
  | nil => exact le_refl _
  | cons e a ih =>
    cases e with
    | packet t n r =>
      have := dueTicks_nonneg ok n r
      simp only [rateDue]
      linarith
    | _ => simpa only [rateDue] using ih

/-- Executions, with the trace and the last time on the clock. -/
inductive LReach (c : RateConfig) : List RateEv → Int → Limiter → Prop
  | init : LReach c [] 0 {}
  | woken {tr : List RateEv} {now : Int} {l : Limiter} (t : Int) : LReach c tr now l → now ≤ t → LReach c (tr ++ [.woken t]) t (l.wakeEmpty t)
  | timer {tr : List RateEv} {now : Int} {l : Limiter} (t : Int) : LReach c tr now l → now ≤ t → LReach c tr t (l.step c (.timer t)).1
  | get {tr : List RateEv} {now : Int} {l : Limiter} (t1 t2 t3 : Int) (p : Option (Nat × Rat)) : LReach c tr now l → now ≤ t1 → t1 ≤ t2 → t2 ≤ t3 →
    LReach c (tr ++ [(l.get c t1 t2 t3 p).2]) t3 (l.get c t1 t2 t3 p).1

theorem reach_run {c : RateConfig} : ∀ (ops : List RateOp) {tr : List RateEv} {now : Int} {l : Limiter}, LReach c tr now l →
    (now :: opTimes ops).Pairwise (· ≤ ·) → ∃ now', LReach c (tr ++ (Limiter.run c ops l).2) now' (Limiter.run c ops l).1 := by
  intro ops
  induction ops with
  | nil => intro tr now l h _; exact ⟨now, by simpa [Limiter.run] using h⟩
  | cons op ops ih =>
    intro tr now l h hp
    cases op with
    | woken t =>
      simp only [opTimes, List.pairwise_cons, List.mem_cons, forall_eq_or_imp] at hp
      obtain ⟨now', h'⟩ := ih (LReach.woken t h hp.1.1) (by simpa only [List.pairwise_cons] using hp.2)
      exact ⟨now', by simpa [Limiter.run, Limiter.step] using h'⟩
    | timer t =>
      simp only [opTimes, List.pairwise_cons, List.mem_cons, forall_eq_or_imp] at hp
      obtain ⟨now', h'⟩ := ih (LReach.timer t h hp.1.1) (by simpa only [List.pairwise_cons] using hp.2)
      exact ⟨now', by simpa [Limiter.run, Limiter.step] using h'⟩
    | get t1 t2 t3 p =>
      simp only [opTimes, List.pairwise_cons, List.mem_cons, forall_eq_or_imp] at hp
      obtain ⟨now', h'⟩ := ih (LReach.get t1 t2 t3 p h hp.1.1 hp.2.1.1 hp.2.2.1.1) (by simpa only [List.pairwise_cons] using hp.2.2.2)
      exact ⟨now', by simpa [Limiter.run, Limiter.step] using h'⟩

theorem reach_of_run {c : RateConfig} {ops : List RateOp} (h : ClockOk ops) : ∃ now, LReach c (Limiter.run c ops {}).2 now (Limiter.run c ops {}).1 := by
  obtain ⟨now, h'⟩ := reach_run ops LReach.init h
  exact ⟨now, by simpa using h'⟩

/-! ## One call of `get_packet` -/

/-- What a call of `get_packet` can do: sleep again, update the times and sleep, serve without an update, or after one. -/
theorem get_cases (c : RateConfig) (l : Limiter) (t1 t2 t3 : Int) (p : Option (Nat × Rat)) :
    (l.mustSleep = true ∧ t1 < l.burst.coarse ∧ l.get c t1 t2 t3 p = (l, .slept t1 l.burst.coarse)) ∨
    ((l.mustSleep = true → l.burst.coarse ≤ t1) ∧
      ((c.burstSize ≤ l.bytes ∧ t2 < (l.update c t2).2 ∧ l.get c t1 t2 t3 p = ({ (l.update c t2).1 with mustSleep := true }, .slept t2 (l.update c t2).1.burst.coarse)) ∨
       (c.burstSize ≤ l.bytes ∧ (l.update c t2).2 ≤ t2 ∧ l.get c t1 t2 t3 p = Limiter.take c { (l.update c t2).1 with mustSleep := false } t3 p) ∨
       (l.bytes < c.burstSize ∧ l.get c t1 t2 t3 p = Limiter.take c { l with mustSleep := false } t3 p))) := by
  have key : ∀ (l : Limiter), l.mustSleep = false →
      ((c.burstSize ≤ l.bytes ∧ t2 < (l.update c t2).2 ∧ l.check c t2 t3 p = ({ (l.update c t2).1 with mustSleep := true }, .slept t2 (l.update c t2).1.burst.coarse)) ∨
       (c.burstSize ≤ l.bytes ∧ (l.update c t2).2 ≤ t2 ∧ l.check c t2 t3 p = Limiter.take c { (l.update c t2).1 with mustSleep := false } t3 p) ∨
       (l.bytes < c.burstSize ∧ l.check c t2 t3 p = Limiter.take c { l with mustSleep := false } t3 p)) := by
    intro l hl
    unfold Limiter.check
    by_cases hb : c.burstSize ≤ l.bytes
    · rw [if_pos hb]
      by_cases ht : t2 < (l.update c t2).2
      · refine Or.inl ⟨hb, ht, ?_⟩
        show (if t2 < (l.update c t2).2 then _ else _) = _
        rw [if_pos ht]
        rfl
      · refine Or.inr (Or.inl ⟨hb, not_lt.mp ht, ?_⟩)
        show (if t2 < (l.update c t2).2 then _ else _) = _
        rw [if_neg ht]
        have : (l.update c t2).1 = { (l.update c t2).1 with mustSleep := false } := by
          unfold Limiter.update
          simp only [hl]
        rw [← this]
        rfl
    · refine Or.inr (Or.inr ⟨by omega, ?_⟩)
      rw [if_neg hb]
      have : l = { l with mustSleep := false } := by cases l; simp_all
      rw [← this]
  unfold Limiter.get
  by_cases hm : l.mustSleep = true
  · rw [if_pos hm]
    by_cases ht : t1 < l.burst.coarse
    · rw [if_pos ht]
      exact Or.inl ⟨hm, ht, rfl⟩
    · rw [if_neg ht]
      refine Or.inr ⟨fun _ => not_lt.mp ht, ?_⟩
      exact key { l with mustSleep := false } rfl
  · rw [if_neg hm]
    refine Or.inr ⟨fun h => absurd h hm, key l (by simpa using hm)⟩

/-- The effect of an update of the times. -/
theorem update_spec {c : RateConfig} {l : Limiter} (now : Int) (hb : l.burst.Norm) (ha : l.avg.Norm) :
    (l.update c now).1.burst.Norm ∧ (l.update c now).1.avg.Norm ∧ (l.update c now).1.avg.val = l.avg.val + l.wait ∧
    (l.update c now).1.bytes = 0 ∧ (l.update c now).1.wait = 0 ∧
    l.burst.val + l.wait / c.ratio ≤ (l.update c now).1.burst.val ∧ (l.update c now).1.avg.val ≤ (l.update c now).1.burst.val ∧ now ≤ (l.update c now).1.burst.val ∧
    (l.update c now).1.avg.coarse ≤ (l.update c now).2 ∧
    ((l.update c now).1.burst.val = now ∨ (l.update c now).1.burst.val = l.burst.val + l.wait / c.ratio ∨ (l.update c now).1.burst.val = l.avg.val + l.wait) ∧
    ((l.update c now).2 ≤ now → (l.update c now).1.burst.coarse = now) ∧ (now < (l.update c now).2 → (l.update c now).1.burst.coarse = (l.update c now).2) := by
  have n1 := add_norm l.burst (l.wait / c.ratio)
  have n2 := add_norm l.avg l.wait
  have n3 := max_norm n1 n2
  have n4 := of_norm now
  have v1 := add_val l.burst (l.wait / c.ratio)
  have v2 := add_val l.avg l.wait
  have m1 := le_max_l n1 n2
  have m2 := le_max_r n1 n2
  have m3 := le_max_l n4 n3
  have m4 := le_max_r n4 n3
  have v4 := of_val now
  refine ⟨max_norm n4 n3, n2, v2, rfl, rfl, ?_, ?_, ?_, ?_, ?_, ?_, ?_⟩
  · show _ ≤ (PTime.max (PTime.of now) (PTime.max (l.burst.add (l.wait / c.ratio)) (l.avg.add l.wait))).val
    linarith
  · show (l.avg.add l.wait).val ≤ (PTime.max (PTime.of now) (PTime.max (l.burst.add (l.wait / c.ratio)) (l.avg.add l.wait))).val
    linarith
  · show _ ≤ (PTime.max (PTime.of now) (PTime.max (l.burst.add (l.wait / c.ratio)) (l.avg.add l.wait))).val
    linarith
  · exact coarse_mono n2 n3 m2
  · show (PTime.max (PTime.of now) (PTime.max (l.burst.add (l.wait / c.ratio)) (l.avg.add l.wait))).val = _ ∨ _
    rcases max_cases (PTime.of now) (PTime.max (l.burst.add (l.wait / c.ratio)) (l.avg.add l.wait)) with h | h
    · left; rw [h, v4]
    · right
      show (PTime.max (PTime.of now) (PTime.max (l.burst.add (l.wait / c.ratio)) (l.avg.add l.wait))).val = _ ∨ _
      rw [h]
      rcases max_cases (l.burst.add (l.wait / c.ratio)) (l.avg.add l.wait) with h' | h'
      · left; rw [h', v1]
      · right
        show (PTime.max (PTime.of now) (PTime.max (l.burst.add (l.wait / c.ratio)) (l.avg.add l.wait))).val = _
        rw [h, h', v2]
  · intro h
    show (PTime.max (PTime.of now) (PTime.max (l.burst.add (l.wait / c.ratio)) (l.avg.add l.wait))).coarse = now
    replace h : (PTime.max (l.burst.add (l.wait / c.ratio)) (l.avg.add l.wait)).coarse ≤ now := h
    have h1 := coarse_mono n4 (max_norm n4 n3) m3
    have h2 : (PTime.of now).coarse = now := rfl
    rcases max_cases (PTime.of now) (PTime.max (l.burst.add (l.wait / c.ratio)) (l.avg.add l.wait)) with h' | h'
    · rw [h']; rfl
    · rw [h'] at h1 ⊢
      omega
  · intro h
    show (PTime.max (PTime.of now) (PTime.max (l.burst.add (l.wait / c.ratio)) (l.avg.add l.wait))).coarse = (PTime.max (l.burst.add (l.wait / c.ratio)) (l.avg.add l.wait)).coarse
    replace h : now < (PTime.max (l.burst.add (l.wait / c.ratio)) (l.avg.add l.wait)).coarse := h
    have h1 := coarse_mono n3 (max_norm n4 n3) m4
    have h2 : (PTime.of now).coarse = now := rfl
    rcases max_cases (PTime.of now) (PTime.max (l.burst.add (l.wait / c.ratio)) (l.avg.add l.wait)) with h' | h'
    · rw [h'] at h1
      omega
    · rw [h']

/-! ## Invariants -/

/-- Serving a packet. -/
theorem take_packet {c : RateConfig} (ok : RateOk c) (hw : c.hw = false) (l : Limiter) (t3 : Int) (size : Nat) (r : Rat) :
    Limiter.take c l t3 (some (size, r)) = ({ l with bytes := l.bytes + size, wait := l.wait + dueTicks c size r }, .packet t3 size r) := by
  unfold Limiter.take
  simp only [hw, wait_due ok]
  rfl

/-- How the state is related to the clock. -/
structure LimInv (now : Int) (l : Limiter) : Prop where
  burst : l.burst.Norm
  avg : l.avg.Norm
  wait : 0 ≤ l.wait
  clock : l.mustSleep = false → l.burst.coarse ≤ now ∧ l.avg.coarse ≤ now
  sleep : l.mustSleep = true → l.avg.coarse ≤ max l.burst.coarse now

theorem take_inv {c : RateConfig} (ok : RateOk c) {now t3 : Int} {l : Limiter} (inv : LimInv now l) (ht : now ≤ t3) (p : Option (Nat × Rat)) :
    LimInv t3 (Limiter.take c l t3 p).1 := by
  have base : LimInv t3 l := ⟨inv.burst, inv.avg, inv.wait, fun h => ⟨le_trans (inv.clock h).1 ht, le_trans (inv.clock h).2 ht⟩,
    fun h => by have := inv.sleep h; omega⟩
  cases p with
  | none => exact base
  | some q =>
    obtain ⟨size, r⟩ := q
    unfold Limiter.take
    dsimp only
    split
    · exact base
    · have h1 : 0 ≤ l.wait + size * c.waitPerByte r := by
        rw [wait_due ok]
        have := dueTicks_nonneg ok size r
        have := inv.wait
        linarith
      exact ⟨base.burst, base.avg, h1, base.clock, base.sleep⟩

/-- After the checks of `get_packet` for sleeping, a packet may be served. -/
theorem ready_inv {c : RateConfig} {now t1 t2 : Int} {l : Limiter} (inv : LimInv now l) (h1 : now ≤ t1) (h2 : t1 ≤ t2)
    (hm : l.mustSleep = true → l.burst.coarse ≤ t1) : LimInv t2 { l with mustSleep := false } := by
  refine ⟨inv.burst, inv.avg, inv.wait, fun _ => ?_, fun h => nomatch h⟩
  show l.burst.coarse ≤ t2 ∧ l.avg.coarse ≤ t2
  by_cases h : l.mustSleep = true
  · have a := hm h
    have b := inv.sleep h
    omega
  · have := inv.clock (by simpa using h)
    omega

theorem update_inv {c : RateConfig} {now t2 : Int} {l : Limiter} (inv : LimInv now l) (ht : (l.update c t2).2 ≤ t2) :
    LimInv t2 { (l.update c t2).1 with mustSleep := false } := by
  obtain ⟨n1, n2, -, -, w0, -, -, -, a1, -, k1, -⟩ := update_spec (c := c) t2 inv.burst inv.avg
  refine ⟨n1, n2, ?_, fun _ => ?_, fun h => nomatch h⟩
  · show 0 ≤ (l.update c t2).1.wait
    rw [w0]
  · show (l.update c t2).1.burst.coarse ≤ t2 ∧ (l.update c t2).1.avg.coarse ≤ t2
    have := k1 ht
    omega

theorem sleep_inv {c : RateConfig} {now t2 : Int} {l : Limiter} (inv : LimInv now l) (ht : t2 < (l.update c t2).2) :
    LimInv t2 { (l.update c t2).1 with mustSleep := true } := by
  obtain ⟨n1, n2, -, -, w0, -, -, -, a1, -, -, k2⟩ := update_spec (c := c) t2 inv.burst inv.avg
  refine ⟨n1, n2, ?_, (fun h => nomatch h), fun _ => ?_⟩
  · show 0 ≤ (l.update c t2).1.wait
    rw [w0]
  · show (l.update c t2).1.avg.coarse ≤ max (l.update c t2).1.burst.coarse t2
    have := k2 ht
    omega

theorem later_inv {now t : Int} {l : Limiter} (inv : LimInv now l) (ht : now ≤ t) : LimInv t l :=
  ⟨inv.burst, inv.avg, inv.wait, fun h => ⟨le_trans (inv.clock h).1 ht, le_trans (inv.clock h).2 ht⟩, fun h => by have := inv.sleep h; omega⟩

theorem wake_spec {l : Limiter} (t : Int) (ha : l.avg.Norm) (hw : 0 ≤ l.wait) :
    (l.wakeEmpty t).avg.Norm ∧ l.avg.val ≤ (l.wakeEmpty t).avg.val ∧ t - l.wait ≤ (l.wakeEmpty t).avg.val ∧
    ((l.wakeEmpty t).avg = l.avg ∨ (l.wakeEmpty t).avg.val ≤ t - l.wait + 1) ∧ ((l.wakeEmpty t).avg = l.avg ∨ (l.wakeEmpty t).avg.coarse ≤ t) := by
  have n := of_norm (t - truncTicks l.wait)
  have v := of_val (t - truncTicks l.wait)
  have f1 := Rat.floor_le l.wait
  have f2 := Rat.lt_floor_add_one l.wait
  have f3 := trunc_nonneg hw
  have f4 : 0 ≤ l.wait.floor := Rat.le_floor_iff.mpr (by exact_mod_cast hw)
  push_cast at f2 v
  rw [f3] at v
  refine ⟨max_norm ha n, le_max_l ha n, ?_, ?_, ?_⟩
  · have := le_max_r ha n
    show _ ≤ (PTime.max l.avg (PTime.of (t - truncTicks l.wait))).val
    rw [f3] at this ⊢
    push_cast at v ⊢
    linarith
  · show PTime.max l.avg (PTime.of (t - truncTicks l.wait)) = _ ∨ (PTime.max l.avg (PTime.of (t - truncTicks l.wait))).val ≤ _
    rcases max_cases l.avg (PTime.of (t - truncTicks l.wait)) with h | h
    · exact Or.inl h
    · right
      rw [h, f3, v]
      linarith
  · show PTime.max l.avg (PTime.of (t - truncTicks l.wait)) = _ ∨ (PTime.max l.avg (PTime.of (t - truncTicks l.wait))).coarse ≤ _
    rcases max_cases l.avg (PTime.of (t - truncTicks l.wait)) with h | h
    · exact Or.inl h
    · right
      rw [h, f3]
      show t - l.wait.floor ≤ t
      omega

theorem lim_inv {c : RateConfig} (ok : RateOk c) {tr : List RateEv} {now : Int} {l : Limiter} (h : LReach c tr now l) : LimInv now l := by
  induction h with
  | init => exact ⟨⟨by norm_num, by norm_num⟩, ⟨by norm_num, by norm_num⟩, by norm_num, fun _ => ⟨by simp, by simp⟩, fun h => nomatch h⟩
  | @woken tr now l t _ ht ih =>
    obtain ⟨n, -, -, -, w⟩ := wake_spec t ih.avg ih.wait
    refine ⟨ih.burst, n, ih.wait, fun h => ?_, fun h => ?_⟩
    · have := ih.clock h
      refine ⟨le_trans this.1 ht, ?_⟩
      rcases w with w | w
      · rw [w]; omega
      · exact w
    · have := ih.sleep h
      show (l.wakeEmpty t).avg.coarse ≤ max l.burst.coarse t
      rcases w with w | w
      · rw [w]; omega
      · omega
  | @timer tr now l t _ ht ih =>
    show LimInv t (if l.mustSleep = true ∧ l.burst.coarse ≤ t then { l with mustSleep := false } else l)
    split
    · rename_i h
      exact ready_inv (c := c) ih ht (le_refl _) (fun _ => h.2)
    · exact later_inv ih ht
  | @get tr now l t1 t2 t3 p _ h1 h2 h3 ih =>
    rcases get_cases c l t1 t2 t3 p with ⟨_, _, e⟩ | ⟨hm, h⟩
    · rw [e]; exact later_inv ih (by omega)
    · rcases h with ⟨_, ht, e⟩ | ⟨_, ht, e⟩ | ⟨_, e⟩
      · rw [e]; exact later_inv (sleep_inv ih ht) h3
      · rw [e]; exact take_inv ok (update_inv ih ht) h3 p
      · rw [e]; exact take_inv ok (ready_inv (c := c) ih h1 h2 hm) h3 p

/-- A step of `get_packet`, seen from outside. -/
theorem get_spec {c : RateConfig} (ok : RateOk c) (hw : c.hw = false) {now t1 t2 t3 : Int} {l : Limiter} (inv : LimInv now l) (h1 : now ≤ t1) (h2 : t1 ≤ t2)
    (p : Option (Nat × Rat)) :
    (l.get c t1 t2 t3 p = (l, .slept t1 l.burst.coarse) ∧ t1 < l.burst.coarse) ∨
    (l.get c t1 t2 t3 p = ({ (l.update c t2).1 with mustSleep := true }, .slept t2 (l.update c t2).1.burst.coarse) ∧ t2 < (l.update c t2).1.burst.coarse) ∨
    (∃ m, LimInv t2 m ∧ m.mustSleep = false ∧ (m = { l with mustSleep := false } ∧ l.bytes < c.burstSize ∨ m = { (l.update c t2).1 with mustSleep := false }) ∧
      (l.get c t1 t2 t3 p = (m, .none t3) ∨
       ∃ size r, l.get c t1 t2 t3 p = ({ m with bytes := m.bytes + size, wait := m.wait + dueTicks c size r }, .packet t3 size r))) := by
  have fin : ∀ m : Limiter, Limiter.take c m t3 p = (m, .none t3) ∨
      ∃ size r, Limiter.take c m t3 p = ({ m with bytes := m.bytes + size, wait := m.wait + dueTicks c size r }, .packet t3 size r) := by
    intro m
    cases p with
    | none => exact Or.inl rfl
    | some q => exact Or.inr ⟨q.1, q.2, take_packet ok hw m t3 q.1 q.2⟩
  rcases get_cases c l t1 t2 t3 p with ⟨_, ht, e⟩ | ⟨hm, h⟩
  · exact Or.inl ⟨e, ht⟩
  · rcases h with ⟨_, ht, e⟩ | ⟨_, ht, e⟩ | ⟨hb, e⟩
    · obtain ⟨-, -, -, -, -, -, -, -, -, -, -, k2⟩ := update_spec (c := c) t2 inv.burst inv.avg
      exact Or.inr (Or.inl ⟨e, by rw [k2 ht]; exact ht⟩)
    · refine Or.inr (Or.inr ⟨_, update_inv inv ht, rfl, Or.inr rfl, ?_⟩)
      rw [e]
      exact fin _
    · refine Or.inr (Or.inr ⟨_, ready_inv (c := c) inv h1 h2 hm, rfl, Or.inl ⟨rfl, hb⟩, ?_⟩)
      rw [e]
      exact fin _

/-- Splitting a trace at its end. -/
theorem snoc_split {α : Type} {tr a b : List α} {x e : α} (h : tr ++ [x] = a ++ e :: b) : (b = [] ∧ tr = a ∧ x = e) ∨ ∃ b', b = b' ++ [x] ∧ tr = a ++ e :: b' := by
  rcases List.eq_nil_or_concat b with rfl | ⟨b', y, rfl⟩
  · left
    have := List.append_inj' h rfl
    exact ⟨rfl, this.1, by simpa using this.2⟩
  · right
    have h' : tr ++ [x] = (a ++ e :: b') ++ [y] := by simpa using h
    have := List.append_inj' h' rfl
    have hx : x = y := by simpa using this.2
    subst hx
    exact ⟨b', by simp, this.1⟩

/-! ## The average rate -/

/-- An update or a serving step keeps a lower bound of the average time. -/
theorem avg_update {c : RateConfig} {now t2 : Int} {l : Limiter} (inv : LimInv now l) :
    (l.update c t2).1.avg.val + (l.update c t2).1.wait = l.avg.val + l.wait := by
  obtain ⟨-, -, v, -, w, -⟩ := update_spec (c := c) t2 inv.burst inv.avg
  rw [v, w]
  ring

/-- Since the writer was last woken, the average time has moved on by what was sent. -/
theorem avg_since {c : RateConfig} (ok : RateOk c) (hw : c.hw = false) {tr : List RateEv} {now : Int} {l : Limiter} (h : LReach c tr now l) :
    ∀ a T b, tr = a ++ RateEv.woken T :: b → T + rateDue c b ≤ l.avg.val + l.wait := by
  induction h with
  | init => intro a T b h; simp at h
  | @woken tr now l t hr ht ih =>
    intro a T b h
    have inv := lim_inv ok hr
    obtain ⟨-, w1, w2, -, -⟩ := wake_spec t inv.avg inv.wait
    show _ ≤ (l.wakeEmpty t).avg.val + l.wait
    rcases snoc_split h with ⟨rfl, rfl, e⟩ | ⟨b', rfl, e⟩
    · cases e
      simp only [rateDue]
      linarith
    · have := ih _ _ _ e
      rw [rateDue_append]
      simp only [rateDue]
      linarith
  | @timer tr now l t hr ht ih =>
    intro a T b h
    have := ih _ _ _ h
    show _ ≤ (if l.mustSleep = true ∧ l.burst.coarse ≤ t then { l with mustSleep := false } else l).avg.val + (if l.mustSleep = true ∧ l.burst.coarse ≤ t then { l with mustSleep := false } else l).wait
    split <;> exact this
  | @get tr now l t1 t2 t3 p hr h1 h2 h3 ih =>
    intro a T b h
    have inv := lim_inv ok hr
    have up := avg_update (c := c) (t2 := t2) inv
    rcases get_spec ok hw (t3 := t3) inv h1 h2 p with ⟨e, _⟩ | ⟨e, _⟩ | ⟨m, _, _, hm, hp⟩
    · rw [e] at h ⊢
      rcases snoc_split h with ⟨_, _, e'⟩ | ⟨b', rfl, e'⟩
      · cases e'
      · have := ih _ _ _ e'
        rw [rateDue_append]
        simp only [rateDue]
        linarith
    · rw [e] at h ⊢
      rcases snoc_split h with ⟨_, _, e'⟩ | ⟨b', rfl, e'⟩
      · cases e'
      · have := ih _ _ _ e'
        rw [rateDue_append]
        simp only [rateDue]
        show _ ≤ (l.update c t2).1.avg.val + (l.update c t2).1.wait
        linarith
    · have hv : m.avg.val + m.wait = l.avg.val + l.wait := by
        rcases hm with ⟨rfl, _⟩ | rfl
        · rfl
        · exact up
      rcases hp with e | ⟨size, r, e⟩
      · rw [e] at h ⊢
        rcases snoc_split h with ⟨_, _, e'⟩ | ⟨b', rfl, e'⟩
        · cases e'
        · have := ih _ _ _ e'
          rw [rateDue_append]
          simp only [rateDue]
          linarith
      · rw [e] at h ⊢
        rcases snoc_split h with ⟨_, _, e'⟩ | ⟨b', rfl, e'⟩
        · cases e'
        · have := ih _ _ _ e'
          rw [rateDue_append]
          simp only [rateDue]
          show _ ≤ m.avg.val + (m.wait + dueTicks c size r)
          linarith

/-! ## Packets -/

theorem bounded_left {c : RateConfig} {P : Nat} {w : Rat} {a b : List RateEv} (h : Bounded c P w (a ++ b)) : Bounded c P w a :=
  fun t n r hm => h t n r (List.mem_append_left _ hm)

/-- What is pending is bounded by the size of a burst. -/
theorem pending {c : RateConfig} (ok : RateOk c) (hw : c.hw = false) {P : Nat} {w : Rat} (hw0 : 0 ≤ w) {tr : List RateEv} {now : Int} {l : Limiter} (h : LReach c tr now l) :
    Bounded c P w tr → l.wait ≤ l.bytes * w ∧ l.bytes ≤ c.burstSize + P := by
  induction h with
  | init => intro _; constructor <;> simp
  | @woken tr now l t hr ht ih => intro h; exact ih (bounded_left h)
  | @timer tr now l t hr ht ih =>
    intro h
    have := ih h
    show (if l.mustSleep = true ∧ l.burst.coarse ≤ t then { l with mustSleep := false } else l).wait ≤ (if l.mustSleep = true ∧ l.burst.coarse ≤ t then { l with mustSleep := false } else l).bytes * w ∧ (if l.mustSleep = true ∧ l.burst.coarse ≤ t then { l with mustSleep := false } else l).bytes ≤ _
    split <;> exact this
  | @get tr now l t1 t2 t3 p hr h1 h2 h3 ih =>
    intro h
    have hb := ih (bounded_left h)
    have inv := lim_inv ok hr
    obtain ⟨-, -, -, u0, uw, -⟩ := update_spec (c := c) t2 inv.burst inv.avg
    rcases get_spec ok hw (t3 := t3) inv h1 h2 p with ⟨e, _⟩ | ⟨e, _⟩ | ⟨m, _, _, hm, hp⟩
    · rw [e]; exact hb
    · rw [e]
      show (l.update c t2).1.wait ≤ (l.update c t2).1.bytes * w ∧ (l.update c t2).1.bytes ≤ _
      rw [u0, uw]
      constructor <;> simp
    · have hv : m.wait ≤ m.bytes * w ∧ m.bytes ≤ c.burstSize := by
        rcases hm with ⟨rfl, hb'⟩ | rfl
        · exact ⟨hb.1, le_of_lt hb'⟩
        · show (l.update c t2).1.wait ≤ (l.update c t2).1.bytes * w ∧ (l.update c t2).1.bytes ≤ _
          rw [u0, uw]
          constructor <;> simp
      rcases hp with e | ⟨size, r, e⟩
      · rw [e]; exact ⟨hv.1, le_trans hv.2 (Nat.le_add_right _ _)⟩
      · rw [e] at h ⊢
        have hs := h t3 size r (by simp)
        refine ⟨?_, ?_⟩
        · show m.wait + dueTicks c size r ≤ ((m.bytes + size : Nat) : Rat) * w
          push_cast
          linarith [hv.1, hs.2]
        · show m.bytes + size ≤ _
          have := hs.1
          have := hv.2
          omega

/-- The last step served a packet: the clock is not before the times of the state. -/
theorem last_packet {c : RateConfig} (ok : RateOk c) (hw : c.hw = false) {tr : List RateEv} {now : Int} {l : Limiter} (h : LReach c tr now l) :
    ∀ a t size r, tr = a ++ [RateEv.packet t size r] → l.avg.val ≤ t + 1 ∧ l.burst.val ≤ t + 1 := by
  induction h with
  | init => intro a t size r h; simp at h
  | @woken tr now l t hr ht ih =>
    intro a t' size r h
    have := List.append_inj' h rfl
    simp at this
  | @timer tr now l t hr ht ih =>
    intro a t' size r h
    have := ih _ _ _ _ h
    show (if l.mustSleep = true ∧ l.burst.coarse ≤ t then { l with mustSleep := false } else l).avg.val ≤ _ ∧ (if l.mustSleep = true ∧ l.burst.coarse ≤ t then { l with mustSleep := false } else l).burst.val ≤ _
    split <;> exact this
  | @get tr now l t1 t2 t3 p hr h1 h2 h3 ih =>
    intro a t size r h
    have inv := lim_inv ok hr
    have hl := (List.append_inj' h rfl).2
    rcases get_spec ok hw (t3 := t3) inv h1 h2 p with ⟨e, _⟩ | ⟨e, _⟩ | ⟨m, minv, hs, hm, hp⟩
    · rw [e] at hl; simp at hl
    · rw [e] at hl; simp at hl
    · rcases hp with e | ⟨size', r', e⟩
      · rw [e] at hl; simp at hl
      · rw [e] at hl ⊢
        have ht : t3 = t := by simp at hl; exact hl.1
        subst ht
        have hc := minv.clock hs
        have v1 := val_lt minv.avg
        have v2 := val_lt minv.burst
        have c1 : (m.avg.coarse : Rat) ≤ t3 := by exact_mod_cast (by omega : m.avg.coarse ≤ t3)
        have c2 : (m.burst.coarse : Rat) ≤ t3 := by exact_mod_cast (by omega : m.burst.coarse ≤ t3)
        show m.avg.val ≤ _ ∧ m.burst.val ≤ _
        constructor <;> linarith

/-- Prefixes of a trace are traces. -/
theorem reach_prefix {c : RateConfig} {tr : List RateEv} {now : Int} {l : Limiter} (h : LReach c tr now l) :
    ∀ a e b, tr = a ++ e :: b → ∃ now' l', LReach c (a ++ [e]) now' l' := by
  induction h with
  | init => intro a e b h; simp at h
  | @woken tr now l t hr ht ih =>
    intro a e b h
    rcases snoc_split h with ⟨rfl, rfl, rfl⟩ | ⟨b', rfl, e'⟩
    · exact ⟨_, _, LReach.woken t hr ht⟩
    · exact ih _ _ _ e'
  | @timer tr now l t hr ht ih => exact ih
  | @get tr now l t1 t2 t3 p hr h1 h2 h3 ih =>
    intro a e b h
    rcases snoc_split h with ⟨rfl, rfl, rfl⟩ | ⟨b', rfl, e'⟩
    · exact ⟨_, _, LReach.get t1 t2 t3 p hr h1 h2 h3⟩
    · exact ih _ _ _ e'

/-! ## The burst rate -/

/-- Since a packet was served at `s`, either there was no update, or the burst time has moved on by what was sent, apart from
the rest of that burst. -/
theorem burst_since {c : RateConfig} (ok : RateOk c) (hw : c.hw = false) {P : Nat} {w : Rat} (hw0 : 0 ≤ w) {tr : List RateEv} {now : Int} {l : Limiter} (h : LReach c tr now l) :
    Bounded c P w tr → ∀ a s size r b, tr = a ++ RateEv.packet s size r :: b → s ≤ now ∧
      (dueTicks c size r + rateDue c b ≤ l.wait ∨ dueTicks c size r + rateDue c b ≤ (l.burst.val - s) * c.ratio + l.wait + (c.burstSize + P) * w) := by
  have hr0 : 0 < c.ratio := lt_of_lt_of_le (by norm_num) ok.ratio
  have upd : ∀ {tr : List RateEv} {now t2 : Int} {l : Limiter} {s : Int} {D : Rat}, LReach c tr now l → Bounded c P w tr → now ≤ t2 → s ≤ now →
      (D ≤ l.wait ∨ D ≤ (l.burst.val - s) * c.ratio + l.wait + (c.burstSize + P) * w) →
      D ≤ ((l.update c t2).1.burst.val - s) * c.ratio + (c.burstSize + P) * w := by
    intro tr now t2 l s D hr hb h1 hs hD
    have inv := lim_inv ok hr
    obtain ⟨p1, p2⟩ := pending ok hw hw0 hr hb
    obtain ⟨-, -, -, -, -, b1, -, b2, -⟩ := update_spec (c := c) t2 inv.burst inv.avg
    have e : l.wait / c.ratio * c.ratio = l.wait := by field_simp
    rcases hD with hD | hD
    · have q1 : (0 : Rat) ≤ ((l.update c t2).1.burst.val - s) * c.ratio := by
        have : (s : Rat) ≤ t2 := by exact_mod_cast (le_trans hs h1)
        exact mul_nonneg (by linarith) (le_of_lt hr0)
      have q2 : (l.bytes : Rat) * w ≤ (c.burstSize + P) * w := by
        apply mul_le_mul_of_nonneg_right _ hw0
        exact_mod_cast p2
      linarith
    · have q1 : (l.burst.val + l.wait / c.ratio - s) * c.ratio ≤ ((l.update c t2).1.burst.val - s) * c.ratio :=
        mul_le_mul_of_nonneg_right (by linarith) (le_of_lt hr0)
      have q2 : (l.burst.val + l.wait / c.ratio - s) * c.ratio = (l.burst.val - s) * c.ratio + l.wait := by
        have : (l.burst.val + l.wait / c.ratio - s) * c.ratio = (l.burst.val - s) * c.ratio + l.wait / c.ratio * c.ratio := by ring
        rw [this, e]
      linarith
  induction h with
  | init => intro _ a s size r b h; simp at h
  | @woken tr now l t hr ht ih =>
    intro hb a s size r b h
    rcases snoc_split h with ⟨rfl, rfl, e⟩ | ⟨b', rfl, e⟩
    · cases e
    · have := ih (bounded_left hb) _ _ _ _ _ e
      refine ⟨by omega, ?_⟩
      rw [rateDue_append]
      simp only [rateDue, add_zero]
      exact this.2
  | @timer tr now l t hr ht ih =>
    intro hb a s size r b h
    have := ih hb _ _ _ _ _ h
    refine ⟨by omega, ?_⟩
    show _ ≤ (if l.mustSleep = true ∧ l.burst.coarse ≤ t then { l with mustSleep := false } else l).wait ∨ _ ≤ ((if l.mustSleep = true ∧ l.burst.coarse ≤ t then { l with mustSleep := false } else l).burst.val - s) * c.ratio + (if l.mustSleep = true ∧ l.burst.coarse ≤ t then { l with mustSleep := false } else l).wait + _
    split <;> exact this.2
  | @get tr now l t1 t2 t3 p hr h1 h2 h3 ih =>
    intro hb a s size r b h
    have inv := lim_inv ok hr
    obtain ⟨-, -, -, u0, uw, -⟩ := update_spec (c := c) t2 inv.burst inv.avg
    rcases get_spec ok hw (t3 := t3) inv h1 h2 p with ⟨e, _⟩ | ⟨e, _⟩ | ⟨m, minv, hms, hm, hp⟩
    · rw [e] at h ⊢
      rcases snoc_split h with ⟨_, _, e'⟩ | ⟨b', rfl, e'⟩
      · cases e'
      · have := ih (bounded_left hb) _ _ _ _ _ e'
        refine ⟨by omega, ?_⟩
        rw [rateDue_append]
        simp only [rateDue, add_zero]
        exact this.2
    · rw [e] at h ⊢
      rcases snoc_split h with ⟨_, _, e'⟩ | ⟨b', rfl, e'⟩
      · cases e'
      · have := ih (bounded_left hb) _ _ _ _ _ e'
        have q := upd hr (bounded_left hb) (by omega : now ≤ t2) this.1 this.2
        refine ⟨by omega, Or.inr ?_⟩
        rw [rateDue_append]
        simp only [rateDue, add_zero]
        rw [uw]
        linarith
    · have hv : ∀ D : Rat, s ≤ now → (D ≤ l.wait ∨ D ≤ (l.burst.val - s) * c.ratio + l.wait + (c.burstSize + P) * w) →
          (D ≤ m.wait ∨ D ≤ (m.burst.val - s) * c.ratio + m.wait + (c.burstSize + P) * w) := by
        intro D hs hD
        rcases hm with ⟨rfl, _⟩ | rfl
        · exact hD
        · right
          have q := upd hr (bounded_left hb) (by omega : now ≤ t2) hs hD
          show D ≤ ((l.update c t2).1.burst.val - s) * c.ratio + (l.update c t2).1.wait + _
          rw [uw]
          linarith
      rcases hp with e | ⟨size', r', e⟩
      · rw [e] at h ⊢
        rcases snoc_split h with ⟨_, _, e'⟩ | ⟨b', rfl, e'⟩
        · cases e'
        · have := ih (bounded_left hb) _ _ _ _ _ e'
          refine ⟨by omega, ?_⟩
          rw [rateDue_append]
          simp only [rateDue, add_zero]
          exact hv _ this.1 this.2
      · rw [e] at h ⊢
        rcases snoc_split h with ⟨rfl, _, e'⟩ | ⟨b', rfl, e'⟩
        · cases e'
          refine ⟨le_refl _, Or.inl ?_⟩
          show _ ≤ m.wait + dueTicks c size r
          have := minv.wait
          simp only [rateDue]
          linarith
        · have := ih (bounded_left hb) _ _ _ _ _ e'
          refine ⟨by omega, ?_⟩
          rw [rateDue_append]
          simp only [rateDue, add_zero]
          show _ ≤ m.wait + dueTicks c size' r' ∨ _ ≤ (m.burst.val - s) * c.ratio + (m.wait + dueTicks c size' r') + _
          rcases hv _ this.1 this.2 with q | q
          · left; linarith
          · right; linarith

/-! ## Why the writer sleeps -/

/-- An upper bound of the average time. -/
def AvgBound (c : RateConfig) (tr : List RateEv) (v : Rat) : Prop :=
  v ≤ rateDue c tr + 1 ∨ ∃ a T b, tr = a ++ RateEv.woken T :: b ∧ v ≤ T + rateDue c b + 1

/-- An upper bound of the burst time; `w` is what has not been added yet. -/
def BurstBound (c : RateConfig) (tr : List RateEv) (v w : Rat) : Prop :=
  v * c.ratio + w ≤ rateDue c tr ∨ ∃ a e T b, tr = a ++ e :: b ∧ RateEv.served e = some T ∧ (v - T) * c.ratio + w ≤ rateDue c (e :: b)

theorem AvgBound.snoc {c : RateConfig} {tr : List RateEv} {v : Rat} (h : AvgBound c tr v) (x : RateEv) {d : Rat} (hd : d ≤ rateDue c [x]) : AvgBound c (tr ++ [x]) (v + d) := by
  rcases h with h | ⟨a, T, b, rfl, h⟩
  · left; rw [rateDue_append]; linarith
  · right
    refine ⟨a, T, b ++ [x], by simp, ?_⟩
    rw [rateDue_append]; linarith

theorem BurstBound.snoc {c : RateConfig} {tr : List RateEv} {v w : Rat} (h : BurstBound c tr v w) (x : RateEv) {d : Rat} (hd : d ≤ rateDue c [x]) : BurstBound c (tr ++ [x]) v (w + d) := by
  rcases h with h | ⟨a, e, T, b, rfl, he, h⟩
  · left; rw [rateDue_append]; linarith
  · right
    refine ⟨a, e, T, b ++ [x], by simp, he, ?_⟩
    rw [show e :: (b ++ [x]) = (e :: b) ++ [x] from rfl, rateDue_append]; linarith

/-- Both bounds. -/
structure UpInv (c : RateConfig) (tr : List RateEv) (l : Limiter) : Prop where
  avg : AvgBound c tr (l.avg.val + l.wait)
  burst : l.burst.val ≤ l.avg.val ∨ BurstBound c tr l.burst.val l.wait

theorem up_update {c : RateConfig} (ok : RateOk c) {tr : List RateEv} {now t2 : Int} {l : Limiter} (inv : LimInv now l) (h : UpInv c tr l) :
    AvgBound c tr (l.update c t2).1.avg.val ∧
    ((l.update c t2).1.burst.val = t2 ∨ (l.update c t2).1.burst.val ≤ (l.update c t2).1.avg.val ∨ BurstBound c tr (l.update c t2).1.burst.val 0) := by
  have hr0 : 0 < c.ratio := lt_of_lt_of_le (by norm_num) ok.ratio
  obtain ⟨-, -, v, -, -, -, -, -, -, cs, -⟩ := update_spec (c := c) t2 inv.burst inv.avg
  have e : l.wait / c.ratio * c.ratio = l.wait := by field_simp
  refine ⟨by rw [v]; exact h.avg, ?_⟩
  rcases cs with cs | cs | cs
  · exact Or.inl cs
  · right
    rw [cs, v]
    rcases h.burst with hb | hb | ⟨a, x, T, b, h1, h2, h3⟩
    · left
      have : l.wait / c.ratio ≤ l.wait := div_le_self inv.wait ok.ratio
      linarith
    · right; left
      have : (l.burst.val + l.wait / c.ratio) * c.ratio = l.burst.val * c.ratio + l.wait / c.ratio * c.ratio := by ring
      rw [this, e]; linarith
    · right; right
      refine ⟨a, x, T, b, h1, h2, ?_⟩
      have : (l.burst.val + l.wait / c.ratio - T) * c.ratio = (l.burst.val - T) * c.ratio + l.wait / c.ratio * c.ratio := by ring
      rw [this, e]; linarith
  · right; left
    rw [cs, v]

theorem reach_up {c : RateConfig} (ok : RateOk c) (hw : c.hw = false) {tr : List RateEv} {now : Int} {l : Limiter} (h : LReach c tr now l) : UpInv c tr l := by
  induction h with
  | init => exact ⟨Or.inl (by simp [PTime.val, rateDue]), Or.inl (le_refl _)⟩
  | @woken tr now l t hr ht ih =>
    have inv := lim_inv ok hr
    obtain ⟨-, w1, -, w3, -⟩ := wake_spec t inv.avg inv.wait
    refine ⟨?_, ?_⟩
    · show AvgBound c _ ((l.wakeEmpty t).avg.val + l.wait)
      rcases w3 with w | w
      · rw [w]
        have := ih.avg.snoc (.woken t) (d := 0) (by simp [rateDue])
        rwa [add_zero] at this
      · right
        refine ⟨tr, t, [], rfl, ?_⟩
        simp only [rateDue]
        linarith
    · show l.burst.val ≤ (l.wakeEmpty t).avg.val ∨ BurstBound c _ l.burst.val l.wait
      rcases ih.burst with hb | hb
      · left; linarith
      · right
        have := hb.snoc (.woken t) (d := 0) (by simp [rateDue])
        rwa [add_zero] at this
  | @timer tr now l t hr ht ih =>
    show UpInv c tr (if l.mustSleep = true ∧ l.burst.coarse ≤ t then { l with mustSleep := false } else l)
    split
    · exact ⟨ih.avg, ih.burst⟩
    · exact ih
  | @get tr now l t1 t2 t3 p hr h1 h2 h3 ih =>
    have inv := lim_inv ok hr
    obtain ⟨-, -, -, -, uw, -, -, -⟩ := update_spec (c := c) t2 inv.burst inv.avg
    obtain ⟨ua, ub⟩ := up_update (t2 := t2) ok inv ih
    rcases get_spec ok hw (t3 := t3) inv h1 h2 p with ⟨e, _⟩ | ⟨e, hs⟩ | ⟨m, minv, hms, hm, hp⟩
    · rw [e]
      refine ⟨?_, ?_⟩
      · have := ih.avg.snoc (.slept t1 l.burst.coarse) (d := 0) (by simp [rateDue])
        rwa [add_zero] at this
      · rcases ih.burst with hb | hb
        · exact Or.inl hb
        · right
          have := hb.snoc (.slept t1 l.burst.coarse) (d := 0) (by simp [rateDue])
          rwa [add_zero] at this
    · rw [e]
      refine ⟨?_, ?_⟩
      · show AvgBound c _ ((l.update c t2).1.avg.val + (l.update c t2).1.wait)
        rw [uw]
        exact ua.snoc _ (by simp [rateDue])
      · show (l.update c t2).1.burst.val ≤ (l.update c t2).1.avg.val ∨ BurstBound c _ (l.update c t2).1.burst.val (l.update c t2).1.wait
        rcases ub with ub | ub | ub
        · exfalso
          obtain ⟨n1, -⟩ := update_spec (c := c) t2 inv.burst inv.avg
          have q1 := coarse_le n1
          have q2 : (t2 : Rat) < (l.update c t2).1.burst.coarse := by exact_mod_cast hs
          linarith
        · exact Or.inl ub
        · right
          rw [uw]
          have := ub.snoc (.slept t2 (l.update c t2).1.burst.coarse) (d := 0) (by simp [rateDue])
          rwa [add_zero] at this
    · have ht : (t2 : Rat) ≤ t3 := by exact_mod_cast h3
      have hr0 : 0 < c.ratio := lt_of_lt_of_le (by norm_num) ok.ratio
      have key : ∀ (x : RateEv) (d : Rat), RateEv.served x = some t3 → rateDue c [x] = d → 0 ≤ d →
          AvgBound c (tr ++ [x]) (m.avg.val + (m.wait + d)) ∧ (m.burst.val ≤ m.avg.val ∨ BurstBound c (tr ++ [x]) m.burst.val (m.wait + d)) := by
        intro x d hx hd hd0
        rcases hm with ⟨rfl, _⟩ | rfl
        · refine ⟨?_, ?_⟩
          · rw [← add_assoc]
            exact ih.avg.snoc x (le_of_eq hd.symm)
          · rcases ih.burst with hb | hb
            · exact Or.inl hb
            · exact Or.inr (hb.snoc x (le_of_eq hd.symm))
        · show AvgBound c (tr ++ [x]) ((l.update c t2).1.avg.val + ((l.update c t2).1.wait + d)) ∧
            ((l.update c t2).1.burst.val ≤ (l.update c t2).1.avg.val ∨ BurstBound c (tr ++ [x]) (l.update c t2).1.burst.val ((l.update c t2).1.wait + d))
          rw [uw, zero_add]
          refine ⟨ua.snoc x (le_of_eq hd.symm), ?_⟩
          rcases ub with ub | ub | ub
          · right; right
            refine ⟨tr, x, t3, [], rfl, hx, ?_⟩
            rw [ub, hd]
            have : ((t2 : Rat) - t3) * c.ratio ≤ 0 := mul_nonpos_of_nonpos_of_nonneg (by linarith) (le_of_lt hr0)
            linarith
          · exact Or.inl ub
          · right
            have := ub.snoc x (le_of_eq hd.symm)
            rwa [zero_add] at this
      rcases hp with e | ⟨size, r, e⟩
      · rw [e]
        have := key (.none t3) 0 rfl (by simp [rateDue]) (le_refl _)
        rw [add_zero] at this
        exact ⟨this.1, this.2⟩
      · rw [e]
        have := key (.packet t3 size r) (dueTicks c size r) rfl (by simp [rateDue]) (dueTicks_nonneg ok size r)
        exact ⟨this.1, this.2⟩

/-- Bounds for the last event of an execution, if it is a request to sleep. -/
theorem last_slept {c : RateConfig} (ok : RateOk c) (hw : c.hw = false) {tr : List RateEv} {now : Int} {l : Limiter} (h : LReach c tr now l) :
    ∀ a t u, tr = a ++ [RateEv.slept t u] → t < u ∧ u ≤ l.burst.coarse ∧ (AverageReached c a u ∨ BurstReached c a u) := by
  have fin : ∀ (a : List RateEv) (l : Limiter) (u : Int), (u : Rat) ≤ l.burst.val → 0 ≤ l.wait → AvgBound c a (l.avg.val + l.wait) →
      (l.burst.val ≤ l.avg.val ∨ BurstBound c a l.burst.val l.wait) → AverageReached c a u ∨ BurstReached c a u := by
    intro a l u hu hw0 ha hb
    have hr0 : 0 < c.ratio := lt_of_lt_of_le (by norm_num) ok.ratio
    rcases hb with hb | hb
    · left
      rcases ha with ha | ⟨x, T, b, h1, h2⟩
      · left; linarith
      · exact Or.inr ⟨x, T, b, h1, by linarith⟩
    · right
      rcases hb with hb | ⟨x, e, T, b, h1, h2, h3⟩
      · left
        have := mul_le_mul_of_nonneg_right hu (le_of_lt hr0)
        linarith
      · right
        refine ⟨x, e, T, b, h1, h2, ?_⟩
        have : ((u : Rat) - T) * c.ratio ≤ (l.burst.val - T) * c.ratio := mul_le_mul_of_nonneg_right (by linarith) (le_of_lt hr0)
        linarith
  induction h with
  | init => intro a t u h; simp at h
  | @woken tr now l t hr ht ih =>
    intro a t' u h
    have := (List.append_inj' h rfl).2
    simp at this
  | @timer tr now l t hr ht ih =>
    intro a t' u h
    have := ih _ _ _ h
    show _ ∧ _ ≤ (if l.mustSleep = true ∧ l.burst.coarse ≤ t then { l with mustSleep := false } else l).burst.coarse ∧ _
    split <;> exact this
  | @get tr now l t1 t2 t3 p hr h1 h2 h3 ih =>
    intro a t u h
    have inv := lim_inv ok hr
    have up := reach_up ok hw hr
    obtain ⟨n1, -, -, -, uw, -⟩ := update_spec (c := c) t2 inv.burst inv.avg
    obtain ⟨ua, ub⟩ := up_update (t2 := t2) ok inv up
    have hl := List.append_inj' h rfl
    rcases get_spec ok hw (t3 := t3) inv h1 h2 p with ⟨e, hs⟩ | ⟨e, hs⟩ | ⟨m, minv, hms, hm, hp⟩
    · rw [e] at hl ⊢
      obtain ⟨rfl, hx⟩ := hl
      simp only [List.cons.injEq, RateEv.slept.injEq, and_true] at hx
      obtain ⟨rfl, rfl⟩ := hx
      exact ⟨hs, le_refl _, fin tr l _ (coarse_le inv.burst) inv.wait up.avg up.burst⟩
    · rw [e] at hl ⊢
      obtain ⟨rfl, hx⟩ := hl
      simp only [List.cons.injEq, RateEv.slept.injEq, and_true] at hx
      obtain ⟨rfl, rfl⟩ := hx
      refine ⟨hs, le_refl _, fin tr (l.update c t2).1 _ (coarse_le n1) (by rw [uw]) (by rw [uw, add_zero]; exact ua) ?_⟩
      rw [uw]
      rcases ub with ub | ub | ub
      · exfalso
        have q1 := coarse_le n1
        have q2 : (t2 : Rat) < (l.update c t2).1.burst.coarse := by exact_mod_cast hs
        linarith
      · exact Or.inl ub
      · exact Or.inr ub
    · rcases hp with e | ⟨size', r', e⟩ <;> (rw [e] at hl; simp at hl)

/-- The burst time never goes back. -/
theorem slept_mono {c : RateConfig} (ok : RateOk c) (hw : c.hw = false) {tr : List RateEv} {now : Int} {l : Limiter} (h : LReach c tr now l) :
    ∀ a t u b, tr = a ++ RateEv.slept t u :: b → u ≤ l.burst.coarse := by
  have key : ∀ {tr : List RateEv} {now : Int} {l : Limiter}, LReach c tr now l → ∀ a t u b, tr = a ++ RateEv.slept t u :: b →
      b = [] → u ≤ l.burst.coarse := by
    intro tr now l h a t u b e hb
    subst hb
    exact (last_slept ok hw h a t u e).2.1
  induction h with
  | init => intro a t u b h; simp at h
  | @woken tr now l t hr ht ih =>
    intro a t' u b h
    rcases snoc_split h with ⟨_, _, e⟩ | ⟨b', rfl, e⟩
    · cases e
    · exact ih _ _ _ _ e
  | @timer tr now l t hr ht ih =>
    intro a t' u b h
    have := ih _ _ _ _ h
    show _ ≤ (if l.mustSleep = true ∧ l.burst.coarse ≤ t then { l with mustSleep := false } else l).burst.coarse
    split <;> exact this
  | @get tr now l t1 t2 t3 p hr h1 h2 h3 ih =>
    intro a t u b h
    have hk := key (LReach.get t1 t2 t3 p hr h1 h2 h3) a t u b h
    rcases snoc_split h with ⟨hb, _, _⟩ | ⟨b', rfl, e'⟩
    · exact hk hb
    · have hu := ih _ _ _ _ e'
      have inv := lim_inv ok hr
      obtain ⟨n1, -, -, -, -, b1, -⟩ := update_spec (c := c) t2 inv.burst inv.avg
      have hmono : l.burst.coarse ≤ (l.update c t2).1.burst.coarse := by
        refine coarse_mono inv.burst n1 ?_
        have : 0 ≤ l.wait / c.ratio := div_nonneg inv.wait (le_trans (by norm_num) ok.ratio)
        linarith
      rcases get_spec ok hw (t3 := t3) inv h1 h2 p with ⟨e, _⟩ | ⟨e, _⟩ | ⟨m, _, _, hm, hp⟩
      · rw [e]; exact hu
      · rw [e]; exact le_trans hu hmono
      · have : u ≤ m.burst.coarse := by
          rcases hm with ⟨rfl, _⟩ | rfl
          · exact hu
          · exact le_trans hu hmono
        rcases hp with e | ⟨size, r, e⟩ <;> (rw [e]; exact this)

/-- A sleeping writer has nothing pending. -/
theorem asleep {c : RateConfig} (ok : RateOk c) (hw : c.hw = false) {tr : List RateEv} {now : Int} {l : Limiter} (h : LReach c tr now l) :
    (l.mustSleep = true → l.bytes = 0 ∧ l.wait = 0) ∧
    ∀ a t u, tr = a ++ [RateEv.slept t u] → u = l.burst.coarse ∧ l.avg.coarse ≤ l.burst.coarse ∧ l.bytes = 0 ∧ l.wait = 0 := by
  induction h with
  | init => exact ⟨fun h => (nomatch h), fun a t u h => by simp at h⟩
  | @woken tr now l t hr ht ih =>
    refine ⟨ih.1, fun a t' u h => ?_⟩
    have := (List.append_inj' h rfl).2
    simp at this
  | @timer tr now l t hr ht ih =>
    show ((if l.mustSleep = true ∧ l.burst.coarse ≤ t then { l with mustSleep := false } else l).mustSleep = true → _) ∧ _
    split
    · exact ⟨fun h => (nomatch h), fun a t' u h => by
        have := ih.2 a t' u h
        simp only [Limiter.step]
        split <;> exact this⟩
    · rename_i hc
      refine ⟨fun h => ?_, fun a t' u h => ?_⟩
      · simp only [Limiter.step, if_neg hc]
        exact ih.1 h
      · simp only [Limiter.step, if_neg hc]
        exact ih.2 a t' u h
  | @get tr now l t1 t2 t3 p hr h1 h2 h3 ih =>
    have inv := lim_inv ok hr
    obtain ⟨n1, n2, -, u0, uw, -, v, -⟩ := update_spec (c := c) t2 inv.burst inv.avg
    rcases get_cases c l t1 t2 t3 p with ⟨hm, hlt, e⟩ | ⟨hm, h⟩
    · rw [e]
      refine ⟨ih.1, fun a t u h => ?_⟩
      have hl := (List.append_inj' h rfl).2
      simp only [List.cons.injEq, RateEv.slept.injEq, and_true] at hl
      have := inv.sleep hm
      have := ih.1 hm
      refine ⟨hl.2.symm, ?_, this.1, this.2⟩
      show l.avg.coarse ≤ l.burst.coarse
      omega
    · rcases h with ⟨_, ht, e⟩ | ⟨_, ht, e⟩ | ⟨hb, e⟩
      · rw [e]
        refine ⟨fun _ => ⟨u0, uw⟩, fun a t u h => ?_⟩
        have hl := (List.append_inj' h rfl).2
        simp only [List.cons.injEq, RateEv.slept.injEq, and_true] at hl
        exact ⟨hl.2.symm, coarse_mono n2 n1 v, u0, uw⟩
      · rw [e]
        cases p with
        | none => exact ⟨fun h => (nomatch h), fun a t u h => by have := (List.append_inj' h rfl).2; simp [Limiter.take] at this⟩
        | some q =>
          rw [take_packet ok hw]
          exact ⟨fun h => (nomatch h), fun a t u h => by have := (List.append_inj' h rfl).2; simp at this⟩
      · rw [e]
        cases p with
        | none => exact ⟨fun h => (nomatch h), fun a t u h => by have := (List.append_inj' h rfl).2; simp [Limiter.take] at this⟩
        | some q =>
          rw [take_packet ok hw]
          exact ⟨fun h => (nomatch h), fun a t u h => by have := (List.append_inj' h rfl).2; simp at this⟩

theorem add_zero_coarse {t : PTime} (h : t.Norm) : (t.add 0).coarse = t.coarse := by
  have n := add_norm t 0
  have v := add_val t 0
  have := coarse_mono n h (by linarith)
  have := coarse_mono h n (by linarith)
  omega

/-- A call at or after the time for which the timer was set is served. -/
theorem resume {c : RateConfig} (ok : RateOk c) (hw : c.hw = false) {tr : List RateEv} {now : Int} {l : Limiter} (h : LReach c (tr ++ [.slept t u]) now l)
    {t1 t2 t3 : Int} (h1 : u ≤ t1) (h2 : t1 ≤ t2) (p : Option (Nat × Rat)) :
    (l.get c t1 t2 t3 p).2 = (match p with | none => .none t3 | some (size, r) => .packet t3 size r) := by
  have inv := lim_inv ok h
  obtain ⟨e1, e2, e3, e4⟩ := (asleep ok hw h).2 tr t u rfl
  have tk : ∀ m, (Limiter.take c m t3 p).2 = (match p with | none => .none t3 | some (size, r) => .packet t3 size r) := by
    intro m
    cases p with
    | none => rfl
    | some q => rfl
  rcases get_cases c l t1 t2 t3 p with ⟨_, hlt, e⟩ | ⟨hm, h⟩
  · omega
  · rcases h with ⟨_, ht, e⟩ | ⟨_, ht, e⟩ | ⟨hb, e⟩
    · exfalso
      replace ht : t2 < (PTime.max (l.burst.add (l.wait / c.ratio)) (l.avg.add l.wait)).coarse := ht
      rw [e4, zero_div] at ht
      have a1 := add_zero_coarse inv.burst
      have a2 := add_zero_coarse inv.avg
      rcases max_cases (l.burst.add 0) (l.avg.add 0) with h' | h' <;> rw [h'] at ht <;> omega
    · rw [e]; exact tk _
    · rw [e]; exact tk _

/-- With rate limiting in hardware, the writer never sleeps. -/
theorem hw_awake {c : RateConfig} (ok : RateOk c) (hw : c.hw = true) {tr : List RateEv} {now : Int} {l : Limiter} (h : LReach c tr now l) :
    l.mustSleep = false ∧ l.bytes = 0 ∧ l.wait = 0 ∧ ∀ t u, RateEv.slept t u ∉ tr := by
  induction h with
  | init => exact ⟨rfl, rfl, rfl, fun t u h => by simp at h⟩
  | @woken tr now l t hr ht ih =>
    refine ⟨ih.1, ih.2.1, ih.2.2.1, fun t' u h => ?_⟩
    simp only [List.mem_append, List.mem_singleton, reduceCtorEq, or_false] at h
    exact ih.2.2.2 _ _ h
  | @timer tr now l t hr ht ih =>
    have : (l.step c (.timer t)).1 = l := by
      simp only [Limiter.step, ih.1]
      rfl
    rw [this]
    exact ih
  | @get tr now l t1 t2 t3 p hr h1 h2 h3 ih =>
    have inv := lim_inv ok hr
    obtain ⟨i1, i2, i3, i4⟩ := ih
    have tk : ∀ m : Limiter, m.mustSleep = false → m.bytes = 0 → m.wait = 0 → (Limiter.take c m t3 p).1.mustSleep = false ∧ (Limiter.take c m t3 p).1.bytes = 0 ∧
        (Limiter.take c m t3 p).1.wait = 0 ∧ ∀ t u, RateEv.slept t u ∉ tr ++ [(Limiter.take c m t3 p).2] := by
      intro m m1 m2 m3
      cases p with
      | none =>
        refine ⟨m1, m2, m3, fun t u h => ?_⟩
        simp only [Limiter.take, List.mem_append, List.mem_singleton, reduceCtorEq, or_false] at h
        exact i4 _ _ h
      | some q =>
        unfold Limiter.take
        simp only [hw, if_true]
        refine ⟨m1, m2, m3, fun t u h => ?_⟩
        simp only [List.mem_append, List.mem_singleton, reduceCtorEq, or_false] at h
        exact i4 _ _ h
    rcases get_cases c l t1 t2 t3 p with ⟨hm, _, _⟩ | ⟨hm, h⟩
    · rw [i1] at hm; cases hm
    · rcases h with ⟨_, ht, e⟩ | ⟨_, ht, e⟩ | ⟨hb, e⟩
      · exfalso
        replace ht : t2 < (PTime.max (l.burst.add (l.wait / c.ratio)) (l.avg.add l.wait)).coarse := ht
        rw [i3, zero_div] at ht
        have a1 := add_zero_coarse inv.burst
        have a2 := add_zero_coarse inv.avg
        have := inv.clock i1
        rcases max_cases (l.burst.add 0) (l.avg.add 0) with h' | h' <;> rw [h'] at ht <;> omega
      · rw [e]; exact tk _ rfl rfl rfl
      · rw [e]; exact tk _ rfl i2 i3

end Spead2
