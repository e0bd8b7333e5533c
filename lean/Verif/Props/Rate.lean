import Verif.Lemmas.Rate

/-!
# C42: rate limiting

The writer starts in state `{}` and does any transitions, in any order, at any times that the clock can show. `C42_average` and
`C42_peak` bound what is sent between two points in time; `C42_average_bytes` and `C42_peak_bytes` say the same in bytes when all
heaps go at the rate of the stream. `C42_justified` says that the writer sleeps only if it has to, and `C42_resume` that it
does not sleep longer than it said. The rest of a burst is sent without looking at the clock, hence the allowances.
-/

namespace Spead2

open Spec

/-- C42. Since the writer was woken at time `T` after it had run out of packets, it never sends more than the configured rate
allows until then, plus one tick and one burst. -/
theorem C42_average {rate ratio hz : Rat} {burst : Nat} {c : RateConfig} (hc : RateConfig.make rate burst ratio hz false = some c) (hhz : 0 < hz)
    {ops : List RateOp} (hops : ClockOk ops) {P : Nat} {w : Rat} (hw : 0 ≤ w) {a b d : List RateEv} {T t : Int} {n : Nat} {r : Rat}
    (htr : (Limiter.run c ops {}).2 = a ++ RateEv.woken T :: b ++ RateEv.packet t n r :: d)
    (hb : Bounded c P w (a ++ RateEv.woken T :: b ++ [RateEv.packet t n r])) :
    rateDue c (b ++ [RateEv.packet t n r]) ≤ (t - T + 1) + (burst + P) * w := by
  obtain ⟨ok, h1, h2, -⟩ := make_ok hhz hc
  obtain ⟨now, hr⟩ := reach_of_run (c := c) hops
  obtain ⟨now', l, hr'⟩ := reach_prefix hr _ _ _ htr
  have s1 := avg_since ok h1 hr' a T (b ++ [.packet t n r]) (by simp)
  have s2 := (last_packet ok h1 hr' _ _ _ _ rfl).1
  obtain ⟨p1, p2⟩ := pending ok h1 hw hr' hb
  rw [h2] at p2
  have : (l.bytes : Rat) * w ≤ (burst + P) * w := mul_le_mul_of_nonneg_right (by exact_mod_cast p2) hw
  linarith

/-- C42. Between any two packets, the writer never sends more than the burst rate allows in the time between them, plus one tick
and two bursts. -/
theorem C42_peak {rate ratio hz : Rat} {burst : Nat} {c : RateConfig} (hc : RateConfig.make rate burst ratio hz false = some c) (hhz : 0 < hz)
    {ops : List RateOp} (hops : ClockOk ops) {P : Nat} {w : Rat} (hw : 0 ≤ w) {a b d : List RateEv} {s t : Int} {m n : Nat} {q r : Rat}
    (htr : (Limiter.run c ops {}).2 = a ++ RateEv.packet s m q :: b ++ RateEv.packet t n r :: d)
    (hb : Bounded c P w (a ++ RateEv.packet s m q :: b ++ [RateEv.packet t n r])) :
    rateDue c (RateEv.packet s m q :: b ++ [RateEv.packet t n r]) ≤ (t - s + 1) * ratio + 2 * ((burst + P) * w) := by
  obtain ⟨ok, h1, h2, -, h4, -⟩ := make_ok hhz hc
  obtain ⟨now, hr⟩ := reach_of_run (c := c) hops
  obtain ⟨now', l, hr'⟩ := reach_prefix hr _ _ _ htr
  obtain ⟨s0, s1⟩ := burst_since ok h1 hw hr' hb a s m q (b ++ [.packet t n r]) (by simp)
  have s2 := (last_packet ok h1 hr' _ _ _ _ rfl).2
  obtain ⟨p1, p2⟩ := pending ok h1 hw hr' hb
  have hst : s ≤ t := by
    have : ∀ {tr : List RateEv} {now : Int} {l : Limiter}, LReach c tr now l → ∀ x t n r, tr = x ++ [RateEv.packet t n r] →
        ∀ y s m q z, x = y ++ RateEv.packet s m q :: z → Bounded c P w tr → s ≤ t := by
      intro tr now l h
      induction h with
      | init => intro x t n r h; simp at h
      | woken t hr ht ih => intro x t n r h; have := (List.append_inj' h rfl).2; simp at this
      | timer t hr ht ih => exact ih
      | @get tr now l t1 t2 t3 p hr g1 g2 g3 ih =>
        intro x t n r h y s m q z hx hb
        obtain ⟨rfl, e⟩ := List.append_inj' h rfl
        have := (burst_since ok h1 hw hr (bounded_left hb) y s m q z hx).1
        have inv := lim_inv ok hr
        rcases get_spec ok h1 (t3 := t3) inv g1 g2 p with ⟨e', _⟩ | ⟨e', _⟩ | ⟨m, _, _, _, e' | ⟨n', r', e'⟩⟩
        · rw [e'] at e; simp at e
        · rw [e'] at e; simp at e
        · rw [e'] at e; simp at e
        · rw [e'] at e
          simp only [List.cons.injEq, RateEv.packet.injEq, and_true] at e
          omega
    exact this hr' _ t n r rfl a s m q b rfl hb
  rw [h2] at p2 s1
  rw [h4] at s1
  have hr0 : 0 ≤ ratio := by have := ok.ratio; rw [h4] at this; linarith
  have q1 : (l.bytes : Rat) * w ≤ (burst + P) * w := mul_le_mul_of_nonneg_right (by exact_mod_cast p2) hw
  have q2 : (l.burst.val - s) * ratio ≤ (t - s + 1) * ratio := mul_le_mul_of_nonneg_right (by linarith) hr0
  have q3 : (0 : Rat) ≤ (burst + P) * w := mul_nonneg (by positivity) hw
  have q4 : (0 : Rat) ≤ (t - s + 1) * ratio := by
    have : (s : Rat) ≤ t := by exact_mod_cast hst
    exact mul_nonneg (by linarith) hr0
  show dueTicks c m q + rateDue c (b ++ [RateEv.packet t n r]) ≤ _
  rcases s1 with s1 | s1 <;> linarith

theorem plain_bounded {c : RateConfig} (h : 0 < c.rate) {P : Nat} {tr : List RateEv} (hp : PlainRate P tr) : Bounded c P (c.hz / c.rate) tr := by
  intro t n r hm
  obtain ⟨h1, h2⟩ := hp t n r hm
  refine ⟨h1, le_of_eq ?_⟩
  unfold dueTicks effRate
  rw [if_pos h2, if_neg (by linarith)]
  ring

theorem plain_due {c : RateConfig} (h : 0 < c.rate) {P : Nat} {tr : List RateEv} (hp : PlainRate P tr) : rateDue c tr = rateBytes tr * (c.hz / c.rate) := by
  induction tr with
  | nil => simp [rateDue, rateBytes]
  | cons e tr ih =>
    have ih := ih (fun t n r hm => hp t n r (List.mem_cons_of_mem _ hm))
    cases e with
    | packet t n r =>
      have h2 := (hp t n r (by simp)).2
      simp only [rateDue, rateBytes, ih]
      unfold dueTicks effRate
      rw [if_pos h2, if_neg (show ¬ c.rate = 0 by linarith)]
      push_cast
      ring
    | _ => simpa only [rateDue, rateBytes] using ih

theorem ticks_to_bytes {x y rate hz : Rat} (hr : 0 < rate) (hh : 0 < hz) {B : Rat} (h : x * (hz / rate) ≤ y + B * (hz / rate)) : x ≤ y * (rate / hz) + B := by
  have h1 : 0 < rate / hz := div_pos hr hh
  have h2 := mul_le_mul_of_nonneg_right h (le_of_lt h1)
  have h3 : hz / rate * (rate / hz) = 1 := by field_simp
  have h4 : x * (hz / rate) * (rate / hz) = x := by rw [mul_assoc, h3, mul_one]
  have h5 : (y + B * (hz / rate)) * (rate / hz) = y * (rate / hz) + B := by rw [add_mul, mul_assoc B, h3, mul_one]
  linarith

/-- C42, in bytes: `rate / hz` are the bytes per tick at the configured rate. -/
theorem C42_average_bytes {rate ratio hz : Rat} {burst : Nat} {c : RateConfig} (hc : RateConfig.make rate burst ratio hz false = some c) (hhz : 0 < hz)
    (hrate : 0 < rate) {ops : List RateOp} (hops : ClockOk ops) {P : Nat} {a b d : List RateEv} {T t : Int} {n : Nat} {r : Rat}
    (htr : (Limiter.run c ops {}).2 = a ++ RateEv.woken T :: b ++ RateEv.packet t n r :: d)
    (hp : PlainRate P (a ++ RateEv.woken T :: b ++ [RateEv.packet t n r])) :
    rateBytes (b ++ [RateEv.packet t n r]) ≤ (t - T + 1) * (rate / hz) + (burst + P) := by
  obtain ⟨ok, h1, h2, h3, h4, h5⟩ := make_ok hhz hc
  have hrc : 0 < c.rate := by rw [h3]; exact hrate
  have hb := C42_average hc hhz hops (w := c.hz / c.rate) (le_of_lt (div_pos ok.hz hrc)) htr (plain_bounded hrc hp)
  rw [plain_due hrc (fun t n r hm => hp t n r (by simp at hm ⊢; tauto)), h3, h5] at hb
  exact ticks_to_bytes hrate hhz hb

/-- C42, in bytes: `rate * ratio / hz` are the bytes per tick at the burst rate. -/
theorem C42_peak_bytes {rate ratio hz : Rat} {burst : Nat} {c : RateConfig} (hc : RateConfig.make rate burst ratio hz false = some c) (hhz : 0 < hz)
    (hrate : 0 < rate) {ops : List RateOp} (hops : ClockOk ops) {P : Nat} {a b d : List RateEv} {s t : Int} {m n : Nat} {q r : Rat}
    (htr : (Limiter.run c ops {}).2 = a ++ RateEv.packet s m q :: b ++ RateEv.packet t n r :: d)
    (hp : PlainRate P (a ++ RateEv.packet s m q :: b ++ [RateEv.packet t n r])) :
    rateBytes (RateEv.packet s m q :: b ++ [RateEv.packet t n r]) ≤ (t - s + 1) * (rate * ratio / hz) + 2 * (burst + P) := by
  obtain ⟨ok, h1, h2, h3, h4, h5⟩ := make_ok hhz hc
  have hrc : 0 < c.rate := by rw [h3]; exact hrate
  have hb := C42_peak hc hhz hops (w := c.hz / c.rate) (le_of_lt (div_pos ok.hz hrc)) htr (plain_bounded hrc hp)
  rw [plain_due hrc (fun t n r hm => hp t n r (by simp at hm ⊢; tauto)), h3, h5, ← mul_assoc] at hb
  have := ticks_to_bytes hrate hhz hb
  have e : (t - s + 1) * (rate * ratio / hz) = (t - s + 1) * ratio * (rate / hz) := by ring
  rw [e]
  exact this

/-- C42. The writer asks for sleep only until some time in the future, and only if as much has been sent as the rate or the burst
rate allows until that time. -/
theorem C42_justified {rate ratio hz : Rat} {burst : Nat} {c : RateConfig} (hc : RateConfig.make rate burst ratio hz false = some c) (hhz : 0 < hz)
    {ops : List RateOp} (hops : ClockOk ops) {a b : List RateEv} {t u : Int} (htr : (Limiter.run c ops {}).2 = a ++ RateEv.slept t u :: b) :
    t < u ∧ (AverageReached c a u ∨ BurstReached c a u) := by
  obtain ⟨ok, h1, -⟩ := make_ok hhz hc
  obtain ⟨now, hr⟩ := reach_of_run (c := c) hops
  obtain ⟨now', l, hr'⟩ := reach_prefix hr _ _ _ htr
  have := last_slept ok h1 hr' a t u rfl
  exact ⟨this.1, this.2.2⟩

/-- C42. The times until which the writer sleeps never go back. -/
theorem C42_monotone {rate ratio hz : Rat} {burst : Nat} {c : RateConfig} (hc : RateConfig.make rate burst ratio hz false = some c) (hhz : 0 < hz)
    {ops : List RateOp} (hops : ClockOk ops) {a b d : List RateEv} {t u t' u' : Int}
    (htr : (Limiter.run c ops {}).2 = a ++ RateEv.slept t u :: b ++ RateEv.slept t' u' :: d) : u ≤ u' := by
  obtain ⟨ok, h1, -⟩ := make_ok hhz hc
  obtain ⟨now, hr⟩ := reach_of_run (c := c) hops
  obtain ⟨now', l, hr'⟩ := reach_prefix hr _ _ _ htr
  have e := ((asleep ok h1 hr').2 _ t' u' rfl).1
  have := slept_mono ok h1 hr' a t u (b ++ [.slept t' u']) (by simp)
  omega

theorem limiter_run_append (c : RateConfig) (x y : List RateOp) (l : Limiter) :
    Limiter.run c (x ++ y) l = ((Limiter.run c y (Limiter.run c x l).1).1, (Limiter.run c x l).2 ++ (Limiter.run c y (Limiter.run c x l).1).2) := by
  induction x generalizing l with
  | nil => rfl
  | cons op x ih => simp only [List.cons_append, Limiter.run, ih, List.append_assoc]

/-- C42. Once the time until which the writer sleeps has come, the next call gives the next packet. -/
theorem C42_resume {rate ratio hz : Rat} {burst : Nat} {c : RateConfig} (hc : RateConfig.make rate burst ratio hz false = some c) (hhz : 0 < hz)
    {ops : List RateOp} {t1 t2 t3 : Int} {n : Nat} {r : Rat} (hops : ClockOk (ops ++ [.get t1 t2 t3 (some (n, r))])) {a : List RateEv} {t u : Int}
    (htr : (Limiter.run c ops {}).2 = a ++ [RateEv.slept t u]) (hu : u ≤ t1) :
    (Limiter.run c (ops ++ [.get t1 t2 t3 (some (n, r))]) {}).2 = a ++ [RateEv.slept t u, RateEv.packet t3 n r] := by
  obtain ⟨ok, h1, -⟩ := make_ok hhz hc
  have ht : ∀ x y, opTimes (x ++ y) = opTimes x ++ opTimes y := by
    intro x y
    induction x with
    | nil => rfl
    | cons op x ih => cases op <;> simp only [List.cons_append, opTimes, ih]
  unfold ClockOk at hops
  rw [ht, ← List.cons_append, List.pairwise_append] at hops
  obtain ⟨now, hr⟩ := reach_of_run (c := c) (show ClockOk ops from hops.1)
  rw [htr] at hr
  have h12 : t1 ≤ t2 := by
    have := hops.2.1
    simp only [opTimes, List.pairwise_cons, List.mem_cons, forall_eq_or_imp] at this
    exact this.1.1
  have := resume ok h1 hr hu h12 (t3 := t3) (some (n, r))
  rw [limiter_run_append, htr]
  show (a ++ [RateEv.slept t u]) ++ ([((Limiter.run c ops {}).1.get c t1 t2 t3 (some (n, r))).2] ++ []) = _
  rw [this]
  simp

/-- C42. When the hardware limits the rate, the writer never sleeps. -/
theorem C42_hardware {rate ratio hz : Rat} {burst : Nat} {c : RateConfig} (hc : RateConfig.make rate burst ratio hz true = some c) (hhz : 0 < hz)
    {ops : List RateOp} (hops : ClockOk ops) (t u : Int) : RateEv.slept t u ∉ (Limiter.run c ops {}).2 := by
  obtain ⟨ok, h1, -⟩ := make_ok hhz hc
  obtain ⟨now, hr⟩ := reach_of_run (c := c) hops
  exact (hw_awake ok h1 hr).2.2.2 t u

/-! ## An execution

One tick is a second, the rate 2 bytes per second, the burst rate 3 bytes per second, the burst size 4 bytes. -/

/-- The configuration of the example. -/
def rateDemo : RateConfig := { rate := 2, burstSize := 4, ratio := 3 / 2, hz := 1 }

/-- The writer is woken at 100 and finds three packets; after the second it has to wait until 102, and for one heap with its own
rate; it is woken again at 200. -/
def rateDemoOps : List RateOp :=
  [.woken 100, .get 100 100 100 (some (3, -1)), .get 100 100 101 (some (3, -1)), .get 101 101 101 (some (5, 10)), .timer 102, .timer 103,
   .get 103 103 103 (some (5, 10)), .get 103 103 104 (some (3, -1)), .get 104 104 104 none, .woken 200, .get 200 200 200 (some (2, 0)), .get 200 200 200 (some (2, -1)),
   .get 201 201 201 (some (2, -1)), .get 201 202 202 (some (2, -1))]

/-- What happens. -/
def rateDemoTrace : List RateEv :=
  [.woken 100, .packet 100 3 (-1), .packet 101 3 (-1), .slept 101 103, .packet 103 5 10, .packet 104 3 (-1), .none 104, .woken 200, .packet 200 2 0, .packet 200 2 (-1),
   .packet 201 2 (-1), .packet 202 2 (-1)]

theorem rateDemo_make : RateConfig.make 2 4 (3 / 2) 1 false = some rateDemo := by decide +kernel

theorem rateDemo_clock : ClockOk rateDemoOps := by unfold ClockOk; decide +kernel

theorem rateDemo_run : (Limiter.run rateDemo rateDemoOps {}).2 = rateDemoTrace := by decide +kernel

theorem rateDemo_bounded : Bounded rateDemo 5 (1 / 2) rateDemoTrace := by
  intro t n r h
  simp only [rateDemoTrace, List.mem_cons, List.not_mem_nil, reduceCtorEq, RateEv.packet.injEq, false_or, or_false] at h
  rcases h with ⟨-, rfl, rfl⟩ | ⟨-, rfl, rfl⟩ | ⟨-, rfl, rfl⟩ | ⟨-, rfl, rfl⟩ | ⟨-, rfl, rfl⟩ | ⟨-, rfl, rfl⟩ | ⟨-, rfl, rfl⟩ | ⟨-, rfl, rfl⟩ <;> decide +kernel

/-- `C42_average` applies: 14 bytes since time 100, until the packet at 104. -/
example : rateDue rateDemo [.packet 100 3 (-1), .packet 101 3 (-1), .slept 101 103, .packet 103 5 10, .packet 104 3 (-1)] ≤ (104 - 100 + 1) + (4 + 5) * (1 / 2) := by
  have h := C42_average rateDemo_make (by decide +kernel) rateDemo_clock (P := 5) (w := 1 / 2) (by decide +kernel)
    (a := []) (T := 100) (b := [.packet 100 3 (-1), .packet 101 3 (-1), .slept 101 103, .packet 103 5 10]) (t := 104) (n := 3) (r := -1)
    (d := [.none 104, .woken 200, .packet 200 2 0, .packet 200 2 (-1), .packet 201 2 (-1), .packet 202 2 (-1)]) (by rw [rateDemo_run]; rfl)
    (fun t n r hm => rateDemo_bounded t n r (by simp [rateDemoTrace] at hm ⊢; tauto))
  exact_mod_cast h

/-- `C42_peak` applies between the packets at 100 and 104. -/
example : rateDue rateDemo [.packet 100 3 (-1), .packet 101 3 (-1), .slept 101 103, .packet 103 5 10, .packet 104 3 (-1)] ≤ (104 - 100 + 1) * (3 / 2) + 2 * ((4 + 5) * (1 / 2)) := by
  have h := C42_peak rateDemo_make (by decide +kernel) rateDemo_clock (P := 5) (w := 1 / 2) (by decide +kernel)
    (a := [.woken 100]) (s := 100) (m := 3) (q := -1) (b := [.packet 101 3 (-1), .slept 101 103, .packet 103 5 10]) (t := 104) (n := 3) (r := -1)
    (d := [.none 104, .woken 200, .packet 200 2 0, .packet 200 2 (-1), .packet 201 2 (-1), .packet 202 2 (-1)]) (by rw [rateDemo_run]; rfl)
    (fun t n r hm => rateDemo_bounded t n r (by simp [rateDemoTrace] at hm ⊢; tauto))
  exact_mod_cast h

/-- `C42_average_bytes` and `C42_peak_bytes` apply to the first two packets. -/
example : (6 : Rat) ≤ (101 - 100 + 1) * (2 / 1) + (4 + 3) ∧ (6 : Rat) ≤ (101 - 100 + 1) * (2 * (3 / 2) / 1) + 2 * (4 + 3) := by
  have hp : ∀ x, x <+: rateDemoTrace → x.length ≤ 3 → PlainRate 3 x := by
    intro x hx hl t n r hm
    have : x = rateDemoTrace.take x.length := List.prefix_iff_eq_take.mp hx
    have hm' : RateEv.packet t n r ∈ rateDemoTrace.take 3 := by
      rw [this] at hm
      exact (List.take_subset_take_left _ hl) hm
    simp only [rateDemoTrace, List.take, List.mem_cons, List.not_mem_nil, reduceCtorEq, RateEv.packet.injEq, false_or, or_false] at hm'
    rcases hm' with ⟨-, rfl, rfl⟩ | ⟨-, rfl, rfl⟩ <;> decide +kernel
  have h1 := C42_average_bytes rateDemo_make (by decide +kernel) (by decide +kernel) rateDemo_clock (P := 3) (a := []) (T := 100) (b := [.packet 100 3 (-1)]) (t := 101) (n := 3) (r := -1)
    (d := rateDemoTrace.drop 3) (by rw [rateDemo_run]; rfl) (hp _ ⟨rateDemoTrace.drop 3, rfl⟩ (by decide))
  have h2 := C42_peak_bytes rateDemo_make (by decide +kernel) (by decide +kernel) rateDemo_clock (P := 3) (a := [.woken 100]) (s := 100) (m := 3) (q := -1) (b := []) (t := 101) (n := 3) (r := -1)
    (d := rateDemoTrace.drop 3) (by rw [rateDemo_run]; rfl) (hp _ ⟨rateDemoTrace.drop 3, rfl⟩ (by decide))
  exact ⟨by exact_mod_cast h1, by exact_mod_cast h2⟩

/-- `C42_justified` applies: at 101 the writer has to sleep until 103. -/
example : (101 : Int) < 103 ∧ (AverageReached rateDemo [.woken 100, .packet 100 3 (-1), .packet 101 3 (-1)] 103 ∨ BurstReached rateDemo [.woken 100, .packet 100 3 (-1), .packet 101 3 (-1)] 103) :=
  C42_justified rateDemo_make (by decide +kernel) rateDemo_clock (b := rateDemoTrace.drop 4) (by rw [rateDemo_run]; rfl)

/-- `C42_resume` and `C42_monotone` apply. -/
example : (Limiter.run rateDemo (rateDemoOps.take 6 ++ [.get 103 103 103 (some (5, 10))]) {}).2 = [.woken 100, .packet 100 3 (-1), .packet 101 3 (-1)] ++ [.slept 101 103, .packet 103 5 10] :=
  C42_resume rateDemo_make (by decide +kernel) (by unfold ClockOk; decide +kernel) (by decide +kernel) (by decide)

example : (103 : Int) ≤ 103 :=
  C42_monotone rateDemo_make (by decide +kernel) (ops := [.woken 100, .get 100 100 100 (some (6, -1)), .get 101 101 101 none, .get 102 102 102 none]) (by unfold ClockOk; decide +kernel)
    (a := [.woken 100, .packet 100 6 (-1)]) (t := 101) (u := 103) (b := []) (t' := 102) (u' := 103) (d := []) (by decide +kernel)

/-- `C42_hardware` applies to the same calls. -/
example : RateEv.slept 101 103 ∉ (Limiter.run { rateDemo with hw := true } rateDemoOps {}).2 :=
  C42_hardware (rate := 2) (burst := 4) (ratio := 3 / 2) (hz := 1) (by decide +kernel) (by decide +kernel) rateDemo_clock 101 103

end Spead2
