import Verif.Spec.Stats

/-!
# C25: merging statistics
-/

namespace Spead2
open Spec

theorem combine_comm (c : StatConfig) (a b : UInt64) : c.combine a b = c.combine b a := by
  unfold StatConfig.combine
  cases c.mode with
  | counter => exact UInt64.add_comm a b
  | maximum =>
    simp only
    by_cases h1 : a < b <;> by_cases h2 : b < a <;> simp only [h1, h2, if_true, if_false]
    · exact absurd (UInt64.lt_trans h1 h2) (UInt64.lt_irrefl a)
    · rw [UInt64.lt_iff_toNat_lt] at h1 h2
      exact UInt64.toNat_inj.1 (by omega)

theorem combine_assoc (c : StatConfig) (a b d : UInt64) : c.combine (c.combine a b) d = c.combine a (c.combine b d) := by
  unfold StatConfig.combine
  cases c.mode with
  | counter => exact UInt64.add_assoc a b d
  | maximum =>
    simp only
    apply UInt64.toNat_inj.1
    by_cases h1 : a < b <;> by_cases h2 : b < d <;> by_cases h3 : a < d <;> simp only [h1, h2, h3, if_true, if_false] <;>
      rw [UInt64.lt_iff_toNat_lt] at h1 h2 h3 <;> omega

theorem combine_zero (c : StatConfig) (a : UInt64) : c.combine a 0 = a ∧ c.combine 0 a = a := by
  unfold StatConfig.combine
  cases c.mode with
  | counter => exact ⟨UInt64.add_zero a, UInt64.zero_add a⟩
  | maximum =>
    simp only
    constructor
    · rw [if_neg]; exact UInt64.not_lt_zero
    · by_cases h : 0 < a
      · rw [if_pos h]
      · rw [if_neg h]
        rw [UInt64.lt_iff_toNat_lt] at h
        exact UInt64.toNat_inj.1 (by simp at h ⊢; omega)

/-- Componentwise combination. -/
def zipStats (cs : List StatConfig) (vs ws : List UInt64) : List UInt64 := List.zipWith (fun (c : StatConfig) (p : UInt64 × UInt64) => c.combine p.1 p.2) cs (vs.zip ws)

theorem addLoop_eq : ∀ (cs : List StatConfig) (vs ws : List UInt64), vs.length = cs.length → ws.length = cs.length →
    addLoop cs vs ws = some (zipStats cs vs ws)
  | [], [], [], _, _ => rfl
  | c :: cs, v :: vs, w :: ws, h1, h2 => by
    rw [addLoop, addLoop_eq cs vs ws (by simpa using h1) (by simpa using h2)]
    rfl
  | [], _ :: _, _, h, _ => by simp at h
  | [], [], _ :: _, _, h => by simp at h
  | _ :: _, [], _, h, _ => by simp at h
  | _ :: _, _ :: _, [], _, h => by simp at h

theorem zipStats_length (cs : List StatConfig) (vs ws : List UInt64) (h1 : vs.length = cs.length) (h2 : ws.length = cs.length) :
    (zipStats cs vs ws).length = cs.length := by
  simp [zipStats, h1, h2]

theorem zipStats_get (cs : List StatConfig) (vs ws : List UInt64) (i : Nat) {c : StatConfig} {v w : UInt64}
    (h1 : cs[i]? = some c) (h2 : vs[i]? = some v) (h3 : ws[i]? = some w) : (zipStats cs vs ws)[i]? = some (c.combine v w) := by
  simp [zipStats, List.getElem?_zipWith, List.getElem?_zip_eq_some, h1, h2, h3, List.zip]

theorem statTotal_pair (m : StatMode) (n : String) (v w : UInt64) : statTotal m [v, w] = StatConfig.combine ⟨n, m⟩ v w := by
  unfold StatConfig.combine statTotal
  cases m with
  | counter => simp [UInt64.ofNat_add]
  | maximum =>
    simp only [List.map_cons, List.map_nil, List.foldr_cons, List.foldr_nil]
    by_cases h : v < w
    · rw [if_pos h]
      rw [UInt64.lt_iff_toNat_lt] at h
      rw [show max v.toNat (max w.toNat 0) = w.toNat by omega, UInt64.ofNat_toNat]
    · rw [if_neg h]
      rw [UInt64.lt_iff_toNat_lt] at h
      rw [show max v.toNat (max w.toNat 0) = v.toNat by omega, UInt64.ofNat_toNat]

theorem foldr_max_lt (l : List UInt64) : (l.map UInt64.toNat).foldr max 0 < 2 ^ 64 := by
  induction l with
  | nil => decide
  | cons a l ih =>
    have := a.toNat_lt
    simp only [List.map_cons, List.foldr_cons]
    omega

theorem statTotal_cons (m : StatMode) (n : String) (v : UInt64) (l : List UInt64) :
    statTotal m (v :: l) = StatConfig.combine ⟨n, m⟩ v (statTotal m l) := by
  rw [← statTotal_pair]
  cases m with
  | counter =>
    simp only [statTotal, List.map_cons, List.map_nil, List.sum_cons, List.sum_nil, UInt64.ofNat_add, UInt64.ofNat_toNat]
    simp
  | maximum =>
    simp only [statTotal, List.map_cons, List.map_nil, List.foldr_cons, List.foldr_nil]
    have h := foldr_max_lt l
    rw [UInt64.toNat_ofNat_of_lt' (by exact h), Nat.max_zero]

theorem statTotal_cons' (c : StatConfig) (v : UInt64) (l : List UInt64) :
    statTotal c.mode (v :: l) = c.combine v (statTotal c.mode l) := statTotal_cons c.mode c.name v l

theorem statTotal_nil (m : StatMode) : statTotal m [] = 0 := by cases m <;> rfl

/-- C25. Adding two objects never leaves the arrays; it throws exactly when the configurations differ, and
otherwise totals each statistic according to its mode. -/
theorem C25_add (s t : Stats) (hs : StatsOk s) (ht : StatsOk t) :
    (s.config ≠ t.config → s.add t = some (.error ())) ∧
    (s.config = t.config → ∃ r, s.add t = some (.ok r) ∧ StatsOk r ∧ r.config = s.config ∧
      ∀ (i : Nat) (c : StatConfig) (v w : UInt64), s.config[i]? = some c → s.values[i]? = some v → t.values[i]? = some w →
        r.values[i]? = some (statTotal c.mode [v, w])) := by
  unfold StatsOk at *
  constructor
  · intro h; unfold Stats.add; rw [if_pos h]
  · intro h
    refine ⟨⟨s.config, zipStats s.config s.values t.values⟩, ?_, zipStats_length _ _ _ hs (by rw [ht, h]), rfl, ?_⟩
    · unfold Stats.add
      rw [if_neg (by simp [h]), addLoop_eq _ _ _ hs (by rw [ht, h])]
      rfl
    · intro i c v w h1 h2 h3
      rw [zipStats_get _ _ _ i h1 h2 h3, statTotal_pair c.mode c.name]

example : Stats.add ⟨[⟨"a", .counter⟩, ⟨"b", .maximum⟩], [18446744073709551615, 7]⟩ ⟨[⟨"a", .counter⟩, ⟨"b", .maximum⟩], [3, 9]⟩
    = some (.ok ⟨[⟨"a", .counter⟩, ⟨"b", .maximum⟩], [2, 9]⟩) := by decide +kernel

example : Stats.add ⟨[⟨"a", .counter⟩], [1]⟩ ⟨[⟨"a", .maximum⟩], [1]⟩ = some (.error ()) := by decide +kernel

theorem add_eq (s t : Stats) (hs : StatsOk s) (ht : StatsOk t) (h : s.config = t.config) :
    s.add t = some (.ok ⟨s.config, zipStats s.config s.values t.values⟩) := by
  unfold StatsOk at *
  unfold Stats.add
  rw [if_neg (by simp [h]), addLoop_eq _ _ _ hs (by rw [ht, h])]
  rfl

theorem zipStats_comm (cs : List StatConfig) (vs ws : List UInt64) : zipStats cs vs ws = zipStats cs ws vs := by
  induction cs generalizing vs ws with
  | nil => simp [zipStats]
  | cons c cs ih =>
    cases vs with
    | nil => simp [zipStats]
    | cons v vs =>
      cases ws with
      | nil => simp [zipStats]
      | cons w ws =>
        have := ih vs ws
        simp only [zipStats] at this
        simp only [zipStats, List.zip_cons_cons, List.zipWith_cons_cons, this, combine_comm c v w]

theorem zipStats_assoc (cs : List StatConfig) (us vs ws : List UInt64) :
    zipStats cs (zipStats cs us vs) ws = zipStats cs us (zipStats cs vs ws) := by
  induction cs generalizing us vs ws with
  | nil => simp [zipStats]
  | cons c cs ih =>
    cases us with
    | nil => simp [zipStats]
    | cons u us =>
      cases vs with
      | nil => simp [zipStats]
      | cons v vs =>
        cases ws with
        | nil => simp [zipStats]
        | cons w ws =>
          have := ih us vs ws
          simp only [zipStats] at this
          simp only [zipStats, List.zip_cons_cons, List.zipWith_cons_cons, this, combine_assoc]

theorem zipStats_zero (cs : List StatConfig) (vs : List UInt64) (h : vs.length = cs.length) :
    zipStats cs vs (List.replicate cs.length 0) = vs := by
  induction cs generalizing vs with
  | nil => cases vs with
    | nil => rfl
    | cons _ _ => simp at h
  | cons c cs ih =>
    cases vs with
    | nil => simp at h
    | cons v vs =>
      have := ih vs (by simpa using h)
      simp only [zipStats] at this
      simp only [zipStats, List.length_cons, List.replicate_succ, List.zip_cons_cons, List.zipWith_cons_cons, this,
        (combine_zero c v).1]

/-- C25. The order of the two objects does not matter. -/
theorem C25_commutative (s t : Stats) (hs : StatsOk s) (ht : StatsOk t) : s.add t = t.add s := by
  by_cases h : s.config = t.config
  · rw [add_eq s t hs ht h, add_eq t s ht hs h.symm, h, zipStats_comm]
  · rw [(C25_add s t hs ht).1 h, (C25_add t s ht hs).1 (fun e => h e.symm)]

/-- C25. Grouping does not matter: `(s + t) + u` and `s + (t + u)` give the same object. -/
theorem C25_associative (s t u st tu : Stats) (hs : StatsOk s) (ht : StatsOk t) (hu : StatsOk u)
    (h1 : s.add t = some (.ok st)) (h2 : t.add u = some (.ok tu)) :
    st.add u = s.add tu ∧ ∃ r, st.add u = some (.ok r) := by
  have e1 : s.config = t.config := by
    apply Classical.byContradiction; intro h
    rw [(C25_add s t hs ht).1 h] at h1; cases h1
  have e2 : t.config = u.config := by
    apply Classical.byContradiction; intro h
    rw [(C25_add t u ht hu).1 h] at h2; cases h2
  rw [add_eq s t hs ht e1] at h1
  rw [add_eq t u ht hu e2] at h2
  cases h1; cases h2
  have l1 : StatsOk ⟨s.config, zipStats s.config s.values t.values⟩ :=
    zipStats_length _ _ _ hs (by unfold StatsOk at ht; rw [ht, e1])
  have l2 : StatsOk ⟨t.config, zipStats t.config t.values u.values⟩ :=
    zipStats_length _ _ _ ht (by unfold StatsOk at hu; rw [hu, e2])
  rw [add_eq _ u l1 hu (e1.trans e2), add_eq s _ hs l2 e1]
  simp only [← e1, zipStats_assoc]
  exact ⟨trivial, _, rfl⟩

example : ∃ st tu, Stats.add ⟨defaultStats, [1, 2, 3, 4, 5, 6, 7, 8, 9]⟩ ⟨defaultStats, [9, 8, 7, 6, 5, 4, 3, 2, 1]⟩ = some (.ok st) ∧
    Stats.add ⟨defaultStats, [9, 8, 7, 6, 5, 4, 3, 2, 1]⟩ ⟨defaultStats, [0, 0, 0, 0, 0, 10, 0, 0, 0]⟩ = some (.ok tu) :=
  ⟨⟨defaultStats, [10, 10, 10, 10, 10, 6, 10, 10, 10]⟩, ⟨defaultStats, [9, 8, 7, 6, 5, 10, 3, 2, 1]⟩, by decide +kernel, by decide +kernel⟩

/-- C25. A freshly constructed object (all zero) is the identity. -/
theorem C25_identity (s : Stats) (hs : StatsOk s) :
    s.add (Stats.zero s.config) = some (.ok s) ∧ (Stats.zero s.config).add s = some (.ok s) := by
  have hz : StatsOk (Stats.zero s.config) := by simp [StatsOk, Stats.zero]
  have h : s.add (Stats.zero s.config) = some (.ok s) := by
    rw [add_eq _ _ hs hz rfl, Stats.zero, zipStats_zero _ _ hs]
  exact ⟨h, by rw [C25_commutative _ _ hz hs]; exact h⟩

theorem addAll_total (s : Stats) (hs : StatsOk s) (ts : List Stats) (ht : ∀ t ∈ ts, StatsOk t ∧ t.config = s.config) :
    ∃ r, s.addAll ts = some (.ok r) ∧ StatsOk r ∧ r.config = s.config ∧
      ∀ (i : Nat) (c : StatConfig) (v : UInt64), s.config[i]? = some c → s.values[i]? = some v →
        r.values[i]? = some (c.combine v (statTotal c.mode (ts.filterMap (fun t => t.values[i]?)))) := by
  induction ts generalizing s with
  | nil =>
    refine ⟨s, rfl, hs, rfl, fun i c v h1 h2 => ?_⟩
    rw [List.filterMap_nil, statTotal_nil, (combine_zero c v).1, h2]
  | cons t ts ih =>
    obtain ⟨ht1, ht2⟩ := ht t List.mem_cons_self
    have hlen : (zipStats s.config s.values t.values).length = s.config.length :=
      zipStats_length _ _ _ hs (by unfold StatsOk at ht1; rw [ht1, ht2])
    obtain ⟨r, hr, hok, hc, hv⟩ := ih ⟨s.config, zipStats s.config s.values t.values⟩ hlen
      (fun t' h' => ht t' (List.mem_cons_of_mem _ h'))
    refine ⟨r, ?_, hok, hc, fun i c v h1 h2 => ?_⟩
    · rw [Stats.addAll, add_eq s t hs ht1 ht2.symm]; exact hr
    · have hi : i < t.values.length := by
        unfold StatsOk at ht1
        rw [ht1, ht2]
        exact (List.getElem?_eq_some_iff.1 h1).1
      have hw : t.values[i]? = some t.values[i] := List.getElem?_eq_getElem hi
      rw [hv i c (c.combine v t.values[i]) h1 (zipStats_get _ _ _ i h1 h2 hw)]
      rw [List.filterMap_cons, hw, statTotal_cons', combine_assoc]

/-- C25. Merging any number of objects into a fresh one succeeds and holds, for each statistic, the total (sum or
maximum) of the values of all of them. -/
theorem C25_total (config : List StatConfig) (ts : List Stats) (ht : ∀ t ∈ ts, StatsOk t ∧ t.config = config) :
    ∃ r, (Stats.zero config).addAll ts = some (.ok r) ∧ StatsOk r ∧ r.config = config ∧
      ∀ (i : Nat) (c : StatConfig), config[i]? = some c →
        r.values[i]? = some (statTotal c.mode (ts.filterMap (fun t => t.values[i]?))) := by
  obtain ⟨r, hr, hok, hc, hv⟩ := addAll_total (Stats.zero config) (by simp [StatsOk, Stats.zero]) ts ht
  refine ⟨r, hr, hok, hc, fun i c hi => ?_⟩
  have hlt := (List.getElem?_eq_some_iff.1 hi).1
  rw [hv i c 0 hi (by simp [Stats.zero, List.getElem?_replicate, hlt]), (combine_zero c _).2]

theorem statTotal_perm (m : StatMode) {l l' : List UInt64} (h : l.Perm l') : statTotal m l = statTotal m l' := by
  induction h with
  | nil => rfl
  | cons x _ ih => rw [statTotal_cons m "", statTotal_cons m "", ih]
  | swap x y l =>
    simp only [statTotal_cons m ""]
    rw [← combine_assoc, ← combine_assoc, combine_comm _ y x]
  | trans _ _ ih1 ih2 => exact ih1.trans ih2

/-- C25. The order in which objects are merged does not matter. -/
theorem C25_order (s : Stats) (ts us : List Stats) (hs : StatsOk s) (h : ts.Perm us)
    (ht : ∀ t ∈ ts, StatsOk t ∧ t.config = s.config) : s.addAll ts = s.addAll us ∧ ∃ r, s.addAll ts = some (.ok r) := by
  obtain ⟨r, hr, hok, hc, hv⟩ := addAll_total s hs ts ht
  obtain ⟨q, hq, hok', hc', hv'⟩ := addAll_total s hs us (fun t h' => ht t (h.mem_iff.2 h'))
  refine ⟨?_, r, hr⟩
  rw [hr, hq]
  have : r = q := by
    obtain ⟨rc, rv⟩ := r
    obtain ⟨qc, qv⟩ := q
    simp only at hc hc'
    subst hc; subst hc'
    congr 1
    unfold StatsOk at *
    simp only at hok hok'
    apply List.ext_getElem?
    intro i
    by_cases hi : i < s.config.length
    · have h1 : s.config[i]? = some s.config[i] := List.getElem?_eq_getElem hi
      have h2 : s.values[i]? = some (s.values[i]'(by omega)) := List.getElem?_eq_getElem (by omega)
      rw [hv i _ _ h1 h2, hv' i _ _ h1 h2, statTotal_perm _ (h.filterMap _)]
    · rw [List.getElem?_eq_none (by omega), List.getElem?_eq_none (by omega)]
  rw [this]

example : (Stats.zero defaultStats).addAll [⟨defaultStats, [1, 2, 3, 4, 5, 6, 7, 8, 9]⟩, ⟨defaultStats, [9, 8, 7, 6, 5, 4, 3, 2, 1]⟩]
    = some (.ok ⟨defaultStats, [10, 10, 10, 10, 10, 6, 10, 10, 10]⟩) := by decide +kernel

/-- C25. Assignment copies exactly, and throws exactly when the configurations differ. -/
theorem C25_assign (s t : Stats) (hs : StatsOk s) (ht : StatsOk t) :
    s.assign t = some (if s.config = t.config then .ok t else .error ()) := by
  unfold Stats.assign
  by_cases h : s.config = t.config
  · rw [if_neg (by simp [h]), if_pos h]
    unfold StatsOk at *
    have : ∀ vs ws : List UInt64, vs.length = ws.length → assignLoop vs ws = some ws := by
      intro vs
      induction vs with
      | nil => intro ws hw; cases ws with
        | nil => rfl
        | cons _ _ => simp at hw
      | cons v vs ih => intro ws hw; cases ws with
        | nil => simp at hw
        | cons w ws => rw [assignLoop, ih ws (by simpa using hw)]; rfl
    rw [this _ _ (by rw [hs, ht, h]), h]
    rfl
  · rw [if_pos (by simpa using h), if_neg h]

theorem statIndex_le (cs : List StatConfig) (n : String) : statIndex cs n ≤ cs.length := by
  induction cs with
  | nil => simp [statIndex]
  | cons c cs ih => simp only [statIndex]; split <;> simp <;> omega

theorem statIndex_lt_iff (cs : List StatConfig) (n : String) : statIndex cs n < cs.length ↔ ∃ c ∈ cs, c.name = n := by
  induction cs with
  | nil => simp [statIndex]
  | cons c cs ih =>
    simp only [statIndex, List.mem_cons, List.length_cons]
    by_cases h : c.name = n
    · rw [if_pos h]; simp [h]
    · rw [if_neg h]
      constructor
      · intro hl
        obtain ⟨d, hd, hn⟩ := ih.1 (by omega)
        exact ⟨d, Or.inr hd, hn⟩
      · rintro ⟨d, rfl | hd, hn⟩
        · exact absurd hn h
        · have := ih.2 ⟨d, hd, hn⟩; omega

theorem statIndex_unique (cs : List StatConfig) (hnd : (cs.map (·.name)).Nodup) (i : Nat) (c : StatConfig) (h : cs[i]? = some c) :
    statIndex cs c.name = i := by
  induction cs generalizing i with
  | nil => simp at h
  | cons d cs ih =>
    simp only [List.map_cons, List.nodup_cons, List.mem_map, not_exists, not_and] at hnd
    cases i with
    | zero =>
      simp only [List.getElem?_cons_zero, Option.some.injEq] at h
      subst h
      simp [statIndex]
    | succ i =>
      simp only [List.getElem?_cons_succ] at h
      rw [statIndex, if_neg (fun e => hnd.1 c (List.mem_of_getElem? h) e.symm), ih hnd.2 i h]

/-- C25 (configuration). However a configuration is built, the statistic names stay distinct, the built-in statistics
keep their indices, `add_stat` fails exactly when the name is taken, and otherwise the index it returns is where the
statistic is found, now and after any further `add_stat`. -/
theorem C25_config (cs : List StatConfig) (h : ConfigReach cs) :
    (cs.map (·.name)).Nodup ∧ cs.take customIndex = defaultStats ∧
    (∀ n m, addStat cs n m = .error () ↔ ∃ c ∈ cs, c.name = n) ∧
    (∀ n m cs' i, addStat cs n m = .ok (cs', i) → cs' = cs ++ [⟨n, m⟩] ∧ i = cs.length ∧ customIndex ≤ i) := by
  have key : (cs.map (·.name)).Nodup ∧ cs.take customIndex = defaultStats ∧ customIndex ≤ cs.length := by
    induction h with
    | default => exact ⟨by decide +kernel, rfl, by decide⟩
    | @add cs cs' n m i _ ha ih =>
      unfold addStat at ha
      by_cases hn : statIndex cs n = cs.length
      · rw [if_neg (by simpa using hn)] at ha
        cases ha
        refine ⟨?_, ?_, by simp; omega⟩
        · rw [List.map_append, List.nodup_append]
          refine ⟨ih.1, by simp, fun a ha b hb => ?_⟩
          rw [List.map_cons, List.map_nil, List.mem_singleton] at hb
          rintro rfl
          obtain ⟨d, hd, hdn⟩ := List.mem_map.1 ha
          have := (statIndex_lt_iff cs n).2 ⟨d, hd, hdn.trans hb⟩
          omega
        · rw [List.take_append_of_le_length ih.2.2, ih.2.1]
      · rw [if_pos hn] at ha; cases ha
  refine ⟨key.1, key.2.1, fun n m => ?_, fun n m cs' i ha => ?_⟩
  · rw [← statIndex_lt_iff]
    have := statIndex_le cs n
    unfold addStat
    by_cases hn : statIndex cs n = cs.length
    · rw [if_neg (by simpa using hn)]; simp [hn]
    · rw [if_pos hn]; simp; omega
  · unfold addStat at ha
    by_cases hn : statIndex cs n = cs.length
    · rw [if_neg (by simpa using hn)] at ha
      cases ha
      exact ⟨rfl, rfl, key.2.2⟩
    · rw [if_pos hn] at ha; cases ha

example : ConfigReach (defaultStats ++ [⟨"mine", .maximum⟩]) := .add .default (n := "mine") (m := .maximum) (i := 9) (by decide +kernel)
example : addStat defaultStats "max_batch" .counter = .error () := by decide +kernel

/-- C25 (lookup by name). Looking a statistic up by name gives the value at its index, and fails exactly for unknown
names. -/
theorem C25_lookup (s : Stats) (hs : StatsOk s) (hc : ConfigReach s.config) :
    (∀ n, s.atName n = some (.error ()) ↔ ¬ ∃ c ∈ s.config, c.name = n) ∧
    (∀ n, s.countName n = if ∃ c ∈ s.config, c.name = n then 1 else 0) ∧
    (∀ (i : Nat) (c : StatConfig), s.config[i]? = some c → ∃ v, s.values[i]? = some v ∧ s.atName c.name = some (.ok v)) := by
  unfold StatsOk at hs
  refine ⟨fun n => ?_, fun n => ?_, fun i c hi => ?_⟩
  · rw [← statIndex_lt_iff]
    have := statIndex_le s.config n
    unfold Stats.atName
    by_cases hn : statIndex s.config n = s.config.length
    · rw [if_pos hn]; simp [hn]
    · rw [if_neg hn, List.getElem?_eq_getElem (by omega)]; simp; omega
  · have := statIndex_le s.config n
    unfold Stats.countName
    simp only [← statIndex_lt_iff, hs]
    by_cases hn : statIndex s.config n = s.config.length
    · simp [hn]
    · rw [if_pos hn, if_pos (by omega)]
  · have hlt := (List.getElem?_eq_some_iff.1 hi).1
    have hidx := statIndex_unique s.config (C25_config _ hc).1 i c hi
    refine ⟨s.values[i]'(by omega), List.getElem?_eq_getElem (by omega), ?_⟩
    unfold Stats.atName
    rw [hidx, if_neg (by omega), List.getElem?_eq_getElem (by omega)]
    rfl

theorem mergeCustom_eq (cs : List StatConfig) (b : List UInt64) (hb : b.length = cs.length) (k : Nat) :
    ∀ (vals : List UInt64), vals.length = cs.length → ∃ r, mergeCustom cs k vals b = some r ∧ r.length = cs.length ∧
      (∀ i, i < k → r[i]? = vals[i]?) ∧
      (∀ (i : Nat) (c : StatConfig) (v w : UInt64), k ≤ i → cs[i]? = some c → vals[i]? = some v → b[i]? = some w → r[i]? = some (c.combine v w)) := by
  induction hn : cs.length - k using Nat.strongRecOn generalizing k with
  | _ n ih =>
    intro vals hv
    rw [mergeCustom]
    by_cases hk : k < cs.length
    · rw [if_pos hk, List.getElem?_eq_getElem hk, List.getElem?_eq_getElem (show k < vals.length by omega),
        List.getElem?_eq_getElem (show k < b.length by omega)]
      simp only
      obtain ⟨r, h1, h2, h3, h4⟩ := ih (cs.length - (k + 1)) (by omega) (k + 1) rfl
        (vals.set k (cs[k].combine (vals[k]'(by omega)) (b[k]'(by omega)))) (by simpa using hv)
      refine ⟨r, h1, h2, fun i hi => ?_, fun i c v w hi hc hvi hw => ?_⟩
      · rw [h3 i (by omega), List.getElem?_set_ne (by omega)]
      · by_cases he : i = k
        · subst he
          rw [h3 i (by omega), List.getElem?_set_self (by omega)]
          rw [List.getElem?_eq_getElem hk] at hc
          rw [List.getElem?_eq_getElem (show i < vals.length by omega)] at hvi
          rw [List.getElem?_eq_getElem (show i < b.length by omega)] at hw
          cases hc; cases hvi; cases hw
          rfl
        · exact h4 i c v w (by omega) hc (by rw [List.getElem?_set_ne (by omega)]; exact hvi) hw
    · rw [if_neg hk]
      refine ⟨vals, rfl, hv, fun _ _ => rfl, fun i c v w hi hc _ _ => ?_⟩
      have := (List.getElem?_eq_some_iff.1 hc).1
      omega

/-- C25 (batches). Whatever batches report, after any number of them each custom statistic holds the total of its
initial value and what every batch reported for it, and the built-in statistics are not touched by this merge. -/
theorem C25_batches (cs : List StatConfig) (bs : List (List UInt64)) (hb : ∀ b ∈ bs, b.length = cs.length)
    (vals : List UInt64) (hv : vals.length = cs.length) :
    ∃ r, mergeBatches cs vals bs = some r ∧ r.length = cs.length ∧
      (∀ i, i < customIndex → r[i]? = vals[i]?) ∧
      (∀ (i : Nat) (c : StatConfig) (v : UInt64), customIndex ≤ i → cs[i]? = some c → vals[i]? = some v →
        r[i]? = some (statTotal c.mode (v :: bs.filterMap (fun b => b[i]?)))) := by
  induction bs generalizing vals with
  | nil =>
    refine ⟨vals, rfl, hv, fun _ _ => rfl, fun i c v _ _ h => ?_⟩
    rw [statTotal_cons', List.filterMap_nil, statTotal_nil, (combine_zero c v).1, h]
  | cons b bs ih =>
    have hbl := hb b List.mem_cons_self
    obtain ⟨v1, h1, h2, h3, h4⟩ := mergeCustom_eq cs b hbl customIndex vals hv
    obtain ⟨r, g1, g2, g3, g4⟩ := ih (fun b' h' => hb b' (List.mem_cons_of_mem _ h')) v1 h2
    refine ⟨r, ?_, g2, fun i hi => by rw [g3 i hi, h3 i hi], fun i c v hi hc hvi => ?_⟩
    · rw [mergeBatches, h1]; exact g1
    · have hlt := (List.getElem?_eq_some_iff.1 hc).1
      have hw : b[i]? = some (b[i]'(by omega)) := List.getElem?_eq_getElem (by omega)
      rw [g4 i c _ hi hc (h4 i c v _ hi hc hvi hw), List.filterMap_cons, hw]
      simp only [statTotal_cons']
      rw [combine_assoc]

example : mergeBatches (defaultStats ++ [⟨"mine", .maximum⟩, ⟨"n", .counter⟩]) [1, 1, 1, 1, 1, 1, 1, 1, 1, 5, 5]
    [[0, 0, 0, 0, 0, 0, 0, 0, 0, 7, 7], [9, 0, 0, 0, 0, 0, 0, 0, 0, 6, 6]] = some [1, 1, 1, 1, 1, 1, 1, 1, 1, 7, 18] := by decide +kernel

end Spead2
