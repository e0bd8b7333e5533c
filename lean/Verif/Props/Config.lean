import Verif.Lemmas.Config
import Verif.Model.Rate
import Verif.Model.SendQueue

/-!
# C83: configurations are valid values

A configuration accepts exactly the values that are documented, a call that throws changes nothing, and copies, streams and
statistics never see a later change, although they share the list of statistics.
-/

namespace Spead2.Cfg

/-- A program: a second configuration is copied from the first, both get statistics of the same name, a stream is made in
between, and one call is rejected. -/
def exOps : List Op :=
  [.create, .call 0 (.addStat "bad_frames" .counter), .copy 0, .call 0 (.addStat "worst" .maximum),
    .call 1 (.addStat "worst" .counter), .stream 1, .call 1 (.addStat "bad_frames" .maximum), .call 1 (.maxHeaps 0),
    .call 1 (.addStat "other" .counter), .count 0 [1, 2, 3, 4, 5, 6, 7, 8, 9, 10, 11], .getStats 0, .create]

/-! ## Values -/

/-- **C83 (values).** Whatever a program does, with any number of configurations, streams and statistics, it sees what it
would see if every object had its own settings and statistics, and every call answers what it should. -/
theorem C83_value (ops : List Op) :
    (World.initial.run ops).map (fun r => (r.1.objects, r.2)) = Objects.initial.run ops :=
  (run_spec ops WF.initial).1

theorem put_valid {v : Value} (h : v.Valid) {s : Setter} (ha : Allowed v.stats s) : (v.put s).Valid := by
  cases s with
  | maxHeaps n => exact ⟨ha, h.substreams, h.compat, h.builtin, h.names⟩
  | substreams n => exact ⟨h.heaps, ha, h.compat, h.builtin, h.names⟩
  | bugCompat m => exact ⟨h.heaps, h.substreams, ha, h.builtin, h.names⟩
  | addStat name mode =>
    refine ⟨h.heaps, h.substreams, h.compat, h.builtin.trans (List.prefix_append _ _), ?_⟩
    show ((v.stats ++ [_]).map StatConfig.name).Nodup
    rw [List.map_append, List.nodup_append]
    refine ⟨h.names, by simp, ?_⟩
    intro a hma b hb
    obtain ⟨c, hc, rfl⟩ := List.mem_map.mp hma
    rw [List.map_singleton, List.mem_singleton] at hb
    rw [hb]
    exact ha c hc
  | _ => exact ⟨h.heaps, h.substreams, h.compat, h.builtin, h.names⟩

/-- Everything is valid. -/
def AllValid (o : Objects) : Prop :=
  (∀ v ∈ o.configs, v.Valid) ∧ (∀ s ∈ o.streams, s.1.Valid ∧ s.2.length = s.1.stats.length)

theorem step_valid {o o' : Objects} {op : Op} {a : Answer} (h : AllValid o) (hs : o.step op = some (o', a)) : AllValid o' := by
  obtain ⟨h1, h2⟩ := h
  have init : Value.initial.Valid := ⟨by decide, by decide, by decide, List.prefix_refl _, by decide⟩
  cases op with
  | create =>
    obtain ⟨rfl, _⟩ := Prod.mk.inj (Option.some.inj hs)
    refine ⟨?_, h2⟩
    intro v hv
    rcases List.mem_append.mp hv with hv | hv
    · exact h1 v hv
    · rw [List.mem_singleton.mp hv]; exact init
  | copy i =>
    obtain ⟨v, hv, he⟩ := Option.map_eq_some_iff.mp hs
    obtain ⟨rfl, _⟩ := Prod.mk.inj he
    refine ⟨?_, h2⟩
    intro x hx
    rcases List.mem_append.mp hx with hx | hx
    · exact h1 x hx
    · rw [List.mem_singleton.mp hx]; exact h1 v (List.mem_of_getElem? hv)
  | assign i j =>
    simp only [Objects.step] at hs
    split at hs
    · next v hi hj =>
      obtain ⟨rfl, _⟩ := Prod.mk.inj (Option.some.inj hs)
      refine ⟨?_, h2⟩
      intro x hx
      rcases List.mem_or_eq_of_mem_set hx with hx | hx
      · exact h1 x hx
      · rw [hx]; exact h1 v (List.mem_of_getElem? hj)
    · cases hs
  | call i s =>
    obtain ⟨v, hv, he⟩ := Option.map_eq_some_iff.mp hs
    have hvv := h1 v (List.mem_of_getElem? hv)
    split at he
    · next ha =>
      obtain ⟨rfl, _⟩ := Prod.mk.inj he
      refine ⟨?_, h2⟩
      intro x hx
      rcases List.mem_or_eq_of_mem_set hx with hx | hx
      · exact h1 x hx
      · rw [hx]; exact put_valid hvv ha
    · obtain ⟨rfl, _⟩ := Prod.mk.inj he
      exact ⟨h1, h2⟩
  | stream i =>
    obtain ⟨v, hv, he⟩ := Option.map_eq_some_iff.mp hs
    obtain ⟨rfl, _⟩ := Prod.mk.inj he
    refine ⟨h1, ?_⟩
    intro x hx
    rcases List.mem_append.mp hx with hx | hx
    · exact h2 x hx
    · rw [List.mem_singleton.mp hx]
      exact ⟨h1 v (List.mem_of_getElem? hv), List.length_replicate ..⟩
  | count k values =>
    simp only [Objects.step] at hs
    split at hs
    · cases hs
    · next v old hk =>
      split at hs
      · next hl =>
        obtain ⟨rfl, _⟩ := Prod.mk.inj (Option.some.inj hs)
        refine ⟨h1, ?_⟩
        intro x hx
        rcases List.mem_or_eq_of_mem_set hx with hx | hx
        · exact h2 x hx
        · rw [hx]; exact ⟨(h2 _ (List.mem_of_getElem? hk)).1, hl⟩
      · cases hs
  | getStats k =>
    obtain ⟨v, hv, he⟩ := Option.map_eq_some_iff.mp hs
    obtain ⟨rfl, _⟩ := Prod.mk.inj he
    exact ⟨h1, h2⟩

theorem run_induct {P : Objects → Prop} {ok : Op → Prop}
    (hstep : ∀ o o' op a, ok op → P o → o.step op = some (o', a) → P o') :
    ∀ (ops : List Op) (o o' : Objects) (as : List Answer), (∀ op ∈ ops, ok op) → P o → o.run ops = some (o', as) → P o' := by
  intro ops
  induction ops with
  | nil => intro o o' as _ h hr; obtain ⟨rfl, _⟩ := Prod.mk.inj (Option.some.inj hr); exact h
  | cons op ops ih =>
    intro o o' as hok h hr
    unfold Objects.run at hr
    cases hs : o.step op with
    | none => rw [hs] at hr; cases hr
    | some r =>
      obtain ⟨o1, a⟩ := r
      rw [hs] at hr
      simp only at hr
      cases hr1 : o1.run ops with
      | none => rw [hr1] at hr; cases hr
      | some r1 =>
        obtain ⟨o2, as2⟩ := r1
        rw [hr1] at hr
        obtain ⟨rfl, _⟩ := Prod.mk.inj (Option.some.inj hr)
        exact ih o1 o2 as2 (fun x hx => hok x (List.mem_cons_of_mem _ hx))
          (hstep _ _ _ _ (hok op List.mem_cons_self) h hs) hr1

/-- **C83 (validity).** At every time, every configuration and every stream has at least one heap and one substream, no
unknown compatibility bits, the built-in statistics at the beginning, no two statistics of the same name, and a stream has
one counter per statistic. -/
theorem C83_valid (ops : List Op) (w : World) (as : List Answer) (h : World.initial.run ops = some (w, as)) :
    (∀ v ∈ w.objects.configs, v.Valid) ∧ (∀ s ∈ w.objects.streams, s.1.Valid ∧ s.2.length = s.1.stats.length) := by
  have hr := C83_value ops
  rw [h] at hr
  exact run_induct (P := AllValid) (ok := fun _ => True) (fun _ _ _ _ _ hp hs => step_valid hp hs) ops _ _ _ (fun _ _ => trivial)
    ⟨fun _ h => (List.not_mem_nil h).elim, fun _ h => (List.not_mem_nil h).elim⟩ hr.symm

/-- **C83 (rejection).** A call throws exactly if its argument is not allowed, and then nothing at all has changed. -/
theorem C83_rejected (ops : List Op) (w : World) (as : List Answer) (h : World.initial.run ops = some (w, as))
    (i : Nat) (v : Value) (hv : w.objects.configs[i]? = some v) (s : Setter) :
    (Allowed v.stats s → ∃ w', w.step (.call i s) = some (w', v.answer s) ∧ v.answer s ≠ .invalid ∧
      w'.objects = { w.objects with configs := w.objects.configs.set i (v.put s) }) ∧
    (¬ Allowed v.stats s → ∃ w', w.step (.call i s) = some (w', .invalid) ∧ w'.objects = w.objects) := by
  have wf := (run_spec ops WF.initial).2 _ h
  have hs := (step_spec wf (.call i s)).1
  have ho : w.objects.step (.call i s) = (w.objects.configs[i]?).map fun v =>
      if Allowed v.stats s then ({ w.objects with configs := w.objects.configs.set i (v.put s) }, v.answer s)
      else (w.objects, .invalid) := rfl
  rw [ho, hv, Option.map_some] at hs
  obtain ⟨r, h1, h2⟩ := Option.map_eq_some_iff.mp hs
  constructor
  · intro ha
    rw [if_pos ha] at h2
    obtain ⟨h3, h4⟩ := Prod.mk.inj h2
    refine ⟨r.1, by rw [h1, ← h4], ?_, h3⟩
    cases s <;> (intro e; cases e)
  · intro ha
    rw [if_neg ha] at h2
    obtain ⟨h3, h4⟩ := Prod.mk.inj h2
    exact ⟨r.1, by rw [h1, ← h4], h3⟩

/-! ## Statistics -/

theorem statIndex_of_nodup : ∀ {stats : List StatConfig} {k : Nat} {c : StatConfig}, (stats.map StatConfig.name).Nodup →
    stats[k]? = some c → statIndex stats c.name = k := by
  intro stats
  induction stats with
  | nil => intro k c _ h; simp at h
  | cons x xs ih =>
    intro k c hn h
    rw [List.map_cons, List.nodup_cons] at hn
    unfold statIndex
    match k with
    | 0 =>
      rw [List.getElem?_cons_zero] at h
      obtain rfl := Option.some.inj h
      rw [if_pos rfl]
    | k + 1 =>
      rw [List.getElem?_cons_succ] at h
      have hne : x.name ≠ c.name := fun e => hn.1 (by rw [e]; exact List.mem_map_of_mem (List.mem_of_getElem? h))
      rw [if_neg hne, ih hn.2 h]

/-- A statistic stays where it is while the configuration is not assigned to. -/
theorem step_keeps {o o' : Objects} {op : Op} {a : Answer} {i k : Nat} {c : StatConfig} (hop : ∀ j, op ≠ .assign i j)
    (h : ∃ v, o.configs[i]? = some v ∧ v.stats[k]? = some c) (hs : o.step op = some (o', a)) :
    ∃ v, o'.configs[i]? = some v ∧ v.stats[k]? = some c := by
  obtain ⟨v, hv, hc⟩ := h
  have app : ∀ x, (o.configs ++ [x])[i]? = some v := fun x => by
    rw [List.getElem?_append_left (List.getElem?_eq_some_iff.mp hv).1]; exact hv
  cases op with
  | create =>
    obtain ⟨rfl, _⟩ := Prod.mk.inj (Option.some.inj hs)
    exact ⟨v, app _, hc⟩
  | copy j =>
    obtain ⟨x, hx, he⟩ := Option.map_eq_some_iff.mp hs
    obtain ⟨rfl, _⟩ := Prod.mk.inj he
    exact ⟨v, app _, hc⟩
  | assign i' j =>
    have hne : i' ≠ i := fun e => hop j (by rw [e])
    simp only [Objects.step] at hs
    split at hs
    · obtain ⟨rfl, _⟩ := Prod.mk.inj (Option.some.inj hs)
      exact ⟨v, by show (o.configs.set i' _)[i]? = _; rw [List.getElem?_set_ne hne]; exact hv, hc⟩
    · cases hs
  | call i' s =>
    obtain ⟨x, hx, he⟩ := Option.map_eq_some_iff.mp hs
    split at he
    · obtain ⟨rfl, _⟩ := Prod.mk.inj he
      by_cases hne : i' = i
      · subst hne
        rw [hv] at hx
        obtain rfl := Option.some.inj hx
        refine ⟨v.put s, ?_, ?_⟩
        · show (o.configs.set i' _)[i']? = _
          rw [List.getElem?_set_self (List.getElem?_eq_some_iff.mp hv).1]
        · cases s with
          | addStat name mode =>
            show (v.stats ++ [_])[k]? = _
            rw [List.getElem?_append_left (List.getElem?_eq_some_iff.mp hc).1]
            exact hc
          | _ => exact hc
      · exact ⟨v, by show (o.configs.set i' _)[i]? = _; rw [List.getElem?_set_ne hne]; exact hv, hc⟩
    · obtain ⟨rfl, _⟩ := Prod.mk.inj he
      exact ⟨v, hv, hc⟩
  | stream j =>
    obtain ⟨x, hx, he⟩ := Option.map_eq_some_iff.mp hs
    obtain ⟨rfl, _⟩ := Prod.mk.inj he
    exact ⟨v, hv, hc⟩
  | count k values =>
    simp only [Objects.step] at hs
    split at hs
    · cases hs
    · split at hs
      · obtain ⟨rfl, _⟩ := Prod.mk.inj (Option.some.inj hs)
        exact ⟨v, hv, hc⟩
      · cases hs
  | getStats j =>
    obtain ⟨x, hx, he⟩ := Option.map_eq_some_iff.mp hs
    obtain ⟨rfl, _⟩ := Prod.mk.inj he
    exact ⟨v, hv, hc⟩

/-- Runs follow one another. -/
theorem objects_run {ops : List Op} {w w' : World} {as : List Answer} (wf : WF w) (h : w.run ops = some (w', as)) :
    w.objects.run ops = some (w'.objects, as) := by
  have := (run_spec ops wf).1
  rw [h] at this
  exact this.symm

/-- **C83 (indices).** The index that `add_stat` returns is the place of the new statistic, after the nine built-in ones,
and it stays the index of that name for good, unless another configuration is assigned to this one. -/
theorem C83_index (pre ops : List Op) (w w' w'' : World) (as as' : List Answer) (i k : Nat) (name : String) (mode : StatMode)
    (h : World.initial.run pre = some (w, as)) (hadd : w.step (.call i (.addStat name mode)) = some (w', .index k))
    (hr : w'.run ops = some (w'', as')) (hna : ∀ j, Op.assign i j ∉ ops) :
    9 ≤ k ∧ ∃ v, w''.objects.configs[i]? = some v ∧ v.stats[k]? = some ⟨name, mode⟩ ∧ statIndex v.stats name = k := by
  have wf := (run_spec pre WF.initial).2 _ h
  have hval := C83_valid pre w as h
  have wf' := (step_spec wf _).2 _ hadd
  have hs := (step_spec wf (.call i (.addStat name mode))).1
  rw [hadd] at hs
  obtain ⟨v, hv, he⟩ := Option.map_eq_some_iff.mp hs.symm
  split at he
  · next ha =>
    obtain ⟨h1, h2⟩ := Prod.mk.inj he
    have hk : v.stats.length = k := by
      have : Answer.index v.stats.length = Answer.index k := h2
      exact Answer.index.inj this
    have hvv := hval.1 v (List.mem_of_getElem? hv)
    have hlen : 9 ≤ k := by
      have := hvv.builtin.length_le
      rw [hk] at this
      exact this
    refine ⟨hlen, ?_⟩
    have start : ∃ v, w'.objects.configs[i]? = some v ∧ v.stats[k]? = some ⟨name, mode⟩ := by
      refine ⟨v.put (.addStat name mode), ?_, ?_⟩
      · rw [← h1]
        show (w.objects.configs.set i _)[i]? = _
        rw [List.getElem?_set_self (List.getElem?_eq_some_iff.mp hv).1]
      · show (v.stats ++ [_])[k]? = _
        rw [← hk]; simp
    obtain ⟨v', hv', hc'⟩ := run_induct (P := fun o => ∃ v, o.configs[i]? = some v ∧ v.stats[k]? = some ⟨name, mode⟩)
      (ok := fun op => ∀ j, op ≠ .assign i j) (fun _ _ _ _ hok hp hs => step_keeps hok hp hs) ops _ _ _
      (fun op hop j e => hna j (e ▸ hop)) start (objects_run wf' hr)
    have hall : AllValid w'.objects := step_valid hval hs.symm
    have hall' := run_induct (P := AllValid) (ok := fun _ => True) (fun _ _ _ _ _ hp hs => step_valid hp hs) ops _ _ _
      (fun _ _ => trivial) hall (objects_run wf' hr)
    exact ⟨v', hv', hc', statIndex_of_nodup (hall'.1 v' (List.mem_of_getElem? hv')).names hc'⟩
  · obtain ⟨_, h2⟩ := Prod.mk.inj he
    cases h2

theorem step_fixed {o o' : Objects} {op : Op} {a : Answer} {k : Nat} {v : Value}
    (h : ∃ vals, o.streams[k]? = some (v, vals)) (hs : o.step op = some (o', a)) :
    ∃ vals, o'.streams[k]? = some (v, vals) := by
  obtain ⟨vals, hk⟩ := h
  cases op with
  | create => obtain ⟨rfl, _⟩ := Prod.mk.inj (Option.some.inj hs); exact ⟨vals, hk⟩
  | copy j =>
    obtain ⟨x, hx, he⟩ := Option.map_eq_some_iff.mp hs
    obtain ⟨rfl, _⟩ := Prod.mk.inj he
    exact ⟨vals, hk⟩
  | assign i' j =>
    simp only [Objects.step] at hs
    split at hs
    · obtain ⟨rfl, _⟩ := Prod.mk.inj (Option.some.inj hs); exact ⟨vals, hk⟩
    · cases hs
  | call i' s =>
    obtain ⟨x, hx, he⟩ := Option.map_eq_some_iff.mp hs
    split at he
    · obtain ⟨rfl, _⟩ := Prod.mk.inj he; exact ⟨vals, hk⟩
    · obtain ⟨rfl, _⟩ := Prod.mk.inj he; exact ⟨vals, hk⟩
  | stream j =>
    obtain ⟨x, hx, he⟩ := Option.map_eq_some_iff.mp hs
    obtain ⟨rfl, _⟩ := Prod.mk.inj he
    exact ⟨vals, by show (o.streams ++ [_])[k]? = _; rw [List.getElem?_append_left (List.getElem?_eq_some_iff.mp hk).1]; exact hk⟩
  | count j values =>
    simp only [Objects.step] at hs
    split at hs
    · cases hs
    · next v' old hj =>
      split at hs
      · obtain ⟨rfl, _⟩ := Prod.mk.inj (Option.some.inj hs)
        by_cases e : j = k
        · subst e
          rw [hk] at hj
          obtain ⟨rfl, _⟩ := Prod.mk.inj (Option.some.inj hj)
          exact ⟨values, by show (o.streams.set j _)[j]? = _; rw [List.getElem?_set_self (List.getElem?_eq_some_iff.mp hk).1]⟩
        · exact ⟨vals, by show (o.streams.set j _)[k]? = _; rw [List.getElem?_set_ne e]; exact hk⟩
      · cases hs
  | getStats j =>
    obtain ⟨x, hx, he⟩ := Option.map_eq_some_iff.mp hs
    obtain ⟨rfl, _⟩ := Prod.mk.inj he
    exact ⟨vals, hk⟩

theorem step_results {o o' : Objects} {op : Op} {a : Answer} {l : List (List StatConfig × List UInt64)}
    (h : l <+: o.results) (hs : o.step op = some (o', a)) : l <+: o'.results := by
  cases op with
  | create => obtain ⟨rfl, _⟩ := Prod.mk.inj (Option.some.inj hs); exact h
  | assign i' j =>
    simp only [Objects.step] at hs
    split at hs
    · obtain ⟨rfl, _⟩ := Prod.mk.inj (Option.some.inj hs); exact h
    · cases hs
  | count j values =>
    simp only [Objects.step] at hs
    split at hs
    · cases hs
    · split at hs
      · obtain ⟨rfl, _⟩ := Prod.mk.inj (Option.some.inj hs); exact h
      · cases hs
  | call i' s =>
    obtain ⟨x, hx, he⟩ := Option.map_eq_some_iff.mp hs
    split at he
    · obtain ⟨rfl, _⟩ := Prod.mk.inj he; exact h
    · obtain ⟨rfl, _⟩ := Prod.mk.inj he; exact h
  | getStats j =>
    obtain ⟨x, hx, he⟩ := Option.map_eq_some_iff.mp hs
    obtain ⟨rfl, _⟩ := Prod.mk.inj he
    exact h.trans (List.prefix_append _ _)
  | copy j =>
    obtain ⟨x, hx, he⟩ := Option.map_eq_some_iff.mp hs
    obtain ⟨rfl, _⟩ := Prod.mk.inj he
    exact h
  | stream j =>
    obtain ⟨x, hx, he⟩ := Option.map_eq_some_iff.mp hs
    obtain ⟨rfl, _⟩ := Prod.mk.inj he
    exact h

/-- **C83 (streams).** A stream keeps the configuration it was made with, and statistics that were asked for keep their
names and values, whatever happens to configurations afterwards. -/
theorem C83_stream (pre ops : List Op) (w w' : World) (as as' : List Answer)
    (h : World.initial.run pre = some (w, as)) (hr : w.run ops = some (w', as')) :
    (∀ (k : Nat) (v : Value) (vals : List UInt64), w.objects.streams[k]? = some (v, vals) →
      ∃ vals', w'.objects.streams[k]? = some (v, vals')) ∧
    w.objects.results <+: w'.objects.results := by
  have wf := (run_spec pre WF.initial).2 _ h
  have hr' := objects_run wf hr
  constructor
  · intro k v vals hk
    exact run_induct (P := fun o => ∃ vals, o.streams[k]? = some (v, vals)) (ok := fun _ => True)
      (fun _ _ _ _ _ hp hs => step_fixed hp hs) ops _ _ _ (fun _ _ => trivial) ⟨vals, hk⟩ hr'
  · exact run_induct (P := fun o => w.objects.results <+: o.results) (ok := fun _ => True)
      (fun _ _ _ _ _ hp hs => step_results hp hs) ops _ _ _ (fun _ _ => trivial) (List.prefix_refl _) hr'

/-- The example runs; the second configuration got its own statistic of the same name; the rejected calls changed nothing;
the stream and its statistics have 11 entries although the configuration got a twelfth. -/
example : (World.initial.run exOps).map (fun r => r.2) =
    some [.done, .index 9, .done, .index 10, .index 10, .done, .invalid, .invalid, .index 11, .done, .done, .done] ∧
    (World.initial.run exOps).map (fun r => r.1.objects.configs.map fun v => (v.stats.drop 9, v.set.maxHeaps)) =
      some [([⟨"bad_frames", .counter⟩, ⟨"worst", .maximum⟩], 4),
        ([⟨"bad_frames", .counter⟩, ⟨"worst", .counter⟩, ⟨"other", .counter⟩], 4), ([], 4)] ∧
    (World.initial.run exOps).map (fun r => r.1.objects.results.map fun s => (s.1.drop 9, s.2)) =
      some [([⟨"bad_frames", .counter⟩, ⟨"worst", .counter⟩], [1, 2, 3, 4, 5, 6, 7, 8, 9, 10, 11])] := by decide +kernel

/-! ## Chunk streams -/

/-- **C83 (chunk streams).** A chunk stream is refused exactly if the user has a statistic with one of the two names that it
needs.  Otherwise its two statistics come after those of the user: `too_old_heaps` at the index that the next `add_stat`
would have returned and `rejected_heaps` after it.  It does not accept heaps of unknown size; everything else is as
configured, and the user's configuration is as before. -/
theorem C83_chunk (self : Nat) (ops : List Op) (w : World) (as : List Answer) (h : World.initial.run ops = some (w, as))
    (c : RecvConfig) (hc : c ∈ w.configs) :
    (adjustConfig self w.vectors c = some none ↔
      ∃ x ∈ (w.value c).stats, x.name = "too_old_heaps" ∨ x.name = "rejected_heaps") ∧
    (∀ v c', adjustConfig self w.vectors c = some (some (v, c')) →
      World.value { w with vectors := v } c' =
        ⟨{ c.set with allowUnsized := false, allocator := self, memcpy := .user self },
          (w.value c).stats ++ [⟨"too_old_heaps", .counter⟩, ⟨"rejected_heaps", .counter⟩]⟩ ∧
      ∀ d ∈ w.configs, World.value { w with vectors := v } d = w.value d) ∧
    adjustConfig self w.vectors c ≠ none := by
  have wf := (run_spec ops WF.initial).2 _ h
  have hlt := wf.configs c hc
  obtain ⟨st, hst⟩ : ∃ st, w.vectors[c.stats]? = some st := ⟨_, List.getElem?_eq_getElem hlt⟩
  have hval : w.value c = ⟨c.set, st⟩ := by unfold World.value; rw [hst]; rfl
  rw [hval]
  have hcall1 : ∀ c1 : RecvConfig, c1.stats = c.stats → ∀ name mode, c1.call w.vectors (.addStat name mode) =
      (match addStat st name mode with
        | .error _ => some (w.vectors, c1, .invalid)
        | .ok (new, i) => some (w.vectors ++ [new], { c1 with stats := w.vectors.length }, .index i)) := by
    intro c1 e name mode
    show (match w.vectors[c1.stats]? with | none => none | some stats => _) = _
    rw [e, hst]
    rfl
  unfold adjustConfig
  rw [hcall1 { c with set := { c.set with allowUnsized := false, allocator := self, memcpy := .user self } } rfl]
  by_cases h1 : ∀ x ∈ st, x.name ≠ "too_old_heaps"
  · rw [addStat_ok h1]
    simp only
    have hcall2 : ∀ c1 : RecvConfig, c1.stats = w.vectors.length → ∀ name mode,
        c1.call (w.vectors ++ [st ++ [⟨"too_old_heaps", .counter⟩]]) (.addStat name mode) =
        (match addStat (st ++ [⟨"too_old_heaps", .counter⟩]) name mode with
          | .error _ => some (w.vectors ++ [st ++ [⟨"too_old_heaps", .counter⟩]], c1, .invalid)
          | .ok (new, i) => some (w.vectors ++ [st ++ [⟨"too_old_heaps", .counter⟩]] ++ [new],
              { c1 with stats := (w.vectors ++ [st ++ [(⟨"too_old_heaps", .counter⟩ : StatConfig)]]).length }, .index i)) := by
      intro c1 e name mode
      show (match (w.vectors ++ [st ++ [(⟨"too_old_heaps", .counter⟩ : StatConfig)]])[c1.stats]? with | none => none | some stats => _) = _
      rw [e, show (w.vectors ++ [st ++ [(⟨"too_old_heaps", .counter⟩ : StatConfig)]])[w.vectors.length]? =
        some (st ++ [⟨"too_old_heaps", .counter⟩]) by simp]
      rfl
    rw [hcall2 { set := { c.set with allowUnsized := false, allocator := self, memcpy := .user self }, stats := w.vectors.length } rfl]
    by_cases h2 : ∀ x ∈ st, x.name ≠ "rejected_heaps"
    · have h2' : ∀ x ∈ st ++ [(⟨"too_old_heaps", .counter⟩ : StatConfig)], x.name ≠ "rejected_heaps" := by
        intro x hx
        rcases List.mem_append.mp hx with hx | hx
        · exact h2 x hx
        · rw [List.mem_singleton.mp hx]; decide
      rw [addStat_ok h2']
      simp only
      refine ⟨⟨fun e => (by simp at e), ?_⟩, ?_, by simp⟩
      · rintro ⟨x, hx, e | e⟩
        · exact absurd e (h1 x hx)
        · exact absurd e (h2 x hx)
      · intro v c' e
        obtain ⟨rfl, rfl⟩ := Prod.mk.inj (Option.some.inj (Option.some.inj e))
        refine ⟨?_, ?_⟩
        · unfold World.value
          simp
        · intro d hd
          have := wf.configs d hd
          unfold World.value
          show (⟨d.set, ((w.vectors ++ _ ++ _)[d.stats]?).getD []⟩ : Value) = _
          rw [List.append_assoc, List.getElem?_append_left this]
    · have h2' : ¬ ∀ x ∈ st ++ [(⟨"too_old_heaps", .counter⟩ : StatConfig)], x.name ≠ "rejected_heaps" :=
        fun hh => h2 fun x hx => hh x (List.mem_append_left _ hx)
      rw [addStat_error h2']
      simp only
      refine ⟨⟨fun _ => ?_, fun _ => by trivial⟩, fun v c' e => by simp at e, by simp⟩
      by_contra hn
      exact h2 fun x hx e => hn ⟨x, hx, Or.inr e⟩
  · rw [addStat_error h1]
    simp only
    refine ⟨⟨fun _ => ?_, fun _ => by trivial⟩, fun v c' e => by simp at e, by simp⟩
    by_contra hn
    exact h1 fun x hx e => hn ⟨x, hx, Or.inl e⟩

example : (adjustConfig 5 World.initial.vectors RecvConfig.initial).map (fun r => r.map fun p => p.2.stats) = some (some 2) := by
  decide +kernel

/-! ## Other configurations -/

theorem history_induct {C S : Type} {call : C → S → Option C} {P : C → Prop}
    (h : ∀ c s c', P c → call c s = some c' → P c') : ∀ (ss : List S) (c : C), P c → P (history call c ss) := by
  intro ss
  induction ss with
  | nil => intro c hc; exact hc
  | cons s ss ih =>
    intro c hc
    refine ih _ ?_
    cases hs : call c s with
    | none => exact hc
    | some c' => exact h c s c' hc hs

/-- **C83 (sending).** After any calls, accepted or not, the rate is finite and not negative, the ratio is finite and at least
1, and there is room for a heap: the rate limiter accepts the configuration (C42), and a stream can be made unless it was
asked for more than 2^63 heaps. -/
theorem C83_send (ss : List SendSetter) :
    ∃ r q : Rat, (history SendConfig.call {} ss).rate = .fin r ∧ (history SendConfig.call {} ss).ratio = .fin q ∧
      0 ≤ r ∧ 1 ≤ q ∧ 0 < (history SendConfig.call {} ss).maxHeaps ∧
      (∀ (hz : Rat) (hw : Bool), RateConfig.make r (history SendConfig.call {} ss).burstSize q hz hw ≠ none) ∧
      (queueMask (history SendConfig.call {} ss).maxHeaps = none ↔ 2 ^ 63 < (history SendConfig.call {} ss).maxHeaps) := by
  have main : ∃ r q : Rat, (history SendConfig.call {} ss).rate = .fin r ∧ (history SendConfig.call {} ss).ratio = .fin q ∧
      0 ≤ r ∧ 1 ≤ q ∧ 0 < (history SendConfig.call {} ss).maxHeaps := by
    refine history_induct (P := fun c : SendConfig => ∃ r q : Rat, c.rate = .fin r ∧ c.ratio = .fin q ∧ 0 ≤ r ∧ 1 ≤ q ∧ 0 < c.maxHeaps)
      ?_ ss {} ⟨0, 21 / 20, rfl, rfl, by decide +kernel, by decide +kernel, by decide⟩
    rintro c s c' ⟨r, q, h1, h2, h3, h4, h5⟩ hs
    cases s with
    | maxPacketSize n => obtain rfl := Option.some.inj hs; exact ⟨r, q, h1, h2, h3, h4, h5⟩
    | rate x =>
      simp only [SendConfig.call] at hs
      split at hs
      · cases hs
      · next hx =>
        obtain rfl := Option.some.inj hs
        cases x with
        | nan => exact absurd (by rfl) hx
        | inf neg => exact absurd (by simp [Dbl.finite]) hx
        | fin y =>
          have hy : ¬ y < 0 := by simpa [Dbl.lt, Dbl.finite] using hx
          exact ⟨y, q, rfl, h2, Rat.not_lt.mp hy, h4, h5⟩
    | maxHeaps n =>
      simp only [SendConfig.call] at hs
      split at hs
      · cases hs
      · obtain rfl := Option.some.inj hs
        exact ⟨r, q, h1, h2, h3, h4, by show 0 < n; omega⟩
    | burstSize n => obtain rfl := Option.some.inj hs; exact ⟨r, q, h1, h2, h3, h4, h5⟩
    | ratio x =>
      simp only [SendConfig.call] at hs
      split at hs
      · cases hs
      · next hx =>
        obtain rfl := Option.some.inj hs
        cases x with
        | nan => exact absurd (by rfl) hx
        | inf neg => exact absurd (by simp [Dbl.finite]) hx
        | fin y =>
          have hy : ¬ y < 1 := by simpa [Dbl.lt, Dbl.finite] using hx
          exact ⟨r, y, h1, rfl, h3, Rat.not_lt.mp hy, h5⟩
    | method m => obtain rfl := Option.some.inj hs; exact ⟨r, q, h1, h2, h3, h4, h5⟩
  obtain ⟨r, q, h1, h2, h3, h4, h5⟩ := main
  refine ⟨r, q, h1, h2, h3, h4, h5, ?_, ?_⟩
  · intro hz hw
    unfold RateConfig.make
    rw [if_neg (Rat.not_lt.mpr h3), if_neg (Rat.not_lt.mpr h4)]
    simp
  · generalize (history SendConfig.call {} ss).maxHeaps = n at h5
    unfold queueMask
    rw [if_neg (by omega)]
    by_cases hn : 2 ^ 63 < n
    · simp [hn]
    · simp [hn]

theorem dbl_check (x : Dbl) (b : Rat) : (x.lt b || !x.finite) = false ↔ ∃ r : Rat, x = .fin r ∧ b ≤ r := by
  cases x with
  | nan => simp [Dbl.lt, Dbl.finite]
  | inf neg => simp [Dbl.lt, Dbl.finite]
  | fin y =>
    simp only [Dbl.lt, Dbl.finite, Bool.not_true, Bool.or_false, decide_eq_false_iff_not, Dbl.fin.injEq]
    constructor
    · intro h; exact ⟨y, rfl, Rat.not_lt.mp h⟩
    · rintro ⟨r, rfl, h⟩; exact Rat.not_lt.mpr h

/-- **C83 (sending, exact).** A call is accepted exactly if its argument is allowed, and then exactly its own field changes. -/
theorem C83_send_exact (c : SendConfig) (s : SendSetter) :
    ((c.call s).isSome ↔ SendAllowed s) ∧
    ∀ c', c.call s = some c' → c' = match s with
      | .maxPacketSize n => { c with maxPacketSize := n }
      | .rate x => { c with rate := x }
      | .maxHeaps n => { c with maxHeaps := n }
      | .burstSize n => { c with burstSize := n }
      | .ratio x => { c with ratio := x }
      | .method m => { c with method := m } := by
  cases s with
  | maxPacketSize n => exact ⟨by simp [SendConfig.call, SendAllowed], fun c' h => (Option.some.inj h).symm⟩
  | burstSize n => exact ⟨by simp [SendConfig.call, SendAllowed], fun c' h => (Option.some.inj h).symm⟩
  | method n => exact ⟨by simp [SendConfig.call, SendAllowed], fun c' h => (Option.some.inj h).symm⟩
  | maxHeaps n =>
    simp only [SendConfig.call, SendAllowed]
    by_cases h : n = 0
    · rw [if_pos h]
      exact ⟨by simp; omega, fun c' h => by cases h⟩
    · rw [if_neg h]
      exact ⟨by simp; omega, fun c' h => (Option.some.inj h).symm⟩
  | rate x =>
    simp only [SendConfig.call, SendAllowed]
    rw [← dbl_check x 0]
    cases hb : (x.lt 0 || !x.finite) with
    | true => exact ⟨by simp, fun c' h => by simp at h⟩
    | false => exact ⟨by simp, fun c' h => by simp only [Bool.false_eq_true, if_false] at h; exact (Option.some.inj h).symm⟩
  | ratio x =>
    simp only [SendConfig.call, SendAllowed]
    rw [← dbl_check x 1]
    cases hb : (x.lt 1 || !x.finite) with
    | true => exact ⟨by simp, fun c' h => by simp at h⟩
    | false => exact ⟨by simp, fun c' h => by simp only [Bool.false_eq_true, if_false] at h; exact (Option.some.inj h).symm⟩

example : SendConfig.call {} (.rate .nan) = none ∧ SendConfig.call {} (.rate (.inf false)) = none ∧
    (SendConfig.call {} (.rate (.fin (5 / 2)))).isSome := by decide +kernel

/-- **C83 (chunks, groups and rings).** After any calls there is room for a chunk in a chunk stream and in a group and for a
heap in a ring; packet presence is on exactly with the size of the last accepted call. -/
theorem C83_others (cs : List ChunkSetter) (gs : List GroupSetter) (rs : List RingSetter) :
    0 < (history ChunkCfg.call {} cs).maxChunks ∧ 0 < (history GroupCfg.call {} gs).maxChunks ∧
    0 < (history RingCfg.call {} rs).heaps ∧
    (∀ n, (history ChunkCfg.call {} (cs ++ [.enablePresence n])).presence =
      if n = 0 then (history ChunkCfg.call {} cs).presence else n) ∧
    (history ChunkCfg.call {} (cs ++ [.disablePresence])).presence = 0 := by
  have app : ∀ (cs : List ChunkSetter) (s : ChunkSetter) (c : ChunkCfg), history ChunkCfg.call c (cs ++ [s]) =
      ((history ChunkCfg.call c cs).call s).getD (history ChunkCfg.call c cs) := by
    intro cs s
    induction cs with
    | nil => intro c; rfl
    | cons x xs ih => intro c; exact ih _
  refine ⟨?_, ?_, ?_, ?_, ?_⟩
  · refine history_induct (P := fun c : ChunkCfg => 0 < c.maxChunks) ?_ cs {} (by decide)
    intro c s c' hc hs
    cases s with
    | maxChunks n =>
      simp only [ChunkCfg.call] at hs
      split at hs
      · cases hs
      · obtain rfl := Option.some.inj hs; show 0 < n; omega
    | enablePresence n =>
      simp only [ChunkCfg.call] at hs
      split at hs
      · cases hs
      · obtain rfl := Option.some.inj hs; exact hc
    | _ => obtain rfl := Option.some.inj hs; exact hc
  · refine history_induct (P := fun c : GroupCfg => 0 < c.maxChunks) ?_ gs {} (by decide)
    intro c s c' hc hs
    cases s with
    | maxChunks n =>
      simp only [GroupCfg.call] at hs
      split at hs
      · cases hs
      · obtain rfl := Option.some.inj hs; show 0 < n; omega
    | _ => obtain rfl := Option.some.inj hs; exact hc
  · refine history_induct (P := fun c : RingCfg => 0 < c.heaps) ?_ rs {} (by decide)
    intro c s c' hc hs
    cases s with
    | heaps n =>
      simp only [RingCfg.call] at hs
      split at hs
      · cases hs
      · obtain rfl := Option.some.inj hs; show 0 < n; omega
    | _ => obtain rfl := Option.some.inj hs; exact hc
  · intro n
    rw [app]
    by_cases h : n = 0
    · rw [if_pos h]; simp [ChunkCfg.call, h]
    · rw [if_neg h]; simp [ChunkCfg.call, h]
  · rw [app]; rfl

/-- **C83 (chunks, groups and rings, exact).** A call throws exactly for the sizes 0, and else it sets what it is named after and
nothing else; a chunk stream is made exactly from a configuration with all three callbacks. -/
theorem C83_others_exact (c : ChunkCfg) (g : GroupCfg) (r : RingCfg) :
    (∀ s c', c.call s = some c' ↔ match s with
      | .items l => c' = { c with items := l }
      | .maxChunks n => 0 < n ∧ c' = { c with maxChunks := n }
      | .place f => c' = { c with place := f }
      | .allocate f => c' = { c with allocate := f }
      | .ready f => c' = { c with ready := f }
      | .enablePresence n => 0 < n ∧ c' = { c with presence := n }
      | .disablePresence => c' = { c with presence := 0 }
      | .extra n => c' = { c with extra := n }) ∧
    (∀ s g', g.call s = some g' ↔ match s with
      | .maxChunks n => 0 < n ∧ g' = { g with maxChunks := n }
      | .lossless b => g' = { g with lossless := b }
      | .allocate f => g' = { g with allocate := f }
      | .ready f => g' = { g with ready := f }) ∧
    (∀ s r', r.call s = some r' ↔ match s with
      | .heaps n => 0 < n ∧ r' = { r with heaps := n }
      | .contiguousOnly b => r' = { r with contiguousOnly := b }) ∧
    (c.accepted = true ↔ ∃ p a f, c.place = some p ∧ c.allocate = some a ∧ c.ready = some f) := by
  have num : ∀ {α : Type} (n : Nat) (x y : α), (if n = 0 then none else some x) = some y ↔ 0 < n ∧ y = x := by
    intro α n x y
    by_cases h : n = 0
    · rw [if_pos h]
      exact ⟨fun h => (by cases h), fun h' => absurd h (by omega)⟩
    · rw [if_neg h]
      exact ⟨fun h' => ⟨by omega, (Option.some.inj h').symm⟩, fun h' => by rw [h'.2]⟩
  have one : ∀ {α : Type} (x y : α), some x = some y ↔ y = x :=
    fun x y => ⟨fun h => (Option.some.inj h).symm, fun h => by rw [h]⟩
  refine ⟨?_, ?_, ?_, ?_⟩
  · intro s c'
    cases s with
    | maxChunks n => exact num n _ _
    | enablePresence n => exact num n _ _
    | _ => exact one _ _
  · intro s c'
    cases s with
    | maxChunks n => exact num n _ _
    | _ => exact one _ _
  · intro s c'
    cases s with
    | heaps n => exact num n _ _
    | _ => exact one _ _
  · unfold ChunkCfg.accepted
    cases c.place <;> cases c.allocate <;> cases c.ready <;> simp

end Spead2.Cfg
