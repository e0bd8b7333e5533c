import Verif.Spec.Config
import Mathlib.Data.List.Nodup
import Mathlib.Data.List.Infix

/-!
# Lemmas about configurations
-/

namespace Spead2.Cfg

theorem statIndex_length_iff (stats : List StatConfig) (name : String) :
    statIndex stats name = stats.length ↔ ∀ c ∈ stats, c.name ≠ name := by
  induction stats with
  | nil => simp [statIndex]
  | cons c cs ih =>
    unfold statIndex
    by_cases h : c.name = name
    · simp [h]
    · rw [if_neg h]
      simp [h, ih]

theorem addStat_ok {stats : List StatConfig} {name : String} {mode : StatMode} (h : ∀ c ∈ stats, c.name ≠ name) :
    addStat stats name mode = .ok (stats ++ [⟨name, mode⟩], stats.length) := by
  unfold addStat
  rw [if_neg (not_not_intro ((statIndex_length_iff _ _).mpr h))]

theorem addStat_error {stats : List StatConfig} {name : String} {mode : StatMode} (h : ¬ ∀ c ∈ stats, c.name ≠ name) :
    addStat stats name mode = .error () := by
  unfold addStat
  rw [if_pos (fun e => h ((statIndex_length_iff _ _).mp e))]

/-- A call, on an object whose pointer is valid. -/
theorem call_spec {vectors : List (List StatConfig)} {c : RecvConfig} {st : List StatConfig}
    (h : vectors[c.stats]? = some st) (s : Setter) :
    if Allowed st s then
      ∃ ext c', c.call vectors s = some (vectors ++ ext, c', Value.answer ⟨c.set, st⟩ s) ∧
        (∃ st', (vectors ++ ext)[c'.stats]? = some st' ∧ (⟨c'.set, st'⟩ : Value) = Value.put ⟨c.set, st⟩ s)
    else c.call vectors s = some (vectors, c, .invalid) := by
  have keep : ∀ c' : RecvConfig, c'.stats = c.stats → (vectors ++ [])[c'.stats]? = some st := by
    intro c' e; rw [List.append_nil, e]; exact h
  have nil : vectors ++ [] = vectors := List.append_nil _
  cases s with
  | maxHeaps n =>
    have hcall : c.call vectors (.maxHeaps n) = if n = 0 then some (vectors, c, .invalid)
        else some (vectors, { c with set := { c.set with maxHeaps := n } }, .done) := rfl
    rw [hcall]
    by_cases hn : n = 0
    · rw [if_neg (by unfold Allowed; omega)]; simp [hn]
    · rw [if_pos (by unfold Allowed; omega)]
      exact ⟨[], { c with set := { c.set with maxHeaps := n } }, by rw [nil]; simp [hn, Value.answer], st, keep _ rfl, rfl⟩
  | substreams n =>
    have hcall : c.call vectors (.substreams n) = if n = 0 then some (vectors, c, .invalid)
        else some (vectors, { c with set := { c.set with substreams := n } }, .done) := rfl
    rw [hcall]
    by_cases hn : n = 0
    · rw [if_neg (by unfold Allowed; omega)]; simp [hn]
    · rw [if_pos (by unfold Allowed; omega)]
      exact ⟨[], { c with set := { c.set with substreams := n } }, by rw [nil]; simp [hn, Value.answer], st, keep _ rfl, rfl⟩
  | bugCompat m =>
    have hcall : c.call vectors (.bugCompat m) = if m >>> 3 ≠ 0 then some (vectors, c, .invalid)
        else some (vectors, { c with set := { c.set with bugCompat := m } }, .done) := rfl
    have e : m >>> 3 = m / 8 := by rw [Nat.shiftRight_eq_div_pow]
    rw [hcall, e]
    by_cases hn : m < 8
    · rw [if_pos (by unfold Allowed; omega)]
      refine ⟨[], { c with set := { c.set with bugCompat := m } }, ?_, st, keep _ rfl, rfl⟩
      rw [nil]
      have : m / 8 = 0 := by omega
      simp [this, Value.answer]
    · rw [if_neg (by unfold Allowed; omega)]
      have : m / 8 ≠ 0 := by omega
      simp [this]
  | allocator a =>
    rw [if_pos (by trivial)]
    exact ⟨[], { c with set := { c.set with allocator := a } }, by rw [nil]; rfl, st, keep _ rfl, rfl⟩
  | memcpyFunction f =>
    rw [if_pos (by trivial)]
    exact ⟨[], { c with set := { c.set with memcpy := .user f } }, by rw [nil]; rfl, st, keep _ rfl, rfl⟩
  | memcpyId i =>
    match i with
    | 0 =>
      rw [if_pos (by unfold Allowed; omega)]
      exact ⟨[], { c with set := { c.set with memcpy := .std } }, by rw [nil]; rfl, st, keep _ rfl, rfl⟩
    | 1 =>
      rw [if_pos (by unfold Allowed; omega)]
      exact ⟨[], { c with set := { c.set with memcpy := .nontemporal } }, by rw [nil]; rfl, st, keep _ rfl, rfl⟩
    | i + 2 =>
      rw [if_neg (by unfold Allowed; omega)]
      rfl
  | stopOnStopItem b =>
    rw [if_pos (by trivial)]
    exact ⟨[], { c with set := { c.set with stopOnStopItem := b } }, by rw [nil]; rfl, st, keep _ rfl, rfl⟩
  | allowUnsized b =>
    rw [if_pos (by trivial)]
    exact ⟨[], { c with set := { c.set with allowUnsized := b } }, by rw [nil]; rfl, st, keep _ rfl, rfl⟩
  | allowOoo b =>
    rw [if_pos (by trivial)]
    exact ⟨[], { c with set := { c.set with allowOoo := b } }, by rw [nil]; rfl, st, keep _ rfl, rfl⟩
  | streamId i =>
    rw [if_pos (by trivial)]
    exact ⟨[], { c with set := { c.set with streamId := i } }, by rw [nil]; rfl, st, keep _ rfl, rfl⟩
  | explicitStart b =>
    rw [if_pos (by trivial)]
    exact ⟨[], { c with set := { c.set with explicitStart := b } }, by rw [nil]; rfl, st, keep _ rfl, rfl⟩
  | addStat name mode =>
    by_cases ha : Allowed st (.addStat name mode)
    · rw [if_pos ha]
      refine ⟨[st ++ [⟨name, mode⟩]], { c with stats := vectors.length }, ?_, st ++ [⟨name, mode⟩], ?_, rfl⟩
      · unfold RecvConfig.call
        rw [h]
        show (match addStat st name mode with | .error _ => _ | .ok (new, i) => _) = _
        rw [addStat_ok ha]
        rfl
      · show (vectors ++ [st ++ [⟨name, mode⟩]])[vectors.length]? = _
        simp
    · rw [if_neg ha]
      unfold RecvConfig.call
      rw [h]
      show (match addStat st name mode with | .error _ => _ | .ok (new, i) => _) = _
      rw [addStat_error ha]

/-- All pointers are valid, and every stream has a counter for every statistic. -/
structure WF (w : World) : Prop where
  builtin : w.vectors[0]? = some defaultStats
  configs : ∀ c ∈ w.configs, c.stats < w.vectors.length
  streams : ∀ s ∈ w.streams, s.1.stats < w.vectors.length ∧ s.2.length = (w.value s.1).stats.length
  results : ∀ r ∈ w.results, r.config < w.vectors.length

theorem WF.initial : WF World.initial :=
  ⟨rfl, fun _ h => (List.not_mem_nil h).elim, fun _ h => (List.not_mem_nil h).elim, fun _ h => (List.not_mem_nil h).elim⟩

theorem value_grow {w : World} {ext : List (List StatConfig)} {cs : List RecvConfig} {c : RecvConfig}
    (h : c.stats < w.vectors.length) :
    World.value { w with vectors := w.vectors ++ ext, configs := cs } c = w.value c := by
  unfold World.value
  show (⟨c.set, ((w.vectors ++ ext)[c.stats]?).getD []⟩ : Value) = _
  rw [List.getElem?_append_left h]

/-- One step is one step on values. -/
theorem step_spec {w : World} (v : WF w) (op : Op) :
    (w.step op).map (fun r => (r.1.objects, r.2)) = w.objects.step op ∧
    ∀ r, w.step op = some r → WF r.1 := by
  cases op with
  | create =>
    refine ⟨?_, ?_⟩
    · show some (World.objects _, _) = some _
      unfold World.objects
      simp only [List.map_append, List.map_cons, List.map_nil]
      have : World.value { w with configs := w.configs ++ [RecvConfig.initial] } RecvConfig.initial = Value.initial := by
        unfold World.value
        show (⟨_, (w.vectors[0]?).getD []⟩ : Value) = _
        rw [v.builtin]
        rfl
      rw [this]
      rfl
    · intro r h
      obtain rfl := (Option.some.inj h).symm
      refine ⟨v.builtin, ?_, v.streams, v.results⟩
      intro c hc
      rcases List.mem_append.mp hc with hc | hc
      · exact v.configs c hc
      · rw [List.mem_singleton.mp hc]
        exact (List.getElem?_eq_some_iff.mp v.builtin).1
  | copy i =>
    simp only [World.step, Objects.step]
    have hm : w.objects.configs[i]? = (w.configs[i]?).map w.value := List.getElem?_map ..
    rw [hm]
    cases hc : w.configs[i]? with
    | none => exact ⟨rfl, fun r h => by cases h⟩
    | some c =>
      refine ⟨?_, ?_⟩
      · show some (World.objects _, _) = some _
        unfold World.objects
        simp only [List.map_append, List.map_cons, List.map_nil]
        rfl
      · intro r h
        obtain rfl := (Option.some.inj h).symm
        refine ⟨v.builtin, ?_, v.streams, v.results⟩
        intro c' hc'
        rcases List.mem_append.mp hc' with hc' | hc'
        · exact v.configs c' hc'
        · rw [List.mem_singleton.mp hc']
          exact v.configs c (List.mem_of_getElem? hc)
  | assign i j =>
    simp only [World.step, Objects.step]
    have hm : ∀ i, w.objects.configs[i]? = (w.configs[i]?).map w.value := fun i => List.getElem?_map ..
    rw [hm, hm]
    cases hi : w.configs[i]? with
    | none => exact ⟨rfl, fun r h => by cases h⟩
    | some ci =>
      cases hj : w.configs[j]? with
      | none => exact ⟨rfl, fun r h => by cases h⟩
      | some cj =>
        refine ⟨?_, ?_⟩
        · show some (World.objects _, _) = some _
          unfold World.objects
          simp only [List.map_set]
          rfl
        · intro r h
          obtain rfl := (Option.some.inj h).symm
          refine ⟨v.builtin, ?_, v.streams, v.results⟩
          intro c' hc'
          rcases List.mem_or_eq_of_mem_set hc' with hc' | hc'
          · exact v.configs c' hc'
          · rw [hc']; exact v.configs cj (List.mem_of_getElem? hj)
  | call i s =>
    simp only [World.step, Objects.step]
    have hm : w.objects.configs[i]? = (w.configs[i]?).map w.value := List.getElem?_map ..
    rw [hm]
    cases hc : w.configs[i]? with
    | none => exact ⟨rfl, fun r h => by cases h⟩
    | some c =>
      have hlt := v.configs c (List.mem_of_getElem? hc)
      obtain ⟨st, hst⟩ : ∃ st, w.vectors[c.stats]? = some st := ⟨_, List.getElem?_eq_getElem hlt⟩
      have hval : w.value c = ⟨c.set, st⟩ := by unfold World.value; rw [hst]; rfl
      have spec := call_spec hst s
      show Option.map _ (match c.call w.vectors s with | none => none | some (v, c', a) => _) = some (if Allowed (w.value c).stats s then _ else _) ∧ _
      rw [hval]
      show Option.map _ (match c.call w.vectors s with | none => none | some (v, c', a) => _) = some (if Allowed st s then _ else _) ∧
        ∀ r, (match c.call w.vectors s with | none => none | some (v, c', a) => _) = some r → _
      by_cases ha : Allowed st s
      · rw [if_pos ha] at spec ⊢
        obtain ⟨ext, c', he, st', hst', hput⟩ := spec
        rw [he]
        refine ⟨?_, ?_⟩
        · show some (World.objects _, _) = some _
          unfold World.objects
          simp only [List.map_set]
          have h1 : w.configs.map (World.value { w with vectors := w.vectors ++ ext, configs := w.configs.set i c' }) = w.configs.map w.value :=
            List.map_congr_left fun x hx => value_grow (v.configs x hx)
          have h2 : w.streams.map (fun s => (World.value { w with vectors := w.vectors ++ ext, configs := w.configs.set i c' } s.1, s.2)) =
              w.streams.map (fun s => (w.value s.1, s.2)) :=
            List.map_congr_left fun x hx => by rw [value_grow (v.streams x hx).1]
          have h3 : w.results.map (fun r => (((w.vectors ++ ext)[r.config]?).getD [], r.values)) =
              w.results.map (fun r => ((w.vectors[r.config]?).getD [], r.values)) :=
            List.map_congr_left fun x hx => by rw [List.getElem?_append_left (v.results x hx)]
          have h4 : World.value { w with vectors := w.vectors ++ ext, configs := w.configs.set i c' } c' = Value.put ⟨c.set, st⟩ s := by
            rw [← hput]
            unfold World.value
            show (⟨c'.set, ((w.vectors ++ ext)[c'.stats]?).getD []⟩ : Value) = _
            rw [hst']
            rfl
          simp only [h1, h2, h3, h4]
        · intro r h
          obtain rfl := (Option.some.inj h).symm
          refine ⟨?_, ?_, ?_, ?_⟩
          · show (w.vectors ++ ext)[0]? = _
            rw [List.getElem?_append_left (by omega)]
            exact v.builtin
          · intro x hx
            show x.stats < (w.vectors ++ ext).length
            rcases List.mem_or_eq_of_mem_set hx with hx | hx
            · have := v.configs x hx
              rw [List.length_append]; omega
            · rw [hx]; exact (List.getElem?_eq_some_iff.mp hst').1
          · intro x hx
            refine ⟨?_, ?_⟩
            · have := (v.streams x hx).1
              show x.1.stats < (w.vectors ++ ext).length
              rw [List.length_append]; omega
            · show _ = (World.value { w with vectors := w.vectors ++ ext, configs := w.configs.set i c' } x.1).stats.length
              rw [value_grow (v.streams x hx).1]
              exact (v.streams x hx).2
          · intro x hx
            have := v.results x hx
            show x.config < (w.vectors ++ ext).length
            rw [List.length_append]; omega
      · rw [if_neg ha] at spec ⊢
        rw [spec]
        have hset : w.configs.set i c = w.configs := by
          apply List.ext_getElem?
          intro k
          rw [List.getElem?_set]
          split
          · next hk => subst hk; split
                       · exact hc.symm
                       · next hk => exact absurd (List.getElem?_eq_some_iff.mp hc).1 hk
          · rfl
        show Option.map _ (some (({ w with vectors := w.vectors, configs := w.configs.set i c } : World), Answer.invalid)) = _ ∧
          ∀ r, some (({ w with vectors := w.vectors, configs := w.configs.set i c } : World), Answer.invalid) = some r → _
        rw [hset]
        exact ⟨rfl, fun r h => by obtain rfl := (Option.some.inj h).symm; exact v⟩
  | stream i =>
    simp only [World.step, Objects.step]
    have hm : w.objects.configs[i]? = (w.configs[i]?).map w.value := List.getElem?_map ..
    rw [hm]
    cases hc : w.configs[i]? with
    | none => exact ⟨rfl, fun r h => by cases h⟩
    | some c =>
      have hlt := v.configs c (List.mem_of_getElem? hc)
      obtain ⟨st, hst⟩ : ∃ st, w.vectors[c.stats]? = some st := ⟨_, List.getElem?_eq_getElem hlt⟩
      have hval : w.value c = ⟨c.set, st⟩ := by unfold World.value; rw [hst]; rfl
      show Option.map _ (match w.vectors[c.stats]? with | none => none | some st => _) = some _ ∧
        ∀ r, (match w.vectors[c.stats]? with | none => none | some st => _) = some r → _
      rw [hst]
      refine ⟨?_, ?_⟩
      · show some (World.objects _, _) = some _
        unfold World.objects
        simp only [List.map_append, List.map_cons, List.map_nil, hval]
        congr 4
        show [(w.value c, _)] = [_]
        rw [hval]
      · intro r h
        obtain rfl := (Option.some.inj h).symm
        refine ⟨v.builtin, v.configs, ?_, v.results⟩
        intro x hx
        rcases List.mem_append.mp hx with hx | hx
        · exact v.streams x hx
        · rw [List.mem_singleton.mp hx]
          refine ⟨hlt, ?_⟩
          show _ = (w.value c).stats.length
          rw [hval]
          exact List.length_replicate ..
  | count k values =>
    simp only [World.step, Objects.step]
    have hm : w.objects.streams[k]? = (w.streams[k]?).map fun s => (w.value s.1, s.2) := List.getElem?_map ..
    rw [hm]
    cases hk : w.streams[k]? with
    | none => exact ⟨rfl, fun r h => by cases h⟩
    | some s =>
      obtain ⟨c, old⟩ := s
      have hs := v.streams (c, old) (List.mem_of_getElem? hk)
      have hl : old.length = (w.value c).stats.length := hs.2
      show Option.map _ (if values.length = old.length then _ else none) = (if values.length = (w.value c).stats.length then _ else none) ∧
        ∀ r, (if values.length = old.length then _ else none) = some r → _
      rw [hl]
      by_cases h : values.length = (w.value c).stats.length
      · simp only [if_pos h]
        refine ⟨?_, ?_⟩
        · show some (World.objects _, _) = some _
          unfold World.objects
          simp only [List.map_set]
          rfl
        · intro r hr
          obtain rfl := (Option.some.inj hr).symm
          refine ⟨v.builtin, v.configs, ?_, v.results⟩
          intro x hx
          rcases List.mem_or_eq_of_mem_set hx with hx | hx
          · exact v.streams x hx
          · rw [hx]; exact ⟨hs.1, h⟩
      · simp only [if_neg h]
        exact ⟨rfl, fun r h => by cases h⟩
  | getStats k =>
    simp only [World.step, Objects.step]
    have hm : w.objects.streams[k]? = (w.streams[k]?).map fun s => (w.value s.1, s.2) := List.getElem?_map ..
    rw [hm]
    cases hk : w.streams[k]? with
    | none => exact ⟨rfl, fun r h => by cases h⟩
    | some s =>
      obtain ⟨c, vals⟩ := s
      refine ⟨?_, ?_⟩
      · show some (World.objects _, _) = some _
        unfold World.objects
        simp only [List.map_append, List.map_cons, List.map_nil]
        rfl
      · intro r h
        obtain rfl := (Option.some.inj h).symm
        refine ⟨v.builtin, v.configs, v.streams, ?_⟩
        intro x hx
        rcases List.mem_append.mp hx with hx | hx
        · exact v.results x hx
        · rw [List.mem_singleton.mp hx]
          exact (v.streams _ (List.mem_of_getElem? hk)).1

theorem run_spec (ops : List Op) {w : World} (v : WF w) :
    (w.run ops).map (fun r => (r.1.objects, r.2)) = w.objects.run ops ∧ ∀ r, w.run ops = some r → WF r.1 := by
  induction ops generalizing w with
  | nil => exact ⟨rfl, fun r h => by obtain rfl := (Option.some.inj h).symm; exact v⟩
  | cons op ops ih =>
    obtain ⟨h1, h2⟩ := step_spec v op
    unfold World.run Objects.run
    rw [← h1]
    cases hs : w.step op with
    | none => exact ⟨rfl, fun r h => by cases h⟩
    | some r =>
      obtain ⟨w', a⟩ := r
      obtain ⟨h3, h4⟩ := ih (h2 _ hs)
      simp only [Option.map_some]
      rw [← h3]
      cases hr : World.run w' ops with
      | none => exact ⟨rfl, fun r h => by simp [hr] at h⟩
      | some r =>
        obtain ⟨w'', as⟩ := r
        refine ⟨rfl, ?_⟩
        intro r h
        simp only [hr] at h
        obtain rfl := (Option.some.inj h).symm
        exact h4 (w'', as) hr

end Spead2.Cfg
