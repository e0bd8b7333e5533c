import Verif.Lemmas.PySyncSend

/-!
# C74: a receiver of delta heaps has what the sender has

A sender changes its item group and sends heaps from a `HeapGenerator`; the receiver updates its group
from each of them.
-/

namespace Spead2
open Spec

variable {D V R : Type}

/-- The full claim: after each heap with stale or all descriptors and values, the receiver has every
item of the sender, with its descriptor and value. -/
def C74_statement : Prop :=
  ∀ (D V R : Type) [DecidableEq D] (enc : D → V → R) (dec : D → R → Option V) (frequency : Option Nat)
    (ops : List (SyncOp D V)) (dm vm : SendMode), (∀ d v, dec d (enc d v) = some v) → (∀ op ∈ ops, op.Proper) →
    dm ≠ .none → vm ≠ .none →
    ∃ s, runSync enc dec (SyncState.start frequency) (ops ++ [.send dm vm]) = some s ∧ s.Mirrors

theorem runSync_append [DecidableEq D] (enc : D → V → R) (dec : D → R → Option V) :
    ∀ (a b : List (SyncOp D V)) (s : SyncState D V),
      runSync enc dec s (a ++ b) = (runSync enc dec s a).bind (fun s' => runSync enc dec s' b) := by
  intro a
  induction a with
  | nil => intro b s; rfl
  | cons op rest ih =>
    intro b s
    simp only [List.cons_append, runSync]
    cases op.run enc dec s with
    | none => rfl
    | some s' => exact ih b s'

theorem addItem_id [DecidableEq D] {g g' : PyGroup D V} {i : Option Nat} {n : String} {d : D} {v : Option V} {ret : Nat}
    (ha : g.addItem i n d v = some (g', ret)) (h6 : ∀ k, i = some k → 6 < k) :
    ∃ x : PyItemObj D V, 6 < x.id ∧ (g.alloc x).addObj g.fresh x = some g' := by
  refine ⟨⟨i.getD (autoId g.byId g.byId.length 0x1000), n, d, v, 1⟩, ?_, ?_⟩
  · cases i with
    | some k => exact h6 k rfl
    | none =>
      have := (autoId_fresh g.byId 0x1000).1
      show 6 < autoId g.byId g.byId.length 0x1000
      omega
  · simp only [PyGroup.addItem] at ha
    cases hg : (g.alloc ⟨i.getD (autoId g.byId g.byId.length 0x1000), n, d, v, 1⟩).addObj g.fresh
        ⟨i.getD (autoId g.byId g.byId.length 0x1000), n, d, v, 1⟩ with
    | none => rw [hg] at ha; cases ha
    | some g1 => rw [hg] at ha; cases ha; rfl

theorem sync_run [DecidableEq D] {enc : D → V → R} {dec : D → R → Option V} (hcodec : ∀ d v, dec d (enc d v) = some v)
    {strict : Prop} : ∀ (ops : List (SyncOp D V)) {used : Nat → Prop} {s : SyncState D V}, SyncInv strict used s →
    (∀ op ∈ ops, op.Proper) → (strict → NoReuse enc dec used s ops) →
    (strict ∨ (s.gen.frequency = none ∧ ∀ vm, SyncOp.send .all vm ∉ ops)) →
    ∃ s' used', runSync enc dec s ops = some s' ∧ SyncInv strict used' s' ∧ s'.gen.frequency = s.gen.frequency := by
  intro ops
  induction ops with
  | nil => intro used s h _ _ _; exact ⟨s, used, rfl, h, rfl⟩
  | cons op rest ih =>
    intro used s h hprop hre hmode
    have hp := hprop op List.mem_cons_self
    have step : ∃ s', op.run enc dec s = some s' ∧ SyncInv strict (fun j => used j ∨ s'.grp.getId j ≠ none) s' ∧
        s'.gen.frequency = s.gen.frequency := by
      cases op with
      | add i n d v =>
        obtain ⟨g', ha, _⟩ := addItem_ok h.grp i n d v
        obtain ⟨x, h6, hx⟩ := addItem_id ha (by intro k hk; subst hk; exact hp)
        have hrun : (SyncOp.add i n d v).run enc dec s = some { s with grp := g' } := by
          simp only [SyncOp.run, ha, Option.map_some]
        refine ⟨_, hrun, ?_, rfl⟩
        exact h.change (addNew_step h.grp h.ids h6 hx (fun st => (hre st _ hrun).1)) (fun i hi => Or.inl hi)
      | set o v =>
        exact ⟨_, rfl, h.change (setValue_step h.grp h.ids o v) (fun i hi => Or.inl hi), rfl⟩
      | bump o =>
        exact ⟨_, rfl, h.change (bump_step h.grp h.ids o) (fun i hi => Or.inl hi), rfl⟩
      | send dm vm =>
        obtain ⟨s', h1, h2, h3, h4, _⟩ := h.send hcodec (dm := dm) (vm := vm)
          (used' := fun j => used j ∨ s.grp.getId j ≠ none) (by
            rcases hmode with a | ⟨a, b⟩
            · exact Or.inl a
            · refine Or.inr ⟨a, ?_⟩
              rintro rfl
              exact b vm List.mem_cons_self) hp (fun i hi => Or.inl hi) (fun i hi => Or.inr hi)
        exact ⟨s', h1, by rw [h2]; exact h4, h3⟩
    obtain ⟨s1, h1, h2, h3⟩ := step
    obtain ⟨s', used', k1, k2, k3⟩ := ih h2 (fun op ho => hprop op (List.mem_cons_of_mem _ ho)) (fun st => (hre st s1 h1).2) (by
      rcases hmode with a | ⟨a, b⟩
      · exact Or.inl a
      · exact Or.inr ⟨by rw [h3]; exact a, fun vm hm => b vm (List.mem_cons_of_mem _ hm)⟩)
    refine ⟨s', used', ?_, k2, by rw [k3, h3]⟩
    rw [runSync, h1]; exact k1

/-- **C74.**  After each heap with stale or all descriptors and values, the receiver has every item of
the sender, with its name, descriptor and value, and nothing fails on either side.  Missing from the
full claim: an id that has left the sender's group comes back, and descriptors are sent for another
reason than that they are stale (`C74_violated`, `C74_all_violated`). -/
theorem C74_sync_partial [DecidableEq D] {enc : D → V → R} {dec : D → R → Option V} (hcodec : ∀ d v, dec d (enc d v) = some v)
    (frequency : Option Nat) {ops : List (SyncOp D V)} {dm vm : SendMode} (hprop : ∀ op ∈ ops, op.Proper)
    (hdm : dm ≠ .none) (hvm : vm ≠ .none)
    (hmode : NoReuse enc dec (fun _ => False) (SyncState.start frequency) ops ∨
      (frequency = none ∧ dm = .stale ∧ ∀ vm, SyncOp.send .all vm ∉ ops)) :
    ∃ s, runSync enc dec (SyncState.start frequency) (ops ++ [.send dm vm]) = some s ∧ s.Mirrors := by
  have key : ∀ strict : Prop, (strict → NoReuse enc dec (fun _ => False) (SyncState.start frequency) ops) →
      (strict ∨ (frequency = none ∧ dm = .stale ∧ ∀ vm, SyncOp.send .all vm ∉ ops)) →
      ∃ s, runSync enc dec (SyncState.start frequency) (ops ++ [.send dm vm]) = some s ∧ s.Mirrors := by
    intro strict h1 h2
    obtain ⟨s, used, k1, k2, k3⟩ := sync_run hcodec ops (SyncInv.start strict frequency) hprop h1 (by
      rcases h2 with a | ⟨a, _, c⟩
      · exact Or.inl a
      · exact Or.inr ⟨a, c⟩)
    obtain ⟨s', e1, _, _, _, e5⟩ := k2.send hcodec (dm := dm) (vm := vm) (used' := fun _ => True) (by
      rcases h2 with a | ⟨a, b, _⟩
      · exact Or.inl a
      · exact Or.inr ⟨by rw [k3]; exact a, by rw [b]; simp⟩) (fun e => absurd e hdm) (fun _ _ => trivial) (fun _ _ => trivial)
    refine ⟨s', ?_, e5 hdm hvm⟩
    rw [runSync_append, k1]
    simp only [Option.bind_some, runSync, e1]
  rcases hmode with h | h
  · exact key True (fun _ => h) (Or.inl trivial)
  · exact key False (fun e => e.elim) (Or.inr h)

/-! ## Fixed ids -/

theorem noReuse_fixed [DecidableEq D] {enc : D → V → R} {dec : D → R → Option V} {idOf : String → Nat} :
    ∀ (ops : List (SyncOp D V)) {used : Nat → Prop} {s : SyncState D V}, GroupOk s.grp →
    (∀ i o x, s.grp.getId i = some (o, x) → i = idOf x.name) → (∀ j, used j → s.grp.getId j ≠ none) →
    (∀ i n d v, SyncOp.add i n d v ∈ ops → i = some (idOf n)) → NoReuse enc dec used s ops := by
  intro ops
  induction ops with
  | nil => intro used s _ _ _ _; trivial
  | cons op rest ih =>
    intro used s hok hid hused hadd s' hr
    have step : GroupOk s'.grp ∧ (∀ i o x, s'.grp.getId i = some (o, x) → i = idOf x.name) ∧
        ∀ j, s.grp.getId j ≠ none → s'.grp.getId j ≠ none := by
      have hput : ∀ (o : Nat) (z y : PyItemObj D V), s.grp.objs o = some z → y.id = z.id → y.name = z.name →
          GroupOk (s.grp.put o y) ∧ (∀ i p x, (s.grp.put o y).getId i = some (p, x) → i = idOf x.name) ∧
            ∀ j, s.grp.getId j ≠ none → (s.grp.put o y).getId j ≠ none := by
        intro o z y hz e1 e2
        have hok' := hok.put hz e1 e2
        refine ⟨hok', ?_, ?_⟩
        · intro i p x hx
          obtain ⟨h1, h2⟩ := getId_some.mp hx
          change dictGet i s.grp.byId = some p at h1
          change (if p = o then some y else s.grp.objs p) = some x at h2
          by_cases hp : p = o
          · rw [if_pos hp] at h2
            cases h2
            rw [e2]
            exact hid i o z (getId_some.mpr ⟨hp ▸ h1, hz⟩)
          · rw [if_neg hp] at h2
            exact hid i p x (getId_some.mpr ⟨h1, h2⟩)
        · intro j hj hn
          exact hj ((getId_none hok).mpr ((getId_none hok').mp hn))
      cases op with
      | add i n d v =>
        have hi := hadd i n d v List.mem_cons_self
        subst hi
        simp only [SyncOp.run, PyGroup.addItem, Option.getD_some] at hr
        cases hg : (s.grp.alloc ⟨idOf n, n, d, v, 1⟩).addObj s.grp.fresh ⟨idOf n, n, d, v, 1⟩ with
        | none => rw [hg] at hr; cases hr
        | some g' =>
          rw [hg] at hr
          cases hr
          obtain ⟨hok', o, y, h1, h2, h3, h4, _⟩ := addNew_here hok hg
          have hkeep : ∀ j, j ≠ idOf n → g'.getId j = s.grp.getId j := by
            intro j hj
            refine (addNew_other hok hg hj).2 ?_
            intro o z hz e
            exact hj ((hid j o z hz).trans (by rw [e]))
          refine ⟨hok', ?_, ?_⟩
          · intro i p x hx
            change g'.getId i = some (p, x) at hx
            by_cases hj : i = idOf n
            · rw [hj] at hx ⊢
              rw [h1] at hx
              cases hx
              rw [h3]
            · rw [hkeep i hj] at hx
              exact hid i p x hx
          · intro j hj
            show g'.getId j ≠ none
            by_cases he : j = idOf n
            · rw [he, h1]; simp
            · rw [hkeep j he]; exact hj
      | set o v =>
        cases hr
        simp only [PyGroup.setValue]
        split
        · exact ⟨hok, hid, fun _ h => h⟩
        · next z hz => exact hput o z _ hz rfl rfl
      | bump o =>
        cases hr
        simp only [PyGroup.bump]
        split
        · exact ⟨hok, hid, fun _ h => h⟩
        · next z hz => exact hput o z _ hz rfl rfl
      | send dm vm =>
        simp only [SyncOp.run] at hr
        split at hr
        · cases hr; exact ⟨hok, hid, fun _ h => h⟩
        · cases hr
    obtain ⟨k1, k2, k3⟩ := step
    refine ⟨?_, ih k1 k2 ?_ (fun i n d v hm => hadd i n d v (List.mem_cons_of_mem _ hm))⟩
    · intro j _
      by_cases hu : used j
      · exact Or.inl (hused j hu)
      · exact Or.inr hu
    · intro j hj
      rcases hj with hj | hj
      · exact k3 j (hused j hj)
      · exact hj

/-- **C74, fixed ids.**  If the user always adds the same name under the same id, the receiver is
always up to date, whatever the frequency and the kinds of heaps. -/
theorem C74_fixed [DecidableEq D] {enc : D → V → R} {dec : D → R → Option V} (hcodec : ∀ d v, dec d (enc d v) = some v)
    (frequency : Option Nat) (idOf : String → Nat) {ops : List (SyncOp D V)} {dm vm : SendMode}
    (hprop : ∀ op ∈ ops, op.Proper) (hadd : ∀ i n d v, SyncOp.add i n d v ∈ ops → i = some (idOf n))
    (hdm : dm ≠ .none) (hvm : vm ≠ .none) :
    ∃ s, runSync enc dec (SyncState.start frequency) (ops ++ [.send dm vm]) = some s ∧ s.Mirrors :=
  C74_sync_partial hcodec frequency hprop hdm hvm
    (Or.inl (noReuse_fixed ops GroupOk.empty (by intro i o x h; cases h) (fun _ h => h.elim) hadd))

/-! ## Late receivers -/

/-- The sender's group has been filled through its calls. -/
theorem sender_ok [DecidableEq D] {enc : D → V → R} {dec : D → R → Option V} : ∀ (ops : List (SyncOp D V)) {s s' : SyncState D V},
    GroupOk s.grp → (∀ i o x, s.grp.getId i = some (o, x) → 6 < i) → (∀ op ∈ ops, op.Proper) →
    runSync enc dec s ops = some s' → GroupOk s'.grp ∧ ∀ i o x, s'.grp.getId i = some (o, x) → 6 < i := by
  intro ops
  induction ops with
  | nil => intro s s' h1 h2 _ h; cases h; exact ⟨h1, h2⟩
  | cons op rest ih =>
    intro s s' h1 h2 hprop h
    have hp := hprop op List.mem_cons_self
    rw [runSync] at h
    cases hr : op.run enc dec s with
    | none => rw [hr] at h; cases h
    | some s1 =>
      rw [hr] at h
      have step : GroupStep False (fun _ => True) s.grp s1.grp := by
        cases op with
        | add i n d v =>
          obtain ⟨g', ha, _⟩ := addItem_ok h1 i n d v
          obtain ⟨x, h6, hx⟩ := addItem_id ha (by intro k hk; subst hk; exact hp)
          simp only [SyncOp.run, ha, Option.map_some] at hr
          cases hr
          exact addNew_step h1 h2 h6 hx (fun e => e.elim)
        | set o v => cases hr; exact setValue_step h1 h2 o v
        | bump o => cases hr; exact bump_step h1 h2 o
        | send dm vm =>
          simp only [SyncOp.run] at hr
          split at hr
          · cases hr; exact same_step h1 h2
          · cases hr
      exact ih step.ok step.ids (fun op ho => hprop op (List.mem_cons_of_mem _ ho)) h

/-- **C74, late receivers.**  A heap with all descriptors and all values brings any receiver up to
date, whatever it has received before and whatever the generator has sent. -/
theorem C74_all [DecidableEq D] {enc : D → V → R} {dec : D → R → Option V} (hcodec : ∀ d v, dec d (enc d v) = some v)
    {frequency : Option Nat} {ops : List (SyncOp D V)} (hprop : ∀ op ∈ ops, op.Proper) {s : SyncState D V}
    (hs : runSync enc dec (SyncState.start frequency) ops = some s) {cs : List (GroupCall D V R)} {r : PyGroup D V}
    (hr : runCalls dec PyGroup.empty cs = some r) :
    ∃ s', (SyncOp.send .all .all).run enc dec { s with recv := r } = some s' ∧ s'.Mirrors := by
  obtain ⟨hg, h6⟩ := sender_ok ops GroupOk.empty (by intro i o x h; cases h) hprop hs
  have hrok : GroupOk r := by
    obtain ⟨r', k1, k2⟩ := calls_total dec cs GroupOk.empty
    rw [hr] at k1; cases k1; exact k2
  have hfate : ∀ (o : Nat) (x : PyItemObj D V), (s.gen.fate .all .all o x).1 = true ∧ (s.gen.fate .all .all o x).2.1 = x.value := by
    intro o x
    refine ⟨rfl, ?_⟩
    simp only [PyGen.fate, decideData]
    cases x.value with
    | none => rfl
    | some v => simp
  obtain ⟨r', h1, _, h3⟩ := send_core hcodec (q := s.gen) (dm := .all) (vm := .all) hg hrok h6
    (fun i o x _ _ => Or.inl (hfate o x).1)
  refine ⟨⟨s.grp, (s.gen.getHeap s.grp enc .all .all).1, r'⟩, ?_, ?_⟩
  · simp only [SyncOp.run, SyncState.heap, h1]
  · intro i o x hx
    change s.grp.getId i = some (o, x) at hx
    show r'.Shows i x.name x.rest x.value
    obtain ⟨v1, v2, _⟩ := h3 i o x hx
    have e := (hg.consistent.byId _ _ _ hx).1
    rw [e] at v1 v2
    cases hv : x.value with
    | none => exact v1 (Or.inl (hfate o x).1)
    | some v => exact v2 v (by rw [(hfate o x).2]; exact hv)

/-! ## Deltas -/

/-- All descriptors of the generator's items have been sent. -/
theorem gen_sent [DecidableEq D] {enc : D → V → R} {dec : D → R → Option V} : ∀ (ops : List (SyncOp D V)) {s s' : SyncState D V},
    GroupOk s.grp → (∀ i inf, s.gen.info i = some inf → ∃ c, inf.descriptorCnt = some c ∧ c < s.gen.cnt) →
    (∀ vm, SyncOp.send .none vm ∉ ops) → runSync enc dec s ops = some s' →
    GroupOk s'.grp ∧ s'.gen.frequency = s.gen.frequency ∧
      ∀ i inf, s'.gen.info i = some inf → ∃ c, inf.descriptorCnt = some c ∧ c < s'.gen.cnt := by
  intro ops
  induction ops with
  | nil => intro s s' h1 h2 _ h; cases h; exact ⟨h1, rfl, h2⟩
  | cons op rest ih =>
    intro s s' h1 h2 hn h
    rw [runSync] at h
    cases hr : op.run enc dec s with
    | none => rw [hr] at h; cases h
    | some s1 =>
      rw [hr] at h
      have step : GroupOk s1.grp ∧ s1.gen.frequency = s.gen.frequency ∧
          ∀ i inf, s1.gen.info i = some inf → ∃ c, inf.descriptorCnt = some c ∧ c < s1.gen.cnt := by
        cases op with
        | add i n d v =>
          obtain ⟨g', ha, hok⟩ := addItem_ok h1 i n d v
          simp only [SyncOp.run, ha, Option.map_some] at hr
          cases hr
          exact ⟨hok, rfl, h2⟩
        | set o v => cases hr; exact ⟨h1.setValue o v, rfl, h2⟩
        | bump o => cases hr; exact ⟨h1.bump o, rfl, h2⟩
        | send dm vm =>
          have hdm : dm ≠ .none := fun e => hn vm (e ▸ List.mem_cons_self)
          simp only [SyncOp.run] at hr
          split at hr
          · cases hr
            obtain ⟨g1, g2, g3, g4, _⟩ := getHeap_gen h1 s.gen enc dm vm
            refine ⟨h1, g1, ?_⟩
            intro i inf hi
            change (s.gen.getHeap s.grp enc dm vm).1.info i = some inf at hi
            show ∃ c, _ ∧ c < (s.gen.getHeap s.grp enc dm vm).1.cnt
            rw [g2]
            cases hx : s.grp.getId i with
            | none =>
              rw [g3 i hx] at hi
              obtain ⟨c, k1, k2⟩ := h2 i inf hi
              exact ⟨c, k1, by omega⟩
            | some p =>
              obtain ⟨o, x⟩ := p
              rw [g4 i o x hx] at hi
              cases hi
              have e := (decideData_facts vm x (s.gen.decideDesc dm o (s.gen.getInfo x.id o)).2).cnt
              show ∃ c, (decideData vm x (s.gen.decideDesc dm o (s.gen.getInfo x.id o)).2).2.descriptorCnt = some c ∧ _
              rw [e]
              -- the descriptor is sent now, or was before
              have hx' : x.id = i := (h1.consistent.byId _ _ _ hx).1
              have hold : ∀ c, (s.gen.getInfo x.id o).descriptorCnt = some c → c < s.gen.cnt := by
                intro c hc
                rw [PyGen.getInfo] at hc
                cases hi : s.gen.info x.id with
                | none => rw [hi] at hc; cases hc
                | some inf =>
                  rw [hi] at hc
                  obtain ⟨c', k1, k2⟩ := h2 x.id inf hi
                  simp only [Option.getD_some, k1, Option.some.injEq] at hc
                  omega
              have hne := (decideDesc_facts s.gen dm o (s.gen.getInfo x.id o)).cnt hdm
              obtain ⟨c, hc⟩ := Option.ne_none_iff_exists'.mp hne
              refine ⟨c, hc, ?_⟩
              cases dm with
              | none => exact absurd rfl hdm
              | all =>
                simp only [PyGen.decideDesc, Option.some.injEq] at hc
                omega
              | stale =>
                simp only [PyGen.decideDesc] at hc
                split at hc
                · simp only [Option.some.injEq] at hc
                  omega
                · next hb =>
                  have : (s.gen.descriptorStale o (s.gen.getInfo x.id o)).2 = s.gen.getInfo x.id o := by
                    simp only [PyGen.descriptorStale] at hb ⊢
                    split at hb
                    · exact absurd rfl hb
                    · split at hb
                      · exact absurd rfl hb
                      · split at hb
                        · exact absurd rfl hb
                        · next h1 h2 => rw [if_neg h1, if_neg h2]
                  rw [this] at hc
                  have := hold c hc
                  omega
          · cases hr
      obtain ⟨k1, k2, k3⟩ := step
      obtain ⟨e1, e2, e3⟩ := ih k1 k3 (fun vm hm => hn vm (List.mem_cons_of_mem _ hm)) h
      exact ⟨e1, by rw [e2, k2], e3⟩

/-- **C74, deltas.**  Without a descriptor frequency, a heap that is generated when nothing has changed
since the last one is empty. -/
theorem C74_delta [DecidableEq D] {enc : D → V → R} {dec : D → R → Option V} {ops : List (SyncOp D V)}
    (hn : ∀ vm, SyncOp.send .none vm ∉ ops) {s s' : SyncState D V}
    (hs : runSync enc dec (SyncState.start none) ops = some s) {vm : SendMode} (hvm : vm ≠ .none)
    (hs' : (SyncOp.send .stale vm).run enc dec s = some s') : s'.heap enc .stale .stale = ⟨[], []⟩ := by
  obtain ⟨hok, hf, hsent⟩ := gen_sent ops GroupOk.empty (by intro i inf h; cases h) hn hs
  simp only [SyncOp.run] at hs'
  split at hs'
  · next r _ =>
    cases hs'
    obtain ⟨g1, g2, g3, g4, _⟩ := getHeap_gen hok s.gen enc .stale vm
    have hfate : ∀ i o x, s.grp.getId i = some (o, x) →
        ((s.gen.getHeap s.grp enc .stale vm).1.fate .stale .stale o x).1 = false ∧
          ((s.gen.getHeap s.grp enc .stale vm).1.fate .stale .stale o x).2.1 = none := by
      intro i o x hx
      have hid : x.id = i := (hok.consistent.byId _ _ _ hx).1
      have hinfo : (s.gen.getHeap s.grp enc .stale vm).1.getInfo x.id o = (s.gen.fate .stale vm o x).2.2 := by
        rw [PyGen.getInfo, hid, g4 i o x hx]; rfl
      have fd := decideDesc_facts s.gen .stale o (s.gen.getInfo x.id o)
      have fv := decideData_facts vm x (s.gen.decideDesc .stale o (s.gen.getInfo x.id o)).2
      have hfn : s.gen.frequency = none := hf
      -- the information now is about this object
      have hitem : (s.gen.fate .stale vm o x).2.2.item = o := by
        show (decideData vm x (s.gen.decideDesc .stale o (s.gen.getInfo x.id o)).2).2.item = o
        rw [fv.item]
        cases hi : s.gen.info x.id with
        | none =>
          rcases fd.info with ⟨_, b⟩ | ⟨_, b⟩
          · rw [b, PyGen.getInfo, hi]; rfl
          · exact b
        | some inf =>
          obtain ⟨c, hc, _⟩ := hsent _ _ hi
          have hgi : s.gen.getInfo x.id o = inf := by rw [PyGen.getInfo, hi]; rfl
          rw [hgi]
          simp only [PyGen.decideDesc, PyGen.descriptorStale, hc, PyGen.due, hfn]
          by_cases he : inf.item = o
          · simp [he]
          · simp [he]
      have hcnt : (s.gen.fate .stale vm o x).2.2.descriptorCnt ≠ none := by
        show (decideData vm x (s.gen.decideDesc .stale o (s.gen.getInfo x.id o)).2).2.descriptorCnt ≠ none
        rw [fv.cnt]; exact fd.cnt (by simp)
      have hver : x.value ≠ none → (s.gen.fate .stale vm o x).2.2.version = some x.version := by
        intro hv
        show (decideData vm x (s.gen.decideDesc .stale o (s.gen.getInfo x.id o)).2).2.version = _
        cases hsv : (decideData vm x (s.gen.decideDesc .stale o (s.gen.getInfo x.id o)).2).1 with
        | some v => exact (fv.sent v hsv).2
        | none => rw [fv.kept hsv]; exact fv.skip hvm hv hsv
      have hdue : ∀ c, (s.gen.getHeap s.grp enc .stale vm).1.due c = false := by
        intro c; simp [PyGen.due, g1, hfn]
      obtain ⟨c, hc⟩ := Option.ne_none_iff_exists'.mp hcnt
      have hstale : (s.gen.getHeap s.grp enc .stale vm).1.descriptorStale o (s.gen.fate .stale vm o x).2.2 =
          (false, (s.gen.fate .stale vm o x).2.2) := by
        simp [PyGen.descriptorStale, hc, hdue, hitem]
      constructor
      · simp only [PyGen.fate, PyGen.decideDesc]
        rw [hinfo, hstale]
      · simp only [PyGen.fate, PyGen.decideDesc]
        rw [hinfo, hstale]
        simp only [decideData]
        cases hv : x.value with
        | none => rfl
        | some v => simp [hver (by rw [hv]; simp)]
    obtain ⟨_, _, _, _, d5, d6, _⟩ := getHeap_gen hok (s.gen.getHeap s.grp enc .stale vm).1 enc .stale .stale
    show ((s.gen.getHeap s.grp enc .stale vm).1.getHeap s.grp enc .stale .stale).2 = _
    have e1 : ((s.gen.getHeap s.grp enc .stale vm).1.getHeap s.grp enc .stale .stale).2.descs = [] := by
      apply List.eq_nil_iff_forall_not_mem.mpr
      intro p hp
      obtain ⟨i, o, x, hx, hb, _⟩ := (d5 p).mp hp
      rw [(hfate i o x hx).1] at hb; cases hb
    have e2 : ((s.gen.getHeap s.grp enc .stale vm).1.getHeap s.grp enc .stale .stale).2.items = [] := by
      apply List.eq_nil_iff_forall_not_mem.mpr
      intro p hp
      obtain ⟨i, o, x, v, hx, hb, _⟩ := (d6 p).mp hp
      rw [(hfate i o x hx).2] at hb; cases hb
    cases hh : ((s.gen.getHeap s.grp enc .stale vm).1.getHeap s.grp enc .stale .stale).2 with
    | mk a b =>
      rw [hh] at e1 e2
      simp only [] at e1 e2
      rw [e1, e2]
  · cases hs'

/-! ## Repeated descriptors -/

theorem not_stale {q : PyGen} {o : Nat} {inf : PyItemInfo} (h : (q.decideDesc .stale o inf).1 = false) :
    ∃ c, inf.descriptorCnt = some c ∧ q.due c = false ∧ (q.decideDesc .stale o inf).2 = inf := by
  obtain ⟨ver, c, it⟩ := inf
  cases c with
  | none => cases h
  | some c =>
    by_cases hd : q.due c = true
    · simp [PyGen.decideDesc, PyGen.descriptorStale, hd] at h
    · by_cases he : it = o
      · exact ⟨c, rfl, by simpa using hd, by simp [PyGen.decideDesc, PyGen.descriptorStale, hd, he]⟩
      · simp [PyGen.decideDesc, PyGen.descriptorStale, hd, he] at h

theorem missing_bound [DecidableEq D] {enc : D → V → R} {dec : D → R → Option V} {f i : Nat} :
    ∀ (later : List (SyncOp D V)) {s s' : SyncState D V}, GroupOk s.grp → s.gen.frequency = some f →
    (∀ i inf, s.gen.info i = some inf → ∃ c, inf.descriptorCnt = some c ∧ c < s.gen.cnt) →
    (∀ dm vm, SyncOp.send dm vm ∈ later → dm = .stale) → runSync enc dec s later = some s' →
    (∀ p ∈ sentHeaps enc dec s later, p.1.grp.getId i ≠ none ∧ ∀ n d, (i, n, d) ∉ p.2.descs) →
    (sentHeaps enc dec s later).length = 0 ∨
      ∃ inf c, s.gen.info i = some inf ∧ inf.descriptorCnt = some c ∧
        (sentHeaps enc dec s later).length + (s.gen.cnt - c) ≤ f := by
  intro later
  induction later with
  | nil => intro s s' _ _ _ _ _ _; exact Or.inl rfl
  | cons op rest ih =>
    intro s s' hok hf hsent hst h hm
    rw [runSync] at h
    cases hr : op.run enc dec s with
    | none => rw [hr] at h; cases h
    | some s1 =>
      rw [hr] at h
      simp only [] at h
      have hone : runSync enc dec s [op] = some s1 := by rw [runSync, hr]; rfl
      have hnn : ∀ vm, SyncOp.send .none vm ∉ [op] := by
        intro vm hv
        have := hst _ _ (show SyncOp.send .none vm ∈ op :: rest by
          rw [List.mem_singleton] at hv; rw [hv]; exact List.mem_cons_self)
        cases this
      obtain ⟨k1, k2, k3⟩ := gen_sent [op] hok hsent hnn hone
      have hst' : ∀ dm vm, SyncOp.send dm vm ∈ rest → dm = .stale := fun dm vm hv => hst dm vm (List.mem_cons_of_mem _ hv)
      have hquiet : (∀ dm vm, op ≠ .send dm vm) → s1.gen = s.gen ∧ sentHeaps enc dec s (op :: rest) = sentHeaps enc dec s1 rest := by
        intro hne
        cases op with
        | send dm vm => exact absurd rfl (hne dm vm)
        | add i n d v =>
          refine ⟨?_, by simp [sentHeaps, hr]⟩
          simp only [SyncOp.run] at hr
          cases ha : s.grp.addItem i n d v with
          | none => rw [ha] at hr; cases hr
          | some p => rw [ha] at hr; cases hr; rfl
        | set o v => exact ⟨by cases hr; rfl, by simp [sentHeaps, hr]⟩
        | bump o => exact ⟨by cases hr; rfl, by simp [sentHeaps, hr]⟩
      by_cases hne : ∀ dm vm, op ≠ .send dm vm
      · obtain ⟨e1, e2⟩ := hquiet hne
        rw [e2] at hm ⊢
        have := ih k1 (by rw [k2]; exact hf) k3 hst' h hm
        rwa [e1] at this
      · have : ∃ dm vm, op = .send dm vm := by
          cases op with
          | send dm vm => exact ⟨dm, vm, rfl⟩
          | add i n d v => exact absurd (by intro dm vm e; cases e) hne
          | set o v => exact absurd (by intro dm vm e; cases e) hne
          | bump o => exact absurd (by intro dm vm e; cases e) hne
        obtain ⟨dm, vm, rfl⟩ := this
        have hdm := hst dm vm List.mem_cons_self
        subst hdm
        have hsh : sentHeaps enc dec s (.send .stale vm :: rest) = (s, s.heap enc .stale vm) :: sentHeaps enc dec s1 rest := by
          simp [sentHeaps, hr]
        rw [hsh] at hm ⊢
        obtain ⟨m1, m2⟩ := hm _ List.mem_cons_self
        obtain ⟨⟨o, x⟩, hx⟩ := Option.ne_none_iff_exists'.mp m1
        simp only [] at hx m2
        have hid : x.id = i := (hok.consistent.byId _ _ _ hx).1
        obtain ⟨g1, g2, g3, g4, g5, _⟩ := getHeap_gen hok s.gen enc .stale vm
        have hno : (s.gen.fate .stale vm o x).1 = false := by
          cases hb : (s.gen.fate .stale vm o x).1 with
          | false => rfl
          | true => exact absurd ((g5 (i, x.name, x.rest)).mpr ⟨i, o, x, hx, hb, by rw [hid]⟩) (m2 _ _)
        obtain ⟨c, c1, c2, c3⟩ := not_stale hno
        have hgen : s1.gen = (s.gen.getHeap s.grp enc .stale vm).1 := by
          simp only [SyncOp.run] at hr
          split at hr
          · cases hr; rfl
          · cases hr
        have hinf : ∃ inf, s.gen.info i = some inf ∧ inf.descriptorCnt = some c := by
          rw [PyGen.getInfo, hid] at c1
          cases hi : s.gen.info i with
          | none => rw [hi] at c1; cases c1
          | some inf => rw [hi] at c1; exact ⟨inf, rfl, c1⟩
        obtain ⟨inf, i1, i2⟩ := hinf
        have hlt : c < s.gen.cnt := by
          obtain ⟨c', j1, j2⟩ := hsent i inf i1
          rw [i2] at j1; cases j1; exact j2
        have hdue : s.gen.cnt - c < f := by
          simp only [PyGen.due, hf, decide_eq_false_iff_not] at c2
          omega
        right
        refine ⟨inf, c, i1, i2, ?_⟩
        have hnext : ∀ inf', s1.gen.info i = some inf' → inf'.descriptorCnt = some c := by
          intro inf' hi'
          rw [hgen, g4 i o x hx] at hi'
          cases hi'
          show (decideData vm x (s.gen.decideDesc .stale o (s.gen.getInfo x.id o)).2).2.descriptorCnt = some c
          rw [(decideData_facts vm x _).cnt, c3]; exact c1
        rcases ih k1 (by rw [k2]; exact hf) k3 hst' h (fun p hp => hm p (List.mem_cons_of_mem _ hp)) with e | ⟨inf', c', e1, e2, e3⟩
        · rw [List.length_cons, e]; omega
        · rw [hnext inf' e1] at e2
          cases e2
          rw [hgen, g2] at e3
          rw [List.length_cons]; omega

/-- **C74, descriptor frequency.**  With a descriptor frequency of `f`, any `f` consecutive heaps with
stale descriptors contain the descriptor of every item that is in the group throughout. -/
theorem C74_frequency [DecidableEq D] {enc : D → V → R} {dec : D → R → Option V} {f : Nat} (hf : 0 < f)
    {ops later : List (SyncOp D V)} (hn : ∀ vm, SyncOp.send .none vm ∉ ops) {s s' : SyncState D V}
    (hs : runSync enc dec (SyncState.start (some f)) ops = some s) (hl : runSync enc dec s later = some s')
    (hst : ∀ dm vm, SyncOp.send dm vm ∈ later → dm = .stale) (hlen : f ≤ (sentHeaps enc dec s later).length) {i : Nat}
    (hin : ∀ p ∈ sentHeaps enc dec s later, p.1.grp.getId i ≠ none) :
    ∃ p ∈ sentHeaps enc dec s later, ∃ n d, (i, n, d) ∈ p.2.descs := by
  obtain ⟨hok, hfr, hsent⟩ := gen_sent ops GroupOk.empty (by intro i inf h; cases h) hn hs
  apply Classical.byContradiction
  intro hno
  rcases missing_bound (f := f) (i := i) later hok hfr hsent hst hl (by
    intro p hp
    exact ⟨hin p hp, fun n d hd => hno ⟨p, hp, n, d, hd⟩⟩) with e | ⟨inf, c, e1, e2, e3⟩
  · omega
  · obtain ⟨c', j1, j2⟩ := hsent i inf e1
    rw [e2] at j1; cases j1
    omega

/-! ## Where it does not hold -/

/-- Item 7 is sent as `x`, loses its name to item 8, and comes back as `y` with another value. -/
def comeback : List (SyncOp Nat Nat) :=
  [.add (some 7) "x" 0 (some 1), .send .stale .stale, .add (some 8) "x" 0 none, .add (some 7) "y" 0 (some 2)]

/-- What the receiver has under an id. -/
def received (s : SyncState Nat Nat) (i : Nat) : Option (String × Option Nat) :=
  (s.recv.getId i).map (fun p => (p.2.name, p.2.value))

/-- With a descriptor frequency of 1, the new value is not sent: the new item has the version that was
sent of the old one, and its descriptor is sent because it is due, so that nobody sees that the item
was replaced. -/
theorem C74_comeback : ∃ s : SyncState Nat Nat, runSync (fun _ v => v) (fun _ r => some r) (SyncState.start (some 1))
      (comeback ++ [.send .stale .stale, .send .stale .stale, .send .stale .stale]) = some s ∧
    s.grp.getId 7 = some (2, ⟨7, "y", 0, some 2, 1⟩) ∧ received s 7 = some ("y", none) := by
  refine ⟨_, rfl, ?_, ?_⟩ <;> decide +kernel

theorem receiver_ok [DecidableEq D] {enc : D → V → R} {dec : D → R → Option V} : ∀ (ops : List (SyncOp D V)) {s s' : SyncState D V},
    GroupOk s.recv → runSync enc dec s ops = some s' → GroupOk s'.recv := by
  intro ops
  induction ops with
  | nil => intro s s' h1 h; cases h; exact h1
  | cons op rest ih =>
    intro s s' h1 h
    rw [runSync] at h
    cases hr : op.run enc dec s with
    | none => rw [hr] at h; cases h
    | some s1 =>
      rw [hr] at h
      refine ih ?_ h
      cases op with
      | add i n d v =>
        simp only [SyncOp.run] at hr
        cases ha : s.grp.addItem i n d v with
        | none => rw [ha] at hr; cases hr
        | some p => rw [ha] at hr; cases hr; exact h1
      | set o v => cases hr; exact h1
      | bump o => cases hr; exact h1
      | send dm vm =>
        obtain ⟨p, k1, k2⟩ := update_total dec h1 (s.heap enc dm vm)
        simp only [SyncOp.run, k1] at hr
        split at hr
        · next e => cases hr; cases e; exact k2
        · cases hr

theorem descs_same [DecidableEq D] : ∀ (ds : List (Nat × String × D)) {g g' : PyGroup D V}, GroupOk g →
    g.updateDescs ds = some g' → ∀ {j o : Nat} {y : PyItemObj D V}, (∀ p ∈ ds, Agrees j y.name y.rest p) →
    g.getId j = some (o, y) → g'.getId j = some (o, y) := by
  intro ds
  induction ds with
  | nil => intro g g' _ h j o y _ hs; cases h; exact hs
  | cons p rest ih =>
    obtain ⟨i, n, d⟩ := p
    intro g g' hok h j o y ha hs
    simp only [PyGroup.updateDescs] at h
    split at h
    · cases h
    · next g1 h1 =>
      have ha1 := ha _ List.mem_cons_self
      refine ih (addNew_here hok h1).1 h (fun p hp => ha p (List.mem_cons_of_mem _ hp)) ?_
      by_cases hj : i = j
      · subst hj
        obtain ⟨e1, e2⟩ := ha1.1 rfl
        simp only [] at e1 e2
        obtain ⟨_, o', y', k1, _, _, _, k5⟩ := addNew_here hok h1
        rcases k5 with ⟨_, _, _, hno⟩ | ⟨z, hz, _, _, hy⟩
        · exact absurd ⟨e1.symm, e2.symm⟩ (hno o y hs)
        · simp only [] at hz hy k1
          rw [hs] at hz
          cases hz
          subst hy
          exact k1
      · rw [(addNew_other hok h1 (Ne.symm hj)).2 ?_]
        · exact hs
        · intro o' y' hy'
          rw [hs] at hy'; cases hy'
          exact (ha1.2 hj).symm

/-- … however many heaps follow. -/
theorem C74_never (n : Nat) : ∃ s : SyncState Nat Nat, runSync (fun _ v => v) (fun _ r => some r) (SyncState.start (some 1))
      (comeback ++ List.replicate (n + 1) (.send .stale .stale)) = some s ∧
    s.grp.getId 7 = some (2, ⟨7, "y", 0, some 2, 1⟩) ∧ received s 7 = some ("y", none) := by
  -- what stays the same from the first of these heaps on
  let Q : SyncState Nat Nat → Prop := fun s =>
    GroupOk s.grp ∧ (∀ i o x, s.grp.getId i = some (o, x) →
      (o = 2 ∧ x = ⟨7, "y", 0, some 2, 1⟩) ∨ (x.id = 8 ∧ x.name = "x" ∧ x.value = none)) ∧
    s.grp.getId 7 = some (2, ⟨7, "y", 0, some 2, 1⟩) ∧ s.gen.frequency = some 1 ∧
    (∃ c, s.gen.info 7 = some ⟨some 1, some c, 0⟩ ∧ c < s.gen.cnt) ∧ GroupOk s.recv ∧
    ∃ o k, s.recv.getId 7 = some (o, ⟨7, "y", 0, none, k⟩)
  have hstep : ∀ s, Q s → ∃ s', (SyncOp.send .stale .stale).run (fun _ v => v) (fun _ r => some r) s = some s' ∧ Q s' := by
    rintro s ⟨q1, q2, q3, q4, ⟨c, q5, q6⟩, q7, o, k, q8⟩
    obtain ⟨g1, g2, g3, g4, g5, g6, _⟩ := getHeap_gen q1 s.gen (fun (_ : Nat) (v : Nat) => v) .stale .stale
    have hinfo : s.gen.getInfo 7 2 = ⟨some 1, some c, 0⟩ := by rw [PyGen.getInfo, q5]; rfl
    have hdue : s.gen.due c = true := by
      simp only [PyGen.due, q4, decide_eq_true_eq]; omega
    have hfate : s.gen.fate .stale .stale 2 (⟨7, "y", 0, some 2, 1⟩ : PyItemObj Nat Nat) =
        (true, none, ⟨some 1, some s.gen.cnt, 0⟩) := by
      simp [PyGen.fate, hinfo, PyGen.decideDesc, PyGen.descriptorStale, hdue, decideData]
    have hitems : (s.gen.getHeap s.grp (fun _ v => v) .stale .stale).2.items = [] := by
      apply List.eq_nil_iff_forall_not_mem.mpr
      intro p hp
      obtain ⟨i, o, x, v, hx, hb, _⟩ := (g6 p).mp hp
      rcases q2 i o x hx with ⟨rfl, rfl⟩ | ⟨_, _, h0⟩
      · rw [hfate] at hb; cases hb
      · have := ((decideData_facts .stale x _).sent v hb).1
        rw [h0] at this; cases this
    obtain ⟨r', u1, u2⟩ := updateDescs_total (s.gen.getHeap s.grp (fun _ v => v) .stale .stale).2.descs q7
    have hr : s.recv.update (fun _ r => some r) (s.gen.getHeap s.grp (fun _ v => v) .stale .stale).2 = some (r', false) := by
      rw [PyGroup.update, u1, hitems]; rfl
    have hsame := descs_same _ q7 u1 (j := 7) (o := o) (y := ⟨7, "y", 0, none, k⟩) (by
      intro p hp
      obtain ⟨i, o, x, hx, _, rfl⟩ := (g5 p).mp hp
      rcases q2 i o x hx with ⟨rfl, rfl⟩ | ⟨h8, hn, _⟩
      · exact ⟨fun _ => ⟨rfl, rfl⟩, fun e => absurd rfl e⟩
      · refine ⟨fun e => ?_, fun _ => ?_⟩
        · simp only [h8] at e; omega
        · simp only [hn]; decide) q8
    refine ⟨⟨s.grp, (s.gen.getHeap s.grp (fun _ v => v) .stale .stale).1, r'⟩, ?_, q1, q2, q3, by rw [g1]; exact q4, ?_, u2, o, k, hsame⟩
    · simp only [SyncOp.run, SyncState.heap, hr]
    · refine ⟨s.gen.cnt, ?_, by rw [g2]; exact Nat.lt_succ_self _⟩
      rw [g4 7 2 _ q3, hfate]
  have hall : ∀ (n : Nat) (s : SyncState Nat Nat), Q s →
      ∃ s', runSync (fun _ v => v) (fun _ r => some r) s (List.replicate n (.send .stale .stale)) = some s' ∧ Q s' := by
    intro n
    induction n with
    | zero => intro s h; exact ⟨s, rfl, h⟩
    | succ n ih =>
      intro s h
      obtain ⟨s1, h1, h2⟩ := hstep s h
      obtain ⟨s', h3, h4⟩ := ih s1 h2
      exact ⟨s', by rw [List.replicate_succ, runSync, h1]; exact h3, h4⟩
  have hfirst : ∃ s : SyncState Nat Nat, runSync (fun _ v => v) (fun _ r => some r) (SyncState.start (some 1))
      (comeback ++ [.send .stale .stale]) = some s ∧ Q s := by
    have hr : ∃ s : SyncState Nat Nat, runSync (fun _ v => v) (fun _ r => some r) (SyncState.start (some 1))
        (comeback ++ [.send .stale .stale]) = some s ∧ s.grp.byId = [(8, 1), (7, 2)] ∧
          (∀ x, s.grp.objs 1 = some x → x.id = 8 ∧ x.name = "x" ∧ x.value = none) ∧
          s.grp.objs 2 = some ⟨7, "y", 0, some 2, 1⟩ ∧ s.gen.frequency = some 1 ∧ s.gen.cnt = 2 ∧
          s.gen.info 7 = some ⟨some 1, some 1, 0⟩ ∧ (∃ o k, s.recv.getId 7 = some (o, ⟨7, "y", 0, none, k⟩)) := by
      refine ⟨_, rfl, by decide +kernel, ?_, by decide +kernel, by decide +kernel, by decide +kernel, by decide +kernel,
        2, 1, by decide +kernel⟩
      intro x hx
      have : some x = some (⟨8, "x", 0, none, 2⟩ : PyItemObj Nat Nat) := hx.symm.trans (by decide +kernel)
      cases this
      exact ⟨rfl, rfl, rfl⟩
    obtain ⟨s, h1, h2, h3, h4, h5, h6, h7, h8⟩ := hr
    have hok := (sender_ok _ GroupOk.empty (by intro i o x h; cases h) (by
      intro op ho
      simp only [comeback, List.mem_cons, List.not_mem_nil, or_false, List.cons_append, List.nil_append] at ho
      rcases ho with rfl | rfl | rfl | rfl | rfl <;> simp [SyncOp.Proper]) h1).1
    refine ⟨s, h1, hok, ?_, ?_, h5, ⟨1, h7, by omega⟩, receiver_ok _ GroupOk.empty h1, h8⟩
    · intro i o x hx
      obtain ⟨k1, k2⟩ := getId_some.mp hx
      rw [h2] at k1
      simp only [dictGet] at k1
      split at k1
      · cases k1; exact Or.inr (h3 x k2)
      · split at k1
        · cases k1
          rw [h4] at k2; cases k2
          exact Or.inl ⟨rfl, rfl⟩
        · cases k1
    · exact getId_some.mpr ⟨by rw [h2]; rfl, h4⟩
  obtain ⟨s, h1, h2⟩ := hfirst
  obtain ⟨s', h3, h4⟩ := hall n s h2
  refine ⟨s', ?_, h4.2.2.1, ?_⟩
  · have : comeback ++ List.replicate (n + 1) (SyncOp.send .stale .stale) =
        (comeback ++ [.send .stale .stale]) ++ List.replicate n (.send .stale .stale) := by
      rw [List.append_assoc, List.replicate_succ]; rfl
    rw [this, runSync_append, h1]
    exact h3
  · obtain ⟨_, _, _, _, _, _, o, k, h⟩ := h4
    rw [received, h]; rfl

/-- The same happens without a frequency if the heap has all descriptors. -/
theorem C74_all_violated : ∃ s : SyncState Nat Nat, runSync (fun _ v => v) (fun _ r => some r) (SyncState.start none)
      (comeback ++ [.send .all .stale]) = some s ∧
    s.grp.getId 7 = some (2, ⟨7, "y", 0, some 2, 1⟩) ∧ received s 7 = some ("y", none) := by
  refine ⟨_, rfl, ?_, ?_⟩ <;> decide +kernel

/-- A value that is sent without its descriptor is not sent again with it. -/
theorem C74_none_violated : ∃ s : SyncState Nat Nat, runSync (fun _ v => v) (fun _ r => some r) (SyncState.start none)
      [.add (some 7) "x" 0 (some 1), .send .none .stale, .send .stale .stale] = some s ∧
    s.grp.getId 7 = some (0, ⟨7, "x", 0, some 1, 1⟩) ∧ received s 7 = some ("x", none) := by
  refine ⟨_, rfl, ?_, ?_⟩ <;> decide +kernel

/-- The full claim does not hold. -/
theorem C74_violated : ¬ C74_statement := by
  intro h
  obtain ⟨s, h1, h2⟩ := h Nat Nat Nat (fun _ v => v) (fun _ r => some r) none comeback .all .stale (fun _ _ => rfl)
    (by
      intro op ho
      simp only [comeback, List.mem_cons, List.not_mem_nil, or_false] at ho
      rcases ho with rfl | rfl | rfl | rfl
      · show 6 < 7; decide
      · intro e; cases e
      · show 6 < 8; decide
      · show 6 < 7; decide) (by simp) (by simp)
  obtain ⟨s', h3, h4, h5⟩ := C74_all_violated
  rw [h1] at h3; cases h3
  obtain ⟨o, y, e1, e2, e3, e4⟩ := h2 7 _ _ h4
  rw [received, e1] at h5
  simp only [Option.map_some, Option.some.injEq, Prod.mk.injEq] at h5
  have := e4 2 rfl
  rw [h5.2] at this
  cases this

/-! ## The hypotheses are met -/

/-- Changes of values, replacements under the same id, and heaps of several kinds. -/
def exampleSync : List (SyncOp Nat Nat) :=
  [.add (some 7) "x" 0 (some 1), .add (some 9) "z" 3 none, .send .stale .stale, .set 0 5, .add (some 7) "y" 1 (some 2),
    .send .all .none, .set 1 9, .send .stale .stale, .bump 2, .add (some 7) "x" 0 none]

def exampleIds (n : String) : Nat := if n = "z" then 9 else 7

example : ∃ s, runSync (fun _ v => v) (fun _ r => some r) (SyncState.start (some 2)) (exampleSync ++ [.send .stale .stale]) = some s ∧
    s.Mirrors := by
  refine C74_fixed (fun _ _ => rfl) (some 2) exampleIds ?_ ?_ (by simp) (by simp)
  · intro op ho
    simp only [exampleSync, List.mem_cons, List.not_mem_nil, or_false] at ho
    rcases ho with rfl | rfl | rfl | rfl | rfl | rfl | rfl | rfl | rfl | rfl <;> simp [SyncOp.Proper]
  · intro i n d v ho
    simp only [exampleSync, List.mem_cons, List.not_mem_nil, or_false, reduceCtorEq, SyncOp.add.injEq, false_or] at ho
    rcases ho with ⟨rfl, rfl, _⟩ | ⟨rfl, rfl, _⟩ | ⟨rfl, rfl, _⟩ | ⟨rfl, rfl, _⟩ <;> decide

example : ∃ s, runSync (fun _ v => v) (fun _ r => some r) (SyncState.start (some 2)) (exampleSync ++ [.send .stale .stale]) = some s ∧
    received s 7 = some ("x", none) ∧ received s 9 = some ("z", some 9) := by
  refine ⟨_, rfl, ?_, ?_⟩ <;> decide +kernel

/-- An id that comes back is sent again if only stale descriptors are sent. -/
example : ∃ s, runSync (fun _ v => v) (fun _ r => some r) (SyncState.start none) (comeback ++ [.send .stale .stale]) = some s ∧
    received s 7 = some ("y", some 2) := by
  refine ⟨_, rfl, ?_⟩; decide +kernel

/-- Two heaps in which the descriptor of item 7 is repeated, as every second heap. -/
example : ∃ s s', runSync (fun _ v => v) (fun _ r => some r) (SyncState.start (some 2)) (exampleSync.take 5) = some s ∧
    runSync (fun _ v => v) (fun _ r => some r) s [.send .stale .stale, .bump 2, .send .stale .stale] = some s' ∧
    (sentHeaps (fun _ v => v) (fun _ r => some r) s [.send .stale .stale, .bump 2, .send .stale .stale]).map (fun p => p.2.descs) =
      [[(7, "y", 1)], [(9, "z", 3)]] := by
  refine ⟨_, _, rfl, rfl, ?_⟩; decide +kernel

end Spead2
