import Verif.Lemmas.PyWireRun
import Verif.Props.PySync
import Verif.Props.VerifyTool

/-!
# C91: the item group of a Python receiver becomes that of the Python sender
-/

namespace Spead2.PyWire
open PyDescr Spec

/-- **C91 (one heap).** Whatever of a group the generator puts into a heap, the receiver finds the descriptors in it in that order, and for each value an item
from which that value is decoded. -/
theorem C91_heap {f : Setup} (hT : PyDescr.Spec.Faithful f.text) (hw1 : 1 ≤ f.w) (hw7 : f.w ≤ 7) {es : List Entry} {items : List SendItem}
    (hp : es.mapM (pack f) = some items) (hs : Sendable f es) (hd : ∀ i n d, Entry.desc i n d ∈ es → DescOk d) (hv : ∀ i d v, Entry.value i d v ∈ es → DescOk d ∧ 6 < i)
    (hn : ((valsE es).map Prod.fst).Nodup) {rx : List RxItem} (ha : Arrived f.w items rx) :
    descsOf f rx = some (descsE es) ∧ ∃ is, itemsOf rx = some is ∧ is.length = (valsE es).length ∧
      ∀ i d v, Entry.value i d v ∈ es → ∃ r, (i, r) ∈ is ∧ decode d r = some v := by
  have hd' : ∀ p ∈ descsE es, DescOk p.2.2 := fun p h => hd _ _ _ (mem_descsE.1 h)
  have hv' : ∀ p ∈ valsE es, DescOk p.2.1 ∧ 6 < p.1 := fun p h => hv _ _ _ (mem_valsE.1 h)
  obtain ⟨l, rs, hk⟩ := packed hT hw1 hw7 hp hs hd' hv'
  obtain ⟨h1, is, h2, h3⟩ := heap_read hw1 hw7 hk (fun p h => (hv' p h).2) hn ha
  refine ⟨h1, is, h2, by rw [h3.length_eq, hk.vals.length_eq], ?_⟩
  intro i d v he
  have hm : (i, d, v) ∈ valsE es := mem_valsE.2 he
  obtain ⟨k, hlt, hk2⟩ := List.getElem_of_mem hm
  have hlt' : k < rs.length := by rw [← hk.vals.length_eq]; exact hlt
  have := (List.forall₂_iff_get.1 hk.vals).2 k hlt hlt'
  simp only [List.get_eq_getElem, hk2] at this
  refine ⟨rs[k].2, h3.mem_iff.2 ?_, this.2⟩
  rw [show (i, rs[k].2) = rs[k] from Prod.ext this.1.symm rfl]
  exact List.getElem_mem _

theorem mem_toSync {ops : List Op} {op : Op} (h : op.toSync ∈ ops.map Op.toSync) : op ∈ ops := by
  obtain ⟨o, h1, h2⟩ := List.mem_map.1 h
  have : o = op := by cases o <;> cases op <;> simp_all [Op.toSync]
  rw [← this]; exact h1

/-- **C91.** A Python program adds items to a group, changes them and sends heaps; another updates its group from the heaps as they arrive.  After a heap with
descriptors and values, nothing has failed and the receiver has every item of the sender, with the same name, descriptor and value.  Partial: see `Good`, `Described`,
`Proper`, `Steady` and `Plain` for what is excluded; without them it is false (`C91_violated`, and C72, C74, C89). -/
theorem C91_partial {f : Setup} (hT : PyDescr.Spec.Faithful f.text) (hw1 : 1 ≤ f.w) (hw7 : f.w ≤ 7) (frequency : Option Nat) {ops : List Op} {dm vm : SendMode}
    (hplain : ∀ i n d v, Op.add i n d v ∈ ops → PyDescr.Spec.Plain (d.full 0 n)) (hprop : ∀ op ∈ ops, Proper op) (hsteady : Steady frequency (ops ++ [.send dm vm]))
    (hdm : dm ≠ .none) (hvm : vm ≠ .none) {S : Sender} {hs : List (List Entry × List SendItem)}
    (hrun : runSender f (Sender.new frequency) (ops ++ [.send dm vm]) = some (S, hs)) (hsend : ∀ h ∈ hs, Sendable f h.1)
    {rxs : List (List RxItem)} (harr : List.Forall₂ (fun h rx => Arrived f.w h.2 rx) hs rxs) :
    ∃ r, runReceiver f PyGroup.empty rxs = some r ∧ Mirrors S.grp r := by
  have hprop' : ∀ op ∈ ops.map Op.toSync, op.Proper := by
    intro op h
    obtain ⟨o, h1, rfl⟩ := List.mem_map.1 h
    exact proper_sync (hprop o h1)
  have key : ∃ s, Spead2.Spec.runSync idealEnc idealDec (Spead2.Spec.SyncState.start frequency) (ops.map Op.toSync ++ [.send dm vm]) = some s ∧ s.Mirrors := by
    rcases hsteady with ⟨idOf, h⟩ | ⟨h1, h2⟩
    · refine C74_fixed ideal_codec frequency idOf hprop' ?_ hdm hvm
      intro i n d v hm
      exact h i n d v (List.mem_append_left _ (mem_toSync (op := .add i n d v) hm))
    · refine C74_sync_partial ideal_codec frequency hprop' hdm hvm (Or.inr ⟨h1, ?_, ?_⟩)
      · have := h2 dm vm (List.mem_append_right _ List.mem_cons_self)
        cases dm with
        | none => exact absurd rfl hdm
        | all => exact absurd rfl this
        | stale => rfl
      · intro vm' hm
        exact h2 .all vm' (List.mem_append_left _ (mem_toSync (op := .send .all vm') hm)) rfl
  obtain ⟨s, h1, h2⟩ := key
  have h1' : Spead2.Spec.runSync idealEnc idealDec (Spead2.Spec.SyncState.start frequency) ((ops ++ [Op.send dm vm]).map Op.toSync) = some s := by
    rw [List.map_append]; exact h1
  obtain ⟨c1, _, c3⟩ := run_refine hT hw1 hw7 (ops ++ [.send dm vm]) (S := Sender.new frequency) (s := Spead2.Spec.SyncState.start frequency) rfl rfl
    GroupOk.empty GroupOk.empty (by intro i o x h; cases h) (by intro o x h; cases h)
    (by
      intro i n d v hm
      rcases List.mem_append.1 hm with h | h
      · exact hplain i n d v h
      · cases List.mem_singleton.1 h)
    (by
      intro op hm
      rcases List.mem_append.1 hm with h | h
      · exact hprop op h
      · rw [List.mem_singleton.1 h]; exact fun e => absurd e hdm)
    hrun h1' hsend harr
  refine ⟨s.recv, c3, ?_⟩
  intro i o x hx
  exact h2 i o x (c1 ▸ hx)

/-- A receiver's group is consistent, whatever it has received. -/
theorem receiver_ok {f : Setup} : ∀ (rxs : List (List RxItem)) {g r : PyGroup Rest PyValue}, GroupOk g → runReceiver f g rxs = some r → GroupOk r := by
  intro rxs
  induction rxs with
  | nil => intro g r h1 h2; cases h2; exact h1
  | cons rx rxs ih =>
    intro g r h1 h2
    rw [runReceiver] at h2
    cases hu : updateGroup f g rx with
    | none => rw [hu] at h2; cases h2
    | some g1 =>
      rw [hu] at h2
      refine ih ?_ h2
      unfold updateGroup at hu
      split at hu
      · split at hu
        · rename_i ds is _ _ _ g2 hg
          cases hu
          obtain ⟨g', k1, k2⟩ := calls_total decode [.update ⟨ds, is⟩] h1
          simp only [Spead2.Spec.runCalls, Spead2.Spec.GroupCall.run, hg, Option.map_some, Option.some.injEq] at k1
          rw [k1]; exact k2
        · cases hu
      · cases hu

/-- **C91 (late receivers).** A heap with all descriptors and all values brings any receiver up to date, whatever it has received before and from whom, and whatever the
sender has sent, or lost, before. -/
theorem C91_late {f : Setup} (hT : PyDescr.Spec.Faithful f.text) (hw1 : 1 ≤ f.w) (hw7 : f.w ≤ 7) {frequency : Option Nat} {ops : List Op}
    (hplain : ∀ i n d v, Op.add i n d v ∈ ops → PyDescr.Spec.Plain (d.full 0 n)) (hprop : ∀ op ∈ ops, Proper op) {S S' : Sender}
    {hs : List (List Entry × List SendItem)} (hrun : runSender f (Sender.new frequency) ops = some (S, hs)) {es : List Entry} {items : List SendItem}
    (hall : (Op.send .all .all).run f S = some (S', [(es, items)])) (hsend : Sendable f es) {before : List (List RxItem)} {r : PyGroup Rest PyValue}
    (hr : runReceiver f PyGroup.empty before = some r) {rx : List RxItem} (ha : Arrived f.w items rx) :
    ∃ r', updateGroup f r rx = some r' ∧ Mirrors S.grp r' := by
  obtain ⟨hok, h6, hre⟩ := run_ok ops GroupOk.empty (by intro i o x h; cases h) (by intro o x h; cases h) hplain hprop hrun
  have hrok := receiver_ok before GroupOk.empty hr
  simp only [Op.run, Option.map_eq_some_iff, Prod.mk.injEq, List.cons.injEq, and_true] at hall
  obtain ⟨its, a1, _, rfl, rfl⟩ := hall
  obtain ⟨r', h1, h2⟩ := send_all hok h6 hrok (q := S.gen)
  obtain ⟨d1, d2, d3⟩ := heap_rests (q := S.gen) hok hre h6 .all .all
  rw [getHeap_ideal] at h1
  exact ⟨r', update_refine hT hw1 hw7 a1 hsend d1 d2 d3 ha hrok h1, h2⟩

/-! ### Through the network -/

/-- What C10 says about a heap of a group. -/
theorem arrived_network {f : Setup} (hT : PyDescr.Spec.Faithful f.text) (hw1 : 1 ≤ f.w) (hw7 : f.w ≤ 7) {es : List Entry} {items : List SendItem}
    (hp : es.mapM (pack f) = some items) (hs : Sendable f es) (hd : ∀ p ∈ descsE es, DescOk p.2.2) (hv : ∀ p ∈ valsE es, DescOk p.2.1 ∧ 6 < p.1)
    {rx : List RxItem} (h : OverNetwork f.w items rx) : Arrived f.w items rx := by
  obtain ⟨rep, cnt, mps, pkts, ds, ps, p0, s, acc, fit, good, h1, h2, h3, h4, h5, h6⟩ := h
  obtain ⟨l, rs, hk⟩ := packed hT hw1 hw7 hp hs hd hv
  have hid : ∀ it ∈ items, 4 < it.id := by
    intro it hit
    rcases hk.ids it hit with e | e
    · rw [e]; decide
    · obtain ⟨p, hp, e⟩ := List.mem_map.1 e
      have := (hv p hp).2
      omega
  obtain ⟨ps', g1, g2⟩ := C10_end_to_end_partial ⟨8 * f.w, rep, items⟩ cnt mps f.w pkts ds rfl fit hid h1 good (Or.inl hk.noEmpty) h2
  have : ps' = ps := by
    rw [h3] at g1
    refine ((List.map_inj_right ?_).mp g1).symm
    intro a b hab
    exact Option.some.inj (Option.some.inj hab)
  subst this
  obtain ⟨s', acc', adr, imm, a1, a2, a3, a4, a5, a6, a7, a8⟩ := g2 p0 h4
  rw [h5] at a1
  obtain ⟨rfl, rfl⟩ := Prod.mk.inj (Option.some.inj a1)
  rw [h6] at a4
  exact ⟨adr, imm, Option.some.inj a4, a5, a6, a7, a8⟩

theorem forall₂_imp_mem {α β : Type} {P Q : α → β → Prop} : ∀ {l : List α} {m : List β}, (∀ a ∈ l, ∀ b, P a b → Q a b) → List.Forall₂ P l m → List.Forall₂ Q l m := by
  intro l m h hf
  induction hf with
  | nil => exact .nil
  | cons h1 _ ih => exact .cons (h _ List.mem_cons_self _ h1) (ih fun a ha => h a (List.mem_cons_of_mem _ ha))

/-- **C91 over a network.** As `C91_partial`, where each heap travels as packets, which arrive in any order and perhaps several times. -/
theorem C91_network {f : Setup} (hT : PyDescr.Spec.Faithful f.text) (hw1 : 1 ≤ f.w) (hw7 : f.w ≤ 7) (frequency : Option Nat) {ops : List Op} {dm vm : SendMode}
    (hplain : ∀ i n d v, Op.add i n d v ∈ ops → PyDescr.Spec.Plain (d.full 0 n)) (hprop : ∀ op ∈ ops, Proper op) (hsteady : Steady frequency (ops ++ [.send dm vm]))
    (hdm : dm ≠ .none) (hvm : vm ≠ .none) {S : Sender} {hs : List (List Entry × List SendItem)}
    (hrun : runSender f (Sender.new frequency) (ops ++ [.send dm vm]) = some (S, hs)) (hsend : ∀ h ∈ hs, Sendable f h.1)
    {rxs : List (List RxItem)} (harr : List.Forall₂ (fun h rx => OverNetwork f.w h.2 rx) hs rxs) :
    ∃ r, runReceiver f PyGroup.empty rxs = some r ∧ Mirrors S.grp r := by
  refine C91_partial hT hw1 hw7 frequency hplain hprop hsteady hdm hvm hrun hsend (forall₂_imp_mem ?_ harr)
  have hok := heaps_ok (ops ++ [.send dm vm]) (S := Sender.new frequency) GroupOk.empty (by intro i o x h; cases h) (by intro o x h; cases h)
    (by
      intro i n d v hm
      rcases List.mem_append.1 hm with h | h
      · exact hplain i n d v h
      · cases List.mem_singleton.1 h)
    (by
      intro op hm
      rcases List.mem_append.1 hm with h | h
      · exact hprop op h
      · rw [List.mem_singleton.1 h]; exact fun e => absurd e hdm)
    hrun
  intro h hh rx hrx
  obtain ⟨k1, k2, k3, _⟩ := hok h hh
  exact arrived_network hT hw1 hw7 k1 (hsend h hh) k2 k3 hrx

/-- **C91 through streams.** As `C91_partial`, where the heaps are sent one by one and taken from a stream that hands over what was sent, as C55, C56, C67 and C69 say of
the transports. -/
theorem C91_stream {f : Setup} (hT : PyDescr.Spec.Faithful f.text) (hw1 : 1 ≤ f.w) (hw7 : f.w ≤ 7) (frequency : Option Nat) {ops : List Op} {dm vm : SendMode}
    (hplain : ∀ i n d v, Op.add i n d v ∈ ops → PyDescr.Spec.Plain (d.full 0 n)) (hprop : ∀ op ∈ ops, Proper op) (hsteady : Steady frequency (ops ++ [.send dm vm]))
    (hdm : dm ≠ .none) (hvm : vm ≠ .none) {S : Sender} {hs : List (List Entry × List SendItem)}
    (hrun : runSender f (Sender.new frequency) (ops ++ [.send dm vm]) = some (S, hs)) (hsend : ∀ h ∈ hs, Sendable f h.1)
    {groups : List Spead2.Spec.SentGroup} {outs : List (List Spead2.Entry)} (hone : List.Forall₂ (fun h g => OneHeap f.w h.2 g) hs groups)
    (harr : List.Forall₂ Spead2.Spec.Arrives groups outs) :
    ∃ rxs r, outs.flatten.map (fun e => e.heap.load true) = rxs.map some ∧ runReceiver f PyGroup.empty rxs = some r ∧ Mirrors S.grp r := by
  have key : ∀ {hs : List (List Entry × List SendItem)} {groups : List Spead2.Spec.SentGroup} {outs : List (List Spead2.Entry)},
      List.Forall₂ (fun h g => OneHeap f.w h.2 g) hs groups → List.Forall₂ Spead2.Spec.Arrives groups outs →
      ∃ rxs, outs.flatten.map (fun e => e.heap.load true) = rxs.map some ∧ List.Forall₂ (fun (h : List Entry × List SendItem) rx => Arrived f.w h.2 rx) hs rxs := by
    intro hs groups outs h1
    induction h1 generalizing outs with
    | nil => intro h2; cases h2; exact ⟨[], rfl, .nil⟩
    | cons hx _ ih =>
      intro h2
      cases h2 with
      | cons hy hrest =>
        obtain ⟨rxs, e1, e2⟩ := ih hrest
        obtain ⟨x, g1, g2, g3⟩ := hx
        obtain ⟨p1, p2, _⟩ := hy
        unfold Spead2.Spec.SentGroup.cnts at p1
        rw [g1] at p1 p2
        have hl := p1.length_eq
        simp only [List.length_map, List.length_cons, List.length_nil] at hl
        obtain ⟨e, rfl⟩ := List.length_eq_one_iff.1 hl
        obtain ⟨e', he, _, _, adr, imm, q1, q2, q3, q4, q5⟩ := p2 x List.mem_cons_self
        obtain rfl := List.mem_singleton.1 he
        rw [g2, g3] at q3 q5
        rw [g2] at q4
        refine ⟨(adr ++ imm) :: rxs, ?_, .cons ⟨adr, imm, rfl, q2, q3, q4, q5⟩ e2⟩
        rw [List.flatten_cons, List.map_append, e1, List.map_cons, q1]
        rfl
  obtain ⟨rxs, e1, e2⟩ := key hone harr
  obtain ⟨r, h1, h2⟩ := C91_partial hT hw1 hw7 frequency hplain hprop hsteady hdm hvm hrun hsend e2
  exact ⟨rxs, r, e1, h1, h2⟩

/-! ### Samples -/

/-- A flavour of 40 address bits. -/
noncomputable def sample : Setup := ⟨sampleText, 5, 0, true⟩

/-- A string. -/
def stringRest : Rest := ⟨[], [none], none, .C, some [(99, 8)]⟩

/-- A number of 24 bits. -/
def numberRest : Rest := ⟨[100], [], none, .C, some [(117, 24)]⟩

/-- Two numbers of 32 bits. -/
def arrayRest : Rest := ⟨[], [some 2], some (.scalar .big [117] 4), .F, none⟩

def number (n : Int) : PyValue := .array ⟨[], [.fields [.int n]]⟩

/-- Three items; then a string and a number are changed. -/
def sampleOps : List Op :=
  [.add (some 0x1000) "a" stringRest (some (.str [97, 98, 99])), .add (some 0x1001) "b" numberRest none, .send .stale .stale,
    .add (some 0x1002) "c" arrayRest (some (.array ⟨[2], [.raw [0, 0, 0, 1], .raw [0, 0, 0, 2]]⟩)), .set 1 (number 7), .set 0 (.str [120])]

theorem samplePlain : ∀ i n d v, Op.add i n d v ∈ sampleOps → PyDescr.Spec.Plain (d.full 0 n) := by
  intro i n d v h
  simp only [sampleOps, List.mem_cons, Op.add.injEq, List.not_mem_nil, or_false, reduceCtorEq, false_or] at h
  rcases h with ⟨_, rfl, rfl, _⟩ | ⟨_, rfl, rfl, _⟩ | ⟨_, rfl, rfl, _⟩
  · exact ⟨by intro x hx; simp [Rest.full, stringRest] at hx, by intro t ht; simp [Rest.full, stringRest] at ht⟩
  · exact ⟨by intro x hx; simp [Rest.full, numberRest] at hx, by intro t ht; simp [Rest.full, numberRest] at ht⟩
  · refine ⟨by intro x hx; simp [Rest.full, arrayRest] at hx; omega, ?_⟩
    intro t ht
    simp only [Rest.full, arrayRest, Option.some.injEq] at ht
    subst ht
    exact ⟨by simp [PyDescr.Spec.Packed], by simp⟩

/-- What is sent: the descriptors and the string; then one more descriptor, and three values. -/
example : (runSender sample (Sender.new none) (sampleOps ++ [.send .stale .stale])).map (fun p => p.2.map Prod.fst) =
    some [[.desc 0x1000 "a" stringRest, .value 0x1000 stringRest (.str [97, 98, 99]), .desc 0x1001 "b" numberRest],
      [.value 0x1000 stringRest (.str [120]), .value 0x1001 numberRest (number 7), .desc 0x1002 "c" arrayRest,
        .value 0x1002 arrayRest (.array ⟨[2], [.raw [0, 0, 0, 1], .raw [0, 0, 0, 2]]⟩)]] := by decide +kernel

/-- A way in which items arrive. -/
def rxOf (w : Nat) (items : List SendItem) : List RxItem :=
  (Spead2.Spec.addressedItems w items).map (fun y => ⟨y.1, false, 0, 0, y.2.map some⟩) ++
    (Spead2.Spec.immediateItems w items).eraseDups.map (fun y => ⟨y.1, true, 0, y.2, (beBytes w y.2).map some⟩)

theorem arrived_rxOf (w : Nat) (items : List SendItem) : Arrived w items (rxOf w items) := by
  refine ⟨_, _, rfl, ?_, ?_, ?_, ?_⟩
  · intro it h
    obtain ⟨y, _, rfl⟩ := List.mem_map.1 h
    rfl
  · rw [List.map_map]
    rfl
  · intro it h
    obtain ⟨y, _, rfl⟩ := List.mem_map.1 h
    exact ⟨rfl, rfl⟩
  · rw [List.map_map]
    have : ((fun it : RxItem => (it.id, it.value)) ∘ fun y : Nat × Nat => (⟨y.1, true, 0, y.2, (beBytes w y.2).map some⟩ : RxItem)) = id := rfl
    rw [this, List.map_id]

theorem forall₂_rxOf (w : Nat) : ∀ hs : List (List Entry × List SendItem), List.Forall₂ (fun h rx => Arrived w h.2 rx) hs (hs.map fun h => rxOf w h.2) := by
  intro hs
  induction hs with
  | nil => exact .nil
  | cons h hs ih => exact .cons (arrived_rxOf _ _) ih

/-- Strings of ASCII characters fit. -/
theorem string_fitting (s : List Nat) (h : ∀ c ∈ s, 0 < c ∧ c < 128) : Fitting true stringRest (.str s) := by
  have hm : ∀ e, e ∈ (strArray s).data → ∃ c, c ∈ s ∧ e = .fields [.char c] := by
    intro e he
    obtain ⟨c, hc, rfl⟩ := List.mem_map.1 he
    exact ⟨c, hc, rfl⟩
  have hsh : (strArray s).shape = [s.length] := rfl
  refine ⟨⟨.cons (Or.inl rfl) .nil, ?_, ?_⟩, ⟨fun _ => by decide, fun _ h => absurd List.mem_cons_self h, fun h => absurd rfl h, fun h => absurd rfl h, fun h => absurd h (by decide), ?_⟩, ⟨fun _ => ⟨s, rfl⟩, fun _ => ⟨rfl, rfl, rfl⟩⟩⟩
  · show (strArray s).data.length = _
    simp [strArray, asArray]
  · intro e he
    obtain ⟨c, hc, rfl⟩ := hm e he
    refine .cons ⟨rfl, ?_⟩ .nil
    have := h c hc
    omega
  · intro _ _ n hn
    obtain ⟨c, hc', e⟩ := hm _ hn
    obtain rfl := PyField.char.inj (List.cons.inj (PyElem.fields.inj e)).1
    exact h n hc'

theorem string_good (s : List Nat) (h : ∀ c ∈ s, 0 < c ∧ c < 128) (hs : s ≠ []) : Good true stringRest (.str s) :=
  ⟨string_fitting s h, Or.inl (by show 0 < [s.length].prod; have := List.length_pos_of_ne_nil hs; simpa using this)⟩

theorem number_good (n : Int) (h : 0 ≤ n ∧ n < 16777216) : Good true numberRest (number n) := by
  refine ⟨⟨⟨.nil, rfl, ?_⟩, ⟨fun h => absurd h (by decide), fun h => absurd h (by decide), fun _ i hi => by simp [number, asArray] at hi, ?_, fun _ _ => Or.inl rfl, fun h => absurd h (by decide)⟩, ?_⟩, Or.inl (by show 0 < 1; decide)⟩
  · intro e he
    obtain rfl := List.mem_singleton.1 he
    exact .cons (Or.inl ⟨rfl, h⟩) .nil
  · intro _ xs hx
    obtain rfl := PyElem.fields.inj (List.mem_singleton.1 hx)
    simp
  · constructor
    · rintro ⟨h, _⟩; exact absurd h (by decide)
    · rintro ⟨s, h⟩; cases h

theorem array_good : Good true arrayRest (.array ⟨[2], [.raw [0, 0, 0, 1], .raw [0, 0, 0, 2]]⟩) := by
  refine ⟨⟨⟨.cons (Or.inr rfl) .nil, rfl, ?_⟩, ⟨fun h => absurd h (by decide), fun _ _ => by decide, fun h => absurd rfl h, fun h => absurd rfl h, fun h => absurd h (by decide), fun _ h => absurd h (by decide)⟩, ?_⟩, Or.inl (by decide)⟩
  · intro e he
    simp only [asArray, List.mem_cons, List.not_mem_nil, or_false] at he
    rcases he with rfl | rfl
    · exact ⟨rfl, by decide⟩
    · exact ⟨rfl, by decide⟩
  · constructor
    · rintro ⟨_, h, _⟩; exact absurd h (by decide)
    · rintro ⟨s, h⟩; cases h

theorem described_of {f : Setup} {i : Nat} {n : String} {d : Rest}
    (h : ((toRaw f.text f.bc (d.full i n)).map fun raw => decide ((0 < raw.id ∧ raw.id < 2 ^ (63 - 8 * f.w)) ∧ (∀ x ∈ raw.format, 0 ≤ x.2 ∧ x.2 < 2 ^ (8 * Spead2.Spec.formatWidth f.w f.bc)) ∧
      (∀ x ∈ raw.shape, x < 2 ^ (8 * Spead2.Spec.shapeWidth f.w f.bc)) ∧ Spead2.Spec.descriptorLength f.w f.bc raw < 2 ^ (8 * f.w) ∧ raw.id < 2 ^ (8 * f.w))) = some true) : Described f i n d := by
  intro raw hr
  rw [hr, Option.map_some, Option.some.injEq, decide_eq_true_eq] at h
  exact ⟨⟨h.1, h.2.1, h.2.2.1, h.2.2.2.1⟩, h.2.2.2.2⟩

theorem sample_run : ∃ S hs, runSender sample (Sender.new none) (sampleOps ++ [.send .stale .stale]) = some (S, hs) ∧ (∀ h ∈ hs, Sendable sample h.1) ∧ hs.length = 2 ∧
    ∃ o x, S.grp.getId 0x1001 = some (o, x) ∧ x.name = "b" ∧ x.value = some (number 7) := by
  have h1 : (runSender sample (Sender.new none) (sampleOps ++ [.send .stale .stale])).map (fun p => p.2.map Prod.fst) =
    some [[.desc 0x1000 "a" stringRest, .value 0x1000 stringRest (.str [97, 98, 99]), .desc 0x1001 "b" numberRest],
      [.value 0x1000 stringRest (.str [120]), .value 0x1001 numberRest (number 7), .desc 0x1002 "c" arrayRest,
        .value 0x1002 arrayRest (.array ⟨[2], [.raw [0, 0, 0, 1], .raw [0, 0, 0, 2]]⟩)]] := by decide +kernel
  have h2 : (runSender sample (Sender.new none) (sampleOps ++ [.send .stale .stale])).bind (fun p => (p.1.grp.getId 0x1001).map (fun y => (y.2.name, y.2.value))) =
    some ("b", some (number 7)) := by decide +kernel
  cases hr : runSender sample (Sender.new none) (sampleOps ++ [.send .stale .stale]) with
  | none => rw [hr] at h1; cases h1
  | some p =>
    obtain ⟨S, hs⟩ := p
    rw [hr, Option.map_some, Option.some.injEq] at h1
    rw [hr, Option.bind_some] at h2
    refine ⟨S, hs, rfl, ?_, by have := congrArg List.length h1; simpa using this, ?_⟩
    · intro h hh
      have hm : h.1 ∈ hs.map Prod.fst := List.mem_map.2 ⟨h, hh, rfl⟩
      rw [h1] at hm
      have d0 : Described sample 0x1000 "a" stringRest := described_of (by decide +kernel)
      have d1 : Described sample 0x1001 "b" numberRest := described_of (by decide +kernel)
      have d2 : Described sample 0x1002 "c" arrayRest := described_of (by decide +kernel)
      simp only [List.mem_cons, List.not_mem_nil, or_false] at hm
      rcases hm with e | e
      · rw [e]
        intro x hx
        simp only [List.mem_cons, List.not_mem_nil, or_false] at hx
        rcases hx with rfl | rfl | rfl
        · exact d0
        · exact string_good _ (by decide) (by decide)
        · exact d1
      · rw [e]
        intro x hx
        simp only [List.mem_cons, List.not_mem_nil, or_false] at hx
        rcases hx with rfl | rfl | rfl | rfl
        · exact string_good _ (by decide) (by decide)
        · exact number_good 7 (by decide)
        · exact d2
        · exact array_good
    · cases hg : S.grp.getId 0x1001 with
      | none => rw [hg] at h2; cases h2
      | some y =>
        rw [hg, Option.map_some, Option.some.injEq, Prod.mk.injEq] at h2
        exact ⟨y.1, y.2, rfl, h2.1, h2.2⟩

/-- `C91_partial` applies, and so the receiver has the number. -/
example : ∃ rxs r o x, runReceiver sample PyGroup.empty rxs = some r ∧ r.getId 0x1001 = some (o, x) ∧ x.name = "b" ∧ x.value = some (number 7) := by
  obtain ⟨S, hs, h1, h2, h3, o, x, hx, hn, hv⟩ := sample_run
  obtain ⟨r, k1, k2⟩ := C91_partial (f := sample) sampleText_faithful (by decide) (by decide) none samplePlain
    (by
      intro op hm
      simp only [sampleOps, List.mem_cons, List.not_mem_nil, or_false] at hm
      rcases hm with rfl | rfl | rfl | rfl | rfl | rfl
      · show 6 < 0x1000; decide
      · show 6 < 0x1001; decide
      · intro h; cases h
      · show 6 < 0x1002; decide
      · trivial
      · trivial)
    (Or.inr ⟨rfl, by
      intro dm vm hm
      simp only [sampleOps, List.cons_append, List.nil_append, List.mem_cons, List.not_mem_nil, or_false, reduceCtorEq, false_or, Op.send.injEq] at hm
      rcases hm with ⟨rfl, _⟩ | ⟨rfl, _⟩ <;> decide⟩)
    (by decide) (by decide) h1 h2 (forall₂_rxOf 5 hs)
  obtain ⟨o', x', g1, g2, g3, g4⟩ := k2 0x1001 o x hx
  exact ⟨_, r, o', x', k1, g1, g2.trans hn, g4 _ hv⟩

theorem late_sample {S S' : Sender} {hs : List (List Entry × List SendItem)} {es : List Entry} {items : List SendItem}
    (hr : runSender sample (Sender.new none) (sampleOps ++ [.send .stale .stale]) = some (S, hs)) (ha : (Op.send .all .all).run sample S = some (S', [(es, items)]))
    (he : es = [.desc 0x1000 "a" stringRest, .value 0x1000 stringRest (.str [120]), .desc 0x1001 "b" numberRest, .value 0x1001 numberRest (number 7), .desc 0x1002 "c" arrayRest,
        .value 0x1002 arrayRest (.array ⟨[2], [.raw [0, 0, 0, 1], .raw [0, 0, 0, 2]]⟩)]) :
    ∃ r', updateGroup sample PyGroup.empty (rxOf 5 items) = some r' ∧ Mirrors S.grp r' := by
  have hs : Sendable sample es := by
    rw [he]
    intro x hx
    simp only [List.mem_cons, List.not_mem_nil, or_false] at hx
    rcases hx with rfl | rfl | rfl | rfl | rfl | rfl
    · exact described_of (by decide +kernel)
    · exact string_good _ (by decide) (by decide)
    · exact described_of (by decide +kernel)
    · exact number_good 7 (by decide)
    · exact described_of (by decide +kernel)
    · exact array_good
  refine C91_late (f := sample) sampleText_faithful (by decide) (by decide) ?_ ?_ hr ha hs (before := []) rfl (arrived_rxOf 5 items)
  · intro i n d v hm
    rcases List.mem_append.1 hm with h | h
    · exact samplePlain i n d v h
    · cases List.mem_singleton.1 h
  · intro op hm
    simp only [sampleOps, List.cons_append, List.nil_append, List.mem_cons, List.not_mem_nil, or_false] at hm
    rcases hm with rfl | rfl | rfl | rfl | rfl | rfl | rfl
    · show 6 < 0x1000; decide
    · show 6 < 0x1001; decide
    · intro h; cases h
    · show 6 < 0x1002; decide
    · trivial
    · trivial
    · intro h; cases h

/-- `C91_late` applies: a receiver that has got nothing has everything after a heap with everything. -/
example : ∃ S r', (∃ hs, runSender sample (Sender.new none) (sampleOps ++ [.send .stale .stale]) = some (S, hs)) ∧ Mirrors S.grp r' ∧ (r'.getId 0x1002).isSome := by
  have h1 : ((runSender sample (Sender.new none) (sampleOps ++ [.send .stale .stale])).bind (fun p => (Op.send .all .all).run sample p.1)).map (fun p => p.2.map Prod.fst) =
    some [[.desc 0x1000 "a" stringRest, .value 0x1000 stringRest (.str [120]), .desc 0x1001 "b" numberRest, .value 0x1001 numberRest (number 7), .desc 0x1002 "c" arrayRest,
        .value 0x1002 arrayRest (.array ⟨[2], [.raw [0, 0, 0, 1], .raw [0, 0, 0, 2]]⟩)]] := by decide +kernel
  have h2 : (runSender sample (Sender.new none) (sampleOps ++ [.send .stale .stale])).map (fun p => (p.1.grp.getId 0x1002).isSome) = some true := by decide +kernel
  cases hr : runSender sample (Sender.new none) (sampleOps ++ [.send .stale .stale]) with
  | none => rw [hr] at h1; cases h1
  | some p =>
    obtain ⟨S, hs⟩ := p
    rw [hr, Option.bind_some] at h1
    rw [hr, Option.map_some, Option.some.injEq] at h2
    cases ha : (Op.send .all .all).run sample S with
    | none => rw [ha] at h1; cases h1
    | some q =>
      obtain ⟨S', l⟩ := q
      rw [ha, Option.map_some, Option.some.injEq] at h1
      obtain ⟨⟨es, items⟩, rfl⟩ : ∃ x, l = [x] := List.length_eq_one_iff.1 (by have := congrArg List.length h1; simpa using this)
      obtain ⟨r', _, k2⟩ := late_sample hr ha (List.cons.inj h1).1
      refine ⟨S, r', ⟨hs, rfl⟩, k2, ?_⟩
      cases hg : S.grp.getId 0x1002 with
      | none => rw [hg] at h2; cases h2
      | some y =>
        obtain ⟨o, y', g, _⟩ := k2 0x1002 y.1 y.2 hg
        rw [g]; rfl

/-- The items of the second heap before the descriptor. -/
def sampleItems : List SendItem := [⟨0x1000, .buffer [120] false⟩, ⟨0x1001, .buffer [0, 0, 7] true⟩]

example : ([.value 0x1000 stringRest (.str [120]), .value 0x1001 numberRest (number 7)] : List Entry).mapM (pack sample) = some sampleItems := by decide +kernel

/-- They can travel over a network. -/
example : ∃ rx, OverNetwork 5 sampleItems rx := by
  obtain ⟨s, rx, ⟨pkts, ds, ps, p0, acc, h1, h2, h3, h4, h5, h6⟩, _⟩ := VerifyTool.checkRun_spec (h := ⟨40, false, sampleItems⟩) (cnt := 1) (mps := 1472)
    (v := .inconsistent 0x1000) (by decide +kernel)
  refine ⟨rx, false, 1, 1472, pkts, ds, ps, p0, s, acc, ⟨⟨5, by decide, by decide, rfl⟩, by decide, ?_, by decide, by decide +kernel, by decide +kernel⟩, Or.inl (by decide +kernel), h1, h2, h3, h4, h5, h6⟩
  intro it hit v hv
  have hit : it ∈ [_, _] := hit
  simp only [List.mem_cons, List.not_mem_nil, or_false] at hit
  rcases hit with rfl | rfl <;> cases hv

/-! ### Empty values -/

/-- The property without the condition on empty values. -/
def C91_statement : Prop :=
  ∀ (f : Setup), PyDescr.Spec.Faithful f.text → 1 ≤ f.w → f.w ≤ 7 → ∀ (frequency : Option Nat) (ops : List Op) (dm vm : SendMode),
    (∀ i n d v, Op.add i n d v ∈ ops → PyDescr.Spec.Plain (d.full 0 n)) → (∀ op ∈ ops, Proper op) → Steady frequency (ops ++ [.send dm vm]) → dm ≠ .none → vm ≠ .none →
    ∀ (S : Sender) (hs : List (List Entry × List SendItem)), runSender f (Sender.new frequency) (ops ++ [.send dm vm]) = some (S, hs) → (∀ h ∈ hs, SendableOrEmpty f h.1) →
    ∀ rxs : List (List RxItem), List.Forall₂ (fun h rx => Arrived f.w h.2 rx) hs rxs → ∃ r, runReceiver f PyGroup.empty rxs = some r ∧ Mirrors S.grp r

/-- A string is sent; then it is made empty. -/
def emptyOps : List Op := [.add (some 0x1000) "a" stringRest (some (.str [97, 98, 99])), .send .stale .stale, .set 0 (.str [])]

/-- **C91 (violated).** An empty value of variable size has no bytes, and the receiver skips such items: it keeps the string that it had. -/
theorem C91_violated : ¬ C91_statement := by
  intro h
  have h1 : (runSender sample (Sender.new none) (emptyOps ++ [.send .stale .stale])).map (fun p => p.2.map Prod.fst) =
    some [[.desc 0x1000 "a" stringRest, .value 0x1000 stringRest (.str [97, 98, 99])], [.value 0x1000 stringRest (.str [])]] := by decide +kernel
  have h2 : (runSender sample (Sender.new none) (emptyOps ++ [.send .stale .stale])).bind (fun p => (p.1.grp.getId 0x1000).map (fun y => y.2.value)) = some (some (.str [])) := by decide +kernel
  have h3 : (runSender sample (Sender.new none) (emptyOps ++ [.send .stale .stale])).bind (fun p => (runReceiver sample PyGroup.empty (p.2.map fun h => rxOf 5 h.2)).bind
    (fun g => (g.getId 0x1000).map (fun y => y.2.value))) = some (some (.str [97, 98, 99])) := by decide +kernel
  cases hr : runSender sample (Sender.new none) (emptyOps ++ [.send .stale .stale]) with
  | none => rw [hr] at h1; cases h1
  | some p =>
    obtain ⟨S, hs⟩ := p
    rw [hr, Option.map_some, Option.some.injEq] at h1
    rw [hr, Option.bind_some] at h2 h3
    obtain ⟨r, e1, e2⟩ := h sample sampleText_faithful (by decide) (by decide) none emptyOps .stale .stale
      (by
        intro i n d v hm
        simp only [emptyOps, List.mem_cons, Op.add.injEq, List.not_mem_nil, or_false, reduceCtorEq] at hm
        obtain ⟨_, rfl, rfl, _⟩ := hm
        exact ⟨by intro x hx; simp [Rest.full, stringRest] at hx, by intro t ht; simp [Rest.full, stringRest] at ht⟩)
      (by
        intro op hm
        simp only [emptyOps, List.mem_cons, List.not_mem_nil, or_false] at hm
        rcases hm with rfl | rfl | rfl
        · show 6 < 0x1000; decide
        · intro h; cases h
        · trivial)
      (Or.inr ⟨rfl, by
        intro dm vm hm
        simp only [emptyOps, List.cons_append, List.nil_append, List.mem_cons, List.not_mem_nil, or_false, reduceCtorEq, false_or, Op.send.injEq] at hm
        rcases hm with ⟨rfl, _⟩ | ⟨rfl, _⟩ <;> decide⟩)
      (by decide) (by decide) S hs hr
      (by
        intro h hh
        have hm : h.1 ∈ hs.map Prod.fst := List.mem_map.2 ⟨h, hh, rfl⟩
        rw [h1] at hm
        simp only [List.mem_cons, List.not_mem_nil, or_false] at hm
        rcases hm with e | e
        · rw [e]
          intro x hx
          simp only [List.mem_cons, List.not_mem_nil, or_false] at hx
          rcases hx with rfl | rfl
          · exact described_of (by decide +kernel)
          · exact string_fitting _ (by decide)
        · rw [e]
          intro x hx
          obtain rfl := List.mem_singleton.1 hx
          exact string_fitting _ (by decide))
      _ (forall₂_rxOf 5 hs)
    rw [e1, Option.bind_some] at h3
    cases hg : S.grp.getId 0x1000 with
    | none => rw [hg] at h2; cases h2
    | some y =>
      rw [hg, Option.map_some, Option.some.injEq] at h2
      obtain ⟨o', x', g1, _, _, g4⟩ := e2 0x1000 y.1 y.2 hg
      rw [g1, Option.map_some, Option.some.injEq, g4 _ h2] at h3
      exact absurd h3 (by decide)

end Spead2.PyWire
