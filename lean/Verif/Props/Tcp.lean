import Verif.Lemmas.Tcp
import Verif.Props.Stream
import Verif.Props.Mem

/-!
# C27, C28: packets in a TCP byte stream
-/

namespace Spead2
open Spec

theorem framePkt_valid {b : Bytes} {p : Pkt} (h : p ∈ framePkt b) : PktValid p := by
  unfold framePkt at h
  split at h
  · rename_i hd size hdec
    split at h
    · obtain ⟨p', h1, h2, _⟩ := decode_isPacket hdec
      rw [h1] at h
      simp at h
      subst h
      exact h2
    · simp at h
  · simp at h

theorem tcpParse_valid (max : Nat) : ∀ (m : Nat) (d : Bytes), d.length ≤ m → ∀ p ∈ (tcpParse max d).1, PktValid p := by
  intro m
  induction m with
  | zero =>
    intro d hd p hp
    have : d = [] := List.length_eq_zero_iff.1 (by omega)
    subst this
    rw [tcpParse_nil] at hp
    simp at hp
  | succ m ih =>
    intro d hd p hp
    rcases size_cases (d.take (64 * max)) with ⟨h, _⟩ | ⟨n, h, h8, _⟩ | ⟨h, _⟩
    · obtain ⟨h8, e⟩ := tcpParse_malformed (max := max) h
      rw [e] at hp
      exact ih _ (by rw [List.length_drop]; omega) p hp
    · by_cases hm : max < n
      · rw [tcpParse_over h h8 hm] at hp
        split at hp
        · simp at hp
        · exact ih _ (by rw [List.length_drop]; omega) p hp
      · by_cases hl : n ≤ d.length
        · rw [tcpParse_frame h h8 (by omega) hl] at hp
          rcases List.mem_append.1 hp with hp | hp
          · exact framePkt_valid hp
          · exact ih _ (by rw [List.length_drop]; omega) p hp
        · rw [tcpParse_short h h8 (by omega) (by omega)] at hp
          simp at hp
    · by_cases hl : d.length < 64 * max
      · rw [tcpParse_more h hl] at hp
        simp at hp
      · by_cases h0 : 0 < max
        · rw [tcpParse_endless h (by omega) h0] at hp
          exact ih _ (by rw [List.length_drop]; omega) p hp
        · rw [tcpParse, if_neg (show ¬ gps max d = some (-1) by unfold gps; rw [h]; decide), if_pos (show gps max d = some 0 from h), if_neg hl, if_pos (by omega)] at hp
          simp at hp

theorem tcpParseK_valid (max : Nat) (d : Bytes) (k : Nat) : OpsValid ((tcpParseK max d k).1.map .packet) := by
  intro p hp
  obtain ⟨q, hq, e⟩ := List.mem_map.1 hp
  cases e
  unfold tcpParseK at hq
  split at hq
  · exact tcpParse_valid max _ d (Nat.le_refl _) _ hq
  · split at hq
    · simp at hq
    · exact tcpParse_valid max _ _ (Nat.le_refl _) _ hq

/-- The invariant of a reader. -/
structure TcpInv (max : Nat) (r : TcpReader) : Prop where
  len : r.tcp.buffer.length = max * 64
  head : r.tcp.head ≤ r.tcp.tail
  tail : r.tcp.tail ≤ r.tcp.buffer.length
  ready : r.reading = true → ∃ x, Ready max r.tcp x ∧ r.tcp.head ≤ r.tcp.buffer.length / 2

theorem accepted_ready {max : Nat} {fill : UInt8} {r : TcpReader} (h : TcpReader.accepted max fill = some r) :
    r.reading = true ∧ Ready max r.tcp ([], [], 0) ∧ r.tcp.head ≤ r.tcp.buffer.length / 2 := by
  have hr : Ready max (Tcp.new max fill) ([], [], 0) := by
    refine ⟨⟨?_, by simp, fun h => by simp [Tcp.new] at h, fun _ h => by simp [Tcp.new] at h⟩, rfl, ?_, fun _ => rfl, fun h => by simp [Tcp.new] at h, fun _ => Or.inl rfl⟩
    · simp [Tcp.view, Tcp.new]
    · simp [Tcp.new]
  obtain ⟨t', h1, h2, h3⟩ := enqueue_spec hr
  unfold TcpReader.accepted at h
  rw [h1] at h
  simp only [Option.map_some, Option.some.injEq] at h
  subst h
  exact ⟨rfl, h2, h3⟩

theorem Ready.inv {max : Nat} {t : Tcp} {x : List Pkt × Bytes × Nat} (h : Ready max t x) (hh : t.head ≤ t.buffer.length / 2) (b : Bool) :
    TcpInv max ⟨t, b⟩ := by
  obtain ⟨f1, f2, f3, f4⟩ := view_length h.ok.view
  exact ⟨h.len, f2, f3, fun _ => ⟨x, h, hh⟩⟩

theorem step_tcp {cfg : StreamConfig} (hm : 0 < cfg.maxHeaps) (hsub : 0 < cfg.substreams) {max : Nat} {r : TcpReader} (hi : TcpInv max r)
    {s : Stream} {a : AStream} {t0 : List Ev} (rel : Rel cfg s a) (inv : AInv cfg a none) (hst : s.stats = statsOf t0 s.stats.searchDist)
    {ev : TcpEvent} (hf : ReadFits r ev) :
    ∃ r' s' out, r.step cfg max s ev = some (r', s', out) ∧ TcpInv max r' ∧
      ∃ a' t1, Rel cfg s' a' ∧ AInv cfg a' none ∧ s'.stats = statsOf t1 s'.stats.searchDist := by
  obtain ⟨t, reading⟩ := r
  have hb : ∀ (ops : List BatchOp), OpsValid ops → ∃ s' out, s.batch cfg ops = some (s', out) ∧
      ∃ a' t1, Rel cfg s' a' ∧ AInv cfg a' none ∧ s'.stats = statsOf t1 s'.stats.searchDist := by
    intro ops hv
    obtain ⟨a', t', s', q1, q2, q3, q4, q5⟩ := step_refine hm hsub rel inv (.batch ops) hv t0 hst
    exact ⟨s', _, q2, a', _, q3, q4, q5⟩
  have hoff : TcpInv max ⟨t, false⟩ := ⟨hi.len, hi.head, hi.tail, fun h => by cases h⟩
  cases reading with
  | false =>
    refine ⟨_, _, _, by unfold TcpReader.step; rw [if_pos rfl], hi, a, t0, rel, inv, hst⟩
  | true =>
    cases hs : s.stopped with
    | true =>
      refine ⟨_, _, _, by unfold TcpReader.step; rw [if_neg (by simp), if_pos hs], hoff, a, t0, rel, inv, hst⟩
    | false =>
      cases ev with
      | data b =>
        obtain ⟨x, hx, hh⟩ := hi.ready rfl
        obtain ⟨t', s', out, h1, h2, h3, h4⟩ := data_step hm hsub hx rel inv hs b hf (tcpParseK_valid _ _ _)
        obtain ⟨s2, out2, e1, e2⟩ := hb _ (tcpParseK_valid max (x.2.1 ++ b) x.2.2)
        rw [h2] at e1
        cases e1
        refine ⟨_, _, _, h1, ⟨h3.1, h3.2.1, h3.2.2, fun h => ?_⟩, e2⟩
        simp only [Bool.not_eq_true'] at h
        exact ⟨_, h4 h⟩
      | eof =>
        obtain ⟨s2, out2, e1, e2⟩ := hb [.stop] (by intro p hp; simp at hp)
        refine ⟨⟨t, false⟩, s2, out2, ?_, hoff, e2⟩
        unfold TcpReader.step
        rw [if_neg (by simp), if_neg (by simp [hs])]
        simp only
        rw [e1]
        rfl
      | error =>
        obtain ⟨s2, out2, e1, e2⟩ := hb [] (by intro p hp; simp at hp)
        refine ⟨⟨t, false⟩, s2, out2, ?_, hoff, e2⟩
        unfold TcpReader.step
        rw [if_neg (by simp), if_neg (by simp [hs])]
        simp only
        rw [e1]
        rfl

theorem reachable_inv {cfg : StreamConfig} (hm : 0 < cfg.maxHeaps) (hsub : 0 < cfg.substreams) {max : Nat} {r : TcpReader} {s : Stream}
    (h : TcpReachable cfg max r s) : TcpInv max r ∧ ∃ a t, Rel cfg s a ∧ AInv cfg a none ∧ s.stats = statsOf t s.stats.searchDist := by
  induction h with
  | start hv hr ha =>
    obtain ⟨a, t, d, k1, k2, rel, inv, _, _, _, hst⟩ := run_account hm hsub hv hr
    obtain ⟨h1, h2, h3⟩ := accepted_ready ha
    exact ⟨h2.inv h3 _, a, t, rel, inv, hst⟩
  | receive _ hf hs ih =>
    obtain ⟨hi, a, t, rel, inv, hst⟩ := ih
    obtain ⟨r', s', out, h1, h2, h3⟩ := step_tcp hm hsub hi rel inv hst hf
    rw [hs] at h1
    cases h1
    exact ⟨h2, h3⟩
  | other _ hv hs ih =>
    obtain ⟨hi, a, t, rel, inv, hst⟩ := ih
    obtain ⟨a', t', s', q1, q2, q3, q4, q5⟩ := step_refine hm hsub rel inv _ hv t hst
    rw [hs] at q2
    cases q2
    exact ⟨hi, a', _, q3, q4, q5⟩

/-- C28 (memory safety). Whatever the peer sends and however the data is split, for every buffer size: the reader's
pointers stay ordered and inside its buffer, and handling any completed receive reads and writes inside the buffer,
copies no overlapping memory and fails no assertion. -/
theorem C28_safe (cfg : StreamConfig) (hm : 0 < cfg.maxHeaps) (hsub : 0 < cfg.substreams) (max : Nat) {r : TcpReader} {s : Stream}
    (h : TcpReachable cfg max r s) :
    r.tcp.head ≤ r.tcp.tail ∧ r.tcp.tail ≤ r.tcp.buffer.length ∧ r.tcp.buffer.length = max * 64 ∧
      ∀ ev, ReadFits r ev → ∃ r' s' out, r.step cfg max s ev = some (r', s', out) := by
  obtain ⟨hi, a, t, rel, inv, hst⟩ := reachable_inv hm hsub h
  refine ⟨hi.head, hi.tail, hi.len, fun ev hf => ?_⟩
  obtain ⟨r', s', out, h1, _⟩ := step_tcp hm hsub hi rel inv hst hf
  exact ⟨r', s', out, h1⟩

/-- C28 (progress), as the property states it: a reader that waits for data asks for at least one byte. -/
def C28_statement : Prop :=
  ∀ (cfg : StreamConfig) (_ : 0 < cfg.maxHeaps) (_ : 0 < cfg.substreams) (max : Nat) (_ : 0 < max) (r : TcpReader) (s : Stream),
    TcpReachable cfg max r s → r.reading = true → 0 < r.tcp.space

/-- C28 (progress, partial). A reader that waits for data and asks for none has at least half its buffer filled with
one header that is well formed but whose item table has not arrived completely. Missing: the code does not rule this
case out, see `C28_violated`. -/
theorem C28_progress_partial (cfg : StreamConfig) (hm : 0 < cfg.maxHeaps) (hsub : 0 < cfg.substreams) (max : Nat) (hmax : 0 < max)
    {r : TcpReader} {s : Stream} (h : TcpReachable cfg max r s) (hr : r.reading = true) (h0 : r.tcp.space = 0) :
    ∃ d, r.tcp.view = some d ∧ 32 * max ≤ d.length ∧ ¬ Malformed d ∧ (∀ n, ¬ Announces d n) ∧ max < 16384 := by
  obtain ⟨hi, _⟩ := reachable_inv hm hsub h
  obtain ⟨x, hx, hh⟩ := hi.ready hr
  obtain ⟨v1, v2, v3, v4⟩ := view_length hx.ok.view
  have hl := hi.len
  unfold Tcp.space at h0
  have htail : r.tcp.tail = max * 64 := by omega
  by_cases hp : r.tcp.pktSize = 0
  · rcases hx.more hp with h | ⟨h1, h2⟩
    · rw [h] at v1; simp at v1; omega
    · rcases size_cases x.2.1 with ⟨h, _⟩ | ⟨n, h, h8, _⟩ | ⟨_, g1, g2, g3⟩
      · rw [h1] at h; cases h
      · rw [h1] at h; simp only [Option.some.injEq] at h; omega
      · exact ⟨x.2.1, hx.ok.view, by omega, g1, g2, by omega⟩
  · by_cases hk : r.tcp.toSkip = 0
    · have h1 := hx.short (by omega) hk
      have h2 := (hx.ok.size hk (by omega)).2.1
      omega
    · have h := hx.skipped (by omega)
      rw [h] at v1; simp at v1; omega

/-- C28 (progress). With a maximum packet size of at least 16384 (the default is 65536) a reader that waits for data
asks for at least one byte. -/
theorem C28_progress_large (cfg : StreamConfig) (hm : 0 < cfg.maxHeaps) (hsub : 0 < cfg.substreams) (max : Nat) (hmax : 16384 ≤ max)
    {r : TcpReader} {s : Stream} (h : TcpReachable cfg max r s) (hr : r.reading = true) : 0 < r.tcp.space := by
  rcases Nat.eq_zero_or_pos r.tcp.space with h0 | h0
  · obtain ⟨d, _, _, _, _, hlt⟩ := C28_progress_partial cfg hm hsub max (by omega) h hr h0
    omega
  · exact h0

/-- Eight bytes that are not a header, a header that announces 100 items, and the first six items. -/
def stuckData : Bytes := List.replicate 8 0 ++ [0x53, 4, 3, 5, 0, 0, 0, 100] ++ List.replicate 48 0

/-- What a reader with `max_size` 1 does with `stuckData`. -/
def stuckRun : Option (Bool × Nat) :=
  (TcpReader.accepted 1 0).bind (fun r =>
    if stuckData.length ≤ r.tcp.space then
      (r.step ⟨4, 1, true, false, true⟩ 1 (Stream.new ⟨4, 1, true, false, true⟩) (.data stuckData)).map (fun x => (x.1.reading, x.1.tcp.space))
    else none)

theorem stuckRun_eq : stuckRun = some (true, 0) := by decide +kernel

/-- With a small maximum packet size a reader can wait for zero bytes: the receive completes at once, and it does so
again and again without any effect. -/
theorem C28_violated : ¬ C28_statement := by
  intro h
  have hs := stuckRun_eq
  unfold stuckRun at hs
  cases ha : TcpReader.accepted 1 0 with
  | none => rw [ha] at hs; cases hs
  | some r =>
    rw [ha, Option.bind_some] at hs
    split at hs
    · rename_i hf
      cases hst : r.step ⟨4, 1, true, false, true⟩ 1 (Stream.new ⟨4, 1, true, false, true⟩) (.data stuckData) with
      | none => rw [hst] at hs; cases hs
      | some x =>
        obtain ⟨r', s', out⟩ := x
        rw [hst] at hs
        simp only [Option.map_some, Option.some.injEq, Prod.mk.injEq] at hs
        have h1 : TcpReachable ⟨4, 1, true, false, true⟩ 1 r (Stream.new ⟨4, 1, true, false, true⟩) :=
          .start (ops := []) (by simp) rfl ha
        have := h ⟨4, 1, true, false, true⟩ (by decide) (by decide) 1 (by decide) r' s' (.receive (ev := .data stuckData) h1 hf hst) hs.1
        omega
    · cases hs

/-- Every further receive of such a reader leaves everything as it is. -/
theorem C28_stuck_forever (cfg : StreamConfig) (hm : 0 < cfg.maxHeaps) (hsub : 0 < cfg.substreams) (max : Nat) (hmax : 0 < max)
    {r : TcpReader} {s : Stream} (h : TcpReachable cfg max r s) (hr : r.reading = true) (hs : s.stopped = false) (h0 : r.tcp.space = 0)
    (b : Bytes) (hb : ReadFits r (.data b)) : ∃ s', r.step cfg max s (.data b) = some (r, s', []) := by
  obtain ⟨hi, a, t, rel, inv, hst⟩ := reachable_inv hm hsub h
  have hb0 : b = [] := List.length_eq_zero_iff.1 (by unfold ReadFits at hb; omega)
  subst hb0
  obtain ⟨x, hx, hh⟩ := hi.ready hr
  obtain ⟨v1, v2, v3, v4⟩ := view_length hx.ok.view
  have hl := hi.len
  have htail : r.tcp.tail = max * 64 := by unfold Tcp.space at h0; omega
  have hp : r.tcp.pktSize = 0 ∧ x.2.1 ≠ [] := by
    by_cases hp : r.tcp.pktSize = 0
    · refine ⟨hp, fun h => ?_⟩
      rw [h] at v1; simp at v1; omega
    · by_cases hk : r.tcp.toSkip = 0
      · have h1 := hx.short (by omega) hk
        have h2 := (hx.ok.size hk (by omega)).2.1
        omega
      · have h := hx.skipped (by omega)
        rw [h] at v1; simp at v1; omega
  obtain ⟨hp, hne⟩ := hp
  obtain ⟨hz, hlen⟩ := (hx.more hp).resolve_left hne
  obtain ⟨t, reading⟩ := r
  simp only at hr
  subst hr
  have hd0 : t.buffer.take t.tail ++ [] ++ t.buffer.drop (t.tail + ([] : Bytes).length) = t.buffer := by simp
  unfold TcpReader.step
  rw [if_neg (by simp), if_neg (by simp [hs])]
  simp only
  rw [if_neg (by simp), hd0]
  rw [show ({ t with buffer := t.buffer, tail := t.tail + ([] : Bytes).length } : Tcp) = t from rfl]
  have hpl : Tcp.processLoop cfg max (t.buffer.length + 1) t s {} = some (t, s, {}, [], true) := by
    simp only at htail hh hl v1
    rw [Tcp.processLoop, if_pos (by omega)]
    have : t.parsePacketSize max = some (t, true) := by
      unfold Tcp.parsePacketSize
      rw [if_neg (by simp only at hp; omega), hx.ok.view]
      simp only
      rw [hz]
      simp only
      rw [if_neg (by decide), if_pos trivial, if_neg hlen]
    rw [this]
  rw [hpl]
  simp only [if_true]
  have he : t.enqueueReceive = some t := by
    unfold Tcp.enqueueReceive
    simp only at hh htail v2
    rw [if_neg (by omega), if_neg (by omega)]
  rw [he]
  simp only
  unfold Stream.endBatch
  rw [if_neg (by simp)]
  rw [Option.bind_eq_bind, Option.bind_some, if_neg (by simp)]
  exact ⟨_, rfl⟩

/-! ### C27 -/

theorem run_idle (cfg : StreamConfig) (max : Nat) : ∀ (evs : List TcpEvent) (r : TcpReader) (s : Stream), r.reading = false →
    TcpReader.run cfg max evs r s = some (r, s, [])
  | [], _, _, _ => rfl
  | ev :: evs, r, s, h => by
    rw [TcpReader.run, show r.step cfg max s ev = some (r, s, []) by unfold TcpReader.step; rw [if_pos h]]
    simp only
    rw [run_idle cfg max evs r s h]
    rfl

/-- What a sequence of reads does, in terms of the packets that parsing the bytes gives. -/
theorem run_reads {cfg : StreamConfig} (hm : 0 < cfg.maxHeaps) (hsub : 0 < cfg.substreams) {max : Nat} (hmax : 0 < max) :
    ∀ (reads : List Bytes) {r : TcpReader} {s : Stream} {a : AStream} {t0 : List Ev} {x : List Pkt × Bytes × Nat}
      {r' : TcpReader} {s' : Stream} {out : List Entry},
    r.reading = true → Ready max r.tcp x → Rel cfg s a → AInv cfg a none → s.stats = statsOf t0 s.stats.searchDist → s.stopped = false →
    TcpReader.run cfg max (reads.map .data) r s = some (r', s', out) →
    ∃ (ls : List (List BatchOp)) (extra : List Pkt), (∀ op ∈ ls.map StreamOp.batch, op.Valid) ∧
      Stream.run cfg (ls.map .batch) s = some (s', out) ∧ r'.reading = !s'.stopped ∧
      (s'.stopped = false → extra = []) ∧
      (tcpParseK max (x.2.1 ++ reads.flatten) x.2.2).1.map .packet = ls.flatten ++ extra.map .packet ∧
      OpsValid (extra.map .packet)
  | [], r, s, a, t0, x, r', s', out, hr, hx, rel, inv, hst, hs, h => by
    simp only [List.map_nil, TcpReader.run, Option.some.injEq, Prod.mk.injEq] at h
    obtain ⟨rfl, rfl, rfl⟩ := h
    refine ⟨[], [], by simp, rfl, by rw [hr, hs]; rfl, fun _ => rfl, ?_, by intro p hp; simp at hp⟩
    have : (tcpParseK max x.2.1 x.2.2).1 = [] := by
      unfold tcpParseK
      by_cases hk : x.2.2 = 0
      · rw [if_pos hk]
        by_cases hp : r.tcp.pktSize = 0
        · rcases hx.more hp with h | ⟨h1, h2⟩
          · rw [h, tcpParse_nil]
          · rw [tcpParse_more ((gps_eq hx.ok.len).trans h1) (by have := hx.ok.len; omega)]
        · obtain ⟨q1, q2, q3⟩ := hx.ok.size (by rw [hx.skip, hk]) (by omega)
          rw [tcpParse_short ((gps_eq hx.ok.len).trans q1) q3 q2 (hx.short (by omega) (by rw [hx.skip, hk]))]
      · rw [if_neg hk, hx.skipped (by rw [hx.skip]; omega), if_pos (by simp)]
    simp [this]
  | b :: reads, r, s, a, t0, x, r', s', out, hr, hx, rel, inv, hst, hs, h => by
    obtain ⟨t, reading⟩ := r
    simp only at hr
    subst hr
    rw [List.map_cons, TcpReader.run] at h
    have hb : b.length ≤ t.space := by
      rcases Nat.lt_or_ge t.space b.length with hlt | hge
      · rw [show TcpReader.step cfg max ⟨t, true⟩ s (.data b) = none by
          unfold TcpReader.step; rw [if_neg (by simp), if_neg (by simp [hs])]; simp only; rw [if_pos hlt]] at h
        cases h
      · exact hge
    obtain ⟨t', s1, out1, h1, h2, h3, h4⟩ := data_step hm hsub hx rel inv hs b hb (tcpParseK_valid _ _ _)
    rw [h1] at h
    simp only at h
    obtain ⟨a1, e1, s2, q1, q2, q3, q4, q5⟩ := step_refine hm hsub rel inv (.batch ((tcpParseK max (x.2.1 ++ b) x.2.2).1.map .packet)) (tcpParseK_valid _ _ _) t0 hst
    have hstep : s.step cfg (.batch ((tcpParseK max (x.2.1 ++ b) x.2.2).1.map .packet)) = some (s1, out1) := h2
    rw [hstep] at q2
    simp only [Option.some.injEq, Prod.mk.injEq] at q2
    obtain ⟨rfl, rfl⟩ := q2
    have happ : tcpParseK max (x.2.1 ++ (b :: reads).flatten) x.2.2 = tcpThen max (tcpParseK max (x.2.1 ++ b) x.2.2) reads.flatten := by
      rw [List.flatten_cons, ← List.append_assoc, tcpParseK_append hmax]
    rw [happ]
    unfold tcpThen
    cases hs1 : s1.stopped with
    | true =>
      rw [run_idle cfg max _ _ _ (by simp [hs1])] at h
      simp only [Option.some.injEq, Prod.mk.injEq, List.append_nil] at h
      obtain ⟨rfl, rfl, rfl⟩ := h
      refine ⟨[(tcpParseK max (x.2.1 ++ b) x.2.2).1.map .packet], _, ?_, ?_, ?_, ?_, ?_, tcpParseK_valid max ((tcpParseK max (x.2.1 ++ b) x.2.2).2.1 ++ reads.flatten) (tcpParseK max (x.2.1 ++ b) x.2.2).2.2⟩
      · intro op hop
        simp only [List.map_cons, List.map_nil, List.mem_singleton] at hop
        subst hop
        exact tcpParseK_valid _ _ _
      · simp only [List.map_cons, List.map_nil]
        rw [Stream.run, hstep]
        simp [Stream.run]
      · simp
      · intro hc; rw [hs1] at hc; cases hc
      · simp
    | false =>
      cases hrun : TcpReader.run cfg max (reads.map .data) ⟨t', !s1.stopped⟩ s1 with
      | none => rw [hrun] at h; cases h
      | some z =>
        obtain ⟨r2, s2, out2⟩ := z
        rw [hrun] at h
        simp only [Option.some.injEq, Prod.mk.injEq] at h
        obtain ⟨rfl, rfl, rfl⟩ := h
        obtain ⟨hrdy, _⟩ := h4 hs1
        obtain ⟨ls, extra, g1, g2, g3, g4, g5, g6⟩ := run_reads hm hsub hmax reads (by simp [hs1]) hrdy q3 q4 q5 hs1 hrun
        refine ⟨(tcpParseK max (x.2.1 ++ b) x.2.2).1.map .packet :: ls, extra, ?_, ?_, g3, g4, ?_, g6⟩
        · intro op hop
          rw [List.map_cons] at hop
          rcases List.mem_cons.1 hop with rfl | hop
          · exact tcpParseK_valid _ _ _
          · exact g1 op hop
        · rw [List.map_cons, Stream.run, hstep]
          simp only [Option.bind_eq_bind, Option.bind_some]
          rw [g2]
          rfl
        · rw [List.map_append, g5, List.flatten_cons, List.append_assoc]

theorem tcpRun_append (cfg : StreamConfig) (max : Nat) : ∀ (l l' : List TcpEvent) (r : TcpReader) (s : Stream),
    TcpReader.run cfg max (l ++ l') r s = (TcpReader.run cfg max l r s).bind (fun x =>
      (TcpReader.run cfg max l' x.1 x.2.1).map (fun y => (y.1, y.2.1, x.2.2 ++ y.2.2)))
  | [], l', r, s => by
    rw [List.nil_append, TcpReader.run, Option.bind_some]
    simp
  | ev :: l, l', r, s => by
    rw [List.cons_append, TcpReader.run, TcpReader.run]
    cases r.step cfg max s ev with
    | none => rfl
    | some x =>
      obtain ⟨r1, s1, out1⟩ := x
      simp only
      rw [tcpRun_append cfg max l l' r1 s1]
      cases TcpReader.run cfg max l r1 s1 with
      | none => rfl
      | some y =>
        obtain ⟨r2, s2, out2⟩ := y
        simp only [Option.bind_some]
        cases TcpReader.run cfg max l' r2 s2 with
        | none => rfl
        | some z => simp

/-- The end-of-file event, if the connection has been closed. -/
def eofEvent (closed : Bool) : List TcpEvent := if closed then [.eof] else []

/-- C27. Take any stream, with any history, any maximum packet size, any bytes received on a new connection, cut into
reads in any way, possibly followed by the end of the connection. Then the heaps handed over, the heaps that remain
live and whether the stream is stopped are what the packets in the byte stream, given to the stream as one batch,
cause. The packets are determined by the bytes (`TcpPackets`), not by how they were cut. -/
theorem C27_segmentation (cfg : StreamConfig) (hm : 0 < cfg.maxHeaps) (hsub : 0 < cfg.substreams) (max : Nat) (hmax : 0 < max)
    {ops : List StreamOp} (hv : ∀ op ∈ ops, op.Valid) {s : Stream} {out0 : List Entry}
    (h : Stream.run cfg ops (Stream.new cfg) = some (s, out0)) {fill : UInt8} {r : TcpReader} (hr : TcpReader.accepted max fill = some r)
    (reads : List Bytes) (closed : Bool) {r' : TcpReader} {s' : Stream} {out : List Entry}
    (hrun : TcpReader.run cfg max (reads.map .data ++ eofEvent closed) r s = some (r', s', out)) :
    ∃ ps s'', TcpPackets max reads.flatten ps ∧ (∀ ps', TcpPackets max reads.flatten ps' → ps' = ps) ∧
      s.batch cfg (ps.map .packet ++ if closed then [.stop] else []) = some (s'', out) ∧
      (liveHeaps s').Perm (liveHeaps s'') ∧ s'.stopped = s''.stopped ∧ s'.created = s''.created := by
  obtain ⟨a, t, d, k1, k2, rel, inv, _, _, _, hst⟩ := run_account hm hsub hv h
  obtain ⟨g1, g2, g3⟩ := accepted_ready hr
  have hspec := tcpParse_spec hmax _ reads.flatten (Nat.le_refl _)
  refine ⟨(tcpParse max reads.flatten).1, ?_⟩
  have hvalid : OpsValid ((tcpParse max reads.flatten).1.map .packet ++ if closed then [.stop] else []) := by
    intro p hp
    rcases List.mem_append.1 hp with hp | hp
    · exact tcpParseK_valid max reads.flatten 0 p hp
    · cases closed <;> simp at hp
  cases hs : s.stopped with
  | true =>
    have hidle : ∀ l r, ∃ r', TcpReader.run cfg max l r s = some (r', s, []) := by
      intro l
      induction l with
      | nil => exact fun r => ⟨r, rfl⟩
      | cons ev l ih =>
        intro r
        obtain ⟨t, reading⟩ := r
        obtain ⟨r', hr'⟩ := ih ⟨t, false⟩
        refine ⟨r', ?_⟩
        rw [TcpReader.run]
        cases reading with
        | false =>
          rw [show TcpReader.step cfg max ⟨t, false⟩ s ev = some (⟨t, false⟩, s, []) by unfold TcpReader.step; rw [if_pos rfl]]
          simp only
          rw [hr']
          rfl
        | true =>
          rw [show TcpReader.step cfg max ⟨t, true⟩ s ev = some (⟨t, false⟩, s, []) by unfold TcpReader.step; rw [if_neg (by simp), if_pos hs]]
          simp only
          rw [hr']
          rfl
    obtain ⟨r2, hr2⟩ := hidle (reads.map .data ++ eofEvent closed) r
    rw [hr2] at hrun
    simp only [Option.some.injEq, Prod.mk.injEq] at hrun
    obtain ⟨rfl, rfl, rfl⟩ := hrun
    refine ⟨s, hspec, fun ps' h' => tcpPackets_unique h' hspec, ?_, List.Perm.refl _, rfl, rfl⟩
    unfold Stream.batch; rw [if_pos hs]
  | false =>
    rw [tcpRun_append] at hrun
    cases hrd : TcpReader.run cfg max (reads.map .data) r s with
    | none => rw [hrd] at hrun; cases hrun
    | some y =>
      obtain ⟨r1, s1, out1⟩ := y
      rw [hrd, Option.bind_some] at hrun
      obtain ⟨ls, extra, p1, p2, p3, p4, p5, p6⟩ := run_reads hm hsub hmax reads g1 g2 rel inv hst hs hrd
      simp only [List.nil_append, tcpParseK, if_true] at p5
      -- all batches, and what is ignored at the end
      have hall : ∃ (ls' : List (List BatchOp)) (extra' : List BatchOp), (∀ op ∈ ls'.map StreamOp.batch, op.Valid) ∧
          Stream.run cfg (ls'.map .batch) s = some (s', out) ∧ (s'.stopped = false → extra' = []) ∧
          (tcpParse max reads.flatten).1.map BatchOp.packet ++ (if closed then [.stop] else []) = ls'.flatten ++ extra' := by
        cases closed with
        | false =>
          simp only [eofEvent, Bool.false_eq_true, if_false, TcpReader.run, Option.map_some, Option.some.injEq, Prod.mk.injEq, List.append_nil] at hrun
          obtain ⟨rfl, rfl, rfl⟩ := hrun
          exact ⟨ls, extra.map .packet, p1, p2, fun h => by rw [p4 h]; rfl, by simp [p5]⟩
        | true =>
          simp only [eofEvent, if_true, TcpReader.run] at hrun
          cases hs1 : s1.stopped with
          | true =>
            rw [show r1.step cfg max s1 .eof = some (r1, s1, []) by unfold TcpReader.step; rw [if_pos (by rw [p3, hs1]; rfl)]] at hrun
            simp only [Option.map_some, Option.some.injEq, Prod.mk.injEq, List.append_nil] at hrun
            obtain ⟨rfl, rfl, rfl⟩ := hrun
            exact ⟨ls, extra.map BatchOp.packet ++ [BatchOp.stop], p1, p2, (fun h => by rw [hs1] at h; cases h), by simp [p5]⟩
          | false =>
            unfold TcpReader.step at hrun
            rw [if_neg (by rw [p3, hs1]; simp), if_neg (by simp [hs1])] at hrun
            simp only at hrun
            cases hb : s1.batch cfg [.stop] with
            | none => rw [hb] at hrun; cases hrun
            | some z =>
              obtain ⟨s2, out2⟩ := z
              rw [hb] at hrun
              simp only [Option.map_some, Option.some.injEq, Prod.mk.injEq, List.append_nil] at hrun
              obtain ⟨rfl, rfl, rfl⟩ := hrun
              have hra : ∀ (l : List StreamOp) (s0 : Stream), Stream.run cfg (l ++ [.batch [.stop]]) s0 = (Stream.run cfg l s0).bind (fun x => (x.1.batch cfg [.stop]).map (fun y => (y.1, x.2 ++ y.2))) := by
                intro l
                induction l with
                | nil =>
                  intro s0
                  simp only [List.nil_append, Stream.run, Option.bind_some, Stream.step]
                  cases s0.batch cfg [.stop] <;> simp
                | cons op l ih =>
                  intro s0
                  rw [List.cons_append, Stream.run, Stream.run]
                  cases s0.step cfg op with
                  | none => rfl
                  | some x =>
                    simp only [Option.bind_eq_bind, Option.bind_some]
                    rw [ih]
                    cases Stream.run cfg l x.1 with
                    | none => rfl
                    | some y =>
                      simp only [Option.bind_some]
                      cases y.1.batch cfg [.stop] <;> simp
              refine ⟨ls ++ [[.stop]], [], ?_, ?_, fun _ => rfl, ?_⟩
              · intro op hop
                rw [List.map_append] at hop
                rcases List.mem_append.1 hop with hop | hop
                · exact p1 op hop
                · simp only [List.map_cons, List.map_nil, List.mem_singleton] at hop
                  subst hop
                  intro p hp
                  simp at hp
              · rw [List.map_append, List.map_cons, List.map_nil, hra, p2]
                simp only [Option.bind_some]
                rw [hb]
                rfl
              · rw [p5, p4 hs1]; simp
      obtain ⟨ls', extra', w1, w2, w3, w4⟩ := hall
      obtain ⟨a', t', s2, q1, q2, q3, q4, q5⟩ := run_refine hm hsub (ls'.map .batch) w1 rel inv t hst
      rw [w2] at q2
      simp only [Option.some.injEq, Prod.mk.injEq] at q2
      obtain ⟨rfl, rfl⟩ := q2
      obtain ⟨t2, e1, e2⟩ := batches_merge cfg extra' ls' (by rw [← rel.stopped]; exact hs) q1 (fun h => w3 (by rw [q3.stopped]; exact h))
      rw [← w4] at e1
      obtain ⟨a3, t3, s3, f1, f2, f3, f4, _⟩ := step_refine hm hsub rel inv (.batch ((tcpParse max reads.flatten).1.map BatchOp.packet ++ if closed then [BatchOp.stop] else [])) hvalid t hst
      rw [e1] at f1
      simp only [Option.some.injEq, Prod.mk.injEq] at f1
      obtain ⟨rfl, rfl⟩ := f1
      refine ⟨s3, hspec, fun ps' h' => tcpPackets_unique h' hspec, ?_, ?_, ?_, ?_⟩
      · rw [← e2]; exact f2
      · exact (liveHeaps_perm hm q3 q4).trans (liveHeaps_perm hm f3 f4).symm
      · rw [q3.stopped, f3.stopped]
      · rw [q3.created, f3.created]

/-- C27. Two connections that receive the same bytes, cut in different ways, on streams in the same state, hand over
the same heaps in the same order and leave the same heaps live. -/
theorem C27_independent (cfg : StreamConfig) (hm : 0 < cfg.maxHeaps) (hsub : 0 < cfg.substreams) (max : Nat) (hmax : 0 < max)
    {ops : List StreamOp} (hv : ∀ op ∈ ops, op.Valid) {s : Stream} {out0 : List Entry}
    (h : Stream.run cfg ops (Stream.new cfg) = some (s, out0)) {fill1 fill2 : UInt8} {r1 r2 : TcpReader}
    (hr1 : TcpReader.accepted max fill1 = some r1) (hr2 : TcpReader.accepted max fill2 = some r2)
    (reads1 reads2 : List Bytes) (hsame : reads1.flatten = reads2.flatten) (closed : Bool) {r1' r2' : TcpReader} {s1' s2' : Stream} {out1 out2 : List Entry}
    (hrun1 : TcpReader.run cfg max (reads1.map .data ++ eofEvent closed) r1 s = some (r1', s1', out1))
    (hrun2 : TcpReader.run cfg max (reads2.map .data ++ eofEvent closed) r2 s = some (r2', s2', out2)) :
    out1 = out2 ∧ (liveHeaps s1').Perm (liveHeaps s2') ∧ s1'.stopped = s2'.stopped := by
  obtain ⟨ps1, t1, a1, a2, a3, a4, a5, _⟩ := C27_segmentation cfg hm hsub max hmax hv h hr1 reads1 closed hrun1
  obtain ⟨ps2, t2, b1, b2, b3, b4, b5, _⟩ := C27_segmentation cfg hm hsub max hmax hv h hr2 reads2 closed hrun2
  rw [← hsame] at b1
  have := a2 ps2 b1
  subst this
  rw [a3] at b3
  cases b3
  exact ⟨rfl, a4.trans b4.symm, a5.trans b5.symm⟩

/-- The number of heaps handed over and left live when `reads` arrive on a new connection. -/
def tcpSample (max : Nat) (reads : List Bytes) (closed : Bool) : Option (Nat × Nat × Bool) :=
  (TcpReader.accepted max 0).bind (fun r =>
    (TcpReader.run ⟨4, 1, true, false, true⟩ max (reads.map .data ++ eofEvent closed) r (Stream.new ⟨4, 1, true, false, true⟩)).map
      (fun x => (x.2.2.length, (liveHeaps x.2.1).length, x.2.1.stopped)))

-- junk, a packet that is cut in the middle, the first half of another one
example : tcpSample 300 [List.replicate 5 0, List.replicate 11 0 ++ (encodedOr 40 0 sampleDescriptor).take 50,
    (encodedOr 40 0 sampleDescriptor).drop 50 ++ (encodedOr 40 0 sampleDescriptor).take 60] true = some (1, 0, true) := by decide +kernel

-- a packet longer than the maximum is skipped, whatever it contains; the next one is received
example : tcpSample 300 [[0x53, 4, 3, 5, 0, 0, 0, 1], [0x80, 0, 4], [0, 0, 0, 1, 44], List.replicate 100 0x53, List.replicate 200 0x53 ++ encodedOr 40 0 sampleDescriptor] true = some (1, 0, true) := by decide +kernel

end Spead2
