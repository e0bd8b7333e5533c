import Verif.Lemmas.CaptureProgress
import Verif.Lemmas.CaptureFormat

/-!
# C78: what mcdump captures

The file is a pcap file that has exactly the packets that were counted, in the order in which they arrived,
each with its time, its length and its first `snaplen` bytes.  `--count` is obeyed, and after the count or
an interrupt everything that was captured is written.  With MPRQ this also holds if receiving fails.
Without, it does not: after a receive error packets can be in the file twice.
-/

namespace Spead2.Cap

/-! ## Small cases -/

def exCfg (mprq : Bool) (count : Option Nat) : Cfg :=
  { mprq := mprq, snaplen := 4, maxRecords := 2, stride := 2, count := count, timestamps := true }

def exInit (mprq : Bool) (count : Option Nat) (nChunks : Nat) : St :=
  St.init (exCfg mprq count) nChunks (fun _ _ => [9, 9]) (fun _ => ⟨7, 7, 7, 7⟩) (fun _ => 7)

def exA : Frame := ⟨[1, 2, 3], 5000000006⟩

def exB : Frame := ⟨[4, 5], 7000000008⟩

/-- Two chunks; three frames; the first chunk is written and used again while the capture goes on. -/
def exOps : List Op :=
  [.coll, .net, .net, .frame exA, .frame exB, .net, .net, .frame exB, .net, .coll, .coll, .net, .net, .net, .coll, .coll, .coll, .coll,
    .frame exA, .net, .interrupt, .net, .net, .coll, .coll, .coll, .coll, .coll, .coll, .coll, .coll]

/-! ## The file -/

/-- **C78 (at every moment).** What has been written is the beginning of the file header followed by the
records of the packets counted so far. -/
theorem C78_prefix (cfg : Cfg) (hM : 0 < cfg.maxRecords) (nChunks : Nat) (mem : Nat → Nat → List UInt8)
    (jh : Nat → Header) (jl : Nat → Nat) (ops : List Op) (hops : ∀ op ∈ ops, OpOk cfg op) :
    (run cfg (St.init cfg nChunks mem jh jl) ops).out <+:
      fileHeader cfg.snaplen ++ ((run cfg (St.init cfg nChunks mem jh jl) ops).delivered.take
        (run cfg (St.init cfg nChunks mem jh jl) ops).packets).flatMap (frameBytes cfg) := by
  have v := run_inv hM ops (init_inv hM nChunks mem jh jl) hops
  rw [← v.bytes, List.append_assoc, List.append_assoc]
  exact List.prefix_append _ _

/-- **C78 (the file).** When mcdump has finished, the file is a pcap file for Ethernet with the snap length,
and its records are those of the packets that were counted, in the order of arrival. -/
theorem C78_file_partial (cfg : Cfg) (hM : 0 < cfg.maxRecords) (hsl : cfg.snaplen < 2 ^ 32) (nChunks : Nat)
    (mem : Nat → Nat → List UInt8) (jh : Nat → Header) (jl : Nat → Nat) (ops : List Op)
    (hops : ∀ op ∈ ops, OpOk cfg op) (hfit : AllFit ops)
    (hfin : (run cfg (St.init cfg nChunks mem jh jl) ops).coll = .finished) :
    readPcap (run cfg (St.init cfg nChunks mem jh jl) ops).out =
      some ⟨cfg.snaplen, 1, ((run cfg (St.init cfg nChunks mem jh jl) ops).delivered.take
        (run cfg (St.init cfg nChunks mem jh jl) ops).packets).map (expectedRec cfg)⟩ := by
  have v := run_inv hM ops (init_inv hM nChunks mem jh jl) hops
  have hd := run_delivered cfg ops (St.init cfg nChunks mem jh jl)
  generalize run cfg (St.init cfg nChunks mem jh jl) ops = s at *
  have hb := v.bytes
  obtain ⟨hr, hn⟩ := v.finP hfin
  rw [hfin, hr, hn] at hb
  simp only [collRest, Net.chunks, List.flatMap_nil, List.append_nil] at hb
  have hmem : ∀ f ∈ s.delivered.take s.packets, Op.frame f ∈ ops := by
    intro f hf
    rcases hd f (List.mem_of_mem_take hf) with h | h
    · cases h
    · exact h
  rw [hb]
  exact file_read hsl _ (fun f hf => hfit f (hmem f hf)) (fun hm f hf => hops _ (hmem f hf) hm)

/-- The packets that the card takes are frames that arrived, in the order in which they arrived. -/
theorem C78_taken (cfg : Cfg) (nChunks : Nat) (mem : Nat → Nat → List UInt8) (jh : Nat → Header) (jl : Nat → Nat)
    (ops : List Op) : (run cfg (St.init cfg nChunks mem jh jl) ops).delivered.Sublist (arrivals ops) := by
  have main : ∀ (ops : List Op) (s : St), (run cfg s ops).delivered.Sublist (s.delivered ++ arrivals ops) := by
    intro ops
    induction ops with
    | nil => intro s; show s.delivered.Sublist (s.delivered ++ []); rw [List.append_nil]
    | cons op ops ih =>
      intro s
      rw [run_cons]
      refine (ih (step cfg s op)).trans ?_
      rcases step_delivered cfg s op with h | ⟨f, rfl, h⟩
      · rw [h]
        refine (List.append_sublist_append_left _).mpr ?_
        unfold arrivals
        rw [List.filterMap_cons]
        split
        · exact List.Sublist.refl _
        · exact List.sublist_cons_self _ _
      · rw [h, List.append_assoc]
        exact List.Sublist.refl _
  exact main ops _

example : (∀ op ∈ exOps, OpOk (exCfg false none) op) ∧ AllFit exOps := by
  constructor
  · intro op hop
    simp only [exOps, List.mem_cons, List.not_mem_nil, or_false] at hop
    rcases hop with rfl | rfl | rfl | rfl | rfl | rfl | rfl | rfl | rfl | rfl | rfl | rfl | rfl | rfl | rfl | rfl | rfl | rfl |
      rfl | rfl | rfl | rfl | rfl | rfl | rfl | rfl | rfl | rfl | rfl | rfl | rfl <;>
      first | exact True.intro | (intro _; decide)
  · intro f hf
    simp only [exOps, List.mem_cons, List.not_mem_nil, or_false, Op.frame.injEq, reduceCtorEq, false_or] at hf
    rcases hf with rfl | rfl | rfl | rfl <;> exact ⟨by decide, by decide⟩

def Coll.isFinished : Coll → Bool
  | .finished => true
  | _ => false

example : (run (exCfg false none) (exInit false none 2) exOps).coll.isFinished = true ∧
    (run (exCfg false none) (exInit false none 2) exOps).packets = 4 ∧
    readPcap (run (exCfg false none) (exInit false none 2) exOps).out =
      some ⟨4, 1, [⟨5, 6, 3, [1, 2, 3]⟩, ⟨7, 8, 2, [4, 5]⟩, ⟨7, 8, 2, [4, 5]⟩, ⟨5, 6, 3, [1, 2, 3]⟩]⟩ := by decide +kernel

/-! ## Counters -/

/-- **C78 (counters).** Never more packets than `--count`; if mcdump finishes without an interrupt it has
exactly as many.  The packets reported have been received, and the bytes reported are their lengths. -/
theorem C78_count (cfg : Cfg) (hM : 0 < cfg.maxRecords) (nChunks : Nat) (mem : Nat → Nat → List UInt8)
    (jh : Nat → Header) (jl : Nat → Nat) (ops : List Op) (hops : ∀ op ∈ ops, OpOk cfg op) :
    (∀ n, cfg.count = some n → (run cfg (St.init cfg nChunks mem jh jl) ops).packets ≤ n) ∧
    ((run cfg (St.init cfg nChunks mem jh jl) ops).coll = .finished →
      (run cfg (St.init cfg nChunks mem jh jl) ops).stop = false →
      cfg.count = some (run cfg (St.init cfg nChunks mem jh jl) ops).packets) ∧
    (run cfg (St.init cfg nChunks mem jh jl) ops).packets ≤ (run cfg (St.init cfg nChunks mem jh jl) ops).delivered.length ∧
    (run cfg (St.init cfg nChunks mem jh jl) ops).bytes =
      (((run cfg (St.init cfg nChunks mem jh jl) ops).delivered.take
        (run cfg (St.init cfg nChunks mem jh jl) ops).packets).map (fun f => f.data.length)).sum := by
  have v := run_inv hM ops (init_inv hM nChunks mem jh jl) hops
  have c := run_cnt hM ops (init_inv hM nChunks mem jh jl) (init_cnt cfg nChunks mem jh jl) hops
  generalize run cfg (St.init cfg nChunks mem jh jl) ops = s at *
  refine ⟨c.le, ?_, v.packetsLe, c.bytes⟩
  intro hf hs
  have ho := c.over (v.finP hf).2
  rcases ho with h | h
  · rw [hs] at h; cases h
  · have hr := c.rem
    rw [h] at hr
    cases hc : cfg.count with
    | none => rw [hc] at hr; cases hr
    | some n =>
      rw [hc] at hr
      have h0 : 0 = n - s.packets := Option.some.inj hr
      have := c.le n hc
      have : n = s.packets := by omega
      rw [this]

/-- With a count of 1: one packet although two arrive. -/
example : (run (exCfg true (some 1)) (exInit true (some 1) 2)
    [.coll, .net, .net, .frame exA, .filler, .frame exB, .net, .net, .net, .coll, .coll, .coll, .coll, .coll]).coll.isFinished = true ∧
  (run (exCfg true (some 1)) (exInit true (some 1) 2)
    [.coll, .net, .net, .frame exA, .filler, .frame exB, .net, .net, .net, .coll, .coll, .coll, .coll, .coll]).packets = 1 := by
  decide +kernel

/-! ## Memory -/

/-- **C78 (memory).** The card never has permission to write where there is a packet that is not yet in the
file. -/
theorem C78_exclusive (cfg : Cfg) (hM : 0 < cfg.maxRecords) (nChunks : Nat) (mem : Nat → Nat → List UInt8)
    (jh : Nat → Header) (jl : Nat → Nat) (ops : List Op) (hops : ∀ op ∈ ops, OpOk cfg op) (c : Chunk)
    (hc : c ∈ held (run cfg (St.init cfg nChunks mem jh jl) ops)) (i : Nat) (hi : i < c.n) :
    c.base i < cfg.maxRecords ∧ (c.id, c.base i) ∉ (run cfg (St.init cfg nChunks mem jh jl) ops).posted := by
  have v := run_inv hM ops (init_inv hM nChunks mem jh jl) hops
  generalize run cfg (St.init cfg nChunks mem jh jl) ops = s at *
  have hu : ∃ pos, Used cfg s c pos := by
    unfold held at hc
    rcases List.mem_append.mp hc with h | h
    · obtain ⟨pos, hu, _⟩ := v.used c h
      exact ⟨pos, hu⟩
    · cases hn : s.net with
      | inner c' e =>
        rw [hn] at h
        obtain ⟨_, pos, cu⟩ := v.cur c' e hn
        rw [List.mem_singleton.mp h]
        exact ⟨pos, cu.used⟩
      | top => rw [hn] at h; cases h
      | pop => rw [hn] at h; cases h
      | done => rw [hn] at h; cases h
  obtain ⟨pos, hu⟩ := hu
  have hb := hu.base i hi
  have hl := hu.le
  refine ⟨by omega, ?_⟩
  intro hm
  have := hu.slot _ (List.mem_append_right _ hm)
  omega

/-- **C78 (memory).** A completion that the network thread looks at is about the chunk that it has taken, the
record that it fills in is within the chunk, and in `capture` the assertion that the index is the number of
records holds. -/
theorem C78_inside (cfg : Cfg) (hM : 0 < cfg.maxRecords) (nChunks : Nat) (mem : Nat → Nat → List UInt8)
    (jh : Nat → Header) (jl : Nat → Nat) (ops : List Op) (hops : ∀ op ∈ ops, OpOk cfg op) (c : Chunk) (e : Nat)
    (hn : (run cfg (St.init cfg nChunks mem jh jl) ops).net = .inner c e)
    (hl : leaves cfg (run cfg (St.init cfg nChunks mem jh jl) ops) c e = false)
    (c' i k len ns : Nat) (last : Bool) (qs : List Cqe)
    (hq : (run cfg (St.init cfg nChunks mem jh jl) ops).cq = .ok c' i k len ns last :: qs) :
    c' = c.id ∧ c.n < cfg.maxRecords ∧ i + k ≤ cfg.maxRecords ∧ (cfg.mprq = false → i = c.n) := by
  have v := run_inv hM ops (init_inv hM nChunks mem jh jl) hops
  generalize run cfg (St.init cfg nChunks mem jh jl) ops = s at *
  obtain ⟨_, pos, cu⟩ := v.cur c e hn
  obtain ⟨hk1, hik, hlast, hkp⟩ := v.cqOk _ (show Cqe.ok c' i k len ns last ∈ s.cq by rw [hq]; simp)
  have hle := cu.used.le
  have hnl := cu.used.nLe
  have hlt : pos < cfg.maxRecords := by
    unfold leaves at hl
    cases hm : cfg.mprq with
    | true =>
      rw [hm] at hl
      simp at hl
      have h2 := cu.full hm
      rw [hl.2.2] at h2
      have : pos ≠ cfg.maxRecords := fun h => by cases h2.mpr h
      omega
    | false =>
      rw [hm] at hl
      simp at hl
      obtain ⟨hpn, _, hleft⟩ := cu.plain hm
      cases hr : s.remaining with
      | none => rw [hr] at hleft; unfold Left at hleft; omega
      | some r => rw [hr] at hleft; obtain ⟨_, h2, _⟩ := hleft; omega
  obtain ⟨h1, h2, _⟩ := consume v hn cu hlt hq rfl hk1 hik
  refine ⟨h1, by omega, hik, ?_⟩
  intro hm
  rw [h2, (cu.plain hm).1]

/-! ## The end -/

/-- **C78 (interrupt).** If both threads keep running, then after an interrupt the capture ends - whatever else
happens, including errors. -/
theorem C78_interrupt (cfg : Cfg) (nChunks : Nat) (hn : 0 < nChunks) (mem : Nat → Nat → List UInt8)
    (jh : Nat → Header) (jl : Nat → Nat) (sched : Nat → Op) (hf : Fair sched) (i : Nat) (hi : sched i = .interrupt) :
    ∃ k, (trace cfg (St.init cfg nChunks mem jh jl) sched k).coll = .finished := by
  have h : (trace cfg (St.init cfg nChunks mem jh jl) sched (i + 1)).stop = true := by
    show (step cfg _ (sched i)).stop = true
    rw [hi]
    rfl
  exact ends hn (init_base cfg nChunks mem jh jl) hf (t0 := i + 1)
    (fun k hk => ending_stop (trace_keeps (P := fun s => s.stop = true) (fun s op h => step_stop h op) h k hk))

/-- **C78 (count).** If both threads keep running, then the capture ends once the count is reached. -/
theorem C78_enough (cfg : Cfg) (hM : 0 < cfg.maxRecords) (nChunks : Nat) (hn : 0 < nChunks)
    (mem : Nat → Nat → List UInt8) (jh : Nat → Header) (jl : Nat → Nat) (sched : Nat → Op) (hf : Fair sched)
    (hops : ∀ i, OpOk cfg (sched i)) (i n : Nat) (hc : cfg.count = some n)
    (hi : (trace cfg (St.init cfg nChunks mem jh jl) sched i).packets = n) :
    ∃ k, (trace cfg (St.init cfg nChunks mem jh jl) sched k).coll = .finished := by
  have v := trace_inv hM (init_inv hM nChunks mem jh jl) hops
  have c := trace_cnt hM (init_inv hM nChunks mem jh jl) (init_cnt cfg nChunks mem jh jl) hops
  have h : (trace cfg (St.init cfg nChunks mem jh jl) sched i).remaining = some 0 := by
    rw [(c i).rem, hc]
    show some (n - _) = some 0
    rw [hi, Nat.sub_self]
  exact ends hn (init_base cfg nChunks mem jh jl) hf (t0 := i)
    (fun k hk => ending_rem (v k) (trace_keeps (P := fun s => s.remaining = some 0) (fun s op h => step_rem h op) h k hk))

/-- A fair schedule with an interrupt. -/
example : Fair (fun i => if i = 4 then .interrupt else if i % 2 = 0 then .net else .coll) := by
  constructor
  · intro i
    refine ⟨2 * i + 6, by omega, ?_⟩
    have h1 : 2 * i + 6 ≠ 4 := by omega
    have h2 : (2 * i + 6) % 2 = 0 := by omega
    simp only [h1, h2, if_true, if_false]
  · intro i
    refine ⟨2 * i + 5, by omega, ?_⟩
    have h1 : 2 * i + 5 ≠ 4 := by omega
    have h2 : (2 * i + 5) % 2 ≠ 0 := by omega
    simp only [h1, h2, if_false]

/-! ## Errors without MPRQ -/

/-- What one would like: the same for all histories. -/
def C78_statement : Prop :=
  ∀ (cfg : Cfg), 0 < cfg.maxRecords → cfg.snaplen < 2 ^ 32 → ∀ (nChunks : Nat) (mem : Nat → Nat → List UInt8)
    (jh : Nat → Header) (jl : Nat → Nat) (ops : List Op), AllFit ops →
    (run cfg (St.init cfg nChunks mem jh jl) ops).coll = .finished →
    readPcap (run cfg (St.init cfg nChunks mem jh jl) ops).out =
      some ⟨cfg.snaplen, 1, ((run cfg (St.init cfg nChunks mem jh jl) ops).delivered.take
        (run cfg (St.init cfg nChunks mem jh jl) ops).packets).map (expectedRec cfg)⟩

/-- One packet, then a frame that is too long for the buffer: the packet is in the file twice. -/
def exBad : List Op :=
  [.coll, .net, .net, .frame exA, .net, .frame ⟨[1, 2, 3, 4, 5], 0⟩, .net, .net, .coll, .coll, .coll, .coll, .net, .net, .interrupt,
    .net, .net, .coll, .coll, .coll, .coll, .coll]

theorem exBad_run : (run (exCfg false none) (exInit false none 1) exBad).coll.isFinished = true ∧
    (run (exCfg false none) (exInit false none 1) exBad).packets = 1 ∧
    readPcap (run (exCfg false none) (exInit false none 1) exBad).out =
      some ⟨4, 1, [⟨5, 6, 3, [1, 2, 3]⟩, ⟨5, 6, 3, [1, 2, 3]⟩]⟩ := by decide +kernel

theorem isFinished_iff {c : Coll} (h : c.isFinished = true) : c = .finished := by
  cases c <;> first | rfl | cases h

theorem C78_violated : ¬ C78_statement := by
  intro h
  have hfit : AllFit exBad := by
    intro f hf
    simp only [exBad, List.mem_cons, List.not_mem_nil, or_false, Op.frame.injEq, reduceCtorEq, false_or] at hf
    rcases hf with rfl | rfl <;> exact ⟨by decide, by decide⟩
  have hr := h (exCfg false none) (by decide) (by decide) 1 (fun _ _ => [9, 9]) (fun _ => ⟨7, 7, 7, 7⟩) (fun _ => 7) exBad hfit
    (isFinished_iff exBad_run.1)
  have h2 := exBad_run.2.2
  unfold exInit at h2
  rw [h2] at hr
  have hl := congrArg (fun o => o.map (fun p : PcapFile => p.records.length)) hr
  simp only [Option.map_some, List.length_map, List.length_take, Option.some.injEq] at hl
  have hp := exBad_run.2.1
  unfold exInit at hp
  rw [hp] at hl
  simp at hl
  omega

end Spead2.Cap
