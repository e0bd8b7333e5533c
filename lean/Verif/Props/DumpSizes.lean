import Verif.Lemmas.DumpSizes
import Verif.Props.DumpCapture
import Verif.Props.DumpWriter

/-!
# C80: the buffers of mcdump

For every snap length from 1 to 2^31-1, every `--net-buffer` and every card there are chunks with slots, they
take as much memory as was asked for but no more, every slot has room for a packet of the snap length and
overlaps no other, and all are given to the card.  The queues fit the card.  The number of memory regions
does not have to (without MPRQ), nor the number of completions (with MPRQ).
-/

namespace Spead2.Sizes

/-- **C80 (without MPRQ).** At least one chunk and one slot; chunks are exactly as large as their slots; no more
completions or receives are asked for than the card can do, and one for each slot; no more memory than
`--net-buffer` or, if that is smaller, one chunk of at most 2 MiB or one packet; and one more chunk would be too
much for the memory or for the card. -/
theorem C80_plain_partial {snaplen netBuffer : Nat} (dev : Device) (h0 : 0 < snaplen) (h1 : snaplen < 2 ^ 31)
    (h2 : netBuffer < 2 ^ 64) (hd : dev.Usable) :
    ∃ s, plainSizes snaplen netBuffer dev = some s ∧ 0 < s.maxRecords ∧ 0 < s.nChunks ∧
      s.chunkSize = s.maxRecords * snaplen ∧
      (plainRequest s).cqe = s.nChunks * s.maxRecords ∧ (plainRequest s).wr = s.nChunks * s.maxRecords ∧
      (plainRequest s).cqe ≤ dev.maxCqe ∧ (plainRequest s).wr ≤ dev.maxQpWr ∧
      (plainRequest s).bytes ≤ max netBuffer (max snaplen (2 * 1024 * 1024)) ∧
      (netBuffer < (s.nChunks + 1) * s.chunkSize ∨ min dev.maxCqe dev.maxQpWr < (s.nChunks + 1) * s.maxRecords) := by
  obtain ⟨d1, d2, d3, d4, d5, d6⟩ := hd
  have hr := records0_le snaplen h0
  have hp := records0_pos snaplen
  have hc := chunks0_pos netBuffer (records0 snaplen * snaplen)
  have hcl := chunks0_le netBuffer (records0 snaplen * snaplen)
  have hcm := chunks0_most netBuffer (records0 snaplen * snaplen) (Nat.mul_pos hp h0)
  have hm1 : min dev.maxCqe dev.maxQpWr ≤ dev.maxCqe := Nat.min_le_left _ _
  have hm2 : min dev.maxCqe dev.maxQpWr ≤ dev.maxQpWr := Nat.min_le_right _ _
  have hm3 : 0 < min dev.maxCqe dev.maxQpWr := by omega
  rw [plainSizes_eq dev h0 h1 h2]
  generalize min dev.maxCqe dev.maxQpWr = slots at *
  generalize records0 snaplen = R0 at *
  generalize chunks0 netBuffer (R0 * snaplen) = C at *
  generalize hR : (if slots < R0 then slots else R0) = R
  have hR0 : 0 < R := by
    rw [← hR]
    split <;> omega
  have hRs : R ≤ slots := by
    rw [← hR]
    split <;> omega
  have hRR : R ≤ R0 := by
    rw [← hR]
    split <;> omega
  have hRm : R * snaplen ≤ R0 * snaplen := Nat.mul_le_mul_right _ hRR
  split
  · rename_i hlt
    rw [if_neg (by omega)]
    have hq : 0 < slots / R := Nat.div_pos hRs hR0
    have hq2 : slots / R * R ≤ slots := Nat.div_mul_le_self _ _
    have hq3 : slots / R < C := by
      rw [Nat.div_lt_iff_lt_mul hR0]
      exact hlt
    have hsm : u32 (slots / R * R) = slots / R * R := u32_small (by omega)
    refine ⟨_, rfl, hR0, hq, Nat.mul_comm _ _, hsm, hsm, ?_, ?_, ?_, Or.inr ?_⟩
    · show u32 (slots / R * R) ≤ _
      omega
    · show u32 (slots / R * R) ≤ _
      omega
    · show slots / R * (snaplen * R) ≤ _
      have h3 : slots / R * (snaplen * R) ≤ C * (R0 * snaplen) := by
        rw [Nat.mul_comm snaplen R]
        exact Nat.mul_le_mul (by omega) hRm
      omega
    · show slots < (slots / R + 1) * R
      have h3 := Nat.div_add_mod slots R
      have h4 := Nat.mod_lt slots hR0
      rw [Nat.add_mul, Nat.mul_comm (slots / R) R]
      omega
  · rename_i hge
    have hsm : u32 (C * R) = C * R := u32_small (by omega)
    refine ⟨_, rfl, hR0, hc, Nat.mul_comm _ _, hsm, hsm, ?_, ?_, ?_, ?_⟩
    · show u32 (C * R) ≤ _
      omega
    · show u32 (C * R) ≤ _
      omega
    · show C * (snaplen * R) ≤ _
      have h3 : C * (snaplen * R) ≤ C * (R0 * snaplen) := by
        rw [Nat.mul_comm snaplen R]
        exact Nat.mul_le_mul_left _ hRm
      omega
    · by_cases hs : slots < R0
      · right
        rw [if_pos hs] at hR
        show slots < (C + 1) * R
        rw [hR, Nat.add_mul]
        have : 0 < C * R := Nat.mul_pos hc hR0
        omega
      · left
        rw [if_neg hs] at hR
        show netBuffer < (C + 1) * (snaplen * R)
        rw [← hR, Nat.mul_comm snaplen R0]
        exact hcm

/-- The defaults with a card that has 32768 receives. -/
example : plainSizes 9230 (128 * 1024 * 1024) ⟨4194303, 32768, 100000⟩ = some ⟨227, 64, 2095210⟩ := by decide +kernel

/-- A card with few receives: the number of slots per chunk is reduced. -/
example : plainSizes 64 (128 * 1024 * 1024) ⟨4194303, 1000, 100000⟩ = some ⟨1000, 1, 64000⟩ := by decide +kernel

/-- **C80 (a snap length of 0).** mcdump divides by zero exactly if the snap length is 0: nothing rejects it. -/
theorem C80_zero {snaplen netBuffer : Nat} (dev : Device) (h1 : snaplen < 2 ^ 31) (h2 : netBuffer < 2 ^ 64)
    (hd : dev.Usable) : plainSizes snaplen netBuffer dev = none ↔ snaplen = 0 := by
  constructor
  · intro h
    apply Decidable.byContradiction
    intro h0
    obtain ⟨s, hs, _⟩ := C80_plain_partial dev (Nat.pos_of_ne_zero h0) h1 h2 hd
    rw [hs] at h
    cases h
  · intro h
    rw [h]
    rfl

/-- **C80 (with MPRQ).** The queue has strides of exactly the size that the capture calculates with and as many
as it expects, both within the ranges of the card; strides of 64 bytes and chunks of 2 MiB, or as near to that as the card
can do; at least one chunk; not more chunks than receives or memory
regions; not more memory than `--net-buffer` or one chunk; and one more chunk would be too much. -/
theorem C80_mprq_partial {netBuffer : Nat} (dev : Device) (caps : Striding) (hd : dev.Usable)
    (hc : caps.Usable) :
    ∃ s a b, mprqSizes netBuffer dev caps = some s ∧ 0 < s.maxRecords ∧ 0 < s.nChunks ∧
      mprqShape s = some (a, b) ∧ 2 ^ b = s.maxRecords ∧ s.maxRecords * 2 ^ a = s.chunkSize ∧
      s.chunkSize / s.maxRecords = 2 ^ a ∧
      caps.minStride ≤ a ∧ a ≤ caps.maxStride ∧ caps.minStrides ≤ b ∧ b ≤ caps.maxStrides ∧
      (mprqRequest s).wr = s.nChunks ∧ (mprqRequest s).wr ≤ dev.maxQpWr ∧ (mprqRequest s).regions ≤ dev.maxMr ∧
      (mprqRequest s).bytes ≤ max netBuffer s.chunkSize ∧
      (netBuffer < (s.nChunks + 1) * s.chunkSize ∨ s.nChunks = min dev.maxQpWr dev.maxMr) ∧
      Nearest 6 caps.minStride caps.maxStride a ∧
      (a ≤ 21 → Nearest (21 - a) caps.minStrides caps.maxStrides b) := by
  obtain ⟨d1, d2, d3, d4, d5, d6⟩ := hd
  obtain ⟨c1, c2, c3, c4⟩ := hc
  have near1 := clamp_near (v := 6) c1
  have near2 := clamp_near (v := u32 (u64 (2 ^ 64 + 21 - clamp 6 caps.minStride caps.maxStride))) c2
  obtain ⟨a1, a2⟩ := clamp_mem (v := 6) c1
  obtain ⟨b1, b2⟩ := clamp_mem (v := u32 (u64 (2 ^ 64 + 21 - clamp 6 caps.minStride caps.maxStride))) c2
  unfold mprqSizes
  dsimp only
  generalize clamp (u32 (u64 (2 ^ 64 + 21 - clamp 6 caps.minStride caps.maxStride))) caps.minStrides caps.maxStrides = b at *
  generalize clamp 6 caps.minStride caps.maxStride = a at *
  have hb : 0 < 2 ^ b := Nat.two_pow_pos b
  have ha : 0 < 2 ^ a := Nat.two_pow_pos a
  have hpow : 2 ^ b * 2 ^ a = 2 ^ (b + a) := (Nat.pow_add 2 b a).symm
  have hlt : 2 ^ (b + a) < 2 ^ 32 := Nat.pow_lt_pow_right (by omega) (by omega)
  have hpos : 0 < 2 ^ b * 2 ^ a := Nat.mul_pos hb ha
  have e1 : u64 (2 ^ b * 2 ^ a) = 2 ^ b * 2 ^ a := u64_small (by omega)
  rw [e1, if_neg (by omega)]
  have e3 : (if netBuffer / (2 ^ b * 2 ^ a) = 0 then 1 else netBuffer / (2 ^ b * 2 ^ a)) =
    chunks0 netBuffer (2 ^ b * 2 ^ a) := rfl
  rw [e3]
  have hcp := chunks0_pos netBuffer (2 ^ b * 2 ^ a)
  have hcl := chunks0_le netBuffer (2 ^ b * 2 ^ a)
  have hcm := chunks0_most netBuffer (2 ^ b * 2 ^ a) hpos
  have hdiv : 2 ^ b * 2 ^ a / 2 ^ b = 2 ^ a := Nat.mul_div_cancel_left _ hb
  generalize chunks0 netBuffer (2 ^ b * 2 ^ a) = C at *
  have hm1 : min dev.maxQpWr dev.maxMr ≤ dev.maxQpWr := Nat.min_le_left _ _
  have hm2 : min dev.maxQpWr dev.maxMr ≤ dev.maxMr := Nat.min_le_right _ _
  have hm3 : 0 < min dev.maxQpWr dev.maxMr := by omega
  generalize min dev.maxQpWr dev.maxMr = D at *
  generalize hN : (if D < C then D else C) = N
  have hN0 : 0 < N := by
    rw [← hN]
    split <;> omega
  have hND : N ≤ D := by
    rw [← hN]
    split <;> omega
  have hNC : N ≤ C := by
    rw [← hN]
    split <;> omega
  have hw : u32 N = N := u32_small (by omega)
  refine ⟨_, a, b, rfl, hb, hN0, ?_, rfl, rfl, hdiv, a1, a2, b1, b2, hw, ?_, ?_, ?_, ?_, near1, ?_⟩
  · show (match log2i (2 ^ b * 2 ^ a / 2 ^ b), log2i (2 ^ b) with
      | some a, some b => some (a, b)
      | _, _ => none) = _
    rw [hdiv, log2i_pow, log2i_pow]
  · show u32 N ≤ _
    omega
  · show N ≤ _
    omega
  · show N * (2 ^ b * 2 ^ a) ≤ max netBuffer (2 ^ b * 2 ^ a)
    exact Nat.le_trans (Nat.mul_le_mul_right _ hNC) hcl
  · by_cases h : D < C
    · rw [if_pos h] at hN
      exact Or.inr hN.symm
    · rw [if_neg h] at hN
      left
      show netBuffer < (N + 1) * (2 ^ b * 2 ^ a)
      rw [← hN]
      exact hcm
  · intro h21
    have e : u32 (u64 (2 ^ 64 + 21 - a)) = 21 - a := by
      unfold u32 u64
      omega
    rw [e] at near2
    exact near2

/-- The defaults with a ConnectX-5: chunks of 2 MiB with strides of 64 bytes. -/
example : mprqSizes (128 * 1024 * 1024) ⟨4194303, 32768, 100000⟩ ⟨6, 13, 9, 16⟩ = some ⟨32768, 64, 2 * 1024 * 1024⟩ := by
  decide +kernel

/-- **C80 (slots).** Every slot of a chunk lies inside the chunk's memory, has room for a packet of the snap length,
is where the data of the record is read from, and shares no byte with another. -/
theorem C80_slots (snaplen maxRecords storage : Nat) :
    (makeChunk snaplen maxRecords storage).length = maxRecords ∧
    (∀ (i : Nat) (e : Entry), (makeChunk snaplen maxRecords storage)[i]? = some e → e.wrId = i ∧ e.length = snaplen ∧
      e.iovBase = e.addr ∧ ∀ p, e.covers p → storage ≤ p ∧ p < storage + maxRecords * snaplen) ∧
    (∀ (i j : Nat) (e f : Entry) (p : Nat), (makeChunk snaplen maxRecords storage)[i]? = some e →
      (makeChunk snaplen maxRecords storage)[j]? = some f → e.covers p → f.covers p → i = j) := by
  have key : ∀ (i : Nat) (e : Entry), (makeChunk snaplen maxRecords storage)[i]? = some e → i < maxRecords ∧
      e = { wrId := i, next := if i + 1 < maxRecords then some (i + 1) else none
            addr := storage + i * snaplen, length := snaplen, iovBase := storage + i * snaplen } := by
    intro i e h
    obtain ⟨hi, -⟩ := List.getElem?_eq_some_iff.1 h
    rw [makeChunk_length] at hi
    rw [makeChunk_get hi] at h
    exact ⟨hi, (Option.some.inj h).symm⟩
  refine ⟨makeChunk_length _ _ _, ?_, ?_⟩
  · intro i e h
    obtain ⟨hi, rfl⟩ := key i e h
    refine ⟨rfl, rfl, rfl, ?_⟩
    intro p hp
    have h1 : storage + i * snaplen ≤ p := hp.1
    have h2 : p < storage + i * snaplen + snaplen := hp.2
    have h3 : (i + 1) * snaplen ≤ maxRecords * snaplen := Nat.mul_le_mul_right _ hi
    rw [Nat.add_mul] at h3
    omega
  · intro i j e f p he hf h h'
    obtain ⟨hi, rfl⟩ := key i e he
    obtain ⟨hj, rfl⟩ := key j f hf
    have h1 : storage + i * snaplen ≤ p := h.1
    have h2 : p < storage + i * snaplen + snaplen := h.2
    have h3 : storage + j * snaplen ≤ p := h'.1
    have h4 : p < storage + j * snaplen + snaplen := h'.2
    apply Decidable.byContradiction
    intro hne
    rcases Nat.lt_or_gt_of_ne hne with hlt | hlt
    · have h5 : (i + 1) * snaplen ≤ j * snaplen := Nat.mul_le_mul_right _ hlt
      rw [Nat.add_mul] at h5
      omega
    · have h5 : (j + 1) * snaplen ≤ i * snaplen := Nat.mul_le_mul_right _ hlt
      rw [Nat.add_mul] at h5
      omega

/-- **C80 (posting).** Posting a chunk gives the card all its slots, in order, each once. -/
theorem C80_posted (snaplen maxRecords storage fuel : Nat) (h : 0 < maxRecords) (hf : maxRecords ≤ fuel) :
    follow (makeChunk snaplen maxRecords storage) fuel 0 = makeChunk snaplen maxRecords storage := by
  rw [follow_all fuel 0 h (by omega), List.drop_zero]

example : (follow (makeChunk 10 3 1000) 3 0).map (fun e => (e.wrId, e.addr, e.length)) =
    [(0, 1000, 10), (1, 1010, 10), (2, 1020, 10)] := rfl

/-! ## What does not hold -/

/-- What the user relies on: mcdump adapts its buffers to the limits of the card. -/
def C80_statement : Prop :=
  ∀ snaplen netBuffer dev s, 0 < snaplen → snaplen < 2 ^ 31 → netBuffer < 2 ^ 64 → dev.Usable →
    plainSizes snaplen netBuffer dev = some s → (plainRequest s).Within dev

/-- **C80 is violated:** a card with 32 memory regions is asked for 64, because the number that
`capture::sizes` calculates from the limit is not used. -/
theorem C80_violated : ¬ C80_statement := by
  intro h
  have h' := h 9230 (128 * 1024 * 1024) ⟨4194303, 32768, 32⟩ ⟨227, 64, 2095210⟩ (by decide) (by decide) (by decide)
    (by unfold Device.Usable; decide) (by decide +kernel)
  exact absurd h'.2.2 (by decide)

def C80_mprq_statement : Prop :=
  ∀ netBuffer dev caps s, netBuffer < 2 ^ 64 → dev.Usable → caps.Usable →
    mprqSizes netBuffer dev caps = some s → (mprqRequest s).Within dev

/-- **C80 is violated (with MPRQ):** with `--net-buffer` of 512 MiB a card with 4194303 completions is asked for
8388608. -/
theorem C80_mprq_violated : ¬ C80_mprq_statement := by
  intro h
  have h' := h (512 * 1024 * 1024) ⟨4194303, 32768, 100000⟩ ⟨6, 13, 9, 16⟩ ⟨32768, 256, 2 * 1024 * 1024⟩ (by decide)
    (by unfold Device.Usable; decide) (by unfold Striding.Usable; decide) (by decide +kernel)
  exact absurd h'.1 (by decide +kernel)

/-! ## From the options to the file -/

/-- The writer gets the output of a capture that has come to its end. -/
theorem pipeline {diskBuffer : Nat} {diskAffinity : List Nat} {cfg : Cap.Cfg} (hM : 0 < cfg.maxRecords)
    (hsl : cfg.snaplen < 2 ^ 32) {n : Nat} {mem : Nat → Nat → List UInt8} {jh : Nat → Cap.Header} {jl : Nat → Nat}
    {ops : List Cap.Op} (hfit : Cap.AllFit ops) (hops : ∀ op ∈ ops, Cap.OpOk cfg op) {fin : Cap.St}
    (hrun : fin = Cap.run cfg (Cap.St.init cfg n mem jh jl) ops) (hfin : fin.coll = .finished)
    {bufs : List (List UInt8)} (hb : bufs.length = Dump.computeDepth (8 * 1024 * 1024) diskBuffer)
    (hbl : ∀ d ∈ bufs, d.length = 8 * 1024 * 1024) {calls : List (List UInt8)} (hcalls : calls.flatten = fin.out)
    {wops : List Dump.Op} {w : Dump.St}
    (hw : w = Dump.run (8 * 1024 * 1024) bufs.length (Dump.St.init bufs (Dump.numThreads diskAffinity) calls) wops)
    (hclosed : Dump.Closed w) :
    Cap.readPcap w.file = some ⟨cfg.snaplen, 1, (fin.delivered.take fin.packets).map (Cap.expectedRec cfg)⟩ := by
  obtain ⟨z1, z2, -⟩ := Dump.C77_sizes (B := 8 * 1024 * 1024) (by omega) diskBuffer diskAffinity
  have hne : bufs ≠ [] := by
    intro h
    rw [h] at hb
    rw [← hb] at z1
    cases z1
  rw [hw] at hclosed
  rw [hw, Dump.C77_contents (by omega) hne hbl z2 wops hclosed, hcalls]
  rw [hrun] at hfin
  rw [hrun]
  exact Cap.C78_file_partial cfg hM hsl n mem jh jl ops hops hfit hfin

/-- **C77, C78 and C80 together (without MPRQ).** Whatever the snap length, the buffer sizes, the card and the
number of disk threads are: if the capture has come to its end without receive errors and its output (in
whatever pieces) has been written by the writer until `close` returned, the file is a pcap file with the snap
length, and its records are those of the packets that were counted, in the order of arrival. -/
theorem C80_pipeline_partial {snaplen netBuffer diskBuffer : Nat} {diskAffinity : List Nat} (dev : Device) (h0 : 0 < snaplen)
    (h1 : snaplen < 2 ^ 31) (h2 : netBuffer < 2 ^ 64) (hd : dev.Usable) (count : Option Nat) (timestamps : Bool)
    (mem : Nat → Nat → List UInt8) (jh : Nat → Cap.Header) (jl : Nat → Nat) (ops : List Cap.Op)
    (hfit : Cap.AllFit ops) {s : Scheme} (hs : plainSizes snaplen netBuffer dev = some s) {cfg : Cap.Cfg}
    (hcfg : cfg = { mprq := false, snaplen := snaplen, maxRecords := s.maxRecords, stride := 0, count := count
                    timestamps := timestamps })
    (hops : ∀ op ∈ ops, Cap.OpOk cfg op) {fin : Cap.St} (hrun : fin = Cap.run cfg (Cap.St.init cfg s.nChunks mem jh jl) ops)
    (hfin : fin.coll = .finished) {bufs : List (List UInt8)}
    (hb : bufs.length = Dump.computeDepth (8 * 1024 * 1024) diskBuffer) (hbl : ∀ d ∈ bufs, d.length = 8 * 1024 * 1024)
    {calls : List (List UInt8)} (hcalls : calls.flatten = fin.out) (wops : List Dump.Op) {w : Dump.St}
    (hw : w = Dump.run (8 * 1024 * 1024) bufs.length (Dump.St.init bufs (Dump.numThreads diskAffinity) calls) wops)
    (hclosed : Dump.Closed w) :
    Cap.readPcap w.file = some ⟨snaplen, 1, (fin.delivered.take fin.packets).map (Cap.expectedRec cfg)⟩ := by
  obtain ⟨s', hs', hr, -⟩ := C80_plain_partial (netBuffer := netBuffer) dev h0 h1 h2 hd
  rw [hs] at hs'
  obtain rfl := Option.some.inj hs'
  have hsl : cfg.snaplen = snaplen := by rw [hcfg]
  have := pipeline (by rw [hcfg]; exact hr) (by rw [hsl]; omega) hfit hops hrun hfin hb hbl hcalls hw hclosed
  rw [hsl] at this
  exact this

/-- **C77, C78 and C80 together (with MPRQ).** The same, even if there are receive errors and packets longer
than the snap length. -/
theorem C80_pipeline_mprq {snaplen netBuffer diskBuffer : Nat} {diskAffinity : List Nat} (dev : Device)
    (h1 : snaplen < 2 ^ 31) (hd : dev.Usable) (caps : Striding) (hc : caps.Usable) (count : Option Nat)
    (timestamps : Bool) (mem : Nat → Nat → List UInt8) (jh : Nat → Cap.Header) (jl : Nat → Nat) (ops : List Cap.Op)
    (hfit : Cap.AllFit ops) {s : Scheme} (hs : mprqSizes netBuffer dev caps = some s) {cfg : Cap.Cfg}
    (hcfg : cfg = { mprq := true, snaplen := snaplen, maxRecords := s.maxRecords, stride := s.chunkSize / s.maxRecords
                    count := count, timestamps := timestamps })
    {fin : Cap.St} (hrun : fin = Cap.run cfg (Cap.St.init cfg s.nChunks mem jh jl) ops)
    (hfin : fin.coll = .finished) {bufs : List (List UInt8)}
    (hb : bufs.length = Dump.computeDepth (8 * 1024 * 1024) diskBuffer) (hbl : ∀ d ∈ bufs, d.length = 8 * 1024 * 1024)
    {calls : List (List UInt8)} (hcalls : calls.flatten = fin.out) (wops : List Dump.Op) {w : Dump.St}
    (hw : w = Dump.run (8 * 1024 * 1024) bufs.length (Dump.St.init bufs (Dump.numThreads diskAffinity) calls) wops)
    (hclosed : Dump.Closed w) :
    Cap.readPcap w.file = some ⟨snaplen, 1, (fin.delivered.take fin.packets).map (Cap.expectedRec cfg)⟩ := by
  obtain ⟨s', a, b, hs', hr, -⟩ := C80_mprq_partial (netBuffer := netBuffer) dev caps hd hc
  rw [hs] at hs'
  obtain rfl := Option.some.inj hs'
  have hsl : cfg.snaplen = snaplen := by rw [hcfg]
  have hm : cfg.mprq = true := by rw [hcfg]
  have hops : ∀ op ∈ ops, Cap.OpOk cfg op := by
    intro op _
    cases op with
    | frame f => exact (fun h => by rw [hm] at h; cases h)
    | fail => exact hm
    | _ => trivial
  have := pipeline (by rw [hcfg]; exact hr) (by rw [hsl]; omega) hfit hops hrun hfin hb hbl hcalls hw hclosed
  rw [hsl] at this
  exact this

/-- A case: `--snaplen 1048576 --net-buffer 4194304` gives two chunks of two slots, and in the history `exOps`
four packets are captured to the end.  That the writer then comes to `close` is C77_ends_partial. -/
example : plainSizes 1048576 4194304 ⟨4194303, 32768, 100000⟩ = some ⟨2, 2, 2097152⟩ ∧
    (Cap.run { mprq := false, snaplen := 1048576, maxRecords := 2, stride := 0, count := none, timestamps := true }
      (Cap.St.init { mprq := false, snaplen := 1048576, maxRecords := 2, stride := 0, count := none, timestamps := true } 2
        (fun _ _ => [9, 9]) (fun _ => ⟨7, 7, 7, 7⟩) (fun _ => 7)) Cap.exOps).coll.isFinished = true := by
  decide +kernel

end Spead2.Sizes
