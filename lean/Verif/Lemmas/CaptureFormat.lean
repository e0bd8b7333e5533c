import Verif.Lemmas.DumpCapture

/-!
# The bytes that mcdump writes, as a pcap file
-/

namespace Spead2.Cap

theorem toNat_ofNat (n : Nat) : (UInt8.ofNat n).toNat = n % 256 := by
  rw [UInt8.toNat_ofNat']

theorem num32_le32 {n : Nat} (h : n < 2 ^ 32) :
    num32 (UInt8.ofNat n) (UInt8.ofNat (n / 256)) (UInt8.ofNat (n / 65536)) (UInt8.ofNat (n / 16777216)) = n := by
  unfold num32
  simp only [toNat_ofNat]
  omega

theorem readRecords_cons {h : Header} (h1 : h.sec < 2 ^ 32) (h2 : h.nsec < 2 ^ 32) (h3 : h.incl < 2 ^ 32)
    (h4 : h.orig < 2 ^ 32) {d : List UInt8} (hd : d.length = h.incl) (bs : List UInt8) :
    readRecords (h.bytes ++ d ++ bs) = (readRecords bs).map (fun rs => ⟨h.sec, h.nsec, h.orig, d⟩ :: rs) := by
  unfold Header.bytes le32
  simp only [List.cons_append, List.nil_append]
  rw [readRecords, num32_le32 h1, num32_le32 h2, num32_le32 h3, num32_le32 h4, if_pos (by simp [hd]),
    List.drop_left' hd, List.take_left' hd]

theorem frameBytes_read {cfg : Cfg} {f : Frame} (hf : Fits f) (hs : cfg.mprq = false → f.data.length ≤ cfg.snaplen)
    (bs : List UInt8) :
    readRecords (frameBytes cfg f ++ bs) = (readRecords bs).map (fun rs => expectedRec cfg f :: rs) := by
  have hns : f.ns % 1000000000 < 2 ^ 32 := by omega
  have hincl : (mkHeader cfg f.data.length f.ns).incl ≤ f.data.length := by
    unfold mkHeader
    dsimp only
    split
    · split <;> omega
    · omega
  have h1 := hf.1
  have h2 := hf.2
  unfold frameBytes
  rw [readRecords_cons (by unfold mkHeader; dsimp only; split <;> omega) (by unfold mkHeader; dsimp only; split <;> omega)
    (by omega) h1 (by rw [List.length_take]; omega)]
  have htake : f.data.take (mkHeader cfg f.data.length f.ns).incl = f.data.take cfg.snaplen := by
    unfold mkHeader
    dsimp only
    split
    · split
      · rename_i hle
        rw [List.take_of_length_le (Nat.le_refl _), List.take_of_length_le hle]
      · rfl
    · rename_i hm
      have := hs (by simpa using hm)
      rw [List.take_of_length_le (Nat.le_refl _), List.take_of_length_le this]
  rw [htake]
  rfl

theorem frames_read {cfg : Cfg} (fs : List Frame) (hf : ∀ f ∈ fs, Fits f)
    (hs : cfg.mprq = false → ∀ f ∈ fs, f.data.length ≤ cfg.snaplen) :
    readRecords (fs.flatMap (frameBytes cfg)) = some (fs.map (expectedRec cfg)) := by
  induction fs with
  | nil => rw [List.flatMap_nil, readRecords]; rfl
  | cons f fs ih =>
    rw [List.flatMap_cons, frameBytes_read (hf f List.mem_cons_self) (fun hm => hs hm f List.mem_cons_self),
      ih (fun g hg => hf g (List.mem_cons_of_mem _ hg)) (fun hm g hg => hs hm g (List.mem_cons_of_mem _ hg))]
    rfl

theorem file_read {cfg : Cfg} (hsl : cfg.snaplen < 2 ^ 32) (fs : List Frame) (hf : ∀ f ∈ fs, Fits f)
    (hs : cfg.mprq = false → ∀ f ∈ fs, f.data.length ≤ cfg.snaplen) :
    readPcap (fileHeader cfg.snaplen ++ fs.flatMap (frameBytes cfg)) =
      some ⟨cfg.snaplen, 1, fs.map (expectedRec cfg)⟩ := by
  unfold fileHeader
  simp only [le32, le16, List.cons_append, List.nil_append]
  unfold readPcap
  dsimp only
  rw [num32_le32 hsl, frames_read fs hf hs, if_pos (by decide)]
  rfl

/-! ## The frames that the card took are frames of the history -/

theorem step_delivered (cfg : Cfg) (s : St) (op : Op) :
    (step cfg s op).delivered = s.delivered ∨ ∃ f, op = .frame f ∧ (step cfg s op).delivered = s.delivered ++ [f] := by
  cases op with
  | frame f =>
    show (hwFrame cfg s f).delivered = _ ∨ _
    have : (hwFrame cfg s f).delivered = s.delivered ∨ (hwFrame cfg s f).delivered = s.delivered ++ [f] := by
      unfold hwFrame hwFail
      split
      · exact Or.inl rfl
      · dsimp only
        split
        · exact Or.inl rfl
        · split
          · exact Or.inr rfl
          · exact Or.inl rfl
    rcases this with h | h
    · exact Or.inl h
    · exact Or.inr ⟨f, rfl, h⟩
  | filler =>
    refine Or.inl ?_
    show (hwFiller cfg s).delivered = _
    unfold hwFiller
    split
    · rfl
    · split <;> rfl
  | fail => exact Or.inl rfl
  | net =>
    refine Or.inl ?_
    show (netStep cfg s).delivered = _
    unfold netStep
    split
    · split <;> rfl
    · split <;> rfl
    · split
      · rfl
      · split
        · rfl
        · rename_i q qs _
          split <;> (cases q <;> rfl)
    · rfl
  | coll =>
    refine Or.inl ?_
    show (collStep cfg s).delivered = _
    unfold collStep chunkDone addToFree post
    dsimp only
    split
    · rfl
    · split
      · rfl
      · split <;> rfl
    · split
      · rfl
      · split
        · split <;> rfl
        · rfl
    · rfl
  | interrupt => exact Or.inl rfl

theorem run_delivered (cfg : Cfg) (ops : List Op) : ∀ s : St, ∀ f ∈ (run cfg s ops).delivered,
    f ∈ s.delivered ∨ Op.frame f ∈ ops := by
  induction ops with
  | nil => intro s f hf; exact Or.inl hf
  | cons op ops ih =>
    intro s f hf
    rcases ih (step cfg s op) f hf with h | h
    · rcases step_delivered cfg s op with hd | ⟨g, rfl, hd⟩
      · rw [hd] at h; exact Or.inl h
      · rw [hd] at h
        rcases List.mem_append.mp h with h | h
        · exact Or.inl h
        · rw [List.mem_singleton.mp h]; exact Or.inr List.mem_cons_self
    · exact Or.inr (List.mem_cons_of_mem _ h)

theorem run_cons (cfg : Cfg) (s : St) (op : Op) (ops : List Op) : run cfg s (op :: ops) = run cfg (step cfg s op) ops := rfl

end Spead2.Cap
