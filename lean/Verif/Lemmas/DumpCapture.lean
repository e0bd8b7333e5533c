import Verif.Spec.DumpCapture
import Mathlib.Data.List.Basic
import Mathlib.Data.List.Nodup
import Mathlib.Data.List.Infix

/-!
# Invariant of the capture of mcdump
-/

namespace Spead2.Cap

/-! ## Slots -/

/-- The slots of a chunk from a position on. -/
def slotsFrom (cfg : Cfg) (id p : Nat) : List (Nat × Nat) :=
  (List.range' p (cfg.maxRecords - p)).map (fun i => (id, i))

theorem slots_eq (cfg : Cfg) (id : Nat) : slots cfg id = slotsFrom cfg id 0 := by
  unfold slots slotsFrom
  rw [List.range_eq_range', Nat.sub_zero]

/-- The slots that a completion is about. -/
def Cqe.cov : Cqe → List (Nat × Nat)
  | .ok c i k _ _ _ => (List.range' i k).map (fun j => (c, j))
  | .filler c i k => (List.range' i k).map (fun j => (c, j))
  | .fail => []

def covs (cq : List Cqe) : List (Nat × Nat) := cq.flatMap Cqe.cov

theorem slotsFrom_split (cfg : Cfg) (id p k : Nat) (h : p + k ≤ cfg.maxRecords) :
    slotsFrom cfg id p = (List.range' p k).map (fun j => (id, j)) ++ slotsFrom cfg id (p + k) := by
  unfold slotsFrom
  rw [← List.map_append]
  congr 1
  have : cfg.maxRecords - p = k + (cfg.maxRecords - (p + k)) := by omega
  rw [this, ← List.range'_append_1]

theorem slotsFrom_nil (cfg : Cfg) (id p : Nat) (h : cfg.maxRecords ≤ p) : slotsFrom cfg id p = [] := by
  unfold slotsFrom
  rw [Nat.sub_eq_zero_of_le h]
  rfl

theorem mem_slotsFrom {cfg : Cfg} {id p : Nat} {x : Nat × Nat} :
    x ∈ slotsFrom cfg id p ↔ x.1 = id ∧ p ≤ x.2 ∧ x.2 < cfg.maxRecords := by
  unfold slotsFrom
  rw [List.mem_map]
  constructor
  · rintro ⟨i, hi, rfl⟩
    rw [List.mem_range'_1] at hi
    exact ⟨rfl, hi.1, by show i < _; omega⟩
  · rintro ⟨h1, h2, h3⟩
    refine ⟨x.2, ?_, by rw [← h1]⟩
    rw [List.mem_range'_1]
    omega

theorem slotsFrom_nodup (cfg : Cfg) (id p : Nat) : (slotsFrom cfg id p).Nodup := by
  unfold slotsFrom
  refine List.Nodup.map ?_ List.nodup_range'
  intro a b h
  exact (Prod.mk.inj h).2

/-- The slots that the card may use are the rest of a chunk and then whole chunks. -/
def Shape (cfg : Cfg) (l : List (Nat × Nat)) : Prop :=
  l = [] ∨ ∃ c i ids, i < cfg.maxRecords ∧ l = slotsFrom cfg c i ++ (ids : List Nat).flatMap (slots cfg)

theorem shape_ids {cfg : Cfg} (hM : 0 < cfg.maxRecords) (ids : List Nat) : Shape cfg (ids.flatMap (slots cfg)) := by
  cases ids with
  | nil => exact Or.inl rfl
  | cons c ids => exact Or.inr ⟨c, 0, ids, hM, by rw [List.flatMap_cons, slots_eq]⟩

theorem shape_head {cfg : Cfg} {l rest : List (Nat × Nat)} {c i : Nat} (h : Shape cfg l) (hl : l = (c, i) :: rest) :
    i < cfg.maxRecords ∧ ∃ ids : List Nat, l = slotsFrom cfg c i ++ ids.flatMap (slots cfg) := by
  rcases h with h | ⟨c', i', ids, hi, h⟩
  · rw [h] at hl; cases hl
  · rw [slotsFrom_split cfg c' i' 1 (by omega)] at h
    have : (c', i') = (c, i) := by
      rw [hl] at h
      simp at h
      exact Prod.ext h.1.1.symm h.1.2.symm
    cases this
    exact ⟨hi, ids, by rw [h, ← slotsFrom_split cfg c i 1 (by omega)]⟩

theorem shape_drop {cfg : Cfg} (hM : 0 < cfg.maxRecords) {l rest : List (Nat × Nat)} {c i k : Nat} (h : Shape cfg l)
    (hl : l = (c, i) :: rest) (hk : i + k ≤ cfg.maxRecords) :
    Shape cfg (l.drop k) ∧ (List.range' i k).map (fun j => (c, j)) ++ l.drop k = l := by
  obtain ⟨hi, ids, h⟩ := shape_head h hl
  have hd : l.drop k = slotsFrom cfg c (i + k) ++ ids.flatMap (slots cfg) := by
    rw [h, slotsFrom_split cfg c i k hk, List.append_assoc, List.drop_left' (by simp)]
  refine ⟨?_, ?_⟩
  · rw [hd]
    by_cases hlt : i + k < cfg.maxRecords
    · exact Or.inr ⟨c, i + k, ids, hlt, rfl⟩
    · rw [slotsFrom_nil cfg c (i + k) (by omega)]
      exact shape_ids hM ids
  · rw [hd, h, slotsFrom_split cfg c i k hk, List.append_assoc]

theorem shape_post {cfg : Cfg} (hM : 0 < cfg.maxRecords) {l : List (Nat × Nat)} (h : Shape cfg l) (c : Nat) :
    Shape cfg (l ++ slots cfg c) := by
  rcases h with h | ⟨c', i, ids, hi, h⟩
  · rw [h, List.nil_append]
    have := shape_ids hM [c]
    simpa using this
  · refine Or.inr ⟨c', i, ids ++ [c], hi, ?_⟩
    rw [h, List.append_assoc, List.flatMap_append]
    simp

/-! ## Bytes -/

/-- The bytes of a record. -/
def frameBytes (cfg : Cfg) (f : Frame) : List UInt8 :=
  (mkHeader cfg f.data.length f.ns).bytes ++ f.data.take (mkHeader cfg f.data.length f.ns).incl

def chunkBytes (m : Nat → Nat → List UInt8) (c : Chunk) : List UInt8 := (List.range (2 * c.n)).flatMap (iov m c)

def cqBytes (cfg : Cfg) (m : Nat → Nat → List UInt8) : Cqe → List (List UInt8)
  | .ok c i _ len ns _ => [(mkHeader cfg len ns).bytes ++ (m c i).take (mkHeader cfg len ns).incl]
  | _ => []

theorem iov_upd {m : Nat → Nat → List UInt8} {c i : Nat} {d : List UInt8} {ch : Chunk} {j : Nat}
    (h : ¬ (ch.id = c ∧ ch.base (j / 2) = i)) : iov (updMem m c i d) ch j = iov m ch j := by
  unfold iov
  split
  · rfl
  · unfold updMem
    rw [if_neg h]

theorem chunkBytes_upd {m : Nat → Nat → List UInt8} {c i : Nat} {d : List UInt8} {ch : Chunk}
    (h : ∀ j, j < ch.n → ¬ (ch.id = c ∧ ch.base j = i)) : chunkBytes (updMem m c i d) ch = chunkBytes m ch := by
  unfold chunkBytes
  refine List.flatMap_congr ?_
  intro j hj
  rw [List.mem_range] at hj
  exact iov_upd (h (j / 2) (by omega))

theorem chunkBytes_succ {m : Nat → Nat → List UInt8} {c c' : Chunk} (hn : c'.n = c.n + 1) (hid : c'.id = c.id)
    (h : ∀ j, j < c.n → c'.header j = c.header j ∧ c'.base j = c.base j ∧ c'.len j = c.len j) :
    chunkBytes m c' = chunkBytes m c ++ ((c'.header c.n).bytes ++ (m c.id (c'.base c.n)).take (c'.len c.n)) := by
  unfold chunkBytes
  rw [hn, show 2 * (c.n + 1) = 2 * c.n + 1 + 1 by omega, List.range_succ, List.range_succ, List.flatMap_append,
    List.flatMap_append]
  have h1 : (List.range (2 * c.n)).flatMap (iov m c') = (List.range (2 * c.n)).flatMap (iov m c) := by
    refine List.flatMap_congr ?_
    intro j hj
    rw [List.mem_range] at hj
    obtain ⟨ha, hb, hc⟩ := h (j / 2) (by omega)
    unfold iov
    rw [ha, hb, hc, hid]
  rw [h1, List.append_assoc]
  congr 1
  have e1 : (2 * c.n) % 2 = 0 := by omega
  have e2 : (2 * c.n) / 2 = c.n := by omega
  have e3 : (2 * c.n + 1) % 2 ≠ 0 := by omega
  have e4 : (2 * c.n + 1) / 2 = c.n := by omega
  simp only [List.flatMap_cons, List.flatMap_nil, List.append_nil]
  unfold iov
  rw [if_pos e1, if_neg e3, e2, e4, hid]

/-! ## The invariant -/

def Coll.chunks : Coll → List Chunk
  | .writing c _ => [c]
  | _ => []

def Net.chunks : Net → List Chunk
  | .inner c _ => [c]
  | _ => []

/-- What the collecting thread has still to write of what it has. -/
def collRest (cfg : Cfg) (m : Nat → Nat → List UInt8) : Coll → List UInt8
  | .start => fileHeader cfg.snaplen
  | .writing c i => ((List.range (2 * c.n)).drop i).flatMap (iov m c)
  | _ => []

/-- The network thread will not take another chunk. -/
def Over (s : St) : Prop := s.stop = true ∨ s.remaining = some 0

/-- Slots that the card has used or will use and about which the network thread has not heard. -/
def X (s : St) : List (Nat × Nat) := covs s.cq ++ s.posted

/-- The first `pos` slots of the chunk have been used, and the records are among them. -/
structure Used (cfg : Cfg) (s : St) (c : Chunk) (pos : Nat) : Prop where
  le : pos ≤ cfg.maxRecords
  nLe : c.n ≤ pos
  base : ∀ i, i < c.n → c.base i < pos
  slot : ∀ j, (c.id, j) ∈ X s → pos ≤ j

/-- The slots that are outstanding are those that the network thread expects. -/
def Expected (s : St) (l : List (Nat × Nat)) : Prop := if s.broken then X s <+: l else X s = l

/-- Everything that went round is ready to be used again. -/
def Fresh (s : St) : Prop :=
  (∀ c ∈ s.coll.chunks ++ s.ring, c.full = true) ∧ (∀ c ∈ s.free, c.n = 0 ∧ c.full = false)

def CqeOk (cfg : Cfg) : Cqe → Prop
  | .ok _ i k _ _ last => 1 ≤ k ∧ i + k ≤ cfg.maxRecords ∧ (last = true ↔ i + k = cfg.maxRecords) ∧ (cfg.mprq = false → k = 1)
  | .filler _ i k => 1 ≤ k ∧ i + k = cfg.maxRecords ∧ cfg.mprq = true
  | .fail => cfg.mprq = true

/-- `expect` and `remaining_count`. -/
def Left (cfg : Cfg) (n e : Nat) : Option Nat → Prop
  | none => e + n = cfg.maxRecords
  | some r => e ≤ r ∧ e + n ≤ cfg.maxRecords ∧ (e = r ∨ e + n = cfg.maxRecords)

structure Cur (cfg : Cfg) (s : St) (c : Chunk) (e pos : Nat) : Prop where
  used : Used cfg s c pos
  full : cfg.mprq = true → (c.full = true ↔ pos = cfg.maxRecords)
  plain : cfg.mprq = false → pos = c.n ∧ c.full = false ∧ Left cfg c.n e s.remaining
  expected : Expected s (slotsFrom cfg c.id pos ++ s.free.flatMap (fun c => slots cfg c.id))

structure Inv (cfg : Cfg) (s : St) : Prop where
  bytes : s.out ++ collRest cfg s.mem s.coll ++ s.ring.flatMap (chunkBytes s.mem) ++
    s.net.chunks.flatMap (chunkBytes s.mem) =
    fileHeader cfg.snaplen ++ (s.delivered.take s.packets).flatMap (frameBytes cfg)
  cqb : (s.delivered.drop s.packets).map (frameBytes cfg) = s.cq.flatMap (cqBytes cfg s.mem)
  packetsLe : s.packets ≤ s.delivered.length
  ids : ((s.coll.chunks ++ s.ring ++ s.net.chunks ++ s.free).map Chunk.id).Nodup
  nodup : (X s).Nodup
  lt : ∀ x ∈ X s, x.2 < cfg.maxRecords
  cqOk : ∀ q ∈ s.cq, CqeOk cfg q
  used : ∀ c ∈ s.coll.chunks ++ s.ring, ∃ pos, Used cfg s c pos ∧ (c.full = true → pos = cfg.maxRecords)
  baseId : cfg.mprq = false → ∀ c ∈ s.coll.chunks ++ s.ring ++ s.net.chunks ++ s.free, ∀ i, c.base i = i
  cur : ∀ c e, s.net = .inner c e → Fresh s ∧ ∃ pos, Cur cfg s c e pos
  top : s.net = .top → ¬ Over s → Fresh s ∧ Expected s (s.free.flatMap (fun c => slots cfg c.id))
  pop : s.net = .pop → Fresh s ∧ Expected s (s.free.flatMap (fun c => slots cfg c.id))
  shape : Shape cfg s.posted
  brokenP : s.broken = true → s.posted = [] ∧ cfg.mprq = true
  doneP : s.ringStopped = true ↔ s.net = .done
  finP : s.coll = .finished → s.ring = [] ∧ s.net = .done

theorem init_inv {cfg : Cfg} (hM : 0 < cfg.maxRecords) (nChunks : Nat) (mem : Nat → Nat → List UInt8)
    (jh : Nat → Header) (jl : Nat → Nat) : Inv cfg (St.init cfg nChunks mem jh jl) := by
  have hX : X (St.init cfg nChunks mem jh jl) = (List.range nChunks).flatMap (slots cfg) := rfl
  have hfm : (St.init cfg nChunks mem jh jl).free.flatMap (fun c => slots cfg c.id) = (List.range nChunks).flatMap (slots cfg) := by
    show ((List.range nChunks).map (makeChunk jh jl)).flatMap (fun c => slots cfg c.id) = _
    rw [List.flatMap_map]
    rfl
  constructor
  case bytes => simp [St.init, collRest, Net.chunks]
  case cqb => rfl
  case packetsLe => exact Nat.zero_le _
  case ids =>
    show (([] ++ [] ++ [] ++ (List.range nChunks).map (makeChunk jh jl)).map Chunk.id).Nodup
    simp only [List.nil_append, List.map_map]
    have : (Chunk.id ∘ makeChunk jh jl) = id := rfl
    rw [this, List.map_id]
    exact List.nodup_range
  case nodup =>
    rw [hX, List.nodup_flatMap]
    refine ⟨fun c _ => by rw [slots_eq]; exact slotsFrom_nodup cfg c 0, ?_⟩
    refine List.Pairwise.imp ?_ (List.nodup_range (n := nChunks))
    intro a b hab x ha hb
    rw [slots_eq, mem_slotsFrom] at ha hb
    exact hab (ha.1.symm.trans hb.1)
  case lt =>
    intro x hx
    rw [hX] at hx
    obtain ⟨c, _, h⟩ := List.mem_flatMap.mp hx
    rw [slots_eq, mem_slotsFrom] at h
    exact h.2.2
  case cqOk => intro q h; cases h
  case used => intro c h; cases h
  case baseId =>
    intro _ c hc i
    have hc' : c ∈ (List.range nChunks).map (makeChunk jh jl) := hc
    obtain ⟨j, _, rfl⟩ := List.mem_map.mp hc'
    rfl
  case cur => intro c e h; cases h
  case pop => intro h; cases h
  case top =>
    intro _ _
    refine ⟨⟨(by intro c h; cases h), ?_⟩, ?_⟩
    · intro c hc
      have hc' : c ∈ (List.range nChunks).map (makeChunk jh jl) := hc
      obtain ⟨j, _, rfl⟩ := List.mem_map.mp hc'
      exact ⟨rfl, rfl⟩
    · show X _ = _
      rw [hX, hfm]
  case shape => exact shape_ids hM _
  case brokenP => intro h; cases h
  case doneP => exact ⟨(by intro h; cases h), (by intro h; cases h)⟩
  case finP => intro h; cases h

/-! ## The network card -/

theorem Used.congr {cfg : Cfg} {s s' : St} {c : Chunk} {pos : Nat} (h : Used cfg s c pos)
    (hX : ∀ x ∈ X s', x ∈ X s) : Used cfg s' c pos :=
  ⟨h.le, h.nLe, h.base, fun j hj => h.slot j (hX _ hj)⟩

theorem Expected.congr {s s' : St} {l : List (Nat × Nat)} (h : Expected s l) (hX : X s' = X s)
    (hb : s'.broken = s.broken) : Expected s' l := by
  unfold Expected at *
  rw [hX, hb]
  exact h

theorem covs_append (a b : List Cqe) : covs (a ++ b) = covs a ++ covs b := List.flatMap_append

theorem frame_inv {cfg : Cfg} (hM : 0 < cfg.maxRecords) {s : St} (v : Inv cfg s) (f : Frame)
    (hf : cfg.mprq = false → f.data.length ≤ cfg.snaplen) : Inv cfg (hwFrame cfg s f) := by
  unfold hwFrame
  split
  · exact v
  rename_i c i rest hp
  dsimp only
  rw [if_neg (by rintro ⟨h1, h2⟩; have := hf h1; omega)]
  split
  swap
  · exact v
  rename_i hk
  have hk1 : 1 ≤ width cfg f.data.length := by unfold width; split <;> omega
  have hkp : cfg.mprq = false → width cfg f.data.length = 1 := by intro h; unfold width; rw [h]; rfl
  generalize hkk : width cfg f.data.length = k at hk hk1 hkp
  obtain ⟨hshape, hsplit⟩ := shape_drop hM v.shape hp hk
  have hX : X { s with posted := s.posted.drop k, mem := updMem s.mem c i f.data, cq := s.cq ++ [.ok c i k f.data.length f.ns (i + k = cfg.maxRecords)], delivered := s.delivered ++ [f] } = X s := by
    show covs (s.cq ++ [_]) ++ s.posted.drop k = covs s.cq ++ s.posted
    rw [covs_append, List.append_assoc]
    congr 1
    simp only [covs, List.flatMap_cons, List.flatMap_nil, List.append_nil, Cqe.cov]
    exact hsplit
  have hin : (c, i) ∈ s.posted := by rw [hp]; simp
  have hinX : (c, i) ∈ X s := List.mem_append_right _ hin
  have hheld : ∀ ch pos, Used cfg s ch pos → ∀ j, j < ch.n → ¬ (ch.id = c ∧ ch.base j = i) := by
    rintro ch pos hu j hj ⟨rfl, h⟩
    have h1 := hu.slot i hinX
    have h2 := hu.base j hj
    omega
  have hring : ∀ ch ∈ s.ring, chunkBytes (updMem s.mem c i f.data) ch = chunkBytes s.mem ch := by
    intro ch hch
    obtain ⟨pos, hu, _⟩ := v.used ch (List.mem_append_right _ hch)
    exact chunkBytes_upd (hheld ch pos hu)
  have hnet : ∀ ch ∈ s.net.chunks, chunkBytes (updMem s.mem c i f.data) ch = chunkBytes s.mem ch := by
    intro ch hch
    cases hn : s.net with
    | inner c' e =>
      rw [hn] at hch
      have : ch = c' := by simpa [Net.chunks] using hch
      subst this
      obtain ⟨_, pos, hu⟩ := v.cur ch e hn
      exact chunkBytes_upd (hheld ch pos hu.used)
    | top => rw [hn] at hch; cases hch
    | pop => rw [hn] at hch; cases hch
    | done => rw [hn] at hch; cases hch
  have hcoll : collRest cfg (updMem s.mem c i f.data) s.coll = collRest cfg s.mem s.coll := by
    cases hc : s.coll with
    | writing ch j0 =>
      obtain ⟨pos, hu, _⟩ := v.used ch (by rw [hc]; simp [Coll.chunks])
      unfold collRest
      refine List.flatMap_congr ?_
      intro j hj
      have hj' := List.mem_range.mp (List.mem_of_mem_drop hj)
      exact iov_upd (hheld ch pos hu (j / 2) (by omega))
    | _ => rfl
  have hcq : ∀ q ∈ s.cq, cqBytes cfg (updMem s.mem c i f.data) q = cqBytes cfg s.mem q := by
    intro q hq
    cases q with
    | ok c' i' k' len ns last =>
      obtain ⟨h1, _⟩ := v.cqOk _ hq
      have hmem : (c', i') ∈ covs s.cq := by
        refine List.mem_flatMap.mpr ⟨_, hq, ?_⟩
        show (c', i') ∈ (List.range' i' k').map _
        exact List.mem_map.mpr ⟨i', by rw [List.mem_range'_1]; omega, rfl⟩
      have hne : ¬ (c' = c ∧ i' = i) := by
        rintro ⟨rfl, rfl⟩
        exact (List.nodup_append.mp v.nodup).2.2 _ hmem _ hin rfl
      unfold cqBytes updMem
      simp only [if_neg hne]
    | filler _ _ _ => rfl
    | fail => rfl
  constructor
  case bytes =>
    have := v.bytes
    show s.out ++ collRest cfg (updMem s.mem c i f.data) s.coll ++ s.ring.flatMap (chunkBytes (updMem s.mem c i f.data)) ++
      s.net.chunks.flatMap (chunkBytes (updMem s.mem c i f.data)) =
      fileHeader cfg.snaplen ++ ((s.delivered ++ [f]).take s.packets).flatMap (frameBytes cfg)
    rw [hcoll, List.flatMap_congr hring, List.flatMap_congr hnet, List.take_append_of_le_length v.packetsLe]
    exact this
  case cqb =>
    show ((s.delivered ++ [f]).drop s.packets).map (frameBytes cfg) =
      (s.cq ++ [_]).flatMap (cqBytes cfg (updMem s.mem c i f.data))
    rw [List.drop_append_of_le_length v.packetsLe, List.map_append, v.cqb, List.flatMap_append,
      List.flatMap_congr hcq]
    congr 1
    simp [cqBytes, updMem, frameBytes]
  case packetsLe =>
    have := v.packetsLe
    show s.packets ≤ (s.delivered ++ [f]).length
    rw [List.length_append]
    omega
  case ids => exact v.ids
  case nodup => rw [hX]; exact v.nodup
  case lt => rw [hX]; exact v.lt
  case cqOk =>
    intro q hq
    rcases List.mem_append.mp hq with h | h
    · exact v.cqOk q h
    · rw [List.mem_singleton.mp h]
      exact ⟨hk1, hk, by simp, hkp⟩
  case used =>
    intro ch hch
    obtain ⟨pos, h1, h2⟩ := v.used ch hch
    exact ⟨pos, h1.congr (by rw [hX]; exact fun x h => h), h2⟩
  case baseId => exact v.baseId
  case cur =>
    intro ch e hn
    obtain ⟨hfr, pos, hc⟩ := v.cur ch e hn
    exact ⟨hfr, pos, ⟨hc.used.congr (by rw [hX]; exact fun x h => h), hc.full, hc.plain, hc.expected.congr hX rfl⟩⟩
  case top =>
    intro hn ho
    obtain ⟨hfr, hc⟩ := v.top hn ho
    exact ⟨hfr, hc.congr hX rfl⟩
  case pop =>
    intro hn
    obtain ⟨hfr, hc⟩ := v.pop hn
    exact ⟨hfr, hc.congr hX rfl⟩
  case shape => exact hshape
  case brokenP =>
    intro hb
    have := (v.brokenP hb).1
    rw [this] at hp
    cases hp
  case doneP => exact v.doneP
  case finP => exact v.finP

theorem filler_inv {cfg : Cfg} (hM : 0 < cfg.maxRecords) {s : St} (v : Inv cfg s) : Inv cfg (hwFiller cfg s) := by
  unfold hwFiller
  split
  · exact v
  rename_i c i rest hp
  split
  swap
  · exact v
  rename_i hmp
  have hi := (shape_head v.shape hp).1
  obtain ⟨hshape, hsplit⟩ := shape_drop (k := cfg.maxRecords - i) hM v.shape hp (by omega)
  have hX : X { s with posted := s.posted.drop (cfg.maxRecords - i), cq := s.cq ++ [.filler c i (cfg.maxRecords - i)] } = X s := by
    show covs (s.cq ++ [_]) ++ s.posted.drop _ = covs s.cq ++ s.posted
    rw [covs_append, List.append_assoc]
    congr 1
    simp only [covs, List.flatMap_cons, List.flatMap_nil, List.append_nil, Cqe.cov]
    exact hsplit
  constructor
  case bytes => exact v.bytes
  case cqb =>
    show (s.delivered.drop s.packets).map (frameBytes cfg) = (s.cq ++ [_]).flatMap (cqBytes cfg s.mem)
    rw [v.cqb, List.flatMap_append]
    simp [cqBytes]
  case packetsLe => exact v.packetsLe
  case ids => exact v.ids
  case nodup => rw [hX]; exact v.nodup
  case lt => rw [hX]; exact v.lt
  case cqOk =>
    intro q hq
    rcases List.mem_append.mp hq with h | h
    · exact v.cqOk q h
    · rw [List.mem_singleton.mp h]
      exact ⟨by omega, by omega, hmp⟩
  case used =>
    intro ch hch
    obtain ⟨pos, h1, h2⟩ := v.used ch hch
    exact ⟨pos, h1.congr (by rw [hX]; exact fun x h => h), h2⟩
  case baseId => exact v.baseId
  case cur =>
    intro ch e hn
    obtain ⟨hfr, pos, hc⟩ := v.cur ch e hn
    exact ⟨hfr, pos, ⟨hc.used.congr (by rw [hX]; exact fun x h => h), hc.full, hc.plain, hc.expected.congr hX rfl⟩⟩
  case top =>
    intro hn ho
    obtain ⟨hfr, hc⟩ := v.top hn ho
    exact ⟨hfr, hc.congr hX rfl⟩
  case pop =>
    intro hn
    obtain ⟨hfr, hc⟩ := v.pop hn
    exact ⟨hfr, hc.congr hX rfl⟩
  case shape => exact hshape
  case brokenP =>
    intro hb
    have := (v.brokenP hb).1
    rw [this] at hp
    cases hp
  case doneP => exact v.doneP
  case finP => exact v.finP

theorem fail_inv {cfg : Cfg} {s : St} (v : Inv cfg s) (hmp : cfg.mprq = true) : Inv cfg (hwFail s) := by
  have hX : X (hwFail s) = covs s.cq := by
    show covs (s.cq ++ [.fail]) ++ [] = _
    rw [covs_append]
    simp [covs, Cqe.cov]
  have hsub : ∀ x ∈ X (hwFail s), x ∈ X s := by rw [hX]; exact fun x h => List.mem_append_left _ h
  have hexp : ∀ l, Expected s l → Expected (hwFail s) l := by
    intro l h
    have hpre : X s <+: l := by
      unfold Expected at h
      split at h
      · exact h
      · rw [h]
    show X (hwFail s) <+: l
    rw [hX]
    exact (List.prefix_append _ _).trans hpre
  constructor
  case bytes => exact v.bytes
  case cqb =>
    show (s.delivered.drop s.packets).map (frameBytes cfg) = (s.cq ++ [_]).flatMap (cqBytes cfg s.mem)
    rw [v.cqb, List.flatMap_append]
    simp [cqBytes]
  case packetsLe => exact v.packetsLe
  case ids => exact v.ids
  case nodup => rw [hX]; exact (List.nodup_append.mp v.nodup).1
  case lt => intro x hx; exact v.lt x (hsub x hx)
  case cqOk =>
    intro q hq
    rcases List.mem_append.mp hq with h | h
    · exact v.cqOk q h
    · rw [List.mem_singleton.mp h]
      exact hmp
  case used =>
    intro ch hch
    obtain ⟨pos, h1, h2⟩ := v.used ch hch
    exact ⟨pos, h1.congr hsub, h2⟩
  case baseId => exact v.baseId
  case cur =>
    intro ch e hn
    obtain ⟨hfr, pos, hc⟩ := v.cur ch e hn
    exact ⟨hfr, pos, ⟨hc.used.congr hsub, hc.full, hc.plain, hexp _ hc.expected⟩⟩
  case top =>
    intro hn ho
    obtain ⟨hfr, hc⟩ := v.top hn ho
    exact ⟨hfr, hexp _ hc⟩
  case pop =>
    intro hn
    obtain ⟨hfr, hc⟩ := v.pop hn
    exact ⟨hfr, hexp _ hc⟩
  case shape => exact Or.inl rfl
  case brokenP => intro _; exact ⟨rfl, hmp⟩
  case doneP => exact v.doneP
  case finP => exact v.finP

theorem interrupt_inv {cfg : Cfg} {s : St} (v : Inv cfg s) : Inv cfg { s with stop := true } := by
  constructor
  case cur =>
    intro ch e hn
    obtain ⟨hfr, pos, hc⟩ := v.cur ch e hn
    exact ⟨hfr, pos, ⟨hc.used.congr fun x h => h, hc.full, hc.plain, hc.expected.congr rfl rfl⟩⟩
  case top => intro _ ho; exact absurd (Or.inl rfl) ho
  case pop =>
    intro hn
    obtain ⟨hfr, hc⟩ := v.pop hn
    exact ⟨hfr, hc.congr rfl rfl⟩
  case used =>
    intro ch hch
    obtain ⟨pos, h1, h2⟩ := v.used ch hch
    exact ⟨pos, h1.congr fun x h => h, h2⟩
  case bytes => exact v.bytes
  case cqb => exact v.cqb
  case packetsLe => exact v.packetsLe
  case ids => exact v.ids
  case nodup => exact v.nodup
  case lt => exact v.lt
  case cqOk => exact v.cqOk
  case baseId => exact v.baseId
  case shape => exact v.shape
  case brokenP => exact v.brokenP
  case doneP => exact v.doneP
  case finP => exact v.finP

/-! ## The network thread -/

theorem Expected.prefix {s : St} {l : List (Nat × Nat)} (h : Expected s l) : X s <+: l := by
  unfold Expected at h
  split at h
  · exact h
  · rw [h]

/-- The next completion is about the next slots of the chunk that is being filled. -/
theorem consume {cfg : Cfg} {s : St} (v : Inv cfg s) {c : Chunk} {e pos : Nat} (hn : s.net = .inner c e)
    (cu : Cur cfg s c e pos) (hlt : pos < cfg.maxRecords) {q : Cqe} {qs : List Cqe} (hcq : s.cq = q :: qs)
    {c' i k : Nat} (hcov : q.cov = (List.range' i k).map (fun j => (c', j))) (hk : 1 ≤ k)
    (hik : i + k ≤ cfg.maxRecords) :
    c' = c.id ∧ i = pos ∧ (∀ x ∈ covs qs ++ s.posted, x ∈ X s) ∧
    ∀ s' : St, X s' = covs qs ++ s.posted → s'.broken = s.broken →
      Expected s' (slotsFrom cfg c.id (pos + k) ++ s.free.flatMap (fun c => slots cfg c.id)) ∧
      (∀ j, (c.id, j) ∈ X s' → pos + k ≤ j) := by
  have hXs : X s = (List.range' i k).map (fun j => (c', j)) ++ (covs qs ++ s.posted) := by
    unfold X
    rw [hcq]
    show (q.cov ++ covs qs) ++ s.posted = _
    rw [hcov, List.append_assoc]
  have hpre := cu.expected.prefix
  have hhead : (c', i) = (c.id, pos) := by
    obtain ⟨t, ht⟩ := hpre
    rw [hXs, slotsFrom_split cfg c.id pos 1 (by omega)] at ht
    obtain ⟨k', rfl⟩ : ∃ k', k = k' + 1 := ⟨k - 1, by omega⟩
    simp [List.range'_succ] at ht
    exact Prod.ext ht.1.1 ht.1.2
  have h1 : c' = c.id := (Prod.mk.inj hhead).1
  have h2 : i = pos := (Prod.mk.inj hhead).2
  refine ⟨h1, h2, fun x hx => by rw [hXs]; exact List.mem_append_right _ hx, ?_⟩
  subst h1 h2
  intro s' hX' hb'
  have hexp : Expected s' (slotsFrom cfg c.id (i + k) ++ s.free.flatMap (fun c => slots cfg c.id)) := by
    have he := cu.expected
    unfold Expected at he ⊢
    rw [hb', hX']
    rw [hXs, slotsFrom_split cfg c.id i k hik, List.append_assoc] at he
    cases hb : s.broken with
    | true => rw [hb] at he; exact (List.prefix_append_right_inj _).mp he
    | false =>
      rw [hb] at he
      simp only [Bool.false_eq_true, if_false] at he ⊢
      exact List.append_cancel_left he
  refine ⟨hexp, ?_⟩
  intro j hj
  have hm := hexp.prefix.subset hj
  rcases List.mem_append.mp hm with h | h
  · exact (mem_slotsFrom.mp h).2.1
  · obtain ⟨fc, hfc, h⟩ := List.mem_flatMap.mp h
    rw [slots_eq, mem_slotsFrom] at h
    have hids := v.ids
    rw [hn] at hids
    simp only [Net.chunks, List.map_append, List.map_cons, List.map_nil] at hids
    have := (List.nodup_append.mp hids).2.2 c.id (by simp) fc.id (List.mem_map_of_mem (f := Chunk.id) hfc)
    exact absurd h.1 this

theorem pollOk_inv {cfg : Cfg} {s : St} (v : Inv cfg s) {c : Chunk} {e pos : Nat} (hn : s.net = .inner c e)
    (cu : Cur cfg s c e pos) (hlt : pos < cfg.maxRecords) {qs : List Cqe} {c' i k len ns : Nat} {last : Bool}
    (hcq : s.cq = .ok c' i k len ns last :: qs) (cn : Chunk) (e' bytes : Nat) (hid : cn.id = c.id) (hnn : cn.n = c.n + 1)
    (hold : ∀ j, j < c.n → cn.header j = c.header j ∧ cn.base j = c.base j ∧ cn.len j = c.len j)
    (hh : i = pos → cn.header c.n = mkHeader cfg len ns) (hb : i = pos → cn.base c.n = i)
    (hl : i = pos → cn.len c.n = (mkHeader cfg len ns).incl)
    (hfull : cfg.mprq = true → (cn.full = true ↔ (c.full = true ∨ last = true)))
    (hplain : cfg.mprq = false → cn.full = false ∧ Left cfg cn.n e' (dec s.remaining) ∧ ∀ i, cn.base i = i) :
    Inv cfg { s with cq := qs, net := .inner cn e', packets := s.packets + 1, bytes := bytes, remaining := dec s.remaining } := by
  obtain ⟨hk1, hik, hlast, hkp⟩ := v.cqOk _ (show Cqe.ok c' i k len ns last ∈ s.cq by rw [hcq]; simp)
  obtain ⟨h1, h2, hsub, hcons⟩ := consume v hn cu hlt hcq rfl hk1 hik
  obtain ⟨hexp, hslot⟩ := hcons { s with cq := qs, net := .inner cn e', packets := s.packets + 1, bytes := bytes, remaining := dec s.remaining } rfl rfl
  subst h1
  have hcqb := v.cqb
  rw [hcq, List.flatMap_cons] at hcqb
  simp only [cqBytes, List.singleton_append] at hcqb
  have hplt : s.packets < s.delivered.length := by
    rcases Nat.lt_or_ge s.packets s.delivered.length with h | h
    · exact h
    · rw [List.drop_eq_nil_of_le h] at hcqb
      cases hcqb
  rw [List.drop_eq_getElem_cons hplt, List.map_cons] at hcqb
  injection hcqb with hfb hrest
  constructor
  case bytes =>
    have hby := v.bytes
    rw [hn] at hby
    simp only [Net.chunks, List.flatMap_cons, List.flatMap_nil, List.append_nil] at hby
    show s.out ++ collRest cfg s.mem s.coll ++ s.ring.flatMap (chunkBytes s.mem) ++ [cn].flatMap (chunkBytes s.mem) =
      fileHeader cfg.snaplen ++ (s.delivered.take (s.packets + 1)).flatMap (frameBytes cfg)
    rw [List.take_succ_eq_append_getElem hplt, List.flatMap_append, ← List.append_assoc, ← hby]
    simp only [List.flatMap_cons, List.flatMap_nil, List.append_nil]
    rw [chunkBytes_succ hnn hid hold, hh h2, hb h2, hl h2, hfb, ← List.append_assoc]
  case cqb => exact hrest
  case packetsLe => exact hplt
  case ids =>
    have := v.ids
    rw [hn] at this
    simp only [Net.chunks, List.map_append, List.map_cons, List.map_nil] at this ⊢
    rw [hid]
    exact this
  case nodup =>
    have h := v.nodup
    unfold X at h
    rw [hcq] at h
    have h' : ((Cqe.ok c.id i k len ns last).cov ++ covs qs ++ s.posted).Nodup := h
    rw [List.append_assoc] at h'
    exact (List.nodup_append.mp h').2.1
  case lt => intro x hx; exact v.lt x (hsub x hx)
  case cqOk => intro q hq; exact v.cqOk q (by rw [hcq]; exact List.mem_cons_of_mem _ hq)
  case used =>
    intro ch hch
    obtain ⟨pos', hu, hf⟩ := v.used ch hch
    exact ⟨pos', hu.congr hsub, hf⟩
  case baseId =>
    intro hm ch hch
    simp only [Net.chunks, List.mem_append, List.mem_singleton] at hch
    rcases hch with (hch | rfl) | hch
    · exact v.baseId hm ch (by simp only [List.mem_append]; tauto)
    · exact (hplain hm).2.2
    · exact v.baseId hm ch (by simp only [List.mem_append]; tauto)
  case cur =>
    intro ch e'' hch
    cases hch
    obtain ⟨hfr, _⟩ := v.cur c e hn
    refine ⟨hfr, pos + k, ⟨⟨?_, ?_, ?_, ?_⟩, ?_, ?_, ?_⟩⟩
    · omega
    · have := cu.used.nLe; omega
    · intro j hj
      by_cases hjn : j = c.n
      · rw [hjn, hb h2]; omega
      · rw [(hold j (by omega)).2.1]
        have := cu.used.base j (by omega)
        omega
    · rw [hid]; exact hslot
    · intro hm
      rw [hfull hm, hlast, h2]
      constructor
      · rintro (h | h)
        · have := (cu.full hm).mp h; omega
        · exact h
      · exact Or.inr
    · intro hm
      obtain ⟨hf1, hf2, _⟩ := hplain hm
      have := (cu.plain hm).1
      have := hkp hm
      exact ⟨by omega, hf1, hf2⟩
    · rw [hid]; exact hexp
  case top => intro h; cases h
  case pop => intro h; cases h
  case shape => exact v.shape
  case brokenP => exact v.brokenP
  case doneP =>
    have := v.doneP
    rw [hn] at this
    constructor
    · intro h; cases this.mp h
    · intro h; cases h
  case finP =>
    intro h
    have := (v.finP h).2
    rw [hn] at this
    cases this

theorem pollFiller_inv {cfg : Cfg} {s : St} (v : Inv cfg s) {c : Chunk} {e pos : Nat} (hn : s.net = .inner c e)
    (cu : Cur cfg s c e pos) (hlt : pos < cfg.maxRecords) {qs : List Cqe} {c' i k : Nat}
    (hcq : s.cq = .filler c' i k :: qs) :
    Inv cfg { s with cq := qs, net := .inner { c with full := true } 0 } := by
  obtain ⟨hk1, hik, hmp⟩ := v.cqOk _ (show Cqe.filler c' i k ∈ s.cq by rw [hcq]; simp)
  obtain ⟨h1, h2, hsub, hcons⟩ := consume v hn cu hlt hcq rfl hk1 (by omega)
  obtain ⟨hexp, hslot⟩ := hcons { s with cq := qs, net := .inner { c with full := true } 0 } rfl rfl
  subst h1
  constructor
  case bytes =>
    have hby := v.bytes
    rw [hn] at hby
    exact hby
  case cqb =>
    have := v.cqb
    rw [hcq] at this
    exact this
  case packetsLe => exact v.packetsLe
  case ids =>
    have := v.ids
    rw [hn] at this
    simp only [Net.chunks, List.map_append, List.map_cons, List.map_nil] at this ⊢
    exact this
  case nodup =>
    have h := v.nodup
    unfold X at h
    rw [hcq] at h
    have h' : ((Cqe.filler c.id i k).cov ++ covs qs ++ s.posted).Nodup := h
    rw [List.append_assoc] at h'
    exact (List.nodup_append.mp h').2.1
  case lt => intro x hx; exact v.lt x (hsub x hx)
  case cqOk => intro q hq; exact v.cqOk q (by rw [hcq]; exact List.mem_cons_of_mem _ hq)
  case used =>
    intro ch hch
    obtain ⟨pos', hu, hf⟩ := v.used ch hch
    exact ⟨pos', hu.congr hsub, hf⟩
  case baseId => intro hm; rw [hm] at hmp; cases hmp
  case cur =>
    intro ch e'' hch
    cases hch
    obtain ⟨hfr, _⟩ := v.cur c e hn
    refine ⟨hfr, pos + k, ⟨⟨?_, ?_, ?_, hslot⟩, ?_, ?_, hexp⟩⟩
    · omega
    · have := cu.used.nLe; show c.n ≤ _; omega
    · intro j hj
      have := cu.used.base j hj
      show c.base j < _
      omega
    · intro _
      constructor
      · intro _; omega
      · intro _; rfl
    · intro hm; rw [hm] at hmp; cases hmp
  case top => intro h; cases h
  case pop => intro h; cases h
  case shape => exact v.shape
  case brokenP => exact v.brokenP
  case doneP =>
    have := v.doneP
    rw [hn] at this
    constructor
    · intro h; cases this.mp h
    · intro h; cases h
  case finP =>
    intro h
    have := (v.finP h).2
    rw [hn] at this
    cases this

theorem pollFail_inv {cfg : Cfg} {s : St} (v : Inv cfg s) {qs : List Cqe} (hcq : s.cq = .fail :: qs) :
    Inv cfg { s with cq := qs, errors := s.errors + 1 } := by
  have hX : X { s with cq := qs, errors := s.errors + 1 } = X s := by
    show covs qs ++ s.posted = covs s.cq ++ s.posted
    rw [hcq]
    rfl
  constructor
  case bytes => exact v.bytes
  case cqb =>
    have := v.cqb
    rw [hcq] at this
    exact this
  case packetsLe => exact v.packetsLe
  case ids => exact v.ids
  case nodup => rw [hX]; exact v.nodup
  case lt => rw [hX]; exact v.lt
  case cqOk => intro q hq; exact v.cqOk q (by rw [hcq]; exact List.mem_cons_of_mem _ hq)
  case used =>
    intro ch hch
    obtain ⟨pos, h1, h2⟩ := v.used ch hch
    exact ⟨pos, h1.congr (by rw [hX]; exact fun x h => h), h2⟩
  case baseId => exact v.baseId
  case cur =>
    intro ch e hn
    obtain ⟨hfr, pos, hc⟩ := v.cur ch e hn
    exact ⟨hfr, pos, ⟨hc.used.congr (by rw [hX]; exact fun x h => h), hc.full, hc.plain, hc.expected.congr hX rfl⟩⟩
  case top =>
    intro hn ho
    obtain ⟨hfr, hc⟩ := v.top hn ho
    exact ⟨hfr, hc.congr hX rfl⟩
  case pop =>
    intro hn
    obtain ⟨hfr, hc⟩ := v.pop hn
    exact ⟨hfr, hc.congr hX rfl⟩
  case shape => exact v.shape
  case brokenP => exact v.brokenP
  case doneP => exact v.doneP
  case finP => exact v.finP

theorem leave_inv {cfg : Cfg} {s : St} (v : Inv cfg s) {c : Chunk} {e : Nat} (hn : s.net = .inner c e)
    (hl : leaves cfg s c e = true) : Inv cfg (leave cfg s c) := by
  obtain ⟨hfr, pos, cu⟩ := v.cur c e hn
  have hfields : (if cfg.mprq then c else { c with full := c.n == cfg.maxRecords }).id = c.id ∧
      (if cfg.mprq then c else { c with full := c.n == cfg.maxRecords }).n = c.n ∧
      (if cfg.mprq then c else { c with full := c.n == cfg.maxRecords }).base = c.base ∧
      chunkBytes s.mem (if cfg.mprq then c else { c with full := c.n == cfg.maxRecords }) = chunkBytes s.mem c ∧
      ((if cfg.mprq then c else { c with full := c.n == cfg.maxRecords }).full = true ↔ pos = cfg.maxRecords) := by
    cases hm : cfg.mprq with
    | true => exact ⟨rfl, rfl, rfl, rfl, cu.full hm⟩
    | false =>
      refine ⟨rfl, rfl, rfl, rfl, ?_⟩
      have := (cu.plain hm).1
      simp [this]
  unfold leave
  generalize (if cfg.mprq then c else { c with full := c.n == cfg.maxRecords }) = cn at hfields
  obtain ⟨hid, hcn, hbase, hbytes, hfull⟩ := hfields
  constructor
  case bytes =>
    have hby := v.bytes
    rw [hn] at hby
    show s.out ++ collRest cfg s.mem s.coll ++ (s.ring ++ [cn]).flatMap (chunkBytes s.mem) ++ [] = _
    rw [← hby, List.flatMap_append]
    simp [Net.chunks, hbytes]
  case cqb => exact v.cqb
  case packetsLe => exact v.packetsLe
  case ids =>
    have := v.ids
    rw [hn] at this
    simp only [Net.chunks, List.map_append, List.map_cons, List.map_nil, List.append_nil, List.append_assoc] at this ⊢
    rw [hid]
    exact this
  case nodup => exact v.nodup
  case lt => exact v.lt
  case cqOk => exact v.cqOk
  case used =>
    intro ch hch
    rw [← List.append_assoc] at hch
    rcases List.mem_append.mp hch with h | h
    · obtain ⟨pos', hu, hf⟩ := v.used ch h
      exact ⟨pos', hu.congr fun x h => h, hf⟩
    · rw [List.mem_singleton.mp h]
      refine ⟨pos, ⟨cu.used.le, by rw [hcn]; exact cu.used.nLe, ?_, by rw [hid]; exact cu.used.slot⟩, hfull.mp⟩
      rw [hcn, hbase]
      exact cu.used.base
  case baseId =>
    intro hm ch hch
    simp only [Net.chunks, List.append_nil, List.mem_append, List.mem_singleton] at hch
    rcases hch with (hch | hch | rfl) | hch
    · exact v.baseId hm ch (by simp [hch])
    · exact v.baseId hm ch (by simp [hch])
    · rw [hbase]; exact v.baseId hm c (by rw [hn]; simp [Net.chunks])
    · exact v.baseId hm ch (by simp [hch])
  case cur => intro ch e' h; cases h
  case pop => intro h; cases h
  case top =>
    intro _ ho
    have hns : s.stop = false := by
      cases hs : s.stop
      · rfl
      · exact absurd (Or.inl hs) ho
    have hnr : s.remaining ≠ some 0 := fun h => ho (Or.inr h)
    have hp : pos = cfg.maxRecords := by
      unfold leaves at hl
      rw [hns, Bool.false_or] at hl
      cases hm : cfg.mprq with
      | true =>
        rw [hm] at hl
        simp only [if_true, Bool.or_eq_true, beq_iff_eq] at hl
        exact (cu.full hm).mp (hl.resolve_left hnr)
      | false =>
        rw [hm] at hl
        simp only [Bool.false_eq_true, if_false, beq_iff_eq] at hl
        obtain ⟨h1, _, h3⟩ := cu.plain hm
        subst hl
        cases hr : s.remaining with
        | none => rw [hr] at h3; unfold Left at h3; omega
        | some r =>
          rw [hr] at h3
          obtain ⟨_, _, h3 | h3⟩ := h3
          · exact absurd (by rw [hr, h3]) hnr
          · omega
    refine ⟨⟨?_, hfr.2⟩, ?_⟩
    · intro ch hch
      rw [← List.append_assoc] at hch
      rcases List.mem_append.mp hch with h | h
      · exact hfr.1 ch h
      · rw [List.mem_singleton.mp h]; exact hfull.mpr hp
    · have := cu.expected
      rw [slotsFrom_nil cfg c.id pos (by omega), List.nil_append] at this
      exact this.congr rfl rfl
  case shape => exact v.shape
  case brokenP => exact v.brokenP
  case doneP =>
    have := v.doneP
    rw [hn] at this
    constructor
    · intro h; cases this.mp h
    · intro h; cases h
  case finP =>
    intro h
    have := (v.finP h).2
    rw [hn] at this
    cases this

theorem net_inv {cfg : Cfg} (hM : 0 < cfg.maxRecords) {s : St} (v : Inv cfg s) : Inv cfg (netStep cfg s) := by
  unfold netStep
  split
  · rename_i hn
    split
    · rename_i ho
      constructor
      case bytes => have := v.bytes; rw [hn] at this; exact this
      case cqb => exact v.cqb
      case packetsLe => exact v.packetsLe
      case ids => have := v.ids; rw [hn] at this; exact this
      case nodup => exact v.nodup
      case lt => exact v.lt
      case cqOk => exact v.cqOk
      case used =>
        intro ch hch
        obtain ⟨pos, h1, h2⟩ := v.used ch hch
        exact ⟨pos, h1.congr fun x h => h, h2⟩
      case baseId => have := v.baseId; rw [hn] at this; exact this
      case cur => intro ch e h; cases h
      case top => intro h; cases h
      case pop => intro h; cases h
      case shape => exact v.shape
      case brokenP => exact v.brokenP
      case doneP => exact ⟨fun _ => rfl, fun _ => rfl⟩
      case finP => intro h; exact ⟨(v.finP h).1, rfl⟩
    · rename_i ho
      constructor
      case bytes => have := v.bytes; rw [hn] at this; exact this
      case cqb => exact v.cqb
      case packetsLe => exact v.packetsLe
      case ids => have := v.ids; rw [hn] at this; exact this
      case nodup => exact v.nodup
      case lt => exact v.lt
      case cqOk => exact v.cqOk
      case used =>
        intro ch hch
        obtain ⟨pos, h1, h2⟩ := v.used ch hch
        exact ⟨pos, h1.congr fun x h => h, h2⟩
      case baseId => have := v.baseId; rw [hn] at this; exact this
      case cur => intro ch e h; cases h
      case top => intro h; cases h
      case pop =>
        intro _
        obtain ⟨hfr, hc⟩ := v.top hn ho
        exact ⟨hfr, hc.congr rfl rfl⟩
      case shape => exact v.shape
      case brokenP => exact v.brokenP
      case doneP =>
        have := v.doneP
        rw [hn] at this
        constructor
        · intro h; cases this.mp h
        · intro h; cases h
      case finP =>
        intro h
        have := (v.finP h).2
        rw [hn] at this
        cases this
  · rename_i hn
    split
    · exact v
    · rename_i c fs hf
      obtain ⟨hfr, hexp⟩ := v.pop hn
      have hc := hfr.2 c (by rw [hf]; simp)
      constructor
      case bytes =>
        have := v.bytes
        rw [hn] at this
        show s.out ++ collRest cfg s.mem s.coll ++ s.ring.flatMap (chunkBytes s.mem) ++ [c].flatMap (chunkBytes s.mem) = _
        rw [← this]
        simp [Net.chunks, chunkBytes, hc.1]
      case cqb => exact v.cqb
      case packetsLe => exact v.packetsLe
      case ids =>
        have := v.ids
        rw [hn, hf] at this
        simp only [Net.chunks, List.map_append, List.map_cons, List.map_nil, List.append_nil, List.append_assoc,
          List.singleton_append] at this ⊢
        exact this
      case nodup => exact v.nodup
      case lt => exact v.lt
      case cqOk => exact v.cqOk
      case used =>
        intro ch hch
        obtain ⟨pos, h1, h2⟩ := v.used ch hch
        exact ⟨pos, h1.congr fun x h => h, h2⟩
      case baseId =>
        intro hm ch hch
        refine v.baseId hm ch ?_
        rw [hn, hf]
        simp only [Net.chunks, List.append_nil, List.append_assoc, List.mem_append, List.mem_cons, List.not_mem_nil, or_false] at hch ⊢
        exact hch
      case cur =>
        intro ch e h
        cases h
        refine ⟨⟨hfr.1, fun d hd => hfr.2 d (by rw [hf]; simp [hd])⟩, 0, ⟨⟨Nat.zero_le _, ?_, ?_, ?_⟩, ?_, ?_, ?_⟩⟩
        · rw [hc.1]
        · intro i hi; rw [hc.1] at hi; omega
        · intro j _; exact Nat.zero_le _
        · intro _; rw [hc.2]; constructor
          · intro h; cases h
          · intro h; omega
        · intro hm
          refine ⟨hc.1.symm, hc.2, ?_⟩
          rw [hm, hc.1]
          show Left cfg 0 (expect cfg s.remaining) s.remaining
          unfold expect
          cases s.remaining with
          | none => exact rfl
          | some r =>
            show (if r < cfg.maxRecords then r else cfg.maxRecords) ≤ r ∧
              (if r < cfg.maxRecords then r else cfg.maxRecords) + 0 ≤ cfg.maxRecords ∧
              ((if r < cfg.maxRecords then r else cfg.maxRecords) = r ∨
                (if r < cfg.maxRecords then r else cfg.maxRecords) + 0 = cfg.maxRecords)
            split <;> refine ⟨?_, ?_, ?_⟩ <;> omega
        · have he : Expected s (slotsFrom cfg c.id 0 ++ fs.flatMap (fun c => slots cfg c.id)) := by
            rw [hf, List.flatMap_cons, slots_eq] at hexp
            exact hexp
          exact he.congr rfl rfl
      case top => intro h; cases h
      case pop => intro h; cases h
      case shape => exact v.shape
      case brokenP => exact v.brokenP
      case doneP =>
        have := v.doneP
        rw [hn] at this
        constructor
        · intro h; cases this.mp h
        · intro h; cases h
      case finP =>
        intro h
        have := (v.finP h).2
        rw [hn] at this
        cases this
  · rename_i c e hn
    split
    · rename_i hl
      exact leave_inv v hn hl
    · rename_i hl
      have hl' : leaves cfg s c e = false := by simpa using hl
      obtain ⟨hfr, pos, cu⟩ := v.cur c e hn
      split
      · exact v
      · rename_i q qs hcq
        have hst : s.stop = false := by
          unfold leaves at hl'
          exact (Bool.or_eq_false_iff.mp hl').1
        cases hm : cfg.mprq with
        | true =>
          rw [if_pos rfl]
          have hnf : c.full = false := by
            unfold leaves at hl'
            rw [hm] at hl'
            simp at hl'
            exact hl'.2.2
          have hlt : pos < cfg.maxRecords := by
            have h1 := cu.used.le
            have h2 := cu.full hm
            rw [hnf] at h2
            have : pos ≠ cfg.maxRecords := fun h => by cases h2.mpr h
            omega
          cases q with
          | ok c' i k len ns last =>
            exact pollOk_inv v hn cu hlt hcq (recordMprq cfg c i len ns last) 0 _ rfl rfl
              (by
                intro j hj
                have : j ≠ c.n := by omega
                simp [recordMprq, upd, this])
              (by intro _; simp [recordMprq, upd]) (by intro _; simp [recordMprq, upd])
              (by intro _; simp [recordMprq, upd])
              (by intro _; simp [recordMprq, Bool.or_eq_true])
              (by intro h; rw [hm] at h; cases h)
          | filler c' i k => exact pollFiller_inv v hn cu hlt hcq
          | fail => exact pollFail_inv v hcq
        | false =>
          simp only [Bool.false_eq_true, if_false]
          obtain ⟨hpn, hcf, hleft⟩ := cu.plain hm
          have he : e ≠ 0 := by
            unfold leaves at hl'
            rw [hm] at hl'
            simp at hl'
            exact hl'.2
          have hlt : pos < cfg.maxRecords := by
            have h1 := cu.used.le
            cases hr : s.remaining with
            | none => rw [hr] at hleft; unfold Left at hleft; omega
            | some r => rw [hr] at hleft; obtain ⟨_, h2, _⟩ := hleft; omega
          cases q with
          | ok c' i k len ns last =>
            exact pollOk_inv v hn cu hlt hcq (recordPlain cfg c i len ns) (e - 1) _ rfl rfl
              (by
                intro j hj
                obtain ⟨hk1, hik, _⟩ := v.cqOk _ (show Cqe.ok c' i k len ns last ∈ s.cq by rw [hcq]; simp)
                obtain ⟨_, hi, _⟩ := consume v hn cu hlt hcq rfl hk1 hik
                have : j ≠ i := by omega
                simp [recordPlain, upd, this])
              (by intro h; simp [recordPlain, upd, h, hpn])
              (by intro h; rw [h, hpn]; exact v.baseId hm c (by rw [hn]; simp [Net.chunks]) c.n)
              (by intro h; simp [recordPlain, upd, h, hpn, mkHeader, hm])
              (by intro h; rw [hm] at h; cases h)
              (by
                intro _
                refine ⟨hcf, ?_, v.baseId hm c (by rw [hn]; simp [Net.chunks])⟩
                show Left cfg (c.n + 1) (e - 1) (dec s.remaining)
                cases hr : s.remaining with
                | none => rw [hr] at hleft; unfold Left at hleft; show e - 1 + (c.n + 1) = _; omega
                | some r =>
                  rw [hr] at hleft
                  obtain ⟨h1, h2, h3⟩ := hleft
                  show e - 1 ≤ r - 1 ∧ e - 1 + (c.n + 1) ≤ _ ∧ (e - 1 = r - 1 ∨ e - 1 + (c.n + 1) = _)
                  omega)
          | filler c' i k =>
            have := (v.cqOk _ (show Cqe.filler c' i k ∈ s.cq by rw [hcq]; simp)).2.2
            rw [hm] at this; cases this
          | fail =>
            have : cfg.mprq = true := v.cqOk _ (show Cqe.fail ∈ s.cq by rw [hcq]; simp)
            rw [hm] at this; cases this
  · exact v

/-! ## The collecting thread -/

/-- The collecting thread changes neither the outstanding slots nor the order of the chunks. -/
theorem collMove_inv {cfg : Cfg} {s : St} (v : Inv cfg s) (ring : List Chunk) (coll : Coll) (out : List UInt8)
    (hb : out ++ collRest cfg s.mem coll ++ ring.flatMap (chunkBytes s.mem) =
      s.out ++ collRest cfg s.mem s.coll ++ s.ring.flatMap (chunkBytes s.mem))
    (hc : coll.chunks ++ ring = s.coll.chunks ++ s.ring)
    (hf : coll = .finished → ring = [] ∧ s.net = .done) :
    Inv cfg { s with ring := ring, coll := coll, out := out } := by
  have hfresh : Fresh s → Fresh { s with ring := ring, coll := coll, out := out } := by
    intro h
    refine ⟨?_, h.2⟩
    intro c hcm
    exact h.1 c (by rw [← hc]; exact hcm)
  constructor
  case bytes =>
    show out ++ collRest cfg s.mem coll ++ ring.flatMap (chunkBytes s.mem) ++ _ = _
    rw [hb]
    exact v.bytes
  case cqb => exact v.cqb
  case packetsLe => exact v.packetsLe
  case ids =>
    show ((coll.chunks ++ ring ++ s.net.chunks ++ s.free).map Chunk.id).Nodup
    rw [hc]
    exact v.ids
  case nodup => exact v.nodup
  case lt => exact v.lt
  case cqOk => exact v.cqOk
  case used =>
    intro ch hch
    obtain ⟨pos, h1, h2⟩ := v.used ch (by rw [← hc]; exact hch)
    exact ⟨pos, h1.congr fun x h => h, h2⟩
  case baseId =>
    intro hm ch hch
    refine v.baseId hm ch ?_
    rw [← hc]
    exact hch
  case cur =>
    intro ch e hn
    obtain ⟨hfr, pos, cu⟩ := v.cur ch e hn
    exact ⟨hfresh hfr, pos, ⟨cu.used.congr fun x h => h, cu.full, cu.plain, cu.expected.congr rfl rfl⟩⟩
  case top =>
    intro hn ho
    obtain ⟨hfr, he⟩ := v.top hn ho
    exact ⟨hfresh hfr, he.congr rfl rfl⟩
  case pop =>
    intro hn
    obtain ⟨hfr, he⟩ := v.pop hn
    exact ⟨hfresh hfr, he.congr rfl rfl⟩
  case shape => exact v.shape
  case brokenP => exact v.brokenP
  case doneP => exact v.doneP
  case finP => exact hf

theorem collRest_done {cfg : Cfg} {m : Nat → Nat → List UInt8} {c : Chunk} {i : Nat} (h : ¬ i < 2 * c.n) :
    collRest cfg m (.writing c i) = [] := by
  show ((List.range (2 * c.n)).drop i).flatMap (iov m c) = []
  rw [List.drop_eq_nil_of_le (by rw [List.length_range]; omega)]
  rfl

theorem collPiece {cfg : Cfg} {m : Nat → Nat → List UInt8} {c : Chunk} {i : Nat} (h : i < 2 * c.n) :
    collRest cfg m (.writing c i) = iov m c i ++ collRest cfg m (.writing c (i + 1)) := by
  show ((List.range (2 * c.n)).drop i).flatMap (iov m c) = iov m c i ++ ((List.range (2 * c.n)).drop (i + 1)).flatMap (iov m c)
  rw [List.drop_eq_getElem_cons (by rw [List.length_range]; exact h), List.flatMap_cons]
  simp

/-- A chunk is put back. -/
theorem recycle_inv {cfg : Cfg} (hM : 0 < cfg.maxRecords) {s : St} (v : Inv cfg s) {c : Chunk} {i : Nat}
    (hco : s.coll = .writing c i) (hi : ¬ i < 2 * c.n) : Inv cfg (chunkDone cfg { s with coll := .idle } c) := by
  have hcm : c ∈ s.coll.chunks ++ s.ring := by rw [hco]; simp [Coll.chunks]
  obtain ⟨cpos, hcu, hcf⟩ := v.used c hcm
  have hids := v.ids
  rw [hco] at hids
  simp only [Coll.chunks, List.map_append, List.map_cons, List.map_nil, List.singleton_append, List.cons_append, List.nil_append] at hids
  have hother : ∀ d ∈ s.ring ++ s.net.chunks ++ s.free, c.id ≠ d.id := by
    intro d hd he
    have h := (List.nodup_cons.mp hids).1
    refine h ?_
    rw [he, ← List.map_append, ← List.map_append]
    exact List.mem_map_of_mem (f := Chunk.id) hd
  have hby : s.out ++ s.ring.flatMap (chunkBytes s.mem) ++ s.net.chunks.flatMap (chunkBytes s.mem) =
      fileHeader cfg.snaplen ++ (s.delivered.take s.packets).flatMap (frameBytes cfg) := by
    have := v.bytes
    rw [hco, collRest_done hi, List.append_nil] at this
    exact this
  have hidsNew : ∀ c' : Chunk, c'.id = c.id → ((s.ring ++ s.net.chunks ++ (s.free ++ [c'])).map Chunk.id).Nodup := by
    intro c' hc'
    simp only [List.map_append, List.map_cons, List.map_nil, ← List.append_assoc, hc']
    exact (List.perm_append_singleton _ _).nodup_iff.mpr (by simpa [List.append_assoc] using hids)
  have hbase : ∀ c' : Chunk, c'.base = c.base → cfg.mprq = false →
      ∀ d ∈ s.ring ++ s.net.chunks ++ (s.free ++ [c']), ∀ j, d.base j = j := by
    intro c' hc' hm d hd
    rw [← List.append_assoc] at hd
    rcases List.mem_append.mp hd with hd | hd
    · refine v.baseId hm d ?_
      rw [hco]
      simp only [Coll.chunks, List.singleton_append, List.cons_append, List.mem_cons]
      exact Or.inr hd
    · rw [List.mem_singleton.mp hd, hc']
      exact v.baseId hm c (by rw [hco]; simp [Coll.chunks])
  have hfin : s.coll ≠ .finished := by rw [hco]; intro h; cases h
  unfold chunkDone
  split
  · rename_i hfull
    have hpos := hcf hfull
    have hnot : ∀ j, (c.id, j) ∉ X s := by
      intro j hj
      have h1 := hcu.slot j hj
      have h2 : j < cfg.maxRecords := v.lt _ hj
      omega
    -- the new state
    have key : ∀ posted, (posted = s.posted ++ slots cfg c.id ∧ s.broken = false ∨ posted = s.posted ∧ s.broken = true) →
        Inv cfg { s with coll := .idle, posted := posted, free := s.free ++ [{ c with n := 0, full := false }] } := by
      intro posted hposted
      have hX : ∀ x, x ∈ covs s.cq ++ posted → x ∈ X s ∨ x ∈ slots cfg c.id := by
        intro x hx
        rcases hposted with ⟨rfl, _⟩ | ⟨rfl, _⟩
        · rw [← List.append_assoc] at hx
          exact List.mem_append.mp hx
        · exact Or.inl hx
      have hslotOther : ∀ d : Chunk, c.id ≠ d.id → ∀ j, (d.id, j) ∈ covs s.cq ++ posted → (d.id, j) ∈ X s := by
        intro d hd j hj
        rcases hX _ hj with h | h
        · exact h
        · rw [slots_eq, mem_slotsFrom] at h
          exact absurd h.1.symm hd
      have hexp : ∀ l, Expected s (l ++ s.free.flatMap (fun c => slots cfg c.id)) →
          Expected { s with coll := .idle, posted := posted, free := s.free ++ [{ c with n := 0, full := false }] } (l ++ (s.free ++ [{ c with n := 0, full := false }]).flatMap (fun c : Chunk => slots cfg c.id)) := by
        intro l hl
        rw [List.flatMap_append, ← List.append_assoc]
        simp only [List.flatMap_cons, List.flatMap_nil, List.append_nil]
        unfold Expected at hl ⊢
        rcases hposted with ⟨rfl, hbr⟩ | ⟨rfl, hbr⟩
        · rw [hbr] at hl
          simp only [hbr, Bool.false_eq_true, if_false] at hl ⊢
          show covs s.cq ++ (s.posted ++ slots cfg c.id) = _
          rw [← hl, ← List.append_assoc]
          rfl
        · rw [hbr] at hl
          simp only [hbr, if_true] at hl ⊢
          exact hl.trans (List.prefix_append _ _)
      have hfresh : Fresh s → Fresh { s with coll := .idle, posted := posted, free := s.free ++ [{ c with n := 0, full := false }] } := by
        intro h
        refine ⟨fun d hd => h.1 d (by rw [hco]; simp only [Coll.chunks, List.mem_append]; exact Or.inr hd), ?_⟩
        intro d hd
        rcases List.mem_append.mp hd with hd | hd
        · exact h.2 d hd
        · rw [List.mem_singleton.mp hd]; exact ⟨rfl, rfl⟩
      constructor
      case bytes =>
        show s.out ++ [] ++ _ ++ _ = _
        rw [List.append_nil]
        exact hby
      case cqb => exact v.cqb
      case packetsLe => exact v.packetsLe
      case ids => exact hidsNew _ rfl
      case nodup =>
        rcases hposted with ⟨rfl, _⟩ | ⟨rfl, _⟩
        · show (covs s.cq ++ (s.posted ++ slots cfg c.id)).Nodup
          rw [← List.append_assoc, List.nodup_append]
          refine ⟨v.nodup, by rw [slots_eq]; exact slotsFrom_nodup cfg c.id 0, ?_⟩
          intro a ha b hb hab
          subst hab
          rw [slots_eq, mem_slotsFrom] at hb
          refine hnot a.2 ?_
          rw [← hb.1]
          exact ha
        · exact v.nodup
      case lt =>
        intro x hx
        rcases hX x hx with h | h
        · exact v.lt x h
        · rw [slots_eq, mem_slotsFrom] at h; exact h.2.2
      case cqOk => exact v.cqOk
      case used =>
        intro d hd
        have hd : d ∈ s.ring := by simpa [Coll.chunks] using hd
        obtain ⟨pos, h1, h2⟩ := v.used d (by simp [hd])
        refine ⟨pos, ⟨h1.le, h1.nLe, h1.base, ?_⟩, h2⟩
        intro j hj
        exact h1.slot j (hslotOther d (hother d (by simp [hd])) j hj)
      case baseId => exact hbase _ rfl
      case cur =>
        intro d e hn
        obtain ⟨hfr, pos, cu⟩ := v.cur d e hn
        refine ⟨hfresh hfr, pos, ⟨⟨cu.used.le, cu.used.nLe, cu.used.base, ?_⟩, cu.full, cu.plain, hexp _ cu.expected⟩⟩
        intro j hj
        refine cu.used.slot j (hslotOther d (hother d ?_) j hj)
        have hn' : s.net = .inner d e := hn
        rw [hn']
        simp [Net.chunks]
      case top =>
        intro hn ho
        obtain ⟨hfr, he⟩ := v.top hn ho
        exact ⟨hfresh hfr, hexp [] he⟩
      case pop =>
        intro hn
        obtain ⟨hfr, he⟩ := v.pop hn
        exact ⟨hfresh hfr, hexp [] he⟩
      case shape =>
        rcases hposted with ⟨rfl, _⟩ | ⟨rfl, _⟩
        · exact shape_post hM v.shape c.id
        · exact v.shape
      case brokenP =>
        intro hb
        rcases hposted with ⟨_, h⟩ | ⟨rfl, _⟩
        · have hb' : s.broken = true := hb
          rw [h] at hb'
          cases hb'
        · exact v.brokenP hb
      case doneP => exact v.doneP
      case finP => intro h; cases h
    cases hb : s.broken with
    | true =>
      have := key s.posted (Or.inr ⟨rfl, hb⟩)
      simp only [addToFree, post, hb, if_true]
      rw [hb] at this
      exact this
    | false =>
      have := key _ (Or.inl ⟨rfl, hb⟩)
      simp only [addToFree, post, hb, Bool.false_eq_true, if_false]
      rw [hb] at this
      exact this
  · rename_i hfull
    have hnf : ¬ Fresh s := fun h => hfull (h.1 c hcm)
    constructor
    case bytes =>
      show s.out ++ [] ++ _ ++ _ = _
      rw [List.append_nil]
      exact hby
    case cqb => exact v.cqb
    case packetsLe => exact v.packetsLe
    case ids => exact hidsNew c rfl
    case nodup => exact v.nodup
    case lt => exact v.lt
    case cqOk => exact v.cqOk
    case used =>
      intro d hd
      have hd : d ∈ s.ring := by simpa [Coll.chunks] using hd
      obtain ⟨pos, h1, h2⟩ := v.used d (by simp [hd])
      exact ⟨pos, h1.congr fun x h => h, h2⟩
    case baseId => exact hbase c rfl
    case cur => intro d e hn; exact absurd (v.cur d e hn).1 hnf
    case top => intro hn ho; exact absurd (v.top hn ho).1 hnf
    case pop => intro hn; exact absurd (v.pop hn).1 hnf
    case shape => exact v.shape
    case brokenP => exact v.brokenP
    case doneP => exact v.doneP
    case finP => intro h; cases h

theorem coll_inv {cfg : Cfg} (hM : 0 < cfg.maxRecords) {s : St} (v : Inv cfg s) : Inv cfg (collStep cfg s) := by
  unfold collStep
  split
  · rename_i hco
    exact collMove_inv v s.ring .idle _ (by rw [hco]; simp [collRest]) (by rw [hco]; rfl) (by intro h; cases h)
  · rename_i hco
    split
    · rename_i c r hr
      exact collMove_inv v r (.writing c 0) s.out (by rw [hco, hr]; simp [collRest, chunkBytes])
        (by rw [hco, hr]; rfl) (by intro h; cases h)
    · rename_i hr
      split
      · rename_i hs
        exact collMove_inv v s.ring .finished s.out (by rw [hco]; rfl) (by rw [hco]; rfl) (fun _ => ⟨hr, v.doneP.mp hs⟩)
      · exact v
  · rename_i c i hco
    split
    · rename_i hi
      exact collMove_inv v s.ring (.writing c (i + 1)) _ (by rw [hco, collPiece hi]; simp) (by rw [hco]; rfl)
        (by intro h; cases h)
    · rename_i hi
      exact recycle_inv hM v hco hi
  · exact v

/-! ## Histories -/

theorem step_inv {cfg : Cfg} (hM : 0 < cfg.maxRecords) {s : St} (v : Inv cfg s) (op : Op) (h : OpOk cfg op) :
    Inv cfg (step cfg s op) := by
  cases op with
  | frame f => exact frame_inv hM v f h
  | filler => exact filler_inv hM v
  | fail => exact fail_inv v h
  | net => exact net_inv hM v
  | coll => exact coll_inv hM v
  | interrupt => exact interrupt_inv v

theorem run_inv {cfg : Cfg} (hM : 0 < cfg.maxRecords) (ops : List Op) : ∀ {s : St}, Inv cfg s →
    (∀ op ∈ ops, OpOk cfg op) → Inv cfg (run cfg s ops) := by
  induction ops with
  | nil => intro s v _; exact v
  | cons op ops ih =>
    intro s v h
    exact ih (step_inv hM v op (h op List.mem_cons_self)) (fun o ho => h o (List.mem_cons_of_mem _ ho))

end Spead2.Cap
