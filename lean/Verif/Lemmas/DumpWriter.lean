import Verif.Spec.DumpWriter
import Mathlib.Data.List.Basic
import Mathlib.Tactic.Linarith

/-!
# Invariant of the file writer of mcdump
-/

namespace Spead2.Dump

/-! ## The file -/

theorem pwrite_in (f : List UInt8) (off : Nat) (bs : List UInt8) (p : Nat) (h1 : off ≤ p)
    (h2 : p < off + bs.length) : (pwrite f off bs)[p]? = bs[p - off]? := by
  unfold pwrite
  have hne : bs ≠ [] := by intro h; subst h; simp at h2; omega
  rw [if_neg hne]
  have hl : ((f ++ List.replicate (off - f.length) 0).take off).length = off := by
    simp; omega
  rw [List.append_assoc, List.getElem?_append_right (by omega), hl, List.getElem?_append_left (by omega)]

theorem pwrite_out (f : List UInt8) (off : Nat) (bs : List UInt8) (p : Nat)
    (h : p < off ∨ off + bs.length ≤ p) (hp : p < f.length) : (pwrite f off bs)[p]? = f[p]? := by
  unfold pwrite
  split
  · rfl
  · have hl : ((f ++ List.replicate (off - f.length) 0).take off).length = off := by
      simp; omega
    rcases h with h | h
    · rw [List.append_assoc, List.getElem?_append_left (by omega), List.getElem?_take_of_lt h,
        List.getElem?_append_left hp]
    · rw [List.getElem?_append_right (by rw [List.length_append, hl]; exact h), List.length_append, hl,
        List.getElem?_drop]
      congr 1
      omega

/-- A position that has the right value keeps it if the bytes written there are right. -/
theorem pwrite_keeps {f W bs : List UInt8} {off p : Nat} (hp : p < W.length) (hf : f[p]? = W[p]?)
    (hb : ∀ i, i < bs.length → off + i = p → bs[i]? = W[p]?) : (pwrite f off bs)[p]? = W[p]? := by
  by_cases h : off ≤ p ∧ p < off + bs.length
  · rw [pwrite_in _ _ _ _ h.1 h.2]
    exact hb (p - off) (by omega) (by omega)
  · rw [pwrite_out]
    · exact hf
    · omega
    · rw [List.getElem?_eq_getElem hp] at hf
      exact (List.getElem?_eq_some_iff.mp hf).1

/-! ## The invariant -/

/-- Data that the call in progress has still to copy. -/
def Pc.rest : Pc → List UInt8
  | .copy r => r
  | .push r _ => r
  | .pop r _ => r
  | _ => []

/-- Everything has been handed to the ring. -/
def Pc.final : Pc → Bool
  | .pop _ c => c
  | .stopRing | .join _ | .truncate | .closed | .threw | .ended | .terminated => true
  | _ => false

/-- After `ring.stop`. -/
def Pc.late : Pc → Bool
  | .join _ | .truncate | .closed | .threw | .ended | .terminated => true
  | _ => false

/-- A buffer of which `d` bytes are in the file and the others are not, or might not be. -/
def Out (s : St) (b : Buf) (d : Nat) : Prop :=
  (b ∈ s.ring ∧ d = 0) ∨ .writing b d ∈ s.workers ∨ .failed b d ∈ s.workers

structure Inv (B D : Nat) (W : List UInt8) (s : St) : Prop where
  data : W.drop s.total =
    (if s.pc.isPop then [] else s.cur.data.take s.cur.length) ++ s.pc.rest ++ s.calls.flatten
  totalLe : s.total ≤ W.length
  curOff : s.pc.isPop = false → s.cur.offset = s.total
  curData : s.pc.isPop = false → s.cur.data.length = B
  curLen : s.pc.isPop = false → s.cur.length ≤ B
  curLt : (∀ r c, s.pc ≠ .push r c) → s.pc.isPop = false → s.cur.length < B
  pushFull : ∀ r, s.pc = .push r false → s.cur.length = B
  pushClose : ∀ r, s.pc = .push r true → r = [] ∧ s.calls = []
  fin : s.pc.final = true → s.total = W.length
  finCalls : s.pc.final = true → s.calls = [] ∧ s.pc.rest = []
  finCur : s.pc.final = true → s.pc.isPop = false → s.cur.length = 0
  outLen : ∀ b d, Out s b d → b.data.length = B ∧ d ≤ B
  outData : ∀ b d, Out s b d → ∀ i, i < B → b.offset + i < s.total → b.data[i]? = W[b.offset + i]?
  outOld : ∀ b d, Out s b d → b.offset + B ≤ s.total ∨ s.pc.final = true
  cover : ∀ p, p < s.total → s.file[p]? = W[p]? ∨
    ∃ b d, Out s b d ∧ b.offset + d ≤ p ∧ p < b.offset + B
  freeOk : ∀ b ∈ s.free, b.data.length = B ∧ b.length = 0
  count : s.ring.length + s.free.length + s.workers.countP busy + (if s.pc.isPop then 0 else 1) = D
  late : s.ringStopped = s.pc.late
  finW : .finished ∈ s.workers → s.ring = [] ∧ s.ringStopped = true
  got0 : s.pc.late = false → s.got = 0
  joined : ∀ k, s.pc = .join k → s.got = k ∧ k ≤ s.workers.length ∧
    ∀ j, j < k → s.workers[j]? = some .finished
  allFin : s.pc = .truncate ∨ s.pc = .closed ∨ s.pc = .ended → ∀ w ∈ s.workers, w = .finished
  gotPos : s.pc = .threw → 0 < s.got
  shut : s.pc = .closed ∨ s.pc = .ended → s.file = W
  threwF : s.pc = .threw ∨ s.pc = .terminated → ∃ b d, Worker.failed b d ∈ s.workers
  stopFlag : (∃ b d, .failed b d ∈ s.workers) → s.stop = true

theorem init_inv {B : Nat} (hB : 0 < B) (mem : List (List UInt8)) (hm : mem ≠ [])
    (hl : ∀ d ∈ mem, d.length = B) (threads : Nat) (calls : List (List UInt8)) :
    Inv B mem.length calls.flatten (St.init mem threads calls) := by
  have hout : ∀ b d, ¬ Out (St.init mem threads calls) b d := by
    intro b d h
    rcases h with h | h | h
    · cases h.1
    · have := List.eq_of_mem_replicate h; cases this
    · have := List.eq_of_mem_replicate h; cases this
  cases mem with
  | nil => exact absurd rfl hm
  | cons m ms =>
    constructor
    case data => simp [St.init, Pc.isPop, Pc.rest]
    case totalLe => exact Nat.zero_le _
    case curOff => intro _; rfl
    case curData => intro _; exact hl m (by simp)
    case curLen => intro _; exact Nat.zero_le _
    case curLt => intro _ _; exact hB
    case pushFull => intro r h; cases h
    case pushClose => intro r h; cases h
    case fin => intro h; cases h
    case finCalls => intro h; cases h
    case finCur => intro h; cases h
    case outLen => intro b d h; exact absurd h (hout b d)
    case outData => intro b d h; exact absurd h (hout b d)
    case outOld => intro b d h; exact absurd h (hout b d)
    case cover => intro p h; exact absurd h (Nat.not_lt_zero p)
    case freeOk =>
      intro b hb
      have hb' : b ∈ ms.map (fun d => { offset := 0, data := d, length := 0 : Buf }) := hb
      obtain ⟨d, hd, rfl⟩ := List.mem_map.mp hb'
      exact ⟨hl d (by simp [hd]), rfl⟩
    case count =>
      show 0 + (ms.map _).length + (List.replicate threads Worker.idle).countP busy + 1 = ms.length + 1
      rw [List.countP_replicate]
      simp [busy]
    case late => rfl
    case got0 => intro _; rfl
    case finW => intro h; have := List.eq_of_mem_replicate h; cases this
    case joined => intro k h; cases h
    case allFin => intro h; rcases h with h | h | h <;> cases h
    case gotPos => intro h; cases h
    case shut => intro h; rcases h with h | h <;> cases h
    case threwF => intro h; rcases h with h | h <;> cases h
    case stopFlag =>
      rintro ⟨b, d, h⟩
      have := List.eq_of_mem_replicate h
      cases this

/-! ## Preservation -/

theorem call_inv {B D : Nat} {W : List UInt8} {s : St} (v : Inv B D W s) (hpc : s.pc = .call) :
    Inv B D W (callStep s) := by
  obtain ⟨data, totalLe, curOff, curData, curLen, curLt, pushFull, pushClose, fin, finCalls, finCur, outLen,
    outData, outOld, cover, freeOk, count, late, finW, got0, joined, allFin, gotPos, shut, threwF, stopFlag⟩ := v
  rw [hpc] at *
  unfold callStep
  split
  · rename_i c cs hc
    rw [hc] at data
    constructor
    case data => simpa [Pc.isPop, Pc.rest] using data
    case curLt => intro _ h; exact curLt (by intro r c h; cases h) h
    case pushFull => intro r h; cases h
    case pushClose => intro r h; cases h
    case fin => intro h; cases h
    case finCalls => intro h; cases h
    case finCur => intro h; cases h
    case joined => intro k h; cases h
    case allFin => intro h; rcases h with h | h | h <;> cases h
    case gotPos => intro h; cases h
    case shut => intro h; rcases h with h | h <;> cases h
    case threwF => intro h; rcases h with h | h <;> cases h
    all_goals assumption
  · rename_i hc
    rw [hc] at data
    have hW := congrArg List.length data
    simp only [Pc.isPop, Pc.rest, List.length_drop, List.length_append, List.length_take, List.flatten_nil,
      List.length_nil, Bool.false_eq_true, if_false] at hW
    have hcl := curLen rfl
    have hcd := curData rfl
    split
    · rename_i hlen
      constructor
      case data => simpa [Pc.isPop, Pc.rest, hc] using data
      case curLt => intro h; exact absurd rfl (h [] true)
      case pushFull => intro r h; cases h
      case pushClose => intro r h; cases h; exact ⟨rfl, hc⟩
      case fin => intro h; cases h
      case finCalls => intro h; cases h
      case finCur => intro h; cases h
      case joined => intro k h; cases h
      case allFin => intro h; rcases h with h | h | h <;> cases h
      case gotPos => intro h; cases h
      case shut => intro h; rcases h with h | h <;> cases h
      case threwF => intro h; rcases h with h | h <;> cases h
      all_goals assumption
    · rename_i hlen
      constructor
      case data => simpa [Pc.isPop, Pc.rest, hc] using data
      case curLt => intro _ h; exact curLt (by intro r c h; cases h) h
      case pushFull => intro r h; cases h
      case pushClose => intro r h; cases h
      case fin => intro _; show s.total = _; omega
      case finCalls => intro _; exact ⟨hc, rfl⟩
      case finCur => intro _ _; show s.cur.length = 0; omega
      case outOld => intro b d h; exact Or.inr rfl
      case joined => intro k h; cases h
      case allFin => intro h; rcases h with h | h | h <;> cases h
      case gotPos => intro h; cases h
      case shut => intro h; rcases h with h | h <;> cases h
      case threwF => intro h; rcases h with h | h <;> cases h
      all_goals assumption

theorem copyNil_inv {B D : Nat} {W : List UInt8} {s : St} (v : Inv B D W s) (hpc : s.pc = .copy []) :
    Inv B D W { s with pc := .call } := by
  obtain ⟨data, totalLe, curOff, curData, curLen, curLt, pushFull, pushClose, fin, finCalls, finCur, outLen,
    outData, outOld, cover, freeOk, count, late, finW, got0, joined, allFin, gotPos, shut, threwF, stopFlag⟩ := v
  rw [hpc] at *
  constructor
  case data => simpa [Pc.isPop, Pc.rest] using data
  case curLt => intro _ h; exact curLt (by intro r c h; cases h) h
  case pushFull => intro r h; cases h
  case pushClose => intro r h; cases h
  case fin => intro h; cases h
  case finCalls => intro h; cases h
  case finCur => intro h; cases h
  case joined => intro k h; cases h
  case allFin => intro h; rcases h with h | h | h <;> cases h
  case gotPos => intro h; cases h
  case shut => intro h; rcases h with h | h <;> cases h
  case threwF => intro h; rcases h with h | h <;> cases h
  all_goals assumption

theorem append_take {b : Buf} {bs : List UInt8} (h : b.length ≤ b.data.length) :
    (b.append bs).data.take (b.append bs).length = b.data.take b.length ++ bs := by
  show (b.data.take b.length ++ bs ++ b.data.drop (b.length + bs.length)).take (b.length + bs.length) = _
  rw [List.take_append_of_le_length (by simp; omega), List.take_of_length_le (by simp)]

theorem append_data_length {b : Buf} {bs : List UInt8} (h : b.length + bs.length ≤ b.data.length) :
    (b.append bs).data.length = b.data.length := by
  show (b.data.take b.length ++ bs ++ b.data.drop (b.length + bs.length)).length = _
  simp
  omega

theorem copy_inv {B D : Nat} {W : List UInt8} {s : St} (v : Inv B D W s) {rest : List UInt8}
    (hpc : s.pc = .copy rest) : Inv B D W (copyStep B s rest) := by
  obtain ⟨data, totalLe, curOff, curData, curLen, curLt, pushFull, pushClose, fin, finCalls, finCur, outLen,
    outData, outOld, cover, freeOk, count, late, finW, got0, joined, allFin, gotPos, shut, threwF, stopFlag⟩ := v
  rw [hpc] at *
  have hcd := curData rfl
  have hcl := curLen rfl
  have hlt := curLt (by intro r c h; cases h) rfl
  have hbl : (rest.take (min rest.length (B - s.cur.length))).length = min rest.length (B - s.cur.length) := by
    rw [List.length_take]; omega
  have hal : (s.cur.append (rest.take (min rest.length (B - s.cur.length)))).length =
      s.cur.length + min rest.length (B - s.cur.length) := by
    show s.cur.length + (rest.take _).length = _
    rw [hbl]
  have hdl : (s.cur.append (rest.take (min rest.length (B - s.cur.length)))).data.length = B := by
    rw [append_data_length (by rw [hbl]; omega)]; exact hcd
  have htk := append_take (bs := rest.take (min rest.length (B - s.cur.length)))
    (show s.cur.length ≤ s.cur.data.length by omega)
  have hd' : W.drop s.total = (s.cur.append (rest.take (min rest.length (B - s.cur.length)))).data.take
      (s.cur.append (rest.take (min rest.length (B - s.cur.length)))).length ++
      rest.drop (min rest.length (B - s.cur.length)) ++ s.calls.flatten := by
    rw [htk, List.append_assoc (s.cur.data.take _), List.take_append_drop]
    simpa [Pc.isPop, Pc.rest] using data
  unfold copyStep
  simp only
  split
  · rename_i hfull
    constructor
    case data => simpa [Pc.isPop, Pc.rest] using hd'
    case curOff => intro _; exact curOff rfl
    case curData => intro _; exact hdl
    case curLen => intro _; exact le_of_eq hfull
    case curLt => intro h; exact absurd rfl (h _ _)
    case pushFull => intro r _; exact hfull
    case pushClose => intro r h; cases h
    case fin => intro h; cases h
    case finCalls => intro h; cases h
    case finCur => intro h; cases h
    case joined => intro k h; cases h
    case allFin => intro h; rcases h with h | h | h <;> cases h
    case gotPos => intro h; cases h
    case shut => intro h; rcases h with h | h <;> cases h
    case threwF => intro h; rcases h with h | h <;> cases h
    all_goals assumption
  · rename_i hfull
    constructor
    case data => simpa [Pc.isPop, Pc.rest] using hd'
    case curOff => intro _; exact curOff rfl
    case curData => intro _; exact hdl
    case curLen => intro _; show (s.cur.append _).length ≤ B; omega
    case curLt => intro _ _; show (s.cur.append _).length < B; omega
    case pushFull => intro r h; cases h
    case pushClose => intro r h; cases h
    case fin => intro h; cases h
    case finCalls => intro h; cases h
    case finCur => intro h; cases h
    case joined => intro k h; cases h
    case allFin => intro h; rcases h with h | h | h <;> cases h
    case gotPos => intro h; cases h
    case shut => intro h; rcases h with h | h <;> cases h
    case threwF => intro h; rcases h with h | h <;> cases h
    all_goals assumption

theorem push_inv {B D : Nat} {W : List UInt8} {s : St} (v : Inv B D W s) {rest : List UInt8} {c : Bool}
    (hpc : s.pc = .push rest c) : Inv B D W (pushStep D s rest c) := by
  unfold pushStep
  split
  swap
  · exact v
  obtain ⟨data, totalLe, curOff, curData, curLen, curLt, pushFull, pushClose, fin, finCalls, finCur, outLen,
    outData, outOld, cover, freeOk, count, late, finW, got0, joined, allFin, gotPos, shut, threwF, stopFlag⟩ := v
  rw [hpc] at *
  have hcd := curData rfl
  have hcl := curLen rfl
  have hco := curOff rfl
  have hW := congrArg List.length data
  simp only [Pc.isPop, Pc.rest, List.length_drop, List.length_append, List.length_take,
    Bool.false_eq_true, if_false] at hW
  have hdr : W.drop (s.total + s.cur.length) = rest ++ s.calls.flatten := by
    rw [← List.drop_drop, data]
    simp only [Pc.isPop, Pc.rest, Bool.false_eq_true, if_false]
    rw [List.append_assoc, List.drop_append_of_le_length (by simp; omega), List.drop_eq_nil_of_le (by simp)]
    rfl
  have hcur : ∀ i, i < s.cur.length → s.cur.data[i]? = W[s.total + i]? := by
    intro i hi
    rw [← List.getElem?_drop, data]
    simp only [Pc.isPop, Pc.rest, Bool.false_eq_true, if_false]
    rw [List.append_assoc, List.getElem?_append_left (by simp; omega), List.getElem?_take_of_lt hi]
  have hout : ∀ b d, Out { s with total := s.total + s.cur.length, ring := s.ring ++ [s.cur], pc := .pop rest c } b d →
      Out s b d ∨ (b = s.cur ∧ d = 0) := by
    intro b d h
    rcases h with h | h | h
    · obtain ⟨h, rfl⟩ := h
      rcases List.mem_append.mp h with h | h
      · exact Or.inl (Or.inl ⟨h, rfl⟩)
      · exact Or.inr ⟨by simpa using h, rfl⟩
    · exact Or.inl (Or.inr (Or.inl h))
    · exact Or.inl (Or.inr (Or.inr h))
  have hmono : ∀ b d, Out s b d →
      Out { s with total := s.total + s.cur.length, ring := s.ring ++ [s.cur], pc := .pop rest c } b d := by
    intro b d h
    rcases h with h | h | h
    · exact Or.inl ⟨List.mem_append_left _ h.1, h.2⟩
    · exact Or.inr (Or.inl h)
    · exact Or.inr (Or.inr h)
  constructor
  case data => simpa [Pc.isPop, Pc.rest] using hdr
  case totalLe => show s.total + s.cur.length ≤ _; omega
  case curOff => intro h; cases h
  case curData => intro h; cases h
  case curLen => intro h; cases h
  case curLt => intro _ h; cases h
  case pushFull => intro r h; cases h
  case pushClose => intro r h; cases h
  case fin =>
    intro h
    have hc : c = true := h
    subst hc
    obtain ⟨h1, h2⟩ := pushClose rest rfl
    rw [h1, h2] at hW
    show s.total + s.cur.length = _
    simp only [List.flatten_nil, List.length_nil] at hW
    omega
  case finCalls =>
    intro h
    have hc : c = true := h
    subst hc
    obtain ⟨h1, h2⟩ := pushClose rest rfl
    exact ⟨h2, h1⟩
  case finCur => intro _ h; cases h
  case outLen =>
    intro b d h
    rcases hout b d h with h | ⟨rfl, rfl⟩
    · exact outLen b d h
    · exact ⟨hcd, Nat.zero_le _⟩
  case outData =>
    intro b d h i hi hlt
    have hlt' : b.offset + i < s.total + s.cur.length := hlt
    rcases hout b d h with h | ⟨rfl, rfl⟩
    · refine outData b d h i hi ?_
      rcases outOld b d h with h' | h'
      · omega
      · cases h'
    · rw [hco] at hlt' ⊢
      exact hcur i (by omega)
  case outOld =>
    intro b d h
    rcases hout b d h with h | ⟨rfl, rfl⟩
    · rcases outOld b d h with h' | h'
      · exact Or.inl (show b.offset + B ≤ s.total + s.cur.length by omega)
      · cases h'
    · cases c with
      | true => exact Or.inr rfl
      | false =>
        have := pushFull rest rfl
        exact Or.inl (show s.cur.offset + B ≤ s.total + s.cur.length by omega)
  case cover =>
    intro p hp
    have hp' : p < s.total + s.cur.length := hp
    by_cases hlt : p < s.total
    · rcases cover p hlt with h | ⟨b, d, h, h1, h2⟩
      · exact Or.inl h
      · exact Or.inr ⟨b, d, hmono b d h, h1, h2⟩
    · exact Or.inr ⟨s.cur, 0, Or.inl ⟨by simp, rfl⟩, by omega, by omega⟩
  case count =>
    have hc := count
    simp only [Pc.isPop, Bool.false_eq_true, if_false] at hc
    simp only [Pc.isPop, if_true, List.length_append, List.length_cons, List.length_nil]
    omega
  case late => exact late
  case finW =>
    intro h
    obtain ⟨_, h2⟩ := finW h
    rw [late] at h2
    cases h2
  case joined => intro k h; cases h
  case allFin => intro h; rcases h with h | h | h <;> cases h
  case gotPos => intro h; cases h
  case shut => intro h; rcases h with h | h <;> cases h
  case threwF => intro h; rcases h with h | h <;> cases h
  all_goals assumption

theorem pop_inv {B D : Nat} (hB : 0 < B) {W : List UInt8} {s : St} (v : Inv B D W s) {rest : List UInt8}
    {c : Bool} (hpc : s.pc = .pop rest c) : Inv B D W (popStep s rest c) := by
  unfold popStep
  split
  · exact v
  rename_i b fs hf
  obtain ⟨data, totalLe, curOff, curData, curLen, curLt, pushFull, pushClose, fin, finCalls, finCur, outLen,
    outData, outOld, cover, freeOk, count, late, finW, got0, joined, allFin, gotPos, shut, threwF, stopFlag⟩ := v
  rw [hpc, hf] at *
  obtain ⟨hbd, hbl⟩ := freeOk b (by simp)
  have hpop : (if c then Pc.stopRing else Pc.copy rest).isPop = false := by cases c <;> rfl
  have hrest : (if c then Pc.stopRing else Pc.copy rest).rest = rest := by
    cases c with
    | true => exact (finCalls rfl).2.symm
    | false => rfl
  have hfin : (if c then Pc.stopRing else Pc.copy rest).final = c := by cases c <;> rfl
  constructor
  case data =>
    show W.drop s.total = (if (if c then Pc.stopRing else Pc.copy rest).isPop then [] else b.data.take b.length) ++
      (if c then Pc.stopRing else Pc.copy rest).rest ++ s.calls.flatten
    rw [hpop, hrest, hbl]
    simpa [Pc.isPop, Pc.rest] using data
  case curOff => intro _; rfl
  case curData => intro _; exact hbd
  case curLen => intro _; show b.length ≤ B; omega
  case curLt => intro _ _; show b.length < B; omega
  case pushFull => intro r h; cases c <;> cases h
  case pushClose => intro r h; cases c <;> cases h
  case fin => intro h; exact fin (by rw [← hfin]; exact h)
  case finCalls =>
    intro h
    obtain ⟨h1, h2⟩ := finCalls (by rw [← hfin]; exact h)
    exact ⟨h1, by rw [hrest]; exact h2⟩
  case finCur => intro _ _; exact hbl
  case outOld =>
    intro b' d h
    rcases outOld b' d h with h' | h'
    · exact Or.inl h'
    · exact Or.inr (by rw [hfin]; exact h')
  case freeOk => intro b' hb'; exact freeOk b' (by simp [hb'])
  case count =>
    have hc := count
    simp only [Pc.isPop, if_true, List.length_cons] at hc
    show s.ring.length + fs.length + _ + (if (if c then Pc.stopRing else Pc.copy rest).isPop then 0 else 1) = D
    rw [hpop]
    simp only [Bool.false_eq_true, if_false]
    omega
  case late => rw [late]; cases c <;> rfl
  case got0 => intro _; exact got0 rfl
  case joined => intro k h; cases c <;> cases h
  case allFin => intro h; cases c <;> (rcases h with h | h | h <;> cases h)
  case gotPos => intro h; cases c <;> cases h
  case shut => intro h; cases c <;> (rcases h with h | h <;> cases h)
  case threwF => intro h; cases c <;> (rcases h with h | h <;> cases h)
  all_goals assumption

/-- Steps of `close` from `ring.stop` on. -/
theorem late_inv {B D : Nat} {W : List UInt8} {s : St} (v : Inv B D W s) (hf : s.pc.final = true)
    (hp : s.pc.isPop = false) {pc : Pc} (got : Nat) (file : List UInt8) (hl : pc.late = true)
    (hcov : ∀ p, p < s.total → file[p]? = W[p]? ∨ ∃ b d, Out s b d ∧ b.offset + d ≤ p ∧ p < b.offset + B)
    (hj : ∀ k, pc = .join k → got = k ∧ k ≤ s.workers.length ∧ ∀ j, j < k → s.workers[j]? = some .finished)
    (ha : pc = .truncate ∨ pc = .closed ∨ pc = .ended → ∀ w ∈ s.workers, w = .finished)
    (hg : pc = .threw → 0 < got) (hs : pc = .closed ∨ pc = .ended → file = W)
    (ht : pc = .threw ∨ pc = .terminated → ∃ b d, Worker.failed b d ∈ s.workers) :
    Inv B D W { s with ringStopped := true, pc := pc, got := got, file := file } := by
  have hpop : pc.isPop = false := by cases pc <;> first | rfl | cases hl
  have hrest : pc.rest = [] := by cases pc <;> first | rfl | cases hl
  have hfin : pc.final = true := by cases pc <;> first | rfl | cases hl
  have hnp : ∀ r c, pc ≠ .push r c := by intro r c h; rw [h] at hl; cases hl
  have hr := (v.finCalls hf).2
  constructor
  case data =>
    have := v.data
    rw [hp, hr] at this
    show W.drop s.total = (if pc.isPop then [] else s.cur.data.take s.cur.length) ++ pc.rest ++ s.calls.flatten
    rw [hpop, hrest]
    exact this
  case totalLe => exact v.totalLe
  case curOff => intro _; exact v.curOff hp
  case curData => intro _; exact v.curData hp
  case curLen => intro _; exact v.curLen hp
  case curLt =>
    intro _ _
    refine v.curLt ?_ hp
    intro r c h
    rw [h] at hf
    cases hf
  case pushFull => intro r h; exact absurd h (hnp _ _)
  case pushClose => intro r h; exact absurd h (hnp _ _)
  case fin => intro _; exact v.fin hf
  case finCalls => intro _; exact ⟨(v.finCalls hf).1, hrest⟩
  case finCur => intro _ _; exact v.finCur hf hp
  case outLen => exact v.outLen
  case outData => exact v.outData
  case outOld => intro b d _; exact Or.inr hfin
  case cover => exact hcov
  case freeOk => exact v.freeOk
  case count =>
    have := v.count
    rw [hp] at this
    show s.ring.length + s.free.length + s.workers.countP busy + (if pc.isPop then 0 else 1) = D
    rw [hpop]
    exact this
  case late => exact hl.symm
  case finW => intro h; exact ⟨(v.finW h).1, rfl⟩
  case got0 => intro h; rw [hl] at h; cases h
  case joined => exact hj
  case allFin => exact ha
  case gotPos => exact hg
  case shut => exact hs
  case threwF => exact ht
  case stopFlag => exact v.stopFlag

theorem stopRing_inv {B D : Nat} {W : List UInt8} {s : St} (v : Inv B D W s) (hpc : s.pc = .stopRing) :
    Inv B D W { s with ringStopped := true, pc := .join 0 } := by
  refine late_inv v (by rw [hpc]; rfl) (by rw [hpc]; rfl) s.got s.file rfl v.cover ?_ ?_ ?_ ?_ (by intro h; rcases h with h | h <;> cases h)
  · intro k h
    cases h
    exact ⟨v.got0 (by rw [hpc]; rfl), Nat.zero_le _, fun j h => absurd h (Nat.not_lt_zero j)⟩
  · intro h; rcases h with h | h | h <;> cases h
  · intro h; cases h
  · intro h; rcases h with h | h <;> cases h

theorem eta_stopped {s : St} (h : s.ringStopped = true) (pc : Pc) (got : Nat) (file : List UInt8) :
    { s with pc := pc, got := got, file := file } =
      { s with ringStopped := true, pc := pc, got := got, file := file } := by
  cases s
  simp only at h
  subst h
  rfl

theorem join_inv {B D : Nat} {W : List UInt8} {s : St} (v : Inv B D W s) {k : Nat} (hpc : s.pc = .join k) :
    Inv B D W (joinStep s k) := by
  have hst : s.ringStopped = true := by rw [v.late, hpc]; rfl
  obtain ⟨hk, hle, hfin⟩ := v.joined k hpc
  unfold joinStep
  split
  · rename_i hn
    have := late_inv v (by rw [hpc]; rfl) (by rw [hpc]; rfl) (pc := .truncate) s.got s.file rfl v.cover
      (by intro k h; cases h) ?_ (by intro h; cases h) (by intro h; rcases h with h | h <;> cases h)
      (by intro h; rcases h with h | h <;> cases h)
    · rw [← eta_stopped hst] at this
      exact this
    · intro _ w hw
      obtain ⟨j, hj, rfl⟩ := List.mem_iff_getElem.mp hw
      have hlen : s.workers.length ≤ k := by simpa using hn
      have := hfin j (by omega)
      rw [List.getElem?_eq_getElem hj] at this
      exact Option.some.inj this
  · rename_i hn
    have := late_inv v (by rw [hpc]; rfl) (by rw [hpc]; rfl) (pc := .join (k + 1)) (k + 1) s.file rfl v.cover
      ?_ (by intro h; rcases h with h | h | h <;> cases h) (by intro h; cases h)
      (by intro h; rcases h with h | h <;> cases h) (by intro h; rcases h with h | h <;> cases h)
    · rw [← eta_stopped hst] at this
      exact this
    · intro k' h
      cases h
      have hlt := (List.getElem?_eq_some_iff.mp hn).1
      refine ⟨rfl, hlt, ?_⟩
      intro j hj
      by_cases hjk : j = k
      · rw [hjk]; exact hn
      · exact hfin j (by omega)
  · rename_i b d hk
    have := late_inv v (by rw [hpc]; rfl) (by rw [hpc]; rfl) (pc := .threw) (k + 1) s.file rfl v.cover
      (by intro k h; cases h) (by intro h; rcases h with h | h | h <;> cases h) (by intro _; omega)
      (by intro h; rcases h with h | h <;> cases h) (by intro _; exact ⟨b, d, List.mem_of_getElem? hk⟩)
    rw [← eta_stopped hst] at this
    exact this
  · exact v

/-- When all threads have left the loop normally, everything is in the file. -/
theorem all_written {B D : Nat} {W : List UInt8} {s : St} (v : Inv B D W s) (hpc : s.pc = .truncate) (hw : s.workers ≠ []) :
    ftruncate s.file s.total = W := by
  have hfin := v.allFin (Or.inl hpc)
  have hring : s.ring = [] := by
    cases hws : s.workers with
    | nil => exact absurd hws hw
    | cons w ws =>
      have : w = .finished := hfin w (by rw [hws]; simp)
      exact (v.finW (by rw [hws, this]; simp)).1
  have hno : ∀ b d, ¬ Out s b d := by
    intro b d h
    rcases h with h | h | h
    · rw [hring] at h; cases h.1
    · have := hfin _ h; cases this
    · have := hfin _ h; cases this
  have ht : s.total = W.length := v.fin (by rw [hpc]; rfl)
  have hall : ∀ p, p < W.length → s.file[p]? = W[p]? := by
    intro p hp
    rcases v.cover p (by omega) with h | ⟨b, d, h, _⟩
    · exact h
    · exact absurd h (hno b d)
  have hlen : W.length ≤ s.file.length := by
    by_cases h0 : W.length = 0
    · omega
    · have := hall (W.length - 1) (by omega)
      rw [List.getElem?_eq_getElem (by omega : W.length - 1 < W.length)] at this
      have := (List.getElem?_eq_some_iff.mp this).1
      omega
  unfold ftruncate
  rw [ht]
  apply List.ext_getElem?
  intro p
  by_cases hp : p < W.length
  · rw [List.getElem?_take_of_lt hp, List.getElem?_append_left (by omega)]
    exact hall p hp
  · rw [List.getElem?_eq_none (by simp; omega), List.getElem?_eq_none (by omega)]

theorem truncate_inv {B D : Nat} {W : List UInt8} {s : St} (v : Inv B D W s) (hpc : s.pc = .truncate)
    (hw : s.workers ≠ []) : Inv B D W { s with file := ftruncate s.file s.total, pc := .closed } := by
  have hst : s.ringStopped = true := by rw [v.late, hpc]; rfl
  have hall := all_written v hpc hw
  have := late_inv v (by rw [hpc]; rfl) (by rw [hpc]; rfl) (pc := .closed) s.got (ftruncate s.file s.total) rfl
    (by intro p _; exact Or.inl (by rw [hall])) (by intro k h; cases h) (by intro _; exact v.allFin (Or.inl hpc))
    (by intro h; cases h) (by intro _; exact hall) (by intro h; rcases h with h | h <;> cases h)
  rw [← eta_stopped hst] at this
  exact this

theorem destroy_inv {B D : Nat} {W : List UInt8} {s : St} (v : Inv B D W s) : Inv B D W (destroyStep s) := by
  unfold destroyStep
  split
  · rename_i hpc
    have hst : s.ringStopped = true := by rw [v.late, hpc]; rfl
    have := late_inv v (by rw [hpc]; rfl) (by rw [hpc]; rfl) (pc := .ended) s.got s.file rfl
      v.cover (by intro k h; cases h) (by intro _; exact v.allFin (Or.inr (Or.inl hpc)))
      (by intro h; cases h) (by intro _; exact v.shut (Or.inl hpc)) (by intro h; rcases h with h | h <;> cases h)
    rw [← eta_stopped hst] at this
    exact this
  · rename_i hpc
    have hst : s.ringStopped = true := by rw [v.late, hpc]; rfl
    rw [if_pos (v.gotPos hpc)]
    have := late_inv v (by rw [hpc]; rfl) (by rw [hpc]; rfl) (pc := .terminated) s.got s.file rfl
      v.cover (by intro k h; cases h) (by intro h; rcases h with h | h | h <;> cases h)
      (by intro h; cases h) (by intro h; rcases h with h | h <;> cases h) (by intro _; exact v.threwF (Or.inl hpc))
    rw [← eta_stopped hst] at this
    exact this
  · exact v

theorem main_inv {B D : Nat} (hB : 0 < B) {W : List UInt8} {s : St} (v : Inv B D W s) (hw : s.workers ≠ []) :
    Inv B D W (mainStep B D s) := by
  unfold mainStep
  split
  · exact call_inv v (by assumption)
  · exact copyNil_inv v (by assumption)
  · exact copy_inv v (by assumption)
  · exact push_inv v (by assumption)
  · exact pop_inv hB v (by assumption)
  · exact stopRing_inv v (by assumption)
  · exact join_inv v (by assumption)
  · exact truncate_inv v (by assumption) hw
  · exact v

/-! ### The writer threads -/

theorem mem_set_of_ne {l : List Worker} {t : Nat} {w x y : Worker} (h : w ∈ l) (ht : l[t]? = some y) (hne : w ≠ y) :
    w ∈ l.set t x := by
  obtain ⟨j, hj, rfl⟩ := List.mem_iff_getElem.mp h
  have hjt : t ≠ j := by
    rintro rfl
    rw [List.getElem?_eq_getElem hj] at ht
    exact hne (Option.some.inj ht)
  refine List.mem_iff_getElem.mpr ⟨j, by simpa using hj, ?_⟩
  rw [List.getElem_set_ne hjt]

theorem mem_set_self' {l : List Worker} {t : Nat} {x y : Worker} (ht : l[t]? = some y) : x ∈ l.set t x :=
  List.mem_set (List.getElem?_eq_some_iff.mp ht).1 x

theorem count_set {l : List Worker} {t : Nat} {x y : Worker} (ht : l[t]? = some y) :
    (l.set t x).countP busy + (if busy y then 1 else 0) = l.countP busy + (if busy x then 1 else 0) := by
  obtain ⟨hlt, hy⟩ := List.getElem?_eq_some_iff.mp ht
  rw [List.countP_set hlt, hy]
  have : busy y = true → 0 < l.countP busy := fun h =>
    List.countP_pos_iff.mpr ⟨y, List.mem_of_getElem? ht, h⟩
  cases hb : busy y
  · simp
  · have := this hb; simp; omega

/-- A thread that is not at the end of its loop moves to another place in it. -/
theorem worker_inv {B D : Nat} {W : List UInt8} {s : St} (v : Inv B D W s) {t : Nat} {y : Worker}
    (ht : s.workers[t]? = some y) (hy : y ≠ .finished) (hyf : ∀ b d, y ≠ .failed b d) (w : Worker) (ring free : List Buf) (file : List UInt8)
    (stop : Bool)
    (hout : ∀ b d, Out (setWorker { s with ring := ring, free := free, file := file, stop := stop } t w) b d →
      ∃ d', Out s b d' ∧ d ≤ B)
    (hcov : ∀ p, p < s.total → file[p]? = W[p]? ∨ ∃ b d,
      Out (setWorker { s with ring := ring, free := free, file := file, stop := stop } t w) b d ∧
      b.offset + d ≤ p ∧ p < b.offset + B)
    (hfree : ∀ b ∈ free, b.data.length = B ∧ b.length = 0)
    (hcount : ring.length + free.length + (if busy w then 1 else 0) =
      s.ring.length + s.free.length + (if busy y then 1 else 0))
    (hring : s.ring = [] → ring = [])
    (hfw : w = .finished → ring = [] ∧ s.ringStopped = true)
    (hstop : s.stop = true → stop = true) (hfail : ∀ b d, w = .failed b d → stop = true) :
    Inv B D W (setWorker { s with ring := ring, free := free, file := file, stop := stop } t w) := by
  have hnot : ¬ (s.pc = .truncate ∨ s.pc = .closed ∨ s.pc = .ended) := by
    intro h
    exact hy (v.allFin h y (List.mem_of_getElem? ht))
  constructor
  case data => exact v.data
  case totalLe => exact v.totalLe
  case curOff => exact v.curOff
  case curData => exact v.curData
  case curLen => exact v.curLen
  case curLt => exact v.curLt
  case pushFull => exact v.pushFull
  case pushClose => exact v.pushClose
  case fin => exact v.fin
  case finCalls => exact v.finCalls
  case finCur => exact v.finCur
  case outLen =>
    intro b d h
    obtain ⟨d', h', hd⟩ := hout b d h
    exact ⟨(v.outLen b d' h').1, hd⟩
  case outData =>
    intro b d h
    obtain ⟨d', h', _⟩ := hout b d h
    exact v.outData b d' h'
  case outOld =>
    intro b d h
    obtain ⟨d', h', _⟩ := hout b d h
    exact v.outOld b d' h'
  case cover => exact hcov
  case freeOk => exact hfree
  case count =>
    have h1 := v.count
    have h2 := count_set (x := w) ht
    show ring.length + free.length + (s.workers.set t w).countP busy + (if s.pc.isPop then 0 else 1) = D
    omega
  case late => exact v.late
  case finW =>
    intro h
    rcases List.mem_or_eq_of_mem_set h with h | h
    · obtain ⟨h1, h2⟩ := v.finW h
      exact ⟨hring h1, h2⟩
    · exact hfw h.symm
  case got0 => exact v.got0
  case joined =>
    intro k hk
    obtain ⟨h1, h2, h3⟩ := v.joined k hk
    refine ⟨h1, ?_, ?_⟩
    · show k ≤ (s.workers.set t w).length
      rw [List.length_set]; exact h2
    · intro j hj
      have := h3 j hj
      show (s.workers.set t w)[j]? = _
      rw [List.getElem?_set_ne]
      · exact this
      · rintro rfl
        rw [ht] at this
        exact hy (Option.some.inj this)
  case allFin => intro h; exact absurd h hnot
  case gotPos => exact v.gotPos
  case shut => intro h; exact absurd (Or.inr h) hnot
  case threwF =>
    intro h
    obtain ⟨b, d, h⟩ := v.threwF h
    exact ⟨b, d, mem_set_of_ne h ht (fun he => hyf b d he.symm)⟩
  case stopFlag =>
    rintro ⟨b, d, h⟩
    rcases List.mem_or_eq_of_mem_set h with h | h
    · exact hstop (v.stopFlag ⟨b, d, h⟩)
    · exact hfail b d h.symm

theorem take_inv {B D : Nat} {W : List UInt8} {s : St} (v : Inv B D W s) {t : Nat}
    (ht : s.workers[t]? = some .idle) : Inv B D W (takeStep s t) := by
  unfold takeStep
  split
  · rename_i b r hr
    have hin : Out s b 0 := Or.inl ⟨by rw [hr]; simp, rfl⟩
    refine worker_inv v ht (by simp) (by simp) (.writing b 0) r s.free s.file s.stop ?_ ?_ v.freeOk ?_ ?_ ?_ id ?_
    · intro b' d h
      rcases h with h | h | h
      · exact ⟨0, Or.inl ⟨by rw [hr]; exact List.mem_cons_of_mem _ h.1, rfl⟩, by rw [h.2]; exact Nat.zero_le _⟩
      · rcases List.mem_or_eq_of_mem_set h with h | h
        · exact ⟨d, Or.inr (Or.inl h), (v.outLen b' d (Or.inr (Or.inl h))).2⟩
        · cases h
          exact ⟨0, hin, Nat.zero_le _⟩
      · rcases List.mem_or_eq_of_mem_set h with h | h
        · exact ⟨d, Or.inr (Or.inr h), (v.outLen b' d (Or.inr (Or.inr h))).2⟩
        · cases h
    · intro p hp
      rcases v.cover p hp with h | ⟨b', d, h, h1, h2⟩
      · exact Or.inl h
      · refine Or.inr ?_
        rcases h with h | h | h
        · obtain ⟨h, rfl⟩ := h
          rw [hr] at h
          rcases List.mem_cons.mp h with h | h
          · subst h
            exact ⟨b', 0, Or.inr (Or.inl (mem_set_self' ht)), h1, h2⟩
          · exact ⟨b', 0, Or.inl ⟨h, rfl⟩, h1, h2⟩
        · exact ⟨b', d, Or.inr (Or.inl (mem_set_of_ne h ht (by simp))), h1, h2⟩
        · exact ⟨b', d, Or.inr (Or.inr (mem_set_of_ne h ht (by simp))), h1, h2⟩
    · rw [hr]; simp [busy]; omega
    · intro h; rw [hr] at h; cases h
    · intro h; cases h
    · intro b d h; cases h
  · rename_i hr
    split
    · rename_i hst
      refine worker_inv v ht (by simp) (by simp) .finished s.ring s.free s.file s.stop ?_ ?_ v.freeOk ?_ id ?_ id ?_
      · intro b d h
        rcases h with h | h | h
        · exact ⟨d, Or.inl h, (v.outLen b d (Or.inl h)).2⟩
        · rcases List.mem_or_eq_of_mem_set h with h | h
          · exact ⟨d, Or.inr (Or.inl h), (v.outLen b d (Or.inr (Or.inl h))).2⟩
          · cases h
        · rcases List.mem_or_eq_of_mem_set h with h | h
          · exact ⟨d, Or.inr (Or.inr h), (v.outLen b d (Or.inr (Or.inr h))).2⟩
          · cases h
      · intro p hp
        rcases v.cover p hp with h | ⟨b, d, h, h1, h2⟩
        · exact Or.inl h
        · refine Or.inr ⟨b, d, ?_, h1, h2⟩
          rcases h with h | h | h
          · exact Or.inl h
          · exact Or.inr (Or.inl (mem_set_of_ne h ht (by simp)))
          · exact Or.inr (Or.inr (mem_set_of_ne h ht (by simp)))
      · simp [busy]
      · intro _; exact ⟨hr, hst⟩
      · intro b d h; cases h
    · exact v

theorem pwrite_inv {B D : Nat} {W : List UInt8} {s : St} (v : Inv B D W s) {t : Nat} {b : Buf} {d : Nat}
    (ht : s.workers[t]? = some (.writing b d)) (a : Answer) : Inv B D W (pwriteStep B s t b d a) := by
  have hmem : .writing b d ∈ s.workers := List.mem_of_getElem? ht
  have hb : Out s b d := Or.inr (Or.inl hmem)
  obtain ⟨hbl, hdB⟩ := v.outLen b d hb
  cases a with
  | eintr => exact v
  | error =>
    refine worker_inv v ht (by simp) (by simp) (.failed b d) s.ring s.free s.file true ?_ ?_ v.freeOk ?_ id ?_ ?_ ?_
    · intro b' d' h
      rcases h with h | h | h
      · exact ⟨d', Or.inl h, (v.outLen b' d' (Or.inl h)).2⟩
      · rcases List.mem_or_eq_of_mem_set h with h | h
        · exact ⟨d', Or.inr (Or.inl h), (v.outLen b' d' (Or.inr (Or.inl h))).2⟩
        · cases h
      · rcases List.mem_or_eq_of_mem_set h with h | h
        · exact ⟨d', Or.inr (Or.inr h), (v.outLen b' d' (Or.inr (Or.inr h))).2⟩
        · cases h
          exact ⟨d, hb, hdB⟩
    · intro p hp
      rcases v.cover p hp with h | ⟨b', d', h, h1, h2⟩
      · exact Or.inl h
      · refine Or.inr ⟨b', d', ?_, h1, h2⟩
        rcases h with h | h | h
        · exact Or.inl h
        · by_cases he : Worker.writing b' d' = .writing b d
          · cases he
            exact Or.inr (Or.inr (mem_set_self' ht))
          · exact Or.inr (Or.inl (mem_set_of_ne h ht he))
        · exact Or.inr (Or.inr (mem_set_of_ne h ht (by simp)))
    · simp [busy]
    · intro h; cases h
    · intro _; rfl
    · intro _ _ _; rfl
  | wrote n =>
    show Inv B D W (setWorker { s with file := pwrite s.file (b.offset + d) ((b.data.drop d).take (min n (B - d))) } t
      (.writing b (d + min n (B - d))))
    generalize hm : min n (B - d) = m
    have hmB : d + m ≤ B := by omega
    have hl : ((b.data.drop d).take m).length = m := by simp; omega
    have hbyte : ∀ p i, p < s.total → i < ((b.data.drop d).take m).length → b.offset + d + i = p →
        ((b.data.drop d).take m)[i]? = W[p]? := by
      intro p i hp hi hip
      rw [hl] at hi
      rw [List.getElem?_take_of_lt hi, List.getElem?_drop]
      have := v.outData b d hb (d + i) (by omega) (by omega)
      rw [this]
      congr 1
      omega
    have htl := v.totalLe
    refine worker_inv v ht (by simp) (by simp) (.writing b (d + m)) s.ring s.free _ s.stop ?_ ?_ v.freeOk ?_ id ?_ id ?_
    · intro b' d' h
      rcases h with h | h | h
      · exact ⟨d', Or.inl h, (v.outLen b' d' (Or.inl h)).2⟩
      · rcases List.mem_or_eq_of_mem_set h with h | h
        · exact ⟨d', Or.inr (Or.inl h), (v.outLen b' d' (Or.inr (Or.inl h))).2⟩
        · cases h
          exact ⟨d, hb, hmB⟩
      · rcases List.mem_or_eq_of_mem_set h with h | h
        · exact ⟨d', Or.inr (Or.inr h), (v.outLen b' d' (Or.inr (Or.inr h))).2⟩
        · cases h
    · intro p hp
      rcases v.cover p hp with h | ⟨b', d', h, h1, h2⟩
      · exact Or.inl (pwrite_keeps (by omega) h (fun i hi hip => hbyte p i hp hi hip))
      · by_cases he : Worker.writing b' d' = .writing b d ∧ p < b.offset + d + m
        · obtain ⟨he, hpm⟩ := he
          cases he
          refine Or.inl ?_
          rw [pwrite_in _ _ _ _ h1 (by rw [hl]; exact hpm)]
          exact hbyte p (p - (b.offset + d)) hp (by rw [hl]; omega) (by omega)
        · refine Or.inr ?_
          rcases h with h | h | h
          · exact ⟨b', d', Or.inl h, h1, h2⟩
          · by_cases he' : Worker.writing b' d' = .writing b d
            · have hge : ¬ p < b.offset + d + m := fun hlt => he ⟨he', hlt⟩
              cases he'
              exact ⟨b, d + m, Or.inr (Or.inl (mem_set_self' ht)), by omega, h2⟩
            · exact ⟨b', d', Or.inr (Or.inl (mem_set_of_ne h ht he')), h1, h2⟩
          · exact ⟨b', d', Or.inr (Or.inr (mem_set_of_ne h ht (by simp))), h1, h2⟩
    · simp [busy]
    · intro h; cases h
    · intro b d h; cases h

theorem giveBack_inv {B D : Nat} {W : List UInt8} {s : St} (v : Inv B D W s) {t : Nat} {b : Buf} {d : Nat}
    (ht : s.workers[t]? = some (.writing b d)) (hd : ¬ d < B) : Inv B D W (giveBack D s t b) := by
  unfold giveBack
  split
  swap
  · exact v
  have hmem : .writing b d ∈ s.workers := List.mem_of_getElem? ht
  have hb : Out s b d := Or.inr (Or.inl hmem)
  obtain ⟨hbl, hdB⟩ := v.outLen b d hb
  refine worker_inv v ht (by simp) (by simp) .idle s.ring (s.free ++ [{ b with length := 0 }]) s.file s.stop ?_ ?_ ?_ ?_ id ?_ id ?_
  · intro b' d' h
    rcases h with h | h | h
    · exact ⟨d', Or.inl h, (v.outLen b' d' (Or.inl h)).2⟩
    · rcases List.mem_or_eq_of_mem_set h with h | h
      · exact ⟨d', Or.inr (Or.inl h), (v.outLen b' d' (Or.inr (Or.inl h))).2⟩
      · cases h
    · rcases List.mem_or_eq_of_mem_set h with h | h
      · exact ⟨d', Or.inr (Or.inr h), (v.outLen b' d' (Or.inr (Or.inr h))).2⟩
      · cases h
  · intro p hp
    rcases v.cover p hp with h | ⟨b', d', h, h1, h2⟩
    · exact Or.inl h
    · refine Or.inr ⟨b', d', ?_, h1, h2⟩
      rcases h with h | h | h
      · exact Or.inl h
      · by_cases he : Worker.writing b' d' = .writing b d
        · cases he
          omega
        · exact Or.inr (Or.inl (mem_set_of_ne h ht he))
      · exact Or.inr (Or.inr (mem_set_of_ne h ht (by simp)))
  · intro b' hb'
    rcases List.mem_append.mp hb' with h | h
    · exact v.freeOk b' h
    · have : b' = { b with length := 0 } := by simpa using h
      rw [this]
      exact ⟨hbl, rfl⟩
  · simp [busy]; omega
  · intro h; cases h
  · intro b d h; cases h

theorem step_inv {B D : Nat} (hB : 0 < B) {W : List UInt8} {s : St} (v : Inv B D W s) (hw : s.workers ≠ [])
    (op : Op) : Inv B D W (step B D s op) := by
  cases op with
  | main => exact main_inv hB v hw
  | destroy => exact destroy_inv v
  | worker t a =>
    show Inv B D W (workerStep B D s t a)
    unfold workerStep
    split
    · exact take_inv v (by assumption)
    · split
      · exact pwrite_inv v (by assumption) a
      · exact giveBack_inv v (by assumption) (by assumption)
    · exact v

theorem step_workers (B D : Nat) (s : St) (op : Op) : (step B D s op).workers.length = s.workers.length := by
  cases op with
  | main =>
    show (mainStep B D s).workers.length = _
    unfold mainStep callStep copyStep pushStep popStep joinStep
    dsimp only
    repeat' split
    all_goals rfl
  | destroy => show (destroyStep s).workers.length = _; unfold destroyStep; split <;> rfl
  | worker t a =>
    show (workerStep B D s t a).workers.length = _
    unfold workerStep takeStep giveBack setWorker
    repeat' split
    all_goals first | rfl | exact List.length_set | skip
    cases a <;> first | rfl | exact List.length_set

theorem run_workers (B D : Nat) (s : St) (ops : List Op) : (run B D s ops).workers.length = s.workers.length := by
  induction ops generalizing s with
  | nil => rfl
  | cons op ops ih => exact (ih _).trans (step_workers B D s op)

theorem run_inv {B D : Nat} (hB : 0 < B) {W : List UInt8} {s : St} (v : Inv B D W s) (hw : s.workers ≠ [])
    (ops : List Op) : Inv B D W (run B D s ops) := by
  induction ops generalizing s with
  | nil => exact v
  | cons op ops ih =>
    refine ih (step_inv hB v hw op) ?_
    intro h
    have := step_workers B D s op
    rw [h] at this
    exact hw (List.length_eq_zero_iff.mp this.symm)

end Spead2.Dump
