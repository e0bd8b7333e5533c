import Verif.Spec.Memcpy

/-!
# Lemmas about memcpy
-/

namespace Spead2
open Spec

/-- The first `k` bytes have been copied. -/
def CpPre (b : CpArgs) (m0 : Nat → UInt8) (k : Nat) (s : CpState) : Prop :=
  ∀ x, s.mem x = if b.dest ≤ x ∧ x < b.dest + k then m0 (b.src + (x - b.dest)) else m0 x

/-- `len` bytes of the source from offset `k`. -/
def cpBytes (b : CpArgs) (m0 : Nat → UInt8) (k len : Nat) : List UInt8 := (List.range len).map (fun j => m0 (b.src + k + j))

variable {b : CpArgs} {m0 : Nat → UInt8} {k : Nat} {s : CpState}

theorem cp_load (hv : CpValid b) (h : CpPre b m0 k s) (hk : k ≤ b.n) {i len : Nat} (hi : i + len ≤ b.n) : b.load s (b.src + i) len = some (cpBytes b m0 i len) := by
  unfold CpArgs.load
  rw [if_pos ⟨by omega, by omega⟩]
  congr 1
  apply List.map_congr_left
  intro j hj
  rw [List.mem_range] at hj
  rw [h, if_neg]
  have := hv.disjoint
  omega

theorem cp_store (h : CpPre b m0 k s) {len : Nat} (hi : k + len ≤ b.n) (w : Bool) :
    ∃ s', b.store { s with weak := w } (b.dest + k) (cpBytes b m0 k len) = some s' ∧ CpPre b m0 (k + len) s' ∧ s'.weak = w := by
  have hlen : (cpBytes b m0 k len).length = len := by simp [cpBytes]
  unfold CpArgs.store
  rw [hlen, if_pos ⟨by omega, by omega⟩]
  refine ⟨_, rfl, ?_, rfl⟩
  intro x
  show (if b.dest + k ≤ x ∧ x < b.dest + k + len then ((cpBytes b m0 k len)[x - (b.dest + k)]?).getD 0 else s.mem x) = _
  by_cases hx : b.dest + k ≤ x ∧ x < b.dest + k + len
  · rw [if_pos hx, if_pos (by omega)]
    unfold cpBytes
    rw [List.getElem?_map, List.getElem?_range (by omega)]
    show m0 _ = m0 _
    congr 1
    omega
  · rw [if_neg hx, h]
    by_cases h2 : b.dest ≤ x ∧ x < b.dest + k
    · rw [if_pos h2, if_pos (by omega)]
    · rw [if_neg h2, if_neg (by omega)]

theorem cp_copy (hv : CpValid b) (h : CpPre b m0 k s) {len : Nat} (hi : k + len ≤ b.n) :
    ∃ s', b.copy s (b.dest + k) (b.src + k) len = some s' ∧ CpPre b m0 (k + len) s' := by
  unfold CpArgs.copy
  rw [cp_load hv h (by omega) hi]
  obtain ⟨s', h1, h2, -⟩ := cp_store h hi s.weak
  exact ⟨s', h1, h2⟩

/-- The vectors of an iteration. -/
def cpVecs (b : CpArgs) (m0 : Nat → UInt8) (w : Nat) : Nat → Nat → List (List UInt8)
  | _, 0 => []
  | i, u + 1 => cpBytes b m0 i w :: cpVecs b m0 w (i + w) u

theorem cp_loads (hv : CpValid b) (h : CpPre b m0 k s) (hk : k ≤ b.n) (w : Nat) : ∀ (u i : Nat), i + u * w ≤ b.n → b.loads s (b.src + i) w u = some (cpVecs b m0 w i u)
  | 0, i, hi => rfl
  | u + 1, i, hi => by
    rw [Nat.succ_mul] at hi
    unfold CpArgs.loads
    rw [cp_load hv h hk (by omega)]
    dsimp only
    rw [Nat.add_assoc, cp_loads hv h hk w u (i + w) (by omega)]
    rfl

theorem cp_streams (w : Nat) : ∀ (u k : Nat) (s : CpState), CpPre b m0 k s → k + u * w ≤ b.n → (b.dest + k) % w = 0 →
    ∃ s', b.streams (b.dest + k) w (cpVecs b m0 w k u) s = some s' ∧ CpPre b m0 (k + u * w) s'
  | 0, k, s, h, hi, ha => ⟨s, rfl, by simpa using h⟩
  | u + 1, k, s, h, hi, ha => by
    have hlen : (cpBytes b m0 k w).length = w := by simp [cpBytes]
    rw [Nat.succ_mul] at hi
    obtain ⟨s1, h1, h2, -⟩ := cp_store h (show k + w ≤ b.n by omega) true
    obtain ⟨s2, h3, h4⟩ := cp_streams w u (k + w) s1 h2 (by omega) (by rw [← Nat.add_assoc, Nat.add_mod_right]; exact ha)
    refine ⟨s2, ?_, by rw [Nat.succ_mul, show k + (u * w + w) = k + w + u * w by omega]; exact h4⟩
    show (match b.stream s (b.dest + k) (cpBytes b m0 k w) with | none => none | some s => b.streams (b.dest + k + w) w (cpVecs b m0 w (k + w) u) s) = some s2
    have e : b.stream s (b.dest + k) (cpBytes b m0 k w) = some s1 := by
      unfold CpArgs.stream
      rw [hlen, if_pos ha]; exact h1
    rw [e]
    dsimp only
    rw [Nat.add_assoc]; exact h3

/-- A loop starting `o` bytes into the part after the first `hd` bytes. -/
theorem cp_loop (hv : CpValid b) (hd u w : Nat) (hu : 0 < u * w) (hsm : u * w ≤ 2 ^ 62) (hdn : hd ≤ b.n) (ha : (b.dest + hd) % w = 0) : ∀ (fuel o : Nat) (s : CpState), CpPre b m0 (hd + o) s → o ≤ b.n - hd →
    o % w = 0 → b.n - hd < fuel + o →
    ∃ s' o', b.loop (b.dest + hd) (b.src + hd) (b.n - hd) u w fuel o s = some (s', o') ∧ CpPre b m0 (hd + o') s' ∧ o' ≤ b.n - hd ∧ o' % w = 0
  | 0, o, s, h, ho, hw, hf => by omega
  | fuel + 1, o, s, h, ho, hw, hf => by
    have hsz := hv.size
    have e64 : w64 (o + u * w) = o + u * w := Nat.mod_eq_of_lt (by omega)
    unfold CpArgs.loop
    rw [e64]
    by_cases hc : o + u * w ≤ b.n - hd
    · rw [if_pos hc, Nat.add_assoc b.src, cp_loads hv h (by omega) w u (hd + o) (by omega)]
      dsimp only
      obtain ⟨s1, h1, h2⟩ := cp_streams w u (hd + o) s h (by omega) (by rw [← Nat.add_assoc, Nat.add_mod, ha, hw]; simp)
      rw [Nat.add_assoc b.dest, h1]
      dsimp only
      exact cp_loop hv hd u w hu hsm hdn ha fuel (o + u * w) s1 (by rw [← Nat.add_assoc]; exact h2) hc (by rw [Nat.add_mul_mod_self_right]; exact hw) (by omega)
    · rw [if_neg hc]
      exact ⟨s, o, rfl, h, ho, hw⟩

theorem cp_body (hv : CpValid b) (hd u1 u2 w : Nat) (h1 : 0 < u1 * w) (h2 : 0 < u2 * w) (hs1 : u1 * w ≤ 2 ^ 62) (hs2 : u2 * w ≤ 2 ^ 62) (hdn : hd ≤ b.n) (ha : (b.dest + hd) % w = 0)
    {s : CpState} (h : CpPre b m0 hd s) :
    ∃ s', b.x86Body (b.dest + hd) (b.src + hd) (b.n - hd) u1 u2 w s = some s' ∧ CpPre b m0 b.n s' ∧ s'.weak = false := by
  unfold CpArgs.x86Body
  obtain ⟨s1, o1, l1, l2, l3, l4⟩ := cp_loop hv hd u1 w h1 hs1 hdn ha (b.n - hd + 1) 0 s (by simpa using h) (by omega) (Nat.zero_mod _) (by omega)
  rw [l1]
  dsimp only
  have fin : ∀ s2 o2, CpPre b m0 (hd + o2) s2 → o2 ≤ b.n - hd → ∃ s', (match b.copy s2 (b.dest + hd + o2) (b.src + hd + o2) (b.n - hd - o2) with | none => none | some s => some s.sfence) = some s' ∧
      CpPre b m0 b.n s' ∧ s'.weak = false := by
    intro s2 o2 g1 g2
    obtain ⟨s3, g3, g4⟩ := cp_copy hv g1 (show hd + o2 + (b.n - hd - o2) ≤ b.n by omega)
    rw [Nat.add_assoc b.dest, Nat.add_assoc b.src, g3]
    refine ⟨s3.sfence, rfl, ?_, rfl⟩
    rw [show hd + o2 + (b.n - hd - o2) = b.n by omega] at g4
    exact g4
  by_cases hu : u2 < u1
  · rw [if_pos hu]
    obtain ⟨s2, o2, k1, k2, k3, k4⟩ := cp_loop hv hd u2 w h2 hs2 hdn ha (b.n - hd + 1) o1 s1 l2 l3 l4 (by omega)
    rw [k1]
    exact fin s2 o2 k2 k3
  · rw [if_neg hu]
    exact fin s1 o1 l2 l3

theorem cp_x86 (hv : CpValid b) (u1 u2 w : Nat) (h1 : 0 < u1 * w) (h2 : 0 < u2 * w) (hs1 : u1 * w ≤ 2 ^ 62) (hs2 : u2 * w ≤ 2 ^ 62) (hw : w ∣ 64) (s : CpState) :
    ∃ s', b.x86 u1 u2 w s = some s' ∧ CpPre b s.mem b.n s' ∧ s'.weak = false := by
  have h0 : CpPre b s.mem 0 s := by intro x; rw [if_neg (by omega)]
  obtain ⟨hd1, hd2⟩ := hv.dest
  obtain ⟨aligned, hal⟩ : ∃ x, x = w64 (b.dest + (cacheLine - 1)) / cacheLine * cacheLine := ⟨_, rfl⟩
  obtain ⟨head, hhd⟩ : ∃ x, x = w64 (aligned + 2 ^ 64 - b.dest) := ⟨_, rfl⟩
  have key : (b.n ≤ head ∧ 0 < head) ∨ (b.dest + head) % 64 = 0 := by
    simp only [cacheLine, w64] at hal hhd
    by_cases hb : b.dest + 63 < 2 ^ 64
    · right
      rw [show b.dest + (64 - 1) = b.dest + 63 from rfl, Nat.mod_eq_of_lt hb] at hal
      omega
    · left
      rw [show b.dest + (64 - 1) = b.dest + 63 from rfl, show (b.dest + 63) % 2 ^ 64 = b.dest + 63 - 2 ^ 64 by omega] at hal
      omega
  have al : ∀ x, x % 64 = 0 → x % w = 0 := by
    intro x hx
    exact Nat.mod_eq_zero_of_dvd (Nat.dvd_trans hw (Nat.dvd_of_mod_eq_zero hx))
  unfold CpArgs.x86
  rw [← hal]
  dsimp only
  rw [← hhd]
  by_cases hp : 0 < head
  · rw [if_pos hp]
    by_cases hn : b.n ≤ head
    · rw [if_pos hn]
      obtain ⟨s1, g1, g2⟩ := cp_copy hv h0 (show 0 + b.n ≤ b.n by omega)
      simp only [Nat.add_zero] at g1
      rw [g1]
      rw [Nat.zero_add] at g2
      exact ⟨s1.sfence, rfl, g2, rfl⟩
    · rw [if_neg hn]
      obtain ⟨s1, g1, g2⟩ := cp_copy hv h0 (show 0 + head ≤ b.n by omega)
      simp only [Nat.add_zero] at g1
      rw [g1]
      rw [Nat.zero_add] at g2
      have hk : (b.dest + head) % 64 = 0 := by rcases key with h | h; omega; exact h
      exact cp_body hv head u1 u2 w h1 h2 hs1 hs2 (by omega) (al _ hk) g2
  · rw [if_neg hp]
    have hk : (b.dest + head) % 64 = 0 := by rcases key with h | h; omega; exact h
    have hz : head = 0 := by omega
    rw [hz] at hk
    exact cp_body hv 0 u1 u2 w h1 h2 hs1 hs2 (by omega) (al _ hk) h0

theorem CpPre.copied {s' : CpState} (h : CpPre b s.mem b.n s') : Copied b s.mem s'.mem := by
  refine ⟨fun i hi => ?_, fun x hx => ?_⟩
  · rw [h, if_pos (by omega), Nat.add_sub_cancel_left]
  · rw [h, if_neg (by omega)]

/-! ### SVE -/

theorem sv_copy (hv : CpValid b) (h : CpPre b m0 k s) {len : Nat} (hi : k + len ≤ b.n) : ∃ s', b.svCopy s k len = some s' ∧ CpPre b m0 (k + len) s' := by
  unfold CpArgs.svCopy
  rw [cp_load hv h (by omega) hi]
  obtain ⟨s', h1, h2, -⟩ := cp_store h hi true
  exact ⟨s', h1, h2⟩

theorem sv_loop (hv : CpValid b) (vl : Nat) (h0 : 0 < vl) (hs : vl ≤ 2 ^ 61) : ∀ (fuel i : Nat) (s : CpState), CpPre b m0 i s → i ≤ b.n → b.n < fuel + i →
    ∃ s' i', b.svLoop vl fuel i s = some (s', i') ∧ CpPre b m0 i' s' ∧ i' ≤ b.n
  | 0, i, s, h, hi, hf => by omega
  | fuel + 1, i, s, h, hi, hf => by
    have hsz := hv.size
    have e64 : w64 (i + 2 * vl) = i + 2 * vl := Nat.mod_eq_of_lt (by omega)
    unfold CpArgs.svLoop
    rw [e64]
    by_cases hc : i + 2 * vl ≤ b.n
    · rw [if_pos hc, cp_load hv h hi (by omega)]
      dsimp only
      rw [Nat.add_assoc b.src, cp_load hv h hi (by omega)]
      dsimp only
      obtain ⟨s1, g1, g2, -⟩ := cp_store h (show i + vl ≤ b.n by omega) true
      rw [g1]
      dsimp only
      obtain ⟨s2, g3, g4, -⟩ := cp_store g2 (show i + vl + vl ≤ b.n by omega) true
      rw [Nat.add_assoc b.dest, g3]
      dsimp only
      exact sv_loop hv vl h0 hs fuel (i + 2 * vl) s2 (by rw [show i + 2 * vl = i + vl + vl by omega]; exact g4) hc (by omega)
    · rw [if_neg hc]
      exact ⟨s, i, rfl, h, hi⟩

theorem sv_tail (hv : CpValid b) (vl : Nat) (h0 : 0 < vl) (hs : vl ≤ 2 ^ 61) : ∀ (fuel i : Nat) (s : CpState), CpPre b m0 i s → i ≤ b.n → b.n < fuel + i →
    ∃ s', b.svTail vl fuel i (svWhile vl i b.n) s = some s' ∧ CpPre b m0 b.n s'
  | 0, i, s, h, hi, hf => by omega
  | fuel + 1, i, s, h, hi, hf => by
    have hsz := hv.size
    have e64 : w64 (i + vl) = i + vl := Nat.mod_eq_of_lt (by omega)
    unfold CpArgs.svTail
    obtain ⟨s1, g1, g2⟩ := sv_copy hv h (show i + svWhile vl i b.n ≤ b.n by unfold svWhile; omega)
    rw [g1]
    dsimp only
    rw [e64]
    by_cases hc : 0 < svWhile vl (i + vl) b.n
    · rw [if_pos hc]
      unfold svWhile at hc
      have e : svWhile vl i b.n = vl := by unfold svWhile; omega
      rw [e] at g2
      exact sv_tail hv vl h0 hs fuel (i + vl) s1 g2 (by omega) (by omega)
    · rw [if_neg hc]
      unfold svWhile at hc
      rw [show i + svWhile vl i b.n = b.n by unfold svWhile; omega] at g2
      exact ⟨s1, rfl, g2⟩

theorem cp_sve (hv : CpValid b) (vl : Nat) (h0 : 0 < vl) (hs : vl ≤ 2 ^ 60) (s : CpState) : ∃ s', memcpySve vl b s = some s' ∧ CpPre b s.mem b.n s' := by
  have hp : CpPre b s.mem 0 s := by intro x; rw [if_neg (by omega)]
  have e64 : w64 (4 * vl) = 4 * vl := Nat.mod_eq_of_lt (by omega)
  unfold memcpySve
  rw [e64]
  by_cases hc : 4 * vl ≤ b.n
  · rw [if_pos hc]
    have hh : (2 ^ 64 - b.src) % 2 ^ 64 &&& (vl - 1) ≤ vl - 1 := Nat.and_le_right
    obtain ⟨head, hhd⟩ : ∃ x, x = (2 ^ 64 - b.src) % 2 ^ 64 &&& (vl - 1) := ⟨_, rfl⟩
    rw [← hhd] at hh ⊢
    have e1 : svWhile vl 0 head = head := by unfold svWhile; omega
    dsimp only
    rw [e1]
    obtain ⟨s1, g1, g2⟩ := sv_copy hv hp (show 0 + head ≤ b.n by omega)
    rw [g1]
    dsimp only
    rw [Nat.zero_add] at g2
    obtain ⟨s2, i2, g3, g4, g5⟩ := sv_loop hv vl h0 (by omega) (b.n + 1) head s1 g2 (by omega) (by omega)
    rw [g3]
    exact sv_tail hv vl h0 (by omega) (b.n + 1) i2 s2 g4 g5 (by omega)
  · rw [if_neg hc]
    exact sv_tail hv vl h0 (by omega) (b.n + 1) 0 s hp (by omega) (by omega)

end Spead2
