import Verif.Spec.Flow
import Verif.Lemmas.SendIbv
import Verif.Lemmas.RecvUdp
import Verif.Lemmas.RawPacket

namespace Spead2.Flow
open Spec

/-! ## Masks and addresses -/

theorem masked_ones : ∀ (v : Bytes) (n : Nat), v.length = n → masked v (List.replicate n 0xff) = v
  | [], 0, _ => rfl
  | x :: xs, n + 1, h => by
    have ih := masked_ones xs n (by simpa using h)
    unfold masked at ih ⊢
    rw [List.replicate_succ, List.zipWith_cons_cons, ih]
    congr 1
    apply UInt8.toNat_inj.mp
    rw [UInt8.toNat_and]
    have := Nat.and_two_pow_sub_one_eq_mod x.toNat 8
    have hx := x.toNat_lt
    show x.toNat &&& (2 ^ 8 - 1) = _
    omega

theorem masked_zeros : ∀ (v : Bytes) (n : Nat), v.length = n → masked v (List.replicate n 0) = List.replicate n 0
  | [], 0, _ => rfl
  | x :: xs, n + 1, h => by
    have ih := masked_zeros xs n (by simpa using h)
    unfold masked at ih ⊢
    rw [List.replicate_succ, List.zipWith_cons_cons, ih]
    congr 1
    apply UInt8.toNat_inj.mp
    rw [UInt8.toNat_and]
    exact Nat.and_zero _

theorem multicast_group {b : Bytes} (h : b.length = 4) : (Addr.v4 b).multicast = true ↔ IsGroup b := by
  have key : ∀ n < 256, (n &&& 0xf0 = 0xe0) ↔ (224 ≤ n ∧ n < 240) := by decide +kernel
  match b, h with
  | x :: _, _ =>
    have hx := x.toNat_lt
    unfold IsGroup Addr.multicast
    simp only [List.getD_cons_zero, List.getElem?_cons_zero, Option.some.injEq, beq_iff_eq]
    rw [← UInt8.toNat_inj, UInt8.toNat_and]
    constructor
    · intro h
      exact ⟨x, rfl, (key _ hx).mp h⟩
    · rintro ⟨y, rfl, hy⟩
      exact (key _ hx).mpr hy

theorem unspecified_iff (a : Addr) : a.unspecified = true ↔ a = .v4 [0, 0, 0, 0] ∨ a = .v6 (List.replicate 16 0) := by
  cases a with
  | v4 b => simp [Addr.unspecified]
  | v6 b => simp [Addr.unspecified]

/-! ## `interface_mac` -/

theorem findName_spec (a : Bytes) : ∀ (ifs : List IfAddr) (name : String),
    findName (.v4 a) ifs = some name ↔
      ∃ i : Nat, ifs[i]? = some ⟨name, .inet a⟩ ∧ ∀ i' < i, ∀ n, ifs[i']? ≠ some ⟨n, .inet a⟩
  | [], name => by simp [findName]
  | ⟨n, d⟩ :: xs, name => by
    have ih := findName_spec a xs name
    have skip : d ≠ .inet a → findName (.v4 a) (⟨n, d⟩ :: xs) = findName (.v4 a) xs → (findName (.v4 a) (⟨n, d⟩ :: xs) = some name ↔
        ∃ i : Nat, (⟨n, d⟩ :: xs : List IfAddr)[i]? = some ⟨name, .inet a⟩ ∧ ∀ i' < i, ∀ m, (⟨n, d⟩ :: xs : List IfAddr)[i']? ≠ some ⟨m, .inet a⟩) := by
      intro hd he
      rw [he, ih]
      constructor
      · rintro ⟨i, h1, h2⟩
        refine ⟨i + 1, by simpa using h1, ?_⟩
        intro i' hi m
        cases i' with
        | zero => simp only [List.getElem?_cons_zero, ne_eq, Option.some.injEq, IfAddr.mk.injEq, not_and]; exact fun _ => hd
        | succ i' => simpa using h2 i' (by omega) m
      · rintro ⟨i, h1, h2⟩
        cases i with
        | zero => simp only [List.getElem?_cons_zero, Option.some.injEq, IfAddr.mk.injEq] at h1; exact absurd h1.2 hd
        | succ i =>
          refine ⟨i, by simpa using h1, fun i' hi m => ?_⟩
          simpa using h2 (i' + 1) (by omega) m
    cases d with
    | inet b =>
      by_cases hb : b = a
      · subst hb
        have : findName (.v4 b) (⟨n, .inet b⟩ :: xs) = some n := by simp [findName]
        rw [this]
        constructor
        · intro h
          exact ⟨0, by rw [Option.some.inj h]; rfl, fun i' hi => absurd hi (Nat.not_lt_zero _)⟩
        · rintro ⟨i, h1, h2⟩
          cases i with
          | zero => simp only [List.getElem?_cons_zero, Option.some.injEq, IfAddr.mk.injEq] at h1; rw [h1.1]
          | succ i => exact absurd rfl (h2 0 (by omega) n)
      · exact skip (fun h => hb (by simpa using h)) (by simp [findName, hb])
    | inet6 b => exact skip (by simp) (by simp [findName])
    | link t b => exact skip (by simp) (by simp [findName])
    | other => exact skip (by simp) (by simp [findName])

theorem findMac_spec (name : String) : ∀ (ifs : List IfAddr) (mac : Bytes),
    findMac name ifs = some mac ↔ mac.length = 6 ∧
      ∃ j : Nat, ifs[j]? = some ⟨name, .link 1 mac⟩ ∧ ∀ j' < j, ∀ m : Bytes, m.length = 6 → ifs[j']? ≠ some ⟨name, .link 1 m⟩
  | [], mac => by simp [findMac]
  | ⟨n, d⟩ :: xs, mac => by
    have ih := findMac_spec name xs mac
    have skip : (∀ m : Bytes, m.length = 6 → (⟨n, d⟩ : IfAddr) ≠ ⟨name, .link 1 m⟩) → findMac name (⟨n, d⟩ :: xs) = findMac name xs →
        (findMac name (⟨n, d⟩ :: xs) = some mac ↔ mac.length = 6 ∧
        ∃ j : Nat, (⟨n, d⟩ :: xs : List IfAddr)[j]? = some ⟨name, .link 1 mac⟩ ∧
          ∀ j' < j, ∀ m : Bytes, m.length = 6 → (⟨n, d⟩ :: xs : List IfAddr)[j']? ≠ some ⟨name, .link 1 m⟩) := by
      intro hd he
      rw [he, ih]
      constructor
      · rintro ⟨hl, i, h1, h2⟩
        refine ⟨hl, i + 1, by simpa using h1, ?_⟩
        intro i' hi m hm
        cases i' with
        | zero => exact fun h => hd m hm (Option.some.inj h)
        | succ i' => simpa using h2 i' (by omega) m hm
      · rintro ⟨hl, i, h1, h2⟩
        cases i with
        | zero => exact absurd (Option.some.inj h1) (hd mac hl)
        | succ i =>
          refine ⟨hl, i, by simpa using h1, fun i' hi m hm => ?_⟩
          simpa using h2 (i' + 1) (by omega) m hm
    cases d with
    | link t b =>
      by_cases hb : n = name ∧ t = 1 ∧ b.length = 6
      · have : findMac name (⟨n, .link t b⟩ :: xs) = some b := by simp [findMac, hb]
        rw [this]
        obtain ⟨rfl, rfl, hl⟩ := hb
        constructor
        · intro h
          obtain rfl := Option.some.inj h
          exact ⟨hl, 0, rfl, fun i' hi => absurd hi (Nat.not_lt_zero _)⟩
        · rintro ⟨_, i, h1, h2⟩
          cases i with
          | zero => simp only [List.getElem?_cons_zero, Option.some.injEq, IfAddr.mk.injEq, IfData.link.injEq] at h1; rw [h1.2.2]
          | succ i => exact absurd rfl (h2 0 (by omega) b hl)
      · refine skip (fun m hm h => hb ?_) (by simp only [findMac, if_neg hb])
        simp only [IfAddr.mk.injEq, IfData.link.injEq] at h
        obtain ⟨h1, h2, h3⟩ := h
        exact ⟨h1, h2, by rw [h3]; exact hm⟩
    | inet b => exact skip (by simp) (by simp [findMac])
    | inet6 b => exact skip (by simp) (by simp [findMac])
    | other => exact skip (by simp) (by simp [findMac])

theorem interfaceMac_spec (ifs : List IfAddr) (a mac : Bytes) : interfaceMac ifs (.v4 a) = some mac ↔ MacOf ifs a mac := by
  unfold interfaceMac MacOf
  constructor
  · intro h
    cases hn : findName (.v4 a) ifs with
    | none => rw [hn] at h; cases h
    | some name =>
      rw [hn] at h
      obtain ⟨i, h1, h2⟩ := (findName_spec a ifs name).mp hn
      obtain ⟨hl, j, h3, h4⟩ := (findMac_spec name ifs mac).mp h
      exact ⟨i, j, name, h1, h3, hl, h2, h4⟩
  · rintro ⟨i, j, name, h1, h3, hl, h2, h4⟩
    rw [(findName_spec a ifs name).mpr ⟨i, h1, h2⟩]
    exact (findMac_spec name ifs mac).mpr ⟨hl, j, h3, h4⟩

/-! ## Frames -/

/-- Where the fields of a UDP frame are. -/
theorem frame_fields {f p : Bytes} (h : IsUdpFrame 14 f p) :
    ∃ v, f[14]? = some v ∧ v.toNat / 16 = 4 ∧ 5 ≤ v.toNat % 16 ∧ f[23]? = some 17 ∧ slice? f 12 2 = some [0x08, 0x00] ∧
      14 + 4 * (v.toNat % 16) + 8 ≤ f.length := by
  obtain ⟨link, ip, udp, rest, v, tos, len, ident, frag, ttl, tail, ports, ulen, usum, rfl, h1, h2, h3, h4, h5, h6, h7, h8, h9, -, h10, h11, h12, h13, -, -, -⟩ := h
  have hu : udp.length = 8 := by rw [h10]; simp [h11, h12, h13]
  refine ⟨v, ?_, h7, by omega, ?_, ?_, ?_⟩
  · rw [List.append_assoc, List.append_assoc, List.append_assoc, List.getElem?_append_right (by omega), h1, h3]
    rfl
  · rw [List.append_assoc, List.append_assoc, List.append_assoc, List.getElem?_append_right (by omega), h1]
    rw [List.getElem?_append_left (by omega), h3]
    match len, h4, ident, h5, frag, h6 with
    | [_, _], _, [_, _], _, [_, _], _ => rfl
  · rw [slice?_eq_some (by simp only [List.length_append]; omega)]
    rw [List.append_assoc, List.append_assoc, List.append_assoc, List.drop_append_of_le_length (by omega), h2]
    rfl
  · simp only [List.length_append]
    omega

/-- Every UDP frame has a destination. -/
theorem frame_dest {f p : Bytes} (h : IsUdpFrame 14 f p) : ∃ d, FrameFor d p f := by
  obtain ⟨v, h1, -, h3, -, -, h6⟩ := frame_fields h
  refine ⟨⟨f.take 6, (f.drop 30).take 4, beNat ((f.drop (14 + 4 * (v.toNat % 16) + 2)).take 2)⟩, h, rfl, rfl, ?_, v, h1, ?_⟩
  · have hl : ((f.drop (14 + 4 * (v.toNat % 16) + 2)).take 2).length = 2 := by
      rw [List.length_take, List.length_drop]; omega
    have := beNat_lt ((f.drop (14 + 4 * (v.toNat % 16) + 2)).take 2)
    rw [hl] at this
    exact this
  · refine (beBytes_of_beNat ?_ rfl).symm
    rw [List.length_take, List.length_drop]; omega

/-- What a rule looks at. -/
theorem takes_frame {d : Dest} {f p : Bytes} (h : FrameFor d p f) (r : Rule) :
    r.takes f = true ↔ masked d.mac r.macMask = masked r.mac r.macMask ∧ masked d.ip r.ipMask = masked r.ip r.ipMask ∧
      masked (beBytes 2 d.port) r.portMask = masked r.port r.portMask := by
  obtain ⟨hf, h1, h2, h3, v, h4, h5⟩ := h
  obtain ⟨v', e1, e2, e3, e4, e5, e6⟩ := frame_fields hf
  rw [h4] at e1
  obtain rfl := Option.some.inj e1
  unfold Rule.takes
  rw [slice?_eq_some (by omega), e5, h4, e4, slice?_eq_some (by omega)]
  simp only [List.drop_zero, h1, h2]
  rw [show 16 + 4 * (v.toNat % 16) = 14 + 4 * (v.toNat % 16) + 2 from by omega, slice?_eq_some (by omega), h5]
  simp [e2, and_assoc]

theorem frameFor_unique {d d' : Dest} {f p p' : Bytes} (h : FrameFor d p f) (h' : FrameFor d' p' f) : d = d' := by
  obtain ⟨hf, h1, h2, h3, v, h4, h5⟩ := h
  obtain ⟨hf', h1', h2', h3', v', h4', h5'⟩ := h'
  rw [h4] at h4'
  obtain rfl := Option.some.inj h4'
  rw [h5] at h5'
  have : d.port = d'.port := by rw [← beNat_be2 h3, ← beNat_be2 h3', h5']
  obtain ⟨m, i, q⟩ := d
  obtain ⟨m', i', q'⟩ := d'
  simp only at h1 h2 h1' h2' this
  rw [← h1, ← h2, ← h1', ← h2', this]

theorem frame_lengths {d : Dest} {f p : Bytes} (h : FrameFor d p f) : d.mac.length = 6 ∧ d.ip.length = 4 := by
  obtain ⟨hf, h1, h2, -, -⟩ := h
  obtain ⟨v', e1, e2, e3, e4, e5, e6⟩ := frame_fields hf
  rw [← h1, ← h2, List.length_take, List.length_take, List.length_drop]
  omega

end Spead2.Flow
