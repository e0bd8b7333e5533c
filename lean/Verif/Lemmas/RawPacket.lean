import Verif.Lemmas.Bytes
import Verif.Model.RawPacket
import Verif.Spec.RawPacket

/-! Lemmas on raw packets. -/

namespace Spead2

open Spec

/-- A field of a header. -/
def rawField (d : Bytes) (o k : Nat) : Nat := beNat ((d.drop o).take k)

theorem rawField_append {a b : Bytes} {n : Nat} (h : a.length = n) (o k : Nat) : rawField (a ++ b) (n + o) k = rawField b o k := by
  unfold rawField
  rw [← h, List.drop_append, List.drop_eq_nil_of_le (by omega), List.nil_append, Nat.add_sub_cancel_left]

theorem getBe?_eq {d : Bytes} {b : PBuf} {o k : Nat} (h : b.off + o + k ≤ d.length) : getBe? d b o k = some (rawField d (b.off + o) k) := by
  unfold getBe? rawField
  rw [slice?_eq_some h]
  rfl

/-- The decision that `udpFromFrame` makes, in terms of the fields. -/
theorem udpFromFrame_eq {n : Nat} (hn : 2 ≤ n) (d : Bytes) : udpFromFrame n d = some (
    if d.length < n + 20 then .error .length
    else if rawField d (n - 2) 2 ≠ 0x0800 then .error .type
    else if rawField d n 1 >>> 4 ≠ 4 then .error .type
    else if rawField d (n + 6) 2 &&& 0x3fff ≠ 0 then .error .type
    else if rawField d (n + 9) 1 ≠ 0x11 then .error .type
    else if 4 * (rawField d n 1 &&& 0xf) < 20 then .error .length
    else if rawField d (n + 2) 2 > d.length - n ∨ rawField d (n + 2) 2 < 4 * (rawField d n 1 &&& 0xf) then .error .length
    else if rawField d (n + 2) 2 - 4 * (rawField d n 1 &&& 0xf) < 8 then .error .length
    else if rawField d (n + 4 * (rawField d n 1 &&& 0xf) + 4) 2 > rawField d (n + 2) 2 - 4 * (rawField d n 1 &&& 0xf) ∨ rawField d (n + 4 * (rawField d n 1 &&& 0xf) + 4) 2 < 8 then .error .length
    else .ok ⟨n + 4 * (rawField d n 1 &&& 0xf) + 8, rawField d (n + 4 * (rawField d n 1 &&& 0xf) + 4) 2 - 8⟩) := by
  unfold udpFromFrame PBuf.make
  by_cases h0 : d.length < n
  · rw [if_pos h0, if_pos (show d.length < n + 20 by omega)]
  · rw [if_neg h0]
    dsimp only
    rw [getBe?_eq (show 0 + (n - 2) + 2 ≤ d.length by omega)]
    dsimp only
    by_cases h1 : d.length - n < 20
    · rw [if_pos h1, if_pos (show d.length < n + 20 by omega)]
    · rw [if_neg h1, if_neg (show ¬ d.length < n + 20 by omega)]
      dsimp only
      unfold udpFromIpv4
      rw [show 0 + (n - 2) = n - 2 by omega, show 0 + n = n by omega]
      by_cases h2 : rawField d (n - 2) 2 ≠ 0x0800
      · rw [if_pos h2, if_pos h2]
      · rw [if_neg h2, if_neg h2, getBe?_eq (show n + 0 + 1 ≤ d.length by omega), getBe?_eq (show n + 6 + 2 ≤ d.length by omega), getBe?_eq (show n + 9 + 1 ≤ d.length by omega)]
        dsimp only
        rw [show n + 0 = n by omega]
        by_cases h3 : rawField d n 1 >>> 4 ≠ 4
        · rw [if_pos h3, if_pos h3]
        · rw [if_neg h3, if_neg h3, show (0x2000 ||| 0x1fff : Nat) = 0x3fff by decide]
          by_cases h4 : rawField d (n + 6) 2 &&& 0x3fff ≠ 0
          · rw [if_pos h4, if_pos h4]
          · rw [if_neg h4, if_neg h4]
            by_cases h5 : rawField d (n + 9) 1 ≠ 0x11
            · rw [if_pos h5, if_pos h5]
            · rw [if_neg h5, if_neg h5]
              unfold PBuf.payloadUdpPayload PBuf.payloadUdp PBuf.headerLength? PBuf.make
              rw [getBe?_eq (show n + 0 + 1 ≤ d.length by omega), getBe?_eq (show n + 2 + 2 ≤ d.length by omega)]
              rw [Option.map_some, show n + 0 = n by omega]
              dsimp only
              generalize rawField d n 1 &&& 0xf = ihl
              generalize rawField d (n + 2) 2 = len
              by_cases h6 : 4 * ihl < 20
              · rw [if_pos h6, if_pos h6]
              · rw [if_neg h6, if_neg h6]
                by_cases h7 : len > d.length - n ∨ len < 4 * ihl
                · rw [if_pos h7, if_pos h7]
                · rw [if_neg h7, if_neg h7]
                  by_cases h8 : len - 4 * ihl < 8
                  · rw [if_pos h8, if_pos h8]
                  · rw [if_neg h8, if_neg h8]
                    dsimp only
                    unfold PBuf.udpPayload
                    rw [getBe?_eq (show n + 4 * ihl + 4 + 2 ≤ d.length by omega)]

theorem take_two {d : Bytes} {o : Nat} (h : o + 2 ≤ d.length) : ∃ a b, (d.drop o).take 2 = [a, b] := by
  have : ((d.drop o).take 2).length = 2 := by rw [List.length_take, List.length_drop]; omega
  match h' : (d.drop o).take 2 with
  | [a, b] => exact ⟨a, b, rfl⟩
  | [] => rw [h'] at this; simp at this
  | [_] => rw [h'] at this; simp at this
  | _ :: _ :: _ :: _ => rw [h'] at this; simp at this

theorem beNat_two (a b : UInt8) : beNat [a, b] = a.toNat * 256 + b.toNat := by simp [beNat]

theorem and_0xf (x : Nat) : x &&& 0xf = x % 16 := Nat.and_two_pow_sub_one_eq_mod x 4
theorem and_0x3fff (x : Nat) : x &&& 0x3fff = x % 2 ^ 14 := Nat.and_two_pow_sub_one_eq_mod x 14
theorem shr4 (x : Nat) : x >>> 4 = x / 16 := Nat.shiftRight_eq_div_pow x 4

/-- An IPv4 header taken apart. -/
theorem ip_parts {x : Bytes} (h : 10 ≤ x.length) : ∃ v tos l1 l2 i1 i2 f1 f2 ttl pr tail, x = v :: tos :: l1 :: l2 :: i1 :: i2 :: f1 :: f2 :: ttl :: pr :: tail := by
  match x, h with
  | v :: tos :: l1 :: l2 :: i1 :: i2 :: f1 :: f2 :: ttl :: pr :: tail, _ => exact ⟨_, _, _, _, _, _, _, _, _, _, _, rfl⟩

/-- A UDP header taken apart. -/
theorem udp_parts {x : Bytes} (h : 8 ≤ x.length) : ∃ a b c e l1 l2 s1 s2 tail, x = a :: b :: c :: e :: l1 :: l2 :: s1 :: s2 :: tail := by
  match x, h with
  | a :: b :: c :: e :: l1 :: l2 :: s1 :: s2 :: tail, _ => exact ⟨_, _, _, _, _, _, _, _, _, rfl⟩

theorem rawField_at {a b : Bytes} (o k : Nat) (h : a.length = o) : rawField (a ++ b) o k = beNat (b.take k) := by
  unfold rawField
  rw [← h, List.drop_left]

/-- What a successful parse means. -/
theorem udpFromFrame_ok {n : Nat} (hn : 2 ≤ n) {d : Bytes} {b : PBuf} : udpFromFrame n d = some (.ok b) ↔
    n + 20 ≤ d.length ∧ rawField d (n - 2) 2 = 0x0800 ∧ rawField d n 1 / 16 = 4 ∧ rawField d (n + 6) 2 % 2 ^ 14 = 0 ∧ rawField d (n + 9) 1 = 17 ∧
    20 ≤ 4 * (rawField d n 1 % 16) ∧ rawField d (n + 2) 2 ≤ d.length - n ∧ 4 * (rawField d n 1 % 16) + 8 ≤ rawField d (n + 2) 2 ∧
    rawField d (n + 4 * (rawField d n 1 % 16) + 4) 2 ≤ rawField d (n + 2) 2 - 4 * (rawField d n 1 % 16) ∧ 8 ≤ rawField d (n + 4 * (rawField d n 1 % 16) + 4) 2 ∧
    b = ⟨n + 4 * (rawField d n 1 % 16) + 8, rawField d (n + 4 * (rawField d n 1 % 16) + 4) 2 - 8⟩ := by
  rw [udpFromFrame_eq hn, and_0xf, and_0x3fff, shr4]
  generalize rawField d (n - 2) 2 = et
  generalize rawField d n 1 = v
  generalize rawField d (n + 6) 2 % 2 ^ 14 = f
  generalize rawField d (n + 9) 1 = pr
  generalize rawField d (n + 2) 2 = len
  generalize rawField d (n + 4 * (v % 16) + 4) 2 = ul
  rw [Option.some.injEq]
  by_cases c1 : d.length < n + 20
  · rw [if_pos c1]; constructor
    · intro h; cases h
    · intro h; omega
  rw [if_neg c1]
  by_cases c2 : et ≠ 0x0800
  · rw [if_pos c2]; constructor
    · intro h; cases h
    · intro h; exact absurd h.2.1 c2
  rw [if_neg c2]
  by_cases c3 : v / 16 ≠ 4
  · rw [if_pos c3]; constructor
    · intro h; cases h
    · intro h; exact absurd h.2.2.1 c3
  rw [if_neg c3]
  by_cases c4 : f ≠ 0
  · rw [if_pos c4]; constructor
    · intro h; cases h
    · intro h; exact absurd h.2.2.2.1 c4
  rw [if_neg c4]
  by_cases c5 : pr ≠ 17
  · rw [if_pos c5]; constructor
    · intro h; cases h
    · intro h; exact absurd h.2.2.2.2.1 c5
  rw [if_neg c5]
  by_cases c6 : 4 * (v % 16) < 20
  · rw [if_pos c6]; constructor
    · intro h; cases h
    · intro h; omega
  rw [if_neg c6]
  by_cases c7 : len > d.length - n ∨ len < 4 * (v % 16)
  · rw [if_pos c7]; constructor
    · intro h; cases h
    · intro h; omega
  rw [if_neg c7]
  by_cases c8 : len - 4 * (v % 16) < 8
  · rw [if_pos c8]; constructor
    · intro h; cases h
    · intro h; omega
  rw [if_neg c8]
  by_cases c9 : ul > len - 4 * (v % 16) ∨ ul < 8
  · rw [if_pos c9]; constructor
    · intro h; cases h
    · intro h; omega
  rw [if_neg c9]
  constructor
  · intro h
    cases h
    refine ⟨by omega, by omega, by omega, by omega, by omega, by omega, by omega, by omega, by omega, by omega, rfl⟩
  · intro h
    rw [h.2.2.2.2.2.2.2.2.2.2]

theorem two_eq_0800 {a b : UInt8} : beNat [a, b] = 0x0800 ↔ [a, b] = [0x08, 0x00] := by
  rw [beNat_two]
  constructor
  · intro h
    have h1 := a.toNat_lt
    have h2 := b.toNat_lt
    have ha : a = 0x08 := UInt8.toNat_inj.mp (by show a.toNat = 8; omega)
    have hb : b = 0x00 := UInt8.toNat_inj.mp (by show b.toNat = 0; omega)
    rw [ha, hb]
  · intro h
    cases h
    rfl

theorem frame_of_parse {n : Nat} (hn : 2 ≤ n) {d : Bytes} {b : PBuf} (h : udpFromFrame n d = some (.ok b)) :
    b.off + b.size ≤ d.length ∧ IsUdpFrame n d ((d.drop b.off).take b.size) := by
  obtain ⟨h1, h2, h3, h4, h5, h6, h7, h8, h9, h10, hb⟩ := (udpFromFrame_ok hn).mp h
  -- the link header
  obtain ⟨link, x, hd, hl⟩ : ∃ link x, d = link ++ x ∧ link.length = n := ⟨d.take n, d.drop n, (List.take_append_drop n d).symm, by rw [List.length_take]; omega⟩
  subst hd
  rw [List.length_append] at h1 h7
  obtain ⟨v, tos, l1, l2, i1, i2, f1, f2, ttl, pr, tl, rfl⟩ := ip_parts (x := x) (by omega)
  have e0 : rawField (link ++ v :: tos :: l1 :: l2 :: i1 :: i2 :: f1 :: f2 :: ttl :: pr :: tl) n 1 = v.toNat := by
    rw [show n = n + 0 by omega, rawField_append hl]; simp [rawField, beNat]
  have e2 : rawField (link ++ v :: tos :: l1 :: l2 :: i1 :: i2 :: f1 :: f2 :: ttl :: pr :: tl) (n + 2) 2 = beNat [l1, l2] := by
    rw [rawField_append hl]; simp [rawField]
  have e6 : rawField (link ++ v :: tos :: l1 :: l2 :: i1 :: i2 :: f1 :: f2 :: ttl :: pr :: tl) (n + 6) 2 = beNat [f1, f2] := by
    rw [rawField_append hl]; simp [rawField]
  have e9 : rawField (link ++ v :: tos :: l1 :: l2 :: i1 :: i2 :: f1 :: f2 :: ttl :: pr :: tl) (n + 9) 1 = pr.toNat := by
    rw [rawField_append hl]; simp [rawField, beNat]
  rw [e0] at h3 h6 h8 h9 h10 hb
  rw [e2] at h7 h8 h9
  rw [e6] at h4
  rw [e9] at h5
  rw [List.length_cons, List.length_cons, List.length_cons, List.length_cons, List.length_cons, List.length_cons, List.length_cons, List.length_cons, List.length_cons, List.length_cons] at h1 h7
  have hpr : pr = 17 := UInt8.toNat_inj.mp (by rw [h5]; rfl)
  subst hpr
  -- the rest of the IP header
  obtain ⟨tail, y, htl, hta⟩ : ∃ tail y, tl = tail ++ y ∧ tail.length = 4 * (v.toNat % 16) - 10 := ⟨tl.take (4 * (v.toNat % 16) - 10), tl.drop (4 * (v.toNat % 16) - 10), (List.take_append_drop _ _).symm, by rw [List.length_take]; omega⟩
  subst htl
  rw [List.length_append] at h1 h7
  obtain ⟨a, b', c, e, u1, u2, s1, s2, z, rfl⟩ := udp_parts (x := y) (by omega)
  obtain ⟨pre, hpre⟩ : ∃ pre, pre = link ++ (v :: tos :: l1 :: l2 :: i1 :: i2 :: f1 :: f2 :: ttl :: 17 :: tail) := ⟨_, rfl⟩
  have hpl : pre.length = n + 4 * (v.toNat % 16) := by
    rw [hpre, List.length_append, hl]
    simp only [List.length_cons]
    omega
  have hdd : link ++ v :: tos :: l1 :: l2 :: i1 :: i2 :: f1 :: f2 :: ttl :: 17 :: (tail ++ a :: b' :: c :: e :: u1 :: u2 :: s1 :: s2 :: z) =
      pre ++ a :: b' :: c :: e :: u1 :: u2 :: s1 :: s2 :: z := by rw [hpre]; simp
  rw [hdd] at h2 h9 h10 hb ⊢
  have eu : rawField (pre ++ a :: b' :: c :: e :: u1 :: u2 :: s1 :: s2 :: z) (n + 4 * (v.toNat % 16) + 4) 2 = beNat [u1, u2] := by
    rw [rawField_append hpl]; simp [rawField]
  rw [eu] at h9 h10 hb
  rw [List.length_cons, List.length_cons, List.length_cons, List.length_cons, List.length_cons, List.length_cons, List.length_cons, List.length_cons] at h1 h7
  have hlast : link.drop (n - 2) = [0x08, 0x00] := by
    obtain ⟨q1, q2, hq⟩ := take_two (d := link) (o := n - 2) (by omega)
    rw [List.take_of_length_le (by rw [List.length_drop]; omega)] at hq
    rw [hq]
    refine two_eq_0800.mp ?_
    rw [← h2, hpre]
    unfold rawField
    rw [List.append_assoc, List.drop_append_of_le_length (by omega), hq]
    simp
  subst hb
  dsimp only
  refine ⟨by rw [List.length_append, hpl]; simp only [List.length_cons]; omega, ?_⟩
  have hdrop : (pre ++ a :: b' :: c :: e :: u1 :: u2 :: s1 :: s2 :: z).drop (n + 4 * (v.toNat % 16) + 8) = z := by
    rw [List.drop_append, hpl, List.drop_eq_nil_of_le (by omega)]
    simp
  rw [hdrop]
  refine ⟨link, v :: tos :: l1 :: l2 :: i1 :: i2 :: f1 :: f2 :: ttl :: 17 :: tail, [a, b', c, e, u1, u2, s1, s2], z.drop (beNat [u1, u2] - 8), v, tos, [l1, l2], [i1, i2], [f1, f2], ttl, tail, [a, b', c, e], [u1, u2], [s1, s2],
    ?_, hl, hlast, rfl, rfl, rfl, rfl, h3, ?_, ?_, h4, rfl, rfl, rfl, rfl, ?_, ?_, ?_⟩
  · rw [hpre]; simp
  · simp only [List.length_cons]; omega
  · simp only [List.length_cons]; omega
  · rw [List.length_take]; simp only [List.length_cons, List.length_nil]; omega
  · rw [List.length_take]; simp only [List.length_cons, List.length_nil]; omega
  · rw [List.length_take, List.length_drop]; simp only [List.length_cons, List.length_nil]; omega

theorem parse_of_frame {n : Nat} (hn : 2 ≤ n) {d p : Bytes} (h : IsUdpFrame n d p) :
    ∃ b, udpFromFrame n d = some (.ok b) ∧ (d.drop b.off).take b.size = p ∧ b.size = p.length ∧ b.off + b.size ≤ d.length := by
  obtain ⟨link, ip, udp, rest, v, tos, len, ident, frag, ttl, tail, ports, ulen, usum, rfl, hl, hlast, hip, n1, n2, n3, hv, hihl, h20, hfrag, rfl, n4, n5, n6, hul, hlo, hhi⟩ := h
  obtain ⟨l1, l2, rfl⟩ : ∃ a b, len = [a, b] := by
    obtain ⟨a, b, h⟩ := take_two (d := len) (o := 0) (by omega)
    rw [List.drop_zero, List.take_of_length_le (by omega)] at h
    exact ⟨a, b, h⟩
  obtain ⟨i1, i2, rfl⟩ : ∃ a b, ident = [a, b] := by
    obtain ⟨a, b, h⟩ := take_two (d := ident) (o := 0) (by omega)
    rw [List.drop_zero, List.take_of_length_le (by omega)] at h
    exact ⟨a, b, h⟩
  obtain ⟨f1, f2, rfl⟩ : ∃ a b, frag = [a, b] := by
    obtain ⟨a, b, h⟩ := take_two (d := frag) (o := 0) (by omega)
    rw [List.drop_zero, List.take_of_length_le (by omega)] at h
    exact ⟨a, b, h⟩
  have hlu : (ports ++ ulen ++ usum).length = 8 := by simp only [List.length_append]; omega
  have e0 : rawField (link ++ ip ++ (ports ++ ulen ++ usum) ++ p ++ rest) n 1 = v.toNat := by
    rw [show n = n + 0 by omega, List.append_assoc, List.append_assoc, List.append_assoc, rawField_append hl, hip]; simp [rawField, beNat]
  have e2 : rawField (link ++ ip ++ (ports ++ ulen ++ usum) ++ p ++ rest) (n + 2) 2 = beNat [l1, l2] := by
    rw [List.append_assoc, List.append_assoc, List.append_assoc, rawField_append hl, hip]; simp [rawField]
  have e6 : rawField (link ++ ip ++ (ports ++ ulen ++ usum) ++ p ++ rest) (n + 6) 2 = beNat [f1, f2] := by
    rw [List.append_assoc, List.append_assoc, List.append_assoc, rawField_append hl, hip]; simp [rawField]
  have e9 : rawField (link ++ ip ++ (ports ++ ulen ++ usum) ++ p ++ rest) (n + 9) 1 = 17 := by
    rw [List.append_assoc, List.append_assoc, List.append_assoc, rawField_append hl, hip]; simp [rawField, beNat]
  have et : rawField (link ++ ip ++ (ports ++ ulen ++ usum) ++ p ++ rest) (n - 2) 2 = 0x0800 := by
    unfold rawField
    rw [List.append_assoc, List.append_assoc, List.append_assoc, List.drop_append_of_le_length (by omega), hlast]
    rw [List.take_left' (show ([0x08, 0x00] : Bytes).length = 2 from rfl), beNat_two]; decide
  have eu : rawField (link ++ ip ++ (ports ++ ulen ++ usum) ++ p ++ rest) (n + 4 * (v.toNat % 16) + 4) 2 = beNat ulen := by
    rw [show link ++ ip ++ (ports ++ ulen ++ usum) ++ p ++ rest = (link ++ ip ++ ports) ++ (ulen ++ (usum ++ p ++ rest)) by simp,
      rawField_at _ _ (by simp only [List.length_append]; omega), List.take_left' n5]
  have hlen : (link ++ ip ++ (ports ++ ulen ++ usum) ++ p ++ rest).length = n + ip.length + 8 + p.length + rest.length := by
    rw [List.length_append, List.length_append, List.length_append, List.length_append, hl, hlu]
  rw [hlu] at hul hlo hhi
  refine ⟨⟨n + 4 * (v.toNat % 16) + 8, beNat ulen - 8⟩, ?_, ?_, ?_, ?_⟩
  · rw [udpFromFrame_ok hn, e0, e2, e6, e9, et, eu, hlen]
    refine ⟨by omega, rfl, hv, hfrag, rfl, by omega, by omega, by omega, by omega, by omega, rfl⟩
  · show ((link ++ ip ++ (ports ++ ulen ++ usum) ++ p ++ rest).drop (n + 4 * (v.toNat % 16) + 8)).take (beNat ulen - 8) = p
    rw [show link ++ ip ++ (ports ++ ulen ++ usum) ++ p ++ rest = (link ++ ip ++ (ports ++ ulen ++ usum)) ++ (p ++ rest) by simp]
    rw [List.drop_left' (by rw [List.length_append, List.length_append, hl, hlu]; omega), List.take_left' (by omega)]
  · show beNat ulen - 8 = _
    omega
  · show n + 4 * (v.toNat % 16) + 8 + (beNat ulen - 8) ≤ _
    rw [hlen]; omega

/-! ## The checksum -/

theorem hdrWords_append : ∀ (a b : Bytes), a.length % 2 = 0 → hdrWords (a ++ b) = hdrWords a ++ hdrWords b
  | [], _, _ => rfl
  | [_], _, h => by simp at h
  | x :: y :: a, b, h => by
    simp only [List.cons_append, hdrWords, hdrWords_append a b (by simp only [List.length_cons] at h; omega)]

theorem hdrWords_lt : ∀ (a : Bytes), ∀ w ∈ hdrWords a, w ≤ 0xffff
  | [], w, h => by simp [hdrWords] at h
  | [x], w, h => by
    simp only [hdrWords, List.mem_singleton] at h
    have := x.toNat_lt
    omega
  | x :: y :: a, w, h => by
    simp only [hdrWords, List.mem_cons] at h
    have := x.toNat_lt
    have := y.toNat_lt
    rcases h with h | h
    · omega
    · exact hdrWords_lt a w h

theorem hdrWords_length : ∀ (a : Bytes), (hdrWords a).length = (a.length + 1) / 2
  | [] => rfl
  | [_] => by simp [hdrWords]
  | x :: y :: a => by
    simp only [hdrWords, List.length_cons, hdrWords_length a]
    omega

theorem hdrWords_sum_le (l : List Nat) (h : ∀ w ∈ l, w ≤ 0xffff) : l.sum ≤ 0xffff * l.length := by
  induction l with
  | nil => simp
  | cons w l ih =>
    have h1 := h w (by simp)
    have h2 := ih (fun x hx => h x (by simp [hx]))
    rw [List.sum_cons, List.length_cons]
    omega

theorem sumLoop_eq (d : Bytes) (p : PBuf) : ∀ (n i s : Nat), p.off + i + 2 * n ≤ d.length → s < 2 ^ 32 →
    sumLoop d p n i s = some ((s + (hdrWords ((d.drop (p.off + i)).take (2 * n))).sum) % 2 ^ 32)
  | 0, i, s, _, hs => by
    simp only [sumLoop, Nat.mul_zero, List.take_zero, hdrWords, List.sum_nil, Nat.add_zero]
    rw [Nat.mod_eq_of_lt hs]
  | n + 1, i, s, h, hs => by
    unfold sumLoop
    rw [getBe?_eq (by omega)]
    dsimp only
    rw [sumLoop_eq d p n (i + 2) _ (by omega) (Nat.mod_lt _ (by decide))]
    obtain ⟨a, b, hab⟩ := take_two (d := d) (o := p.off + i) (by omega)
    have e : (d.drop (p.off + i)).take (2 * (n + 1)) = a :: b :: (d.drop (p.off + (i + 2))).take (2 * n) := by
      rw [show 2 * (n + 1) = 2 + 2 * n by omega, List.take_add, hab, List.drop_drop, show p.off + i + 2 = p.off + (i + 2) by omega]
      rfl
    have f : rawField d (p.off + i) 2 = a.toNat * 256 + b.toNat := by unfold rawField; rw [hab, beNat_two]
    rw [e, f, hdrWords, List.sum_cons]
    congr 1
    omega

theorem carryLoop_spec {s : Nat} (h : s < 2 ^ 32) : ∃ r, carryLoop 4 s = some r ∧ r ≤ 0xffff ∧ r % 0xffff = s % 0xffff ∧ (r = 0 ↔ s = 0) := by
  have step : ∀ x : Nat, (x &&& 0xffff) + x >>> 16 = x % 65536 + x / 65536 := by
    intro x
    rw [show x &&& 0xffff = x % 65536 from Nat.and_two_pow_sub_one_eq_mod x 16, Nat.shiftRight_eq_div_pow]
  by_cases h1 : s > 0xffff
  · by_cases h2 : s % 65536 + s / 65536 > 0xffff
    · obtain ⟨y, hy⟩ : ∃ y, y = s % 65536 + s / 65536 := ⟨_, rfl⟩
      rw [← hy] at h2
      refine ⟨y % 65536 + y / 65536, ?_, by omega, by omega, by omega⟩
      unfold carryLoop
      rw [if_pos h1, step, ← hy]
      unfold carryLoop
      rw [if_pos h2, step]
      unfold carryLoop
      rw [if_neg (by omega)]
    · refine ⟨s % 65536 + s / 65536, ?_, by omega, by omega, by omega⟩
      unfold carryLoop
      rw [if_pos h1, step]
      unfold carryLoop
      rw [if_neg h2]
  · refine ⟨s, ?_, by omega, rfl, Iff.rfl⟩
    unfold carryLoop
    rw [if_neg h1]

theorem onesSum_spec : ∀ (l : List Nat) (s : Nat), (∀ w ∈ l, w ≤ 0xffff) → s ≤ 0xffff →
    l.foldl onesAdd s ≤ 0xffff ∧ (l.foldl onesAdd s) % 0xffff = (s + l.sum) % 0xffff ∧ (l.foldl onesAdd s = 0 → s + l.sum = 0)
  | [], s, _, hs => by simp [hs]
  | w :: l, s, h, hs => by
    have hw := h w (by simp)
    have ho : onesAdd s w ≤ 0xffff ∧ onesAdd s w % 0xffff = (s + w) % 0xffff ∧ (onesAdd s w = 0 → s + w = 0) := by
      unfold onesAdd
      split <;> omega
    obtain ⟨i1, i2, i3⟩ := onesSum_spec l (onesAdd s w) (fun x hx => h x (by simp [hx])) ho.1
    rw [List.foldl_cons, List.sum_cons]
    refine ⟨i1, by omega, fun hz => ?_⟩
    have := i3 hz
    omega

theorem setBe?_parts {pre x y z : Bytes} {p : PBuf} {o k v : Nat} (h1 : pre.length = p.off) (h2 : x.length = o) (h3 : y.length = k) :
    setBe? (pre ++ x ++ y ++ z) p o k v = some (pre ++ x ++ beBytes k v ++ z) := by
  unfold setBe?
  rw [if_pos (by simp only [List.length_append]; omega)]
  congr 1
  have e1 : (pre ++ x ++ y ++ z).take (p.off + o) = pre ++ x := by
    rw [List.append_assoc]
    exact List.take_left' (by rw [List.length_append]; omega)
  have e2 : (pre ++ x ++ y ++ z).drop (p.off + o + k) = z := List.drop_left' (by simp only [List.length_append]; omega)
  rw [e1, e2]

theorem rawBytes_two (v : Nat) : ∃ a b : UInt8, beBytes 2 v = [a, b] ∧ a.toNat * 256 + b.toNat = v % 65536 := by
  refine ⟨_, _, rfl, ?_⟩
  have := beNat_beBytes 2 v
  rw [show beBytes 2 v = [UInt8.ofNat (v / 256 ^ 1), UInt8.ofNat (v / 256 ^ 0)] from rfl, beNat_two] at this
  exact this

theorem updateChecksum_spec {pre x y z : Bytes} {a b v : UInt8} {p : PBuf} (hpre : pre.length = p.off) (hx : x.length = 10) (hv : x.head? = some v)
    (hh : x.length + 2 + y.length = 4 * (v.toNat % 16)) : ∃ c e, updateChecksum (pre ++ x ++ [a, b] ++ (y ++ z)) p = some (pre ++ x ++ [c, e] ++ (y ++ z)) ∧
      ChecksumOk (x ++ [c, e] ++ y) := by
  have hx0 : ∃ x', x = v :: x' := by
    cases x with
    | nil => simp at hv
    | cons q x' => simp at hv; exact ⟨x', by rw [hv]⟩
  obtain ⟨x', rfl⟩ := hx0
  have hvl := v.toNat_lt
  have f0 : rawField (pre ++ (v :: x') ++ [a, b] ++ (y ++ z)) (p.off + 0) 1 = v.toNat := by
    rw [List.append_assoc, List.append_assoc, rawField_append hpre]
    simp [rawField, beNat]
  have hlen : (pre ++ (v :: x') ++ [a, b] ++ (y ++ z)).length = p.off + 12 + y.length + z.length := by
    simp only [List.length_append, List.length_cons, List.length_nil] at hx ⊢
    omega
  have hhl : p.headerLength? (pre ++ (v :: x') ++ [a, b] ++ (y ++ z)) = some (4 * (v.toNat % 16)) := by
    unfold PBuf.headerLength?
    rw [getBe?_eq (by rw [hlen]; omega), f0, Option.map_some, and_0xf]
  obtain ⟨z1, z2, hz0, hz⟩ := rawBytes_two 0
  have hset : setBe? (pre ++ (v :: x') ++ [a, b] ++ (y ++ z)) p 10 2 0 = some (pre ++ (v :: x') ++ [z1, z2] ++ (y ++ z)) := by
    rw [setBe?_parts (k := 2) hpre hx (by simp), hz0]
  have hlen' : (pre ++ (v :: x') ++ [z1, z2] ++ (y ++ z)).length = p.off + 12 + y.length + z.length := by
    simp only [List.length_append, List.length_cons, List.length_nil] at hx ⊢
    omega
  have hhdr : ((pre ++ (v :: x') ++ [z1, z2] ++ (y ++ z)).drop (p.off + 0)).take (2 * ((4 * (v.toNat % 16) + 1) / 2)) = (v :: x') ++ [z1, z2] ++ y := by
    rw [show pre ++ (v :: x') ++ [z1, z2] ++ (y ++ z) = pre ++ (((v :: x') ++ [z1, z2] ++ y) ++ z) by simp, List.drop_left' (show pre.length = p.off + 0 from hpre)]
    refine List.take_left' ?_
    rw [List.length_append, List.length_append]
    simp only [List.length_cons, List.length_nil] at hx hh ⊢
    omega
  obtain ⟨S, hS⟩ : ∃ S, S = (hdrWords ((v :: x') ++ [z1, z2] ++ y)).sum := ⟨_, rfl⟩
  have hw : ∀ q r : UInt8, (hdrWords ((v :: x') ++ [q, r] ++ y)).sum = (hdrWords (v :: x')).sum + (q.toNat * 256 + r.toNat) + (hdrWords y).sum := by
    intro q r
    rw [List.append_assoc, hdrWords_append _ _ (by rw [hx]), hdrWords_append [q, r] y (by simp)]
    simp only [hdrWords, List.sum_append, List.sum_cons, List.sum_nil]
    omega
  have hSlt : S < 2 ^ 32 := by
    have h1 := hdrWords_sum_le _ (hdrWords_lt ((v :: x') ++ [z1, z2] ++ y))
    rw [hdrWords_length, List.length_append, List.length_append] at h1
    simp only [List.length_cons, List.length_nil] at h1 hx hh
    rw [← hS] at h1
    have : (x'.length + 1 + (0 + 1 + 1) + y.length + 1) / 2 ≤ 31 := by omega
    have h2 : 0xffff * ((x'.length + 1 + (0 + 1 + 1) + y.length + 1) / 2) ≤ 0xffff * 31 := Nat.mul_le_mul_left _ this
    omega
  obtain ⟨r, hr, hr1, hr2, hr3⟩ := carryLoop_spec hSlt
  obtain ⟨c, e, hce0, hce⟩ := rawBytes_two (0xffff - r)
  refine ⟨c, e, ?_, ?_⟩
  · unfold updateChecksum
    rw [hhl]
    dsimp only
    rw [hset]
    dsimp only
    rw [sumLoop_eq _ _ _ _ _ (by rw [hlen']; omega) (by decide), hhdr, ← hS, Nat.zero_add, Nat.mod_eq_of_lt hSlt]
    dsimp only
    rw [hr]
    dsimp only
    rw [setBe?_parts (k := 2) hpre hx (by simp), hce0]
  · unfold ChecksumOk
    obtain ⟨o1, o2, o3⟩ := onesSum_spec (hdrWords ((v :: x') ++ [c, e] ++ y)) 0 (hdrWords_lt _) (by decide)
    have t1 := hw c e
    have t2 := hw z1 z2
    rw [← hS] at t2
    rw [t1, hce] at o2 o3
    rw [hz] at t2
    omega

end Spead2
