import Verif.Spec.SendIbv
import Verif.Lemmas.RawPacket

/-! Lemmas on ibverbs frames. -/

namespace Spead2

open Spec

theorem setBe_at {A y Z : Bytes} {p : PBuf} {o k v : Nat} (h1 : A.length = p.off + o) (h2 : y.length = k) :
    setBe? (A ++ (y ++ Z)) p o k v = some (A ++ (beBytes k v ++ Z)) := by
  unfold setBe?
  rw [if_pos (by simp only [List.length_append]; omega), List.take_left' h1, ← List.append_assoc A y Z, List.drop_left' (by rw [List.length_append]; omega),
    List.append_assoc]

theorem setBytes_at {A y Z : Bytes} {o : Nat} {v : Bytes} (h1 : A.length = o) (h2 : y.length = v.length) :
    setBytes? (A ++ (y ++ Z)) o v = some (A ++ (v ++ Z)) := by
  unfold setBytes?
  rw [if_pos (by simp only [List.length_append]; omega), List.take_left' h1, ← List.append_assoc A y Z, List.drop_left' (by rw [List.length_append]; omega),
    List.append_assoc]

theorem getBe_at {A y Z : Bytes} {p : PBuf} {o k : Nat} (h1 : A.length = p.off + o) (h2 : y.length = k) : getBe? (A ++ (y ++ Z)) p o k = some (beNat y) := by
  rw [getBe?_eq (by simp only [List.length_append]; omega)]
  unfold rawField
  rw [List.drop_left' h1, List.take_left' h2]

/-- The header of a slot. -/
def ibvHdr (c : IbvCfg) (m len cs dst dp ul : Bytes) : Bytes :=
  m ++ (c.srcMac ++ ([0x08, 0x00] ++ ([0x45] ++ ([0] ++ (len ++ ([0, 0] ++ ([0x40, 0] ++ ([c.ttl] ++ ([0x11] ++ (cs ++ (c.srcAddr ++ (dst ++
    (beBytes 2 c.srcPort ++ (dp ++ (ul ++ [0, 0])))))))))))))))

theorem ibvHdr_length {c : IbvCfg} (hv : IbvValid c) {m len cs dst dp ul : Bytes} (h1 : m.length = 6) (h2 : len.length = 2) (h3 : cs.length = 2)
    (h4 : dst.length = 4) (h5 : dp.length = 2) (h6 : ul.length = 2) : (ibvHdr c m len cs dst dp ul).length = 42 := by
  have e : ∀ a b c d e f g h i j k l m n o p q : Bytes, (a ++ (b ++ (c ++ (d ++ (e ++ (f ++ (g ++ (h ++ (i ++ (j ++ (k ++ (l ++ (m ++ (n ++ (o ++ (p ++ q)))))))))))))))).length =
      a.length + b.length + c.length + d.length + e.length + f.length + g.length + h.length + i.length + j.length + k.length + l.length + m.length +
      n.length + o.length + p.length + q.length := by
    intros
    simp only [List.length_append, Nat.add_assoc]
  rw [ibvHdr, e, h1, h2, h3, h4, h5, h6, hv.mac, hv.src, beBytes_length]
  rfl

theorem multicastMac_length (a : Bytes) : (multicastMac a).length = 6 := rfl

theorem beBytes_of_beNat {l : Bytes} {k v : Nat} (h : l.length = k) (e : beNat l = v) : beBytes k v = l := by
  rw [← e, ← h, beBytes_beNat]

theorem payloadIpv4_eq {c : IbvCfg} {i : Nat} : (c.frame i).payloadIpv4 = some ⟨i * c.maxRaw + 14, c.maxRaw - 14⟩ := by
  have h : ¬ c.maxRaw - 14 < 20 := by unfold IbvCfg.maxRaw ibvHeader; omega
  show (if c.maxRaw - 14 < 20 then Except.error RawErr.length else Except.ok _).toOption = _
  rw [if_neg h]
  rfl

theorem payloadUdp_eq {c : IbvCfg} {i size : Nat} {A len B Z : Bytes} (h1 : A.length = i * c.maxRaw + 14) (hl : len.length = 2)
    (hlen : beNat len = size + 28) (hs : size ≤ c.maxPacket) :
    (⟨i * c.maxRaw + 14, c.maxRaw - 14⟩ : PBuf).payloadUdp? (A ++ ([0x45] ++ ([0] ++ (len ++ (B ++ Z))))) = some ⟨i * c.maxRaw + 34, size + 8⟩ := by
  have hm : c.maxRaw = c.maxPacket + 42 := rfl
  have e1 : getBe? (A ++ ([0x45] ++ ([0] ++ (len ++ (B ++ Z))))) ⟨i * c.maxRaw + 14, c.maxRaw - 14⟩ 0 1 = some 0x45 := getBe_at (by rw [h1]) rfl
  have e2 : getBe? (A ++ ([0x45] ++ ([0] ++ (len ++ (B ++ Z))))) ⟨i * c.maxRaw + 14, c.maxRaw - 14⟩ 2 2 = some (beNat len) := by
    have := getBe_at (A := A ++ [0x45] ++ [0]) (y := len) (Z := B ++ Z) (p := ⟨i * c.maxRaw + 14, c.maxRaw - 14⟩) (o := 2) (k := 2)
      (by simp [h1]) hl
    simpa using this
  unfold PBuf.payloadUdp? PBuf.payloadUdp PBuf.headerLength?
  rw [e1, e2, hlen]
  simp only [Option.map_some]
  rw [if_neg (by decide), if_neg (by simp; omega)]
  simp only [PBuf.make]
  rw [if_neg (by simp)]
  simp [Except.toOption]

theorem beNat_be2 {v : Nat} (h : v < 65536) : beNat (beBytes 2 v) = v := beNat_beBytes_of_lt (by simpa using h)

/-- The header fields for a packet. -/
theorem setHeader_eq {c : IbvCfg} (hv : IbvValid c) {i size sub : Nat} {pre m len cs dst dp ul rest : Bytes} (hp : pre.length = i * c.maxRaw)
    (h1 : m.length = 6) (h2 : len.length = 2) (h3 : cs.length = 2) (h4 : dst.length = 4) (h5 : dp.length = 2) (h6 : ul.length = 2)
    (hs : size ≤ c.maxPacket) {e : IEndpoint} (he : c.endpoints[sub]? = some e)
    (h0 : c.endpoints.length = 1 → m = multicastMac e.addr ∧ dst = e.addr ∧ dp = beBytes 2 e.port) :
    ∃ cs', cs'.length = 2 ∧ c.setHeader (pre ++ (ibvHdr c m len cs dst dp ul ++ rest)) (c.frame i) size sub =
      some (pre ++ (ibvHdr c (multicastMac e.addr) (beBytes 2 (size + 28)) cs' e.addr (beBytes 2 e.port) (beBytes 2 (size + 8)) ++ rest)) ∧
      (c.csum = false → ChecksumOk ([0x45, 0] ++ beBytes 2 (size + 28) ++ [0, 0, 0x40, 0, c.ttl, 0x11] ++ cs' ++ c.srcAddr ++ e.addr)) := by
  have hm := hv.mac
  have hsr := hv.src
  have hf := hv.fits
  have hea : e.addr.length = 4 := hv.dst e (List.mem_of_getElem? he)
  have hml := multicastMac_length e.addr
  have b2 : ∀ v, (beBytes 2 v).length = 2 := beBytes_length 2
  have g0 : (⟨i * c.maxRaw + 14, c.maxRaw - 14⟩ : PBuf).headerLength? (pre ++ (ibvHdr c m len cs dst dp ul ++ rest)) = some 20 := by
    have := getBe_at (A := pre ++ m ++ c.srcMac ++ [0x08, 0x00]) (y := [0x45]) (Z := [0] ++ (len ++ ([0, 0] ++ ([0x40, 0] ++ ([c.ttl] ++ ([0x11] ++
      (cs ++ (c.srcAddr ++ (dst ++ (beBytes 2 c.srcPort ++ (dp ++ (ul ++ ([0, 0] ++ rest)))))))))))))
      (p := ⟨i * c.maxRaw + 14, c.maxRaw - 14⟩) (o := 0) (k := 1) (by simp [hp, h1, hm] <;> omega) rfl
    unfold PBuf.headerLength?
    rw [show getBe? (pre ++ (ibvHdr c m len cs dst dp ul ++ rest)) _ 0 1 = some (beNat [0x45]) by simpa only [ibvHdr, List.append_assoc] using this]
    rfl
  have g1 : setBe? (pre ++ (ibvHdr c m len cs dst dp ul ++ rest)) ⟨i * c.maxRaw + 14, c.maxRaw - 14⟩ 2 2 (size + 8 + 20) =
      some (pre ++ (ibvHdr c m (beBytes 2 (size + 28)) cs dst dp ul ++ rest)) := by
    have := setBe_at (A := pre ++ m ++ c.srcMac ++ [0x08, 0x00] ++ [0x45] ++ [0]) (y := len) (Z := [0, 0] ++ ([0x40, 0] ++ ([c.ttl] ++ ([0x11] ++
      (cs ++ (c.srcAddr ++ (dst ++ (beBytes 2 c.srcPort ++ (dp ++ (ul ++ ([0, 0] ++ rest)))))))))))
      (p := ⟨i * c.maxRaw + 14, c.maxRaw - 14⟩) (o := 2) (k := 2) (v := size + 28) (by simp [hp, h1, hm] <;> omega) h2
    simpa only [ibvHdr, List.append_assoc] using this
  have g2 : (⟨i * c.maxRaw + 14, c.maxRaw - 14⟩ : PBuf).payloadUdp? (pre ++ (ibvHdr c m (beBytes 2 (size + 28)) cs dst dp ul ++ rest)) =
      some ⟨i * c.maxRaw + 34, size + 8⟩ := by
    have := payloadUdp_eq (c := c) (i := i) (size := size) (A := pre ++ m ++ c.srcMac ++ [0x08, 0x00]) (len := beBytes 2 (size + 28)) (B := [0, 0])
      (Z := ([0x40, 0] ++ ([c.ttl] ++ ([0x11] ++ (cs ++ (c.srcAddr ++ (dst ++ (beBytes 2 c.srcPort ++ (dp ++ (ul ++ ([0, 0] ++ rest)))))))))))
      (by simp [hp, h1, hm] <;> omega) (b2 _) (beNat_be2 (by omega)) hs
    simpa only [ibvHdr, List.append_assoc] using this
  have g3 : setBe? (pre ++ (ibvHdr c m (beBytes 2 (size + 28)) cs dst dp ul ++ rest)) ⟨i * c.maxRaw + 34, size + 8⟩ 4 2 (size + 8) =
      some (pre ++ (ibvHdr c m (beBytes 2 (size + 28)) cs dst dp (beBytes 2 (size + 8)) ++ rest)) := by
    have := setBe_at (A := pre ++ m ++ c.srcMac ++ [0x08, 0x00] ++ [0x45] ++ [0] ++ beBytes 2 (size + 28) ++ [0, 0] ++ [0x40, 0] ++ [c.ttl] ++ [0x11] ++
      cs ++ c.srcAddr ++ dst ++ beBytes 2 c.srcPort ++ dp) (y := ul) (Z := [0, 0] ++ rest)
      (p := ⟨i * c.maxRaw + 34, size + 8⟩) (o := 4) (k := 2) (v := size + 8) (by simp [hp, h1, hm, b2, h3, hsr, h4, h5] <;> omega) h6
    simpa only [ibvHdr, List.append_assoc] using this
  have g4 : c.setDest (pre ++ (ibvHdr c m (beBytes 2 (size + 28)) cs dst dp (beBytes 2 (size + 8)) ++ rest)) (c.frame i)
      ⟨i * c.maxRaw + 14, c.maxRaw - 14⟩ ⟨i * c.maxRaw + 34, size + 8⟩ sub =
      some (pre ++ (ibvHdr c (multicastMac e.addr) (beBytes 2 (size + 28)) cs e.addr (beBytes 2 e.port) (beBytes 2 (size + 8)) ++ rest)) := by
    unfold IbvCfg.setDest
    by_cases hn : 1 < c.endpoints.length
    · rw [if_pos hn, he]
      have s1 : setBytes? (pre ++ (ibvHdr c m (beBytes 2 (size + 28)) cs dst dp (beBytes 2 (size + 8)) ++ rest)) (c.frame i).off (multicastMac e.addr) =
          some (pre ++ (ibvHdr c (multicastMac e.addr) (beBytes 2 (size + 28)) cs dst dp (beBytes 2 (size + 8)) ++ rest)) := by
        have := setBytes_at (A := pre) (y := m) (v := multicastMac e.addr) (o := (c.frame i).off)
          (Z := c.srcMac ++ ([0x08, 0x00] ++ ([0x45] ++ ([0] ++ (beBytes 2 (size + 28) ++ ([0, 0] ++ ([0x40, 0] ++ ([c.ttl] ++ ([0x11] ++
            (cs ++ (c.srcAddr ++ (dst ++ (beBytes 2 c.srcPort ++ (dp ++ (beBytes 2 (size + 8) ++ ([0, 0] ++ rest)))))))))))))))) hp (by rw [h1, hml])
        simpa only [ibvHdr, List.append_assoc] using this
      have s2 : setBytes? (pre ++ (ibvHdr c (multicastMac e.addr) (beBytes 2 (size + 28)) cs dst dp (beBytes 2 (size + 8)) ++ rest))
          ((⟨i * c.maxRaw + 14, c.maxRaw - 14⟩ : PBuf).off + 16) e.addr =
          some (pre ++ (ibvHdr c (multicastMac e.addr) (beBytes 2 (size + 28)) cs e.addr dp (beBytes 2 (size + 8)) ++ rest)) := by
        have := setBytes_at (A := pre ++ multicastMac e.addr ++ c.srcMac ++ [0x08, 0x00] ++ [0x45] ++ [0] ++ beBytes 2 (size + 28) ++ [0, 0] ++ [0x40, 0] ++
          [c.ttl] ++ [0x11] ++ cs ++ c.srcAddr) (y := dst) (v := e.addr) (o := (⟨i * c.maxRaw + 14, c.maxRaw - 14⟩ : PBuf).off + 16)
          (Z := beBytes 2 c.srcPort ++ (dp ++ (beBytes 2 (size + 8) ++ ([0, 0] ++ rest)))) (by simp [hp, hml, hm, b2, h3, hsr] <;> omega) (by rw [h4, hea])
        simpa only [ibvHdr, List.append_assoc] using this
      have s3 : setBe? (pre ++ (ibvHdr c (multicastMac e.addr) (beBytes 2 (size + 28)) cs e.addr dp (beBytes 2 (size + 8)) ++ rest))
          ⟨i * c.maxRaw + 34, size + 8⟩ 2 2 e.port =
          some (pre ++ (ibvHdr c (multicastMac e.addr) (beBytes 2 (size + 28)) cs e.addr (beBytes 2 e.port) (beBytes 2 (size + 8)) ++ rest)) := by
        have := setBe_at (A := pre ++ multicastMac e.addr ++ c.srcMac ++ [0x08, 0x00] ++ [0x45] ++ [0] ++ beBytes 2 (size + 28) ++ [0, 0] ++ [0x40, 0] ++
          [c.ttl] ++ [0x11] ++ cs ++ c.srcAddr ++ e.addr ++ beBytes 2 c.srcPort) (y := dp) (p := ⟨i * c.maxRaw + 34, size + 8⟩) (o := 2) (k := 2) (v := e.port)
          (Z := beBytes 2 (size + 8) ++ ([0, 0] ++ rest)) (by simp [hp, hml, hm, b2, h3, hsr, hea] <;> omega) h5
        simpa only [ibvHdr, List.append_assoc] using this
      simp only [Option.bind_eq_bind, Option.bind_some, s1, s2, s3]
    · have hlen : c.endpoints.length = 1 := by
        have := (List.getElem?_eq_some_iff.mp he).1
        omega
      obtain ⟨q1, q2, q3⟩ := h0 hlen
      rw [if_neg hn, q1, q2, q3]
  have g : c.setHeader (pre ++ (ibvHdr c m len cs dst dp ul ++ rest)) (c.frame i) size sub =
      if c.csum then some (pre ++ (ibvHdr c (multicastMac e.addr) (beBytes 2 (size + 28)) cs e.addr (beBytes 2 e.port) (beBytes 2 (size + 8)) ++ rest))
      else updateChecksum (pre ++ (ibvHdr c (multicastMac e.addr) (beBytes 2 (size + 28)) cs e.addr (beBytes 2 e.port) (beBytes 2 (size + 8)) ++ rest))
        ⟨i * c.maxRaw + 14, c.maxRaw - 14⟩ := by
    unfold IbvCfg.setHeader
    simp only [Option.bind_eq_bind, payloadIpv4_eq, Option.bind_some, g0, g1, g2, g3, g4]
  rw [g]
  cases hcs : c.csum with
  | true => exact ⟨cs, h3, by simp, by simp⟩
  | false =>
    obtain ⟨a, b, hab⟩ : ∃ a b, cs = [a, b] := by
      match cs, h3 with
      | [a, b], _ => exact ⟨a, b, rfl⟩
    subst hab
    obtain ⟨q, r, hu, hok⟩ := updateChecksum_spec (pre := pre ++ multicastMac e.addr ++ c.srcMac ++ [0x08, 0x00])
      (x := [0x45] ++ [0] ++ beBytes 2 (size + 28) ++ [0, 0] ++ [0x40, 0] ++ [c.ttl] ++ [0x11]) (y := c.srcAddr ++ e.addr)
      (z := beBytes 2 c.srcPort ++ (beBytes 2 e.port ++ (beBytes 2 (size + 8) ++ ([0, 0] ++ rest)))) (a := a) (b := b) (v := 0x45)
      (p := ⟨i * c.maxRaw + 14, c.maxRaw - 14⟩) (by simp [hp, hml, hm] <;> omega) (by simp [b2]) rfl (by simp [b2, hsr, hea])
    refine ⟨[q, r], rfl, ?_, fun _ => ?_⟩
    · simp only [Bool.false_eq_true, if_false]
      simpa only [ibvHdr, List.append_assoc] using hu
    · simpa using hok

/-- The constructor prefills a slot that is all zeros. -/
theorem prefill_eq {c : IbvCfg} (hv : IbvValid c) {i : Nat} {pre rest : Bytes} (hp : pre.length = i * c.maxRaw) {e : IEndpoint} (he : c.endpoints[0]? = some e) :
    c.prefill (pre ++ (List.replicate 42 0 ++ rest)) i = some (pre ++ (ibvHdr c (multicastMac e.addr) (beBytes 2 (c.maxPacket + 28)) [0, 0] e.addr
      (beBytes 2 e.port) (beBytes 2 (c.maxPacket + 8)) ++ rest), i * c.maxRaw + 42) := by
  have hm := hv.mac
  have hsr := hv.src
  have hf := hv.fits
  have hea : e.addr.length = 4 := hv.dst e (List.mem_of_getElem? he)
  have hml := multicastMac_length e.addr
  have hoff : (c.frame i).off = i * c.maxRaw := rfl
  have b2 : ∀ v, (beBytes 2 v).length = 2 := beBytes_length 2
  have be0800 : beBytes 2 0x0800 = [0x08, 0x00] := by decide
  have be45 : beBytes 1 0x45 = [0x45] := by decide
  have be4000 : beBytes 2 0x4000 = [0x40, 0] := by decide
  have bettl : beBytes 1 c.ttl.toNat = [c.ttl] := beBytes_of_beNat rfl (by simp [beNat])
  have be11 : beBytes 1 0x11 = [0x11] := by decide
  have be0 : beBytes 2 0 = [0, 0] := by decide
  have z : pre ++ (List.replicate 42 0 ++ rest) = pre ++ (List.replicate 6 0 ++ (List.replicate 6 0 ++ ([0, 0] ++ ([0] ++ ([0] ++ ([0, 0] ++ ([0, 0] ++ ([0, 0] ++ ([0] ++ ([0] ++ ([0, 0] ++ (List.replicate 4 0 ++ (List.replicate 4 0 ++ ([0, 0] ++ ([0, 0] ++ ([0, 0] ++ ([0, 0] ++ rest))))))))))))))))) := by
    congr 1
  have s0 : setBytes? (pre ++ (List.replicate 6 0 ++ (List.replicate 6 0 ++ ([0, 0] ++ ([0] ++ ([0] ++ ([0, 0] ++ ([0, 0] ++ ([0, 0] ++ ([0] ++ ([0] ++ ([0, 0] ++ (List.replicate 4 0 ++ (List.replicate 4 0 ++ ([0, 0] ++ ([0, 0] ++ ([0, 0] ++ ([0, 0] ++ rest)))))))))))))))))) (c.frame i).off (multicastMac e.addr) = some (pre ++ (multicastMac e.addr ++ (List.replicate 6 0 ++ ([0, 0] ++ ([0] ++ ([0] ++ ([0, 0] ++ ([0, 0] ++ ([0, 0] ++ ([0] ++ ([0] ++ ([0, 0] ++ (List.replicate 4 0 ++ (List.replicate 4 0 ++ ([0, 0] ++ ([0, 0] ++ ([0, 0] ++ ([0, 0] ++ rest)))))))))))))))))) := by
    have := setBytes_at (A := pre) (y := List.replicate 6 0) (Z := (List.replicate 6 0 ++ ([0, 0] ++ ([0] ++ ([0] ++ ([0, 0] ++ ([0, 0] ++ ([0, 0] ++ ([0] ++ ([0] ++ ([0, 0] ++ (List.replicate 4 0 ++ (List.replicate 4 0 ++ ([0, 0] ++ ([0, 0] ++ ([0, 0] ++ ([0, 0] ++ (rest)))))))))))))))))) (o := (c.frame i).off) (v := multicastMac e.addr) (by simp [hp, hm, b2, hsr, hea, hml, hoff] <;> omega) (by simp [hm, hsr, hea, hml])
    simpa only [List.append_assoc] using this
  have s1 : setBytes? (pre ++ (multicastMac e.addr ++ (List.replicate 6 0 ++ ([0, 0] ++ ([0] ++ ([0] ++ ([0, 0] ++ ([0, 0] ++ ([0, 0] ++ ([0] ++ ([0] ++ ([0, 0] ++ (List.replicate 4 0 ++ (List.replicate 4 0 ++ ([0, 0] ++ ([0, 0] ++ ([0, 0] ++ ([0, 0] ++ rest)))))))))))))))))) ((c.frame i).off + 6) (c.srcMac) = some (pre ++ (multicastMac e.addr ++ (c.srcMac ++ ([0, 0] ++ ([0] ++ ([0] ++ ([0, 0] ++ ([0, 0] ++ ([0, 0] ++ ([0] ++ ([0] ++ ([0, 0] ++ (List.replicate 4 0 ++ (List.replicate 4 0 ++ ([0, 0] ++ ([0, 0] ++ ([0, 0] ++ ([0, 0] ++ rest)))))))))))))))))) := by
    have := setBytes_at (A := pre ++ multicastMac e.addr) (y := List.replicate 6 0) (Z := ([0, 0] ++ ([0] ++ ([0] ++ ([0, 0] ++ ([0, 0] ++ ([0, 0] ++ ([0] ++ ([0] ++ ([0, 0] ++ (List.replicate 4 0 ++ (List.replicate 4 0 ++ ([0, 0] ++ ([0, 0] ++ ([0, 0] ++ ([0, 0] ++ (rest))))))))))))))))) (o := ((c.frame i).off + 6)) (v := c.srcMac) (by simp [hp, hm, b2, hsr, hea, hml, hoff] <;> omega) (by simp [hm, hsr, hea, hml])
    simpa only [List.append_assoc] using this
  have s2 : setBe? (pre ++ (multicastMac e.addr ++ (c.srcMac ++ ([0, 0] ++ ([0] ++ ([0] ++ ([0, 0] ++ ([0, 0] ++ ([0, 0] ++ ([0] ++ ([0] ++ ([0, 0] ++ (List.replicate 4 0 ++ (List.replicate 4 0 ++ ([0, 0] ++ ([0, 0] ++ ([0, 0] ++ ([0, 0] ++ rest)))))))))))))))))) (c.frame i) 12 2 0x0800 = some (pre ++ (multicastMac e.addr ++ (c.srcMac ++ ([0x08, 0x00] ++ ([0] ++ ([0] ++ ([0, 0] ++ ([0, 0] ++ ([0, 0] ++ ([0] ++ ([0] ++ ([0, 0] ++ (List.replicate 4 0 ++ (List.replicate 4 0 ++ ([0, 0] ++ ([0, 0] ++ ([0, 0] ++ ([0, 0] ++ rest)))))))))))))))))) := by
    have := setBe_at (A := pre ++ multicastMac e.addr ++ c.srcMac) (y := [0, 0]) (Z := ([0] ++ ([0] ++ ([0, 0] ++ ([0, 0] ++ ([0, 0] ++ ([0] ++ ([0] ++ ([0, 0] ++ (List.replicate 4 0 ++ (List.replicate 4 0 ++ ([0, 0] ++ ([0, 0] ++ ([0, 0] ++ ([0, 0] ++ (rest)))))))))))))))) (p := (c.frame i)) (o := 12) (k := 2) (v := 0x0800) (by simp [hp, hm, b2, hsr, hea, hml, hoff] <;> omega) rfl
    simpa only [List.append_assoc, be0800, be45, be4000, bettl, be11, be0] using this
  have s3 : setBe? (pre ++ (multicastMac e.addr ++ (c.srcMac ++ ([0x08, 0x00] ++ ([0] ++ ([0] ++ ([0, 0] ++ ([0, 0] ++ ([0, 0] ++ ([0] ++ ([0] ++ ([0, 0] ++ (List.replicate 4 0 ++ (List.replicate 4 0 ++ ([0, 0] ++ ([0, 0] ++ ([0, 0] ++ ([0, 0] ++ rest)))))))))))))))))) (⟨i * c.maxRaw + 14, c.maxRaw - 14⟩ : PBuf) 0 1 0x45 = some (pre ++ (multicastMac e.addr ++ (c.srcMac ++ ([0x08, 0x00] ++ ([0x45] ++ ([0] ++ ([0, 0] ++ ([0, 0] ++ ([0, 0] ++ ([0] ++ ([0] ++ ([0, 0] ++ (List.replicate 4 0 ++ (List.replicate 4 0 ++ ([0, 0] ++ ([0, 0] ++ ([0, 0] ++ ([0, 0] ++ rest)))))))))))))))))) := by
    have := setBe_at (A := pre ++ multicastMac e.addr ++ c.srcMac ++ [0x08, 0x00]) (y := [0]) (Z := ([0] ++ ([0, 0] ++ ([0, 0] ++ ([0, 0] ++ ([0] ++ ([0] ++ ([0, 0] ++ (List.replicate 4 0 ++ (List.replicate 4 0 ++ ([0, 0] ++ ([0, 0] ++ ([0, 0] ++ ([0, 0] ++ (rest))))))))))))))) (p := (⟨i * c.maxRaw + 14, c.maxRaw - 14⟩ : PBuf)) (o := 0) (k := 1) (v := 0x45) (by simp [hp, hm, b2, hsr, hea, hml, hoff] <;> omega) rfl
    simpa only [List.append_assoc, be0800, be45, be4000, bettl, be11, be0] using this
  have s4 : setBe? (pre ++ (multicastMac e.addr ++ (c.srcMac ++ ([0x08, 0x00] ++ ([0x45] ++ ([0] ++ ([0, 0] ++ ([0, 0] ++ ([0, 0] ++ ([0] ++ ([0] ++ ([0, 0] ++ (List.replicate 4 0 ++ (List.replicate 4 0 ++ ([0, 0] ++ ([0, 0] ++ ([0, 0] ++ ([0, 0] ++ rest)))))))))))))))))) (⟨i * c.maxRaw + 14, c.maxRaw - 14⟩ : PBuf) 2 2 (c.maxPacket + 20 + 8) = some (pre ++ (multicastMac e.addr ++ (c.srcMac ++ ([0x08, 0x00] ++ ([0x45] ++ ([0] ++ (beBytes 2 (c.maxPacket + 28) ++ ([0, 0] ++ ([0, 0] ++ ([0] ++ ([0] ++ ([0, 0] ++ (List.replicate 4 0 ++ (List.replicate 4 0 ++ ([0, 0] ++ ([0, 0] ++ ([0, 0] ++ ([0, 0] ++ rest)))))))))))))))))) := by
    have := setBe_at (A := pre ++ multicastMac e.addr ++ c.srcMac ++ [0x08, 0x00] ++ [0x45] ++ [0]) (y := [0, 0]) (Z := ([0, 0] ++ ([0, 0] ++ ([0] ++ ([0] ++ ([0, 0] ++ (List.replicate 4 0 ++ (List.replicate 4 0 ++ ([0, 0] ++ ([0, 0] ++ ([0, 0] ++ ([0, 0] ++ (rest))))))))))))) (p := (⟨i * c.maxRaw + 14, c.maxRaw - 14⟩ : PBuf)) (o := 2) (k := 2) (v := (c.maxPacket + 20 + 8)) (by simp [hp, hm, b2, hsr, hea, hml, hoff] <;> omega) rfl
    simpa only [List.append_assoc, be0800, be45, be4000, bettl, be11, be0] using this
  have s5 : setBe? (pre ++ (multicastMac e.addr ++ (c.srcMac ++ ([0x08, 0x00] ++ ([0x45] ++ ([0] ++ (beBytes 2 (c.maxPacket + 28) ++ ([0, 0] ++ ([0, 0] ++ ([0] ++ ([0] ++ ([0, 0] ++ (List.replicate 4 0 ++ (List.replicate 4 0 ++ ([0, 0] ++ ([0, 0] ++ ([0, 0] ++ ([0, 0] ++ rest)))))))))))))))))) (⟨i * c.maxRaw + 14, c.maxRaw - 14⟩ : PBuf) 6 2 0x4000 = some (pre ++ (multicastMac e.addr ++ (c.srcMac ++ ([0x08, 0x00] ++ ([0x45] ++ ([0] ++ (beBytes 2 (c.maxPacket + 28) ++ ([0, 0] ++ ([0x40, 0] ++ ([0] ++ ([0] ++ ([0, 0] ++ (List.replicate 4 0 ++ (List.replicate 4 0 ++ ([0, 0] ++ ([0, 0] ++ ([0, 0] ++ ([0, 0] ++ rest)))))))))))))))))) := by
    have := setBe_at (A := pre ++ multicastMac e.addr ++ c.srcMac ++ [0x08, 0x00] ++ [0x45] ++ [0] ++ beBytes 2 (c.maxPacket + 28) ++ [0, 0]) (y := [0, 0]) (Z := ([0] ++ ([0] ++ ([0, 0] ++ (List.replicate 4 0 ++ (List.replicate 4 0 ++ ([0, 0] ++ ([0, 0] ++ ([0, 0] ++ ([0, 0] ++ (rest))))))))))) (p := (⟨i * c.maxRaw + 14, c.maxRaw - 14⟩ : PBuf)) (o := 6) (k := 2) (v := 0x4000) (by simp [hp, hm, b2, hsr, hea, hml, hoff] <;> omega) rfl
    simpa only [List.append_assoc, be0800, be45, be4000, bettl, be11, be0] using this
  have s6 : setBe? (pre ++ (multicastMac e.addr ++ (c.srcMac ++ ([0x08, 0x00] ++ ([0x45] ++ ([0] ++ (beBytes 2 (c.maxPacket + 28) ++ ([0, 0] ++ ([0x40, 0] ++ ([0] ++ ([0] ++ ([0, 0] ++ (List.replicate 4 0 ++ (List.replicate 4 0 ++ ([0, 0] ++ ([0, 0] ++ ([0, 0] ++ ([0, 0] ++ rest)))))))))))))))))) (⟨i * c.maxRaw + 14, c.maxRaw - 14⟩ : PBuf) 8 1 c.ttl.toNat = some (pre ++ (multicastMac e.addr ++ (c.srcMac ++ ([0x08, 0x00] ++ ([0x45] ++ ([0] ++ (beBytes 2 (c.maxPacket + 28) ++ ([0, 0] ++ ([0x40, 0] ++ ([c.ttl] ++ ([0] ++ ([0, 0] ++ (List.replicate 4 0 ++ (List.replicate 4 0 ++ ([0, 0] ++ ([0, 0] ++ ([0, 0] ++ ([0, 0] ++ rest)))))))))))))))))) := by
    have := setBe_at (A := pre ++ multicastMac e.addr ++ c.srcMac ++ [0x08, 0x00] ++ [0x45] ++ [0] ++ beBytes 2 (c.maxPacket + 28) ++ [0, 0] ++ [0x40, 0]) (y := [0]) (Z := ([0] ++ ([0, 0] ++ (List.replicate 4 0 ++ (List.replicate 4 0 ++ ([0, 0] ++ ([0, 0] ++ ([0, 0] ++ ([0, 0] ++ (rest)))))))))) (p := (⟨i * c.maxRaw + 14, c.maxRaw - 14⟩ : PBuf)) (o := 8) (k := 1) (v := c.ttl.toNat) (by simp [hp, hm, b2, hsr, hea, hml, hoff] <;> omega) rfl
    simpa only [List.append_assoc, be0800, be45, be4000, bettl, be11, be0] using this
  have s7 : setBe? (pre ++ (multicastMac e.addr ++ (c.srcMac ++ ([0x08, 0x00] ++ ([0x45] ++ ([0] ++ (beBytes 2 (c.maxPacket + 28) ++ ([0, 0] ++ ([0x40, 0] ++ ([c.ttl] ++ ([0] ++ ([0, 0] ++ (List.replicate 4 0 ++ (List.replicate 4 0 ++ ([0, 0] ++ ([0, 0] ++ ([0, 0] ++ ([0, 0] ++ rest)))))))))))))))))) (⟨i * c.maxRaw + 14, c.maxRaw - 14⟩ : PBuf) 9 1 0x11 = some (pre ++ (multicastMac e.addr ++ (c.srcMac ++ ([0x08, 0x00] ++ ([0x45] ++ ([0] ++ (beBytes 2 (c.maxPacket + 28) ++ ([0, 0] ++ ([0x40, 0] ++ ([c.ttl] ++ ([0x11] ++ ([0, 0] ++ (List.replicate 4 0 ++ (List.replicate 4 0 ++ ([0, 0] ++ ([0, 0] ++ ([0, 0] ++ ([0, 0] ++ rest)))))))))))))))))) := by
    have := setBe_at (A := pre ++ multicastMac e.addr ++ c.srcMac ++ [0x08, 0x00] ++ [0x45] ++ [0] ++ beBytes 2 (c.maxPacket + 28) ++ [0, 0] ++ [0x40, 0] ++ [c.ttl]) (y := [0]) (Z := ([0, 0] ++ (List.replicate 4 0 ++ (List.replicate 4 0 ++ ([0, 0] ++ ([0, 0] ++ ([0, 0] ++ ([0, 0] ++ (rest))))))))) (p := (⟨i * c.maxRaw + 14, c.maxRaw - 14⟩ : PBuf)) (o := 9) (k := 1) (v := 0x11) (by simp [hp, hm, b2, hsr, hea, hml, hoff] <;> omega) rfl
    simpa only [List.append_assoc, be0800, be45, be4000, bettl, be11, be0] using this
  have s8 : setBytes? (pre ++ (multicastMac e.addr ++ (c.srcMac ++ ([0x08, 0x00] ++ ([0x45] ++ ([0] ++ (beBytes 2 (c.maxPacket + 28) ++ ([0, 0] ++ ([0x40, 0] ++ ([c.ttl] ++ ([0x11] ++ ([0, 0] ++ (List.replicate 4 0 ++ (List.replicate 4 0 ++ ([0, 0] ++ ([0, 0] ++ ([0, 0] ++ ([0, 0] ++ rest)))))))))))))))))) ((⟨i * c.maxRaw + 14, c.maxRaw - 14⟩ : PBuf).off + 12) (c.srcAddr) = some (pre ++ (multicastMac e.addr ++ (c.srcMac ++ ([0x08, 0x00] ++ ([0x45] ++ ([0] ++ (beBytes 2 (c.maxPacket + 28) ++ ([0, 0] ++ ([0x40, 0] ++ ([c.ttl] ++ ([0x11] ++ ([0, 0] ++ (c.srcAddr ++ (List.replicate 4 0 ++ ([0, 0] ++ ([0, 0] ++ ([0, 0] ++ ([0, 0] ++ rest)))))))))))))))))) := by
    have := setBytes_at (A := pre ++ multicastMac e.addr ++ c.srcMac ++ [0x08, 0x00] ++ [0x45] ++ [0] ++ beBytes 2 (c.maxPacket + 28) ++ [0, 0] ++ [0x40, 0] ++ [c.ttl] ++ [0x11] ++ [0, 0]) (y := List.replicate 4 0) (Z := (List.replicate 4 0 ++ ([0, 0] ++ ([0, 0] ++ ([0, 0] ++ ([0, 0] ++ (rest))))))) (o := ((⟨i * c.maxRaw + 14, c.maxRaw - 14⟩ : PBuf).off + 12)) (v := c.srcAddr) (by simp [hp, hm, b2, hsr, hea, hml, hoff] <;> omega) (by simp [hm, hsr, hea, hml])
    simpa only [List.append_assoc] using this
  have s9 : setBytes? (pre ++ (multicastMac e.addr ++ (c.srcMac ++ ([0x08, 0x00] ++ ([0x45] ++ ([0] ++ (beBytes 2 (c.maxPacket + 28) ++ ([0, 0] ++ ([0x40, 0] ++ ([c.ttl] ++ ([0x11] ++ ([0, 0] ++ (c.srcAddr ++ (List.replicate 4 0 ++ ([0, 0] ++ ([0, 0] ++ ([0, 0] ++ ([0, 0] ++ rest)))))))))))))))))) ((⟨i * c.maxRaw + 14, c.maxRaw - 14⟩ : PBuf).off + 16) (e.addr) = some (pre ++ (multicastMac e.addr ++ (c.srcMac ++ ([0x08, 0x00] ++ ([0x45] ++ ([0] ++ (beBytes 2 (c.maxPacket + 28) ++ ([0, 0] ++ ([0x40, 0] ++ ([c.ttl] ++ ([0x11] ++ ([0, 0] ++ (c.srcAddr ++ (e.addr ++ ([0, 0] ++ ([0, 0] ++ ([0, 0] ++ ([0, 0] ++ rest)))))))))))))))))) := by
    have := setBytes_at (A := pre ++ multicastMac e.addr ++ c.srcMac ++ [0x08, 0x00] ++ [0x45] ++ [0] ++ beBytes 2 (c.maxPacket + 28) ++ [0, 0] ++ [0x40, 0] ++ [c.ttl] ++ [0x11] ++ [0, 0] ++ c.srcAddr) (y := List.replicate 4 0) (Z := ([0, 0] ++ ([0, 0] ++ ([0, 0] ++ ([0, 0] ++ (rest)))))) (o := ((⟨i * c.maxRaw + 14, c.maxRaw - 14⟩ : PBuf).off + 16)) (v := e.addr) (by simp [hp, hm, b2, hsr, hea, hml, hoff] <;> omega) (by simp [hm, hsr, hea, hml])
    simpa only [List.append_assoc] using this
  have u : (⟨i * c.maxRaw + 14, c.maxRaw - 14⟩ : PBuf).payloadUdp? (pre ++ (multicastMac e.addr ++ (c.srcMac ++ ([0x08, 0x00] ++ ([0x45] ++ ([0] ++ (beBytes 2 (c.maxPacket + 28) ++ ([0, 0] ++ ([0x40, 0] ++ ([c.ttl] ++ ([0x11] ++ ([0, 0] ++ (c.srcAddr ++ (e.addr ++ ([0, 0] ++ ([0, 0] ++ ([0, 0] ++ ([0, 0] ++ rest)))))))))))))))))) = some (⟨i * c.maxRaw + 34, c.maxPacket + 8⟩ : PBuf) := by
    have := payloadUdp_eq (c := c) (i := i) (size := c.maxPacket) (A := pre ++ multicastMac e.addr ++ c.srcMac ++ [0x08, 0x00]) (len := beBytes 2 (c.maxPacket + 28)) (B := [0, 0])
      (Z := ([0x40, 0] ++ ([c.ttl] ++ ([0x11] ++ ([0, 0] ++ (c.srcAddr ++ (e.addr ++ ([0, 0] ++ ([0, 0] ++ ([0, 0] ++ ([0, 0] ++ (rest)))))))))))) (by simp [hp, hml, hm] <;> omega) (b2 _) (beNat_be2 (by omega)) (Nat.le_refl _)
    simpa only [List.append_assoc] using this
  have s10 : setBe? (pre ++ (multicastMac e.addr ++ (c.srcMac ++ ([0x08, 0x00] ++ ([0x45] ++ ([0] ++ (beBytes 2 (c.maxPacket + 28) ++ ([0, 0] ++ ([0x40, 0] ++ ([c.ttl] ++ ([0x11] ++ ([0, 0] ++ (c.srcAddr ++ (e.addr ++ ([0, 0] ++ ([0, 0] ++ ([0, 0] ++ ([0, 0] ++ rest)))))))))))))))))) (⟨i * c.maxRaw + 34, c.maxPacket + 8⟩ : PBuf) 0 2 c.srcPort = some (pre ++ (multicastMac e.addr ++ (c.srcMac ++ ([0x08, 0x00] ++ ([0x45] ++ ([0] ++ (beBytes 2 (c.maxPacket + 28) ++ ([0, 0] ++ ([0x40, 0] ++ ([c.ttl] ++ ([0x11] ++ ([0, 0] ++ (c.srcAddr ++ (e.addr ++ (beBytes 2 c.srcPort ++ ([0, 0] ++ ([0, 0] ++ ([0, 0] ++ rest)))))))))))))))))) := by
    have := setBe_at (A := pre ++ multicastMac e.addr ++ c.srcMac ++ [0x08, 0x00] ++ [0x45] ++ [0] ++ beBytes 2 (c.maxPacket + 28) ++ [0, 0] ++ [0x40, 0] ++ [c.ttl] ++ [0x11] ++ [0, 0] ++ c.srcAddr ++ e.addr) (y := [0, 0]) (Z := ([0, 0] ++ ([0, 0] ++ ([0, 0] ++ (rest))))) (p := (⟨i * c.maxRaw + 34, c.maxPacket + 8⟩ : PBuf)) (o := 0) (k := 2) (v := c.srcPort) (by simp [hp, hm, b2, hsr, hea, hml, hoff] <;> omega) rfl
    simpa only [List.append_assoc, be0800, be45, be4000, bettl, be11, be0] using this
  have s11 : setBe? (pre ++ (multicastMac e.addr ++ (c.srcMac ++ ([0x08, 0x00] ++ ([0x45] ++ ([0] ++ (beBytes 2 (c.maxPacket + 28) ++ ([0, 0] ++ ([0x40, 0] ++ ([c.ttl] ++ ([0x11] ++ ([0, 0] ++ (c.srcAddr ++ (e.addr ++ (beBytes 2 c.srcPort ++ ([0, 0] ++ ([0, 0] ++ ([0, 0] ++ rest)))))))))))))))))) (⟨i * c.maxRaw + 34, c.maxPacket + 8⟩ : PBuf) 2 2 e.port = some (pre ++ (multicastMac e.addr ++ (c.srcMac ++ ([0x08, 0x00] ++ ([0x45] ++ ([0] ++ (beBytes 2 (c.maxPacket + 28) ++ ([0, 0] ++ ([0x40, 0] ++ ([c.ttl] ++ ([0x11] ++ ([0, 0] ++ (c.srcAddr ++ (e.addr ++ (beBytes 2 c.srcPort ++ (beBytes 2 e.port ++ ([0, 0] ++ ([0, 0] ++ rest)))))))))))))))))) := by
    have := setBe_at (A := pre ++ multicastMac e.addr ++ c.srcMac ++ [0x08, 0x00] ++ [0x45] ++ [0] ++ beBytes 2 (c.maxPacket + 28) ++ [0, 0] ++ [0x40, 0] ++ [c.ttl] ++ [0x11] ++ [0, 0] ++ c.srcAddr ++ e.addr ++ beBytes 2 c.srcPort) (y := [0, 0]) (Z := ([0, 0] ++ ([0, 0] ++ (rest)))) (p := (⟨i * c.maxRaw + 34, c.maxPacket + 8⟩ : PBuf)) (o := 2) (k := 2) (v := e.port) (by simp [hp, hm, b2, hsr, hea, hml, hoff] <;> omega) rfl
    simpa only [List.append_assoc, be0800, be45, be4000, bettl, be11, be0] using this
  have s12 : setBe? (pre ++ (multicastMac e.addr ++ (c.srcMac ++ ([0x08, 0x00] ++ ([0x45] ++ ([0] ++ (beBytes 2 (c.maxPacket + 28) ++ ([0, 0] ++ ([0x40, 0] ++ ([c.ttl] ++ ([0x11] ++ ([0, 0] ++ (c.srcAddr ++ (e.addr ++ (beBytes 2 c.srcPort ++ (beBytes 2 e.port ++ ([0, 0] ++ ([0, 0] ++ rest)))))))))))))))))) (⟨i * c.maxRaw + 34, c.maxPacket + 8⟩ : PBuf) 4 2 (c.maxPacket + 8) = some (pre ++ (multicastMac e.addr ++ (c.srcMac ++ ([0x08, 0x00] ++ ([0x45] ++ ([0] ++ (beBytes 2 (c.maxPacket + 28) ++ ([0, 0] ++ ([0x40, 0] ++ ([c.ttl] ++ ([0x11] ++ ([0, 0] ++ (c.srcAddr ++ (e.addr ++ (beBytes 2 c.srcPort ++ (beBytes 2 e.port ++ (beBytes 2 (c.maxPacket + 8) ++ ([0, 0] ++ rest)))))))))))))))))) := by
    have := setBe_at (A := pre ++ multicastMac e.addr ++ c.srcMac ++ [0x08, 0x00] ++ [0x45] ++ [0] ++ beBytes 2 (c.maxPacket + 28) ++ [0, 0] ++ [0x40, 0] ++ [c.ttl] ++ [0x11] ++ [0, 0] ++ c.srcAddr ++ e.addr ++ beBytes 2 c.srcPort ++ beBytes 2 e.port) (y := [0, 0]) (Z := ([0, 0] ++ (rest))) (p := (⟨i * c.maxRaw + 34, c.maxPacket + 8⟩ : PBuf)) (o := 4) (k := 2) (v := (c.maxPacket + 8)) (by simp [hp, hm, b2, hsr, hea, hml, hoff] <;> omega) rfl
    simpa only [List.append_assoc, be0800, be45, be4000, bettl, be11, be0] using this
  have s13 : setBe? (pre ++ (multicastMac e.addr ++ (c.srcMac ++ ([0x08, 0x00] ++ ([0x45] ++ ([0] ++ (beBytes 2 (c.maxPacket + 28) ++ ([0, 0] ++ ([0x40, 0] ++ ([c.ttl] ++ ([0x11] ++ ([0, 0] ++ (c.srcAddr ++ (e.addr ++ (beBytes 2 c.srcPort ++ (beBytes 2 e.port ++ (beBytes 2 (c.maxPacket + 8) ++ ([0, 0] ++ rest)))))))))))))))))) (⟨i * c.maxRaw + 34, c.maxPacket + 8⟩ : PBuf) 6 2 0 = some (pre ++ (multicastMac e.addr ++ (c.srcMac ++ ([0x08, 0x00] ++ ([0x45] ++ ([0] ++ (beBytes 2 (c.maxPacket + 28) ++ ([0, 0] ++ ([0x40, 0] ++ ([c.ttl] ++ ([0x11] ++ ([0, 0] ++ (c.srcAddr ++ (e.addr ++ (beBytes 2 c.srcPort ++ (beBytes 2 e.port ++ (beBytes 2 (c.maxPacket + 8) ++ ([0, 0] ++ rest)))))))))))))))))) := by
    have := setBe_at (A := pre ++ multicastMac e.addr ++ c.srcMac ++ [0x08, 0x00] ++ [0x45] ++ [0] ++ beBytes 2 (c.maxPacket + 28) ++ [0, 0] ++ [0x40, 0] ++ [c.ttl] ++ [0x11] ++ [0, 0] ++ c.srcAddr ++ e.addr ++ beBytes 2 c.srcPort ++ beBytes 2 e.port ++ beBytes 2 (c.maxPacket + 8)) (y := [0, 0]) (Z := rest) (p := (⟨i * c.maxRaw + 34, c.maxPacket + 8⟩ : PBuf)) (o := 6) (k := 2) (v := 0) (by simp [hp, hm, b2, hsr, hea, hml, hoff] <;> omega) rfl
    simpa only [List.append_assoc, be0800, be45, be4000, bettl, be11, be0] using this
  have g : getBe? (pre ++ (multicastMac e.addr ++ (c.srcMac ++ ([0x08, 0x00] ++ ([0x45] ++ ([0] ++ (beBytes 2 (c.maxPacket + 28) ++ ([0, 0] ++ ([0x40, 0] ++ ([c.ttl] ++ ([0x11] ++ ([0, 0] ++ (c.srcAddr ++ (e.addr ++ (beBytes 2 c.srcPort ++ (beBytes 2 e.port ++ (beBytes 2 (c.maxPacket + 8) ++ ([0, 0] ++ rest)))))))))))))))))) (⟨i * c.maxRaw + 34, c.maxPacket + 8⟩ : PBuf) 4 2 = some (c.maxPacket + 8) := by
    have := getBe_at (A := pre ++ multicastMac e.addr ++ c.srcMac ++ [0x08, 0x00] ++ [0x45] ++ [0] ++ beBytes 2 (c.maxPacket + 28) ++ [0, 0] ++ [0x40, 0] ++ [c.ttl] ++ [0x11] ++ [0, 0] ++ c.srcAddr ++ e.addr ++ beBytes 2 c.srcPort ++ beBytes 2 e.port) (y := beBytes 2 (c.maxPacket + 8)) (Z := [0, 0] ++ rest) (p := (⟨i * c.maxRaw + 34, c.maxPacket + 8⟩ : PBuf)) (o := 4) (k := 2) (by simp [hp, hm, b2, hsr, hea, hml] <;> omega) (b2 _)
    rw [beNat_be2 (by omega)] at this
    simpa only [List.append_assoc] using this
  have w : (⟨i * c.maxRaw + 34, c.maxPacket + 8⟩ : PBuf).udpPayload? (pre ++ (multicastMac e.addr ++ (c.srcMac ++ ([0x08, 0x00] ++ ([0x45] ++ ([0] ++ (beBytes 2 (c.maxPacket + 28) ++ ([0, 0] ++ ([0x40, 0] ++ ([c.ttl] ++ ([0x11] ++ ([0, 0] ++ (c.srcAddr ++ (e.addr ++ (beBytes 2 c.srcPort ++ (beBytes 2 e.port ++ (beBytes 2 (c.maxPacket + 8) ++ ([0, 0] ++ rest)))))))))))))))))) = some ⟨i * c.maxRaw + 42, c.maxPacket⟩ := by
    unfold PBuf.udpPayload? PBuf.udpPayload
    rw [g]
    dsimp only
    rw [if_neg (by simp)]
    simp [Except.toOption]
  unfold IbvCfg.prefill
  rw [he, z]
  simp only [Option.bind_eq_bind, Option.bind_some, payloadIpv4_eq, s0, s1, s2, s3, s4, s5, s6, s7, s8, s9, s10, s11, s12, s13, u, w]
  simp only [ibvHdr, List.append_assoc]


theorem memBytes_length (um : Nat → UInt8) (a n : Nat) : (memBytes um a n).length = n := by simp [memBytes]

theorem memBytes_add (um : Nat → UInt8) (a n m : Nat) : memBytes um a (n + m) = memBytes um a n ++ memBytes um (a + n) m := by
  simp only [memBytes, List.range_add, List.map_append, List.map_map]
  congr 1
  apply List.map_congr_left
  intro x _
  simp [Nat.add_assoc]

theorem slice?_some {d : Bytes} {o n : Nat} {x : Bytes} (h : slice? d o n = some x) : o + n ≤ d.length ∧ (d.drop o).take n = x := by
  unfold slice? at h
  split at h
  · exact ⟨by assumption, Option.some.inj h⟩
  · cases h

theorem slice?_prefix {d : Bytes} {o n : Nat} {x : Bytes} (z : Bytes) (h : slice? d o n = some x) : slice? (d ++ z) o n = some x := by
  obtain ⟨h1, h2⟩ := slice?_some h
  rw [slice?_eq_some (by rw [List.length_append]; omega), List.drop_append_of_le_length (by omega), List.take_append_of_le_length (by rw [List.length_drop]; omega), h2]

theorem slice?_join {d : Bytes} {o n m : Nat} {x y : Bytes} (h1 : slice? d o n = some x) (h2 : slice? d (o + n) m = some y) : slice? d o (n + m) = some (x ++ y) := by
  obtain ⟨a1, a2⟩ := slice?_some h1
  obtain ⟨b1, b2⟩ := slice?_some h2
  rw [slice?_eq_some (by omega), ← a2, ← b2, List.take_add, List.drop_drop]

theorem gatherOne_prefix {c : IbvCfg} {um : Nat → UInt8} {d x : Bytes} (z : Bytes) {s : Sge} (h : c.gatherOne um d s = some x) :
    c.gatherOne um (d ++ z) s = some x := by
  unfold IbvCfg.gatherOne at h ⊢
  split at h
  · split at h
    · rw [if_pos (by assumption)]; exact slice?_prefix z h
    · cases h
  · exact h

theorem gather_cons {c : IbvCfg} {um : Nat → UInt8} {d x : Bytes} {s : Sge} {ss : List Sge} :
    c.gather um d (s :: ss) = some x ↔ ∃ a b, c.gatherOne um d s = some a ∧ c.gather um d ss = some b ∧ x = a ++ b := by
  simp only [IbvCfg.gather, Option.bind_eq_bind, Option.bind_eq_some_iff, Option.some.injEq]
  constructor
  · rintro ⟨a, h1, b, h2, h3⟩; exact ⟨a, b, h1, h2, h3.symm⟩
  · rintro ⟨a, b, h1, h2, h3⟩; exact ⟨a, h1, b, h2, h3.symm⟩

theorem gather_append {c : IbvCfg} {um : Nat → UInt8} {d : Bytes} {t : List Sge} : ∀ {ss : List Sge} {x : Bytes},
    c.gather um d (ss ++ t) = some x ↔ ∃ a b, c.gather um d ss = some a ∧ c.gather um d t = some b ∧ x = a ++ b
  | [], x => by simp [IbvCfg.gather]
  | s :: ss, x => by
    rw [List.cons_append, gather_cons]
    constructor
    · rintro ⟨a, b, h1, h2, rfl⟩
      obtain ⟨a', b', h3, h4, rfl⟩ := gather_append.mp h2
      exact ⟨_, b', gather_cons.mpr ⟨a, a', h1, h3, rfl⟩, h4, by simp⟩
    · rintro ⟨a, b, h1, h2, rfl⟩
      obtain ⟨a', b', h3, h4, rfl⟩ := gather_cons.mp h1
      exact ⟨a', b' ++ b, h3, gather_append.mpr ⟨b', b, h4, h2, rfl⟩, by simp⟩

theorem gather_prefix {c : IbvCfg} {um : Nat → UInt8} {d : Bytes} (z : Bytes) : ∀ {ss : List Sge} {x : Bytes}, c.gather um d ss = some x →
    c.gather um (d ++ z) ss = some x
  | [], _, h => h
  | s :: ss, x, h => by
    obtain ⟨a, b, h1, h2, rfl⟩ := gather_cons.mp h
    exact gather_cons.mpr ⟨a, b, gatherOne_prefix z h1, gather_prefix z h2, rfl⟩

theorem gather_one {c : IbvCfg} {um : Nat → UInt8} {d x : Bytes} {s : Sge} : c.gather um d [s] = some x ↔ c.gatherOne um d s = some x := by
  rw [gather_cons]
  constructor
  · rintro ⟨a, b, h1, h2, rfl⟩; cases h2; simpa using h1
  · intro h; exact ⟨x, [], h, rfl, by simp⟩

theorem gatherOne_join {c : IbvCfg} {um : Nat → UInt8} {d x y : Bytes} {p q : Sge} (hk : p.key = q.key) (ha : p.addr + p.len = q.addr)
    (h1 : c.gatherOne um d p = some x) (h2 : c.gatherOne um d q = some y) : c.gatherOne um d { p with len := p.len + q.len } = some (x ++ y) := by
  unfold IbvCfg.gatherOne at h1 h2 ⊢
  rw [← hk] at h2
  dsimp only
  cases hp : p.key with
  | own =>
    rw [hp] at h1 h2
    dsimp only at h1 h2 ⊢
    split at h1
    · rename_i hb
      rw [if_pos (by omega)] at h2
      rw [if_pos hb]
      refine slice?_join h1 ?_
      rw [← h2]
      congr 1
      omega
    · cases h1
  | user r =>
    rw [hp] at h1 h2
    dsimp only at h1 h2 ⊢
    split at h1
    · split at h2
      · rw [if_pos (by omega), memBytes_add, ← Option.some.inj h1, ← Option.some.inj h2, ha]
      · cases h2
    · cases h1

theorem addSge_gather {c : IbvCfg} {um : Nat → UInt8} {d x y : Bytes} {ss ss' : List Sge} {cur : Sge} (h1 : c.gather um d ss = some x)
    (h2 : c.gatherOne um d cur = some y) (h : addSge ss cur = some ss') : c.gather um d ss' = some (x ++ y) := by
  unfold addSge at h
  cases hl : ss.getLast? with
  | none => rw [hl] at h; cases h
  | some prev =>
    rw [hl] at h
    dsimp only at h
    have e : ss = ss.dropLast ++ [prev] := by
      obtain ⟨ys, hys⟩ := List.getLast?_eq_some_iff.mp hl
      rw [hys]; simp
    split at h
    · rename_i hm
      rw [← Option.some.inj h]
      rw [e] at h1
      obtain ⟨a, b, k1, k2, rfl⟩ := gather_append.mp h1
      exact gather_append.mpr ⟨a, b ++ y, k1, gather_one.mpr (gatherOne_join hm.1 hm.2 (gather_one.mp k2) h2), by simp⟩
    · split at h
      · rw [← Option.some.inj h]
        exact gather_append.mpr ⟨x, y, h1, gather_one.mpr h2, rfl⟩
      · cases h

/-- What `addSge` does to the number and the addresses of entries. -/
theorem addSge_facts {ss : List Sge} {cur : Sge} (hne : ss ≠ []) (hlt : ss.length < maxSge) : ∃ ss', addSge ss cur = some ss' ∧ ss' ≠ [] ∧
    ss'.length ≤ ss.length + 1 ∧ ∀ s ∈ ss', ∃ t ∈ cur :: ss, s.addr = t.addr ∧ s.key = t.key := by
  unfold addSge
  cases hl : ss.getLast? with
  | none => exact absurd (List.getLast?_eq_none_iff.mp hl) hne
  | some prev =>
    dsimp only
    have hp : prev ∈ ss := List.mem_of_getLast? hl
    split
    · refine ⟨_, rfl, by simp, ?_, fun s hs => ?_⟩
      · rw [List.length_append, List.length_dropLast]; simp only [List.length_cons, List.length_nil]; omega
      · rcases List.mem_append.mp hs with hs | hs
        · exact ⟨s, List.mem_cons_of_mem _ (List.dropLast_subset _ hs), rfl, rfl⟩
        · rw [List.mem_singleton.mp hs]
          exact ⟨prev, List.mem_cons_of_mem _ hp, rfl, rfl⟩
    · refine ⟨_, rfl, by simp, by simp, fun s hs => ?_⟩
      rcases List.mem_append.mp hs with hs | hs
      · exact ⟨s, List.mem_cons_of_mem _ hs, rfl, rfl⟩
      · exact ⟨cur, List.mem_cons_self, by rw [List.mem_singleton.mp hs], by rw [List.mem_singleton.mp hs]⟩

theorem addSge_merge {s : Sge} {cur : Sge} (hk : s.key = cur.key) (ha : s.addr + s.len = cur.addr) :
    addSge [s] cur = some [{ s with len := s.len + cur.len }] := by
  unfold addSge
  simp only [List.getLast?_singleton]
  rw [if_pos ⟨hk, ha⟩]
  rfl

theorem findRegion_some {set : List IRegion} {a n : Nat} {r : IRegion} (h : findRegion set a n = some r) : r.ptr ≤ a ∧ a + n ≤ r.ptr + r.size ∧ r ∈ set := by
  unfold findRegion at h
  split at h
  · cases h
  · rename_i r' hf
    split at h
    · rename_i hc
      cases Option.some.inj h
      exact ⟨hc.1, hc.2, List.mem_of_find?_eq_some hf⟩
    · cases h

/-- The loop over the buffers. `A` is the internal buffer up to `copy_target`, `left` is what may still be written. -/
theorem bufLoop_spec {c : IbvCfg} {um : Nat → UInt8} {skip : Bool} {lo : Nat} {post : Bytes} : ∀ (bs : List (Nat × Nat)) {st : SgeSt} {A left x : Bytes},
    st.buf = A ++ (left ++ post) → A.length = st.copy → c.gather um A st.sges = some x → st.sges ≠ [] → (bs.map (·.2)).sum ≤ left.length → lo ≤ A.length →
    (∀ s ∈ st.sges, s.key = .own → c.base + lo ≤ s.addr) →
    (skip = true ∧ st.sges.length + bs.length ≤ maxSge ∨ skip = false ∧ ∃ s, st.sges = [s] ∧ s.key = .own ∧ s.addr + s.len = c.base + st.copy) →
    ∃ st' w left', c.bufLoop um skip st bs = some st' ∧ st'.buf = (A ++ w) ++ (left' ++ post) ∧ w.length + left'.length = left.length ∧
      c.gather um (A ++ w) st'.sges = some (x ++ (bs.map (fun b : Nat × Nat => memBytes um b.1 b.2)).flatten) ∧ st'.sges.length ≤ maxSge ∧
      ∀ s ∈ st'.sges, s.key = .own → c.base + lo ≤ s.addr
  | [], st, A, left, x, hb, hA, hg, hne, hsum, hlo, hst, hm => by
    refine ⟨st, [], left, rfl, by simpa using hb, by simp, by simpa using hg, ?_, hst⟩
    rcases hm with ⟨_, h⟩ | ⟨_, s, h, _⟩
    · simpa using h
    · rw [h]; exact Nat.le_of_ble_eq_true rfl
  | b :: bs, st, A, left, x, hb, hA, hg, hne, hsum, hlo, hst, hm => by
    simp only [List.map_cons, List.sum_cons] at hsum
    cases hf : (if skip then findRegion c.regionSet b.1 b.2 else none) with
    | some r =>
      have hsk : skip = true := by
        cases skip with
        | true => rfl
        | false => cases hf
      rw [hsk, if_pos rfl] at hf
      obtain ⟨r1, r2, _⟩ := findRegion_some hf
      have hm' : st.sges.length + (b :: bs).length ≤ maxSge := by
        rcases hm with ⟨_, h⟩ | ⟨h, _⟩
        · exact h
        · rw [hsk] at h; cases h
      simp only [List.length_cons] at hm'
      obtain ⟨ss', a1, a2, a3, a4⟩ := addSge_facts (cur := ⟨b.1, b.2, .user r⟩) hne (by omega)
      have hstep : c.bufStep um skip st b = some { st with sges := ss' } := by
        unfold IbvCfg.bufStep
        rw [hsk]
        simp only [if_true, hf, a1]
        rfl
      have hg' : c.gather um A ss' = some (x ++ memBytes um b.1 b.2) :=
        addSge_gather hg (by unfold IbvCfg.gatherOne; dsimp only; rw [if_pos ⟨r1, r2⟩]) a1
      have hst' : ∀ s ∈ ss', s.key = .own → c.base + lo ≤ s.addr := by
        intro s hs hk
        obtain ⟨t, ht, e1, e2⟩ := a4 s hs
        rcases List.mem_cons.mp ht with rfl | ht
        · rw [hk] at e2; cases e2
        · rw [e1]; exact hst t ht (e2 ▸ hk)
      obtain ⟨st', w, left', i1, i2, i3, i4, i5, i6⟩ := bufLoop_spec bs (st := { st with sges := ss' }) hb hA hg' a2 (by omega) hlo hst'
        (.inl ⟨hsk, by show ss'.length + _ ≤ _; omega⟩)
      refine ⟨st', w, left', ?_, i2, i3, ?_, i5, i6⟩
      · rw [IbvCfg.bufLoop, hstep]; exact i1
      · rw [i4]; simp
    | none =>
      obtain ⟨y, left2, e, hy⟩ : ∃ y left2, left = y ++ left2 ∧ y.length = b.2 := ⟨left.take b.2, left.drop b.2, (List.take_append_drop _ _).symm, by
        rw [List.length_take]; omega⟩
      subst e
      rw [List.length_append] at hsum
      have hset : setBytes? st.buf st.copy (memBytes um b.1 b.2) = some ((A ++ memBytes um b.1 b.2) ++ (left2 ++ post)) := by
        rw [hb, List.append_assoc y, setBytes_at hA (by rw [memBytes_length, hy]), List.append_assoc]
      have hcur : c.gatherOne um (A ++ memBytes um b.1 b.2) ⟨c.base + st.copy, b.2, .own⟩ = some (memBytes um b.1 b.2) := by
        unfold IbvCfg.gatherOne
        dsimp only
        rw [if_pos (by omega), slice?_eq_some (by rw [List.length_append, memBytes_length]; omega), Nat.add_sub_cancel_left, ← hA, List.drop_left' rfl,
          List.take_of_length_le (by rw [memBytes_length]; omega)]
      have hA' : (A ++ memBytes um b.1 b.2).length = st.copy + b.2 := by rw [List.length_append, memBytes_length, hA]
      have fin : ∀ ss', addSge st.sges ⟨c.base + st.copy, b.2, .own⟩ = some ss' → ss' ≠ [] → (∀ s ∈ ss', s.key = .own → c.base + lo ≤ s.addr) →
          (skip = true ∧ ss'.length + bs.length ≤ maxSge ∨ skip = false ∧ ∃ s, ss' = [s] ∧ s.key = .own ∧ s.addr + s.len = c.base + (st.copy + b.2)) →
          ∃ st' w left', c.bufLoop um skip st (b :: bs) = some st' ∧ st'.buf = (A ++ w) ++ (left' ++ post) ∧ w.length + left'.length = (y ++ left2).length ∧
            c.gather um (A ++ w) st'.sges = some (x ++ ((b :: bs).map (fun b : Nat × Nat => memBytes um b.1 b.2)).flatten) ∧ st'.sges.length ≤ maxSge ∧
            ∀ s ∈ st'.sges, s.key = .own → c.base + lo ≤ s.addr := by
        intro ss' a1 a2 hst' hm'
        have hstep : c.bufStep um skip st b = some ⟨(A ++ memBytes um b.1 b.2) ++ (left2 ++ post), st.copy + b.2, ss'⟩ := by
          unfold IbvCfg.bufStep
          rw [hf]
          simp only [hset, a1, Option.bind_eq_bind, Option.bind_some]
        obtain ⟨st', w, left', i1, i2, i3, i4, i5, i6⟩ := bufLoop_spec bs
          (st := ⟨(A ++ memBytes um b.1 b.2) ++ (left2 ++ post), st.copy + b.2, ss'⟩) rfl hA'
          (addSge_gather (gather_prefix _ hg) hcur a1) a2 (by omega) (by rw [List.length_append]; omega) hst' hm'
        refine ⟨st', memBytes um b.1 b.2 ++ w, left', ?_, by simpa using i2, ?_, ?_, i5, i6⟩
        · rw [IbvCfg.bufLoop, hstep]; exact i1
        · rw [List.length_append, List.length_append, memBytes_length, hy]; omega
        · rw [← List.append_assoc, i4]; simp
      rcases hm with ⟨hsk, hm⟩ | ⟨hsk, s, hs, hk, ha⟩
      · simp only [List.length_cons] at hm
        obtain ⟨ss', a1, a2, a3, a4⟩ := addSge_facts (cur := ⟨c.base + st.copy, b.2, .own⟩) hne (by omega)
        refine fin ss' a1 a2 (fun s hs hk => ?_) (.inl ⟨hsk, by omega⟩)
        obtain ⟨t, ht, e1, e2⟩ := a4 s hs
        rcases List.mem_cons.mp ht with rfl | ht
        · rw [e1]; show c.base + lo ≤ c.base + st.copy; omega
        · rw [e1]; exact hst t ht (e2 ▸ hk)
      · refine fin [{ s with len := s.len + b.2 }] (by rw [hs]; exact addSge_merge hk ha) (by simp) (fun t ht _ => ?_) (.inr ⟨hsk, _, rfl, hk, ?_⟩)
        · rw [List.mem_singleton.mp ht]
          exact hst s (by rw [hs]; simp) hk
        · show s.addr + (s.len + b.2) = _
          omega

theorem groupMac_eq {a : Bytes} (h : a.length = 4) : groupMac a = multicastMac a := by
  match a, h with
  | [a, b, x, y], _ =>
    have hb := b.toNat_lt
    have hx := x.toNat_lt
    have hy := y.toNat_lt
    have hl : (b &&& 0x7f).toNat = b.toNat % 128 := by
      rw [UInt8.toNat_and]
      exact Nat.and_two_pow_sub_one_eq_mod _ 7
    have e : beNat [a, b, x, y] % 2 ^ 23 = beNat [b &&& 0x7f, x, y] := by
      simp only [beNat, List.length_cons, List.length_nil, hl]
      omega
    unfold groupMac multicastMac
    rw [e, beBytes_of_beNat (k := 3) (v := beNat [b &&& 0x7f, x, y]) (l := [b &&& 0x7f, x, y]) rfl rfl]
    rfl

theorem gatherOne_shift {c : IbvCfg} {um : Nat → UInt8} {pre pre' z : Bytes} {s : Sge} (hp : pre.length = pre'.length) (hs : s.key = .own → c.base + pre.length ≤ s.addr) :
    c.gatherOne um (pre ++ z) s = c.gatherOne um (pre' ++ z) s := by
  unfold IbvCfg.gatherOne
  cases hk : s.key with
  | user r => rfl
  | own =>
    have := hs hk
    dsimp only
    rw [if_pos (by omega), if_pos (by omega)]
    unfold slice?
    obtain ⟨k, e⟩ : ∃ k, s.addr - c.base = pre.length + k := ⟨s.addr - c.base - pre.length, by omega⟩
    have e2 : ∀ q : Bytes, q.length = pre.length → (q ++ z).drop (pre.length + k) = z.drop k := by
      intro q hq
      rw [← hq, List.drop_append, List.drop_eq_nil_of_le (by omega), List.nil_append, Nat.add_sub_cancel_left]
    rw [e, List.length_append, List.length_append, hp, ← hp, e2 pre rfl, e2 pre' hp.symm]

theorem gather_shift {c : IbvCfg} {um : Nat → UInt8} {pre pre' z : Bytes} (hp : pre.length = pre'.length) : ∀ {ss : List Sge},
    (∀ s ∈ ss, s.key = .own → c.base + pre.length ≤ s.addr) → c.gather um (pre ++ z) ss = c.gather um (pre' ++ z) ss
  | [], _ => rfl
  | s :: ss, h => by
    rw [IbvCfg.gather, IbvCfg.gather, gatherOne_shift hp (h s (by simp)), gather_shift hp fun t ht => h t (by simp [ht])]

/-- A slot with the fixed fields of its header in place. -/
def SlotHdr (c : IbvCfg) (x : Bytes) : Prop :=
  ∃ m len cs dst dp ul body, m.length = 6 ∧ len.length = 2 ∧ cs.length = 2 ∧ dst.length = 4 ∧ dp.length = 2 ∧ ul.length = 2 ∧
    body.length = c.maxPacket ∧ x = ibvHdr c m len cs dst dp ul ++ body ∧
    (c.endpoints.length = 1 → ∀ e, c.endpoints[0]? = some e → m = multicastMac e.addr ∧ dst = e.addr ∧ dp = beBytes 2 e.port)

theorem ipktBytes_length (um : Nat → UInt8) (p : IPkt) : (ipktBytes um p).length = p.size := by
  simp only [ipktBytes, IPkt.size, List.length_append, List.length_flatten, List.map_map]
  congr 2
  apply List.map_congr_left
  intro b _
  exact memBytes_length um b.1 b.2

theorem fill_spec {c : IbvCfg} (hv : IbvValid c) {um : Nat → UInt8} {i : Nat} {pre x post : Bytes} (hp : pre.length = i * c.maxRaw) (hx : SlotHdr c x)
    {p : IPkt} (hok : IPktOk c p) {e : IEndpoint} (he : c.endpoints[p.sub]? = some e) :
    ∃ x' sges frame, c.fill um (pre ++ (x ++ post)) i (i * c.maxRaw + 42) p = some (pre ++ (x' ++ post), sges) ∧ x'.length = c.maxRaw ∧ SlotHdr c x' ∧
      sges.length ≤ maxSge ∧ IsFrameTo c e (ipktBytes um p) frame ∧
      ∀ pre' post' : Bytes, pre'.length = i * c.maxRaw → c.gather um (pre' ++ (x' ++ post')) sges = some frame := by
  obtain ⟨m, len, cs, dst, dp, ul, body, h1, h2, h3, h4, h5, h6, h7, rfl, h8⟩ := hx
  obtain ⟨hsz, hsub⟩ := hok
  have hea : e.addr.length = 4 := hv.dst e (List.mem_of_getElem? he)
  have b2 : ∀ v, (beBytes 2 v).length = 2 := beBytes_length 2
  have hlen := ibvHdr_length hv h1 h2 h3 h4 h5 h6
  have hszv : p.size = p.hdr.length + (p.bufs.map (·.2)).sum := rfl
  obtain ⟨y, left, rfl, hy⟩ : ∃ y left, body = y ++ left ∧ y.length = p.hdr.length := ⟨body.take p.hdr.length, body.drop p.hdr.length,
    (List.take_append_drop _ _).symm, by rw [List.length_take]; omega⟩
  rw [List.length_append] at h7
  have s1 : setBytes? (pre ++ (ibvHdr c m len cs dst dp ul ++ (y ++ left) ++ post)) (i * c.maxRaw + 42) p.hdr =
      some (pre ++ (ibvHdr c m len cs dst dp ul ++ (p.hdr ++ (left ++ post)))) := by
    have := setBytes_at (A := pre ++ ibvHdr c m len cs dst dp ul) (y := y) (Z := left ++ post) (o := i * c.maxRaw + 42) (v := p.hdr)
      (by rw [List.length_append, hp, hlen]) hy
    simpa only [List.append_assoc] using this
  obtain ⟨cs', c1, c2, c3⟩ := setHeader_eq hv (i := i) (size := p.size) (sub := p.sub) (rest := p.hdr ++ (left ++ post)) hp h1 h2 h3 h4 h5 h6 hsz he (by
    intro hl
    have : p.sub = 0 := by omega
    rw [this] at he
    exact h8 hl e he)
  have hH := ibvHdr_length hv (multicastMac_length e.addr) (b2 (p.size + 28)) c1 hea (b2 e.port) (b2 (p.size + 8))
  generalize hHd : ibvHdr c (multicastMac e.addr) (beBytes 2 (p.size + 28)) cs' e.addr (beBytes 2 e.port) (beBytes 2 (p.size + 8)) = H at c2 hH
  have hA : (pre ++ H ++ p.hdr).length = i * c.maxRaw + 42 + p.hdr.length := by simp only [List.length_append, hp, hH]
  have hg0 : c.gather um (pre ++ H ++ p.hdr) [⟨c.base + i * c.maxRaw, i * c.maxRaw + 42 + p.hdr.length - i * c.maxRaw, .own⟩] = some (H ++ p.hdr) := by
    rw [gather_one]
    unfold IbvCfg.gatherOne
    dsimp only
    rw [if_pos (by omega), slice?_eq_some (by rw [hA]; omega), Nat.add_sub_cancel_left, List.append_assoc, List.drop_left' hp,
      List.take_of_length_le (by rw [List.length_append, hH]; omega)]
  obtain ⟨st', w, left', l1, l2, l3, l4, l5, l6⟩ := bufLoop_spec (c := c) (um := um) (skip := decide (1 + p.bufs.length ≤ maxSge)) (lo := i * c.maxRaw) (post := post) p.bufs
    (st := ⟨pre ++ (H ++ (p.hdr ++ (left ++ post))), i * c.maxRaw + 42 + p.hdr.length,
      [⟨c.base + i * c.maxRaw, i * c.maxRaw + 42 + p.hdr.length - i * c.maxRaw, .own⟩]⟩) (A := pre ++ H ++ p.hdr) (left := left)
    (by simp) hA hg0 (by simp) (by omega) (by rw [hA]; omega) (by
      intro s hs _
      rw [List.mem_singleton.mp hs]
      exact Nat.le_refl _)
    (by
      by_cases hk : 1 + p.bufs.length ≤ maxSge
      · exact .inl ⟨by simp [hk], by simpa using hk⟩
      · refine .inr ⟨by simp [hk], _, rfl, rfl, ?_⟩
        dsimp only
        omega)
  have hxe : st'.buf = pre ++ ((H ++ (p.hdr ++ (w ++ left'))) ++ post) := by rw [l2]; simp
  refine ⟨H ++ (p.hdr ++ (w ++ left')), st'.sges, H ++ (p.hdr ++ (p.bufs.map (fun b : Nat × Nat => memBytes um b.1 b.2)).flatten), ?_, ?_, ?_, l5, ?_, ?_⟩
  · unfold IbvCfg.fill
    have hoff : (c.frame i).off = i * c.maxRaw := rfl
    simp only [s1, Option.bind_eq_bind, Option.bind_some, c2, hoff, l1, hxe]
  · simp only [List.length_append, hH]
    unfold IbvCfg.maxRaw ibvHeader
    omega
  · rw [← hHd]
    refine ⟨_, _, cs', _, _, _, p.hdr ++ (w ++ left'), multicastMac_length _, b2 _, c1, hea, b2 _, b2 _, ?_, rfl, ?_⟩
    · simp only [List.length_append]; omega
    · intro hl e' he'
      have : p.sub = 0 := by omega
      rw [this, he'] at he
      cases Option.some.inj he
      exact ⟨rfl, rfl, rfl⟩
  · refine ⟨cs', c1, ?_, ?_⟩
    · rw [ipktBytes_length, groupMac_eq hea, ← hHd]
      simp only [ibvHdr, ipHeader, udpHeader, ipktBytes, List.append_assoc, List.cons_append, List.nil_append, Nat.add_comm p.size]
    · intro hc
      have := c3 hc
      rw [ipktBytes_length]
      simp only [ipHeader, List.append_assoc, List.cons_append, List.nil_append, Nat.add_comm p.size] at this ⊢
      exact this
  · intro pre' post' hp'
    have h1 : c.gather um (pre ++ (H ++ (p.hdr ++ (w ++ left')) ++ post')) st'.sges =
        some (H ++ (p.hdr ++ (p.bufs.map (fun b : Nat × Nat => memBytes um b.1 b.2)).flatten)) := by
      have := gather_prefix (left' ++ post') l4
      simpa only [List.append_assoc] using this
    rw [← h1]
    exact gather_shift (by rw [hp', hp]) (by rw [hp']; exact l6)

theorem slot_split {c : IbvCfg} {d : Bytes} {i : Nat} (hd : d.length = c.maxRaw * c.nSlots) (hi : i < c.nSlots) :
    d = d.take (i * c.maxRaw) ++ (slotBytes c d i ++ d.drop ((i + 1) * c.maxRaw)) ∧ (d.take (i * c.maxRaw)).length = i * c.maxRaw ∧
      (slotBytes c d i).length = c.maxRaw := by
  have h1 : (i + 1) * c.maxRaw ≤ d.length := by rw [hd, Nat.mul_comm c.maxRaw]; exact Nat.mul_le_mul_right _ hi
  have h2 : (i + 1) * c.maxRaw = i * c.maxRaw + c.maxRaw := Nat.succ_mul _ _
  refine ⟨?_, ?_, ?_⟩
  · unfold slotBytes
    rw [h2, ← List.drop_drop, List.take_append_drop, List.take_append_drop]
  · rw [List.length_take]; omega
  · unfold slotBytes
    rw [List.length_take, List.length_drop]; omega

theorem slot_set {c : IbvCfg} {pre x x' post : Bytes} {i : Nat} (hp : pre.length = i * c.maxRaw) (hx : x.length = c.maxRaw) (hx' : x'.length = c.maxRaw) (j : Nat) :
    slotBytes c (pre ++ (x' ++ post)) j = if j = i then x' else slotBytes c (pre ++ (x ++ post)) j := by
  unfold slotBytes
  split
  · rename_i e
    rw [e, List.drop_left' hp, List.take_left' hx']
  · rename_i e
    rcases Nat.lt_or_gt_of_ne e with h | h
    · have : (j + 1) * c.maxRaw ≤ i * c.maxRaw := Nat.mul_le_mul_right _ h
      rw [Nat.succ_mul] at this
      rw [List.drop_append_of_le_length (by omega), List.drop_append_of_le_length (by omega), List.take_append_of_le_length (by rw [List.length_drop]; omega),
        List.take_append_of_le_length (by rw [List.length_drop]; omega)]
    · have : (i + 1) * c.maxRaw ≤ j * c.maxRaw := Nat.mul_le_mul_right _ h
      rw [Nat.succ_mul] at this
      obtain ⟨k, hk⟩ : ∃ k, j * c.maxRaw = i * c.maxRaw + c.maxRaw + k := ⟨_, (Nat.add_sub_cancel' this).symm⟩
      have e : ∀ y : Bytes, y.length = c.maxRaw → (pre ++ (y ++ post)).drop (j * c.maxRaw) = post.drop k := by
        intro y hy
        rw [hk, ← List.append_assoc, ← List.drop_drop, List.drop_left' (by rw [List.length_append, hp, hy])]
      rw [e x' hx', e x hx]

/-- The slots `i`, `i + 1`, … after the constructor. -/
theorem prefillAll_eq {c : IbvCfg} (hv : IbvValid c) : ∀ (n i : Nat) {pre : Bytes}, pre.length = i * c.maxRaw →
    ∃ y, c.prefillAll n i (pre ++ List.replicate (c.maxRaw * n) 0) = some (pre ++ y, (List.range n).map (fun k => (i + k) * c.maxRaw + 42)) ∧
      y.length = c.maxRaw * n ∧ ∀ k, k < n → SlotHdr c ((y.drop (k * c.maxRaw)).take c.maxRaw)
  | 0, i, pre, _ => ⟨[], by simp [IbvCfg.prefillAll], by simp, by simp⟩
  | n + 1, i, pre, hp => by
    obtain ⟨e, he⟩ : ∃ e, c.endpoints[0]? = some e := by
      have := hv.accepted
      cases hl : c.endpoints with
      | nil => simp [IbvCfg.accepted, hl] at this
      | cons e _ => exact ⟨e, rfl⟩
    have hea : e.addr.length = 4 := hv.dst e (List.mem_of_getElem? he)
    have hr : List.replicate (c.maxRaw * (n + 1)) (0 : UInt8) = List.replicate 42 0 ++ (List.replicate c.maxPacket 0 ++ List.replicate (c.maxRaw * n) 0) := by
      rw [List.replicate_append_replicate, List.replicate_append_replicate]
      congr 1
      rw [Nat.mul_succ]
      unfold IbvCfg.maxRaw ibvHeader
      omega
    have h1 := prefill_eq hv (i := i) (rest := List.replicate c.maxPacket 0 ++ List.replicate (c.maxRaw * n) 0) hp he
    have hH := ibvHdr_length hv (multicastMac_length e.addr) (beBytes_length 2 (c.maxPacket + 28)) (cs := [0, 0]) rfl hea (beBytes_length 2 e.port) (beBytes_length 2 (c.maxPacket + 8))
    generalize hHd : ibvHdr c (multicastMac e.addr) (beBytes 2 (c.maxPacket + 28)) [0, 0] e.addr (beBytes 2 e.port) (beBytes 2 (c.maxPacket + 8)) = H at h1 hH
    have hHl : (H ++ List.replicate c.maxPacket 0).length = c.maxRaw := by
      rw [List.length_append, hH, List.length_replicate]
      unfold IbvCfg.maxRaw ibvHeader
      omega
    obtain ⟨y, i1, i2, i3⟩ := prefillAll_eq hv n (i + 1) (pre := pre ++ (H ++ List.replicate c.maxPacket 0))
      (by rw [List.length_append, hHl, hp, Nat.succ_mul])
    refine ⟨(H ++ List.replicate c.maxPacket 0) ++ y, ?_, by rw [List.length_append, hHl, i2, Nat.mul_succ, Nat.add_comm], ?_⟩
    · rw [hr, IbvCfg.prefillAll, h1]
      have e2 : pre ++ (H ++ (List.replicate c.maxPacket 0 ++ List.replicate (c.maxRaw * n) 0)) =
          pre ++ (H ++ List.replicate c.maxPacket 0) ++ List.replicate (c.maxRaw * n) 0 := by simp
      simp only [Option.bind_eq_bind, Option.bind_some]
      rw [e2, i1]
      simp only [Option.bind_some, List.range_succ_eq_map, List.map_cons, List.map_map, List.append_assoc]
      congr 3
      apply List.map_congr_left
      intro k _
      simp only [Function.comp]
      congr 2
      omega
    · intro k hk
      cases k with
      | zero =>
        rw [Nat.zero_mul, List.drop_zero, List.take_left' hHl]
        refine ⟨_, _, [0, 0], _, _, _, List.replicate c.maxPacket 0, multicastMac_length e.addr, beBytes_length 2 _, rfl, hea, beBytes_length 2 _, beBytes_length 2 _,
          by simp, by rw [hHd], ?_⟩
        intro _ e' he'
        rw [he] at he'
        cases Option.some.inj he'
        exact ⟨rfl, rfl, rfl⟩
      | succ k =>
        rw [show (k + 1) * c.maxRaw = c.maxRaw + k * c.maxRaw by rw [Nat.succ_mul, Nat.add_comm], ← List.drop_drop, List.drop_left' hHl]
        exact i3 k (by omega)

/-- What is true of the internal buffer at all times. -/
structure BufInv (c : IbvCfg) (d : Bytes) : Prop where
  len : d.length = c.maxRaw * c.nSlots
  hdr : ∀ i, i < c.nSlots → SlotHdr c (slotBytes c d i)

theorem BufInv.init {c : IbvCfg} (hv : IbvValid c) : ∃ d, c.prefillAll c.nSlots 0 (List.replicate (c.maxRaw * c.nSlots) 0) =
    some (d, (List.range c.nSlots).map (fun k => k * c.maxRaw + 42)) ∧ BufInv c d := by
  obtain ⟨y, h1, h2, h3⟩ := prefillAll_eq hv c.nSlots 0 (pre := []) (by simp)
  refine ⟨y, ?_, h2, h3⟩
  simpa using h1

/-- A packet is put in a slot: the frame, and what has changed. -/
theorem BufInv.fill {c : IbvCfg} (hv : IbvValid c) {um : Nat → UInt8} {d : Bytes} (h : BufInv c d) {i : Nat} (hi : i < c.nSlots) {p : IPkt} (hok : IPktOk c p)
    {e : IEndpoint} (he : c.endpoints[p.sub]? = some e) :
    ∃ d' sges frame, c.fill um d i (i * c.maxRaw + 42) p = some (d', sges) ∧ BufInv c d' ∧ sges.length ≤ maxSge ∧ IsFrameTo c e (ipktBytes um p) frame ∧
      (∀ j, j ≠ i → slotBytes c d' j = slotBytes c d j) ∧
      ∀ d'' : Bytes, d''.length = d.length → slotBytes c d'' i = slotBytes c d' i → c.gather um d'' sges = some frame := by
  obtain ⟨s1, s2, s3⟩ := slot_split h.len hi
  obtain ⟨x', sges, frame, f1, f2, f3, f4, f5, f6⟩ := fill_spec hv (um := um) (post := d.drop ((i + 1) * c.maxRaw)) s2 (h.hdr i hi) hok he
  rw [← s1] at f1
  have hset := fun j => slot_set s2 s3 f2 (post := d.drop ((i + 1) * c.maxRaw)) j
  rw [← s1] at hset
  have hl : (d.take (i * c.maxRaw) ++ (x' ++ d.drop ((i + 1) * c.maxRaw))).length = d.length := by
    conv => rhs; rw [s1]
    simp only [List.length_append, f2, s3]
  refine ⟨_, sges, frame, f1, ⟨by rw [hl, h.len], fun j hj => ?_⟩, f4, f5, fun j hj => by rw [hset, if_neg hj], fun d'' hd'' hs => ?_⟩
  · rw [hset]
    split
    · exact f3
    · exact h.hdr j hj
  · rw [hset, if_pos rfl] at hs
    obtain ⟨t1, t2, t3⟩ := slot_split (hd''.trans h.len) hi
    rw [t1, hs]
    exact f6 _ _ t2

theorem ibvBuf_inv {c : IbvCfg} (hv : IbvValid c) {um : Nat → UInt8} {d : Bytes} (h : IbvBuf c um d) : BufInv c d := by
  induction h with
  | init hi =>
    obtain ⟨d, h1, h2⟩ := BufInv.init hv
    rw [h1] at hi
    cases Option.some.inj hi
    exact h2
  | fill i p _ hi hok hf ih =>
    obtain ⟨e, he⟩ : ∃ e, c.endpoints[p.sub]? = some e := ⟨_, List.getElem?_eq_getElem hok.2⟩
    obtain ⟨d', sges, frame, f1, f2, _⟩ := ih.fill hv (um := um) hi hok he
    rw [hf] at f1
    cases Option.some.inj f1
    exact f2

end Spead2
