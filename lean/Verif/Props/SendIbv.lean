import Verif.Lemmas.SendIbvRegions

/-! # C60: frames of the ibverbs sender -/

namespace Spead2

open Spec

/-- **C60, start.** The constructor prefills the headers of all slots without failing and without an access outside the buffer. -/
theorem C60_start {c : IbvCfg} (hv : IbvValid c) (um : Nat → UInt8) :
    ∃ d, c.prefillAll c.nSlots 0 (List.replicate (c.maxRaw * c.nSlots) 0) = some (d, (List.range c.nSlots).map (fun k => k * c.maxRaw + 42)) ∧ IbvBuf c um d := by
  obtain ⟨d, h, _⟩ := BufInv.init hv
  exact ⟨d, h, .init h⟩

/-- **C60, frames.** Whatever has been sent before, and wherever in memory the buffers of a packet are: putting the packet in a slot does not
fail, touches no other slot and uses at most four entries. As long as the slot is left alone, the frame that the card gathers from these entries, without
leaving the regions they name, is the frame with this packet for the endpoint of its substream. -/
theorem C60_frame {c : IbvCfg} (hv : IbvValid c) {um : Nat → UInt8} {d : Bytes} (h : IbvBuf c um d) {i : Nat} (hi : i < c.nSlots) {p : IPkt} (hp : IPktOk c p)
    {e : IEndpoint} (he : c.endpoints[p.sub]? = some e) :
    ∃ d' sges frame, c.fill um d i (i * c.maxRaw + 42) p = some (d', sges) ∧ IbvBuf c um d' ∧ sges.length ≤ 4 ∧ IsFrameTo c e (ipktBytes um p) frame ∧
      d'.length = d.length ∧ (∀ j, j ≠ i → slotBytes c d' j = slotBytes c d j) ∧
      ∀ d'' : Bytes, d''.length = d.length → slotBytes c d'' i = slotBytes c d' i → c.gather um d'' sges = some frame := by
  have inv := ibvBuf_inv hv h
  obtain ⟨d', sges, frame, f1, f2, f3, f4, f5, f6⟩ := inv.fill hv (um := um) hi hp he
  exact ⟨d', sges, frame, f1, .fill i p h hi hp f1, f3, f4, by rw [f2.len, inv.len], f5, f6⟩

/-- **C60, received.** Such a frame is accepted by the receiver of C43, which finds exactly the packet. -/
theorem C60_accepted {c : IbvCfg} (hv : IbvValid c) {e : IEndpoint} (he : e ∈ c.endpoints) {payload frame : Bytes} (h : IsFrameTo c e payload frame)
    (hl : payload.length ≤ c.maxPacket) : IsUdpFrame 14 frame payload := by
  obtain ⟨sum, h1, h2, _⟩ := h
  have hm := hv.mac
  have hs := hv.src
  have hf := hv.fits
  have ha := hv.dst e he
  have hu : (udpHeader payload.length c.srcPort e.port).length = 8 := by simp [udpHeader]
  have hi : (ipHeader payload.length c.ttl sum c.srcAddr e.addr).length = 20 := by simp [ipHeader, h1, hs, ha]
  have b1 : beNat (beBytes 2 (8 + payload.length)) = 8 + payload.length := beNat_be2 (by omega)
  have b2 : beNat (beBytes 2 (20 + 8 + payload.length)) = 20 + 8 + payload.length := beNat_be2 (by omega)
  refine ⟨groupMac e.addr ++ c.srcMac ++ [0x08, 0x00], ipHeader payload.length c.ttl sum c.srcAddr e.addr, udpHeader payload.length c.srcPort e.port, [], 0x45, 0,
    beBytes 2 (20 + 8 + payload.length), [0, 0], [0x40, 0], c.ttl, sum ++ c.srcAddr ++ e.addr, beBytes 2 c.srcPort ++ beBytes 2 e.port,
    beBytes 2 (8 + payload.length), [0, 0], ?_, ?_, ?_, ?_, by simp, rfl, rfl, by decide, ?_, by rw [hi]; decide, by decide, ?_, by simp, by simp, rfl, ?_, ?_, ?_⟩
  · rw [h2]; simp
  · simp [groupMac, hm]
  · exact List.drop_left' (by simp [groupMac, hm])
  · simp [ipHeader]
  · rw [hi]; decide
  · simp [udpHeader]
  · rw [b1, hu]
  · rw [b2, hi, hu]; exact Nat.le_refl _
  · rw [b2, hi, hu]; exact Nat.le_add_right _ _

/-- **C60, zero copy.** A packet of at most four buffers (its own headers being one) has copied only the buffers that are not inside a registered region. -/
theorem C60_zero_copy {c : IbvCfg} (hv : IbvValid c) {um : Nat → UInt8} {d d' : Bytes} {i : Nat} {p : IPkt} {sges : List Sge}
    (hf : c.fill um d i (i * c.maxRaw + 42) p = some (d', sges)) (hb : 1 + p.bufs.length ≤ 4) (outside : Nat × Nat → Bool)
    (ho : ∀ b, outside b = true ↔ ¬ inRegion c b) :
    ((sges.filter (fun s => s.key = .own)).map (·.len)).sum = 42 + p.hdr.length + ((p.bufs.filter outside).map (·.2)).sum := by
  have hoff : (c.frame i).off = i * c.maxRaw := rfl
  unfold IbvCfg.fill at hf
  simp only [Option.bind_eq_bind, Option.bind_eq_some_iff] at hf
  obtain ⟨d1, _, d2, _, st, h3, h4⟩ := hf
  cases Option.some.inj h4
  have hdec : decide (1 + p.bufs.length ≤ maxSge) = true := decide_eq_true hb
  rw [hdec, hoff] at h3
  have := bufLoop_ownLen h3
  rw [ownLen_one] at this
  dsimp only at this
  rw [if_pos rfl] at this
  show ownLen st.sges = _
  rw [this]
  congr 1
  · omega
  · congr 2
    apply List.filter_congr
    intro b _
    simp only [if_true]
    cases hfr : findRegion c.regionSet b.1 b.2 with
    | none =>
      have : ¬ inRegion c b := fun hi => by
        obtain ⟨r, hr⟩ := (findRegion_iff hv.accepted b).mpr hi
        rw [hfr] at hr
        cases hr
      rw [(ho b).mpr this]; rfl
    | some r =>
      have : inRegion c b := (findRegion_iff hv.accepted b).mp ⟨r, hfr⟩
      cases hb : outside b with
      | false => rfl
      | true => exact absurd this ((ho b).mp hb)

/-- Non-vacuity: two substreams, two slots, two registered regions; the second packet in slot 1 has three buffers, of which one is in a region, one across
the border of two regions and one elsewhere. -/
def ibvDemo : IbvCfg :=
  { maxPacket := 40, bufferSize := 164, endpoints := [⟨[239, 129, 2, 3], 7148⟩, ⟨[239, 1, 2, 4], 7149⟩], regions := [⟨2000, 10⟩, ⟨1000, 100⟩, ⟨1100, 50⟩],
    srcMac := [2, 0, 0, 0, 0, 9], srcAddr := [10, 0, 0, 1], srcPort := 5000, base := 50000 }

theorem ibvDemo_valid : IbvValid ibvDemo := ⟨by decide, by decide, by decide, by decide, by decide⟩

/-- The memory of the user. -/
def ibvDemoMem (a : Nat) : UInt8 := UInt8.ofNat a

def ibvDemoPkt : IPkt := { hdr := [0x53, 4, 2, 6], bufs := [(1010, 3), (1098, 4), (3000, 2)], sub := 1 }

example : ibvDemo.nSlots = 2 ∧ IPktOk ibvDemo ibvDemoPkt := ⟨by decide, by unfold IPktOk; decide⟩

/-- After the constructor, the packet is put in slot 1: the entries, and the payload of the frame that is gathered. -/
def ibvDemoRun : Option (List Sge × Bytes) := do
  let (d, _) ← ibvDemo.prefillAll ibvDemo.nSlots 0 (List.replicate (ibvDemo.maxRaw * ibvDemo.nSlots) 0)
  let (d, sges) ← ibvDemo.fill ibvDemoMem d 1 (1 * ibvDemo.maxRaw + 42) ibvDemoPkt
  let f ← ibvDemo.gather ibvDemoMem d sges
  some (sges, f)

example : ibvDemoRun = some ([⟨50082, 46, .own⟩, ⟨1010, 3, .user ⟨1000, 100⟩⟩, ⟨50128, 6, .own⟩],
    [0x01, 0x00, 0x5e, 1, 2, 4, 2, 0, 0, 0, 0, 9, 0x08, 0x00] ++
    [0x45, 0, 0, 41, 0, 0, 0x40, 0, 1, 17, 0x7e, 0xbe, 10, 0, 0, 1, 239, 1, 2, 4] ++ [0x13, 0x88, 0x1b, 0xed, 0, 21, 0, 0] ++
    [0x53, 4, 2, 6, 242, 243, 244, 74, 75, 76, 77, 184, 185]) := by decide +kernel

end Spead2
