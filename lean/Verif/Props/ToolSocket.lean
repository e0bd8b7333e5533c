import Verif.Spec.ToolSocket
import Verif.Props.Socket

/-!
# C107: the sockets of the tools
-/

namespace Spead2.ToolSocket

open Socket

/-- Senders agree if both constructors need the same, and what they make has the same effect. -/
theorem agree_of (h : Host) (e : Endpoint) (eps : List Endpoint) (c d : SendCtor)
    (hc : (GoodEndpoints c (e :: eps) ∧ GoodTtl c ∧ GoodInterface h (e :: eps) c) ↔ (GoodEndpoints d (e :: eps) ∧ GoodTtl d ∧ GoodInterface h (e :: eps) d))
    (he : GoodInterface h (e :: eps) c → ∀ x ∈ e :: eps, effect h (wanted c e.addr.isV4) x.addr = effect h (wanted d e.addr.isV4) x.addr) :
    Agree h (e :: eps) (makeStream h (e :: eps) c) (makeStream h (e :: eps) d) := by
  have hx := C105_send h e eps c
  have hy := C105_send h e eps d
  refine ⟨⟨?_, ?_⟩, ?_⟩
  · rintro ⟨s, hs⟩
    obtain ⟨a, b, g, _⟩ := (hx s).mp hs
    obtain ⟨a', b', g'⟩ := hc.mp ⟨a, b, g⟩
    exact ⟨_, (hy _).mpr ⟨a', b', g', rfl⟩⟩
  · rintro ⟨s, hs⟩
    obtain ⟨a, b, g, _⟩ := (hy s).mp hs
    obtain ⟨a', b', g'⟩ := hc.mpr ⟨a, b, g⟩
    exact ⟨_, (hx _).mpr ⟨a', b', g', rfl⟩⟩
  · intro s t hs ht x hxm
    obtain ⟨_, _, g, rfl⟩ := (hx s).mp hs
    obtain ⟨_, _, _, rfl⟩ := (hy t).mp ht
    exact he g x hxm

theorem agree_refl (h : Host) (eps : List Endpoint) (x : Except Err OutSock) : Agree h eps x x := by
  refine ⟨Iff.rfl, ?_⟩
  intro s t hs ht e _
  rw [hs] at ht
  rw [Except.ok.inj ht]

/-- **C107.** For groups of IPv4, both senders do the same with every TTL and interface. -/
theorem C107_partial (h : Host) (o : SOpts) (e : Endpoint) (eps : List Endpoint) (hg : AllGroups4 (e :: eps)) :
    Agree h (e :: eps) (cppStream h o e eps) (pyStream h o e eps) := by
  obtain ⟨h4, hm⟩ := hg e List.mem_cons_self
  have hcpp : cppSend o e = .multicastV4 (o.ttl.getD 1) (o.bind.getD (.v4 0)) := by
    unfold cppSend; rw [if_pos hm, if_pos h4]
  unfold cppStream pyStream
  rw [hcpp]
  have h4f : ∃ f, ∀ x ∈ e :: eps, x.addr.isV4 = f := ⟨true, fun x hx => (hg x hx).1⟩
  have h4m : ∃ f, ∀ x ∈ e :: eps, x.addr.isV4 = f ∧ x.addr.multicast = true := ⟨true, hg⟩
  have hu0 : (Addr.v4 0).unspec = true := rfl
  apply agree_of
  · unfold pySend
    cases ht : o.ttl with
    | none =>
      cases hb : o.bind with
      | none =>
        simp only [GoodEndpoints, GoodTtl, GoodInterface, Option.getD_none]
        exact ⟨fun _ => ⟨h4f, trivial, Or.inl hu0⟩, fun _ => ⟨hg, by decide, Or.inl hu0⟩⟩
      | some a =>
        simp only [GoodEndpoints, GoodTtl, GoodInterface, Option.getD_none, Option.getD_some]
        constructor
        · rintro ⟨_, _, g | ⟨g, i⟩⟩
          · exact ⟨h4f, trivial, Or.inl g⟩
          · exact ⟨h4f, trivial, Or.inr ⟨i, fun x hx => (hg x hx).1.trans g.symm⟩⟩
        · rintro ⟨_, _, g | ⟨i, g⟩⟩
          · exact ⟨hg, by decide, Or.inl g⟩
          · exact ⟨hg, by decide, Or.inr ⟨(g e List.mem_cons_self).symm.trans h4, i⟩⟩
    | some t =>
      cases hb : o.bind with
      | none =>
        simp only [GoodEndpoints, GoodTtl, GoodInterface, Option.getD_none, Option.getD_some]
        exact ⟨fun g => ⟨h4m, g.2.1, trivial⟩, fun g => ⟨hg, g.2.1, Or.inl hu0⟩⟩
      | some a => exact Iff.rfl
  · intro _ x hx
    obtain ⟨_, hxm⟩ := hg x hx
    unfold pySend
    cases ht : o.ttl with
    | none =>
      cases hb : o.bind with
      | none => simp [effect, hxm, wanted, hu0]
      | some a =>
        rcases Bool.eq_false_or_eq_true a.unspec with hu | hu
        · simp [effect, hxm, wanted, hu]
        · simp [effect, hxm, wanted, hu]
    | some t =>
      cases hb : o.bind with
      | none => simp [effect, hxm, wanted, hu0]
      | some a => rfl

/-- **C107.** For addresses that are not groups, both do the same if no TTL is given. -/
theorem C107_unicast (h : Host) (o : SOpts) (ht : o.ttl = none) (e : Endpoint) (eps : List Endpoint) (hg : NoGroups (e :: eps)) :
    Agree h (e :: eps) (cppStream h o e eps) (pyStream h o e eps) := by
  have hm := hg e List.mem_cons_self
  have e1 : cppSend o e = pySend o := by
    unfold cppSend pySend
    rw [hm, ht]
    cases o.bind <;> rfl
  unfold cppStream pyStream
  rw [e1]
  exact agree_refl _ _ _

/-- **C107.** For groups of IPv6, both do the same if no interface is given. -/
theorem C107_groups6 (h : Host) (o : SOpts) (hb : o.bind = none) (e : Endpoint) (eps : List Endpoint) (hg : AllGroups6 (e :: eps)) :
    Agree h (e :: eps) (cppStream h o e eps) (pyStream h o e eps) := by
  obtain ⟨h4, hm⟩ := hg e List.mem_cons_self
  have hcpp : cppSend o e = .multicast (o.ttl.getD 1) := by
    unfold cppSend; rw [if_pos hm, if_neg (by rw [h4]; decide)]
  unfold cppStream pyStream
  rw [hcpp]
  have hf : ∃ f, ∀ x ∈ e :: eps, x.addr.isV4 = f := ⟨false, fun x hx => (hg x hx).1⟩
  have hfm : ∃ f, ∀ x ∈ e :: eps, x.addr.isV4 = f ∧ x.addr.multicast = true := ⟨false, hg⟩
  have hu0 : (Addr.v4 0).unspec = true := rfl
  unfold pySend
  rw [hb]
  cases ht : o.ttl with
  | some t => exact agree_refl _ _ _
  | none =>
    apply agree_of
    · simp only [GoodEndpoints, GoodTtl, GoodInterface, Option.getD_none]
      exact ⟨fun _ => ⟨hf, trivial, Or.inl hu0⟩, fun _ => ⟨hfm, by decide, trivial⟩⟩
    · intro _ x hx
      obtain ⟨_, hxm⟩ := hg x hx
      simp [effect, hxm, wanted, hu0]

/-- The full property: the tools agree for all options and endpoints. -/
def C107_statement : Prop := ∀ (h : Host) (o : SOpts) (e : Endpoint) (eps : List Endpoint), Agree h (e :: eps) (cppStream h o e eps) (pyStream h o e eps)

/-- **C107.** A TTL for an address that is not a group is ignored by spead2_send and refused by send_asyncio.py. -/
theorem C107_ttl (h : Host) (t : Int) (b : Option Addr) (e : Endpoint) (eps : List Endpoint) (hg : NoGroups (e :: eps)) :
    cppStream h { ttl := some t, bind := b } e eps = cppStream h { bind := b } e eps ∧ ∀ s, pyStream h { ttl := some t, bind := b } e eps ≠ .ok s := by
  have hm := hg e List.mem_cons_self
  constructor
  · unfold cppStream cppSend; rw [hm]; rfl
  · intro s hs
    unfold pyStream pySend at hs
    cases b with
    | none =>
      obtain ⟨⟨f, g⟩, _⟩ := (C105_send h e eps _ s).mp hs
      have := (g e List.mem_cons_self).2
      rw [hm] at this; cases this
    | some a =>
      obtain ⟨g, _⟩ := (C105_send h e eps _ s).mp hs
      have := (g e List.mem_cons_self).2
      rw [hm] at this; cases this

theorem C107_violated : ¬ C107_statement := by
  intro hst
  have h1 := (hst twoIf { ttl := some 4 } ⟨.v4 0x0C000001, 7⟩ []).1
  obtain ⟨s, hs⟩ := h1.mp ⟨{ v4 := true }, rfl⟩
  have hg : NoGroups [(⟨.v4 0x0C000001, 7⟩ : Endpoint)] := by
    intro e he
    rw [List.mem_singleton.mp he]; decide
  exact (C107_ttl twoIf 4 none _ [] hg).2 s hs

/-- **C107.** An interface for groups of IPv6 is ignored by spead2_send; send_asyncio.py refuses it with a TTL, and without one takes it if it is an address of the host of that family. -/
theorem C107_bind6 (h : Host) (a : Addr) (ha : a.unspec = false) (e : Endpoint) (eps : List Endpoint) (hg : AllGroups6 (e :: eps)) :
    (∀ t, cppStream h { ttl := t, bind := some a } e eps = cppStream h { ttl := t } e eps) ∧
    (∀ t s, pyStream h { ttl := some t, bind := some a } e eps ≠ .ok s) ∧
    ((∃ s, pyStream h { bind := some a } e eps = .ok s) ↔ a.isV4 = false ∧ ∃ i, (i, a) ∈ h.addrs) := by
  obtain ⟨h4, hm⟩ := hg e List.mem_cons_self
  refine ⟨?_, ?_, ?_⟩
  · intro t
    unfold cppStream cppSend
    rw [hm, h4]; rfl
  · intro t s hs
    obtain ⟨g, _⟩ := (C105_send h e eps _ s).mp hs
    have := (g e List.mem_cons_self).1
    rw [h4] at this; cases this
  · constructor
    · rintro ⟨s, hs⟩
      obtain ⟨_, _, g, _⟩ := (C105_send h e eps _ s).mp hs
      rcases g with g | ⟨i, g⟩
      · rw [ha] at g; cases g
      · exact ⟨(g e List.mem_cons_self).symm.trans h4, i⟩
    · rintro ⟨h1, h2⟩
      exact ⟨_, (C105_send h e eps (.plain a) _).mpr ⟨⟨false, fun x hx => (hg x hx).1⟩, trivial, Or.inr ⟨h2, fun x hx => (hg x hx).1.trans h1.symm⟩, rfl⟩⟩

/-- **C107.** With groups among other addresses, spead2_send depends on the order: it refuses if the first is a group, and otherwise sends to all; send_asyncio.py without TTL sends to all in either order. -/
theorem C107_order (h : Host) (g e : Endpoint) (hg : g.addr.isV4 = true ∧ g.addr.multicast = true) (he : e.addr.isV4 = true ∧ e.addr.multicast = false) :
    (∀ s, cppStream h {} g [e] ≠ .ok s) ∧ (∃ s, cppStream h {} e [g] = .ok s) ∧ (∃ s, pyStream h {} g [e] = .ok s) ∧ ∃ s, pyStream h {} e [g] = .ok s := by
  have two : ∀ (x y : Endpoint), x.addr.isV4 = true → y.addr.isV4 = true → ∃ s, makeStream h [x, y] (.plain (.v4 0)) = .ok s := by
    intro x y hx hy
    refine ⟨_, (C105_send h x [y] (.plain (.v4 0)) _).mpr ⟨⟨true, ?_⟩, trivial, Or.inl rfl, rfl⟩⟩
    intro z hz
    simp only [List.mem_cons, List.not_mem_nil, or_false] at hz
    rcases hz with rfl | rfl
    · exact hx
    · exact hy
  refine ⟨?_, ?_, two g e hg.1 he.1, two e g he.1 hg.1⟩
  · intro s hs
    unfold cppStream cppSend at hs
    rw [if_pos hg.2, if_pos hg.1] at hs
    obtain ⟨gg, _⟩ := (C105_send h g [e] _ s).mp hs
    have := (gg e (by simp)).2
    rw [he.2] at this; cases this
  · unfold cppStream cppSend
    rw [he.2]
    exact two e g he.1 hg.1

/-- **C107.** Readers: for IPv4 (and interfaces of IPv4) both tools make the same, and both refuse other interfaces; for IPv6 with an interface spead2_recv ignores it and recv_asyncio.py is refused, unless the address is `::`, when it listens on the interface instead of everywhere. -/
theorem C107_readers (b : Option Addr) (ep : Endpoint) :
    (ep.addr.isV4 = true → (∀ a, b = some a → a.isV4 = true) → cppReader b ep = some (pyReader b ep)) ∧
    (b = none → cppReader b ep = some (pyReader b ep)) ∧
    (ep.addr.isV4 = true → ∀ a, b = some a → a.isV4 = false → cppReader b ep = none ∧ BadArguments (pyReader b ep)) ∧
    (ep.addr.isV4 = false → ∀ a, b = some a → cppReader b ep = some (.plain ep) ∧
      (ep.addr.unspec = false → BadArguments (pyReader b ep)) ∧ (ep.addr.unspec = true → Listens (pyReader b ep) a ep.port)) := by
  refine ⟨?_, ?_, ?_, ?_⟩
  · intro h4 ha
    cases b with
    | none => rfl
    | some a => simp only [cppReader, pyReader]; rw [if_pos h4, if_pos (ha a rfl)]
  · rintro rfl; rfl
  · rintro h4 a rfl ha
    exact ⟨by simp only [cppReader]; rw [if_pos h4, if_neg (by rw [ha]; decide)], Or.inl ha⟩
  · rintro h4 a rfl
    refine ⟨by simp only [cppReader]; rw [if_neg (by rw [h4]; decide)], ?_, ?_⟩
    · intro hu
      simp only [pyReader, BadArguments]
      cases ha : a.isV4 with
      | false => exact Or.inl rfl
      | true =>
        refine Or.inr ⟨hu, ?_, ?_⟩
        · rintro ⟨g, _⟩; rw [h4] at g; cases g
        · intro e; rw [e, ha] at h4; cases h4
    · intro hu
      exact ⟨rfl, Or.inl ⟨hu, rfl⟩⟩

/-- **C107.** End to end: a tool that was started with `--bind a` for a group of IPv4, and whose reader is running, gets every datagram for the group that arrives on the interface with address `a`, whatever other programs do. -/
theorem C107_hears (h : Host) (hu : h.Unique) (es : List Ev) (ep : Endpoint) (a : Addr) (h4 : ep.addr.isV4 = true) (hm : ep.addr.multicast = true)
    (ha : a.isV4 = true) (hau : a.unspec = false) (s : Sock) (hs : s ∈ run h [] es) (hc : s.owner = cppReader (some a) ep ∨ s.owner = some (pyReader (some a) ep))
    (i : Nat) (hi : (i, a) ∈ h.addrs) : s ∈ deliver h (run h [] es) ⟨ep.addr, ep.port, i⟩ := by
  have hown : s.owner = some (.iface ep a) := by
    rcases hc with hc | hc
    · rw [hc]; simp only [cppReader]; rw [if_pos h4, if_pos ha]
    · exact hc
  have hne : ep.addr.unspec = false := by
    cases hx : ep.addr.unspec with
    | false => rfl
    | true => rw [unspec_not_multicast _ hx] at hm; cases hm
  exact (C105_gets h hu es s hs (.iface ep a) hown ep.addr ep.port ⟨rfl, Or.inr ⟨hne, rfl⟩⟩ ⟨ep.addr, ep.port, i⟩ rfl).2 hm rfl (Or.inr ⟨hau, hi⟩)

/-! ## Concrete cases -/

/-- A group through the second interface: the sockets differ, and what they do is the same. -/
example : cppStream twoIf { bind := some (.v4 0x0B000001) } group [] = .ok { v4 := true, hops := some 1, out := some (.byAddr (.v4 0x0B000001)) } ∧
    pyStream twoIf { bind := some (.v4 0x0B000001) } group [] = .ok { v4 := true, «local» := some (.v4 0x0B000001) } ∧
    effect twoIf { v4 := true, hops := some 1, out := some (.byAddr (.v4 0x0B000001)) } group.addr = ⟨some 1, some 2, some (.v4 0x0B000001)⟩ ∧
    effect twoIf { v4 := true, «local» := some (.v4 0x0B000001) } group.addr = ⟨some 1, some 2, some (.v4 0x0B000001)⟩ := ⟨rfl, rfl, rfl, rfl⟩

example : AllGroups4 [group] := by
  intro e he; rw [List.mem_singleton.mp he]; decide

example : AllGroups6 [⟨.v6 (0xFF * 2 ^ 120 + 1), 5⟩] ∧ NoGroups [⟨.v4 0x0C000001, 7⟩] := by
  constructor <;> (intro e he; rw [List.mem_singleton.mp he]; decide)

end Spead2.ToolSocket
