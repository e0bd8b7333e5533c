import Verif.Lemmas.Socket

/-!
# C105: sockets of UDP readers and senders
-/

namespace Spead2.Socket

/-- **C105.** A reader is refused for its arguments exactly when the documentation says so, whatever else is going on. -/
theorem C105_refused (h : Host) (k : Kernel) (c : Ctor) : addReader h k c = .error .invalid ↔ BadArguments c := by
  rw [← bad_iff]
  unfold addReader
  rw [make_eq]
  cases hb : c.bad with
  | true => simp
  | false =>
    simp only [Bool.false_eq_true, if_false, iff_false]
    have key : ∀ js, bind h k { c.sock js with owner := some c } c.endpoint ≠ .error .invalid := by
      intro js hx
      rcases bind_error _ _ _ _ _ hx with ⟨e, _⟩ | e | e <;> cases e
    by_cases hm : c.endpoint.addr.multicast = true
    · rw [if_pos hm]
      cases hp : h.pick c.endpoint.addr c.sel with
      | none => intro hx; cases hx
      | some i => exact key _
    · rw [if_neg hm]; exact key _

/-- **C105.** A reader starts exactly if its arguments are good, the interface for a group exists, an address that is not a group is one of the host, and every socket in the way is willing to share a group. -/
theorem C105_starts (h : Host) (k : Kernel) (c : Ctor) (a : Addr) (p : Nat) (hl : Listens c a p) :
    (∃ k', addReader h k c = .ok k') ↔
      (¬ BadArguments c ∧ (a.multicast = true → ∃ i, Chosen h c a i) ∧ (a.multicast = false → a.unspec = true ∨ ∃ i, (i, a) ∈ h.addrs) ∧
        ∀ o ∈ k, ∀ b, o.bound = some b → Clash b.addr b.port a p → o.reuse = true ∧ a.multicast = true) := by
  obtain ⟨rfl, rfl⟩ := listens_eq c a p hl
  constructor
  · rintro ⟨k', ha⟩
    obtain ⟨js, _, hb, h1, _, h3, h4⟩ := addReader_ok h k k' c ha
    refine ⟨(by rw [← bad_iff, hb]; decide), ?_, ?_, h4⟩
    · intro hm; obtain ⟨i, hi, _⟩ := h1 hm; exact ⟨i, hi⟩
    · intro hm
      rcases h3 with h3 | h3 | h3
      · exact Or.inl h3
      · rw [hm] at h3; cases h3
      · exact Or.inr h3
  · rintro ⟨hb, h1, h2, h3⟩
    have hb : c.bad = false := by
      cases hx : c.bad with
      | false => rfl
      | true => exact absurd ((bad_iff c).mp hx) hb
    unfold addReader
    rw [make_eq, hb]
    simp only [Bool.false_eq_true, if_false]
    by_cases hm : c.endpoint.addr.multicast = true
    · obtain ⟨i, hi⟩ := h1 hm
      obtain ⟨j, hj⟩ := chosen_pick h c _ i hi
      rw [if_pos hm, hj]
      exact ⟨_, bind_eq_ok h k _ _ rfl (Or.inr (Or.inl hm)) h3⟩
    · rw [if_neg hm]
      have hm' : c.endpoint.addr.multicast = false := Bool.eq_false_iff.mpr hm
      refine ⟨_, bind_eq_ok h k _ _ rfl ?_ h3⟩
      rcases h2 hm' with h2 | h2
      · exact Or.inl h2
      · exact Or.inr (Or.inr h2)

/-- **C105.** A reader that starts leaves the other sockets alone; one that does not leaves no socket behind. -/
theorem C105_added (h : Host) (k : Kernel) (c : Ctor) :
    (∃ s, s.owner = some c ∧ step h k (.reader c) = k ++ [s]) ∨ (step h k (.reader c) = k ∧ ∃ e, addReader h k c = .error e) := by
  simp only [step]
  cases ha : addReader h k c with
  | error e => exact Or.inr ⟨rfl, e, rfl⟩
  | ok k' =>
    obtain ⟨js, rfl, _⟩ := addReader_ok h k k' c ha
    exact Or.inl ⟨_, rfl, rfl⟩

/-- **C105.** Whatever happens on the host, a running reader gets every datagram for one of the addresses it was asked to listen on, and every datagram for its group that arrives on the interface it was asked to use. -/
theorem C105_gets (h : Host) (hu : h.Unique) (es : List Ev) (s : Sock) (hs : s ∈ run h [] es) (c : Ctor) (hc : s.owner = some c)
    (a : Addr) (p : Nat) (hl : Listens c a p) (d : Dgram) (hp : d.port = p) :
    (d.dst.multicast = false → MeantFor a d.dst → (∃ i, (i, d.dst) ∈ h.addrs) → s ∈ deliver h (run h [] es) d) ∧
    (d.dst.multicast = true → d.dst = a → Chosen h c a d.iface → s ∈ deliver h (run h [] es) d) := by
  obtain ⟨rfl, rfl⟩ := listens_eq c a p hl
  obtain ⟨h1, _, _, h3, _⟩ := run_sockOk h es [] (by simp) s hs c hc
  constructor
  · intro hm hd hi
    rw [mem_deliver]
    exact ⟨(accepts_unicast h _ d hm).mpr hi, hs, (matches_iff s d).mpr ⟨_, h1, hp.symm, hd⟩⟩
  · intro hm hd hi
    rw [mem_deliver]
    rw [hd] at hm
    obtain ⟨i, hci, hj⟩ := h3 hm
    have := chosen_unique h hu c _ _ _ hi hci
    refine ⟨(accepts_multicast h _ d (hd ▸ hm)).mpr ⟨s, hs, ?_⟩, hs, (matches_iff s d).mpr ⟨_, h1, hp.symm, Or.inl hd.symm⟩⟩
    rw [hj, hd, this]
    exact List.mem_singleton.mpr rfl

/-- **C105.** It gets no datagram for another address or port. -/
theorem C105_only (h : Host) (es : List Ev) (d : Dgram) (s : Sock) (hs : s ∈ deliver h (run h [] es) d) (c : Ctor) (hc : s.owner = some c)
    (a : Addr) (p : Nat) (hl : Listens c a p) : d.port = p ∧ MeantFor a d.dst := by
  obtain ⟨rfl, rfl⟩ := listens_eq c a p hl
  obtain ⟨_, hk, hm⟩ := (mem_deliver _ _ _ _).mp hs
  obtain ⟨h1, _⟩ := run_sockOk h es [] (by simp) s hk c hc
  obtain ⟨b, hb, h2, h3⟩ := (matches_iff s d).mp hm
  have : c.endpoint = b := Option.some.inj (h1.symm.trans hb)
  subst this
  exact ⟨h2.symm, h3⟩

/-- **C105.** A datagram that is for one machine, and that a reader gets, goes to that reader and to no other socket. -/
theorem C105_one (h : Host) (es : List Ev) (d : Dgram) (hd : d.dst.multicast = false) (s : Sock) (hs : s ∈ deliver h (run h [] es) d)
    (hc : s.owner.isSome = true) : deliver h (run h [] es) d = [s] := by
  obtain ⟨c, hc⟩ := Option.isSome_iff_exists.mp hc
  obtain ⟨ha, hk, hm⟩ := (mem_deliver _ _ _ _).mp hs
  obtain ⟨h1, h2, _⟩ := run_sockOk h es [] (by simp) s hk c hc
  have hap := run_apart h es [] List.Pairwise.nil
  obtain ⟨b, hb, hbp, hbm⟩ := (matches_iff s d).mp hm
  have hr : s.reuse = false := by
    rw [h2]
    have : c.endpoint = b := Option.some.inj (h1.symm.trans hb)
    rw [this]
    exact meant_unicast _ _ hbm hd
  have pair : ∀ x y : Sock, x.matches d = true → y.matches d = true → Apart x y → x.reuse = true ∧ y.reuse = true := by
    intro x y hx hy hxy
    obtain ⟨bx, e1, e2, e3⟩ := (matches_iff x d).mp hx
    obtain ⟨by', f1, f2, f3⟩ := (matches_iff y d).mp hy
    refine hxy bx by' e1 f1 ?_
    rw [e2, f2]
    exact meant_clash _ _ _ _ e3 f3
  unfold deliver
  rw [if_pos ha]
  have split := List.append_of_mem hk
  obtain ⟨l, r, e⟩ := split
  rw [e] at hap ⊢
  rw [List.pairwise_append, List.pairwise_cons] at hap
  obtain ⟨_, ⟨hsr, _⟩, hlr⟩ := hap
  have hl : l.filter (fun s => s.matches d) = [] := by
    rw [List.filter_eq_nil_iff]
    intro x hx hxm
    have := (pair x s hxm hm (hlr x hx s List.mem_cons_self)).2
    rw [hr] at this; cases this
  have hr' : r.filter (fun s => s.matches d) = [] := by
    rw [List.filter_eq_nil_iff]
    intro x hx hxm
    have := (pair s x hm hxm (hsr x hx)).1
    rw [hr] at this; cases this
  rw [List.filter_append, hl, List.filter_cons, if_pos hm, hr']
  rfl

/-- **C105.** Any number of readers can listen to groups on the same port: a reader of a group is never refused because of other readers of groups. -/
theorem C105_share (h : Host) (es : List Ev) (c : Ctor) (a : Addr) (p : Nat) (hl : Listens c a p) (hm : a.multicast = true) (hb : ¬ BadArguments c)
    (hi : ∃ i, Chosen h c a i)
    (ho : ∀ s ∈ run h [] es, ∀ b, s.bound = some b → b.port = p → ∃ c', s.owner = some c' ∧ ∃ g, Listens c' g p ∧ g.multicast = true) :
    ∃ k', addReader h (run h [] es) c = .ok k' := by
  rw [C105_starts h _ c a p hl]
  refine ⟨hb, fun _ => hi, (by intro x; rw [hm] at x; cases x), ?_⟩
  intro o hk b hob hcl
  obtain ⟨c', hc', g, hg, hgm⟩ := ho o hk b hob hcl.1
  obtain ⟨_, h2, _⟩ := run_sockOk h es [] (by simp) o hk c' hc'
  obtain ⟨e1, _⟩ := listens_eq c' g p hg
  exact ⟨by rw [h2, e1]; exact hgm, hm⟩

/-- **C105.** While a reader listens on an address that is not a group, no other reader, and no other program, can listen where it would take its datagrams. -/
theorem C105_busy (h : Host) (es : List Ev) (s : Sock) (hs : s ∈ run h [] es) (c : Ctor) (hc : s.owner = some c) (a : Addr) (p : Nat) (hl : Listens c a p)
    (hm : a.multicast = false) :
    (∀ c' b q, Listens c' b q → Clash a p b q → ∃ e, addReader h (run h [] es) c' = .error e) ∧
    (∀ o ep, Clash a p ep.addr ep.port → step h (run h [] es) (.other o ep) = run h [] es) := by
  obtain ⟨rfl, rfl⟩ := listens_eq c a p hl
  obtain ⟨h1, h2, _⟩ := run_sockOk h es [] (by simp) s hs c hc
  rw [hm] at h2
  constructor
  · intro c' b q hl' hcl
    cases ha : addReader h (run h [] es) c' with
    | error e => exact ⟨e, rfl⟩
    | ok k' =>
      have := ((C105_starts h _ c' b q hl').mp ⟨k', ha⟩).2.2.2 s hs _ h1 hcl
      rw [h2] at this; cases this.1
  · intro o ep hcl
    simp only [step]
    split
    · rename_i k' hb
      have := (bind_ok _ _ _ _ _ hb).2.2.2 s hs _ h1 hcl
      rw [h2] at this; cases this.1
    · rfl

/-- **C105.** The addresses that are groups: those of IPv4 whose first four bits are 1110, and those of IPv6 whose first byte is ff. -/
theorem C105_groups :
    (∀ a b c d : Nat, a < 256 → b < 256 → c < 256 → d < 256 → ((Addr.v4 (((a * 256 + b) * 256 + c) * 256 + d)).multicast = true ↔ 224 ≤ a ∧ a ≤ 239)) ∧
    (∀ n : Nat, n < 2 ^ 128 → ((Addr.v6 n).multicast = true ↔ n / 2 ^ 120 = 0xFF)) := by
  constructor
  · intro a b c d ha hb hc hd
    simp only [Addr.multicast, decide_eq_true_eq]
    omega
  · intro n hn
    simp only [Addr.multicast, decide_eq_true_eq]
    omega

/-! ## Groups on one interface -/

/-- A reader of a group gets what arrives on its interface, and nothing else. -/
def C105_statement : Prop :=
  ∀ (h : Host), h.Unique → ∀ (es : List Ev) (d : Dgram) (s : Sock) (c : Ctor) (p : Nat), s.owner = some c → Listens c d.dst p → d.dst.multicast = true →
    s ∈ run h [] es → d.port = p → (s ∈ deliver h (run h [] es) d ↔ Chosen h c d.dst d.iface)

/-- A host with two interfaces. -/
def twoIf : Host := { addrs := [(1, .v4 0x0A000001), (2, .v4 0x0B000001)], route := fun _ => some 1 }

def group : Endpoint := ⟨.v4 0xEF000001, 8888⟩

theorem twoIf_unique : twoIf.Unique := by
  intro i j a hi hj
  simp only [twoIf, List.mem_cons, Prod.mk.injEq, List.not_mem_nil, or_false] at hi hj
  rcases hi with ⟨rfl, rfl⟩ | ⟨rfl, rfl⟩ <;> rcases hj with ⟨rfl, hh⟩ | ⟨rfl, hh⟩
  · rfl
  · cases hh
  · cases hh
  · rfl

/-- Two readers of one group, each on its own interface (two networks with the same group, say). -/
def twoReaders : List Ev := [.reader (.iface group (.v4 0x0A000001)), .reader (.iface group (.v4 0x0B000001))]

/-- Each gets the datagrams of both networks. -/
theorem C105_both : (deliver twoIf (run twoIf [] twoReaders) ⟨group.addr, 8888, 1⟩).length = 2 ∧ (deliver twoIf (run twoIf [] twoReaders) ⟨group.addr, 8888, 2⟩).length = 2 := by
  decide

theorem C105_violated : ¬ C105_statement := by
  intro hst
  let s : Sock := { v4 := true, reuse := true, joined := [(group.addr, 1)], bound := some group, owner := some (.iface group (.v4 0x0A000001)) }
  have h1 := (hst twoIf twoIf_unique twoReaders ⟨group.addr, 8888, 2⟩ s (.iface group (.v4 0x0A000001)) 8888 rfl
    ⟨rfl, Or.inr ⟨by decide, rfl⟩⟩ (by decide) (by decide) rfl).mp (by decide)
  rcases h1 with ⟨u, _⟩ | ⟨_, u⟩
  · exact absurd u (by decide)
  · exact absurd u (by decide)

/-- **C105.** It holds while no other socket of the host, of this or another program, has joined the group on another interface. -/
theorem C105_partial (h : Host) (hu : h.Unique) (es : List Ev) (d : Dgram) (s : Sock) (c : Ctor) (p : Nat) (hc : s.owner = some c)
    (hl : Listens c d.dst p) (hm : d.dst.multicast = true) (hs : s ∈ run h [] es) (hp : d.port = p)
    (ho : ∀ o ∈ run h [] es, ∀ i, (d.dst, i) ∈ o.joined → o.owner ≠ some c → Chosen h c d.dst i) :
    s ∈ deliver h (run h [] es) d ↔ Chosen h c d.dst d.iface := by
  constructor
  · intro hd
    obtain ⟨ha, _, _⟩ := (mem_deliver _ _ _ _).mp hd
    obtain ⟨o, hok, hj⟩ := (accepts_multicast h _ d hm).mp ha
    by_cases hoc : o.owner = some c
    · obtain ⟨e1, _⟩ := listens_eq c d.dst p hl
      obtain ⟨_, _, _, h3, _⟩ := run_sockOk h es [] (by simp) o hok c hoc
      obtain ⟨i, hi, hjj⟩ := h3 (by rw [e1]; exact hm)
      rw [hjj, e1] at hj
      simp only [List.mem_singleton, Prod.mk.injEq, true_and] at hj
      rw [hj, ← e1]; exact hi
    · exact ho o hok _ hj hoc
  · intro hi
    exact (C105_gets h hu es s hs c hc d.dst p hl d hp).2 hm rfl hi

/-! ## Senders -/

theorem any_false {α : Type} (l : List α) (p : α → Bool) : l.any p = false ↔ ∀ x ∈ l, p x = false := by
  induction l with
  | nil => simp
  | cons x l ih => simp

theorem hops_iff (s s' : OutSock) (t : Int) : setHops s t = .ok s' ↔ (0 ≤ t ∧ t ≤ 255) ∧ s' = { s with hops := some t.toNat } := by
  unfold setHops
  by_cases h : 0 ≤ t ∧ t ≤ 255
  · rw [if_pos h]; exact ⟨fun e => ⟨h, (Except.ok.inj e).symm⟩, fun e => by rw [e.2]⟩
  · rw [if_neg h]; exact ⟨fun e => (by cases e), fun e => absurd e.1 h⟩

theorem mem_addr (h : Host) (a : Addr) : (h.addrs.any fun x => x.2 == a) = true ↔ ∃ i, (i, a) ∈ h.addrs := by
  rw [List.any_eq_true]
  constructor
  · rintro ⟨⟨i, b⟩, hm, hb⟩; simp only [beq_iff_eq] at hb; subst hb; exact ⟨i, hm⟩
  · rintro ⟨i, hm⟩; exact ⟨(i, a), hm, beq_self_eq_true a⟩

theorem mem_index (h : Host) (k : Nat) : (h.addrs.any fun x => x.1 == k) = true ↔ ∃ a, (k, a) ∈ h.addrs := by
  rw [List.any_eq_true]
  constructor
  · rintro ⟨⟨i, b⟩, hm, hb⟩; simp only [beq_iff_eq] at hb; subst hb; exact ⟨b, hm⟩
  · rintro ⟨a, hm⟩; exact ⟨(k, a), hm, beq_self_eq_true k⟩

/-- **C105.** With at least one endpoint, a sender is made exactly if endpoints, time to live and interface are good, and it then has the family of its endpoints and sends with that time to live from that interface. -/
theorem C105_send (h : Host) (e : Endpoint) (eps : List Endpoint) (c : SendCtor) (s : OutSock) :
    makeStream h (e :: eps) c = .ok s ↔ GoodEndpoints c (e :: eps) ∧ GoodTtl c ∧ GoodInterface h (e :: eps) c ∧ s = wanted c e.addr.isV4 := by
  have fam : ∀ f : Bool, ((e :: eps).any fun x => x.addr.isV4 != f) = false ↔ ∀ x ∈ e :: eps, x.addr.isV4 = f := by
    intro f
    rw [any_false]
    exact ⟨fun hx x hm => (by simpa using hx x hm), fun hx x hm => (by simpa using hx x hm)⟩
  have fin : ∀ (f : Bool) (r : OutSock), (if ((e :: eps).any fun x => x.addr.isV4 != f) then (.error .invalid : Except Err OutSock) else .ok r) = .ok s ↔
      (∀ x ∈ e :: eps, x.addr.isV4 = f) ∧ s = r := by
    intro f r
    rw [← fam]
    cases hx : ((e :: eps).any fun x => x.addr.isV4 != f) with
    | true => simp
    | false => simp [eq_comm]
  cases c with
  | plain a =>
    simp only [makeStream, sendPlain, getProtocol, GoodEndpoints, GoodTtl, GoodInterface, wanted]
    by_cases hu : a.unspec = true
    · rw [if_pos hu, if_pos hu]
      simp only
      rw [fin]
      constructor
      · rintro ⟨h1, rfl⟩; exact ⟨⟨_, h1⟩, trivial, Or.inl hu, rfl⟩
      · rintro ⟨⟨f, h1⟩, _, _, rfl⟩
        exact ⟨fun x hx => (h1 x hx).trans (h1 e List.mem_cons_self).symm, rfl⟩
    · rw [if_neg hu, if_neg hu]
      by_cases h4 : a.isV4 = e.addr.isV4
      · rw [if_neg (by simpa using h4)]
        cases hi : (h.addrs.any fun x => x.2 == a) with
        | true =>
          simp only [if_true]
          rw [fin]
          constructor
          · rintro ⟨h1, rfl⟩
            exact ⟨⟨_, h1⟩, trivial, Or.inr ⟨(mem_addr h a).mp hi, fun x hx => (h1 x hx).trans h4.symm⟩, rfl⟩
          · rintro ⟨⟨f, h1⟩, _, _, rfl⟩
            exact ⟨fun x hx => (h1 x hx).trans (h1 e List.mem_cons_self).symm, rfl⟩
        | false =>
          simp only [Bool.false_eq_true, if_false]
          constructor
          · intro hx; cases hx
          · rintro ⟨_, _, g | ⟨g, _⟩, _⟩
            · exact absurd g hu
            · rw [(mem_addr h a).mpr g] at hi; cases hi
      · rw [if_pos (by simpa using h4)]
        constructor
        · intro hx; cases hx
        · rintro ⟨_, _, g | ⟨_, g⟩, _⟩
          · exact absurd g hu
          · exact absurd (g e List.mem_cons_self).symm h4
  | multicast t =>
    simp only [makeStream, sendMulticast, getProtocol, GoodEndpoints, GoodTtl, GoodInterface, wanted]
    cases hm : ((e :: eps).any fun x => !x.addr.multicast) with
    | true =>
      simp only [if_true]
      constructor
      · intro hx; cases hx
      · rintro ⟨⟨f, g⟩, _⟩
        rw [List.any_eq_true] at hm
        obtain ⟨x, hx, hxm⟩ := hm
        rw [(g x hx).2] at hxm; cases hxm
    | false =>
      have hm' := (any_false _ _).mp hm
      simp only [Bool.false_eq_true, if_false]
      by_cases ht : 0 ≤ t ∧ t ≤ 255
      · rw [(hops_iff _ _ t).mpr ⟨ht, rfl⟩]
        simp only
        rw [fin]
        constructor
        · rintro ⟨h1, rfl⟩
          exact ⟨⟨_, fun x hx => ⟨h1 x hx, by simpa using hm' x hx⟩⟩, ht, trivial, rfl⟩
        · rintro ⟨⟨f, h1⟩, _, _, rfl⟩
          exact ⟨fun x hx => (h1 x hx).1.trans (h1 e List.mem_cons_self).1.symm, rfl⟩
      · have : setHops { v4 := e.addr.isV4 } t = .error .range := by unfold setHops; rw [if_neg ht]
        rw [this]
        constructor
        · intro hx; cases hx
        · rintro ⟨_, g, _⟩; exact absurd g ht
  | multicastV4 t a =>
    simp only [makeStream, sendMulticastV4, GoodEndpoints, GoodTtl, GoodInterface, wanted]
    cases hm : ((e :: eps).any fun x => !x.addr.isV4 || !x.addr.multicast) with
    | true =>
      simp only [if_true]
      constructor
      · intro hx; cases hx
      · rintro ⟨g, _⟩
        rw [List.any_eq_true] at hm
        obtain ⟨x, hx, hxm⟩ := hm
        rw [(g x hx).1, (g x hx).2] at hxm; cases hxm
    | false =>
      have hm' : ∀ x ∈ e :: eps, x.addr.isV4 = true ∧ x.addr.multicast = true := by
        intro x hx
        simpa using (any_false _ _).mp hm x hx
      have h4 := (hm' e List.mem_cons_self).1
      simp only [Bool.false_eq_true, if_false]
      by_cases ht : 0 ≤ t ∧ t ≤ 255
      · rw [(hops_iff _ _ t).mpr ⟨ht, rfl⟩]
        simp only
        by_cases hu : a.unspec = true
        · rw [if_neg (by simp [hu]), if_pos hu, if_pos hu]
          simp only
          rw [fin, h4]
          exact ⟨fun g => ⟨hm', ht, Or.inl hu, g.2⟩, fun g => ⟨fun x hx => (hm' x hx).1, g.2.2.2⟩⟩
        · rw [if_neg hu, if_neg hu]
          by_cases ha : a.isV4 = true
          · rw [if_neg (by simp [ha])]
            cases hi : (h.addrs.any fun x => x.2 == a) with
            | true =>
              simp only [if_true]
              rw [fin, h4]
              exact ⟨fun g => ⟨hm', ht, Or.inr ⟨ha, (mem_addr h a).mp hi⟩, g.2⟩, fun g => ⟨fun x hx => (hm' x hx).1, g.2.2.2⟩⟩
            | false =>
              simp only [Bool.false_eq_true, if_false]
              constructor
              · intro hx; cases hx
              · rintro ⟨_, _, g | ⟨_, g⟩, _⟩
                · exact absurd g hu
                · rw [(mem_addr h a).mpr g] at hi; cases hi
          · rw [if_pos (by simp [hu, ha])]
            constructor
            · intro hx; cases hx
            · rintro ⟨_, _, g | ⟨g, _⟩, _⟩
              · exact absurd g hu
              · exact absurd g ha
      · have : setHops { v4 := true } t = .error .range := by unfold setHops; rw [if_neg ht]
        rw [this]
        constructor
        · intro hx
          split at hx
          · cases hx
          · rename_i hh
            split at hh <;> cases hh
        · rintro ⟨_, g, _⟩; exact absurd g ht
  | multicastV6 t k =>
    simp only [makeStream, sendMulticastV6, GoodEndpoints, GoodTtl, GoodInterface, wanted]
    cases hm : ((e :: eps).any fun x => x.addr.isV4 || !x.addr.multicast) with
    | true =>
      simp only [if_true]
      constructor
      · intro hx; cases hx
      · rintro ⟨g, _⟩
        rw [List.any_eq_true] at hm
        obtain ⟨x, hx, hxm⟩ := hm
        rw [(g x hx).1, (g x hx).2] at hxm; cases hxm
    | false =>
      have hm' : ∀ x ∈ e :: eps, x.addr.isV4 = false ∧ x.addr.multicast = true := by
        intro x hx
        simpa using (any_false _ _).mp hm x hx
      have h4 := (hm' e List.mem_cons_self).1
      simp only [Bool.false_eq_true, if_false]
      by_cases ht : 0 ≤ t ∧ t ≤ 255
      · rw [(hops_iff _ _ t).mpr ⟨ht, rfl⟩]
        simp only
        have hmi := mem_index h k
        by_cases hi : k = 0 ∨ ∃ a, (k, a) ∈ h.addrs
        · rw [if_pos (hi.imp id hmi.mpr)]
          simp only
          rw [fin, h4]
          exact ⟨fun g => ⟨hm', ht, hi, g.2⟩, fun g => ⟨fun x hx => (hm' x hx).1, g.2.2.2⟩⟩
        · rw [if_neg (fun g => hi (g.imp id hmi.mp))]
          constructor
          · intro hx; cases hx
          · rintro ⟨_, _, g, _⟩; exact absurd g hi
      · have : setHops { v4 := false } t = .error .range := by unfold setHops; rw [if_neg ht]
        rw [this]
        constructor
        · intro hx; cases hx
        · rintro ⟨_, g, _⟩; exact absurd g ht

/-- **C105.** Without endpoints, two of the constructors refuse, and the two that are given an interface for groups make a stream that has nowhere to send to. -/
theorem C105_send_empty (h : Host) :
    (∀ a, makeStream h [] (.plain a) = .error .invalid) ∧ (∀ t, makeStream h [] (.multicast t) = .error .invalid) ∧
    (∀ t a, 0 ≤ t → t ≤ 255 → a.unspec = true → ∃ s, makeStream h [] (.multicastV4 t a) = .ok s) ∧
    (∀ t, 0 ≤ t → t ≤ 255 → ∃ s, makeStream h [] (.multicastV6 t 0) = .ok s) := by
  refine ⟨fun _ => rfl, fun _ => rfl, ?_, ?_⟩
  · intro t a h1 h2 hu
    simp [makeStream, sendMulticastV4, setHops, h1, h2, hu]
  · intro t h1 h2
    simp [makeStream, sendMulticastV6, setHops, h1, h2]

/-! ## Sizes of buffers -/

/-- **C105.** Whatever the system does: size 0 changes nothing; without a warning the buffer has at least the size that was asked for; with one it does not, or the system refused. -/
theorem C105_warn (kernel : Int → Option Nat) (old size : Nat) :
    (size = 0 → setBuffer kernel old size = (old, false)) ∧
    (0 < size → (setBuffer kernel old size).2 = false → size ≤ (setBuffer kernel old size).1) ∧
    ((setBuffer kernel old size).2 = true → (∃ x, kernel x = none) ∨ (setBuffer kernel old size).1 < size) := by
  unfold setBuffer
  by_cases h0 : size = 0
  · rw [if_pos h0]
    exact ⟨fun _ => rfl, fun h => by omega, fun h => by cases h⟩
  · rw [if_neg h0]
    refine ⟨fun h => absurd h h0, ?_, ?_⟩
    · intro _
      simp only
      split
      · intro h; cases h
      · intro h; simpa using h
    · simp only
      split
      · rename_i hk; intro _; exact Or.inl ⟨_, hk⟩
      · intro h; right; simpa using h

/-- **C105.** On Linux, sizes below 4 GiB are clipped to what the system allows, and there is a warning exactly if that is less than was asked for. -/
theorem C105_buffer (lo hi old size : Nat) (h0 : 0 < size) (hs : size < 2 ^ 32) :
    setBuffer (linux lo hi) old size = (max lo (min size hi), decide (max lo (min size hi) < size)) := by
  have e : linux lo hi (if size % 2 ^ 32 < 2 ^ 31 then ((size % 2 ^ 32 : Nat) : Int) else ((size % 2 ^ 32 : Nat) : Int) - 2 ^ 32) = some (max lo (min size hi)) := by
    rw [Nat.mod_eq_of_lt hs]
    unfold linux
    have key : ∀ x : Nat, x = size → some (max lo (min x hi)) = some (max lo (min size hi)) := by rintro x rfl; rfl
    apply key
    split
    · split <;> omega
    · split <;> omega
  simp only [setBuffer]
  rw [if_neg (by omega), e]

/-- **C105.** From 4 GiB the size wraps: asking for exactly 4 GiB gives the smallest buffer there is, even if the system allows the largest. -/
theorem C105_buffer_wraps (lo hi old : Nat) (hl : lo < 2 ^ 32) : setBuffer (linux lo hi) old (2 ^ 32) = (lo, true) := by
  have e : linux lo hi (if 2 ^ 32 % 2 ^ 32 < 2 ^ 31 then ((2 ^ 32 % 2 ^ 32 : Nat) : Int) else ((2 ^ 32 % 2 ^ 32 : Nat) : Int) - 2 ^ 32) = some lo := by
    simp [linux]
  simp only [setBuffer]
  rw [if_neg (by decide), e]
  simp only [Prod.mk.injEq, decide_eq_true_eq, true_and]
  exact hl

/-! ## Concrete cases -/

/-- Two readers of one group and one of an address of the host, which keeps the second reader of that address out. -/
def someEvents : List Ev :=
  twoReaders ++ [.reader (.plain ⟨.v4 0x0A000001, 7000⟩), .reader (.iface ⟨.v4 0, 7000⟩ (.v4 0x0A000001)), .reader (.iface ⟨.v6 0, 7001⟩ (.v4 0x0B000001))]

example : (run twoIf [] someEvents).length = 4 ∧ (deliver twoIf (run twoIf [] someEvents) ⟨.v4 0x0A000001, 7000, 1⟩).length = 1 ∧
    (deliver twoIf (run twoIf [] someEvents) ⟨.v4 0x0B000001, 7001, 2⟩).length = 1 := by decide

/-- With one reader only, the group is heard on its interface alone. -/
example : (deliver twoIf (run twoIf [] [.reader (.iface group (.v4 0x0B000001))]) ⟨group.addr, 8888, 2⟩).length = 1 ∧
    deliver twoIf (run twoIf [] [.reader (.iface group (.v4 0x0B000001))]) ⟨group.addr, 8888, 1⟩ = [] := by decide

/-- Arguments that are refused, and a group of IPv6. -/
example : addReader twoIf [] (.iface ⟨.v4 0x0A000001, 1⟩ (.v4 0x0B000001)) = .error .invalid ∧ addReader twoIf [] (.index group 1) = .error .invalid ∧
    (addReader twoIf [] (.index ⟨.v6 (0xFF * 2 ^ 120 + 1), 5⟩ 2)).isOk = true := ⟨rfl, rfl, rfl⟩

example : makeStream twoIf [group] (.multicastV4 4 (.v4 0x0B000001)) = .ok { v4 := true, hops := some 4, out := some (.byAddr (.v4 0x0B000001)) } ∧
    makeStream twoIf [group, ⟨.v6 1, 2⟩] (.plain (.v4 0)) = .error .invalid := ⟨rfl, rfl⟩

example : setBuffer (linux 2304 212992) 212992 8388608 = (212992, true) := by decide

end Spead2.Socket
