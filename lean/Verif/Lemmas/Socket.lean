import Verif.Spec.Socket

/-! # Lemmas about the sockets of readers and senders -/

namespace Spead2.Socket

theorem covers_iff (b d : Addr) : covers b d = true ↔ MeantFor b d := by
  unfold covers MeantFor
  cases b with
  | v4 n =>
    cases d with
    | v4 m => simp [Addr.unspec, Addr.isV4]
    | v6 m => simp [Addr.unspec, Addr.isV4]
  | v6 n =>
    cases d with
    | v4 m => simp [Addr.unspec, Addr.isV4]
    | v6 m =>
      simp [Addr.unspec, Addr.isV4]

theorem conflict_iff (a b : Endpoint) : conflict a b = true ↔ Clash a.addr a.port b.addr b.port := by
  unfold conflict Clash
  rw [Bool.and_eq_true, Bool.or_eq_true, covers_iff, covers_iff, beq_iff_eq]

theorem unspec_not_multicast (a : Addr) (h : a.unspec = true) : a.multicast = false := by
  cases a with
  | v4 n => simp only [Addr.unspec, beq_iff_eq] at h; subst h; decide
  | v6 n => simp only [Addr.unspec, beq_iff_eq] at h; subst h; decide

theorem listens_endpoint (c : Ctor) : Listens c c.endpoint.addr c.endpoint.port := by
  cases c with
  | plain ep => exact ⟨rfl, rfl⟩
  | index ep k => exact ⟨rfl, rfl⟩
  | iface ep a =>
    simp only [Ctor.endpoint, effective, Listens]
    cases hu : ep.addr.unspec with
    | true => exact ⟨rfl, Or.inl ⟨rfl, rfl⟩⟩
    | false => exact ⟨rfl, Or.inr ⟨rfl, rfl⟩⟩

theorem listens_eq (c : Ctor) (a : Addr) (p : Nat) (h : Listens c a p) : c.endpoint.addr = a ∧ c.endpoint.port = p := by
  cases c with
  | plain ep => exact h
  | index ep k => exact h
  | iface ep i =>
    obtain ⟨hp, h⟩ := h
    simp only [Ctor.endpoint, effective]
    rcases h with ⟨hu, hi⟩ | ⟨hu, hi⟩
    · rw [hu]; exact ⟨hi, hp⟩
    · rw [hu]; exact ⟨hi, hp⟩

/-- How a constructor selects the interface. -/
def Ctor.sel : Ctor → IfSel
  | .plain _ => .any
  | .iface _ a => .byAddr a
  | .index _ k => .byIndex k

theorem pick_chosen (h : Host) (c : Ctor) (g : Addr) (i : Nat) (hp : h.pick g c.sel = some i) : Chosen h c g i := by
  cases c with
  | plain ep => exact hp
  | iface ep a =>
    simp only [Ctor.sel, Host.pick] at hp
    cases hu : a.unspec with
    | true => rw [hu] at hp; exact Or.inl ⟨hu, hp⟩
    | false =>
      rw [hu] at hp
      simp only [Bool.false_eq_true, if_false, Option.map_eq_some_iff] at hp
      obtain ⟨⟨j, b⟩, hf, rfl⟩ := hp
      have hm := List.mem_of_find?_eq_some hf
      have hb := List.find?_some hf
      simp only [beq_iff_eq] at hb
      subst hb
      exact Or.inr ⟨hu, hm⟩
  | index ep k =>
    simp only [Ctor.sel, Host.pick] at hp
    by_cases h0 : k = 0
    · rw [if_pos h0] at hp; exact Or.inl ⟨h0, hp⟩
    · rw [if_neg h0] at hp
      split at hp
      · rename_i ha
        simp only [Option.some.injEq] at hp
        subst hp
        rw [List.any_eq_true] at ha
        obtain ⟨⟨j, a⟩, hm, hj⟩ := ha
        simp only [beq_iff_eq] at hj
        subst hj
        exact Or.inr ⟨h0, rfl, a, hm⟩
      · cases hp

theorem chosen_pick (h : Host) (c : Ctor) (g : Addr) (i : Nat) (hc : Chosen h c g i) : ∃ j, h.pick g c.sel = some j := by
  cases c with
  | plain ep => exact ⟨i, hc⟩
  | iface ep a =>
    simp only [Ctor.sel, Host.pick]
    rcases hc with ⟨hu, hr⟩ | ⟨hu, hm⟩
    · rw [hu]; exact ⟨i, hr⟩
    · rw [hu]
      simp only [Bool.false_eq_true, if_false]
      cases hf : h.addrs.find? (fun x => x.2 == a) with
      | some x => exact ⟨x.1, rfl⟩
      | none =>
        rw [List.find?_eq_none] at hf
        exact absurd (beq_self_eq_true a) (hf _ hm)
  | index ep k =>
    simp only [Ctor.sel, Host.pick]
    rcases hc with ⟨h0, hr⟩ | ⟨h0, rfl, a, hm⟩
    · rw [if_pos h0]; exact ⟨i, hr⟩
    · rw [if_neg h0, if_pos (List.any_eq_true.mpr ⟨(i, a), hm, beq_self_eq_true i⟩)]
      exact ⟨i, rfl⟩

theorem chosen_unique (h : Host) (hu : h.Unique) (c : Ctor) (g : Addr) (i j : Nat) (hi : Chosen h c g i) (hj : Chosen h c g j) : i = j := by
  cases c with
  | plain ep => exact Option.some.inj (hi.symm.trans hj)
  | iface ep a =>
    rcases hi with ⟨u, hi⟩ | ⟨u, hi⟩ <;> rcases hj with ⟨u', hj⟩ | ⟨u', hj⟩
    · exact Option.some.inj (hi.symm.trans hj)
    · rw [u] at u'; cases u'
    · rw [u] at u'; cases u'
    · exact hu _ _ _ hi hj
  | index ep k =>
    rcases hi with ⟨u, hi⟩ | ⟨u, hi, _⟩ <;> rcases hj with ⟨u', hj⟩ | ⟨u', hj, _⟩
    · exact Option.some.inj (hi.symm.trans hj)
    · exact absurd u u'
    · exact absurd u' u
    · exact hi.trans hj.symm

/-- The socket that a reader's constructor makes. -/
def Ctor.sock (c : Ctor) (js : List (Addr × Nat)) : Sock :=
  { v4 := c.endpoint.addr.isV4, reuse := c.endpoint.addr.multicast, joined := js }

/-- The arguments are refused (decidable form). -/
def Ctor.bad : Ctor → Bool
  | .plain _ => false
  | .iface ep a => !a.isV4 || (!ep.addr.unspec && !(ep.addr.isV4 && ep.addr.multicast) && ep.addr != a)
  | .index ep _ => !(!ep.addr.isV4 && ep.addr.multicast)

theorem bad_iff (c : Ctor) : c.bad = true ↔ BadArguments c := by
  cases c with
  | plain ep => simp [Ctor.bad, BadArguments]
  | iface ep a =>
    simp only [Ctor.bad, BadArguments]
    cases a.isV4 <;> cases ep.addr.unspec <;> cases ep.addr.isV4 <;> cases ep.addr.multicast <;> simp
  | index ep k =>
    simp only [Ctor.bad, BadArguments]
    cases ep.addr.isV4 <;> cases ep.addr.multicast <;> simp

/-- What the constructors do, in one formula. -/
theorem make_eq (h : Host) (c : Ctor) : c.make h =
    if c.bad then .error .invalid
    else if c.endpoint.addr.multicast then
      match h.pick c.endpoint.addr c.sel with
      | some i => .ok (c.sock [(c.endpoint.addr, i)])
      | none => .error .noDevice
    else .ok (c.sock []) := by
  cases c with
  | plain ep =>
    rcases Bool.eq_false_or_eq_true ep.addr.multicast with hm | hm <;>
      simp [Ctor.make, makeSocket, Ctor.bad, Ctor.endpoint, Ctor.sel, Sock.join, Ctor.sock, hm] <;> split <;> rename_i hh <;> simp [hh]
  | index ep k =>
    rcases Bool.eq_false_or_eq_true ep.addr.multicast with hm | hm <;> rcases Bool.eq_false_or_eq_true ep.addr.isV4 with h4 | h4 <;>
      simp [Ctor.make, makeV6Socket, Ctor.bad, Ctor.endpoint, Ctor.sel, Sock.join, Ctor.sock, hm, h4] <;> split <;> rename_i hh <;> simp [hh]
  | iface ep a =>
    rcases Bool.eq_false_or_eq_true a.isV4 with ha | ha
    · rcases Bool.eq_false_or_eq_true ep.addr.unspec with hu | hu
      · have he : effective ep a = { ep with addr := a } := by unfold effective; rw [hu]; rfl
        rcases Bool.eq_false_or_eq_true a.multicast with hm | hm <;>
          simp [Ctor.make, makeV4Socket, Ctor.bad, Ctor.endpoint, Ctor.sel, Sock.join, Ctor.sock, he, ha, hu, hm] <;> split <;> rename_i hh <;> simp [hh]
      · have he : effective ep a = ep := by unfold effective; rw [hu]; rfl
        rcases Bool.eq_false_or_eq_true ep.addr.isV4 with h4 | h4
        · rcases Bool.eq_false_or_eq_true ep.addr.multicast with hm | hm <;>
            simp [Ctor.make, makeV4Socket, Ctor.bad, Ctor.endpoint, Ctor.sel, Sock.join, Ctor.sock, he, ha, hu, h4, hm] <;> split <;> rename_i hh <;> simp [hh]
        · have hne : ¬ ep.addr = a := by
            intro e; rw [e, ha] at h4; cases h4
          simp [Ctor.make, makeV4Socket, Ctor.bad, Ctor.endpoint, Ctor.sel, Sock.join, Ctor.sock, he, ha, hu, h4, hne]
    · simp [Ctor.make, makeV4Socket, Ctor.bad, ha]

/-- What is true of each socket that a reader has. -/
def SockOk (h : Host) (s : Sock) : Prop :=
  ∀ c, s.owner = some c →
    s.bound = some c.endpoint ∧ s.reuse = c.endpoint.addr.multicast ∧ ¬ BadArguments c ∧
    (c.endpoint.addr.multicast = true → ∃ i, Chosen h c c.endpoint.addr i ∧ s.joined = [(c.endpoint.addr, i)]) ∧
    (c.endpoint.addr.multicast = false → s.joined = [])

theorem bind_ok (h : Host) (k k' : Kernel) (s : Sock) (ep : Endpoint) (hb : bind h k s ep = .ok k') :
    k' = k ++ [{ s with bound := some ep }] ∧ ep.addr.isV4 = s.v4 ∧
    (ep.addr.unspec = true ∨ ep.addr.multicast = true ∨ ∃ i, (i, ep.addr) ∈ h.addrs) ∧
    (∀ o ∈ k, ∀ b, o.bound = some b → Clash b.addr b.port ep.addr ep.port → o.reuse = true ∧ s.reuse = true) := by
  simp only [bind] at hb
  split at hb
  · cases hb
  · rename_i h1
    split at hb
    · cases hb
    · rename_i h2
      split at hb
      · cases hb
      · rename_i h3
        refine ⟨(Except.ok.inj hb).symm, ?_, ?_, ?_⟩
        · simpa using h1
        · simp only [Bool.not_eq_true', Bool.not_eq_false, Bool.or_eq_true, List.any_eq_true, beq_iff_eq] at h2
          rcases h2 with (h2 | h2) | ⟨⟨i, x⟩, hm, hx⟩
          · exact Or.inl h2
          · exact Or.inr (Or.inl h2)
          · simp only at hx; subst hx; exact Or.inr (Or.inr ⟨i, hm⟩)
        · intro o ho b hob hcl
          have := h3
          rw [List.any_eq_true] at this
          by_cases hr : (o.reuse && s.reuse) = true
          · simpa using hr
          · exfalso
            apply this
            refine ⟨o, ho, ?_⟩
            rw [hob]
            have hc := (conflict_iff b ep).mpr hcl
            show (conflict b ep && !(o.reuse && s.reuse)) = true
            rw [hc, Bool.eq_false_iff.mpr hr]
            rfl

theorem bind_eq_ok (h : Host) (k : Kernel) (s : Sock) (ep : Endpoint) (h1 : ep.addr.isV4 = s.v4)
    (h2 : ep.addr.unspec = true ∨ ep.addr.multicast = true ∨ ∃ i, (i, ep.addr) ∈ h.addrs)
    (h3 : ∀ o ∈ k, ∀ b, o.bound = some b → Clash b.addr b.port ep.addr ep.port → o.reuse = true ∧ s.reuse = true) :
    bind h k s ep = .ok (k ++ [{ s with bound := some ep }]) := by
  simp only [bind]
  rw [if_neg (by rw [h1]; simp), if_neg, if_neg]
  · rw [List.any_eq_true]
    rintro ⟨o, ho, hx⟩
    cases hob : o.bound with
    | none => rw [hob] at hx; simp at hx
    | some b =>
      rw [hob] at hx
      have hx : (conflict b ep && !(o.reuse && s.reuse)) = true := hx
      rw [Bool.and_eq_true] at hx
      obtain ⟨ha, hb⟩ := h3 o ho b hob ((conflict_iff b ep).mp hx.1)
      rw [ha, hb] at hx
      exact absurd hx.2 (by decide)
  · intro hx
    simp only [Bool.not_eq_true', Bool.or_eq_false_iff] at hx
    rcases h2 with h2 | h2 | ⟨i, h2⟩
    · rw [h2] at hx; exact absurd hx.1.1 (by decide)
    · rw [h2] at hx; exact absurd hx.1.2 (by decide)
    · exact absurd (List.any_eq_true.mpr ⟨(i, ep.addr), h2, beq_self_eq_true ep.addr⟩) (by rw [hx.2]; decide)

theorem bind_error (h : Host) (k : Kernel) (s : Sock) (ep : Endpoint) (e : Err) (hb : bind h k s ep = .error e) :
    (e = .protocol ∧ ep.addr.isV4 ≠ s.v4) ∨ e = .notAvailable ∨ e = .inUse := by
  simp only [bind] at hb
  split at hb
  · rename_i h1
    left; exact ⟨(Except.error.inj hb).symm, by simpa using h1⟩
  · split at hb
    · right; left; exact (Except.error.inj hb).symm
    · split at hb
      · right; right; exact (Except.error.inj hb).symm
      · cases hb

/-- Readers that start: everything about the new socket. -/
theorem addReader_ok (h : Host) (k k' : Kernel) (c : Ctor) (ha : addReader h k c = .ok k') :
    ∃ js : List (Addr × Nat), k' = k ++ [{ c.sock js with owner := some c, bound := some c.endpoint }] ∧ c.bad = false ∧
      (c.endpoint.addr.multicast = true → ∃ i, Chosen h c c.endpoint.addr i ∧ js = [(c.endpoint.addr, i)]) ∧
      (c.endpoint.addr.multicast = false → js = []) ∧
      (c.endpoint.addr.unspec = true ∨ c.endpoint.addr.multicast = true ∨ ∃ i, (i, c.endpoint.addr) ∈ h.addrs) ∧
      (∀ o ∈ k, ∀ b, o.bound = some b → Clash b.addr b.port c.endpoint.addr c.endpoint.port → o.reuse = true ∧ c.endpoint.addr.multicast = true) := by
  unfold addReader at ha
  rw [make_eq] at ha
  cases hb : c.bad with
  | true => rw [hb] at ha; cases ha
  | false =>
    rw [hb] at ha
    cases hm : c.endpoint.addr.multicast with
    | true =>
      rw [hm] at ha
      simp only [Bool.false_eq_true, if_false, if_true] at ha
      cases hp : h.pick c.endpoint.addr c.sel with
      | none => rw [hp] at ha; cases ha
      | some i =>
        rw [hp] at ha
        obtain ⟨e, _, h2, h3⟩ := bind_ok _ _ _ _ _ ha
        refine ⟨[(c.endpoint.addr, i)], e, rfl, fun _ => ⟨i, pick_chosen _ _ _ _ hp, rfl⟩, (by intro x; cases x), Or.inr (Or.inl rfl), ?_⟩
        intro o ho b hob hcl
        exact ⟨(h3 o ho b hob hcl).1, rfl⟩
    | false =>
      rw [hm] at ha
      simp only [Bool.false_eq_true, if_false] at ha
      obtain ⟨e, _, h2, h3⟩ := bind_ok _ _ _ _ _ ha
      rw [hm] at h2
      refine ⟨[], e, rfl, (by intro x; cases x), fun _ => rfl, h2, ?_⟩
      intro o ho b hob hcl
      obtain ⟨h4, h5⟩ := h3 o ho b hob hcl
      have h5 : c.endpoint.addr.multicast = true := h5
      rw [hm] at h5; cases h5

theorem addReader_sockOk (h : Host) (k k' : Kernel) (c : Ctor) (ha : addReader h k c = .ok k') (hk : ∀ s ∈ k, SockOk h s) : ∀ s ∈ k', SockOk h s := by
  obtain ⟨js, rfl, hb, h1, h2, _, _⟩ := addReader_ok h k k' c ha
  intro s hs
  rcases List.mem_append.mp hs with hs | hs
  · exact hk s hs
  · have : s = { c.sock js with owner := some c, bound := some c.endpoint } := by simpa using hs
    subst this
    intro c' hc'
    have : c = c' := Option.some.inj hc'
    subst this
    refine ⟨rfl, rfl, ?_, ?_, ?_⟩
    · rw [← bad_iff, hb]; decide
    · exact h1
    · exact h2

theorem step_sockOk (h : Host) (k : Kernel) (e : Ev) (hk : ∀ s ∈ k, SockOk h s) : ∀ s ∈ step h k e, SockOk h s := by
  cases e with
  | reader c =>
    simp only [step]
    split
    · rename_i k' ha; exact addReader_sockOk h k k' c ha hk
    · exact hk
  | other s ep =>
    simp only [step]
    split
    · rename_i k' hb
      obtain ⟨rfl, _⟩ := bind_ok _ _ _ _ _ hb
      intro x hx
      rcases List.mem_append.mp hx with hx | hx
      · exact hk x hx
      · have : x = { s with owner := none, bound := some ep } := by simpa using hx
        subst this
        intro c hc; cases hc
    · exact hk
  | close i => exact fun s hs => hk s (List.mem_of_mem_eraseIdx hs)

theorem run_sockOk (h : Host) : ∀ (es : List Ev) (k : Kernel), (∀ s ∈ k, SockOk h s) → ∀ s ∈ run h k es, SockOk h s
  | [], _, hk => hk
  | e :: es, k, hk => run_sockOk h es _ (step_sockOk h k e hk)

/-- Two sockets that are in each other's way both have `SO_REUSEADDR`. -/
def Apart (a b : Sock) : Prop :=
  ∀ x y, a.bound = some x → b.bound = some y → Clash x.addr x.port y.addr y.port → a.reuse = true ∧ b.reuse = true

theorem bind_apart (h : Host) (k k' : Kernel) (s : Sock) (ep : Endpoint) (hb : bind h k s ep = .ok k') (hk : k.Pairwise Apart) : k'.Pairwise Apart := by
  obtain ⟨rfl, _, _, h3⟩ := bind_ok _ _ _ _ _ hb
  rw [List.pairwise_append]
  refine ⟨hk, List.pairwise_singleton _ _, ?_⟩
  intro a ha b hb' x y hx hy hcl
  have : b = { s with bound := some ep } := by simpa using hb'
  subst this
  have : ep = y := Option.some.inj hy
  subst this
  exact h3 a ha x hx hcl

theorem step_apart (h : Host) (k : Kernel) (e : Ev) (hk : k.Pairwise Apart) : (step h k e).Pairwise Apart := by
  cases e with
  | reader c =>
    simp only [step]
    split
    · rename_i k' ha
      unfold addReader at ha
      split at ha
      · cases ha
      · exact bind_apart _ _ _ _ _ ha hk
    · exact hk
  | other s ep =>
    simp only [step]
    split
    · rename_i k' hb; exact bind_apart _ _ _ _ _ hb hk
    · exact hk
  | close i => exact hk.sublist (List.eraseIdx_sublist k i)

theorem run_apart (h : Host) : ∀ (es : List Ev) (k : Kernel), k.Pairwise Apart → (run h k es).Pairwise Apart
  | [], _, hk => hk
  | e :: es, k, hk => run_apart h es _ (step_apart h k e hk)

theorem matches_iff (s : Sock) (d : Dgram) : s.matches d = true ↔ ∃ b, s.bound = some b ∧ b.port = d.port ∧ MeantFor b.addr d.dst := by
  unfold Sock.matches
  cases hb : s.bound with
  | none => simp
  | some b =>
    simp only [Bool.and_eq_true, beq_iff_eq, covers_iff, Option.some.injEq]
    exact ⟨fun h => ⟨b, rfl, h⟩, fun ⟨_, e, h⟩ => e ▸ h⟩

theorem meant_clash (a b d : Addr) (p : Nat) (ha : MeantFor a d) (hb : MeantFor b d) : Clash a p b p := by
  refine ⟨rfl, ?_⟩
  rcases ha with rfl | ⟨rfl, n, rfl⟩ | rfl
  · exact Or.inr hb
  · rcases hb with rfl | ⟨rfl, _⟩ | rfl
    · exact Or.inl (Or.inr (Or.inl ⟨rfl, n, rfl⟩))
    · exact Or.inl (Or.inl rfl)
    · exact Or.inr (Or.inr (Or.inr rfl))
  · exact Or.inl (Or.inr (Or.inr rfl))

theorem meant_unicast (a d : Addr) (ha : MeantFor a d) (hd : d.multicast = false) : a.multicast = false := by
  rcases ha with rfl | ⟨rfl, _⟩ | rfl
  · exact hd
  · decide
  · decide

theorem accepts_multicast (h : Host) (k : Kernel) (d : Dgram) (hd : d.dst.multicast = true) :
    accepts h k d = true ↔ ∃ s ∈ k, (d.dst, d.iface) ∈ s.joined := by
  simp only [accepts, hd, if_true, List.any_eq_true, beq_iff_eq]
  constructor
  · rintro ⟨s, hs, j, hj, rfl⟩; exact ⟨s, hs, hj⟩
  · rintro ⟨s, hs, hj⟩; exact ⟨s, hs, _, hj, rfl⟩

theorem accepts_unicast (h : Host) (k : Kernel) (d : Dgram) (hd : d.dst.multicast = false) :
    accepts h k d = true ↔ ∃ i, (i, d.dst) ∈ h.addrs := by
  simp only [accepts, hd, Bool.false_eq_true, if_false, List.any_eq_true, beq_iff_eq]
  constructor
  · rintro ⟨⟨i, a⟩, hm, he⟩; simp only at he; subst he; exact ⟨i, hm⟩
  · rintro ⟨i, hm⟩; exact ⟨_, hm, rfl⟩

theorem mem_deliver (h : Host) (k : Kernel) (d : Dgram) (s : Sock) : s ∈ deliver h k d ↔ accepts h k d = true ∧ s ∈ k ∧ s.matches d = true := by
  unfold deliver
  by_cases ha : accepts h k d = true
  · rw [if_pos ha, List.mem_filter]; exact ⟨fun x => ⟨ha, x⟩, fun x => x.2⟩
  · rw [if_neg ha]; simp [ha]

end Spead2.Socket
