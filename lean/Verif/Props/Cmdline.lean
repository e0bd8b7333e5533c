import Verif.Lemmas.Cmdline
import Verif.Props.ThreadPool

/-!
# C104: command lines

Full property: the C++ and the Python tools make the same of every endpoint.  That is false: for instance `100000` is a file to spead2_recv and an error to recv_asyncio.py.
-/

namespace Spead2.Cmdline

/-- **C104.** Every `host:port` and every `port` with a decimal port is that endpoint, to both families of tools, whether or not files are allowed. -/
theorem C104_partial (svc : Text → Option Nat) (hs : SvcOk svc) (allow : Bool) (p : Text) (v : Nat) (hp : Decimal p v) (hv : v ≤ 65535) :
    (∀ h : Text, cppSource svc allow (h ++ ':' :: p) = .net h v ∧ pySource allow (h ++ ':' :: p) = .net h v) ∧
    cppSource svc allow p = .net [] v ∧ pySource allow p = .net [] v := by
  have hl : lexU16 p = some v := by rw [hp.lexU16, if_pos hv]
  have hpy : pyPort = fun h x => if 0 ≤ x ∧ x ≤ 65535 then Source.net h x.toNat else .error := rfl
  have hr : (0 : Int) ≤ (v : Int) ∧ (v : Int) ≤ 65535 := by omega
  refine ⟨fun h => ⟨?_, ?_⟩, ?_, ?_⟩
  · unfold cppSource cppEndpoint
    rw [splitLast_colon hp.no_colon]
    simp only [hl, Option.isNone_some, Bool.and_false, Bool.false_eq_true, if_false, hs p v hp hv, if_true]
    cases h <;> simp only [hs p v hp hv]
  · unfold pySource pyEndpoint
    rw [splitLast_colon hp.no_colon]
    simp only [hp.pyInt, hpy, if_pos hr, Int.toNat_natCast]
  · unfold cppSource cppEndpoint
    rw [splitLast_none hp.no_colon]
    simp only [hl, Option.isNone_some, Bool.and_false, Bool.false_eq_true, if_false, hs p v hp hv, if_true]
  · unfold pySource pyEndpoint
    rw [splitLast_none hp.no_colon]
    simp only [hp.pyInt, hpy, if_pos hr, Int.toNat_natCast]

/-- **C104.** Where files are allowed, anything whose port is empty or has a character that is in no number is a file to both; where they are not, Python refuses it, and C++ takes nothing for a file. -/
theorem C104_file (svc : Text → Option Nat) (e p : Text) (hp : IsPort e p) (ho : p = [] ∨ ∃ c ∈ p, Odd c) :
    cppSource svc true e = .file e ∧ pySource true e = .file e ∧ pySource false e = .error ∧ ∀ x f, cppSource svc false x ≠ .file f := by
  have h1 := odd_lexU16 ho
  have h2 := odd_pyInt ho
  have h3 : ∀ x f, cppSource svc false x ≠ .file f := by
    intro x f
    simp only [cppSource, Bool.false_and, Bool.false_eq_true, if_false, cppEndpoint]
    split <;> (try split) <;> (try split) <;> (intro hh; cases hh)
  unfold cppSource at h3 ⊢
  unfold pySource pyEndpoint
  rcases port_split hp with ⟨hn, rfl⟩ | ⟨x, hx⟩
  · rw [hn]
    simp only [h1, h2]
    exact ⟨rfl, rfl, rfl, h3⟩
  · rw [hx]
    simp only [h1, h2]
    exact ⟨rfl, rfl, rfl, h3⟩

/-- **C104.** Nothing that the C++ tools take for an endpoint is a file to the Python tools. -/
theorem C104_never (svc : Text → Option Nat) (e : Text) (h : cppSource svc true e ≠ .file e) (f : Text) : pySource true e ≠ .file f := by
  obtain ⟨p, hp⟩ := port_exists e
  have key : (lexU16 p).isSome = true → pySource true e ≠ .file f := by
    intro g
    obtain ⟨v, hv⟩ := Option.isSome_iff_exists.mp g
    obtain ⟨n, hn⟩ := Option.isSome_iff_exists.mp (lex_pyInt hv)
    unfold pySource pyEndpoint
    rcases port_split hp with ⟨hx, rfl⟩ | ⟨x, hx⟩
    · rw [hx]
      simp only [hn, pyPort]
      split <;> simp
    · rw [hx]
      simp only [hn, pyPort]
      split <;> simp
  apply key
  cases g : lexU16 p with
  | some _ => rfl
  | none =>
    exfalso
    apply h
    unfold cppSource
    rcases port_split hp with ⟨hx, rfl⟩ | ⟨x, hx⟩
    · rw [hx]; simp only [g]; rfl
    · rw [hx]; simp only [g]; rfl

/-- **C104.** Numbers that are too large for ports are files to the C++ tools and errors to the Python tools. -/
theorem C104_large (svc : Text → Option Nat) (p : Text) (v : Nat) (hp : Decimal p v) (hv : 65535 < v) :
    cppSource svc true p = .file p ∧ pySource true p = .error ∧
    ∀ h : Text, cppSource svc true (h ++ ':' :: p) = .file (h ++ ':' :: p) ∧ pySource true (h ++ ':' :: p) = .error := by
  have hl : lexU16 p = none := by rw [hp.lexU16, if_neg (by omega)]
  have hr : ¬ ((0 : Int) ≤ (v : Int) ∧ (v : Int) ≤ 65535) := by omega
  refine ⟨?_, ?_, fun h => ⟨?_, ?_⟩⟩
  · unfold cppSource; rw [splitLast_none hp.no_colon]; simp only [hl]; rfl
  · unfold pySource pyEndpoint
    rw [splitLast_none hp.no_colon]
    simp only [hp.pyInt, pyPort, if_neg hr]
  · unfold cppSource; rw [splitLast_colon hp.no_colon]; simp only [hl]; rfl
  · unfold pySource pyEndpoint
    rw [splitLast_colon hp.no_colon]
    simp only [hp.pyInt, pyPort, if_neg hr]

/-- The full property. -/
def C104_statement : Prop :=
  ∀ svc : Text → Option Nat, SvcOk svc → (∀ e, cppSource svc true e = pySource true e) ∧ (∀ e, cppDest svc e = pyDest e)

theorem C104_violated : ¬ C104_statement := by
  intro h
  obtain ⟨p, hp⟩ := Decimal.exists 100000
  have hs : SvcOk (fun t => natOf t) := fun t v ht _ => ht.natOf
  have h1 := (h _ hs).1 p
  obtain ⟨a, b, _⟩ := C104_large (fun t => natOf t) p 100000 hp (by omega)
  rw [a, b] at h1
  cases h1

/-- A name that is a file to the C++ tools and a port to the Python tools, and one with a space. -/
theorem C104_underscore (svc : Text → Option Nat) :
    cppSource svc true ['1', '_', '0'] = .file ['1', '_', '0'] ∧ pySource true ['1', '_', '0'] = .net [] 10 ∧
    cppSource svc true ['7', ' '] = .file ['7', ' '] ∧ pySource true ['7', ' '] = .net [] 7 := ⟨rfl, by decide, rfl, by decide⟩

/-- **C104.** Destinations: with a host, both tools send to it; without a colon, both refuse; with an empty host, spead2_send refuses and send_asyncio.py sends to no address in particular. -/
theorem C104_dest (svc : Text → Option Nat) (hs : SvcOk svc) (p : Text) (v : Nat) (hp : Decimal p v) (hv : v ≤ 65535) :
    (∀ h : Text, h ≠ [] → cppDest svc (h ++ ':' :: p) = .net h v ∧ pyDest (h ++ ':' :: p) = .net h v) ∧
    (∀ e : Text, ':' ∉ e → cppDest svc e = .error ∧ pyDest e = .error) ∧
    (cppDest svc (':' :: p) = .error ∧ pyDest (':' :: p) = .net [] v) := by
  have hr : (0 : Int) ≤ (v : Int) ∧ (v : Int) ≤ 65535 := by omega
  have hpy : ∀ h : Text, pyDest (h ++ ':' :: p) = .net h v := by
    intro h
    unfold pyDest pyEndpoint
    rw [splitLast_colon hp.no_colon]
    simp only [hp.pyInt, pyPort, if_pos hr, Int.toNat_natCast]
  refine ⟨fun h hh => ⟨?_, hpy h⟩, fun e he => ⟨?_, ?_⟩, ?_, hpy []⟩
  · unfold cppDest cppEndpoint
    rw [splitLast_colon hp.no_colon]
    cases h with
    | nil => exact absurd rfl hh
    | cons c cs => simp only [hs p v hp hv]
  · unfold cppDest cppEndpoint; rw [splitLast_none he]; rfl
  · unfold pyDest; rw [splitLast_none he]
  · have := splitLast_colon hp.no_colon []
    simp only [List.nil_append] at this
    unfold cppDest cppEndpoint
    rw [this]; rfl

/-- **C104.** Receivers: both families refuse ibverbs without an address to bind or with TCP, and nothing else; sizes that are given are used, and others have the same defaults. -/
theorem C104_recv_notify (o : Opts) :
    cppRecvNotify o = pyRecvNotify o ∧
    ((∃ r, cppRecvNotify o = .ok r) ↔ (o.ibv = true → o.bind ≠ [] ∧ o.tcp = false)) ∧
    (∀ b p, cppRecvNotify o = .ok (b, p) → (∀ x, o.buffer = some x → b = x) ∧ (∀ x, o.packet = some x → p = x) ∧
      (o.buffer = none → b = if o.tcp then 212992 else if o.ibv then 16777216 else 8388608) ∧
      (o.packet = none → p = if o.tcp then 65536 else 9200)) := by
  obtain ⟨tcp, ibv, bind, buffer, packet, vec, poll⟩ := o
  unfold cppRecvNotify pyRecvNotify
  refine ⟨?_, ?_, ?_⟩
  · cases tcp <;> cases ibv <;> cases bind <;> cases buffer <;> cases packet <;> rfl
  · cases tcp <;> cases ibv <;> cases bind <;> simp
  · intro b p
    cases tcp <;> cases ibv <;> cases bind <;> cases buffer <;> cases packet <;> simp <;> omega

/-- **C104.** Senders: the same, though not always with the same message. -/
theorem C104_send_notify (o : Opts) :
    (∀ b, cppSendNotify o = .ok b ↔ pySendNotify o = .ok b) ∧
    ((∃ b, cppSendNotify o = .ok b) ↔ (o.ibv = true → o.bind ≠ [] ∧ o.tcp = false)) ∧
    (∀ b, cppSendNotify o = .ok b → (∀ x, o.buffer = some x → b = x) ∧ (o.buffer = none → b = if o.tcp then 212992 else 524288)) := by
  obtain ⟨tcp, ibv, bind, buffer, packet, vec, poll⟩ := o
  unfold cppSendNotify pySendNotify
  refine ⟨?_, ?_, ?_⟩
  · cases tcp <;> cases ibv <;> cases bind <;> cases buffer <;> simp
  · cases tcp <;> cases ibv <;> cases bind <;> simp
  · intro b
    cases tcp <;> cases ibv <;> cases bind <;> cases buffer <;> simp <;> omega

/-- **C104.** Every source gets one reader of the right kind with the right settings, in order; with ibverbs one reader, added last, has all the endpoints in order. -/
theorem C104_each (v6 : Text → Bool) (o : Opts) (packet buffer : Nat) (srcs : List Source) (rs : List Reader)
    (h : cppReaders v6 o packet buffer srcs = some rs) :
    (o.ibv = false ∨ o.tcp = true → rs.flatMap Reader.sources = srcs) ∧
    (o.ibv = true → o.tcp = false → rs.flatMap Reader.sources =
      srcs.filter (fun x => !x.isNet) ++ srcs.filter Source.isNet) ∧
    (∀ r ∈ rs, r.Fits o packet buffer (fun h => !v6 h)) := by
  unfold cppReaders at h
  split at h
  · cases h
  · rename_i rs' eps' hl
    obtain ⟨a, b, c⟩ := cppLoop_sources v6 o packet buffer srcs [] [] rs' eps' hl
    have c := c (by intro r hr; cases hr)
    simp only [Option.some.injEq] at h
    subst h
    refine ⟨fun g => ?_, fun g g' => ?_, ?_⟩
    · obtain ⟨a1, a2⟩ := a g
      subst a1
      simp only [List.isEmpty_nil, if_true]
      rw [a2]; rfl
    · obtain ⟨b1, b2⟩ := b g g'
      simp only [List.flatMap_nil, List.nil_append, List.map_nil] at b1 b2
      rw [← b2]
      split
      · rename_i he
        rw [List.isEmpty_iff.mp he, b1]; simp
      · rw [List.flatMap_append, b1]
        simp [Reader.sources]
    · split
      · exact c
      · rename_i he
        intro r hr
        rcases List.mem_append.mp hr with hr | hr
        · exact c r hr
        · rw [List.mem_singleton.mp hr]
          have hne : eps' ≠ [] := fun e => he (by rw [e]; rfl)
          have hti : o.ibv = true ∧ o.tcp = false := by
            cases hi : o.ibv with
            | false => exact absurd (a (Or.inl hi)).1 hne
            | true =>
              cases ht : o.tcp with
              | true => exact absurd (a (Or.inr ht)).1 hne
              | false => exact ⟨rfl, rfl⟩
          exact ⟨hti.2, hti.1, hne, rfl, rfl, rfl, rfl, rfl⟩

/-- **C104.** No reader is added only if some endpoint is wrong. -/
theorem C104_added (v6 : Text → Bool) (o : Opts) (packet buffer : Nat) (srcs : List Source) :
    (∃ rs, cppReaders v6 o packet buffer srcs = some rs) ↔ .error ∉ srcs := by
  have key : ∀ (srcs : List Source) rs eps, (∃ r, cppLoop v6 o packet buffer srcs rs eps = some r) ↔ .error ∉ srcs := by
    intro srcs
    induction srcs with
    | nil => intro rs eps; simp [cppLoop]
    | cons x xs ih =>
      intro rs eps
      cases x with
      | error => simp [cppLoop]
      | file f => simp only [cppLoop]; rw [ih]; simp
      | net a b =>
        simp only [cppLoop]
        (repeat' split) <;> rw [ih] <;> simp
  rw [← key srcs [] []]
  unfold cppReaders
  cases cppLoop v6 o packet buffer srcs [] [] with
  | none => simp
  | some r => simp

/-- **C104.** Both families add the same readers, unless an address is bound and an endpoint is one of IPv6. -/
theorem C104_readers (v6 : Text → Bool) (o : Opts) (packet buffer : Nat) (srcs : List Source)
    (h : o.tcp = true ∨ o.ibv = true ∨ o.bind = [] ∨ ∀ h p, Source.net h p ∈ srcs → v6 h = false) :
    cppReaders v6 o packet buffer srcs = pyReaders o packet buffer srcs := by
  unfold cppReaders pyReaders
  rw [loop_same v6 o packet buffer srcs h]

/-- With an address to bind and an endpoint of IPv6, the C++ tools do not bind, and the Python tools do. -/
theorem C104_v6 (h : Text) (p packet buffer : Nat) (o : Opts) (v6 : Text → Bool) (h6 : v6 h = true) (ht : o.tcp = false) (hi : o.ibv = false) (hb : o.bind ≠ []) :
    cppReaders v6 o packet buffer [.net h p] = some [.udp h p packet buffer []] ∧
    pyReaders o packet buffer [.net h p] = some [.udp h p packet buffer o.bind] := by
  have hb' : o.bind.isEmpty = false := by cases e : o.bind with | nil => exact absurd e hb | cons => rfl
  unfold cppReaders pyReaders
  simp [cppLoop, pyLoop, ht, hi, h6, hb']

/-- **C104.** Options can be renamed and hidden: every option has the last value given under its flag or else its default, and hidden ones keep theirs. -/
theorem C104_options {V : Type} (xs ys : List (Entry V)) (args : List (Text × V)) (h : options xs args = some ys) :
    ys = xs.map fun x => match x.mapped with
      | none => x
      | some m => { x with value := (lastGiven (flag m) args).getD x.value } := by
  unfold options at h
  split at h
  · cases h
  · rename_i p hp
    split at h
    · cases h
    · rename_i q hq
      obtain ⟨a, b, _⟩ := addArguments_some xs [] p hp
      obtain ⟨c, _⟩ := parse_some args p q hq
      simp only [Option.some.injEq] at h
      rw [← h]
      unfold extract
      apply List.map_congr_left
      intro x hx
      cases hm : x.mapped with
      | none => rfl
      | some m =>
        have := find_dest args xs x m hx hm b
        rw [List.nil_append] at a
        rw [← a, ← c] at this
        simp only [this, upd]

/-- **C104.** A command line is refused exactly if two options have the same flag or a flag is unknown. -/
theorem C104_refused {V : Type} (xs : List (Entry V)) (args : List (Text × V)) :
    (∃ ys, options xs args = some ys) ↔ (flags xs).Nodup ∧ ∀ a ∈ args, a.1 ∈ flags xs := by
  have hflags : ∀ (a : Text), (∃ b ∈ xs.filterMap (fun x => x.mapped.map fun m => (flag m, m, x.value)), b.1 = a) ↔ a ∈ flags xs := by
    intro a
    constructor
    · rintro ⟨b, hb, rfl⟩
      obtain ⟨x, hx, hm⟩ := List.mem_filterMap.mp hb
      cases e : x.mapped with
      | none => rw [e] at hm; cases hm
      | some m => rw [e] at hm; cases hm; exact List.mem_filterMap.mpr ⟨x, hx, by rw [e]; rfl⟩
    · intro ha
      obtain ⟨x, hx, hm⟩ := List.mem_filterMap.mp ha
      cases e : x.mapped with
      | none => rw [e] at hm; cases hm
      | some m => rw [e] at hm; cases hm; exact ⟨(flag m, m, x.value), List.mem_filterMap.mpr ⟨x, hx, by rw [e]; rfl⟩, rfl⟩
  constructor
  · rintro ⟨ys, h⟩
    unfold options at h
    split at h
    · cases h
    · rename_i p hp
      split at h
      · cases h
      · rename_i q hq
        obtain ⟨a, b, _⟩ := addArguments_some xs [] p hp
        obtain ⟨_, d⟩ := parse_some args p q hq
        rw [List.nil_append] at a
        refine ⟨b, fun z hz => ?_⟩
        rw [a] at d
        exact (hflags z.1).mp (d z hz)
  · rintro ⟨h1, h2⟩
    obtain ⟨p, hp⟩ := Option.isSome_iff_exists.mp (addArguments_none xs [] h1 (by intro f _ a ha; cases ha))
    obtain ⟨a, _, _⟩ := addArguments_some xs [] p hp
    rw [List.nil_append] at a
    obtain ⟨q, hq⟩ := Option.isSome_iff_exists.mp (parse_isSome args p (by
      intro z hz
      rw [a]
      exact (hflags z.1).mpr (h2 z hz)))
    unfold options
    rw [hp]
    simp only [hq]
    exact ⟨_, rfl⟩

/-- **C104.** Lists of cores such as `2,3-5,8` are those cores, in order. -/
theorem C104_ranges (parts : List (Text × List Int)) (h : ∀ x ∈ parts, Part x.1 x.2) :
    parseRangeList (List.intercalate [','] (parts.map fun x => x.1)) = some (parts.flatMap fun x => x.2) := by
  cases parts with
  | nil => rfl
  | cons x xs =>
    unfold parseRangeList
    rw [if_neg]
    · exact parse_parts (x :: xs) h (by simp)
    · intro he
      have hx := (h x (List.mem_cons_self ..)).ne_nil
      have := List.isEmpty_iff.mp he
      cases xs with
      | nil => simp [List.intercalate, hx] at this
      | cons y ys => simp [List.intercalate, hx] at this

/-- **C104.** The main thread and the threads of the pool are bound to the cores of the list in turn; if there are enough of them, no two threads share one. -/
theorem C104_cores (affinity : List Int) (h : affinity ≠ []) (threads : Nat) :
    ((poolCores affinity threads).1 :: (poolCores affinity threads).2 = (ThreadPool.roundRobin affinity (threads + 1)).map some) ∧
    (affinity.Nodup → threads + 1 ≤ affinity.length → ((poolCores affinity threads).1 :: (poolCores affinity threads).2).Nodup) := by
  have e : (poolCores affinity threads).1 :: (poolCores affinity threads).2 = (List.range (threads + 1)).map (ThreadPool.core affinity) := by
    cases affinity with
    | nil => exact absurd rfl h
    | cons a as =>
      rw [List.range_succ_eq_map, List.map_cons, List.map_map]
      simp only [poolCores]
      refine List.cons_eq_cons.mpr ⟨by simp [ThreadPool.core], ?_⟩
      · apply List.map_congr_left
        intro i _
        simp only [Function.comp, ThreadPool.core, List.length_append, List.length_cons, List.length_nil, Nat.zero_add]
        have hlt := Nat.mod_lt i (show 0 < as.length + 1 by omega)
        by_cases c : i % (as.length + 1) < as.length
        · have e : (i + 1) % (as.length + 1) = i % (as.length + 1) + 1 := by
            rw [Nat.add_mod, Nat.mod_eq_of_lt (a := 1) (by omega), Nat.mod_eq_of_lt (a := i % (as.length + 1) + 1) (by omega)]
          rw [Nat.succ_eq_add_one, e, List.getElem?_append_left c, List.getElem?_cons_succ]
        · have c' : i % (as.length + 1) = as.length := by omega
          have e : (i + 1) % (as.length + 1) = 0 := by
            rw [Nat.add_mod, c']
            by_cases z : as.length = 0
            · rw [z]
            · rw [Nat.mod_eq_of_lt (a := 1) (by omega), Nat.mod_self]
          rw [Nat.succ_eq_add_one, e, c', List.getElem?_append_right (by omega)]
          simp
  rw [e]
  refine ⟨ThreadPool.C101_affinity h (threads + 1), fun hn hl => ?_⟩
  have : (List.range (threads + 1)).map (ThreadPool.core affinity) = (affinity.take (threads + 1)).map some := by
    apply List.ext_getElem?
    intro i
    by_cases hi : i < threads + 1
    · rw [List.getElem?_map, List.getElem?_range hi, List.getElem?_map, List.getElem?_take_of_lt hi]
      simp only [Option.map_some, ThreadPool.core]
      rw [Nat.mod_eq_of_lt (by omega), List.getElem?_eq_getElem (by omega)]
      rfl
    · rw [List.getElem?_eq_none (by simp; omega), List.getElem?_eq_none (by simp; omega)]
  rw [this]
  exact List.Pairwise.map some (fun a b hab e => hab (Option.some.inj e)) (hn.sublist (List.take_sublist _ _))

/-! ## Concrete cases -/

/-- 7148, and that it is decimal. -/
theorem dec7148 : Decimal ['7', '1', '4', '8'] 7148 := by
  have h := Decimal.more _ _ 8 (.more _ _ 4 (.more _ _ 1 (.one 7 (by omega)) (by omega)) (by omega)) (by omega)
  exact h

example : SvcOk natOf := fun t v ht _ => ht.natOf

example : cppSource natOf true ['h', ':', '7', '1', '4', '8'] = .net ['h'] 7148 ∧ pySource true ['h', ':', '7', '1', '4', '8'] = .net ['h'] 7148 := by
  have := (C104_partial natOf (fun t v ht _ => ht.natOf) true _ _ dec7148 (by omega)).1 ['h']
  exact this

/-- A capture file. -/
example : IsPort ['a', ':', 'b', '7', '.', 'p'] ['b', '7', '.', 'p'] ∧ Odd '.' ∧
    cppSource natOf true ['a', ':', 'b', '7', '.', 'p'] = .file ['a', ':', 'b', '7', '.', 'p'] := by
  refine ⟨⟨by decide, Or.inr ⟨['a'], rfl⟩⟩, by unfold Odd; decide, by decide⟩

/-- Two endpoints and a file with ibverbs: two readers. -/
example : cppReaders (fun _ => false) { ibv := true, bind := ['b'] } 9200 100 [.net ['h'] 1, .file ['f'], .net ['i'] 2] =
    some [.pcap ['f'], .ibv [(['h'], 1), (['i'], 2)] ['b'] 9200 100 0 10] := by decide

/-- A renamed option and a hidden one. -/
example : (options [⟨['a', '_', 'b'], some ['c', '_', 'd'], 1⟩, ⟨['e'], none, 2⟩] [(['c', '-', 'd'], 7), (['c', '-', 'd'], 8)]).map
    (fun ys => ys.map fun (y : Entry Nat) => y.value) = some [8, 2] := by decide

/-- `2,3-5`: cores 2, 3, 4 and 5 for the main thread and three others. -/
example : parseRangeList ['2', ',', '3', '-', '5'] = some [2, 3, 4, 5] ∧ poolCores [2, 3, 4, 5] 3 = (some 2, [some 3, some 4, some 5]) := by decide

/-- A range that is the wrong way round is empty, and then nothing is bound. -/
example : parseRangeList ['5', '-', '3'] = some [] ∧ poolCores [] 2 = (none, [none, none]) := by decide

end Spead2.Cmdline
