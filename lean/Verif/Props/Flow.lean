import Verif.Lemmas.Flow
import Verif.Props.SendIbvRing
import Verif.Props.UdpEndToEnd
import Verif.Props.Mprq

/-!
# C86: an ibverbs reader gets the datagrams for its endpoints, and only these
-/

namespace Spead2.Flow
open Spec

/-- What `create_flow` does for an endpoint that it does not reject. -/
theorem createFlow_spec {ifs : List IfAddr} {e : Endpoint} (ok : e.Ok) {r : Rule} (h : createFlow ifs e = some r) :
    r.port = beBytes 2 e.port ∧ r.portMask = [0xff, 0xff] ∧
    ((e.addr.unspecified = true ∧ r.macMask = List.replicate 6 0 ∧ r.ipMask = List.replicate 4 0 ∧ r.mac = List.replicate 6 0 ∧ r.ip = List.replicate 4 0) ∨
      (e.addr.unspecified = false ∧ ∃ a, e.addr = .v4 a ∧ r.ip = a ∧ r.macMask = List.replicate 6 0xff ∧ r.ipMask = List.replicate 4 0xff ∧
        r.mac.length = 6 ∧ ∀ mac, (if IsGroup a then mac = groupMac a else MacOf ifs a mac) ↔ mac = r.mac)) := by
  unfold createFlow at h
  obtain ⟨r0, h0, rfl⟩ := Option.map_eq_some_iff.mp h
  refine ⟨rfl, rfl, ?_⟩
  cases hu : e.addr.unspecified with
  | true =>
    rw [hu, if_pos rfl] at h0
    obtain rfl := Option.some.inj h0
    exact Or.inl ⟨rfl, rfl, rfl, rfl, rfl⟩
  | false =>
    rw [hu, if_neg (by decide)] at h0
    refine Or.inr ⟨rfl, ?_⟩
    cases ha : e.addr with
    | v6 b =>
      rw [ha] at h0
      simp only [Addr.toV4] at h0
      split at h0 <;> simp_all
    | v4 a =>
      have hl := ok.v4 a ha
      rw [ha] at h0
      simp only [Addr.toV4, Option.map_some] at h0
      by_cases hm : (Addr.v4 a).multicast = true
      · rw [if_pos hm] at h0
        obtain rfl := Option.some.inj h0
        refine ⟨a, rfl, rfl, rfl, rfl, rfl, fun mac => ?_⟩
        rw [if_pos ((multicast_group hl).mp hm), groupMac_eq hl]
      · rw [if_neg hm] at h0
        cases hi : interfaceMac ifs (.v4 a) with
        | none => rw [hi] at h0; cases h0
        | some m =>
          rw [hi] at h0
          obtain rfl := Option.some.inj h0
          have hmo := (interfaceMac_spec ifs a m).mp hi
          refine ⟨a, rfl, rfl, rfl, rfl, ?_, fun mac => ?_⟩
          · obtain ⟨_, _, _, _, _, hl, _⟩ := hmo
            exact hl
          · rw [if_neg (fun h => hm ((multicast_group hl).mpr h)), ← interfaceMac_spec, hi]
            exact ⟨fun h => (Option.some.inj h).symm, fun h => by rw [h]⟩

/-- One rule. -/
theorem rule_exact {ifs : List IfAddr} {e : Endpoint} (ok : e.Ok) {r : Rule} (h : createFlow ifs e = some r) {d : Dest} {p f : Bytes}
    (hf : FrameFor d p f) : r.takes f = true ↔ Wants ifs e d := by
  obtain ⟨h1, h2, h3⟩ := createFlow_spec ok h
  obtain ⟨l1, l2⟩ := frame_lengths hf
  have hp := hf.2.2.2.1
  rw [takes_frame hf, h1, h2]
  have e2 : ([0xff, 0xff] : Bytes) = List.replicate 2 0xff := rfl
  have port : masked (beBytes 2 d.port) [0xff, 0xff] = masked (beBytes 2 e.port) [0xff, 0xff] ↔ d.port = e.port := by
    rw [e2, masked_ones _ 2 (by simp), masked_ones _ 2 (by simp)]
    constructor
    · intro h
      rw [← beNat_be2 hp, h, beNat_be2 ok.port]
    · intro h
      rw [h]
  rw [port]
  unfold Wants
  rcases h3 with ⟨u, m1, m2, m3, m4⟩ | ⟨u, a, m1, m2, m3, m4, m5, m6⟩
  · rw [m1, m2, m3, m4, masked_zeros _ 6 l1, masked_zeros _ 6 (by simp), masked_zeros _ 4 l2, masked_zeros _ 4 (by simp)]
    constructor
    · rintro ⟨-, -, h⟩
      refine ⟨h, ?_⟩
      rcases (unspecified_iff _).mp u with h | h
      · exact Or.inl h
      · exact Or.inr (Or.inl h)
    · rintro ⟨h, -⟩
      exact ⟨rfl, rfl, h⟩
  · have hl := ok.v4 a m1
    rw [m2, m3, m4, masked_ones _ 6 l1, masked_ones _ 6 m5, masked_ones _ 4 l2, masked_ones _ 4 hl, ← m6]
    constructor
    · rintro ⟨h1, h2, h3⟩
      exact ⟨h3, Or.inr (Or.inr ⟨a, m1, h2, h1⟩)⟩
    · rintro ⟨h3, h | h | ⟨a', h, h2, h1⟩⟩
      · exact absurd ((unspecified_iff _).mpr (Or.inl h)) (by rw [u]; decide)
      · exact absurd ((unspecified_iff _).mpr (Or.inr h)) (by rw [u]; decide)
      · rw [m1] at h
        obtain rfl := Addr.v4.inj h
        exact ⟨h1, h2, h3⟩

theorem createFlows_any {ifs : List IfAddr} : ∀ {es : List Endpoint} {rules : List Rule}, createFlows ifs es = some rules → (P : Endpoint → Rule → Prop) →
    (∀ e ∈ es, ∀ r, createFlow ifs e = some r → P e r) → List.Forall₂ P es rules
  | [], rules, h, P, _ => by
    obtain rfl := Option.some.inj h
    exact .nil
  | e :: es, rules, h, P, hP => by
    unfold createFlows at h
    cases h1 : createFlow ifs e with
    | none => rw [h1] at h; cases h
    | some r =>
      cases h2 : createFlows ifs es with
      | none => rw [h1, h2] at h; cases h
      | some rs =>
        rw [h1, h2] at h
        obtain rfl := Option.some.inj h
        exact .cons (hP e (by simp) r h1) (createFlows_any h2 P (fun e he r => hP e (by simp [he]) r))

/-- **C86 (exact).** Of the UDP frames that reach the card, exactly those arrive in the reader's queue that are for one of the endpoints: port,
address, and the ethernet address of the group or of the interface; an endpoint without an address takes every address. -/
theorem C86_exact {ifs : List IfAddr} {es : List Endpoint} (ok : ∀ e ∈ es, e.Ok) {rules : List Rule} (h : createFlows ifs es = some rules)
    {d : Dest} {p f : Bytes} (hf : FrameFor d p f) (fs : List Bytes) (hm : f ∈ fs) :
    f ∈ steered rules fs ↔ ∃ e ∈ es, Wants ifs e d := by
  have h2 := createFlows_any h (fun e r => r.takes f = true ↔ Wants ifs e d) (fun e he r hr => rule_exact (ok e he) hr hf)
  have : (rules.any fun r => r.takes f) = true ↔ ∃ e ∈ es, Wants ifs e d := by
    clear h ok
    induction h2 with
    | nil => simp
    | cons a _ ih => simp only [List.any_cons, Bool.or_eq_true, List.mem_cons, exists_eq_or_imp, a, ih]
  unfold steered
  rw [List.mem_filter, this]
  exact ⟨fun h => h.2, fun h => ⟨hm, h⟩⟩

/-- **C86 (nothing else).** What arrives in the queue is IPv4 and UDP, and nothing is reordered, duplicated or made up. -/
theorem C86_sublist (rules : List Rule) (fs : List Bytes) :
    (steered rules fs).Sublist fs ∧ ∀ f ∈ steered rules fs, slice? f 12 2 = some [0x08, 0x00] ∧ f[23]? = some 17 := by
  refine ⟨List.filter_sublist, fun f hf => ?_⟩
  obtain ⟨-, h⟩ := List.mem_filter.mp hf
  obtain ⟨r, -, h⟩ := List.any_eq_true.mp h
  unfold Rule.takes at h
  split at h
  · rename_i e1 e2 e3 e4 e5
    simp only [Bool.and_eq_true, beq_iff_eq] at h
    rw [e2, e4, h.1.1.1.1.1, h.1.1.1.2]
    exact ⟨rfl, rfl⟩
  · cases h

/-- **C86 (when it works).** With endpoints that the configuration accepts, making the rules fails exactly if an endpoint is the address of no
interface, and neither a group nor without address. -/
theorem C86_exists {ifs : List IfAddr} {es : List Endpoint} (ok : ∀ e ∈ es, e.Ok) (hv : ∀ e ∈ es, e.valid = true) :
    (createFlows ifs es).isSome ↔ ∀ e ∈ es, ∀ a, e.addr = .v4 a → a ≠ [0, 0, 0, 0] → ¬ IsGroup a → ∃ mac, MacOf ifs a mac := by
  have one : ∀ e ∈ es, ((createFlow ifs e).isSome ↔ ∀ a, e.addr = .v4 a → a ≠ [0, 0, 0, 0] → ¬ IsGroup a → ∃ mac, MacOf ifs a mac) := by
    intro e he
    have hve := hv e he
    unfold createFlow
    rw [Option.isSome_map]
    cases ha : e.addr with
    | v6 b =>
      have hu : (Addr.v6 b).unspecified = true := by
        unfold Endpoint.valid at hve
        rw [ha] at hve
        simpa using hve
      rw [if_pos hu]
      simp
    | v4 a =>
      have hl := (ok e he).v4 a ha
      cases hu : (Addr.v4 a).unspecified with
      | true =>
        rw [if_pos rfl]
        have : a = [0, 0, 0, 0] := by simpa [Addr.unspecified] using hu
        simp [this]
      | false =>
        have hne : a ≠ [0, 0, 0, 0] := by
          intro h
          rw [h] at hu
          exact absurd hu (by decide)
        rw [if_neg (by decide)]
        simp only [Addr.toV4, Option.map_some]
        by_cases hm : (Addr.v4 a).multicast = true
        · rw [if_pos hm]
          have hg := (multicast_group hl).mp hm
          constructor
          · intro _ a' h _ hng
            obtain rfl := Addr.v4.inj h
            exact absurd hg hng
          · intro _
            rfl
        · rw [if_neg hm]
          have hg : ¬ IsGroup a := fun h => hm ((multicast_group hl).mpr h)
          cases hi : interfaceMac ifs (.v4 a) with
          | none =>
            constructor
            · intro h; cases h
            · intro h
              obtain ⟨mac, hmac⟩ := h a rfl hne hg
              rw [← interfaceMac_spec, hi] at hmac
              cases hmac
          | some m =>
            constructor
            · intro _ a' h _ _
              obtain rfl := Addr.v4.inj h
              exact ⟨m, (interfaceMac_spec ifs a m).mp hi⟩
            · intro _
              rfl
  clear ok hv
  induction es with
  | nil => simp [createFlows]
  | cons e es ih =>
    have h1 := one e (by simp)
    have h2 := ih (fun e he => one e (by simp [he]))
    have : (createFlows ifs (e :: es)).isSome ↔ (createFlow ifs e).isSome ∧ (createFlows ifs es).isSome := by
      rw [createFlows]
      cases createFlow ifs e <;> cases createFlows ifs es <;> simp
    refine this.trans ((and_congr h1 h2).trans ?_)
    simp only [List.mem_cons, forall_eq_or_imp]

/-- **C86 (groups).** The groups that are joined are the groups among the endpoints. -/
theorem C86_groups (es : List Endpoint) (ok : ∀ e ∈ es, e.Ok) (hv : ∀ e ∈ es, e.valid = true) (x : Addr) :
    x ∈ groups es ↔ ∃ e ∈ es, e.addr = x ∧ ∃ a, x = .v4 a ∧ IsGroup a := by
  unfold groups
  rw [List.mem_map]
  constructor
  · rintro ⟨e, h1, rfl⟩
    obtain ⟨he, hm⟩ := List.mem_filter.mp h1
    refine ⟨e, he, rfl, ?_⟩
    cases ha : e.addr with
    | v4 a => exact ⟨a, rfl, (multicast_group ((ok e he).v4 a ha)).mp (by rw [ha] at hm; exact hm)⟩
    | v6 b =>
      have hve := hv e he
      unfold Endpoint.valid at hve
      rw [ha] at hve hm
      have hb : b = List.replicate 16 0 := by simpa [Addr.unspecified] using hve
      rw [hb] at hm
      exact absurd hm (by decide)
  · rintro ⟨e, he, rfl, a, ha, hg⟩
    refine ⟨e, List.mem_filter.mpr ⟨he, ?_⟩, rfl⟩
    rw [ha]
    exact (multicast_group ((ok e he).v4 a ha)).mpr hg

/-- Two interfaces, one of them with two addresses. -/
def exIfs : List IfAddr :=
  [⟨"lo", .inet [127, 0, 0, 1]⟩, ⟨"eth0", .link 1 [2, 0, 0, 0, 0, 1]⟩, ⟨"eth1", .link 1 [2, 0, 0, 0, 0, 2]⟩, ⟨"eth1", .inet [10, 0, 0, 7]⟩,
    ⟨"eth0", .inet [10, 0, 0, 5]⟩, ⟨"ib0", .link 32 (List.replicate 20 1)⟩]

def exEndpoints : List Endpoint := [⟨.v4 [239, 129, 1, 2], 7148⟩, ⟨.v4 [10, 0, 0, 5], 8888⟩, ⟨.v4 [0, 0, 0, 0], 9000⟩]

example : createFlows exIfs exEndpoints =
    some [⟨[1, 0, 0x5e, 1, 1, 2], List.replicate 6 255, [239, 129, 1, 2], List.replicate 4 255, [27, 236], [255, 255]⟩,
      ⟨[2, 0, 0, 0, 0, 1], List.replicate 6 255, [10, 0, 0, 5], List.replicate 4 255, [34, 184], [255, 255]⟩,
      ⟨List.replicate 6 0, List.replicate 6 0, List.replicate 4 0, List.replicate 4 0, [35, 40], [255, 255]⟩] := by
  decide +kernel

example : (∀ e ∈ exEndpoints, e.Ok) ∧ ∀ e ∈ exEndpoints, e.valid = true := by
  refine ⟨?_, by decide⟩
  intro e he
  simp only [exEndpoints, List.mem_cons, List.not_mem_nil, or_false] at he
  rcases he with rfl | rfl | rfl <;> exact ⟨fun b h => by cases h; rfl, fun b h => (by cases h), by decide⟩

example : createFlows exIfs [⟨.v4 [10, 0, 0, 6], 8888⟩] = none := by decide +kernel

end Spead2.Flow
