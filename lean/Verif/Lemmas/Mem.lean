import Verif.Model.Mem
import Verif.Spec.Mem
import Verif.Lemmas.EndToEnd
import Verif.Lemmas.StreamAccount
import Verif.Props.Descriptor

namespace Spead2
open Spec

theorem WellFormed.append {b : Bytes} {aw : UInt8} {table : List Nat} {payload : Bytes} {cnt off : Nat} {hlen : Option Nat}
    (wf : WellFormed b aw table payload cnt off hlen) (r : Bytes) : WellFormed (b ++ r) aw table payload cnt off hlen := by
  obtain ⟨⟨rest, iw, r0, r1, hb, h1, h2, h3, h4, h5⟩, w2, w3, w4, w5, w6⟩ := wf
  refine ⟨⟨rest ++ r, iw, r0, r1, ?_, h1, h2, h3, h4, h5⟩, w2, w3, w4, w5, w6⟩
  rw [hb]
  simp only [List.append_assoc]

/-- A packet at the start of a buffer is what the decoder sees. -/
theorem isPacket_decode {b : Bytes} {p : Pkt} (h : IsPacket b p) (r : Bytes) :
    ∃ hd, decodePacket (b ++ r) = some (some (hd, b.length)) ∧ hd.toPkt? (b ++ r) = some p := by
  obtain ⟨aw, table, payload, cnt, off, hlen, wf, hl, rfl⟩ := h
  have wf' := WellFormed.append wf r
  have hd := (C04_accept_iff (b ++ r) ⟨_, _, _, _, _, _, _, _⟩ _).2
      ⟨_, _, _, _, _, _, wf', rfl, rfl, rfl, rfl, rfl, rfl, rfl, rfl, rfl⟩
  rw [← hl] at hd
  refine ⟨_, hd, ?_⟩
  have hr := recv_wellFormed wf'
  unfold recvPkt? at hr
  rw [hd] at hr
  simp only [Option.map_eq_some_iff, Option.some.injEq, exists_eq_right] at hr
  exact hr

theorem hasTable_length {d : Bytes} {aw : UInt8} {table : List Nat} {rest : Bytes} (h : HasTable d aw table rest) :
    d.length = 8 + 8 * table.length + rest.length := by
  obtain ⟨iw, r0, r1, rfl, _⟩ := h
  have key : ∀ table : List Nat, (table.flatMap (beBytes 8)).length = 8 * table.length := by
    intro table
    induction table with
    | nil => rfl
    | cons a l ih => rw [List.flatMap_cons, List.length_append, ih, beBytes_length, List.length_cons]; omega
  have := key table
  simp only [headerBytes, List.length_append, List.length_cons, List.length_nil, beBytes_length, this]

theorem decode_isPacket {d : Bytes} {h : PacketHeader} {size : Nat} (hd : decodePacket d = some (some (h, size))) :
    ∃ p, h.toPkt? d = some p ∧ PktValid p ∧ 0 < size ∧ size ≤ d.length ∧ IsPacket (d.take size) p := by
  obtain ⟨p, hp, hv, aw, table, cnt, off, hlen, wf, e1, e2, e3, e4, e5⟩ := C11_decoded_packets_valid d h size hd
  obtain ⟨rest, ht⟩ := wf.layout
  have hlen' := hasTable_length ht
  obtain ⟨aw', table', payload', cnt', off', hlen'', wf', _, _, _, _, _, _, _, _, hsz⟩ := (C04_accept_iff d h size).1 hd
  obtain ⟨rest', ht'⟩ := wf'.layout
  obtain ⟨f1, f2, f3⟩ := hasTable_unique ht ht'
  subst f1 f2
  have f4 := wf'.payloadLength.symm.trans wf.payloadLength
  simp only [Option.some.injEq] at f4
  rw [f4] at hsz
  rw [List.length_append] at hlen'
  refine ⟨p, hp, hv, by omega, by omega, aw, table, p.payload, cnt, off, hlen, ?_, ?_, ?_⟩
  · refine ⟨⟨[], ?_⟩, wf.heapCnt, wf.heapLength, wf.payloadOffset, wf.payloadLength, wf.fits⟩
    obtain ⟨iw, r0, r1, rfl, g1, g2, g3, g4, g5⟩ := ht
    refine ⟨iw, r0, r1, ?_, g1, g2, g3, g4, g5⟩
    rw [← List.append_assoc _ p.payload rest, List.append_nil]
    apply List.take_left'
    have := hasTable_length (d := headerBytes iw aw r0 r1 table.length ++ table.flatMap (beBytes 8) ++ p.payload)
      ⟨iw, r0, r1, rfl, g1, g2, g3, g4, g5⟩
    omega
  · rw [List.length_take]; omega
  · cases p; simp only at e1 e2 e3 e4 e5; rw [e1, e2, e3, e4, e5]

theorem isPacket_pos {b : Bytes} {p : Pkt} (h : IsPacket b p) : 0 < b.length := by
  obtain ⟨aw, table, payload, cnt, off, hlen, wf, hl, rfl⟩ := h
  omega

/-- A buffer starts with at most one packet. -/
theorem isPacket_prefix {b b' r r' : Bytes} {p p' : Pkt} (h : IsPacket b p) (h' : IsPacket b' p') (e : b ++ r = b' ++ r') :
    b = b' ∧ p = p' ∧ r = r' := by
  obtain ⟨hd, h1, h2⟩ := isPacket_decode h r
  obtain ⟨hd', h1', h2'⟩ := isPacket_decode h' r'
  rw [e, h1'] at h1
  simp only [Option.some.injEq, Prod.mk.injEq] at h1
  obtain ⟨rfl, hl⟩ := h1
  rw [e, h2'] at h2
  obtain ⟨e1, e2⟩ := List.append_inj e hl.symm
  exact ⟨e1, (Option.some.inj h2).symm, e2⟩

theorem splits_unique : ∀ {l l' : List (Bytes × Pkt)} {d rest rest' : Bytes}, SplitsInto d l rest → SplitsInto d l' rest' → l' = l ∧ rest' = rest
  | [], [], d, rest, rest', h, h' => by
    have := h.concat; have := h'.concat
    simp_all
  | [], y :: l', d, rest, rest', h, h' => by
    exfalso
    apply h.maximal
    refine ⟨y.1, y.2, (l'.map Prod.fst).flatten ++ rest', ?_, h'.packets y List.mem_cons_self⟩
    have := h.concat; have := h'.concat
    simp_all
  | x :: l, [], d, rest, rest', h, h' => by
    exfalso
    apply h'.maximal
    refine ⟨x.1, x.2, (l.map Prod.fst).flatten ++ rest, ?_, h.packets x List.mem_cons_self⟩
    have := h.concat; have := h'.concat
    simp_all
  | x :: l, y :: l', d, rest, rest', h, h' => by
    have e : x.1 ++ ((l.map Prod.fst).flatten ++ rest) = y.1 ++ ((l'.map Prod.fst).flatten ++ rest') := by
      have := h.concat; have := h'.concat
      simp_all
    obtain ⟨e1, e2, e3⟩ := isPacket_prefix (h.packets x List.mem_cons_self) (h'.packets y List.mem_cons_self) e
    obtain ⟨e4, e5⟩ := splits_unique (l := l) (l' := l') (d := (l.map Prod.fst).flatten ++ rest) (rest := rest) (rest' := rest')
      ⟨rfl, fun z hz => h.packets z (List.mem_cons_of_mem _ hz), h.maximal⟩
      ⟨e3, fun z hz => h'.packets z (List.mem_cons_of_mem _ hz), h'.maximal⟩
    exact ⟨by rw [e4, Prod.ext e1 e2], e5⟩

theorem splits_cons {d : Bytes} {l : List (Bytes × Pkt)} {rest b : Bytes} {p : Pkt} (hb : IsPacket b p) (h : SplitsInto d l rest) :
    SplitsInto (b ++ d) ((b, p) :: l) rest := by
  refine ⟨?_, ?_, h.maximal⟩
  · have := h.concat
    simp_all
  · intro x hx
    rcases List.mem_cons.1 hx with rfl | hx
    · exact hb
    · exact h.packets x hx

theorem decode_none_maximal {d : Bytes} (h : decodePacket d = some none) : ¬ ∃ b p r, d = b ++ r ∧ IsPacket b p := by
  rintro ⟨b, p, r, rfl, hp⟩
  obtain ⟨hd, h1, _⟩ := isPacket_decode hp r
  rw [h] at h1
  cases h1

theorem splits_exists (d : Bytes) : ∃ l rest, SplitsInto d l rest := by
  induction hn : d.length using Nat.strongRecOn generalizing d with
  | _ n ih =>
    cases hdec : decodePacket d with
    | none => exact absurd hdec (C03_decode_safe d).2.1
    | some o =>
      cases o with
      | none => exact ⟨[], d, rfl, by simp, decode_none_maximal hdec⟩
      | some x =>
        obtain ⟨h, size⟩ := x
        obtain ⟨p, _, _, hs0, hs1, hp⟩ := decode_isPacket hdec
        obtain ⟨l, rest, hsp⟩ := ih (d.drop size).length (by rw [List.length_drop]; omega) (d.drop size) rfl
        refine ⟨(d.take size, p) :: l, rest, ?_⟩
        have := splits_cons hp hsp
        rwa [List.take_append_drop] at this

/-- The packets of a split as batch operations. -/
def asOps (l : List (Bytes × Pkt)) : List BatchOp := l.map (fun x => .packet x.2)

theorem splits_valid {d : Bytes} {l : List (Bytes × Pkt)} {rest : Bytes} (h : SplitsInto d l rest) : OpsValid (asOps l) := by
  intro p hp
  obtain ⟨x, hx, e⟩ := List.mem_map.1 hp
  simp only [BatchOp.packet.injEq] at e
  subst e
  obtain ⟨hd, h1, h2⟩ := isPacket_decode (h.packets x hx) []
  obtain ⟨p, h3, h4, _⟩ := decode_isPacket h1
  rw [h2] at h3
  cases h3
  exact h4

theorem batchLoop_stopped (cfg : StreamConfig) (ops : List BatchOp) (s : Stream) (st : Batch) (h : st.stopped = true) :
    Stream.batchLoop cfg ops s st = some (s, st, []) := by
  cases ops with
  | nil => rfl
  | cons op ops => cases op <;> rw [Stream.batchLoop, if_pos h]

theorem memLoop_spec (cfg : StreamConfig) : ∀ (l : List (Bytes × Pkt)) (k : Nat) (d rest : Bytes) (s : Stream) (st : Batch),
    d.length < k → SplitsInto d l rest → ∀ s' st' out, Stream.batchLoop cfg (asOps l) s st = some (s', st', out) →
    ∃ j, j ≤ l.length ∧ memLoop cfg k d s st = some (s', st', out, (((l.take j).map Prod.fst).flatten).length) ∧
      Stream.batchLoop cfg (asOps (l.take j)) s st = some (s', st', out) ∧ (st'.stopped = false → j = l.length) ∧
      ∀ i, i < j → ∃ s1 st1 out1, Stream.batchLoop cfg (asOps (l.take i)) s st = some (s1, st1, out1) ∧ st1.stopped = false
  | l, 0, d, rest, s, st, hk, _ => by omega
  | l, k + 1, d, rest, s, st, hk, hsp => by
    intro s' st' out hb
    cases hst : st.stopped with
    | true =>
      refine ⟨0, Nat.zero_le _, ?_, ?_, ?_, fun i hi => by omega⟩
      · rw [batchLoop_stopped _ _ _ _ hst] at hb
        cases hb
        rw [memLoop, if_neg (by simp [hst])]
        simp
      · rw [batchLoop_stopped _ _ _ _ hst] at hb ⊢
        exact hb
      · rw [batchLoop_stopped _ _ _ _ hst] at hb
        cases hb
        intro h; rw [hst] at h; cases h
    | false =>
      cases l with
      | nil =>
        refine ⟨0, Nat.zero_le _, ?_, hb, fun _ => rfl, fun i hi => by omega⟩
        simp only [asOps, List.map_nil, Stream.batchLoop, Option.some.injEq, Prod.mk.injEq] at hb
        obtain ⟨rfl, rfl, rfl⟩ := hb
        rw [memLoop]
        by_cases h0 : d.length > 0
        · rw [if_pos ⟨h0, hst⟩]
          have hd : d = rest := by simpa using hsp.concat
          cases hdec : decodePacket d with
          | none => exact absurd hdec (C03_decode_safe d).2.1
          | some o =>
            cases o with
            | none => rfl
            | some x =>
              obtain ⟨h, size⟩ := x
              obtain ⟨p, _, _, _, _, hp⟩ := decode_isPacket hdec
              exact absurd ⟨d.take size, p, d.drop size, by rw [List.take_append_drop, hd], hp⟩ hsp.maximal
        · rw [if_neg (fun h => h0 h.1)]
          rfl
      | cons x l =>
        have hx := hsp.packets x List.mem_cons_self
        have hd : d = x.1 ++ ((l.map Prod.fst).flatten ++ rest) := by have := hsp.concat; simp_all
        obtain ⟨hdr, h1, h2⟩ := isPacket_decode hx ((l.map Prod.fst).flatten ++ rest)
        rw [← hd] at h1 h2
        have hx0 := isPacket_pos hx
        have hlen : d.length = x.1.length + ((l.map Prod.fst).flatten ++ rest).length := by rw [hd, List.length_append]
        have hdrop : d.drop x.1.length = (l.map Prod.fst).flatten ++ rest := by rw [hd]; exact List.drop_left
        have hstep : ∀ (l' : List (Bytes × Pkt)), Stream.batchLoop cfg (asOps (x :: l')) s st =
            (s.addPacket cfg st x.2).bind (fun r => (Stream.batchLoop cfg (asOps l') r.stream r.batch).bind
              (fun r' => some (r'.1, r'.2.1, r.out ++ r'.2.2))) := by
          intro l'
          simp only [asOps, List.map_cons]
          rw [Stream.batchLoop, if_neg (by simp [hst])]
          rfl
        rw [hstep] at hb
        cases ha : s.addPacket cfg st x.2 with
        | none => rw [ha] at hb; cases hb
        | some r =>
          rw [ha, Option.bind_some] at hb
          cases hb' : Stream.batchLoop cfg (asOps l) r.stream r.batch with
          | none => rw [hb'] at hb; cases hb
          | some t =>
            obtain ⟨s2, st2, out2⟩ := t
            rw [hb', Option.bind_some, Option.some.injEq, Prod.mk.injEq, Prod.mk.injEq] at hb
            obtain ⟨rfl, rfl, rfl⟩ := hb
            obtain ⟨j, g1, g2, g3, g4, g5⟩ := memLoop_spec cfg l k (d.drop x.1.length) rest r.stream r.batch (by rw [hdrop]; omega)
              ⟨hdrop, fun z hz => hsp.packets z (List.mem_cons_of_mem _ hz), hsp.maximal⟩ _ _ _ hb'
            refine ⟨j + 1, by simpa using g1, ?_, ?_, fun h => by rw [g4 h]; rfl, ?_⟩
            · rw [memLoop, if_pos ⟨by omega, hst⟩, h1]
              simp only [h2, ha, g2]
              simp [List.take_succ_cons]
            · rw [List.take_succ_cons, hstep, ha, Option.bind_some, g3, Option.bind_some]
            · intro i hi
              cases i with
              | zero => exact ⟨s, st, [], rfl, hst⟩
              | succ i =>
                obtain ⟨s1, st1, out1, q1, q2⟩ := g5 i (by omega)
                exact ⟨s1, st1, r.out ++ out1, by rw [List.take_succ_cons, hstep, ha, Option.bind_some, q1, Option.bind_some], q2⟩

end Spead2
