import Verif.Spec.Tcp
import Verif.Lemmas.Mem
import Verif.Props.Wire

/-!
# TCP reader: lemmas
-/

namespace Spead2
open Spec

theorem announces_size {d : Bytes} {n : Nat} (h : Announces d n) : getPacketSize d = some (n : Int) ∧ 8 ≤ n ∧ 8 ≤ d.length := by
  obtain ⟨aw, table, rest, len, h1, h2, rfl⟩ := h
  have hl := hasTable_length h1
  rw [getPacketSize_table h1, h2]
  refine ⟨?_, by omega, by omega⟩
  show some ((len + 8 * table.length + 8 : Nat) : Int) = _
  congr 2
  omega

theorem malformed_size {d : Bytes} (h : Malformed d) : getPacketSize d = some (-1) := by
  obtain ⟨h8, h | ⟨aw, table, rest, h1, h2⟩⟩ := h
  · rcases datagram_cases d h8 with ⟨hh, hn⟩ | ⟨hab, n, hh, hl, hn⟩ | ⟨aw, table, rest, ht⟩
    · simp [getPacketSize, hh, Nat.not_lt.2 h8]
    · exfalso
      obtain ⟨iw, aw, r0, r1, rest, hd, hhab, h1, h2, h3, h4⟩ := decodeHeader_inv h8 hh
      -- some extension has a table
      generalize hD : d ++ List.replicate (8 * 65535 + 8) (0 : UInt8) = D
      have hlen : D.length = d.length + (8 * 65535 + 8) := by
        rw [← hD, List.length_append, List.length_replicate]
      have hhD : decodeHeader D = some (some (hab, n)) := by
        rw [← hD]
        obtain ⟨m0, m1, iw, aw, r0, r1, n0, n1, rest, e⟩ := exists_eight (d := d) h8
        rw [e] at hh ⊢
        rw [List.append_assoc, decodeHeader_bytes]
        rwa [decodeHeader_bytes] at hh
      rcases datagram_cases D (by omega) with ⟨hh', hn'⟩ | ⟨hab', n', hh', hl', hn'⟩ | ⟨aw', table', rest', ht'⟩
      · rw [hh'] at hhD; cases hhD
      · rw [hh'] at hhD; cases hhD; omega
      · exact h _ _ _ _ (hD ▸ ht')
    · exact absurd ht (by have := h [] aw table rest; simpa using this)
  · rw [getPacketSize_table h1, h2]

/-- The three outcomes of reading a packet size. -/
theorem size_cases (d : Bytes) :
    (getPacketSize d = some (-1) ∧ Malformed d) ∨
    (∃ n : Nat, getPacketSize d = some (n : Int) ∧ 8 ≤ n ∧ Announces d n) ∨
    (getPacketSize d = some 0 ∧ ¬ Malformed d ∧ (∀ n, ¬ Announces d n) ∧ d.length < 524288) := by
  have key : getPacketSize d = some 0 → d.length < 524288 →
      (getPacketSize d = some 0 ∧ ¬ Malformed d ∧ (∀ n, ¬ Announces d n) ∧ d.length < 524288) := by
    intro h hl
    refine ⟨h, fun hm => ?_, fun n hn => ?_, hl⟩
    · rw [malformed_size hm] at h; cases h
    · have := announces_size hn
      rw [this.1] at h
      simp only [Option.some.injEq] at h
      omega
  by_cases h8 : d.length < 8
  · exact Or.inr (Or.inr (key (by simp [getPacketSize, h8]) (by omega)))
  · rcases datagram_cases d (by omega) with ⟨hh, hn⟩ | ⟨hab, n, hh, hl, hn⟩ | ⟨aw, table, rest, ht⟩
    · refine Or.inl ⟨by simp [getPacketSize, hh, h8], by omega, Or.inl ?_⟩
      intro e aw table rest ht
      have : decodeHeader (d ++ e) = some none := by
        obtain ⟨m0, m1, iw, aw, r0, r1, n0, n1, rest, rfl⟩ := exists_eight (d := d) (by omega)
        rw [List.append_assoc, decodeHeader_bytes]
        rwa [decodeHeader_bytes] at hh
      have f := (hasTable_facts ht).1
      rw [this] at f
      cases f
    · obtain ⟨iw, aw, r0, r1, rest, hd, hhab, h1, h2, h3, h4⟩ := decodeHeader_inv (by omega) hh
      exact Or.inr (Or.inr (key (by simp [getPacketSize, h8, hh, hl]) (by omega)))
    · cases hf : firstImm aw.toNat 4 table with
      | none => exact Or.inl ⟨by rw [getPacketSize_table ht, hf], by omega, Or.inr ⟨aw, table, rest, ht, hf⟩⟩
      | some len =>
        exact Or.inr (Or.inl ⟨8 + 8 * table.length + len, by
          rw [getPacketSize_table ht, hf]
          show some ((len + 8 * table.length + 8 : Nat) : Int) = _
          congr 2
          omega, by omega, aw, table, rest, len, ht, hf, rfl⟩)

/-- The packet that a frame is, if it is one. -/
def framePkt (b : Bytes) : List Pkt :=
  match decodePacket b with
  | some (some (h, size)) => if size = b.length then (h.toPkt? b).toList else []
  | _ => []

theorem framePkt_packet {b : Bytes} {p : Pkt} (h : IsPacket b p) : framePkt b = [p] := by
  obtain ⟨hd, h1, h2⟩ := isPacket_decode h []
  rw [List.append_nil] at h1 h2
  unfold framePkt
  rw [h1]
  simp only [if_true, h2]
  rfl

/-- The packet size as the reader sees it: from at most one buffer of data. -/
def gps (max : Nat) (d : Bytes) : Option Int := getPacketSize (d.take (64 * max))

theorem gps_eq {max : Nat} {d : Bytes} (h : d.length ≤ 64 * max) : gps max d = getPacketSize d := by
  unfold gps; rw [List.take_of_length_le h]

theorem gps_append {max : Nat} {d : Bytes} (e : Bytes) {r : Int} (h : gps max d = some r) (hr : r ≠ 0) : gps max (d ++ e) = some r := by
  unfold gps at h ⊢
  rw [List.take_append]
  exact C05_stable _ _ _ h hr

/-- Parsing a byte stream: the packets, the unprocessed bytes, and the number of bytes of the future to skip. -/
def tcpParse (max : Nat) (d : Bytes) : List Pkt × Bytes × Nat :=
  if gps max d = some (-1) then
    if d = [] then ([], d, 0) else tcpParse max (d.drop 8)
  else if gps max d = some 0 then
    if d.length < 64 * max then ([], d, 0) else if max = 0 then ([], d, 0) else tcpParse max (d.drop (64 * max))
  else
    match gps max d with
    | none => ([], d, 0)
    | some r =>
      if r.toNat = 0 then ([], d, 0)
      else if r.toNat > max then
        if d.length ≤ r.toNat then ([], [], r.toNat - d.length)
        else tcpParse max (d.drop r.toNat)
      else if d.length < r.toNat then ([], d, 0)
      else if d = [] then ([], d, 0)
      else (framePkt (d.take r.toNat) ++ (tcpParse max (d.drop r.toNat)).1, (tcpParse max (d.drop r.toNat)).2)
termination_by d.length
decreasing_by
  all_goals simp only [List.length_drop]
  all_goals first
    | (rename_i h; have := List.length_pos_iff.2 h; omega)
    | (have : d ≠ [] := by assumption
       have := List.length_pos_iff.2 this; omega)
    | omega

/-- `tcpParse` when `k` bytes are to be skipped first. -/
def tcpParseK (max : Nat) (d : Bytes) (k : Nat) : List Pkt × Bytes × Nat :=
  if k = 0 then tcpParse max d
  else if d.length ≤ k then ([], [], k - d.length)
  else tcpParse max (d.drop k)

theorem tcpParse_malformed {max : Nat} {d : Bytes} (h : gps max d = some (-1)) : 8 ≤ d.length ∧ tcpParse max d = tcpParse max (d.drop 8) := by
  have h8 : 8 ≤ d.length := by
    unfold gps at h
    have hl := List.length_take_le (64 * max) d
    have hl2 := List.length_take_le' (64 * max) d
    rcases size_cases (d.take (64 * max)) with ⟨_, h⟩ | ⟨n, h', h8, _⟩ | ⟨h', _⟩
    · have := h.1; omega
    · rw [h] at h'; simp only [Option.some.injEq] at h'; omega
    · rw [h] at h'; cases h'
  refine ⟨h8, ?_⟩
  rw [tcpParse, if_pos h, if_neg (by intro e; subst e; simp at h8)]

theorem tcpParse_more {max : Nat} {d : Bytes} (h : gps max d = some 0) (hl : d.length < 64 * max) :
    tcpParse max d = ([], d, 0) := by
  rw [tcpParse, if_neg (by rw [h]; decide), if_pos h, if_pos hl]

theorem tcpParse_endless {max : Nat} {d : Bytes} (h : gps max d = some 0) (hl : 64 * max ≤ d.length) (h0 : 0 < max) :
    tcpParse max d = tcpParse max (d.drop (64 * max)) := by
  rw [tcpParse, if_neg (by rw [h]; decide), if_pos h, if_neg (by omega), if_neg (by omega)]

theorem tcpParse_over {max : Nat} {d : Bytes} {n : Nat} (h : gps max d = some (n : Int)) (hn : 8 ≤ n) (hm : max < n) :
    tcpParse max d = if d.length ≤ n then ([], [], n - d.length) else tcpParse max (d.drop n) := by
  rw [tcpParse, if_neg (by rw [h]; simp only [Option.some.injEq]; omega), if_neg (by rw [h]; simp only [Option.some.injEq]; omega), h]
  simp only [Int.toNat_natCast]
  rw [if_neg (by omega), if_pos hm]

theorem tcpParse_frame {max : Nat} {d : Bytes} {n : Nat} (h : gps max d = some (n : Int)) (hn : 8 ≤ n) (hm : n ≤ max) (hl : n ≤ d.length) :
    tcpParse max d = (framePkt (d.take n) ++ (tcpParse max (d.drop n)).1, (tcpParse max (d.drop n)).2) := by
  rw [tcpParse, if_neg (by rw [h]; simp only [Option.some.injEq]; omega), if_neg (by rw [h]; simp only [Option.some.injEq]; omega), h]
  simp only [Int.toNat_natCast]
  rw [if_neg (by omega), if_neg (by omega), if_neg (by omega), if_neg (by intro e; subst e; simp at hl; omega)]

theorem tcpParse_short {max : Nat} {d : Bytes} {n : Nat} (h : gps max d = some (n : Int)) (hn : 8 ≤ n) (hm : n ≤ max) (hl : d.length < n) :
    tcpParse max d = ([], d, 0) := by
  rw [tcpParse, if_neg (by rw [h]; simp only [Option.some.injEq]; omega), if_neg (by rw [h]; simp only [Option.some.injEq]; omega), h]
  simp only [Int.toNat_natCast]
  rw [if_neg (by omega), if_neg (by omega), if_pos hl]

theorem tcpParse_nil (max : Nat) : tcpParse max [] = ([], [], 0) := by
  have h : gps max [] = some 0 := by simp [gps, getPacketSize]
  rw [tcpParse, if_neg (by rw [h]; decide), if_pos h]
  split
  · rfl
  · split
    · rfl
    · simp only [List.length_nil] at *; omega

theorem tcpParse_over' {max : Nat} {d : Bytes} {n : Nat} (h : gps max d = some (n : Int)) (hn : 8 ≤ n) (hm : max < n) :
    tcpParse max d = tcpParseK max d n := by
  rw [tcpParse_over h hn hm, tcpParseK, if_neg (show ¬ n = 0 by omega)]

/-- The result of parsing `e` after parsing gave `x`. -/
def tcpThen (max : Nat) (x : List Pkt × Bytes × Nat) (e : Bytes) : List Pkt × Bytes × Nat :=
  (x.1 ++ (tcpParseK max (x.2.1 ++ e) x.2.2).1, (tcpParseK max (x.2.1 ++ e) x.2.2).2)

theorem tcpParseK_append_aux {max : Nat} {d e : Bytes} {k : Nat} (hk : k ≠ 0)
    (H : k < d.length → tcpParse max (d.drop k ++ e) = tcpThen max (tcpParse max (d.drop k)) e) :
    tcpParseK max (d ++ e) k = tcpThen max (tcpParseK max d k) e := by
  by_cases hl : d.length ≤ k
  · have h1 : tcpParseK max d k = ([], [], k - d.length) := by unfold tcpParseK; rw [if_neg hk, if_pos hl]
    rw [h1]
    unfold tcpThen
    simp only [List.nil_append]
    have hd : (d ++ e).drop k = e.drop (k - d.length) := by rw [List.drop_append, List.drop_of_length_le hl]; rfl
    by_cases hle : d.length + e.length ≤ k
    · have h2 : tcpParseK max (d ++ e) k = ([], [], k - (d.length + e.length)) := by
        unfold tcpParseK; rw [if_neg hk, List.length_append, if_pos hle]
      rw [h2]
      by_cases he : k - d.length = 0
      · have : e = [] := List.length_eq_zero_iff.1 (by omega)
        subst this
        rw [he]
        unfold tcpParseK
        rw [if_pos rfl, tcpParse_nil]
        simp
        omega
      · unfold tcpParseK
        rw [if_neg he, if_pos (show e.length ≤ k - d.length by omega)]
        simp only [Prod.mk.injEq, true_and]
        omega
    · have h2 : tcpParseK max (d ++ e) k = tcpParse max (e.drop (k - d.length)) := by
        unfold tcpParseK; rw [if_neg hk, List.length_append, if_neg hle, hd]
      rw [h2]
      by_cases he : k - d.length = 0
      · rw [he]
        unfold tcpParseK
        rw [if_pos rfl]
        rfl
      · unfold tcpParseK
        rw [if_neg he, if_neg (show ¬ e.length ≤ k - d.length by omega)]
  · have h1 : tcpParseK max d k = tcpParse max (d.drop k) := by unfold tcpParseK; rw [if_neg hk, if_neg hl]
    have h2 : tcpParseK max (d ++ e) k = tcpParse max (d.drop k ++ e) := by
      unfold tcpParseK; rw [if_neg hk, if_neg (by rw [List.length_append]; omega), List.drop_append_of_le_length (by omega)]
    rw [h1, h2]
    exact H (by omega)

/-- Parsing in two steps. -/
theorem tcpParse_append {max : Nat} (h0 : 0 < max) (e : Bytes) : ∀ (m : Nat) (d : Bytes), d.length ≤ m →
    tcpParse max (d ++ e) = tcpThen max (tcpParse max d) e := by
  intro m
  induction m with
  | zero =>
    intro d hd
    have : d = [] := List.length_eq_zero_iff.1 (by omega)
    subst this
    rw [tcpParse_nil]
    simp [tcpParseK, tcpThen]
  | succ m ih =>
    intro d hd
    rcases size_cases (d.take (64 * max)) with ⟨h, hm⟩ | ⟨n, h, h8, ha⟩ | ⟨h, _, _, hlt⟩
    · obtain ⟨q1, q2⟩ := tcpParse_malformed (max := max) h
      have h' := gps_append e h (by decide)
      obtain ⟨q3, q4⟩ := tcpParse_malformed (max := max) h'
      rw [q2, q4, List.drop_append_of_le_length q1]
      exact ih _ (by rw [List.length_drop]; omega)
    · have h' := gps_append e h (by omega)
      by_cases hn : max < n
      · rw [tcpParse_over' h h8 hn, tcpParse_over' h' h8 hn]
        exact tcpParseK_append_aux (by omega) (fun hl => ih _ (by rw [List.length_drop]; omega))
      · by_cases hl : n ≤ d.length
        · rw [tcpParse_frame h h8 (by omega) hl, tcpParse_frame h' h8 (by omega) (by rw [List.length_append]; omega),
            List.drop_append_of_le_length hl, List.take_append_of_le_length hl, ih (d.drop n) (by rw [List.length_drop]; omega)]
          simp only [tcpThen, List.append_assoc]
        · rw [tcpParse_short h h8 (by omega) (by omega)]
          simp [tcpParseK, tcpThen]
    · by_cases hl : d.length < 64 * max
      · rw [tcpParse_more (d := d) h hl]
        simp [tcpParseK, tcpThen]
      · have h' : gps max (d ++ e) = some 0 := by
          unfold gps; rw [List.take_append_of_le_length (by omega)]; exact h
        rw [tcpParse_endless h (by omega) h0, tcpParse_endless h' (by rw [List.length_append]; omega) h0, List.drop_append_of_le_length (by omega)]
        exact ih _ (by rw [List.length_drop]; omega)

theorem tcpParseK_append {max : Nat} (h0 : 0 < max) (d e : Bytes) (k : Nat) :
    tcpParseK max (d ++ e) k = tcpThen max (tcpParseK max d k) e := by
  by_cases hk : k = 0
  · subst hk
    have := tcpParse_append h0 e d.length d (Nat.le_refl _)
    unfold tcpParseK
    rw [if_pos rfl, if_pos rfl]
    exact this
  · exact tcpParseK_append_aux hk (fun _ => tcpParse_append h0 e _ _ (Nat.le_refl _))

/-- The parser computes the packets of the specification. -/
theorem tcpParse_spec {max : Nat} (h0 : 0 < max) : ∀ (m : Nat) (d : Bytes), d.length ≤ m → TcpPackets max d (tcpParse max d).1 := by
  intro m
  induction m with
  | zero =>
    intro d hd
    have : d = [] := List.length_eq_zero_iff.1 (by omega)
    subst this
    rw [tcpParse_nil]
    refine .more (fun h => by have := h.1; simp at this) (fun n h => by have := (announces_size h).2.2; simp at this) (by simp; omega)
  | succ m ih =>
    intro d hd
    rcases size_cases (d.take (64 * max)) with ⟨h, hm⟩ | ⟨n, h, h8, ha⟩ | ⟨h, q1, q2, hlt⟩
    · obtain ⟨g1, g2⟩ := tcpParse_malformed (max := max) h
      rw [g2]
      exact .malformed hm (ih _ (by rw [List.length_drop]; omega))
    · have hd8 : 8 ≤ d.length := by
        have := (announces_size ha).2.2
        rw [List.length_take] at this
        omega
      by_cases hn : max < n
      · rw [tcpParse_over h h8 hn]
        refine .oversize ha hn ?_
        split
        · rename_i hl
          have := ih (d.drop n) (by rw [List.length_drop]; omega)
          rw [List.drop_of_length_le hl, tcpParse_nil] at this
          rw [List.drop_of_length_le hl]
          exact this
        · exact ih _ (by rw [List.length_drop]; omega)
      · by_cases hl : n ≤ d.length
        · rw [tcpParse_frame h h8 (by omega) hl]
          have hrec := ih (d.drop n) (by rw [List.length_drop]; omega)
          by_cases hp : ∃ p, IsPacket (d.take n) p
          · obtain ⟨p, hp⟩ := hp
            rw [framePkt_packet hp]
            exact .packet ha (by omega) hp hl hrec
          · have : framePkt (d.take n) = [] := by
              unfold framePkt
              cases hdec : decodePacket (d.take n) with
              | none => rfl
              | some o =>
                cases o with
                | none => rfl
                | some x =>
                  obtain ⟨hh, size⟩ := x
                  obtain ⟨p, hp1, _, _, _, hp2⟩ := decode_isPacket hdec
                  simp only
                  rw [if_neg]
                  intro e
                  rw [e, List.take_length] at hp2
                  exact hp ⟨p, hp2⟩
            rw [this]
            exact .invalid ha (by omega) hl (fun p hh => hp ⟨p, hh⟩) hrec
        · rw [tcpParse_short h h8 (by omega) (by omega)]
          exact .short ha (by omega) (by omega)
    · by_cases hl : d.length < 64 * max
      · rw [tcpParse_more h hl]
        exact .more q1 q2 hl
      · rw [tcpParse_endless h (by omega) h0]
        exact .endless q1 q2 (by omega) (ih _ (by rw [List.length_drop]; omega))

theorem announces_unique {d : Bytes} {n m : Nat} (h : Announces d n) (h' : Announces d m) : n = m := by
  have := (announces_size h).1.symm.trans (announces_size h').1
  simp only [Option.some.injEq] at this
  omega

theorem announces_malformed {d : Bytes} {n : Nat} (h : Announces d n) (h' : Malformed d) : False := by
  have := (announces_size h).1.symm.trans (malformed_size h')
  simp only [Option.some.injEq] at this
  omega

theorem tcpPackets_unique {max : Nat} {d : Bytes} {ps ps' : List Pkt} (h : TcpPackets max d ps) (h' : TcpPackets max d ps') : ps = ps' := by
  induction h generalizing ps' with
  | malformed hm _ ih =>
    cases h' with
    | malformed _ h => exact ih h
    | oversize ha => exact (announces_malformed ha hm).elim
    | packet ha => exact (announces_malformed ha hm).elim
    | invalid ha => exact (announces_malformed ha hm).elim
    | short ha => exact (announces_malformed ha hm).elim
    | more hn => exact absurd hm hn
    | endless hn => exact absurd hm hn
  | oversize ha hn _ ih =>
    cases h' with
    | malformed hm => exact (announces_malformed ha hm).elim
    | oversize ha' _ h => rw [announces_unique ha' ha] at h; exact ih h
    | packet ha' hn' => rw [announces_unique ha' ha] at hn'; omega
    | invalid ha' hn' => rw [announces_unique ha' ha] at hn'; omega
    | short ha' hn' => rw [announces_unique ha' ha] at hn'; omega
    | more _ hn' => exact absurd ha (hn' _)
    | endless _ hn' => exact absurd ha (hn' _)
  | packet ha hn hp hl _ ih =>
    cases h' with
    | malformed hm => exact (announces_malformed ha hm).elim
    | oversize ha' hn' => rw [announces_unique ha' ha] at hn'; omega
    | packet ha' _ hp' _ h =>
      rw [announces_unique ha' ha] at h hp'
      have := (framePkt_packet hp).symm.trans (framePkt_packet hp')
      rw [ih h]
      simp only [List.cons.injEq, and_true] at this
      rw [this]
    | invalid ha' _ _ hp' => rw [announces_unique ha' ha] at hp'; exact absurd hp (hp' _)
    | short ha' _ hn' => rw [announces_unique ha' ha] at hn'; omega
    | more _ hn' => exact absurd ha (hn' _)
    | endless _ hn' => exact absurd ha (hn' _)
  | invalid ha hn hl hp _ ih =>
    cases h' with
    | malformed hm => exact (announces_malformed ha hm).elim
    | oversize ha' hn' => rw [announces_unique ha' ha] at hn'; omega
    | packet ha' _ hp' => rw [announces_unique ha' ha] at hp'; exact absurd hp' (hp _)
    | invalid ha' _ _ _ h => rw [announces_unique ha' ha] at h; exact ih h
    | short ha' _ hn' => rw [announces_unique ha' ha] at hn'; omega
    | more _ hn' => exact absurd ha (hn' _)
    | endless _ hn' => exact absurd ha (hn' _)
  | short ha hn hl =>
    cases h' with
    | malformed hm => exact (announces_malformed ha hm).elim
    | oversize ha' hn' => rw [announces_unique ha' ha] at hn'; omega
    | packet ha' _ _ hn' => rw [announces_unique ha' ha] at hn'; omega
    | invalid ha' _ hn' => rw [announces_unique ha' ha] at hn'; omega
    | short => rfl
    | more => rfl
    | endless _ hn' => exact absurd ha (hn' _)
  | endless hm hn hl _ ih =>
    cases h' with
    | malformed hm' => exact absurd hm' hm
    | oversize ha' => exact absurd ha' (hn _)
    | packet ha' => exact absurd ha' (hn _)
    | invalid ha' => exact absurd ha' (hn _)
    | short ha' => exact absurd ha' (hn _)
    | more _ _ hl' => omega
    | endless _ _ _ h => exact ih h
  | more hm hn hl =>
    cases h' with
    | malformed hm' => exact absurd hm' hm
    | oversize ha' => exact absurd ha' (hn _)
    | packet ha' => exact absurd ha' (hn _)
    | invalid ha' => exact absurd ha' (hn _)
    | short => rfl
    | more => rfl
    | endless _ _ hl' => omega

/-! ### The reader -/

/-- Between reads: `d` is unprocessed. -/
structure TcpOk (max : Nat) (t : Tcp) (d : Bytes) : Prop where
  view : t.view = some d
  len : d.length ≤ 64 * max
  skip : 0 < t.toSkip → 0 < t.pktSize
  size : t.toSkip = 0 → 0 < t.pktSize → getPacketSize d = some (t.pktSize : Int) ∧ t.pktSize ≤ max ∧ 8 ≤ t.pktSize

theorem view_length {t : Tcp} {d : Bytes} (h : t.view = some d) :
    d.length = t.tail - t.head ∧ t.head ≤ t.tail ∧ t.tail ≤ t.buffer.length ∧ d = (t.buffer.drop t.head).take (t.tail - t.head) := by
  unfold Tcp.view at h
  split at h
  · rename_i hc
    cases h
    refine ⟨?_, hc.1, hc.2, rfl⟩
    rw [List.length_take, List.length_drop]
    omega
  · cases h

theorem view_advance {t : Tcp} {d : Bytes} (h : t.view = some d) (n : Nat) (hn : n ≤ d.length) (t' : Tcp) (hb : t'.buffer = t.buffer)
    (hh : t'.head = t.head + n) (ht : t'.tail = t.tail) : t'.view = some (d.drop n) := by
  obtain ⟨h1, h2, h3, h4⟩ := view_length h
  unfold Tcp.view
  rw [hb, hh, ht, if_pos ⟨by omega, h3⟩, h4, List.drop_take, List.drop_drop]
  congr 2
  omega

/-- Appending frames to a batch. -/
theorem batchLoop_append (cfg : StreamConfig) : ∀ (l l' : List BatchOp) (s : Stream) (st : Batch),
    Stream.batchLoop cfg (l ++ l') s st = (Stream.batchLoop cfg l s st).bind (fun r =>
      (Stream.batchLoop cfg l' r.1 r.2.1).map (fun r' => (r'.1, r'.2.1, r.2.2 ++ r'.2.2)))
  | [], l', s, st => by
    rw [List.nil_append, Stream.batchLoop, Option.bind_some]
    simp
  | op :: l, l', s, st => by
    by_cases hs : st.stopped = true
    · rw [batchLoop_stopped cfg _ s st hs, batchLoop_stopped cfg _ s st hs, Option.bind_some, batchLoop_stopped cfg l' s st hs]
      rfl
    · cases op with
      | stop =>
        rw [List.cons_append, Stream.batchLoop, Stream.batchLoop, if_neg hs, if_neg hs]
        exact batchLoop_append cfg l l' s _
      | packet p =>
        rw [List.cons_append, Stream.batchLoop, Stream.batchLoop, if_neg hs, if_neg hs]
        cases ha : s.addPacket cfg st p with
        | none => rfl
        | some r =>
          simp only [Option.bind_eq_bind, Option.bind_some]
          rw [batchLoop_append cfg l l']
          cases Stream.batchLoop cfg l r.stream r.batch with
          | none => rfl
          | some r' =>
            simp only [Option.bind_some]
            cases Stream.batchLoop cfg l' r'.1 r'.2.1 with
            | none => rfl
            | some r'' => simp

/-- The part of an iteration after `parse_packet_size`. -/
def Tcp.afterSize (cfg : StreamConfig) (max fuel : Nat) (t : Tcp) (s : Stream) (st : Batch) : Option (Tcp × Stream × Batch × List Entry × Bool) :=
  match t.skipBytes with
  | (t, true) => some (t, s, st, [], true)
  | (t, false) =>
    if t.pktSize = 0 then Tcp.processLoop cfg max fuel t s st
    else if t.tail - t.head < t.pktSize then some (t, s, st, [], true)
    else
      match t.parsePacket cfg s st with
      | none => none
      | some (t, s, st, out, true) => some (t, s, st, out, false)
      | some (t, s, st, out, false) =>
        match Tcp.processLoop cfg max fuel t s st with
        | none => none
        | some (t', s', st', out', more) => some (t', s', st', out ++ out', more)

/-- What processing must achieve. `x` is the result of the pure parser; `res` what the reader does. -/
def TcpGoal (cfg : StreamConfig) (max : Nat) (t : Tcp) (s : Stream) (st : Batch) (x : List Pkt × Bytes × Nat)
    (res : Option (Tcp × Stream × Batch × List Entry × Bool)) : Prop :=
  ∀ s' st' out, Stream.batchLoop cfg (x.1.map .packet) s st = some (s', st', out) →
    ∃ t', res = some (t', s', st', out, !st'.stopped) ∧ t'.buffer = t.buffer ∧ t'.tail = t.tail ∧
      t'.head ≤ t'.tail ∧ t.head ≤ t'.head ∧
      (st'.stopped = false → TcpOk max t' x.2.1 ∧ t'.toSkip = x.2.2 ∧
        (t'.toSkip > 0 → x.2.1 = []) ∧
        (t'.pktSize > 0 → t'.toSkip = 0 → x.2.1.length < t'.pktSize) ∧
        (t'.pktSize = 0 → x.2.1 = [] ∨ getPacketSize x.2.1 = some 0 ∧ x.2.1.length ≠ max * 64))

theorem TcpGoal.mono {cfg : StreamConfig} {max : Nat} {t t1 : Tcp} {s : Stream} {st : Batch} {x : List Pkt × Bytes × Nat}
    {res : Option (Tcp × Stream × Batch × List Entry × Bool)} (h : TcpGoal cfg max t1 s st x res) (hb : t1.buffer = t.buffer)
    (ht : t1.tail = t.tail) (hh : t.head ≤ t1.head) : TcpGoal cfg max t s st x res := by
  intro s' st' out hl
  obtain ⟨t', h1, h2, h3, h4, h5, h6⟩ := h s' st' out hl
  exact ⟨t', h1, h2.trans hb, h3.trans ht, h4, by omega, h6⟩

theorem goal_done {cfg : StreamConfig} {max : Nat} {t t' : Tcp} {s : Stream} {st : Batch} {d : Bytes} {k : Nat} (hst : st.stopped = false)
    (hb : t'.buffer = t.buffer) (ht : t'.tail = t.tail) (h1 : t'.head ≤ t'.tail) (h2 : t.head ≤ t'.head) (ok : TcpOk max t' d)
    (hk : t'.toSkip = k) (h3 : t'.toSkip > 0 → d = []) (h4 : t'.pktSize > 0 → t'.toSkip = 0 → d.length < t'.pktSize)
    (h5 : t'.pktSize = 0 → d = [] ∨ getPacketSize d = some 0 ∧ d.length ≠ max * 64) :
    TcpGoal cfg max t s st ([], d, k) (some (t', s, st, [], true)) := by
  intro s' st' out hl
  simp only [List.map_nil, Stream.batchLoop, Option.some.injEq, Prod.mk.injEq] at hl
  obtain ⟨rfl, rfl, rfl⟩ := hl
  exact ⟨t', by rw [hst]; rfl, hb, ht, h1, h2, fun _ => ⟨ok, hk, h3, h4, h5⟩⟩

theorem afterSize_skip (cfg : StreamConfig) (max fuel : Nat) (t : Tcp) (d : Bytes) (s : Stream) (st : Batch)
    (ih : ∀ (t : Tcp) (d : Bytes) (s : Stream) (st : Batch), TcpOk max t d → d.length < fuel → st.stopped = false →
      TcpGoal cfg max t s st (tcpParseK max d t.toSkip) (Tcp.processLoop cfg max fuel t s st))
    (hv : t.view = some d) (hd : d.length ≤ 64 * max) (hgt : t.head < t.tail) (hk : 0 < t.toSkip) (hp : 0 < t.pktSize) (hf : d.length < fuel + 1) (hst : st.stopped = false) :
    TcpGoal cfg max t s st (tcpParseK max d t.toSkip) (t.afterSize cfg max fuel s st) := by
  obtain ⟨v1, v2, v3, v4⟩ := view_length hv
  have hskip : t.skipBytes = ({ t with head := t.head + min d.length t.toSkip, toSkip := t.toSkip - min d.length t.toSkip, pktSize := if t.toSkip - min d.length t.toSkip = 0 then 0 else t.pktSize }, decide (t.toSkip - min d.length t.toSkip > 0)) := by
    unfold Tcp.skipBytes
    rw [if_neg (by omega), if_neg (by omega), v1]
  unfold Tcp.afterSize
  rw [hskip]
  by_cases hlt : d.length < t.toSkip
  · have hmin : min d.length t.toSkip = d.length := by omega
    rw [hmin, decide_eq_true (by omega)]
    simp only
    have hx : tcpParseK max d t.toSkip = ([], [], t.toSkip - d.length) := by
      unfold tcpParseK; rw [if_neg (by omega), if_pos (by omega)]
    rw [hx]
    refine goal_done hst rfl rfl (by simp only; omega) (by simp only; omega) ⟨?_, by simp, fun _ => ?_, fun h => ?_⟩ rfl (fun _ => rfl) (fun _ h => ?_) (fun _ => Or.inl rfl)
    · have := view_advance hv d.length (Nat.le_refl _) { t with head := t.head + d.length, toSkip := t.toSkip - d.length, pktSize := if t.toSkip - d.length = 0 then 0 else t.pktSize } rfl rfl rfl
      rwa [List.drop_length] at this
    · simp only; rw [if_neg (by omega)]; exact hp
    · simp only at h; omega
    · simp only at h; omega
  · have hmin : min d.length t.toSkip = t.toSkip := by omega
    rw [hmin, decide_eq_false (by omega)]
    simp only [Nat.sub_self, if_true]
    have hx : tcpParseK max d t.toSkip = tcpParseK max (d.drop t.toSkip) 0 := by
      unfold tcpParseK
      rw [if_neg (by omega), if_pos rfl]
      split
      · rw [List.drop_of_length_le (by assumption), tcpParse_nil]
        simp only [Prod.mk.injEq, true_and]; omega
      · rfl
    rw [hx]
    exact (ih { t with head := t.head + t.toSkip, toSkip := 0, pktSize := 0 } (d.drop t.toSkip) s st
      ⟨view_advance hv t.toSkip (by omega) _ rfl rfl rfl, by rw [List.length_drop]; omega, fun h => by simp at h, fun _ h => by simp at h⟩
      (by rw [List.length_drop]; omega) hst).mono rfl rfl (Nat.le_add_right _ _)

theorem afterSize_frame (cfg : StreamConfig) (max fuel : Nat) (t : Tcp) (d : Bytes) (s : Stream) (st : Batch)
    (ih : ∀ (t : Tcp) (d : Bytes) (s : Stream) (st : Batch), TcpOk max t d → d.length < fuel → st.stopped = false →
      TcpGoal cfg max t s st (tcpParseK max d t.toSkip) (Tcp.processLoop cfg max fuel t s st))
    (hv : t.view = some d) (hd : d.length ≤ 64 * max) (hk : t.toSkip = 0) (hp : getPacketSize d = some (t.pktSize : Int)) (h8 : 8 ≤ t.pktSize)
    (hmax : t.pktSize ≤ max) (hf : d.length < fuel + 1) (hst : st.stopped = false) :
    TcpGoal cfg max t s st (tcpParse max d) (t.afterSize cfg max fuel s st) := by
  obtain ⟨v1, v2, v3, v4⟩ := view_length hv
  have hskip : t.skipBytes = (t, false) := by unfold Tcp.skipBytes; rw [if_pos hk]
  unfold Tcp.afterSize
  rw [hskip]
  simp only
  rw [if_neg (by omega)]
  by_cases hlt : d.length < t.pktSize
  · rw [if_pos (by omega), tcpParse_short ((gps_eq hd).trans hp) h8 hmax hlt]
    exact goal_done hst rfl rfl v2 (Nat.le_refl _) ⟨hv, hd, fun h => by omega, fun _ _ => ⟨hp, hmax, h8⟩⟩ hk (fun h => by omega) (fun _ _ => hlt)
      (fun h => by omega)
  · rw [if_neg (by omega), tcpParse_frame ((gps_eq hd).trans hp) h8 hmax (by omega)]
    have hnext := ih { t with head := t.head + t.pktSize, pktSize := 0 } (d.drop t.pktSize)
    have hok : TcpOk max { t with head := t.head + t.pktSize, pktSize := 0 } (d.drop t.pktSize) :=
      ⟨view_advance hv t.pktSize (by omega) _ rfl rfl rfl, by rw [List.length_drop]; omega, fun h => by simp only at h; omega, fun _ h => by simp at h⟩
    have hdl : (d.drop t.pktSize).length < fuel := by rw [List.length_drop]; omega
    have hx : tcpParseK max (d.drop t.pktSize) t.toSkip = tcpParse max (d.drop t.pktSize) := by unfold tcpParseK; rw [if_pos hk]
    -- the case where the frame is not delivered
    have hskipped : framePkt (d.take t.pktSize) = [] →
        t.parsePacket cfg s st = some ({ t with head := t.head + t.pktSize, pktSize := 0 }, s, st, [], false) →
        TcpGoal cfg max t s st (framePkt (d.take t.pktSize) ++ (tcpParse max (d.drop t.pktSize)).1, (tcpParse max (d.drop t.pktSize)).2)
          (match t.parsePacket cfg s st with
            | none => none
            | some (t, s, st, out, true) => some (t, s, st, out, false)
            | some (t, s, st, out, false) =>
              match Tcp.processLoop cfg max fuel t s st with
              | none => none
              | some (t', s', st', out', more) => some (t', s', st', out ++ out', more)) := by
      intro h1 h2
      rw [h1, h2]
      simp only [List.nil_append]
      have := hnext s st hok hdl hst
      simp only [hx] at this
      intro s' st' out hl
      obtain ⟨t', g1, g2, g3, g4, g5, g6⟩ := this s' st' out hl
      refine ⟨t', by rw [g1], g2, g3, g4, by simp only at g5; omega, g6⟩
    cases hdec : decodePacket (d.take t.pktSize) with
    | none => exact absurd hdec (C03_decode_safe _).2.1
    | some o =>
      cases o with
      | none =>
        exact hskipped (by unfold framePkt; rw [hdec])
          (by unfold Tcp.parsePacket; rw [if_neg (by omega), hv]; simp only; rw [hdec])
      | some y =>
        obtain ⟨hh, size⟩ := y
        have htl : (d.take t.pktSize).length = t.pktSize := by rw [List.length_take]; omega
        by_cases hsz : size = t.pktSize
        · obtain ⟨p, hp1, _⟩ := decode_isPacket hdec
          have hfp : framePkt (d.take t.pktSize) = [p] := by
            unfold framePkt; rw [hdec]; simp only; rw [if_pos (by omega), hp1]; rfl
          rw [hfp]
          intro s' st' out hl
          simp only [List.cons_append, List.nil_append, List.map_cons] at hl
          rw [Stream.batchLoop, if_neg (by simp [hst])] at hl
          cases ha : s.addPacket cfg st p with
          | none => rw [ha] at hl; cases hl
          | some r =>
            have hpp : t.parsePacket cfg s st = some ({ t with head := t.head + t.pktSize, pktSize := 0 }, r.stream, r.batch, r.out, r.batch.stopped) := by
              unfold Tcp.parsePacket
              rw [if_neg (by omega), hv]
              simp only
              rw [hdec]
              simp only
              rw [if_pos hsz, hp1]
              simp only
              rw [ha]
            rw [ha, Option.bind_eq_bind, Option.bind_some] at hl
            rw [hpp]
            cases hrs : r.batch.stopped with
            | true =>
              rw [batchLoop_stopped cfg _ _ _ hrs, Option.bind_eq_bind, Option.bind_some] at hl
              simp only [Option.some.injEq, Prod.mk.injEq, List.append_nil] at hl
              obtain ⟨rfl, rfl, rfl⟩ := hl
              exact ⟨{ t with head := t.head + t.pktSize, pktSize := 0 }, by simp only [hrs, Bool.not_true], rfl, rfl, by simp only; omega, by simp only; omega, fun h => by rw [hrs] at h; cases h⟩
            | false =>
              cases hbl : Stream.batchLoop cfg ((tcpParse max (d.drop t.pktSize)).1.map .packet) r.stream r.batch with
              | none => rw [hbl] at hl; cases hl
              | some z =>
                obtain ⟨s1, st1, out1⟩ := z
                rw [hbl, Option.bind_eq_bind, Option.bind_some] at hl
                simp only [Option.some.injEq, Prod.mk.injEq] at hl
                obtain ⟨rfl, rfl, rfl⟩ := hl
                have := hnext r.stream r.batch hok hdl hrs
                simp only [hx] at this
                obtain ⟨t', g1, g2, g3, g4, g5, g6⟩ := this s1 st1 out1 hbl
                refine ⟨t', by simp only; rw [g1], g2, g3, g4, by simp only at g5; omega, g6⟩
        · exact hskipped (by unfold framePkt; rw [hdec]; simp only; rw [if_neg (by omega)])
            (by unfold Tcp.parsePacket; rw [if_neg (by omega), hv]; simp only; rw [hdec]; simp only; rw [if_neg hsz])

theorem processLoop_spec (cfg : StreamConfig) (max : Nat) : ∀ (fuel : Nat) (t : Tcp) (d : Bytes) (s : Stream) (st : Batch),
    TcpOk max t d → d.length < fuel → st.stopped = false →
    TcpGoal cfg max t s st (tcpParseK max d t.toSkip) (Tcp.processLoop cfg max fuel t s st) := by
  intro fuel
  induction fuel with
  | zero => intro t d s st _ h; omega
  | succ fuel ih =>
    intro t d s st ok hf hst
    obtain ⟨v1, v2, v3, v4⟩ := view_length ok.view
    by_cases hgt : t.tail > t.head
    · have haft : ∀ t1, t.parsePacketSize max = some (t1, false) → Tcp.processLoop cfg max (fuel + 1) t s st = t1.afterSize cfg max fuel s st := by
        intro t1 h1
        rw [Tcp.processLoop, if_pos hgt, h1]
        rfl
      by_cases hps : 0 < t.pktSize
      · have h1 : t.parsePacketSize max = some (t, false) := by unfold Tcp.parsePacketSize; rw [if_pos hps]
        rw [haft t h1]
        by_cases hk : t.toSkip = 0
        · obtain ⟨g1, g2, g3⟩ := ok.size hk hps
          have := afterSize_frame cfg max fuel t d s st ih ok.view ok.len hk g1 g3 g2 hf hst
          unfold tcpParseK
          rw [if_pos hk]
          exact this
        · exact afterSize_skip cfg max fuel t d s st ih ok.view ok.len hgt (by omega) hps hf hst
      · have hk : t.toSkip = 0 := by
          cases Nat.eq_zero_or_pos t.toSkip with
          | inl h => exact h
          | inr h => exact absurd (ok.skip h) hps
        have hx : tcpParseK max d t.toSkip = tcpParse max d := by unfold tcpParseK; rw [if_pos hk]
        rw [hx]
        rcases size_cases d with ⟨h, hm⟩ | ⟨n, h, h8, ha⟩ | ⟨h, q1, q2, hlt⟩
        · have h1 : t.parsePacketSize max = some ({ t with head := t.head + 8 }, false) := by
            unfold Tcp.parsePacketSize; rw [if_neg hps, ok.view]; simp only; rw [h]; simp only; rw [if_pos trivial]
          rw [haft _ h1]
          obtain ⟨h8, hp⟩ := tcpParse_malformed (max := max) ((gps_eq ok.len).trans h)
          rw [hp]
          have hsk : ({ t with head := t.head + 8 } : Tcp).skipBytes = ({ t with head := t.head + 8 }, false) := by
            unfold Tcp.skipBytes; rw [if_pos hk]
          unfold Tcp.afterSize
          rw [hsk]
          simp only
          rw [if_pos (by omega)]
          have := ih { t with head := t.head + 8 } (d.drop 8) s st
            ⟨view_advance ok.view 8 h8 _ rfl rfl rfl, by rw [List.length_drop]; have := ok.len; omega, fun h => by simp only at h; omega, fun _ h => absurd h hps⟩ (by rw [List.length_drop]; omega) hst
          unfold tcpParseK at this
          rw [if_pos hk] at this
          exact this.mono rfl rfl (Nat.le_add_right _ _)
        · have h1 : t.parsePacketSize max = some ({ t with pktSize := n, toSkip := if n > max then n else t.toSkip }, false) := by
            unfold Tcp.parsePacketSize
            rw [if_neg hps, ok.view]
            simp only
            rw [h]
            simp only
            rw [if_neg (by omega), if_neg (by omega), Int.toNat_natCast]
          rw [haft _ h1]
          by_cases hn : n > max
          · rw [if_pos hn, tcpParse_over' ((gps_eq ok.len).trans h) h8 hn]
            exact (afterSize_skip cfg max fuel { t with pktSize := n, toSkip := n } d s st ih ok.view ok.len hgt (by simp only; omega) (by simp only; omega) hf hst).mono rfl rfl (Nat.le_refl _)
          · rw [if_neg hn]
            exact (afterSize_frame cfg max fuel { t with pktSize := n, toSkip := t.toSkip } d s st ih ok.view ok.len hk h h8 (by simp only; omega) hf hst).mono rfl rfl (Nat.le_refl _)
        · by_cases hfull : d.length = max * 64
          · have h1 : t.parsePacketSize max = some ({ t with head := t.tail }, false) := by
              unfold Tcp.parsePacketSize
              rw [if_neg hps, ok.view]
              simp only
              rw [h]
              simp only
              rw [if_neg (by decide), if_pos trivial, if_pos hfull]
            rw [haft _ h1, tcpParse_endless ((gps_eq ok.len).trans h) (by omega) (by omega), List.drop_of_length_le (by omega), tcpParse_nil]
            have hsk : ({ t with head := t.tail } : Tcp).skipBytes = ({ t with head := t.tail }, false) := by
              unfold Tcp.skipBytes; rw [if_pos hk]
            unfold Tcp.afterSize
            rw [hsk]
            simp only
            rw [if_pos (by omega)]
            have hvw : ({ t with head := t.tail } : Tcp).view = some [] := by
              have := view_advance ok.view d.length (Nat.le_refl _) { t with head := t.tail } rfl (by simp only; omega) rfl
              rwa [List.drop_length] at this
            have := ih { t with head := t.tail } [] s st ⟨hvw, by simp, fun h => by simp only at h; omega, fun _ h => absurd h hps⟩ (by simp only [List.length_nil]; omega) hst
            unfold tcpParseK at this
            rw [if_pos hk, tcpParse_nil] at this
            exact this.mono rfl rfl v2
          · have h1 : t.parsePacketSize max = some (t, true) := by
              unfold Tcp.parsePacketSize
              rw [if_neg hps, ok.view]
              simp only
              rw [h]
              simp only
              rw [if_neg (by decide), if_pos trivial, if_neg hfull]
            rw [Tcp.processLoop, if_pos hgt, h1, tcpParse_more ((gps_eq ok.len).trans h) (by have := ok.len; omega)]
            simp only
            exact goal_done hst rfl rfl v2 (Nat.le_refl _) ok hk (fun h => by omega) (fun h => absurd h hps) (fun _ => Or.inr ⟨h, hfull⟩)
    · rw [Tcp.processLoop, if_neg hgt]
      have hd : d = [] := List.length_eq_zero_iff.1 (by omega)
      subst hd
      have hk : tcpParseK max [] t.toSkip = ([], [], t.toSkip) := by
        unfold tcpParseK
        split
        · rename_i h; rw [tcpParse_nil, h]
        · rw [if_pos (by simp)]; rfl
      rw [hk]
      exact goal_done hst rfl rfl v2 (Nat.le_refl _) ok rfl (fun _ => rfl) (fun h _ => by simpa using h) (fun _ => Or.inl rfl)

/-- The state of a reader that waits for data. `x` is the result of parsing all bytes received so far. -/
structure Ready (max : Nat) (t : Tcp) (x : List Pkt × Bytes × Nat) : Prop where
  ok : TcpOk max t x.2.1
  skip : t.toSkip = x.2.2
  len : t.buffer.length = max * 64
  skipped : t.toSkip > 0 → x.2.1 = []
  short : t.pktSize > 0 → t.toSkip = 0 → x.2.1.length < t.pktSize
  more : t.pktSize = 0 → x.2.1 = [] ∨ getPacketSize x.2.1 = some 0 ∧ x.2.1.length ≠ max * 64

theorem Ready.congr {max : Nat} {t : Tcp} {x y : List Pkt × Bytes × Nat} (h : Ready max t x) (e : x.2 = y.2) : Ready max t y := by
  obtain ⟨h1, h2, h3, h4, h5, h6⟩ := h
  rw [e] at h1 h2 h4 h5 h6
  exact ⟨h1, h2, h3, h4, h5, h6⟩

theorem enqueue_spec {max : Nat} {t : Tcp} {x : List Pkt × Bytes × Nat} (h : Ready max t x) :
    ∃ t', t.enqueueReceive = some t' ∧ Ready max t' x ∧ (t'.head ≤ t'.buffer.length / 2) := by
  obtain ⟨v1, v2, v3, v4⟩ := view_length h.ok.view
  unfold Tcp.enqueueReceive
  rw [if_neg (by omega)]
  by_cases hh : t.head > t.buffer.length / 2
  · rw [if_pos hh, if_neg (by omega), h.ok.view]
    simp only
    refine ⟨_, rfl, ?_, Nat.zero_le _⟩
    have hl : (x.2.1 ++ t.buffer.drop x.2.1.length).length = t.buffer.length := by
      rw [List.length_append, List.length_drop]; omega
    refine ⟨⟨?_, h.ok.len, h.ok.skip, h.ok.size⟩, h.skip, ?_, h.skipped, h.short, h.more⟩
    · unfold Tcp.view
      simp only
      rw [if_pos ⟨Nat.zero_le _, by omega⟩]
      simp
    · exact hl.trans h.len
  · rw [if_neg hh]
    exact ⟨t, rfl, h, by omega⟩

theorem receive_view {t : Tcp} {d : Bytes} (h : t.view = some d) (b : Bytes) (hb : b.length ≤ t.space) (t' : Tcp)
    (h1 : t'.buffer = t.buffer.take t.tail ++ b ++ t.buffer.drop (t.tail + b.length)) (h2 : t'.head = t.head)
    (h3 : t'.tail = t.tail + b.length) : t'.view = some (d ++ b) ∧ t'.buffer.length = t.buffer.length := by
  obtain ⟨v1, v2, v3, v4⟩ := view_length h
  unfold Tcp.space at hb
  have hlen : t'.buffer.length = t.buffer.length := by
    rw [h1, List.length_append, List.length_append, List.length_take, List.length_drop]
    omega
  refine ⟨?_, hlen⟩
  unfold Tcp.view
  rw [h2, h3, if_pos ⟨by omega, by omega⟩, h1]
  congr 1
  have htl : (t.buffer.take t.tail).length = t.tail := by rw [List.length_take]; omega
  rw [List.append_assoc, List.drop_append_of_le_length (by omega), List.drop_take]
  have hl1 : ((t.buffer.drop t.head).take (t.tail - t.head)).length = t.tail - t.head := by rw [List.length_take, List.length_drop]; omega
  rw [show t.tail + b.length - t.head = (t.tail - t.head) + b.length by omega]
  rw [List.take_append, hl1, List.take_of_length_le (by omega), ← v4, Nat.add_sub_cancel_left, List.take_left]

theorem data_step {cfg : StreamConfig} (hm : 0 < cfg.maxHeaps) (hsub : 0 < cfg.substreams) {max : Nat} {t : Tcp} {x : List Pkt × Bytes × Nat}
    (h : Ready max t x) {s : Stream} {a : AStream} (rel : Rel cfg s a) (inv : AInv cfg a none) (hs : s.stopped = false) (b : Bytes)
    (hb : b.length ≤ t.space) (hv : OpsValid ((tcpParseK max (x.2.1 ++ b) x.2.2).1.map .packet)) :
    ∃ t' s' out, TcpReader.step cfg max ⟨t, true⟩ s (.data b) = some (⟨t', !s'.stopped⟩, s', out) ∧
      s.batch cfg ((tcpParseK max (x.2.1 ++ b) x.2.2).1.map .packet) = some (s', out) ∧
      (t'.buffer.length = max * 64 ∧ t'.head ≤ t'.tail ∧ t'.tail ≤ t'.buffer.length) ∧
      (s'.stopped = false → Ready max t' (tcpParseK max (x.2.1 ++ b) x.2.2) ∧ t'.head ≤ t'.buffer.length / 2) := by
  obtain ⟨v1, v2, v3, v4⟩ := view_length h.ok.view
  obtain ⟨r1, r2⟩ := receive_view h.ok.view b hb { t with buffer := t.buffer.take t.tail ++ b ++ t.buffer.drop (t.tail + b.length), tail := t.tail + b.length } rfl rfl rfl
  generalize ht1 : ({ t with buffer := t.buffer.take t.tail ++ b ++ t.buffer.drop (t.tail + b.length), tail := t.tail + b.length } : Tcp) = t1 at r1 r2
  have hts : t1.toSkip = t.toSkip ∧ t1.pktSize = t.pktSize := by rw [← ht1]; exact ⟨rfl, rfl⟩
  have ok1 : TcpOk max t1 (x.2.1 ++ b) := by
    refine ⟨r1, ?_, ?_, ?_⟩
    · have := view_length r1
      have := h.len
      omega
    · rw [hts.1, hts.2]; exact h.ok.skip
    · rw [hts.1, hts.2]
      intro g1 g2
      obtain ⟨q1, q2, q3⟩ := h.ok.size g1 g2
      exact ⟨C05_stable _ _ _ q1 (by omega), q2, q3⟩
  obtain ⟨a', t', e, s1, dd', q1, q2, q3, q4, q5, _⟩ := packets_refine hm hsub ((tcpParseK max (x.2.1 ++ b) x.2.2).1.map .packet) hv rel inv {} rfl
  have w1 := view_length r1
  have hproc := processLoop_spec cfg max (t.buffer.length + 1) t1 (x.2.1 ++ b) s {} ok1 (by rw [w1.1]; omega) rfl
  rw [hts.1, h.skip] at hproc
  obtain ⟨t2, p1, p2, p3, p4, p5, p6⟩ := hproc _ _ _ q2
  have hs1 : s1.stopped = false := by
    have := packets_stopped q1
    rw [q3.stopped, this, ← rel.stopped]; exact hs
  have hend : ∀ (st : Batch), ∃ s' out', s1.endBatch cfg st = some (s', out') ∧ s'.stopped = st.stopped := by
    intro st
    unfold Stream.endBatch
    cases hst' : st.stopped with
    | false =>
      rw [if_neg (by simp)]
      rw [Option.bind_eq_bind, Option.bind_some, if_neg (by simp)]
      exact ⟨_, _, rfl, hs1⟩
    | true =>
      obtain ⟨s2, h1, h2, h3⟩ := stopReceived_refine hm hsub q3 q4 (by rw [← q3.stopped]; exact hs1)
      rw [if_pos rfl, h1, Option.bind_eq_bind, Option.bind_some]
      have : s2.stopped = true := by rw [h2.stopped]; rfl
      by_cases hp : st.packets = 0
      · rw [if_pos ⟨hp, rfl⟩]; exact ⟨_, _, rfl, this⟩
      · rw [if_neg (fun h => hp h.1)]; exact ⟨_, _, rfl, this⟩
  generalize hst : ({ packets := ({} : Batch).packets + packetCount t', complete := ({} : Batch).complete + t'.countP Ev.isCompleted, evicted := ({} : Batch).evicted + t'.countP Ev.isEvicted, single := ({} : Batch).single + t'.countP Ev.isSingle, searchDist := dd', stopped := e } : Batch) = st at *
  obtain ⟨s', out', he1, he2⟩ := hend st
  have hbatch : s.batch cfg ((tcpParseK max (x.2.1 ++ b) x.2.2).1.map .packet) = some (s', handedOver t' ++ out') := by
    unfold Stream.batch
    rw [if_neg (by simp [hs]), q2, Option.bind_eq_bind, Option.bind_some, he1]
    rfl
  have hbl : t2.buffer.length = max * 64 ∧ t2.head ≤ t2.tail ∧ t2.tail ≤ t2.buffer.length := by
    refine ⟨by rw [p2, r2, h.len], p4, ?_⟩
    rw [p3, p2]
    exact w1.2.2.1
  unfold TcpReader.step
  rw [if_neg (by simp), if_neg (by simp [hs])]
  simp only
  rw [if_neg (by omega), ht1, p1]
  simp only
  cases hst2 : st.stopped with
  | true =>
    simp only [Bool.not_true, Bool.false_eq_true, if_false]
    rw [he1]
    refine ⟨t2, s', handedOver t' ++ out', ?_, hbatch, hbl, fun h => ?_⟩
    · rw [he2, hst2]; rfl
    · rw [he2, hst2] at h; cases h
  | false =>
    obtain ⟨g1, g2, g3, g4, g5⟩ := p6 hst2
    have hrdy : Ready max t2 (tcpParseK max (x.2.1 ++ b) x.2.2) := ⟨g1, g2, hbl.1, g3, g4, g5⟩
    obtain ⟨t3, e1, e2, e3⟩ := enqueue_spec hrdy
    simp only [Bool.not_false, if_true]
    rw [e1]
    simp only
    rw [he1]
    refine ⟨t3, s', handedOver t' ++ out', ?_, hbatch, ?_, fun _ => ⟨e2, e3⟩⟩
    · rw [he2, hst2]; rfl
    · obtain ⟨f1, f2, f3, f4⟩ := view_length e2.ok.view
      exact ⟨e2.len, f2, f3⟩

/-! ### Merging batches -/

theorem packets_append (cfg : StreamConfig) : ∀ (l l' : List BatchOp) (a : AStream),
    AStream.packets cfg (l ++ l') a = match AStream.packets cfg l a with
      | none => none
      | some (a', t, true) => some (a', t, true)
      | some (a', t, false) =>
        match AStream.packets cfg l' a' with
        | none => none
        | some (a'', t', e) => some (a'', t ++ t', e)
  | [], l', a => by
    rw [List.nil_append]
    simp only [AStream.packets]
    cases AStream.packets cfg l' a with
    | none => rfl
    | some r => obtain ⟨x, y, z⟩ := r; simp
  | .stop :: l, l', a => rfl
  | .packet p :: l, l', a => by
    rw [List.cons_append, AStream.packets, AStream.packets]
    cases a.addPacket cfg p with
    | none => rfl
    | some r =>
      simp only
      cases r.ended with
      | true => rfl
      | false =>
        simp only [Bool.false_eq_true, if_false]
        rw [packets_append cfg l l' r.stream]
        cases AStream.packets cfg l r.stream with
        | none => rfl
        | some x =>
          obtain ⟨a', t, e⟩ := x
          cases e with
          | true => rfl
          | false =>
            simp only
            cases AStream.packets cfg l' a' with
            | none => rfl
            | some y => obtain ⟨a'', t', e'⟩ := y; simp

theorem handedOver_batchEvent (n : Nat) (e : Bool) : handedOver (batchEvent n e) = [] := by
  unfold batchEvent; split <;> rfl

theorem batches_stopped (cfg : StreamConfig) : ∀ (ls : List (List BatchOp)) {a : AStream}, a.stopped = true →
    AStream.run cfg (ls.map .batch) a = some (a, [])
  | [], a, _ => rfl
  | l :: ls, a, h => by
    rw [List.map_cons, AStream.run, AStream.step, if_pos h]
    simp only
    rw [batches_stopped cfg ls h]
    rfl

/-- Several batches do the same as one, except for the number of batches. -/
theorem batches_merge (cfg : StreamConfig) (extra : List BatchOp) : ∀ (ls : List (List BatchOp)) {a a' : AStream} {t : List Ev}, a.stopped = false →
    AStream.run cfg (ls.map .batch) a = some (a', t) → (a'.stopped = false → extra = []) →
    ∃ t', a.step cfg (.batch (ls.flatten ++ extra)) = some (a', t') ∧ handedOver t' = handedOver t
  | [], a, a', t, hs, h, hx => by
    simp only [List.map_nil, AStream.run, Option.some.injEq, Prod.mk.injEq] at h
    obtain ⟨rfl, rfl⟩ := h
    rw [hx hs, AStream.step, if_neg (by simp [hs])]
    exact ⟨_, rfl, rfl⟩
  | l :: ls, a, a', t, hs, h, hx => by
    rw [List.map_cons, AStream.run, AStream.step, if_neg (by simp [hs])] at h
    rw [List.flatten_cons, List.append_assoc, AStream.step, if_neg (by simp [hs]), packets_append]
    cases hp : AStream.packets cfg l a with
    | none => rw [hp] at h; cases h
    | some r =>
      obtain ⟨a1, t1, e⟩ := r
      rw [hp] at h
      cases e with
      | true =>
        simp only at h ⊢
        rw [batches_stopped cfg ls rfl] at h
        simp only [Option.some.injEq, Prod.mk.injEq, List.append_nil] at h
        obtain ⟨rfl, rfl⟩ := h
        exact ⟨_, rfl, rfl⟩
      | false =>
        simp only at h ⊢
        have hs1 : a1.stopped = false := by rw [packets_stopped hp]; exact hs
        cases hr : AStream.run cfg (ls.map .batch) a1 with
        | none => rw [hr] at h; cases h
        | some r2 =>
          obtain ⟨a2, t2⟩ := r2
          rw [hr] at h
          simp only [Option.some.injEq, Prod.mk.injEq] at h
          obtain ⟨rfl, rfl⟩ := h
          obtain ⟨t3, g1, g2⟩ := batches_merge cfg extra ls hs1 hr hx
          rw [AStream.step, if_neg (by simp [hs1])] at g1
          cases hp2 : AStream.packets cfg (ls.flatten ++ extra) a1 with
          | none => rw [hp2] at g1; cases g1
          | some r3 =>
            obtain ⟨a3, t4, e3⟩ := r3
            rw [hp2] at g1
            cases e3 with
            | true =>
              simp only [Option.some.injEq, Prod.mk.injEq] at g1 ⊢
              obtain ⟨rfl, rfl⟩ := g1
              refine ⟨_, ⟨rfl, rfl⟩, ?_⟩
              simp only [handedOver_append, handedOver_batchEvent, List.append_nil] at g2 ⊢
              rw [← g2, List.append_assoc]
            | false =>
              simp only [Option.some.injEq, Prod.mk.injEq] at g1 ⊢
              obtain ⟨rfl, rfl⟩ := g1
              refine ⟨_, ⟨rfl, rfl⟩, ?_⟩
              simp only [handedOver_append, handedOver_batchEvent, List.append_nil] at g2 ⊢
              rw [← g2]

end Spead2
