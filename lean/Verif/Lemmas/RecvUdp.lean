import Verif.Spec.RecvUdp
import Verif.Lemmas.Tcp
import Verif.Lemmas.RawPacket

namespace Spead2
open Spec

/-- The packets and stops `ops` given to the stream in the current batch. -/
def RxState.feed (cfg : StreamConfig) (ops : List BatchOp) (x : RxState) : Option RxState :=
  (Stream.batchLoop cfg ops x.stream x.batch).map (fun r => ⟨r.1, r.2.1, x.out ++ r.2.2, r.2.1.stopped⟩)

theorem feed_nil {cfg : StreamConfig} {x : RxState} (h : x.stopped = x.batch.stopped) : x.feed cfg [] = some x := by
  unfold RxState.feed
  simp [Stream.batchLoop, ← h]

theorem feed_stopped {cfg : StreamConfig} {x : RxState} (h : x.stopped = x.batch.stopped) (hs : x.batch.stopped = true) (ops : List BatchOp) :
    x.feed cfg ops = some x := by
  unfold RxState.feed
  rw [batchLoop_stopped _ _ _ _ hs]
  simp [← h]

theorem feed_append (cfg : StreamConfig) (a b : List BatchOp) (x : RxState) : x.feed cfg (a ++ b) = (x.feed cfg a).bind (RxState.feed cfg b) := by
  unfold RxState.feed
  rw [batchLoop_append]
  cases Stream.batchLoop cfg a x.stream x.batch with
  | none => rfl
  | some r =>
    simp only [Option.bind_some, Option.map_some]
    cases Stream.batchLoop cfg b r.1 r.2.1 with
    | none => rfl
    | some r' => simp

theorem feed_consistent {cfg : StreamConfig} {ops : List BatchOp} {x y : RxState} (h : x.feed cfg ops = some y) : y.stopped = y.batch.stopped := by
  unfold RxState.feed at h
  obtain ⟨r, _, rfl⟩ := Option.map_eq_some_iff.mp h
  rfl

theorem feed_packet {cfg : StreamConfig} {x : RxState} (hs : x.batch.stopped = false) (p : Pkt) :
    x.feed cfg [.packet p] = (x.stream.addPacket cfg x.batch p).map (fun r => ⟨r.stream, r.batch, x.out ++ r.out, r.batch.stopped⟩) := by
  unfold RxState.feed
  rw [Stream.batchLoop, if_neg (by simp [hs])]
  cases x.stream.addPacket cfg x.batch p with
  | none => rfl
  | some r => simp [Stream.batchLoop]

theorem feed_stop {cfg : StreamConfig} {x : RxState} (hs : x.batch.stopped = false) :
    x.feed cfg [.stop] = some { x with batch := { x.batch with stopped := true }, stopped := true } := by
  unfold RxState.feed
  rw [Stream.batchLoop, if_neg (by simp [hs])]
  simp [Stream.batchLoop]

/-- A handler whose body gives `ops` to the stream is a batch. -/
theorem boundHandler_spec {cfg : StreamConfig} {s : Stream} {body : RxState → Option RxState} {ops : List BatchOp}
    (h : body ⟨s, {}, [], false⟩ = RxState.feed cfg ops ⟨s, {}, [], false⟩) : boundHandler cfg s body = s.batch cfg ops := by
  unfold boundHandler Stream.batch
  by_cases hs : s.stopped = true
  · rw [if_pos hs, if_pos hs]
  · rw [if_neg hs, if_neg hs, h]
    unfold RxState.feed
    dsimp only
    cases Stream.batchLoop cfg ops s {} with
    | none => rfl
    | some r =>
      simp only [Option.map_some, Option.bind_eq_bind, Option.bind_some, List.nil_append]
      cases Stream.endBatch cfg r.1 r.2.1 with
      | none => rfl
      | some r' => rfl

/-- The packets as batch operations. -/
abbrev pktOps (l : List Pkt) : List BatchOp := l.map .packet

theorem pktOps_append (a b : List Pkt) : pktOps (a ++ b) = pktOps a ++ pktOps b := List.map_append

theorem dgAccepted_append {fits : Nat → Prop} : ∀ {a b : List Bytes} {l : List Pkt}, PacketsOf fits (a ++ b) l →
    ∃ l1 l2, l = l1 ++ l2 ∧ PacketsOf fits a l1 ∧ PacketsOf fits b l2
  | [], b, l, h => ⟨[], l, rfl, .nil, h⟩
  | d :: a, b, l, h => by
    cases h with
    | take h1 h2 h3 =>
      obtain ⟨l1, l2, rfl, h4, h5⟩ := dgAccepted_append h3
      exact ⟨_ :: l1, l2, rfl, .take h1 h2 h4, h5⟩
    | skip h1 h3 =>
      obtain ⟨l1, l2, rfl, h4, h5⟩ := dgAccepted_append h3
      exact ⟨l1, l2, rfl, .skip h1 h4, h5⟩

theorem dgAccepted_cons {fits : Nat → Prop} {d : Bytes} {b : List Bytes} {l : List Pkt} (h : PacketsOf fits (d :: b) l) :
    ∃ l1 l2, l = l1 ++ l2 ∧ PacketsOf fits [d] l1 ∧ PacketsOf fits b l2 := dgAccepted_append (a := [d]) h

theorem dgAccepted_join {fits : Nat → Prop} {a b : List Bytes} {l l' : List Pkt} (h : PacketsOf fits a l) (h' : PacketsOf fits b l') :
    PacketsOf fits (a ++ b) (l ++ l') := by
  induction h with
  | nil => exact h'
  | take h1 h2 _ ih => exact .take h1 h2 ih
  | skip h1 _ ih => exact .skip h1 ih

theorem dgAccepted_exists (fits : Nat → Prop) : ∀ (ds : List Bytes), ∃ l, PacketsOf fits ds l
  | [] => ⟨[], .nil⟩
  | d :: ds => by
    obtain ⟨l, h⟩ := dgAccepted_exists fits ds
    rcases Classical.em (fits d.length ∧ ∃ p, IsPacket d p) with h1 | h1
    · obtain ⟨h1, p, h2⟩ := h1
      exact ⟨p :: l, .take h1 h2 h⟩
    · exact ⟨l, .skip h1 h⟩

theorem isPacket_inj {b : Bytes} {p q : Pkt} (h : IsPacket b p) (h' : IsPacket b q) : p = q :=
  (isPacket_prefix (r := []) (r' := []) h h' rfl).2.1

theorem dgAccepted_unique {fits : Nat → Prop} : ∀ {ds : List Bytes} {l l' : List Pkt}, PacketsOf fits ds l → PacketsOf fits ds l' → l = l'
  | [], _, _, .nil, .nil => rfl
  | _ :: _, _, _, .take h1 h2 h3, h' => by
    cases h' with
    | take _ h2' h3' => rw [isPacket_inj h2 h2', dgAccepted_unique h3 h3']
    | skip h _ => exact absurd ⟨h1, _, h2⟩ h
  | _ :: _, _, _, .skip h h3, h' => by
    cases h' with
    | take h1 h2 _ => exact absurd ⟨h1, _, h2⟩ h
    | skip _ h3' => exact dgAccepted_unique h3 h3'

theorem isPacket_of_decode {d : Bytes} {h : PacketHeader} {p : Pkt} (h1 : decodePacket d = some (some (h, d.length))) (h2 : h.toPkt? d = some p) : IsPacket d p := by
  obtain ⟨q, g1, _, _, _, g2⟩ := decode_isPacket h1
  rw [h2] at g1
  cases g1
  rwa [List.take_length] at g2

theorem not_isPacket_of_decode {d : Bytes} (h : ∀ hd, decodePacket d ≠ some (some (hd, d.length))) : ¬ ∃ p, IsPacket d p := by
  rintro ⟨p, hp⟩
  obtain ⟨hd, h1, _⟩ := isPacket_decode hp []
  rw [List.append_nil] at h1
  exact h hd h1

theorem dgAccepted_valid {fits : Nat → Prop} {ds : List Bytes} {l : List Pkt} (h : PacketsOf fits ds l) : ∀ p ∈ l, PktValid p := by
  induction h with
  | nil => simp
  | take h1 h2 _ ih =>
    intro q hq
    rcases List.mem_cons.mp hq with rfl | hq
    · obtain ⟨hd, g1, g2⟩ := isPacket_decode h2 []
      obtain ⟨p, h3, h4, _⟩ := decode_isPacket g1
      rw [g2] at h3
      cases h3
      exact h4
    · exact ih q hq
  | skip _ _ ih => exact ih

/-- `process_one_packet` gives the packet to the stream if the datagram is acceptable. -/
theorem processOne_spec {cfg : StreamConfig} {maxSize : Nat} {x : RxState} {d : Bytes} {fits : Nat → Prop} {l : List Pkt}
    (hc : x.stopped = x.batch.stopped) (hs : x.stopped = false) (hf : fits d.length ↔ d.length ≤ maxSize) (ha : PacketsOf fits [d] l) :
    x.processOne cfg maxSize d = x.feed cfg (pktOps l) := by
  have hb : x.batch.stopped = false := by rw [← hc, hs]
  have hx : { x with stopped := false } = x := by cases x; simp only at hs; rw [hs]
  cases ha with
  | take h1 h2 h3 =>
    cases h3
    obtain ⟨hd, g1, g2⟩ := isPacket_decode h2 []
    rw [List.append_nil] at g1 g2
    show _ = x.feed cfg [.packet _]
    rw [feed_packet hb, RxState.processOne, if_pos ⟨hf.mp h1, isPacket_pos h2⟩, g1]
    dsimp only
    rw [if_pos rfl, g2]
    dsimp only
    cases x.stream.addPacket cfg x.batch _ with
    | none => rfl
    | some r => rfl
  | skip h h3 =>
    cases h3
    show _ = x.feed cfg []
    rw [feed_nil hc, RxState.processOne, hx]
    by_cases h1 : d.length ≤ maxSize ∧ d.length > 0
    · rw [if_pos h1]
      cases hdec : decodePacket d with
      | none => exact absurd hdec (C03_decode_safe d).2.1
      | some o =>
        cases o with
        | none => rfl
        | some y =>
          obtain ⟨hh, size⟩ := y
          dsimp only
          obtain ⟨p, _, _, _, _, hp⟩ := decode_isPacket hdec
          by_cases h2 : size = d.length
          · rw [h2, List.take_length] at hp
            exact absurd ⟨hf.mpr h1.1, p, hp⟩ h
          · rw [if_neg h2]
    · rw [if_neg h1]

theorem segments_pos {n : Nat} : ∀ {ds : List Bytes}, Segments n ds → 0 < n ∧ ds.length ≤ ds.flatten.length
  | [], h => h.elim
  | [d], h => by
    simp only [Segments] at h
    simp
    omega
  | d :: e :: ds, h => by
    obtain ⟨h1, h2⟩ := h
    have := segments_pos h2
    simp only [List.flatten_cons, List.length_cons, List.length_append] at this ⊢
    omega

theorem segLoop_spec {cfg : StreamConfig} {maxSize n : Nat} {fits : Nat → Prop} (hf : ∀ k, fits k ↔ k ≤ maxSize) (d : Bytes) :
    ∀ (ds : List Bytes) (f offset : Nat) (x : RxState) (l : List Pkt), (ds = [] ∧ d.length ≤ offset ∨ Segments n ds ∧ d.drop offset = ds.flatten) →
      ds.length < f → x.stopped = x.batch.stopped → PacketsOf fits ds l →
      x.segLoop cfg maxSize d n f offset = x.feed cfg (pktOps l)
  | ds, 0, offset, x, l, _, hl, _, _ => by omega
  | [], f + 1, offset, x, l, hd, _, hc, ha => by
    cases ha
    have hd : d.length ≤ offset := by
      rcases hd with ⟨_, h⟩ | ⟨h, _⟩
      · exact h
      · exact h.elim
    rw [RxState.segLoop, if_neg (fun h => by omega)]
    exact (feed_nil hc).symm
  | b :: ds, f + 1, offset, x, l, hd, hl, hc, ha => by
    obtain ⟨hseg, hd⟩ : Segments n (b :: ds) ∧ d.drop offset = (b :: ds).flatten := by
      rcases hd with ⟨h, _⟩ | h
      · cases h
      · exact h
    have hlen : d.length - offset = b.length + ds.flatten.length := by
      rw [← List.length_drop, hd, List.flatten_cons, List.length_append]
    have hb0 : 0 < b.length := by
      cases ds with
      | nil => exact hseg.1
      | cons e ds =>
        have := (segments_pos hseg.2).1
        have := hseg.1
        omega
    cases hs : x.stopped with
    | true =>
      rw [RxState.segLoop, if_neg (fun h => by rw [hs] at h; exact absurd h.2 (by decide))]
      exact (feed_stopped hc (by rw [← hc, hs]) _).symm
    | false =>
      obtain ⟨l1, l2, rfl, h1, h2⟩ := dgAccepted_cons ha
      rw [RxState.segLoop, if_pos ⟨by omega, hs⟩]
      have hmin : min n (d.length - offset) = b.length := by
        cases ds with
        | nil =>
          have h2 : b.length ≤ n := hseg.2
          simp only [List.flatten_nil, List.length_nil] at hlen
          omega
        | cons e ds =>
          have h1 := hseg.1
          omega
      rw [hmin, slice?_eq_some (by omega), hd, List.flatten_cons, List.take_left]
      dsimp only
      rw [processOne_spec hc hs (hf _) h1, pktOps_append, feed_append]
      cases hx : x.feed cfg (pktOps l1) with
      | none => rfl
      | some y =>
        rw [Option.bind_some]
        refine segLoop_spec hf d ds f (offset + n) y l2 ?_ (by simpa using hl) (feed_consistent hx) h2
        cases ds with
        | nil =>
          left
          refine ⟨rfl, ?_⟩
          have h2 : b.length ≤ n := hseg.2
          simp only [List.flatten_nil, List.length_nil] at hlen
          omega
        | cons e ds =>
          right
          have h1 := hseg.1
          refine ⟨hseg.2, ?_⟩
          rw [← List.drop_drop, hd, List.flatten_cons, ← h1, List.drop_left]

/-- A datagram that was cut is too large. -/
theorem dgAccepted_take {maxSize buf : Nat} {d : Bytes} {l : List Pkt} (h : d.length ≤ buf ∨ maxSize < buf) (ha : PacketsOf (· ≤ maxSize) [d] l) :
    PacketsOf (· ≤ maxSize) [d.take buf] l := by
  by_cases hd : d.length ≤ buf
  · rwa [List.take_of_length_le hd]
  · have hm : maxSize < buf := by omega
    have hlen : (d.take buf).length = buf := by rw [List.length_take]; omega
    cases ha with
    | take h1 _ _ => omega
    | skip _ h3 =>
      cases h3
      exact .skip (fun h => by have := h.1; simp only [hlen] at this; omega) .nil

theorem msgLoop_spec {cfg : StreamConfig} {maxSize : Nat} {gro : Bool} {buf : Nat} (hbuf : maxSize < buf ∨ 65535 ≤ buf) :
    ∀ (ms : List RxMsg) (ds : List Bytes) (x : RxState) (l : List Pkt), DeliversAll gro buf ds ms → (∀ d ∈ ds, d.length ≤ 65535) →
      x.stopped = x.batch.stopped → PacketsOf (· ≤ maxSize) ds l →
      x.msgLoop cfg maxSize gro ms = x.feed cfg (pktOps l)
  | [], ds, x, l, hd, _, hc, ha => by
    cases hd
    cases ha
    rw [RxState.msgLoop]
    exact (feed_nil hc).symm
  | m :: ms, _, x, l, hd, h64, hc, ha => by
    cases hd with
    | @cons ds _ ds' _ h1 h2 =>
    cases hs : x.stopped with
    | true =>
      rw [RxState.msgLoop, if_pos hs]
      exact (feed_stopped hc (by rw [← hc, hs]) _).symm
    | false =>
      obtain ⟨l1, l2, rfl, a1, a2⟩ := dgAccepted_append ha
      rw [RxState.msgLoop, if_neg (by simp [hs])]
      have hm : (if gro = true ∧ m.seg > 0 then x.segLoop cfg maxSize m.data m.seg.toNat (m.data.length + 1) 0 else x.processOne cfg maxSize m.data) =
          x.feed cfg (pktOps l1) := by
        cases h1 with
        | @one d =>
          rw [if_neg (fun h => absurd h.2 (by show ¬ (-1 : Int) > 0; decide))]
          refine processOne_spec hc hs Iff.rfl (dgAccepted_take ?_ a1)
          have := h64 d (by simp)
          omega
        | @coalesced _ n hg hseg hfit =>
          have hp := segments_pos hseg
          rw [if_pos ⟨hg, show (n : Int) > 0 by omega⟩]
          exact segLoop_spec (fun _ => Iff.rfl) _ ds _ 0 x l1 (Or.inr ⟨hseg, rfl⟩) (by show ds.length < ds.flatten.length + 1; omega) hc a1
      rw [hm, pktOps_append, feed_append]
      cases hx : x.feed cfg (pktOps l1) with
      | none => rfl
      | some y =>
        dsimp only
        rw [Option.bind_some]
        exact msgLoop_spec hbuf ms ds' y l2 h2 (fun d hd => h64 d (by simp [hd])) (feed_consistent hx) a2

theorem payloads_append {n : Nat} : ∀ {a b ds : List Bytes}, Payloads n (a ++ b) ds → ∃ d1 d2, ds = d1 ++ d2 ∧ Payloads n a d1 ∧ Payloads n b d2
  | [], b, ds, h => ⟨[], ds, rfl, .nil, h⟩
  | d :: a, b, ds, h => by
    cases h with
    | take h1 h3 =>
      obtain ⟨l1, l2, rfl, h4, h5⟩ := payloads_append h3
      exact ⟨_ :: l1, l2, rfl, .take h1 h4, h5⟩
    | skip h1 h3 =>
      obtain ⟨l1, l2, rfl, h4, h5⟩ := payloads_append h3
      exact ⟨l1, l2, rfl, .skip h1 h4, h5⟩

theorem payloads_cons {n : Nat} {d : Bytes} {b ds : List Bytes} (h : Payloads n (d :: b) ds) : ∃ d1 d2, ds = d1 ++ d2 ∧ Payloads n [d] d1 ∧ Payloads n b d2 :=
  payloads_append (a := [d]) h

theorem payloads_exists (n : Nat) : ∀ (fs : List Bytes), ∃ ds, Payloads n fs ds
  | [] => ⟨[], .nil⟩
  | f :: fs => by
    obtain ⟨l, h⟩ := payloads_exists n fs
    rcases Classical.em (∃ p, IsUdpFrame n f p) with ⟨p, h1⟩ | h1
    · exact ⟨p :: l, .take h1 h⟩
    · exact ⟨l, .skip h1 h⟩

theorem payloads_unique {n : Nat} (hn : 2 ≤ n) : ∀ {fs ds ds' : List Bytes}, Payloads n fs ds → Payloads n fs ds' → ds = ds'
  | [], _, _, .nil, .nil => rfl
  | _ :: _, _, _, .take h1 h3, h' => by
    cases h' with
    | take h2 h3' =>
      obtain ⟨b, g1, g2, _⟩ := parse_of_frame hn h1
      obtain ⟨b', g1', g2', _⟩ := parse_of_frame hn h2
      rw [g1'] at g1
      cases g1
      rw [← g2, ← g2', payloads_unique hn h3 h3']
    | skip h _ => exact absurd ⟨_, h1⟩ h
  | _ :: _, _, _, .skip h h3, h' => by
    cases h' with
    | take h1 _ => exact absurd ⟨_, h1⟩ h
    | skip _ h3' => exact payloads_unique hn h3 h3'

theorem processFrame_spec {cfg : StreamConfig} {n : Nat} (hn : 2 ≤ n) {limit : Nat → Nat} {x : RxState} {d : Bytes} {fits : Nat → Prop}
    (hf : ∀ k, fits k ↔ k ≤ limit k) {ds : List Bytes} {l : List Pkt} (hc : x.stopped = x.batch.stopped) (hs : x.stopped = false)
    (hp : Payloads n [d] ds) (ha : PacketsOf fits ds l) : x.processFrame cfg n limit d = x.feed cfg (pktOps l) := by
  have hx : { x with stopped := false } = x := by cases x; simp only at hs; rw [hs]
  unfold RxState.processFrame
  cases hp with
  | take h1 h3 =>
    cases h3
    obtain ⟨b, g1, g2, g3, g4⟩ := parse_of_frame hn h1
    rw [g1]
    dsimp only
    rw [slice?_eq_some g4, g2]
    dsimp only
    exact processOne_spec hc hs (by rw [g3]; exact hf _) ha
  | skip h h3 =>
    cases h3
    cases ha
    rw [show pktOps [] = [] from rfl, feed_nil hc]
    rw [udpFromFrame_eq hn]
    have key : ∀ b, udpFromFrame n d ≠ some (.ok b) := fun b hb => h ⟨_, (frame_of_parse hn hb).2⟩
    rw [udpFromFrame_eq hn] at key
    revert key
    generalize (if d.length < n + 20 then _ else _ : Except RawErr PBuf) = o
    intro key
    cases o with
    | error e => dsimp only; rw [hx]
    | ok b => exact absurd rfl (key b)

/-- Slots in batches. -/
structure PostOk (postBatch : Nat) (p : IbvPost) : Prop where
  posted : ∀ b ∈ p.posted, b ≠ [] ∧ b.length ≤ postBatch
  cur : p.cur.length < postBatch

theorem post_add {postBatch : Nat} {p : IbvPost} (h : PostOk postBatch p) (i : Nat) : PostOk postBatch (p.add postBatch i) ∧
    (p.add postBatch i).posted.flatten ++ (p.add postBatch i).cur = p.posted.flatten ++ p.cur ++ [i] := by
  unfold IbvPost.add
  have hc := h.cur
  split
  · rename_i he
    refine ⟨⟨?_, by show 0 < postBatch; omega⟩, by simp⟩
    intro b hb
    rcases List.mem_append.mp hb with hb | hb
    · exact h.posted b hb
    · rw [List.mem_singleton] at hb
      subst hb
      exact ⟨by simp, by omega⟩
  · rename_i he
    refine ⟨⟨h.posted, ?_⟩, by simp⟩
    show (p.cur ++ [i]).length < postBatch
    rw [List.length_append, List.length_singleton] at he ⊢
    omega

theorem post_finish {postBatch : Nat} {p : IbvPost} (h : PostOk postBatch p) : (∀ b ∈ p.finish, b ≠ [] ∧ b.length ≤ postBatch) ∧
    p.finish.flatten = p.posted.flatten ++ p.cur := by
  unfold IbvPost.finish
  have hc := h.cur
  split
  · rename_i he
    exact ⟨h.posted, by rw [he, List.append_nil]⟩
  · rename_i he
    refine ⟨?_, by simp⟩
    intro b hb
    rcases List.mem_append.mp hb with hb | hb
    · exact h.posted b hb
    · rw [List.mem_singleton] at hb
      subst hb
      exact ⟨he, by omega⟩

/-- `poll_once` gives the packets to the stream and the slots back. -/
theorem ibvLoop_spec {cfg : StreamConfig} {maxSize postBatch : Nat} : ∀ (wcs : List IbvWc) (x : RxState) (p : IbvPost) (ds : List Bytes) (l : List Pkt),
    x.stopped = x.batch.stopped → x.stopped = false → PostOk postBatch p → Payloads 14 (ibvFrames wcs) ds → PacketsOf (· ≤ maxSize) ds l →
    (x.ibvLoop cfg maxSize postBatch wcs p).map Prod.fst = x.feed cfg (pktOps l) ∧
    ∀ y posts, x.ibvLoop cfg maxSize postBatch wcs p = some (y, posts) → (∀ b ∈ posts, b ≠ [] ∧ b.length ≤ postBatch) ∧
      ∃ i, posts.flatten = ((p.posted.flatten ++ p.cur) ++ wcs.map IbvWc.index).take i ∧ (y.stopped = false → posts.flatten = (p.posted.flatten ++ p.cur) ++ wcs.map IbvWc.index)
  | [], x, p, ds, l, hc, hs, hp, hd, ha => by
    cases hd
    cases ha
    rw [RxState.ibvLoop]
    refine ⟨(feed_nil hc).symm, ?_⟩
    intro y posts h
    simp only [Option.some.injEq, Prod.mk.injEq] at h
    obtain ⟨rfl, rfl⟩ := h
    obtain ⟨h1, h2⟩ := post_finish hp
    refine ⟨h1, (p.posted.flatten ++ p.cur).length, ?_, ?_⟩
    · rw [h2, List.map_nil, List.append_nil, List.take_length]
    · intro _; rw [h2]; simp
  | wc :: wcs, x, p, ds, l, hc, hs, hp, hd, ha => by
    obtain ⟨q1, q2⟩ := post_add hp wc.index
    cases hw : wc.frame with
    | none =>
      rw [RxState.ibvLoop, hw]
      dsimp only
      have hd' : Payloads 14 (ibvFrames wcs) ds := by simpa [ibvFrames, hw] using hd
      obtain ⟨r1, r2⟩ := ibvLoop_spec wcs x (p.add postBatch wc.index) ds l hc hs q1 hd' ha
      refine ⟨r1, ?_⟩
      intro y posts h
      have := r2 y posts h
      rw [q2] at this
      simpa using this
    | some d =>
      rw [RxState.ibvLoop, hw]
      dsimp only
      have hd' : Payloads 14 (d :: ibvFrames wcs) ds := by simpa [ibvFrames, hw] using hd
      obtain ⟨d1, d2, rfl, hd1, hd2⟩ := payloads_cons hd'
      obtain ⟨l1, l2, rfl, a1, a2⟩ := dgAccepted_append ha
      rw [processFrame_spec (by omega) (fun _ => Iff.rfl) hc hs hd1 a1, pktOps_append, feed_append]
      cases hx : x.feed cfg (pktOps l1) with
      | none => exact ⟨rfl, fun y posts h => nomatch h⟩
      | some y =>
        dsimp only
        rw [Option.bind_some]
        have hcy := feed_consistent hx
        cases hy : y.stopped with
        | true =>
          rw [if_pos rfl]
          refine ⟨(feed_stopped hcy (by rw [← hcy, hy]) _).symm, ?_⟩
          intro z posts h
          simp only [Option.some.injEq, Prod.mk.injEq] at h
          obtain ⟨rfl, rfl⟩ := h
          refine ⟨hp.posted, p.posted.flatten.length, ?_, ?_⟩
          · rw [List.append_assoc]; simp
          · intro h; rw [hy] at h; cases h
        | false =>
          rw [if_neg (by decide)]
          obtain ⟨r1, r2⟩ := ibvLoop_spec wcs y (p.add postBatch wc.index) d2 l2 hcy hy q1 hd2 a2
          refine ⟨r1, ?_⟩
          intro z posts h
          have := r2 z posts h
          rw [q2] at this
          simpa using this

theorem ibvPolls_spec {cfg : StreamConfig} {maxSize slots : Nat} : ∀ (polls : List (List IbvWc)) (x : RxState) (ds : List Bytes) (l : List Pkt),
    x.stopped = x.batch.stopped → x.stopped = false → Payloads 14 (ibvFrames polls.flatten) ds → PacketsOf (· ≤ maxSize) ds l →
    (x.ibvPolls cfg maxSize slots polls).map Prod.fst = x.feed cfg (pktOps l) ∧
    ∀ y posts, x.ibvPolls cfg maxSize slots polls = some (y, posts) → (∀ b ∈ posts, b ≠ [] ∧ b.length ≤ max 1 (min 64 (slots / 4))) ∧
      ∃ i, posts.flatten = (polls.flatten.map IbvWc.index).take i ∧ (y.stopped = false → posts.flatten = polls.flatten.map IbvWc.index)
  | [], x, ds, l, hc, hs, hd, ha => by
    cases hd
    cases ha
    rw [RxState.ibvPolls]
    refine ⟨(feed_nil hc).symm, ?_⟩
    intro y posts h
    simp only [Option.some.injEq, Prod.mk.injEq] at h
    obtain ⟨rfl, rfl⟩ := h
    exact ⟨by simp, 0, by simp, by simp⟩
  | wcs :: polls, x, ds, l, hc, hs, hd, ha => by
    have hd' : Payloads 14 (ibvFrames wcs ++ ibvFrames polls.flatten) ds := by simpa [ibvFrames] using hd
    obtain ⟨d1, d2, rfl, hd1, hd2⟩ := payloads_append hd'
    obtain ⟨l1, l2, rfl, a1, a2⟩ := dgAccepted_append ha
    have hp0 : PostOk (ibvPostBatch slots) {} := ⟨by simp, by show 0 < ibvPostBatch slots; unfold ibvPostBatch; omega⟩
    obtain ⟨r1, r2⟩ := ibvLoop_spec (cfg := cfg) wcs x {} d1 l1 hc hs hp0 hd1 a1
    rw [RxState.ibvPolls, pktOps_append, feed_append, ← r1]
    cases hx : x.ibvLoop cfg maxSize (ibvPostBatch slots) wcs {} with
    | none => exact ⟨rfl, fun y posts h => nomatch h⟩
    | some v =>
      obtain ⟨y, posts⟩ := v
      rw [hx, Option.map_some] at r1
      have hcy := feed_consistent r1.symm
      obtain ⟨q1, i, q2, q3⟩ := r2 y posts hx
      simp only [List.flatten_nil, List.nil_append, Option.map_some, Option.bind_some] at q2 q3 ⊢
      cases hy : y.stopped with
      | true =>
        rw [if_pos rfl]
        refine ⟨(feed_stopped hcy (by rw [← hcy, hy]) _).symm, ?_⟩
        intro z posts' h
        simp only [Option.some.injEq, Prod.mk.injEq] at h
        obtain ⟨rfl, rfl⟩ := h
        refine ⟨q1, posts.flatten.length, ?_, ?_⟩
        · rw [q2, List.flatten_cons, List.map_append, List.length_take, List.take_append_of_le_length (by omega)]
          by_cases h : i ≤ (wcs.map IbvWc.index).length
          · rw [Nat.min_eq_left h]
          · rw [Nat.min_eq_right (by omega), List.take_of_length_le (by omega), List.take_length]
        · intro h; rw [hy] at h; cases h
      | false =>
        rw [if_neg (by decide)]
        obtain ⟨s1, s2⟩ := ibvPolls_spec (cfg := cfg) (slots := slots) polls y d2 l2 hcy hy hd2 a2
        rw [← s1]
        cases hz : y.ibvPolls cfg maxSize slots polls with
        | none => exact ⟨rfl, fun y posts h => nomatch h⟩
        | some w =>
          obtain ⟨z, posts'⟩ := w
          refine ⟨rfl, ?_⟩
          intro z' posts'' h
          simp only [Option.some.injEq, Prod.mk.injEq] at h
          obtain ⟨rfl, rfl⟩ := h
          obtain ⟨t1, j, t2, t3⟩ := s2 z posts' hz
          refine ⟨?_, (wcs.map IbvWc.index).length + j, ?_, ?_⟩
          · intro b hb
            rcases List.mem_append.mp hb with hb | hb
            · exact q1 b hb
            · exact t1 b hb
          · rw [List.flatten_append, q3 hy, t2, List.flatten_cons, List.map_append, List.take_length_add_append]
          · intro h
            rw [List.flatten_append, q3 hy, t3 h, List.flatten_cons, List.map_append]

theorem mprqFrames_append : ∀ (a b : List MprqWc), mprqFrames (a ++ b) = mprqFrames a ++ mprqFrames b
  | [], b => rfl
  | .failed :: a, b => mprqFrames_append a b
  | .ok none _ :: a, b => mprqFrames_append a b
  | .ok (some d) _ :: a, b => by simp only [List.cons_append, mprqFrames, mprqFrames_append a b]

theorem mprqLoop_spec {cfg : StreamConfig} {maxSize wqeSize bufSize : Nat} : ∀ (wcs : List MprqWc) (x : RxState) (start : Nat) (ds : List Bytes) (l : List Pkt),
    x.stopped = x.batch.stopped → x.stopped = false → Payloads 14 (mprqFrames wcs) ds → PacketsOf (· ≤ maxSize) ds l →
    (x.mprqLoop cfg maxSize wqeSize bufSize wcs start).map Prod.fst = x.feed cfg (pktOps l)
  | [], x, start, ds, l, hc, hs, hd, ha => by
    cases hd
    cases ha
    rw [RxState.mprqLoop]
    exact (feed_nil hc).symm
  | .failed :: wcs, x, start, ds, l, hc, hs, hd, ha => by
    rw [RxState.mprqLoop]
    exact mprqLoop_spec wcs x start ds l hc hs hd ha
  | .ok none last :: wcs, x, start, ds, l, hc, hs, hd, ha => by
    rw [RxState.mprqLoop]
    rw [if_neg (by simp [hs])]
    cases last with
    | false => exact mprqLoop_spec wcs x start ds l hc hs hd ha
    | true =>
      rw [if_pos rfl, ← mprqLoop_spec wcs x (if start + wqeSize = bufSize then 0 else start + wqeSize) ds l hc hs hd ha]
      cases x.mprqLoop cfg maxSize wqeSize bufSize wcs (if start + wqeSize = bufSize then 0 else start + wqeSize) <;> rfl
  | .ok (some d) last :: wcs, x, start, ds, l, hc, hs, hd, ha => by
    obtain ⟨d1, d2, rfl, hd1, hd2⟩ := payloads_cons hd
    obtain ⟨l1, l2, rfl, a1, a2⟩ := dgAccepted_append ha
    rw [RxState.mprqLoop]
    rw [processFrame_spec (by omega) (fun _ => Iff.rfl) hc hs hd1 a1, pktOps_append, feed_append]
    cases hx : x.feed cfg (pktOps l1) with
    | none => rfl
    | some y =>
      dsimp only
      rw [Option.bind_some]
      have hcy := feed_consistent hx
      cases hy : y.stopped with
      | true =>
        rw [if_pos rfl]
        exact (feed_stopped hcy (by rw [← hcy, hy]) _).symm
      | false =>
        rw [if_neg (by decide)]
        cases last with
        | false => exact mprqLoop_spec wcs y start d2 l2 hcy hy hd2 a2
        | true =>
          rw [if_pos rfl, ← mprqLoop_spec wcs y (if start + wqeSize = bufSize then 0 else start + wqeSize) d2 l2 hcy hy hd2 a2]
          cases y.mprqLoop cfg maxSize wqeSize bufSize wcs (if start + wqeSize = bufSize then 0 else start + wqeSize) <;> rfl

theorem mprqPolls_spec {cfg : StreamConfig} {maxSize wqeSize bufSize : Nat} : ∀ (polls : List (List MprqWc)) (x : RxState) (start : Nat) (ds : List Bytes) (l : List Pkt),
    x.stopped = x.batch.stopped → x.stopped = false → (∀ wcs ∈ polls, wcs.length ≤ 256) → Payloads 14 (mprqFrames polls.flatten) ds → PacketsOf (· ≤ maxSize) ds l →
    (x.mprqPolls cfg maxSize wqeSize bufSize polls start).map Prod.fst = x.feed cfg (pktOps l)
  | [], x, start, ds, l, hc, hs, _, hd, ha => by
    cases hd
    cases ha
    rw [RxState.mprqPolls]
    exact (feed_nil hc).symm
  | wcs :: polls, x, start, ds, l, hc, hs, h256, hd, ha => by
    rw [List.flatten_cons, mprqFrames_append] at hd
    obtain ⟨d1, d2, rfl, hd1, hd2⟩ := payloads_append hd
    obtain ⟨l1, l2, rfl, a1, a2⟩ := dgAccepted_append ha
    have r1 := mprqLoop_spec (cfg := cfg) (wqeSize := wqeSize) (bufSize := bufSize) wcs x start d1 l1 hc hs hd1 a1
    rw [RxState.mprqPolls, pktOps_append, feed_append, ← r1, List.take_of_length_le (h256 wcs (by simp))]
    cases hx : x.mprqLoop cfg maxSize wqeSize bufSize wcs start with
    | none => rfl
    | some v =>
      obtain ⟨y, posts, start'⟩ := v
      rw [hx, Option.map_some] at r1
      have hcy := feed_consistent r1.symm
      simp only [Option.map_some, Option.bind_some]
      cases hy : y.stopped with
      | true =>
        rw [if_pos rfl]
        exact (feed_stopped hcy (by rw [← hcy, hy]) _).symm
      | false =>
        rw [if_neg (by decide), ← mprqPolls_spec polls y start' d2 l2 hcy hy (fun w hw => h256 w (by simp [hw])) hd2 a2]
        cases y.mprqPolls cfg maxSize wqeSize bufSize polls start' <;> rfl

/-- One handler of the pcap reader. -/
theorem pcapLoop_spec {cfg : StreamConfig} {n : Nat} (hn : 2 ≤ n) : ∀ (k : Nat) (recs : List PcapRec) (x : RxState) (ds : List Bytes) (l : List Pkt),
    x.stopped = x.batch.stopped → Payloads n (wholeRecords (recs.take k)) ds → PacketsOf (fun _ => True) ds l →
    (x.pcapLoop cfg n k recs).map Prod.fst = x.feed cfg (pktOps l ++ if recs.length < k then [.stop] else []) ∧
    ∀ y recs', x.pcapLoop cfg n k recs = some (y, recs') → y.batch.stopped = false → recs' = recs.drop k
  | 0, recs, x, ds, l, hc, hd, ha => by
    rw [List.take_zero] at hd
    cases hd
    cases ha
    rw [RxState.pcapLoop, if_neg (by omega)]
    refine ⟨(feed_nil hc).symm, ?_⟩
    intro y recs' h _
    simp only [Option.some.injEq, Prod.mk.injEq] at h
    simp [← h.2]
  | k + 1, recs, x, ds, l, hc, hd, ha => by
    rw [RxState.pcapLoop.eq_def]
    dsimp only
    cases hs : x.batch.stopped with
    | true =>
      rw [if_pos rfl]
      refine ⟨(feed_stopped hc hs _).symm, ?_⟩
      intro y recs' h h'
      simp only [Option.some.injEq, Prod.mk.injEq] at h
      rw [← h.1, hs] at h'
      cases h'
    | false =>
      have hs' : x.stopped = false := by rw [hc, hs]
      rw [if_neg (by decide)]
      cases recs with
      | nil =>
        dsimp only
        cases hd
        cases ha
        obtain ⟨r1, r2⟩ := pcapLoop_spec (cfg := cfg) hn k [] { x with batch := { x.batch with stopped := true }, stopped := true } [] [] rfl (by rw [List.take_nil]; exact .nil) .nil
        refine ⟨?_, fun y recs' h h' => by rw [r2 y recs' h h']; simp⟩
        rw [r1, feed_stopped rfl rfl, if_pos (by simp)]
        exact (feed_stop hs).symm
      | cons r recs =>
        have hif : (if (r :: recs).length < k + 1 then [BatchOp.stop] else []) = if recs.length < k then [BatchOp.stop] else [] := by
          simp only [List.length_cons, Nat.add_lt_add_iff_right]
        rw [hif]
        rw [List.take_succ_cons] at hd
        cases r with
        | error =>
          dsimp only
          exact pcapLoop_spec hn k recs x ds l hc hd ha
        | record len d =>
          dsimp only
          by_cases hlen : d.length < len
          · rw [if_pos hlen]
            rw [wholeRecords, if_neg (by omega)] at hd
            exact pcapLoop_spec hn k recs x ds l hc hd ha
          · rw [if_neg hlen]
            rw [wholeRecords, if_pos (by omega)] at hd
            obtain ⟨d1, d2, rfl, hd1, hd2⟩ := payloads_cons hd
            obtain ⟨l1, l2, rfl, a1, a2⟩ := dgAccepted_append ha
            rw [processFrame_spec (fits := fun _ => True) hn (fun k => by simp) hc hs' hd1 a1, pktOps_append, List.append_assoc, feed_append]
            cases hx : x.feed cfg (pktOps l1) with
            | none => exact ⟨rfl, fun y posts h => nomatch h⟩
            | some y =>
              dsimp only
              rw [Option.bind_some]
              exact pcapLoop_spec hn k recs y d2 l2 (feed_consistent hx) hd2 a2

theorem setNext_keeps {s s' : Stream} {i : Nat} {l : Link} (h : s.setNext i l = some s') : s'.stopped = s.stopped := by
  unfold Stream.setNext at h
  split at h
  · cases h
  · cases h; rfl

theorem store_keeps {s s' : Stream} {r : LinkRef} {l : Link} (h : s.store r l = some s') : s'.stopped = s.stopped := by
  cases r with
  | bucket b =>
    simp only [Stream.store] at h
    split at h
    · cases h; rfl
    · cases h
  | next i => exact setNext_keeps h

theorem unlink_keeps {cfg : StreamConfig} {s s' : Stream} {i : Nat} (h : s.unlink cfg i = some s') : s'.stopped = s.stopped := by
  unfold Stream.unlink at h
  simp only [Option.bind_eq_bind, Option.bind_eq_some_iff] at h
  obtain ⟨_, _, _, _, _, _, s1, h1, h2⟩ := h
  rw [setNext_keeps h2, store_keeps h1]

theorem destroy_keeps {s s' : Stream} {i : Nat} (h : s.destroy i = some s') : s'.stopped = s.stopped := by
  unfold Stream.destroy at h
  split at h
  · cases h; rfl
  · cases h

theorem eject_keeps {cfg : StreamConfig} {s : Stream} {i : Nat} {r : Stream × List Entry} (h : s.eject cfg i = some r) : r.1.stopped = s.stopped := by
  unfold Stream.eject at h
  simp only [Option.bind_eq_bind, Option.bind_eq_some_iff] at h
  obtain ⟨sl, _, h⟩ := h
  split at h
  · cases h; rfl
  · simp only [Option.bind_eq_some_iff] at h
    obtain ⟨s1, h1, e, _, s2, h2, h3⟩ := h
    cases h3
    rw [destroy_keeps h2, unlink_keeps h1]

theorem flushSub_keeps {cfg : StreamConfig} {sub : Nat} : ∀ (n : Nat) {s : Stream} {r : Stream × List Entry},
    Stream.flushSub cfg sub n s = some r → r.1.stopped = s.stopped
  | 0, s, r, h => by cases h; rfl
  | n + 1, s, r, h => by
    simp only [Stream.flushSub, Option.bind_eq_bind, Option.bind_eq_some_iff] at h
    obtain ⟨a, h1, ev, h2, r', h3, h4⟩ := h
    cases h4
    have h5 : a.1.stopped = s.stopped := by
      unfold Stream.advance at h1
      simp only [Option.bind_eq_bind, Option.bind_eq_some_iff] at h1
      obtain ⟨_, _, h1⟩ := h1
      cases h1
      rfl
    show r'.1.stopped = s.stopped
    rw [flushSub_keeps n h3, eject_keeps h2, h5]

theorem flushSubs_keeps {cfg : StreamConfig} : ∀ (l : List Nat) {s : Stream} {r : Stream × List Entry},
    Stream.flushSubs cfg l s = some r → r.1.stopped = s.stopped
  | [], s, r, h => by cases h; rfl
  | i :: l, s, r, h => by
    simp only [Stream.flushSubs, Option.bind_eq_bind, Option.bind_eq_some_iff] at h
    obtain ⟨a, h1, r', h3, h4⟩ := h
    cases h4
    show r'.1.stopped = s.stopped
    rw [flushSubs_keeps l h3, flushSub_keeps _ h1]

theorem stopReceived_stopped {cfg : StreamConfig} {s : Stream} {r : Stream × List Entry} (h : s.stopReceived cfg = some r) : r.1.stopped = true := by
  unfold Stream.stopReceived at h
  split at h
  · cases h
  · unfold Stream.flush at h
    simp only [Option.bind_eq_bind, Option.bind_eq_some_iff] at h
    obtain ⟨r', h1, h2⟩ := h
    cases h2
    exact flushSubs_keeps _ h1

theorem endBatch_stopped {cfg : StreamConfig} {s : Stream} {st : Batch} {r : Stream × List Entry} (h : s.endBatch cfg st = some r)
    (hs : st.stopped = true) : r.1.stopped = true := by
  unfold Stream.endBatch at h
  rw [if_pos hs] at h
  simp only [Option.bind_eq_bind, Option.bind_eq_some_iff] at h
  obtain ⟨r', h1, h2⟩ := h
  have h3 := stopReceived_stopped h1
  split at h2
  · cases h2; exact h3
  · cases h2; exact h3

theorem feed_stop_stopped {cfg : StreamConfig} {ops : List BatchOp} {x y : RxState} (h : x.feed cfg (ops ++ [.stop]) = some y) : y.batch.stopped = true := by
  rw [feed_append] at h
  cases hx : x.feed cfg ops with
  | none => rw [hx] at h; cases h
  | some z =>
    rw [hx, Option.bind_some] at h
    cases hz : z.batch.stopped with
    | true =>
      rw [feed_stopped (feed_consistent hx) hz] at h
      cases h
      exact hz
    | false =>
      rw [feed_stop hz] at h
      cases h
      rfl

theorem pcapHandler_spec {cfg : StreamConfig} {n : Nat} (hn : 2 ≤ n) {s : Stream} {recs : List PcapRec} {ds : List Bytes} {l : List Pkt}
    (hd : Payloads n (wholeRecords (recs.take 64)) ds) (ha : PacketsOf (fun _ => True) ds l) :
    (pcapHandler cfg n s recs).map (fun r => (r.1, r.2.1)) = s.batch cfg (pktOps l ++ if recs.length < 64 then [.stop] else []) ∧
    (s.stopped = false → ∀ s' out recs', pcapHandler cfg n s recs = some (s', out, recs') → s'.stopped = false → recs' = recs.drop 64 ∧ 64 ≤ recs.length) := by
  obtain ⟨r1, r2⟩ := pcapLoop_spec (cfg := cfg) hn 64 recs ⟨s, {}, [], false⟩ ds l rfl hd ha
  constructor
  · rw [← boundHandler_spec (body := fun x => (x.pcapLoop cfg n 64 recs).map Prod.fst) r1]
    unfold boundHandler pcapHandler
    by_cases hs : s.stopped = true
    · rw [if_pos hs, if_pos hs]; rfl
    · rw [if_neg hs, if_neg hs]
      show Option.map _ _ = match Option.map Prod.fst (RxState.pcapLoop cfg n 64 recs ⟨s, {}, [], false⟩) with | none => none | some x => _
      rw [show pcapBatch = 64 from rfl]
      cases RxState.pcapLoop cfg n 64 recs ⟨s, {}, [], false⟩ with
      | none => rfl
      | some v =>
        obtain ⟨x, recs'⟩ := v
        dsimp only [Option.map_some]
        cases x.stream.endBatch cfg x.batch with
        | none => rfl
        | some w => rfl
  · intro hs s' out recs' h h'
    unfold pcapHandler at h
    rw [if_neg (by simp [hs]), show pcapBatch = 64 from rfl] at h
    cases hx : RxState.pcapLoop cfg n 64 recs ⟨s, {}, [], false⟩ with
    | none => rw [hx] at h; cases h
    | some v =>
      obtain ⟨x, recs''⟩ := v
      rw [hx] at h
      dsimp only at h
      cases he : x.stream.endBatch cfg x.batch with
      | none => rw [he] at h; cases h
      | some w =>
        rw [he] at h
        simp only [Option.some.injEq, Prod.mk.injEq] at h
        obtain ⟨rfl, rfl, rfl⟩ := h
        have hns : x.batch.stopped = false := by
          cases hb : x.batch.stopped with
          | false => rfl
          | true => rw [endBatch_stopped he hb] at h'; cases h'
        refine ⟨r2 x recs'' hx hns, ?_⟩
        rw [hx, Option.map_some] at r1
        by_cases hl : recs.length < 64
        · rw [if_pos hl] at r1
          rw [feed_stop_stopped r1.symm] at hns
          cases hns
        · omega

theorem run_stopped (cfg : StreamConfig) {s : Stream} (hs : s.stopped = true) : ∀ (opss : List (List BatchOp)),
    Stream.run cfg (opss.map .batch) s = some (s, [])
  | [] => rfl
  | ops :: opss => by
    simp only [List.map_cons, Stream.run, Stream.step, Stream.batch, if_pos hs, Option.bind_eq_bind, Option.bind_some, run_stopped cfg hs opss, List.append_nil]

theorem wholeRecords_append : ∀ (a b : List PcapRec), wholeRecords (a ++ b) = wholeRecords a ++ wholeRecords b
  | [], b => rfl
  | .error :: a, b => wholeRecords_append a b
  | .record len d :: a, b => by
    simp only [List.cons_append, wholeRecords, wholeRecords_append a b]
    split <;> rfl

theorem batch_stop_stopped {cfg : StreamConfig} {s : Stream} {ops : List BatchOp} {r : Stream × List Entry} (h : s.batch cfg (ops ++ [.stop]) = some r) :
    r.1.stopped = true := by
  unfold Stream.batch at h
  by_cases hs : s.stopped = true
  · rw [if_pos hs] at h
    cases h
    exact hs
  · rw [if_neg hs] at h
    simp only [Option.bind_eq_bind, Option.bind_eq_some_iff] at h
    obtain ⟨r0, h1, r1, h2, h3⟩ := h
    cases h3
    have : RxState.feed cfg (ops ++ [.stop]) ⟨s, {}, [], false⟩ = some ⟨r0.1, r0.2.1, r0.2.2, r0.2.1.stopped⟩ := by
      unfold RxState.feed
      dsimp only
      rw [h1]
      rfl
    show r1.1.stopped = true
    exact endBatch_stopped h2 (feed_stop_stopped this)

/-- The whole capture. -/
theorem pcapRun_spec {cfg : StreamConfig} {n : Nat} (hn : 2 ≤ n) : ∀ (m : Nat) (recs : List PcapRec) (ds : List Bytes) (l : List Pkt),
    recs.length / 64 ≤ m → Payloads n (wholeRecords recs) ds → PacketsOf (fun _ => True) ds l →
    ∃ opss : List (List BatchOp), opss.flatten = pktOps l ++ [.stop] ∧
      (∀ s r, Stream.run cfg (opss.map .batch) s = some r → r.1.stopped = true) ∧
      ∀ (f : Nat) (s : Stream), recs.length / 64 < f → s.stopped = false → pcapRun cfg n f s recs = Stream.run cfg (opss.map .batch) s := by
  intro m
  induction m with
  | zero => ?_
  | succ m ih => ?_
  all_goals
    intro recs ds l hm hd ha
    by_cases hlen : recs.length < 64
    · have ht : recs.take 64 = recs := List.take_of_length_le (by omega)
      refine ⟨[pktOps l ++ [.stop]], by simp, ?_, ?_⟩
      · intro s r h
        simp only [List.map_cons, List.map_nil, Stream.run, Stream.step, Option.bind_eq_bind, Option.bind_eq_some_iff] at h
        obtain ⟨r1, h1, r2, h2, h3⟩ := h
        cases h2
        cases h3
        show r1.1.stopped = true
        exact batch_stop_stopped h1
      · intro f s hf hs
        obtain ⟨f, rfl⟩ : ∃ f', f = f' + 1 := ⟨f - 1, by omega⟩
        obtain ⟨r1, r2⟩ := pcapHandler_spec (cfg := cfg) hn (s := s) (by rw [ht]; exact hd) ha
        rw [if_pos hlen] at r1
        rw [pcapRun]
        simp only [List.map_cons, List.map_nil, Stream.run, Stream.step, Option.bind_eq_bind, ← r1]
        cases hx : pcapHandler cfg n s recs with
        | none => rfl
        | some v =>
          obtain ⟨s', out, recs'⟩ := v
          have : s'.stopped = true := by
            cases hs' : s'.stopped with
            | true => rfl
            | false =>
              have := (r2 hs s' out recs' hx hs').2
              omega
          simp [this]
    · first
      | omega
      | rw [show recs = recs.take 64 ++ recs.drop 64 from (List.take_append_drop 64 recs).symm, wholeRecords_append] at hd
        obtain ⟨d1, d2, rfl, hd1, hd2⟩ := payloads_append hd
        obtain ⟨l1, l2, rfl, a1, a2⟩ := dgAccepted_append ha
        obtain ⟨opss, ho, hstop, hrun⟩ := ih (recs.drop 64) d2 l2 (by rw [List.length_drop]; omega) hd2 a2
        refine ⟨pktOps l1 :: opss, by rw [List.flatten_cons, ho, pktOps_append, List.append_assoc], ?_, ?_⟩
        · intro s r h
          simp only [List.map_cons, Stream.run, Option.bind_eq_bind, Option.bind_eq_some_iff] at h
          obtain ⟨r1, h1, r2, h2, h3⟩ := h
          cases h3
          show r2.1.stopped = true
          exact hstop _ _ h2
        · intro f s hf hs
          obtain ⟨f, rfl⟩ : ∃ f', f = f' + 1 := ⟨f - 1, by omega⟩
          obtain ⟨r1, r2⟩ := pcapHandler_spec (cfg := cfg) hn (s := s) hd1 a1
          rw [if_neg hlen, List.append_nil] at r1
          rw [pcapRun]
          simp only [List.map_cons, Stream.run, Stream.step, Option.bind_eq_bind, ← r1]
          cases hx : pcapHandler cfg n s recs with
          | none => rfl
          | some v =>
            obtain ⟨s', out, recs'⟩ := v
            simp only [Option.map_some, Option.bind_some]
            cases hs' : s'.stopped with
            | true => rw [if_pos rfl, run_stopped cfg hs']; simp
            | false =>
              rw [if_neg (by decide), (r2 hs s' out recs' hx hs').1, hrun f s' (by rw [List.length_drop]; omega) hs']
              cases Stream.run cfg (opss.map .batch) s' with
              | none => rfl
              | some w => rfl

end Spead2
