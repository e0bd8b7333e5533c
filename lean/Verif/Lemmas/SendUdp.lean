import Verif.Spec.SendUdp

/-!
# Lemmas for the UDP writer
-/

namespace Spead2

open Spec

def bufCount (g : List UPkt) : Nat := (g.flatMap UPkt.bufs).length

theorem bufCount_cons (p : UPkt) (g : List UPkt) : bufCount (p :: g) = p.bufs.length + bufCount g := by
  simp [bufCount]

theorem bufCount_append (g h : List UPkt) : bufCount (g ++ h) = bufCount g + bufCount h := by
  simp [bufCount]

theorem UPkt.size_eq (p : UPkt) : p.size = p.bytes.length := by
  unfold UPkt.size UPkt.bytes
  rw [List.length_flatten]

/-- Packets that can be in one message: all but the last have size `gso`, and they have the same substream. -/
def Chain (gso : Int) : List UPkt → Prop
  | q :: p :: t => (q.size : Int) = gso ∧ p.sub = q.sub ∧ Chain gso (p :: t)
  | _ => True

/-- The packets from index `i` are divided into messages, as described by the headers from `m` and the flags. -/
def Parted (mv : Nat → MsgHdr) (mg : Nat → Bool) (gso : Int) : Nat → Nat → Nat → List (List UPkt) → Prop
  | _, _, _, [] => True
  | i, io, m, g :: gs => (∃ q t, g = q :: t ∧ mv m = ⟨io, bufCount g, q.sub⟩ ∧ (∀ j, j < t.length → mg (i + 1 + j) = true)) ∧ Chain gso g ∧
      (gs ≠ [] → mg (i + g.length) = false) ∧ Parted mv mg gso (i + g.length) (io + bufCount g) (m + 1) gs

theorem loop_spec (pkts : List UPkt) (gso : Int) (first : Nat) : ∀ (n i : Nat) (st : Prep), i + n ≤ pkts.length → st.msg + n ≤ udpMaxBatch →
    (first < i → 0 < st.msg) → first ≤ i → ∃ st' ext gs, Prep.loop pkts gso first n i st = some st' ∧ (pkts.drop i).take n = ext ++ gs.flatten ∧
      (i = first → ext = []) ∧ (∀ q, first < i → pkts[i - 1]? = some q → Chain gso (q :: ext)) ∧ st'.msg = st.msg + gs.length ∧
      (∀ j, j + 1 < st.msg → st'.msgvec j = st.msgvec j) ∧
      (∀ j, j + 1 = st.msg → st'.msgvec j = ⟨(st.msgvec j).iov, (st.msgvec j).iovlen + bufCount ext, (st.msgvec j).name⟩) ∧
      (∀ j, j < i → st'.merged j = st.merged j) ∧ (∀ j, j < ext.length → st'.merged (i + j) = true) ∧
      (gs ≠ [] → st'.merged (i + ext.length) = false) ∧ Parted st'.msgvec st'.merged gso (i + ext.length) (st.iov + bufCount ext) st.msg gs
  | 0, i, st, _, _, _, _ => by
    refine ⟨st, [], [], rfl, by simp, fun _ => rfl, fun _ _ _ => trivial, rfl, fun _ _ => rfl, fun _ _ => ?_, fun _ _ => rfl, fun _ h => by simp at h, fun h => absurd rfl h, trivial⟩
    simp [bufCount]
  | n + 1, i, st, h1, h2, h3, h4 => by
    have hi : i < pkts.length := by omega
    obtain ⟨p, hp⟩ : ∃ p, pkts[i]? = some p := ⟨_, List.getElem?_eq_getElem hi⟩
    have hdrop : (pkts.drop i).take (n + 1) = p :: (pkts.drop (i + 1)).take n := by
      rw [List.drop_eq_getElem_cons hi, List.take_succ_cons]
      rw [List.getElem?_eq_getElem hi] at hp
      rw [Option.some.inj hp]
    -- a new header
    have new : st.step pkts gso first i = (st.header i p).map (fun st => st.append p) → ∃ st' gs, Prep.loop pkts gso first (n + 1) i st = some st' ∧
        (pkts.drop i).take (n + 1) = gs.flatten ∧ gs ≠ [] ∧ st'.msg = st.msg + gs.length ∧
        (∀ j, j < st.msg → st'.msgvec j = st.msgvec j) ∧
        (∀ j, j < i → st'.merged j = st.merged j) ∧ st'.merged i = false ∧ Parted st'.msgvec st'.merged gso i st.iov st.msg gs := by
      intro hs
      unfold Prep.header at hs
      rw [if_pos (by omega), Option.map_some] at hs
      obtain ⟨st1, hst1⟩ : ∃ st1, st1 = Prep.append { st with
          msgvec := fun j => if j = st.msg then ⟨st.iov, 0, p.sub⟩ else st.msgvec j
          msg := st.msg + 1
          merged := fun j => if j = i then false else st.merged j
          mergedSize := 0 } p := ⟨_, rfl⟩
      rw [← hst1] at hs
      have m1 : st1.msg = st.msg + 1 := by rw [hst1]; rfl
      have m2 : ∀ j, st1.msgvec j = if j = st.msg then ⟨st.iov, 0 + p.bufs.length, p.sub⟩ else st.msgvec j := by
        intro j
        rw [hst1]
        simp only [Prep.append]
        rw [Nat.add_sub_cancel]
        by_cases hj : j = st.msg
        · simp [hj]
        · simp [hj]
      have m3 : ∀ j, st1.merged j = if j = i then false else st.merged j := by intro j; rw [hst1]; rfl
      have m4 : st1.iov = st.iov + p.bufs.length := by rw [hst1]; rfl
      obtain ⟨st', ext, gs, e1, e2, _, e4, e5, e6, e7, e8, e9, e10, e11⟩ := loop_spec pkts gso first n (i + 1) st1 (by omega) (by omega) (by omega) (by omega)
      refine ⟨st', (p :: ext) :: gs, ?_, ?_, by simp, ?_, ?_, ?_, ?_, ?_⟩
      · unfold Prep.loop
        rw [hs]
        exact e1
      · rw [hdrop, e2]
        simp
      · rw [e5, m1, List.length_cons]
        omega
      · intro j hj
        rw [e6 j (by omega), m2, if_neg (by omega)]
      · intro j hj
        rw [e8 j (by omega), m3, if_neg (by omega)]
      · rw [e8 i (by omega), m3, if_pos rfl]
      · refine ⟨⟨p, ext, rfl, ?_, ?_⟩, ?_, ?_, ?_⟩
        · rw [e7 st.msg (by omega), m2, if_pos rfl]
          dsimp only
          rw [bufCount_cons, Nat.zero_add]
        · intro j hj
          exact e9 j hj
        · exact e4 p (by omega) (by simpa using hp)
        · intro hg
          rw [List.length_cons, show i + (ext.length + 1) = i + 1 + ext.length by omega]
          exact e10 hg
        · rw [List.length_cons, show i + (ext.length + 1) = i + 1 + ext.length by omega, bufCount_cons, ← Nat.add_assoc, ← m4, ← m1]
          exact e11
    have fin : st.step pkts gso first i = (st.header i p).map (fun st => st.append p) → ∃ st' ext gs, Prep.loop pkts gso first (n + 1) i st = some st' ∧ (pkts.drop i).take (n + 1) = ext ++ gs.flatten ∧
      (i = first → ext = []) ∧ (∀ q, first < i → pkts[i - 1]? = some q → Chain gso (q :: ext)) ∧ st'.msg = st.msg + gs.length ∧
      (∀ j, j + 1 < st.msg → st'.msgvec j = st.msgvec j) ∧
      (∀ j, j + 1 = st.msg → st'.msgvec j = ⟨(st.msgvec j).iov, (st.msgvec j).iovlen + bufCount ext, (st.msgvec j).name⟩) ∧
      (∀ j, j < i → st'.merged j = st.merged j) ∧ (∀ j, j < ext.length → st'.merged (i + j) = true) ∧
      (gs ≠ [] → st'.merged (i + ext.length) = false) ∧ Parted st'.msgvec st'.merged gso (i + ext.length) (st.iov + bufCount ext) st.msg gs := by
      intro hs
      obtain ⟨st', gs, f1, f2, f3, f4, f5, f6, f7, f8⟩ := new hs
      exact ⟨st', [], gs, f1, by rw [f2]; rfl, fun _ => rfl, fun _ _ _ => trivial, f4, fun j hj => f5 j (by omega),
        fun j hj => by rw [f5 j (by omega)]; simp [bufCount], f6, fun _ h => by simp at h, fun _ => f7, f8⟩
    by_cases hf : i = first
    · apply fin
      unfold Prep.step
      rw [hp]
      dsimp only
      rw [if_pos hf]
    · obtain ⟨q, hq⟩ : ∃ q, pkts[i - 1]? = some q := ⟨_, List.getElem?_eq_getElem (by omega)⟩
      cases hn : newHeader gso st.mergedSize q p with
      | true =>
        apply fin
        unfold Prep.step
        rw [hp]
        dsimp only
        rw [if_neg hf, hq]
        dsimp only
        rw [if_pos hn]
      | false =>
        obtain ⟨st1, hst1⟩ : ∃ st1, st1 = Prep.append { st with merged := fun j => if j = i then true else st.merged j } p := ⟨_, rfl⟩
        have hs : st.step pkts gso first i = some st1 := by
          unfold Prep.step
          rw [hp]
          dsimp only
          rw [if_neg hf, hq]
          dsimp only
          rw [if_neg (by rw [hn]; decide), hst1]
        have hpos : 0 < st.msg := h3 (by omega)
        have m1 : st1.msg = st.msg := by rw [hst1]; rfl
        have m2 : ∀ j, st1.msgvec j = if j = st.msg - 1 then { st.msgvec j with iovlen := (st.msgvec j).iovlen + p.bufs.length } else st.msgvec j := by
          intro j; rw [hst1]; rfl
        have m3 : ∀ j, st1.merged j = if j = i then true else st.merged j := by intro j; rw [hst1]; rfl
        have m4 : st1.iov = st.iov + p.bufs.length := by rw [hst1]; rfl
        obtain ⟨st', ext, gs, e1, e2, _, e4, e5, e6, e7, e8, e9, e10, e11⟩ := loop_spec pkts gso first n (i + 1) st1 (by omega) (by omega) (by omega) (by omega)
        refine ⟨st', p :: ext, gs, ?_, ?_, fun h => absurd h hf, ?_, by rw [e5, m1], ?_, ?_, ?_, ?_, ?_, ?_⟩
        · unfold Prep.loop
          rw [hs]
          exact e1
        · rw [hdrop, e2]
          simp
        · intro q' _ hq'
          rw [hq] at hq'
          cases hq'
          unfold newHeader at hn
          simp only [Bool.or_eq_false_iff, decide_eq_false_iff_not, Decidable.not_not] at hn
          exact ⟨hn.1.1, hn.1.2, e4 p (by omega) (by simpa using hp)⟩
        · intro j hj
          rw [e6 j (by omega), m2, if_neg (by omega)]
        · intro j hj
          rw [e7 j (by omega), m2, if_pos (by omega), bufCount_cons]
          dsimp only
          rw [Nat.add_assoc]
        · intro j hj
          rw [e8 j (by omega), m3, if_neg (by omega)]
        · intro j hj
          cases j with
          | zero => rw [Nat.add_zero, e8 i (by omega), m3, if_pos rfl]
          | succ j =>
            rw [show i + (j + 1) = i + 1 + j by omega]
            exact e9 j (by simpa using hj)
        · intro hg
          rw [List.length_cons, show i + (ext.length + 1) = i + 1 + ext.length by omega]
          exact e10 hg
        · rw [List.length_cons, show i + (ext.length + 1) = i + 1 + ext.length by omega, bufCount_cons, ← Nat.add_assoc, ← m4, ← m1]
          exact e11

theorem Parted.drop {mv : Nat → MsgHdr} {mg : Nat → Bool} {gso : Int} : ∀ {k i io m : Nat} {gs : List (List UPkt)}, Parted mv mg gso i io m gs → k ≤ gs.length →
    Parted mv mg gso (i + (gs.take k).flatten.length) (io + bufCount (gs.take k).flatten) (m + k) (gs.drop k)
  | 0, i, io, m, gs, h, _ => by simpa [bufCount] using h
  | k + 1, i, io, m, [], h, hk => by simp at hk
  | k + 1, i, io, m, g :: gs, h, hk => by
    have := Parted.drop (k := k) h.2.2.2 (by simpa using hk)
    rw [List.take_succ_cons, List.flatten_cons, List.drop_succ_cons, List.length_append, bufCount_append, show m + (k + 1) = m + 1 + k by omega, ← Nat.add_assoc, ← Nat.add_assoc]
    exact this

theorem Parted.ne {mv : Nat → MsgHdr} {mg : Nat → Bool} {gso : Int} : ∀ {i io m : Nat} {gs : List (List UPkt)}, Parted mv mg gso i io m gs → gs.length ≤ gs.flatten.length
  | _, _, _, [], _ => by simp
  | i, io, m, g :: gs, h => by
    have := Parted.ne h.2.2.2
    obtain ⟨⟨q, t, rfl, _⟩, _⟩ := h
    simp only [List.length_cons, List.flatten_cons, List.length_append] at *
    omega

/-! ## The kernel -/

theorem chain_single {gso : Int} {q : UPkt} {t : List UPkt} (h : Chain gso (q :: t)) (hg : gso ≤ 0) (hq : 0 < q.size) : t = [] := by
  cases t with
  | nil => rfl
  | cons p t => have := h.1; omega

theorem chain_sub {gso : Int} : ∀ {q : UPkt} {t : List UPkt}, Chain gso (q :: t) → ∀ p ∈ q :: t, p.sub = q.sub
  | q, [], _, p, hp => by simp at hp; rw [hp]
  | q, p' :: t, h, p, hp => by
    rcases List.mem_cons.mp hp with rfl | hp
    · rfl
    · rw [chain_sub h.2.2 p hp, h.2.1]

theorem kernelCut_short {g f : Nat} {d : Bytes} (h : g = 0 ∨ d.length ≤ g) : kernelCut g f d = [d] := by
  cases f with
  | zero => rfl
  | succ f => unfold kernelCut; rw [if_pos h]

theorem kernelCut_chain {opt : Nat} : ∀ {q : UPkt} {t : List UPkt} {f : Nat}, Chain opt (q :: t) → (∀ p ∈ q :: t, 0 < p.bytes.length ∧ p.bytes.length ≤ opt) →
    t.length ≤ f → kernelCut opt f ((q :: t).flatMap UPkt.bytes) = (q :: t).map UPkt.bytes
  | q, [], f, _, hs, _ => by
    have := hs q (by simp)
    rw [kernelCut_short (Or.inr (by simpa using this.2))]
    simp
  | q, p :: t, 0, _, _, hf => by simp at hf
  | q, p :: t, f + 1, hc, hs, hf => by
    have h1 : q.bytes.length = opt := by have := hc.1; rw [UPkt.size_eq] at this; omega
    have h2 := hs p (by simp)
    unfold kernelCut
    rw [List.flatMap_cons]
    rw [if_neg (by
      rw [List.length_append, List.flatMap_cons, List.length_append]
      omega), List.take_left' h1, List.drop_left' h1, kernelCut_chain hc.2.2 (fun x hx => hs x (by simp at hx ⊢; exact Or.inr hx)) (by simpa using hf)]
    rfl

/-- The socket option fits the way the packets are divided. -/
def CutMode (opt : Nat) (gE : Int) (ps : List UPkt) : Prop := (opt = 0 ∧ gE ≤ 0) ∨ (gE = (opt : Int) ∧ ∀ p ∈ ps, p.size ≤ opt)

theorem length_le_flatMap : ∀ (g : List UPkt), (∀ p ∈ g, 0 < p.bytes.length) → g.length ≤ (g.flatMap UPkt.bytes).length
  | [], _ => by simp
  | p :: g, h => by
    have := length_le_flatMap g (fun x hx => h x (by simp [hx]))
    have := h p (by simp)
    rw [List.flatMap_cons, List.length_append, List.length_cons]
    omega

theorem cut_group {opt : Nat} {gE : Int} {ps : List UPkt} {q : UPkt} {t : List UPkt} (hm : CutMode opt gE ps) (hc : Chain gE (q :: t)) (hp : ∀ p ∈ q :: t, p ∈ ps ∧ 0 < p.size) :
    kernelCut opt ((q :: t).flatMap UPkt.bytes).length ((q :: t).flatMap UPkt.bytes) = (q :: t).map UPkt.bytes := by
  rcases hm with ⟨h1, h2⟩ | ⟨h1, h2⟩
  · have := chain_single hc h2 (hp q (by simp)).2
    subst this
    rw [kernelCut_short (Or.inl h1)]
    simp
  · subst h1
    have h3 : ∀ p ∈ q :: t, 0 < p.bytes.length := fun p h => by rw [← UPkt.size_eq]; exact (hp p h).2
    refine kernelCut_chain hc (fun p h => ⟨h3 p h, by rw [← UPkt.size_eq]; exact h2 p (hp p h).1⟩) ?_
    have := length_le_flatMap (q :: t) h3
    rw [List.length_cons] at this
    omega

theorem flatMap_bufs_flatten (g : List UPkt) : (g.flatMap UPkt.bufs).flatten = g.flatMap UPkt.bytes := by
  induction g with
  | nil => rfl
  | cons p g ih => rw [List.flatMap_cons, List.flatten_append, ih, List.flatMap_cons]; rfl

theorem kernelSends_spec {w : UdpW} {gE : Int} (hm : CutMode w.opt gE w.packets) : ∀ {k i io m : Nat} {gs : List (List UPkt)},
    Parted w.msgvec w.merged gE i io m gs → k ≤ gs.length → w.iov.drop io = gs.flatten.flatMap UPkt.bufs → io ≤ w.iov.length →
    (∀ p ∈ gs.flatten, p ∈ w.packets ∧ 0 < p.size) →
    w.kernelSends k m = some ((gs.take k).flatten.map (fun p => UEv.dgram p.sub p.bytes))
  | 0, i, io, m, gs, _, _, _, _, _ => by simp [UdpW.kernelSends]
  | k + 1, i, io, m, [], _, h, _, _, _ => by simp at h
  | k + 1, i, io, m, g :: gs, hp, hk, hio, hle, hps => by
    obtain ⟨⟨q, t, rfl, hmv, _⟩, hc, _, hrest⟩ := hp
    have hlen : bufCount (q :: t) + bufCount gs.flatten = w.iov.length - io := by
      have := congrArg List.length hio
      rw [List.length_drop, List.flatten_cons, List.flatMap_append, List.length_append] at this
      exact this.symm
    have hio' : w.iov.drop (io + bufCount (q :: t)) = gs.flatten.flatMap UPkt.bufs := by
      rw [← List.drop_drop, hio, List.flatten_cons, List.flatMap_append]
      exact List.drop_left' rfl
    have ih := kernelSends_spec hm (k := k) hrest (by simpa using hk) hio' (by omega) (fun p h => hps p (by rw [List.flatten_cons]; exact List.mem_append_right _ h))
    have h1 : w.kernelSend m = some ((q :: t).map (fun p => UEv.dgram p.sub p.bytes)) := by
      unfold UdpW.kernelSend
      rw [hmv]
      dsimp only
      rw [if_pos (by omega), hio, List.flatten_cons, List.flatMap_append, List.take_left' (show ((q :: t).flatMap UPkt.bufs).length = bufCount (q :: t) from rfl), flatMap_bufs_flatten,
        cut_group hm hc (fun p h => hps p (by rw [List.flatten_cons]; exact List.mem_append_left _ h)), List.map_map]
      congr 1
      apply List.map_congr_left
      intro p hp
      simp only [Function.comp_apply]
      rw [chain_sub hc p hp]
    unfold UdpW.kernelSends
    rw [h1, ih]
    dsimp only
    rw [List.take_succ_cons, List.flatten_cons, List.map_append]

/-! ## Recording -/

/-- How the items change when packets are recorded. -/
def ItemsOk (b b' : Nat → Nat) (r r' : Nat → Option Nat) (l : List (UPkt × Option Nat)) : Prop :=
  (∀ i, b' i = b i + sentFor i l) ∧ (∀ i, r' i = (r i).or (errorFor i l))

theorem ItemsOk.nil (b : Nat → Nat) (r : Nat → Option Nat) : ItemsOk b b r r [] := by
  constructor
  · intro i; simp [sentFor]
  · intro i; cases h : r i <;> simp [errorFor]

theorem ItemsOk.trans {b b' b'' : Nat → Nat} {r r' r'' : Nat → Option Nat} {l l' : List (UPkt × Option Nat)} (h : ItemsOk b b' r r' l) (h' : ItemsOk b' b'' r' r'' l') :
    ItemsOk b b'' r r'' (l ++ l') := by
  constructor
  · intro i
    rw [h'.1, h.1]
    unfold sentFor
    rw [List.filter_append, List.map_append, List.sum_append, Nat.add_assoc]
  · intro i
    rw [h'.2, h.2]
    unfold errorFor
    rw [List.findSome?_append, Option.or_assoc]

theorem record_items (w : UdpW) (p : UPkt) (e : Option Nat) : ∃ b r, w.record p e = { w with bytes := b, result := r } ∧ ItemsOk w.bytes b w.result r [(p, e)] := by
  cases e with
  | none =>
    refine ⟨_, _, rfl, ?_, ?_⟩
    · intro i
      by_cases h : i = p.item
      · subst h
        simp [sentFor, UPkt.size_eq]
      · have h' : ¬ p.item = i := fun e => h e.symm
        simp [sentFor, h, h']
    · intro i
      cases hr : w.result i <;> simp [errorFor]
  | some e =>
    refine ⟨_, _, rfl, ?_, ?_⟩
    · intro i
      simp [sentFor]
    · intro i
      by_cases h : i = p.item
      · subst h
        cases hr : w.result p.item <;> simp [errorFor, hr]
      · have h' : ¬ p.item = i := fun e => h e.symm
        cases hr : w.result i <;> simp [errorFor, h, h', hr]

theorem lastCount_append (l l' : List (UPkt × Option Nat)) : lastCount (l ++ l') = lastCount l + lastCount l' := by
  unfold lastCount
  rw [List.filter_append, List.length_append]

theorem recordMsg_spec (e : Option Nat) : ∀ (t : List UPkt) (q : UPkt) (f : Nat) (w : UdpW) (rest : List UPkt), w.packets.drop w.firstPacket = q :: t ++ rest →
    w.lastPacket = w.packets.length → (∀ j, j < t.length → w.merged (w.firstPacket + 1 + j) = true) → (rest ≠ [] → w.merged (w.firstPacket + (t.length + 1)) = false) →
    t.length < f → ∃ b r, w.recordMsg e f = some ({ w with firstPacket := w.firstPacket + (t.length + 1), bytes := b, result := r }, lastCount ((q :: t).map (fun p => (p, e))), (q :: t).map (fun p => UEv.done p e)) ∧
      ItemsOk w.bytes b w.result r ((q :: t).map (fun p => (p, e)))
  | t, q, 0, w, rest, _, _, _, _, hf => by omega
  | t, q, f + 1, w, rest, hd, hl, hm, hr, hf => by
    have hlt : w.firstPacket < w.packets.length := by
      have := congrArg List.length hd
      rw [List.length_drop, List.cons_append, List.length_cons] at this
      omega
    have hq : w.packets[w.firstPacket]? = some q := by
      rw [List.getElem?_eq_getElem hlt]
      rw [List.drop_eq_getElem_cons hlt, List.cons_append] at hd
      rw [(List.cons.inj hd).1]
    have hd1 : w.packets.drop (w.firstPacket + 1) = t ++ rest := by
      rw [← List.drop_drop, hd]
      rfl
    have hlen := congrArg List.length hd1
    rw [List.length_drop, List.length_append] at hlen
    obtain ⟨b, r, hbr, hi⟩ := record_items w q e
    unfold UdpW.recordMsg
    rw [hq]
    dsimp only
    rw [hbr]
    dsimp only
    have hk : (if q.last then 1 else 0) = lastCount [(q, e)] := by
      unfold lastCount
      cases h : q.last <;> simp [h]
    cases t with
    | nil =>
      rw [if_neg (by
        intro h
        have hne : rest ≠ [] := by
          intro h0
          rw [h0] at hlen
          simp at hlen
          omega
        have := hr hne
        simp only [List.length_nil, Nat.zero_add] at this
        rw [this] at h
        exact absurd h.2 (by decide)), hk]
      exact ⟨b, r, rfl, hi⟩
    | cons p t =>
      rw [List.length_cons] at hlen hm hr hf
      have hm0 := hm 0 (by omega)
      rw [Nat.add_zero] at hm0
      rw [if_pos ⟨by omega, hm0⟩]
      obtain ⟨b', r', h1, h2⟩ := recordMsg_spec e t p f { w with firstPacket := w.firstPacket + 1, bytes := b, result := r } rest hd1 hl
        (fun j hj => by
          have := hm (j + 1) (by omega)
          rw [show w.firstPacket + 1 + (j + 1) = w.firstPacket + 1 + 1 + j by omega] at this
          exact this)
        (fun h => by
          have := hr h
          rw [show w.firstPacket + (t.length + 1 + 1) = w.firstPacket + 1 + (t.length + 1) by omega] at this
          exact this) (by omega)
      rw [h1]
      dsimp only
      refine ⟨b', r', ?_, ?_⟩
      · rw [hk, ← lastCount_append, List.length_cons, show w.firstPacket + 1 + (t.length + 1) = w.firstPacket + (t.length + 1 + 1) by omega]
        rfl
      · exact ItemsOk.trans hi h2

theorem recordMsgs_spec {gE : Int} : ∀ (k : Nat) (w : UdpW) (io m : Nat) (gs : List (List UPkt)), Parted w.msgvec w.merged gE w.firstPacket io m gs →
    w.packets.drop w.firstPacket = gs.flatten → w.lastPacket = w.packets.length → k ≤ gs.length →
    ∃ b r, w.recordMsgs k = some ({ w with firstPacket := w.firstPacket + (gs.take k).flatten.length, bytes := b, result := r },
        lastCount ((gs.take k).flatten.map (fun p => (p, none))), (gs.take k).flatten.map (fun p => UEv.done p none)) ∧
      ItemsOk w.bytes b w.result r ((gs.take k).flatten.map (fun p => (p, none)))
  | 0, w, io, m, gs, _, _, _, _ => by
    refine ⟨w.bytes, w.result, ?_, ItemsOk.nil _ _⟩
    simp [UdpW.recordMsgs, lastCount]
  | k + 1, w, io, m, [], _, _, _, h => by simp at h
  | k + 1, w, io, m, g :: gs, hp, hd, hl, hk => by
    obtain ⟨⟨q, t, rfl, hmv, hflag⟩, hc, hnext, hrest⟩ := hp
    rw [List.flatten_cons] at hd
    have hlen := congrArg List.length hd
    rw [List.length_drop, List.length_append, List.length_cons] at hlen
    have hne : gs.flatten ≠ [] → w.merged (w.firstPacket + (t.length + 1)) = false := by
      intro h
      rw [← List.length_cons (a := q)]
      apply hnext
      rintro rfl
      exact h rfl
    obtain ⟨b, r, h1, h2⟩ := recordMsg_spec none t q (w.lastPacket - w.firstPacket) w gs.flatten hd hl hflag hne (by omega)
    obtain ⟨b', r', h3, h4⟩ := recordMsgs_spec k { w with firstPacket := w.firstPacket + (t.length + 1), bytes := b, result := r } (io + bufCount (q :: t)) (m + 1) gs hrest
      (by
        show w.packets.drop (w.firstPacket + (t.length + 1)) = _
        rw [← List.drop_drop, hd]
        exact List.drop_left' rfl) hl (by simpa using hk)
    refine ⟨b', r', ?_, ?_⟩
    · unfold UdpW.recordMsgs
      rw [h1]
      dsimp only
      rw [h3]
      dsimp only
      rw [List.take_succ_cons, List.flatten_cons, List.map_append, List.map_append, lastCount_append, List.length_append, List.length_cons, ← Nat.add_assoc w.firstPacket (t.length + 1)]
    · rw [List.take_succ_cons, List.flatten_cons, List.map_append]
      exact ItemsOk.trans h2 h4

/-! ## The invariant -/

structure BInv (w : UdpW) (gE : Int) (gs : List (List UPkt)) : Prop where
  flat : w.packets.drop w.firstPacket = gs.flatten
  parted : Parted w.msgvec w.merged gE w.firstPacket (bufCount (w.packets.take w.firstPacket)) w.firstMsg gs
  cnt : w.lastMsg = w.firstMsg + gs.length
  iov : w.iov = w.packets.flatMap UPkt.bufs
  lastp : w.lastPacket = w.packets.length
  le : w.firstPacket ≤ w.packets.length
  room : w.firstMsg + (w.packets.length - w.firstPacket) ≤ udpMaxBatch
  pos : ∀ p ∈ w.packets, 0 < p.size
  mode : CutMode w.opt gE w.packets

structure UInv (env : UEnv) (w : UdpW) : Prop where
  opt_pos : 0 < w.gso → (w.opt : Int) = w.gso ∧ env.supported = true
  opt_zero : w.gso ≤ 0 → w.opt = 0
  batch : w.busy = true → ∃ gE gs, gs ≠ [] ∧ BInv w gE gs

theorem prepare_spec (w : UdpW) (fp fm io : Nat) (gso : Int) (h1 : fp ≤ w.packets.length) (h2 : fm + (w.packets.length - fp) ≤ udpMaxBatch) :
    ∃ mv mg gs, w.prepare fp w.packets.length fm io gso = some { w with msgvec := mv, merged := mg, firstPacket := fp, lastPacket := w.packets.length, firstMsg := fm, lastMsg := fm + gs.length } ∧
      w.packets.drop fp = gs.flatten ∧ Parted mv mg gso fp io fm gs := by
  obtain ⟨st', ext, gs, e1, e2, e3, _, e5, _, _, _, _, _, e11⟩ := loop_spec w.packets gso fp (w.packets.length - fp) fp ⟨0, io, fm, w.msgvec, w.merged⟩ (by omega) h2 (by omega) (by omega)
  have := e3 rfl
  subst this
  refine ⟨st'.msgvec, st'.merged, gs, ?_, ?_, ?_⟩
  · unfold UdpW.prepare
    rw [e1]
    dsimp only
    rw [e5]
  · rw [List.nil_append] at e2
    rw [← e2]
    exact (List.take_of_length_le (by rw [List.length_drop]; omega)).symm
  · simpa [bufCount] using e11

/-- The packets that the writer still has. -/
def UdpW.pend (w : UdpW) : List UPkt := if w.busy then w.packets.drop w.firstPacket else []

/-- The events of one operation. -/
structure UdpStepOk (env : UEnv) (w w' : UdpW) (evs : List UEv) : Prop where
  inv : UInv env w'
  pend : w.pend ++ gotPkts evs = (accounted evs).map Prod.fst ++ w'.pend
  groups : groupsDone evs = lastCount (accounted evs)
  before : ∀ n, groupsDone (evs.take n) ≤ lastCount (accounted (evs.take n))
  dgrams : datagrams evs = wanted (accounted evs)
  items : ItemsOk w.bytes w'.bytes w.result w'.result (accounted evs)
  post : ∀ a b, evs = a ++ .post :: b → b = [] ∧ w'.busy = false

/-- The events of a call of `send_packets` that gets something done. -/
theorem evs_spec (ds ps : List UPkt) (e : Option Nat) (k : Nat) (w : UdpW) (evs : List UEv)
    (h : evs = ds.map (fun p => UEv.dgram p.sub p.bytes) ++ ps.map (fun p => UEv.done p e) ++ (w.finish k).2) :
    gotPkts evs = [] ∧ accounted evs = ps.map (fun p => (p, e)) ∧ datagrams evs = ds.map (fun p => (p.sub, p.bytes)) ∧ groupsDone evs = k ∧
    (k ≤ lastCount (ps.map (fun p => (p, e))) → ∀ n, groupsDone (evs.take n) ≤ lastCount (accounted (evs.take n))) ∧
    (∀ a b, evs = a ++ .post :: b → b = [] ∧ ¬ w.firstMsg < w.lastMsg) := by
  obtain ⟨tl, htl, htl'⟩ : ∃ tl, (w.finish k).2 = tl ∧ (tl = [.wait] ∨ (tl = [.post] ∧ ¬ w.firstMsg < w.lastMsg) ∨ tl = [.completed k, .wait] ∨ (tl = [.completed k, .post] ∧ ¬ w.firstMsg < w.lastMsg)) ∧
      gotPkts tl = [] ∧ accounted tl = [] ∧ datagrams tl = [] ∧ groupsDone tl = k := by
    refine ⟨_, rfl, ?_⟩
    unfold UdpW.finish
    by_cases h1 : k > 0 <;> by_cases h2 : w.firstMsg < w.lastMsg <;> simp [h1, h2, gotPkts, accounted, datagrams, groupsDone] <;> omega
  rw [htl] at h
  clear htl
  induction ds generalizing evs with
  | cons d ds ih =>
    obtain ⟨i1, i2, i3, i4, i5, i6⟩ := ih _ rfl
    rw [List.map_cons, List.cons_append, List.cons_append] at h
    subst h
    refine ⟨i1, i2, by rw [datagrams, i3]; rfl, i4, fun hk n => ?_, fun a b hab => ?_⟩
    · cases n with
      | zero => simp [groupsDone]
      | succ n => exact i5 hk n
    · cases a with
      | nil => simp at hab
      | cons x a => exact i6 a b (List.cons.inj hab).2
  | nil =>
    rw [List.map_nil, List.nil_append] at h
    have key : ∀ ps : List UPkt, (∀ evs, evs = ps.map (fun p => UEv.done p e) ++ tl → gotPkts evs = [] ∧ accounted evs = ps.map (fun p => (p, e)) ∧ datagrams evs = [] ∧ groupsDone evs = k ∧
        (∀ n, groupsDone (evs.take n) ≤ k ∧ (0 < groupsDone (evs.take n) → accounted (evs.take n) = ps.map (fun p => (p, e)))) ∧ (∀ a b, evs = a ++ .post :: b → b = [] ∧ ¬ w.firstMsg < w.lastMsg)) := by
      intro ps
      induction ps with
      | nil =>
        intro evs h
        rw [List.map_nil, List.nil_append] at h
        subst h
        obtain ⟨hs, h1, h2, h3, h4⟩ := htl'
        refine ⟨h1, h2, h3, h4, fun n => ?_, fun a b hab => ?_⟩
        · rcases hs with rfl | ⟨rfl, _⟩ | rfl | ⟨rfl, _⟩ <;> (rcases n with _ | _ | n <;> simp [groupsDone, accounted])
        · rcases hs with rfl | ⟨rfl, h⟩ | rfl | ⟨rfl, h⟩ <;> (rcases a with _ | ⟨x, _ | ⟨y, a⟩⟩ <;> simp_all)
      | cons p ps ih =>
        intro evs h
        obtain ⟨i1, i2, i3, i4, i5, i6⟩ := ih _ rfl
        rw [List.map_cons, List.cons_append] at h
        subst h
        refine ⟨i1, by rw [accounted, i2]; rfl, i3, i4, fun n => ?_, fun a b hab => ?_⟩
        · cases n with
          | zero => simp [groupsDone]
          | succ n =>
            refine ⟨(i5 n).1, fun hg => ?_⟩
            rw [List.take_succ_cons, accounted, (i5 n).2 hg]
            rfl
        · cases a with
          | nil => simp at hab
          | cons x a => exact i6 a b (List.cons.inj hab).2
    obtain ⟨i1, i2, i3, i4, i5, i6⟩ := key ps evs h
    refine ⟨i1, i2, i3, i4, fun hk n => ?_, i6⟩
    by_cases hg : 0 < groupsDone (evs.take n)
    · rw [(i5 n).2 hg]
      exact Nat.le_trans (i5 n).1 hk
    · omega

theorem Parted.take_ne {mv : Nat → MsgHdr} {mg : Nat → Bool} {gso : Int} : ∀ {k i io m : Nat} {gs : List (List UPkt)}, Parted mv mg gso i io m gs → k ≤ gs.length → k ≤ (gs.take k).flatten.length
  | 0, _, _, _, _, _, _ => by simp
  | k + 1, _, _, _, [], _, h => by simp at h
  | k + 1, i, io, m, g :: gs, h, hk => by
    have := Parted.take_ne (k := k) h.2.2.2 (by simpa using hk)
    obtain ⟨⟨q, t, rfl, _⟩, _⟩ := h
    simp only [List.take_succ_cons, List.length_cons, List.flatten_cons, List.length_append] at *
    omega

theorem bufCount_take {ps : List UPkt} {i : Nat} {g : List UPkt} {r : List UPkt} (h : ps.drop i = g ++ r) : bufCount (ps.take (i + g.length)) = bufCount (ps.take i) + bufCount g := by
  rw [List.take_add, h, List.take_left' rfl, bufCount_append]

theorem BInv.advance {w : UdpW} {gE : Int} {gs : List (List UPkt)} (h : BInv w gE gs) {k : Nat} (hk : k ≤ gs.length) (gso : Int) (b : Nat → Nat) (r : Nat → Option Nat) :
    BInv { w with gso := gso, firstPacket := w.firstPacket + (gs.take k).flatten.length, firstMsg := w.firstMsg + k, bytes := b, result := r } gE (gs.drop k) := by
  have hsplit : gs.flatten = (gs.take k).flatten ++ (gs.drop k).flatten := by rw [← List.flatten_append, List.take_append_drop]
  have hd : w.packets.drop w.firstPacket = (gs.take k).flatten ++ (gs.drop k).flatten := by rw [h.flat, hsplit]
  have hlen := congrArg List.length hd
  rw [List.length_drop, List.length_append] at hlen
  have hne := h.parted.take_ne hk
  have hle := h.le
  refine ⟨?_, ?_, ?_, h.iov, h.lastp, ?_, ?_, h.pos, h.mode⟩
  · show w.packets.drop (w.firstPacket + (gs.take k).flatten.length) = (gs.drop k).flatten
    rw [← List.drop_drop, hd]
    exact List.drop_left' rfl
  · show Parted w.msgvec w.merged gE (w.firstPacket + (gs.take k).flatten.length) (bufCount (w.packets.take (w.firstPacket + (gs.take k).flatten.length))) (w.firstMsg + k) (gs.drop k)
    rw [bufCount_take hd]
    exact h.parted.drop hk
  · show w.lastMsg = w.firstMsg + k + (gs.drop k).length
    rw [h.cnt, List.length_drop]
    omega
  · show w.firstPacket + (gs.take k).flatten.length ≤ w.packets.length
    omega
  · show w.firstMsg + k + (w.packets.length - (w.firstPacket + (gs.take k).flatten.length)) ≤ udpMaxBatch
    have := h.room
    omega

theorem wanted_none (ps : List UPkt) : wanted (ps.map (fun p => (p, none))) = ps.map (fun p => (p.sub, p.bytes)) := by
  induction ps with
  | nil => rfl
  | cons p ps ih =>
    unfold wanted at ih ⊢
    simp only [List.map_cons, List.filter_cons, Option.isNone_none, if_true, ih]

theorem wanted_some (ps : List UPkt) (e : Nat) : wanted (ps.map (fun p => (p, some e))) = [] := by
  induction ps with
  | nil => rfl
  | cons p ps ih =>
    unfold wanted at ih ⊢
    simpa using ih

theorem finish_fst (w : UdpW) (k : Nat) : (w.finish k).1 = if w.firstMsg < w.lastMsg then w else { w with busy := false } := by
  unfold UdpW.finish
  dsimp only
  by_cases h : w.firstMsg < w.lastMsg <;> simp [h]

/-- `send_packets` has recorded `k` messages. -/
theorem done_spec {env : UEnv} {w : UdpW} {gE : Int} {gs : List (List UPkt)} (hb : w.busy = true) (h : BInv w gE gs) {k : Nat} (hk : k ≤ gs.length)
    {gso : Int} (hg1 : 0 < gso → (w.opt : Int) = gso ∧ env.supported = true) (hg2 : gso ≤ 0 → w.opt = 0) {b : Nat → Nat} {r : Nat → Option Nat} {e : Option Nat} {ds : List UPkt}
    (hds : ds.map (fun p => (p.sub, p.bytes)) = wanted ((gs.take k).flatten.map (fun p => (p, e))))
    (hi : ItemsOk w.bytes b w.result r ((gs.take k).flatten.map (fun p => (p, e)))) {w1 : UdpW}
    (hw1 : w1 = { w with gso := gso, firstPacket := w.firstPacket + (gs.take k).flatten.length, firstMsg := w.firstMsg + k, bytes := b, result := r })
    {evs : List UEv} (he : evs = ds.map (fun p => UEv.dgram p.sub p.bytes) ++ (gs.take k).flatten.map (fun p => UEv.done p e) ++ (w1.finish (lastCount ((gs.take k).flatten.map (fun p => (p, e))))).2) :
    UdpStepOk env w (w1.finish (lastCount ((gs.take k).flatten.map (fun p => (p, e))))).1 evs := by
  obtain ⟨v1, v2, v3, v4, v5, v6⟩ := evs_spec _ _ _ _ _ _ he
  have hadv := h.advance hk gso b r
  rw [← hw1] at hadv
  have hwb : w1.busy = true := by rw [hw1]; exact hb
  have hmsg : w1.firstMsg < w1.lastMsg ↔ gs.drop k ≠ [] := by
    rw [hadv.cnt]
    cases gs.drop k <;> simp
  have hflat : w.packets.drop w.firstPacket = (gs.take k).flatten ++ (gs.drop k).flatten := by
    rw [h.flat, ← List.flatten_append, List.take_append_drop]
  rw [finish_fst]
  have o1 : w1.opt = w.opt := by rw [hw1]
  have o2 : w1.gso = gso := by rw [hw1]
  refine ⟨?_, ?_, by rw [v4, v2], v5 (Nat.le_refl _) , by rw [v3, v2, hds], ?_, ?_⟩
  · by_cases hm : w1.firstMsg < w1.lastMsg
    · rw [if_pos hm]
      exact ⟨by rw [o1, o2]; exact hg1, by rw [o1, o2]; exact hg2, fun _ => ⟨gE, gs.drop k, hmsg.mp hm, hadv⟩⟩
    · rw [if_neg hm]
      refine ⟨?_, ?_, fun h => by simp at h⟩
      · show 0 < w1.gso → (w1.opt : Int) = w1.gso ∧ _
        rw [o1, o2]; exact hg1
      · show w1.gso ≤ 0 → w1.opt = 0
        rw [o1, o2]; exact hg2
  · rw [v1, v2, List.map_map, List.append_nil]
    have hid : (gs.take k).flatten.map (Prod.fst ∘ fun p => (p, e)) = (gs.take k).flatten := List.map_id' _
    rw [hid]
    unfold UdpW.pend
    rw [if_pos hb, hflat]
    by_cases hm : w1.firstMsg < w1.lastMsg
    · rw [if_pos hm, if_pos hwb, hadv.flat]
    · rw [if_neg hm, if_neg (by simp)]
      have : gs.drop k = [] := Classical.byContradiction (fun hn => hm (hmsg.mpr hn))
      rw [this]
      rfl
  · rw [v2]
    have hb1 : w1.bytes = b := by rw [hw1]
    have hr1 : w1.result = r := by rw [hw1]
    split
    · rw [hb1, hr1]; exact hi
    · show ItemsOk w.bytes w1.bytes w.result w1.result _
      rw [hb1, hr1]; exact hi
  · intro a b' hab
    obtain ⟨h1, h2⟩ := v6 a b' hab
    refine ⟨h1, ?_⟩
    rw [if_neg h2]

theorem ItemsOk.self_nil {b : Nat → Nat} {r : Nat → Option Nat} {l : List (UPkt × Option Nat)} (h : l = []) : ItemsOk b b r r l := by subst h; exact ItemsOk.nil _ _

theorem finish_zero {env : UEnv} {w : UdpW} (hi : UInv env w) (hb : w.busy = true) : ∃ w' evs, some (w.finish 0) = some (w', evs) ∧ UdpStepOk env w w' evs := by
  obtain ⟨gE, gs, hne, h⟩ := hi.batch hb
  refine ⟨(w.finish 0).1, (w.finish 0).2, rfl, ?_⟩
  have := done_spec (env := env) hb h (k := 0) (Nat.zero_le _) (gso := w.gso) hi.opt_pos hi.opt_zero (b := w.bytes) (r := w.result) (e := none) (ds := []) rfl (ItemsOk.nil _ _) (w1 := w) (by simp) rfl
  simpa [lastCount] using this

theorem fail_spec {env : UEnv} {w : UdpW} {gE : Int} {gs : List (List UPkt)} (hb : w.busy = true) (hne : gs ≠ []) (h : BInv w gE gs) {gso : Int}
    (hg1 : 0 < gso → (w.opt : Int) = gso ∧ env.supported = true) (hg2 : gso ≤ 0 → w.opt = 0) (e : Nat) :
    ∃ w' evs, UdpW.fail { w with gso := gso } e = some (w', evs) ∧ UdpStepOk env w w' evs ∧ (∀ x ∈ accounted evs, x.2 = some e) ∧ (w'.busy = true → w'.pend.length < w.pend.length) ∧ w'.gso = gso := by
  obtain ⟨g, gs', rfl⟩ : ∃ g gs', gs = g :: gs' := by cases gs with | nil => exact absurd rfl hne | cons g gs' => exact ⟨g, gs', rfl⟩
  have hp := h.parted
  obtain ⟨⟨q, t, rfl, hmv, hflag⟩, hc, hnext, hrest⟩ := hp
  have hd := h.flat
  rw [List.flatten_cons] at hd
  have hlen := congrArg List.length hd
  rw [List.length_drop, List.length_append, List.length_cons] at hlen
  have hnx : gs'.flatten ≠ [] → w.merged (w.firstPacket + (t.length + 1)) = false := by
    intro hh
    rw [← List.length_cons (a := q)]
    apply hnext
    rintro rfl
    exact hh rfl
  have hl := h.lastp
  obtain ⟨b, r, h1, h2⟩ := recordMsg_spec (some e) t q (w.lastPacket - w.firstPacket) { w with gso := gso } gs'.flatten hd hl hflag hnx (by omega)
  have htake : ((q :: t) :: gs').take 1 = [q :: t] := rfl
  have hflat1 : (((q :: t) :: gs').take 1).flatten = q :: t := by rw [htake]; simp
  obtain ⟨w1, hw1⟩ : ∃ w1 : UdpW, w1 = { w with gso := gso, firstPacket := w.firstPacket + (((q :: t) :: gs').take 1).flatten.length, firstMsg := w.firstMsg + 1, bytes := b, result := r } := ⟨_, rfl⟩
  have hs := done_spec (env := env) hb h (k := 1) (by simp) hg1 hg2 (b := b) (r := r) (e := some e) (ds := []) (by rw [wanted_some]; rfl) (by rw [hflat1]; exact h2) hw1 rfl
  refine ⟨_, _, ?_, hs, ?_, ?_, ?_⟩
  · unfold UdpW.fail
    rw [h1]
    dsimp only
    rw [hflat1] at hw1 ⊢
    rw [List.length_cons] at hw1
    rw [hw1]
    rfl
  · rw [(evs_spec _ _ _ _ _ _ rfl).2.1]
    intro x hx
    obtain ⟨p, _, rfl⟩ := List.mem_map.mp hx
    rfl
  · intro hb'
    have hpend := congrArg List.length hs.pend
    rw [(evs_spec _ _ _ _ _ _ rfl).2.1, (evs_spec _ _ _ _ _ _ rfl).1, hflat1] at hpend
    rw [hflat1]
    simp only [List.length_append, List.length_map, List.length_cons, List.length_nil] at hpend
    omega
  · rw [finish_fst, hw1]
    split <;> rfl

/-- How much is left to do. -/
def UdpW.todo (w : UdpW) : Nat := if w.busy then w.pend.length + (if 0 < w.gso then 1 else 0) else 0

theorem sendError_spec {env : UEnv} {w : UdpW} (hi : UInv env w) (hb : w.busy = true) (e : Nat) (refuse : Bool) :
    ∃ w' evs, w.sendError env e refuse = some (w', evs) ∧ UdpStepOk env w w' evs ∧ (∀ x ∈ accounted evs, x.2 = some e) ∧ w'.todo < w.todo := by
  obtain ⟨gE, gs, hne, h⟩ := hi.batch hb
  have hpl : 0 < w.pend.length := by
    unfold UdpW.pend
    rw [if_pos hb, h.flat]
    have := h.parted.ne
    cases gs with
    | nil => exact absurd rfl hne
    | cons g gs => rw [List.length_cons] at this; omega
  have todo_lt : ∀ {w' : UdpW}, (w'.busy = true → w'.pend.length < w.pend.length) → (w'.gso ≤ 0 ∨ 0 < w.gso) → w'.todo < w.todo := by
    intro w' h1 h2
    unfold UdpW.todo
    rw [if_pos hb]
    by_cases hb' : w'.busy = true
    · have := h1 hb'
      rw [if_pos hb']
      by_cases h3 : 0 < w'.gso <;> by_cases h4 : 0 < w.gso <;> simp only [h3, h4, if_true, if_false] <;> omega
    · rw [if_neg hb']
      omega
  unfold UdpW.sendError
  by_cases h1 : w.gso = -2
  · rw [if_pos h1]
    obtain ⟨w', evs, f1, f2, f3, f4, f5⟩ := fail_spec (env := env) hb hne h (gso := 0) (by omega) (fun _ => hi.opt_zero (by omega)) e
    exact ⟨w', evs, f1, f2, f3, todo_lt f4 (Or.inl (by omega))⟩
  · rw [if_neg h1]
    by_cases h2 : w.gso > 0
    · rw [if_pos h2]
      obtain ⟨o1, o2⟩ := hi.opt_pos h2
      have hset : setGso env w.opt 0 refuse = (0, none) := by
        unfold setGso
        simp [o2]
      rw [hset]
      dsimp only
      have hp := h.parted
      have hle := h.le
      have hroom := h.room
      have hiov : (w.msgvec w.firstMsg).iov = bufCount (w.packets.take w.firstPacket) := by
        cases gs with
        | nil => exact absurd rfl hne
        | cons g gs =>
          obtain ⟨⟨q, t, rfl, hmv, hflag⟩, _⟩ := hp
          rw [hmv]
      obtain ⟨mv, mg, gs', p1, p2, p3⟩ := prepare_spec { w with opt := 0, gso := -2 } w.firstPacket w.firstMsg (bufCount (w.packets.take w.firstPacket)) 0 hle hroom
      dsimp only at p1 p2 p3
      rw [← h.lastp] at p1
      rw [hiov, p1, Option.map_some]
      refine ⟨_, _, rfl, ⟨⟨(fun h => absurd (show (0 : Int) < -2 from h) (by decide)), (fun _ => rfl), fun _ => ⟨0, gs', ?_, ⟨p2, p3, rfl, h.iov, h.lastp, hle, hroom, h.pos, Or.inl ⟨rfl, by decide⟩⟩⟩⟩, ?_, rfl, ?_, rfl, ItemsOk.nil _ _, ?_⟩, ?_, ?_⟩
      · rintro rfl
        unfold UdpW.pend at hpl
        rw [if_pos hb, p2] at hpl
        simp at hpl
      · simp only [gotPkts, accounted, List.append_nil, List.map_nil, List.nil_append]
        unfold UdpW.pend
        rfl
      · intro n
        simp [groupsDone]
      · intro a b hab
        simp at hab
      · intro x hx
        simp [accounted] at hx
      · show (if w.busy then (if w.busy then w.packets.drop w.firstPacket else []).length + _ else 0) < _
        unfold UdpW.todo UdpW.pend
        simp only [hb, if_true]
        rw [if_pos h2, if_neg (show ¬ (0 : Int) < -2 by decide)]
        omega
    · rw [if_neg h2]
      obtain ⟨w', evs, f1, f2, f3, f4, f5⟩ := fail_spec (env := env) hb hne h (gso := w.gso) hi.opt_pos hi.opt_zero e
      exact ⟨w', evs, f1, f2, f3, todo_lt f4 (Or.inl (by omega))⟩

theorem sendPackets_spec {env : UEnv} {w : UdpW} (hi : UInv env w) (hb : w.busy = true) (r : SendResp) (refuse : Bool) :
    ∃ w' evs, w.sendPackets env r refuse = some (w', evs) ∧ UdpStepOk env w w' evs ∧ (∀ x ∈ accounted evs, x.2 = none ∨ ∃ e, r = .error e ∧ x.2 = some e) ∧
      (((∃ k, r = .sent k ∧ 0 < k ∧ (k = 1 ∨ w.firstMsg + k ≤ w.lastMsg)) ∨ ∃ e, r = .error e) → w'.todo < w.todo) := by
  unfold UdpW.sendPackets
  cases r with
  | error e =>
    obtain ⟨w', evs, h1, h2, h3, h4⟩ := sendError_spec hi hb e refuse
    exact ⟨w', evs, h1, h2, fun x hx => Or.inr ⟨e, rfl, h3 x hx⟩, fun _ => h4⟩
  | again =>
    obtain ⟨w', evs, h1, h2⟩ := finish_zero hi hb
    refine ⟨w', evs, h1, h2, ?_, ?_⟩
    · have : accounted evs = [] := by
        have := Option.some.inj h1
        have := congrArg Prod.snd this
        dsimp only at this
        rw [← this]
        unfold UdpW.finish
        by_cases h : w.firstMsg < w.lastMsg <;> simp [h, accounted]
      rw [this]
      simp
    · rintro (⟨_, h, -⟩ | ⟨e, h⟩) <;> cases h
  | sent k =>
    obtain ⟨gE, gs, hne, h⟩ := hi.batch hb
    dsimp only
    by_cases hk : k = 0 ∨ w.lastMsg < w.firstMsg + k
    · rw [if_pos hk]
      obtain ⟨w', evs, h1, h2⟩ := finish_zero hi hb
      refine ⟨w', evs, h1, h2, ?_, ?_⟩
      · have : accounted evs = [] := by
          have := Option.some.inj h1
          have := congrArg Prod.snd this
          dsimp only at this
          rw [← this]
          unfold UdpW.finish
          by_cases h : w.firstMsg < w.lastMsg <;> simp [h, accounted]
        rw [this]
        simp
      · rintro (⟨_, h', h0, hx⟩ | ⟨e, h'⟩)
        · cases h'
          have := h.cnt
          have : 0 < gs.length := List.length_pos_iff.mpr hne
          omega
        · cases h'
    · rw [if_neg hk]
      have hcnt := h.cnt
      have hk' : k ≤ gs.length := by omega
      have hiov : w.iov = (w.packets.take w.firstPacket).flatMap UPkt.bufs ++ gs.flatten.flatMap UPkt.bufs := by
        rw [h.iov, ← List.flatMap_append, ← h.flat, List.take_append_drop]
      have hks := kernelSends_spec h.mode (k := k) h.parted hk' (by rw [hiov]; exact List.drop_left' rfl) (by rw [hiov, List.length_append]; exact Nat.le_add_right _ _)
        (fun p hp => by
          rw [← h.flat] at hp
          have := List.mem_of_mem_drop hp
          exact ⟨this, h.pos p this⟩)
      rw [hks]
      dsimp only
      obtain ⟨g', hg'⟩ : ∃ g', g' = if w.gso = -2 then (-1 : Int) else w.gso := ⟨_, rfl⟩
      rw [← hg']
      have hgd : g' = w.gso ∨ (g' = -1 ∧ w.gso = -2) := by
        rw [hg']
        split
        · rename_i h; exact Or.inr ⟨rfl, h⟩
        · exact Or.inl rfl
      have hg1 : 0 < g' → (w.opt : Int) = g' ∧ env.supported = true := by
        rcases hgd with h | h
        · rw [h]; exact hi.opt_pos
        · omega
      have hg2 : g' ≤ 0 → w.opt = 0 := by
        rcases hgd with h | h
        · rw [h]; exact hi.opt_zero
        · intro _; exact hi.opt_zero (by omega)
      obtain ⟨b, r, h1, h2⟩ := recordMsgs_spec k { w with gso := g' } _ _ gs h.parted h.flat h.lastp hk'
      rw [h1]
      dsimp only
      have hs := done_spec (env := env) hb h hk' hg1 hg2 (b := b) (r := r) (e := none) (ds := (gs.take k).flatten) (wanted_none _).symm h2 rfl rfl
      refine ⟨_, _, rfl, hs, ?_, ?_⟩
      · rw [(evs_spec _ _ _ _ _ _ rfl).2.1]
        intro x hx
        obtain ⟨p, _, rfl⟩ := List.mem_map.mp hx
        exact Or.inl rfl
      · intro _
        have hpend := congrArg List.length hs.pend
        rw [(evs_spec _ _ _ _ _ _ rfl).2.1, (evs_spec _ _ _ _ _ _ rfl).1] at hpend
        simp only [List.length_append, List.length_map, List.length_nil] at hpend
        have hne' := h.parted.take_ne hk'
        have hgso : (UdpW.finish { w with gso := g', firstPacket := w.firstPacket + (gs.take k).flatten.length, firstMsg := w.firstMsg + k, bytes := b, result := r }
            (lastCount ((gs.take k).flatten.map (fun p => (p, none))))).1.gso = g' := by
          rw [finish_fst]
          split <;> rfl
        unfold UdpW.todo
        rw [if_pos hb, hgso]
        have hle : (if 0 < g' then 1 else 0) ≤ (if 0 < w.gso then 1 else 0) := by
          rcases hgd with h | ⟨h, h'⟩
          · rw [h]; exact Nat.le_refl _
          · rw [h, h']; decide
        split
        · omega
        · omega

theorem foldl_max_spec : ∀ (t : List UPkt) (m : Nat), m ≤ t.foldl (fun m q => max m q.size) m ∧ ∀ p ∈ t, p.size ≤ t.foldl (fun m q => max m q.size) m
  | [], m => ⟨Nat.le_refl _, by simp⟩
  | q :: t, m => by
    obtain ⟨h1, h2⟩ := foldl_max_spec t (max m q.size)
    rw [List.foldl_cons]
    refine ⟨by omega, fun p hp => ?_⟩
    rcases List.mem_cons.mp hp with rfl | hp
    · omega
    · exact h2 p hp

theorem adapt_spec {env : UEnv} {w : UdpW} (hi : UInv env w) (size : Nat) (hs : 0 < size) (refuse : Bool) : ∃ g o, w.adapt env size refuse = { w with gso := g, opt := o } ∧
    (0 < g → (o : Int) = g ∧ env.supported = true ∧ o = size) ∧ (g ≤ 0 → o = 0) := by
  unfold UdpW.adapt
  by_cases h : (size : Int) ≠ w.gso ∧ w.gso ≥ 0
  · rw [if_pos h]
    unfold setGso
    cases hsup : env.supported with
    | false =>
      refine ⟨-1, w.opt, by simp [enoprotoopt], by omega, fun _ => ?_⟩
      apply hi.opt_zero
      have := hi.opt_pos
      by_cases h0 : 0 < w.gso
      · have := (this h0).2
        rw [hsup] at this
        cases this
      · omega
    | true =>
      cases refuse with
      | false => exact ⟨size, size, by simp, fun _ => ⟨rfl, rfl, rfl⟩, by omega⟩
      | true =>
        have hs0 : size ≠ 0 := by omega
        exact ⟨0, 0, by simp [hs0, enoprotoopt, einval], by omega, fun _ => rfl⟩
  · rw [if_neg h]
    refine ⟨w.gso, w.opt, rfl, fun h0 => ?_, hi.opt_zero⟩
    obtain ⟨h1, h2⟩ := hi.opt_pos h0
    have : (size : Int) = w.gso := Classical.byContradiction (fun hn => h ⟨hn, by omega⟩)
    exact ⟨h1, h2, by omega⟩

theorem wakeup_spec {env : UEnv} {w : UdpW} (hi : UInv env w) (ps : List UPkt) (refuse : Bool) (hp : ∀ p ∈ ps, 0 < p.bytes.length) :
    ∃ w' evs, w.wakeup env ps refuse = some (w', evs) ∧ UdpStepOk env w w' evs ∧ accounted evs = [] := by
  have idle : ∃ w' evs, some (w, ([] : List UEv)) = some (w', evs) ∧ UdpStepOk env w w' evs ∧ accounted evs = [] :=
    ⟨w, [], rfl, ⟨hi, by simp [gotPkts, accounted], rfl, by simp [groupsDone], rfl, ItemsOk.nil _ _, fun a b h => by simp at h⟩, rfl⟩
  unfold UdpW.wakeup
  by_cases hb : w.busy = true
  · rw [if_pos hb]
    exact idle
  · rw [if_neg hb]
    have hps : ∀ p ∈ ps.take udpMaxBatch, 0 < p.bytes.length := fun p h => hp p (List.mem_of_mem_take h)
    have hlen : (ps.take udpMaxBatch).length ≤ udpMaxBatch := by rw [List.length_take]; omega
    cases ht : ps.take udpMaxBatch with
    | nil => exact idle
    | cons p t =>
      rw [ht] at hps hlen
      dsimp only
      obtain ⟨size, hsize⟩ : ∃ size, size = t.foldl (fun m q => max m q.size) p.size := ⟨_, rfl⟩
      obtain ⟨m1, m2⟩ := foldl_max_spec t p.size
      rw [← hsize] at m1 m2 ⊢
      have hpos : 0 < p.size := by rw [UPkt.size_eq]; exact hps p (by simp)
      obtain ⟨g, o, ha, hg1, hg2⟩ := adapt_spec hi size (by omega) refuse
      rw [ha]
      dsimp only
      obtain ⟨mv, mg, gs, p1, p2, p3⟩ := prepare_spec { w with gso := g, opt := o, packets := p :: t, iov := (p :: t).flatMap UPkt.bufs, busy := true } 0 0 0 g (Nat.zero_le _) (by simpa using hlen)
      dsimp only at p1 p2 p3
      rw [List.length_cons] at p1
      rw [p1, Option.map_some]
      have hgne : gs ≠ [] := by
        rintro rfl
        simp at p2
      refine ⟨_, _, rfl, ⟨⟨fun h => ⟨(hg1 h).1, (hg1 h).2.1⟩, hg2, fun _ => ⟨g, gs, hgne, ⟨p2, p3, rfl, rfl, rfl, Nat.zero_le _, ?_, ?_, ?_⟩⟩⟩, ?_, rfl, ?_, rfl, ItemsOk.nil _ _, ?_⟩, rfl⟩
      · simpa using hlen
      · intro q hq
        rw [UPkt.size_eq]
        exact hps q hq
      · show CutMode o g (p :: t)
        by_cases h0 : 0 < g
        · refine Or.inr ⟨(hg1 h0).1.symm, fun q hq => ?_⟩
          rw [(hg1 h0).2.2]
          rcases List.mem_cons.mp hq with rfl | hq
          · exact m1
          · exact m2 q hq
        · exact Or.inl ⟨hg2 (by omega), by omega⟩
      · unfold UdpW.pend
        rw [if_neg hb, if_pos rfl]
        simp [gotPkts, accounted]
      · intro n
        cases n <;> simp [groupsDone]
      · intro a b hab
        rcases a with _ | ⟨x, _ | ⟨y, a⟩⟩ <;> simp at hab

/-- What holds of a run. -/
structure UdpRunOk (env : UEnv) (w w' : UdpW) (ops : List UdpOp) (evs : List UEv) : Prop where
  inv : UInv env w'
  pend : w.pend ++ gotPkts evs = (accounted evs).map Prod.fst ++ w'.pend
  groups : groupsDone evs = lastCount (accounted evs)
  before : ∀ n, groupsDone (evs.take n) ≤ lastCount (accounted (evs.take n))
  dgrams : datagrams evs = wanted (accounted evs)
  items : ItemsOk w.bytes w'.bytes w.result w'.result (accounted evs)
  errors : ∀ x ∈ accounted evs, x.2 = none ∨ ∃ e refuse, UdpOp.send (.error e) refuse ∈ ops ∧ x.2 = some e

theorem gotPkts_append : ∀ (a b : List UEv), gotPkts (a ++ b) = gotPkts a ++ gotPkts b
  | [], _ => rfl
  | e :: a, b => by cases e <;> simp [gotPkts, gotPkts_append a b]

theorem accounted_append : ∀ (a b : List UEv), accounted (a ++ b) = accounted a ++ accounted b
  | [], _ => rfl
  | e :: a, b => by cases e <;> simp [accounted, accounted_append a b]

theorem datagrams_append : ∀ (a b : List UEv), datagrams (a ++ b) = datagrams a ++ datagrams b
  | [], _ => rfl
  | e :: a, b => by cases e <;> simp [datagrams, datagrams_append a b]

theorem groupsDone_append : ∀ (a b : List UEv), groupsDone (a ++ b) = groupsDone a + groupsDone b
  | [], b => by simp [groupsDone]
  | e :: a, b => by cases e <;> simp [groupsDone, groupsDone_append a b, Nat.add_assoc]

theorem wanted_append (a b : List (UPkt × Option Nat)) : wanted (a ++ b) = wanted a ++ wanted b := by
  simp [wanted]

theorem step_spec {env : UEnv} {w : UdpW} (hi : UInv env w) (op : UdpOp) (hp : PktsOk [op]) :
    ∃ w' evs, w.step env op = some (w', evs) ∧ UdpStepOk env w w' evs ∧ (∀ x ∈ accounted evs, x.2 = none ∨ ∃ e refuse, op = UdpOp.send (.error e) refuse ∧ x.2 = some e) := by
  cases op with
  | wakeup ps refuse =>
    obtain ⟨w', evs, h1, h2, h3⟩ := wakeup_spec hi ps refuse hp.1
    exact ⟨w', evs, h1, h2, by rw [h3]; simp⟩
  | send r refuse =>
    unfold UdpW.step
    dsimp only
    by_cases hb : w.busy = true
    · rw [if_pos hb]
      obtain ⟨w', evs, h1, h2, h3, _⟩ := sendPackets_spec hi hb r refuse
      refine ⟨w', evs, h1, h2, fun x hx => ?_⟩
      rcases h3 x hx with h | ⟨e, h, h'⟩
      · exact Or.inl h
      · exact Or.inr ⟨e, refuse, by rw [h], h'⟩
    · rw [if_neg hb]
      exact ⟨w, [], rfl, ⟨hi, by simp [gotPkts, accounted], rfl, by simp [groupsDone], rfl, ItemsOk.nil _ _, fun a b h => by simp at h⟩, by simp [accounted]⟩

theorem pktsOk_cons {op : UdpOp} {ops : List UdpOp} (h : PktsOk (op :: ops)) : PktsOk [op] ∧ PktsOk ops := by
  cases op with
  | wakeup ps r => exact ⟨⟨h.1, trivial⟩, h.2⟩
  | send r f => exact ⟨trivial, h⟩

theorem run_udp {env : UEnv} : ∀ (ops : List UdpOp) (w : UdpW), UInv env w → PktsOk ops →
    ∃ w' evs, w.run env ops = some (w', evs) ∧ UdpRunOk env w w' ops evs ∧
      (∀ a b, evs = a ++ .post :: b → w.pend ++ gotPkts a = (accounted a).map Prod.fst ∧ groupsDone a = lastCount (accounted a))
  | [], w, hi, _ => ⟨w, [], rfl, ⟨hi, by simp [gotPkts, accounted], rfl, by simp [groupsDone], rfl, ItemsOk.nil _ _, by simp [accounted]⟩, fun a b h => by simp at h⟩
  | op :: ops, w, hi, hp => by
    obtain ⟨w1, ev1, h1, s, se⟩ := step_spec hi op (pktsOk_cons hp).1
    obtain ⟨w2, ev2, h2, r, rp⟩ := run_udp ops w1 s.inv (pktsOk_cons hp).2
    refine ⟨w2, ev1 ++ ev2, ?_, ⟨r.inv, ?_, ?_, ?_, ?_, ?_, ?_⟩, ?_⟩
    · unfold UdpW.run
      rw [h1]
      dsimp only
      rw [h2]
    · rw [gotPkts_append, accounted_append, List.map_append, ← List.append_assoc, s.pend, List.append_assoc, r.pend, List.append_assoc]
    · rw [groupsDone_append, accounted_append, lastCount_append, s.groups, r.groups]
    · intro n
      rw [List.take_append, groupsDone_append, accounted_append, lastCount_append]
      have a1 := s.before n
      have a2 := r.before (n - ev1.length)
      omega
    · rw [datagrams_append, accounted_append, wanted_append, s.dgrams, r.dgrams]
    · rw [accounted_append]
      exact ItemsOk.trans s.items r.items
    · intro x hx
      rw [accounted_append] at hx
      rcases List.mem_append.mp hx with hx | hx
      · rcases se x hx with h | ⟨e, f, h, h'⟩
        · exact Or.inl h
        · exact Or.inr ⟨e, f, by rw [h]; simp, h'⟩
      · rcases r.errors x hx with h | ⟨e, f, h, h'⟩
        · exact Or.inl h
        · exact Or.inr ⟨e, f, by simp [h], h'⟩
    · intro a b hab
      rcases List.append_eq_append_iff.mp hab with ⟨a', ha, hb⟩ | ⟨c', hc, hd⟩
      · obtain ⟨q1, q2⟩ := rp a' b hb
        rw [ha, gotPkts_append, accounted_append, List.map_append, ← List.append_assoc, s.pend, List.append_assoc, q1, groupsDone_append, lastCount_append, s.groups, q2]
        exact ⟨rfl, rfl⟩
      · cases c' with
        | nil =>
          rw [List.append_nil] at hc
          rw [List.nil_append] at hd
          obtain ⟨q1, q2⟩ := rp [] b hd.symm
          have hpd := s.pend
          rw [hc] at hpd
          simp only [gotPkts, accounted, List.append_nil, List.map_nil] at q1
          rw [q1, List.append_nil] at hpd
          refine ⟨hpd, ?_⟩
          have := s.groups
          rw [hc] at this
          exact this
        | cons x c' =>
          rw [List.cons_append] at hd
          obtain ⟨rfl, hd⟩ := List.cons.inj hd
          obtain ⟨rfl, hbf⟩ := s.post a c' hc
          have e0 : ev1 = a ++ [.post] := hc
          have hpd := s.pend
          have hgd := s.groups
          rw [e0] at hpd hgd
          rw [gotPkts_append, accounted_append] at hpd
          rw [groupsDone_append, accounted_append] at hgd
          simp only [gotPkts, accounted, groupsDone, List.append_nil, Nat.add_zero] at hpd hgd
          have h0 : w1.pend = [] := by unfold UdpW.pend; rw [hbf]; rfl
          rw [h0, List.append_nil] at hpd
          exact ⟨hpd, hgd⟩

theorem uinv_init (env : UEnv) : UInv env {} := ⟨(fun h => absurd h (by decide)), (fun _ => rfl), fun h => by simp at h⟩

theorem run_sends {env : UEnv} : ∀ (rs : List (SendResp × Bool)) (w : UdpW), UInv env w → (∀ r ∈ rs, r.1 = .sent 1 ∨ ∃ e, r.1 = .error e) →
    ∃ w' evs, w.run env (rs.map (fun r => UdpOp.send r.1 r.2)) = some (w', evs) ∧ w'.todo ≤ w.todo - rs.length ∧ UInv env w'
  | [], w, hi, _ => ⟨w, [], rfl, by simp, hi⟩
  | r :: rs, w, hi, h => by
    rw [List.map_cons]
    unfold UdpW.run UdpW.step
    dsimp only
    by_cases hb : w.busy = true
    · rw [if_pos hb]
      obtain ⟨w1, ev1, h1, h2, _, h4⟩ := sendPackets_spec hi hb r.1 r.2
      rw [h1]
      dsimp only
      obtain ⟨w2, ev2, g1, g2, g3⟩ := run_sends rs w1 h2.inv (fun x hx => h x (by simp [hx]))
      rw [g1]
      have := h4 ((h r (by simp)).imp (fun h => ⟨1, h, by omega, Or.inl rfl⟩) id)
      refine ⟨w2, _, rfl, ?_, g3⟩
      rw [List.length_cons]
      omega
    · rw [if_neg hb]
      dsimp only
      obtain ⟨w2, ev2, g1, g2, g3⟩ := run_sends rs w hi (fun x hx => h x (by simp [hx]))
      rw [g1]
      refine ⟨w2, _, rfl, ?_, g3⟩
      have : w.todo = 0 := by unfold UdpW.todo; rw [if_neg hb]
      omega

end Spead2
