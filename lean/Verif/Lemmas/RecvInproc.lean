import Verif.Spec.RecvInproc
import Verif.Lemmas.Queue
import Verif.Lemmas.Transport

/-!
# Lemmas about the in-process reader
-/

namespace Spead2
open Spec

/-- A thread is at a point of a call that takes, or that adds and stops. -/
def UPc.pops {α : Type} : UPc α → Bool
  | .getSem | .popBody | .tryGet | .tryBody _ => true
  | _ => false

theorem results_append (T : Nat → Bool) (a b : List (REv Bytes)) : results T (a ++ b) = results T a ++ results T b := by unfold results; rw [List.filterMap_append]

/-- What the receiver has seen of the queue. -/
structure QSeen (T : Nat → Bool) (s : UState Bytes) (tr : List (REv Bytes)) : Prop where
  apart : ∀ (t : Nat) (pc : UPc Bytes), s.threads[t]? = some pc → pc ≠ .idle → pc.pops = T t
  sees : ∃ r k, results T tr = r ++ List.replicate k .stopped ∧ (∀ x ∈ r, x = .empty ∨ ∃ d, x = .packet d) ∧ packetsOf r = popped tr ∧ (0 < k → s.queue.stopped = true ∧ s.queue.data = [])

theorem QSeen.quiet {T : Nat → Bool} {s s' : UState Bytes} {tr ev : List (REv Bytes)} (h : QSeen T s tr) (h1 : ∀ (t : Nat) (pc : UPc Bytes), s'.threads[t]? = some pc → pc ≠ .idle → pc.pops = T t) (h2 : results T ev = [])
    (h3 : popped ev = []) (h4 : s.queue.stopped = true ∧ s.queue.data = [] → s'.queue.stopped = true ∧ s'.queue.data = []) : QSeen T s' (tr ++ ev) := by
  refine ⟨h1, ?_⟩
  obtain ⟨r, k, k1, k2, k3, k4⟩ := h.sees
  refine ⟨r, k, by rw [results_append, h2, List.append_nil, k1], k2, ?_, fun h => h4 (k4 h)⟩
  rw [k3]
  unfold popped at h3 ⊢
  rw [List.filterMap_append, h3, List.append_nil]

theorem seen_set {T : Nat → Bool} {s : UState Bytes} {tr : List (REv Bytes)} (h : QSeen T s tr) {t : Nat} {pc' : UPc Bytes} (hp : pc' ≠ .idle → pc'.pops = T t) :
    ∀ (t' : Nat) (pc : UPc Bytes), (s.threads.set t pc')[t']? = some pc → pc ≠ .idle → pc.pops = T t' := by
  intro t' pc h1 h2
  rw [List.getElem?_set] at h1
  split at h1
  · rename_i e
    subst e
    split at h1
    · cases h1; exact hp h2
    · cases h1
  · exact h.apart t' pc h1 h2

theorem seen_step {T : Nat → Bool} {s s' : UState Bytes} {tr ev : List (REv Bytes)} {op : UOp Bytes} (h : QSeen T s tr) (ho : ∀ t c, op = .call t c → (T t = true ↔ ∃ b, c = .pop b)) (hs : s.step op = some (s', ev)) : QSeen T s' (tr ++ ev) := by
  have stay : QSeen T s (tr ++ []) := by rw [List.append_nil]; exact h
  cases op with
  | call t c =>
    unfold UState.step at hs
    simp only at hs
    split at hs
    · cases hs
      refine h.quiet (seen_set h ?_) rfl rfl id
      intro _
      have := ho t c rfl
      cases c with
      | push v => simp [UCall.start, UPc.pops] at this ⊢; exact this
      | stop => simp [UCall.start, UPc.pops] at this ⊢; exact this
      | pop b => cases b <;> simp [UCall.start, UPc.pops] at this ⊢ <;> exact this
    · cases hs; exact stay
  | fail t =>
    unfold UState.step at hs
    simp only at hs
    split at hs
    · rename_i hpc
      cases hs
      refine h.quiet (seen_set h ?_) rfl rfl id
      intro _
      have := h.apart t _ hpc (by simp); exact this
    · cases hs; exact stay
  | act t =>
    unfold UState.step at hs
    simp only at hs
    split at hs
    · cases hs; exact stay
    · rename_i pc hpc
      split at hs
      · cases hs
      · rename_i q pc' ev' ha
        cases hs
        have take : ∀ {q0 : UQueue Bytes}, q0.data = s.queue.data → q0.stopped = s.queue.stopped → pc.pops = true → pc' = .idle → pc ≠ .idle → q0.take t = some (q, ev) → QSeen T ⟨q, s.threads.set t pc'⟩ (tr ++ ev) := by
          intro q0 e1 e2 hpp hi hne hk
          have hT : T t = true := by rw [← h.apart t pc hpc hne]; exact hpp
          subst hi
          unfold UQueue.take at hk
          obtain ⟨r, k, k1, k2, k3, k4⟩ := h.sees
          split at hk
          · rename_i hd
            split at hk
            · rename_i hst
              cases hk
              refine ⟨seen_set h (fun h => absurd rfl h), r, k + 1, ?_, k2, ?_, fun _ => ⟨hst, hd⟩⟩
              · rw [results_append, k1, List.append_assoc, List.replicate_succ']
                simp [results, hT]
              · rw [k3]; unfold popped; rw [List.filterMap_append]; simp
            · cases hk
          · rename_i v rest hd
            cases hk
            have hk0 : k = 0 := by
              apply Classical.byContradiction
              intro hk
              have := (k4 (by omega)).2
              rw [← e1, hd] at this
              cases this
            subst hk0
            refine ⟨seen_set h (fun h => absurd rfl h), r ++ [.packet v], 0, ?_, ?_, ?_, fun h => absurd h (by omega)⟩
            · rw [results_append, k1]
              simp [results, hT]
            · intro x hx
              rcases List.mem_append.1 hx with hx | hx
              · exact k2 x hx
              · rw [List.mem_singleton] at hx; exact Or.inr ⟨v, hx⟩
            · have e3 : packetsOf (r ++ [.packet v]) = packetsOf r ++ [v] := by simp [packetsOf]
              rw [e3, k3]; unfold popped; rw [List.filterMap_append]; simp
        cases pc with
        | idle =>
          cases ha
          refine h.quiet (seen_set h (fun h => absurd rfl h)) rfl rfl id
        | push v =>
          cases ha
          have hT : T t = false := by rw [← h.apart t _ hpc (by simp)]; rfl
          have hg : ∀ {x}, s.queue.push t v = x → results T x.2 = [] ∧ popped x.2 = [] ∧ (s.queue.stopped = true ∧ s.queue.data = [] → x.1.stopped = true ∧ x.1.data = []) := by
            intro x hx
            unfold UQueue.push at hx
            split at hx
            · subst hx; exact ⟨by simp [results, hT], rfl, id⟩
            · rename_i hn; subst hx; exact ⟨by simp [results], rfl, fun h => absurd h.1 hn⟩
          obtain ⟨g1, g2, g3⟩ := hg rfl
          exact h.quiet (seen_set h (fun h => absurd rfl h)) g1 g2 g3
        | stop =>
          cases ha
          have hT : T t = false := by rw [← h.apart t _ hpc (by simp)]; rfl
          have hg : ∀ {x}, s.queue.stop t = x → results T x.2 = [] ∧ popped x.2 = [] ∧ (s.queue.stopped = true ∧ s.queue.data = [] → x.1.stopped = true ∧ x.1.data = []) := by
            intro x hx
            unfold UQueue.stop at hx
            split at hx
            · subst hx; exact ⟨by simp [results], rfl, id⟩
            · rename_i hn; subst hx; exact ⟨by simp [results], rfl, fun h => absurd h.1 hn⟩
          obtain ⟨g1, g2, g3⟩ := hg rfl
          exact h.quiet (seen_set h (fun h => absurd rfl h)) g1 g2 g3
        | getSem =>
          have hT := h.apart t _ hpc (by simp)
          simp only [UQueue.act] at ha
          split at ha <;> cases ha
          · exact h.quiet (seen_set h (fun _ => hT)) rfl rfl id
          · exact h.quiet (seen_set h (fun _ => hT)) rfl rfl id
        | popBody =>
          simp only [UQueue.act] at ha
          split at ha
          · cases ha
          · rename_i hk
            cases ha
            exact take rfl rfl rfl rfl (by simp) hk
        | tryGet =>
          have hT := h.apart t _ hpc (by simp)
          simp only [UQueue.act] at ha
          split at ha <;> cases ha
          · exact h.quiet (seen_set h (fun _ => hT)) rfl rfl id
          · exact h.quiet (seen_set h (fun _ => hT)) rfl rfl id
        | tryBody ok =>
          have hT := h.apart t _ hpc (by simp)
          cases ok with
          | true =>
            simp only [UQueue.act] at ha
            split at ha
            · cases ha
            · rename_i hk
              cases ha
              exact take rfl rfl rfl rfl (by simp) hk
          | false =>
            simp only [UQueue.act] at ha
            split at ha
            · rename_i hd
              cases ha
              have hd' : s.queue.data = [] := by simpa using hd
              have hTt : T t = true := by rw [← hT]; rfl
              obtain ⟨r, k, k1, k2, k3, k4⟩ := h.sees
              cases hst : s.queue.stopped with
              | true =>
                refine ⟨seen_set h (fun h => absurd rfl h), r, k + 1, ?_, k2, ?_, fun _ => ⟨hst, hd'⟩⟩
                · rw [results_append, k1, List.append_assoc, List.replicate_succ']
                  simp [results, hTt]
                · rw [k3]; unfold popped; rw [List.filterMap_append]; simp
              | false =>
                have hk0 : k = 0 := by
                  apply Classical.byContradiction
                  intro hk
                  have := (k4 (by omega)).1
                  rw [hst] at this
                  cases this
                subst hk0
                refine ⟨seen_set h (fun h => absurd rfl h), r ++ [.empty], 0, ?_, ?_, ?_, fun h => absurd h (by omega)⟩
                · rw [results_append, k1]
                  simp [results, hTt]
                · intro x hx
                  rcases List.mem_append.1 hx with hx | hx
                  · exact k2 x hx
                  · rw [List.mem_singleton] at hx; exact Or.inl hx
                · have e3 : packetsOf (r ++ [.empty]) = packetsOf r := by simp [packetsOf]
                  rw [e3, k3]; unfold popped; rw [List.filterMap_append]; simp
            · cases ha
              exact h.quiet (seen_set h (fun _ => hT)) rfl rfl id

theorem seen_run {T : Nat → Bool} : ∀ {ops : List (UOp Bytes)} {s s' : UState Bytes} {tr ev : List (REv Bytes)}, QSeen T s tr → Readers T ops → UState.run ops s = some (s', ev) → QSeen T s' (tr ++ ev)
  | [], s, s', tr, ev, h, _, hr => by cases hr; rw [List.append_nil]; exact h
  | op :: ops, s, s', tr, ev, h, ho, hr => by
    unfold UState.run at hr
    split at hr
    · cases hr
    · rename_i s1 e1 h1
      split at hr
      · cases hr
      · rename_i s2 e2 h2
        cases hr
        have := seen_step h (fun t c e => ho t c (by rw [e]; exact List.mem_cons_self)) h1
        rw [← List.append_assoc]
        exact seen_run this (fun t c e => ho t c (List.mem_cons_of_mem _ e)) h2

theorem seen_reach {T : Nat → Bool} {n : Nat} {ops : List (UOp Bytes)} {s : UState Bytes} {tr : List (REv Bytes)} (h : QueueReach n ops s tr) (ho : Readers T ops) : QSeen T s tr := by
  have h0 : QSeen T (UState.new Bytes n) [] := by
    refine ⟨fun t pc h1 h2 => ?_, [], 0, rfl, by simp, rfl, fun h => absurd h (by omega)⟩
    have := List.mem_of_getElem? h1
    simp only [UState.new, List.mem_replicate] at this
    exact absurd this.2 h2
  have := seen_run h0 ho h
  rwa [List.nil_append] at this

/-! ### What is for one substream -/

theorem rr_rows {α : Type} (ls : List (List α)) {n : Nat} (h : longest ls ≤ n) : (List.range n).flatMap (fun k => ls.filterMap (fun l => l[k]?)) = roundRobin ls := by
  obtain ⟨d, rfl⟩ := Nat.le.dest h
  rw [List.range_add, List.flatMap_append]
  have : ((List.range d).map (longest ls + ·)).flatMap (fun k => ls.filterMap (fun l => l[k]?)) = [] := by
    rw [List.flatMap_eq_nil_iff]
    intro k hk
    obtain ⟨j, -, rfl⟩ := List.mem_map.1 hk
    rw [List.filterMap_eq_nil_iff]
    intro l hl
    have := longest_le hl
    exact List.getElem?_eq_none (by omega)
  rw [this, List.append_nil]
  rfl

theorem longest_filter {α β : Type} (f : β → List α) (p : β → Bool) : ∀ (hs : List β), longest ((hs.filter p).map f) ≤ longest (hs.map f)
  | [] => Nat.le_refl _
  | h :: hs => by
    have := longest_filter f p hs
    rw [List.filter_cons]
    split
    · rw [List.map_cons, List.map_cons, longest_cons, longest_cons]; omega
    · rw [List.map_cons, longest_cons]; omega

theorem groupPackets_on {π : Type} (n : Nat) (mode : GroupMode) (hs : List (Admitted π)) : (groupPackets mode hs).filter (fun x => x.2 = n) = groupPackets mode (hs.filter (fun h => h.substream = n)) := by
  unfold groupPackets
  cases mode with
  | serial =>
    simp only
    induction hs with
    | nil => rfl
    | cons h hs ih =>
      rw [List.map_cons, List.flatten_cons, List.filter_append, ih, List.filter_cons]
      by_cases hn : h.substream = n
      · rw [if_pos (by simp [hn]), List.map_cons, List.flatten_cons]
        congr 1
        rw [List.filter_eq_self]
        intro x hx
        obtain ⟨p, -, rfl⟩ := List.mem_map.1 hx
        simpa using hn
      · rw [if_neg (by simp [hn])]
        have : (h.pkts.map (fun p => (p, h.substream))).filter (fun x => x.2 = n) = [] := by
          rw [List.filter_eq_nil_iff]
          intro x hx
          obtain ⟨p, -, rfl⟩ := List.mem_map.1 hx
          simpa using hn
        rw [this, List.nil_append]
  | roundRobin =>
    simp only
    rw [← rr_rows _ (longest_filter _ _ hs), show roundRobin (hs.map (fun h => h.pkts.map (fun p => (p, h.substream)))) = _ from rfl, roundRobin, filter_flatMap']
    congr 1
    funext k
    rw [List.filterMap_map, List.filterMap_map]
    simp only [Function.comp_def, List.getElem?_map]
    induction hs with
    | nil => rfl
    | cons h hs ih =>
      rw [List.filterMap_cons, List.filter_cons]
      by_cases hn : h.substream = n
      · rw [if_pos (by simp [hn]), List.filterMap_cons]
        cases h.pkts[k]? with
        | none => simp only [Option.map_none]; exact ih
        | some p =>
          simp only [Option.map_some]
          rw [List.filter_cons, if_pos (by simpa using hn), ih]
      · rw [if_neg (by simp [hn])]
        cases h.pkts[k]? with
        | none => simp only [Option.map_none]; exact ih
        | some p =>
          simp only [Option.map_some]
          rw [List.filter_cons, if_neg (by simpa using hn)]
          exact ih

theorem zip_on {γ : Type} (n : Nat) {f : Sent → γ} {h : Admitted GenPacket → γ} : ∀ {xs : List Sent} {hs : List (Admitted GenPacket)}, xs.map f = hs.map h →
    (((xs.zip (hs.map Admitted.substream)).filter (fun x => x.2 = n)).map Prod.fst).map f = (hs.filter (fun h => h.substream = n)).map h
  | [], [], _ => rfl
  | [], _ :: _, e => by simp at e
  | _ :: _, [], e => by simp at e
  | x :: xs, y :: hs, e => by
    rw [List.map_cons, List.map_cons, List.cons.injEq] at e
    have ih := zip_on n e.2
    rw [List.map_cons, List.zip_cons_cons, List.filter_cons, List.filter_cons]
    by_cases hn : y.substream = n
    · rw [if_pos (by simpa using hn), if_pos (by simpa using hn), List.map_cons, List.map_cons, List.map_cons, ih, e.1]
    · rw [if_neg (by simpa using hn), if_neg (by simpa using hn)]
      exact ih

theorem on_mem {g : SentGroup} {subs : List Nat} {n : Nat} {x : Sent} (h : x ∈ (g.on subs n).heaps) : x ∈ g.heaps := by
  obtain ⟨y, h1, rfl⟩ := List.mem_map.1 h
  exact (List.of_mem_zip (List.mem_filter.1 h1).1).1

theorem on_wire {ops : List (WOp SendHeap)} {mps n : Nat} {a : Accepted GenPacket} {g : SentGroup} (h : SubmittedOn ops mps n a g) : (a.packets.filter (fun x => x.2 = n)).map (fun x => x.1.bytes) = g.wire := by
  obtain ⟨w, ⟨refs, -, h1, -, -, h2, -⟩, rfl⟩ := h
  unfold Accepted.packets
  rw [groupPackets_on]
  exact wire_of (by exact h1) (zip_on n h2)

theorem on_wires {ops : List (WOp SendHeap)} {mps n : Nat} : ∀ {as : List (Accepted GenPacket)} {gs : List SentGroup}, List.Forall₂ (SubmittedOn ops mps n) as gs →
    ((as.flatMap Accepted.packets).filter (fun x => x.2 = n)).map (fun x => x.1.bytes) = gs.flatMap SentGroup.wire
  | _, _, .nil => rfl
  | _, _, .cons h t => by rw [List.flatMap_cons, List.flatMap_cons, List.filter_append, List.map_append, on_wire h, on_wires t]

theorem on_cnts {ops : List (WOp SendHeap)} {mps n : Nat} : ∀ {as : List (Accepted GenPacket)} {gs : List SentGroup}, List.Forall₂ (SubmittedOn ops mps n) as gs →
    gs.flatMap SentGroup.cnts = (as.map (Accepted.on n)).flatMap (fun a => a.hs.map Admitted.cnt)
  | _, _, .nil => rfl
  | _, _, .cons h t => by
    obtain ⟨w, ⟨refs, -, -, -, h1, -⟩, rfl⟩ := h
    rw [List.flatMap_cons, List.map_cons, List.flatMap_cons, on_cnts t]
    congr 1
    exact zip_on n h1

theorem on_deliverable {cfg : StreamConfig} {ops : List (WOp SendHeap)} {mps n : Nat} {as : List (Accepted GenPacket)} {gs : List SentGroup} (h : List.Forall₂ (SubmittedOn ops mps n) as gs)
    (hr : Receivable cfg ops (as.map (Accepted.on n))) : Deliverable cfg gs where
  distinct := by rw [on_cnts h]; exact hr.distinct
  few := by
    intro g hg hm
    obtain ⟨a, ha, w, ⟨refs, -, h1, -, h2, -⟩, rfl⟩ := forall₂_right h g hg
    have := hr.few (a.on n) (List.mem_map_of_mem ha) (by rw [← hm]; exact h1.symm)
    refine Nat.le_trans (Nat.le_of_eq ?_) this
    have e := congrArg List.length (zip_on n h2)
    simpa only [List.length_map, SentGroup.on, Accepted.on] using e
  nostop := by
    intro hs g hg x hx
    obtain ⟨a, ha, w, ⟨refs, h0, h1, h3, -, -, -, -, h4⟩, rfl⟩ := forall₂_right h g hg
    replace hx := on_mem hx
    have : x.heap ∈ refs.map SendRef.heap := by rw [← h3]; exact List.mem_map_of_mem hx
    obtain ⟨r, hr', he⟩ := List.mem_map.1 this
    rw [(h4 x hx).2, ← he]
    exact hr.nostop hs refs a.mode h0 r hr'

theorem on_groups {ops : List (WOp SendHeap)} {mps : Nat} (n : Nat) {as : List (Accepted GenPacket)} {gs : List SentGroup} (h : List.Forall₂ (Submitted ops mps) as gs)
    (hok : ∀ x ∈ gs.flatMap SentGroup.heaps, x.Ok ∧ Faithful mps x.heap) : ∃ ms, List.Forall₂ (SubmittedOn ops mps n) as ms ∧ ∀ x ∈ ms.flatMap SentGroup.heaps, x.Ok ∧ Faithful mps x.heap ∧ x.mps = mps ∧ x.width = x.heap.hab / 8 := by
  induction h with
  | nil => exact ⟨[], .nil, by simp⟩
  | @cons a g as gs h1 h2 ih =>
    obtain ⟨ms, k1, k2⟩ := ih (fun x hx => hok x (by rw [List.flatMap_cons]; exact List.mem_append_right _ hx))
    refine ⟨g.on (a.hs.map Admitted.substream) n :: ms, .cons ⟨g, h1, rfl⟩ k1, fun x hx => ?_⟩
    rw [List.flatMap_cons] at hx
    rcases List.mem_append.1 hx with hx | hx
    · have hm := on_mem hx
      have := hok x (by rw [List.flatMap_cons]; exact List.mem_append_left _ hm)
      obtain ⟨refs, -, -, -, -, -, -, -, h4⟩ := h1
      exact ⟨this.1, this.2, h4 x hm⟩
    · exact k2 x hx

/-! ### The handler -/

/-- What a call of the handler does to the stream if all packets are good. -/
def wakeOp : InWake → StreamOp
  | .packet d => .batch [.packet (recvOr d)]
  | _ => .batch []

theorem inproc_good {d : Bytes} (h : IsPacket d (recvOr d)) : inprocBatch (.packet d) = some [.packet (recvOr d)] := by
  obtain ⟨hd, h1, h2⟩ := isPacket_decode h []
  rw [List.append_nil] at h1 h2
  show inprocPacket d = _
  unfold inprocPacket
  rw [h1]
  simp only [if_true, h2]
  rfl

theorem wakes_stopped {cfg : StreamConfig} : ∀ {evs : List InWake} {s s' : Stream} {out : List Entry}, s.stopped = true → Stream.run cfg (evs.map wakeOp) s = some (s', out) → s'.stopped = true
  | [], s, s', out, h, hr => by cases hr; exact h
  | ev :: evs, s, s', out, h, hr => by
    rw [List.map_cons, Stream.run] at hr
    have : s.step cfg (wakeOp ev) = some (s, []) := by cases ev <;> (show Stream.batch cfg s _ = _; unfold Stream.batch; rw [if_pos h])
    rw [this] at hr
    simp only [Option.bind_eq_bind, Option.bind_some, Option.bind_eq_some_iff] at hr
    obtain ⟨x, h1, h2⟩ := hr
    cases h2
    exact wakes_stopped h h1

theorem inprocRun_append {cfg : StreamConfig} : ∀ {a b : List InWake} {rd : Bool} {s : Stream} {r1 : Bool} {s1 : Stream} {o1 : List Entry} {r2 : Bool} {s2 : Stream} {o2 : List Entry},
    inprocRun cfg a rd s = some (r1, s1, o1) → inprocRun cfg b r1 s1 = some (r2, s2, o2) → inprocRun cfg (a ++ b) rd s = some (r2, s2, o1 ++ o2)
  | [], b, rd, s, r1, s1, o1, r2, s2, o2, h1, h2 => by cases h1; exact h2
  | ev :: a, b, rd, s, r1, s1, o1, r2, s2, o2, h1, h2 => by
    rw [inprocRun] at h1
    rw [List.cons_append, inprocRun]
    split at h1
    · cases h1
    · rename_i rd' s' o h3
      split at h1
      · cases h1
      · rename_i rd'' s'' o' h4
        cases h1
        rw [inprocRun_append h4 h2]
        simp

/-- As long as the stream is not stopped the handler presents the packets. -/
theorem inproc_run {cfg : StreamConfig} : ∀ {evs : List InWake} {s s' : Stream} {out : List Entry}, (∀ e ∈ evs, e ≠ .stopped) → (∀ d ∈ packetsOf evs, IsPacket d (recvOr d)) → Stream.run cfg (evs.map wakeOp) s = some (s', out) →
    s.stopped = false → s'.stopped = false → inprocRun cfg evs true s = some (true, s', out)
  | [], s, s', out, _, _, hr, _, _ => by cases hr; rfl
  | ev :: evs, s, s', out, hns, hp, hr, hs, hs' => by
    rw [List.map_cons, Stream.run] at hr
    simp only [Option.bind_eq_bind, Option.bind_eq_some_iff] at hr
    obtain ⟨⟨s1, o1⟩, h1, ⟨s2, o2⟩, h2, h3⟩ := hr
    cases h3
    simp only at h2
    have hs1 : s1.stopped = false := by
      cases hst : s1.stopped with
      | false => rfl
      | true => rw [wakes_stopped hst h2] at hs'; cases hs'
    have hb : ∃ l, inprocBatch ev = some l ∧ wakeOp ev = .batch l := by
      cases ev with
      | packet d => exact ⟨_, inproc_good (hp d (by simp [packetsOf])), rfl⟩
      | stopped => exact absurd rfl (hns _ List.mem_cons_self)
      | empty => exact ⟨[], rfl, rfl⟩
      | error => exact ⟨[], rfl, rfl⟩
    obtain ⟨l, b1, b2⟩ := hb
    have ih := inproc_run (fun e he => hns e (List.mem_cons_of_mem _ he)) (fun d hd => hp d (by
      obtain ⟨e, h1, h2⟩ := List.mem_filterMap.1 hd
      exact List.mem_filterMap.2 ⟨e, List.mem_cons_of_mem _ h1, h2⟩)) h2 hs1 hs'
    rw [b2] at h1
    replace h1 : s.batch cfg l = some (s1, o1) := h1
    rw [inprocRun, inprocStep, if_neg (by simp), if_neg (by simp [hs]), b1]
    simp only
    rw [h1]
    simp only [hs1, Bool.not_false]
    rw [ih]

/-- Once it does not wait the reader does nothing. -/
theorem inproc_off {cfg : StreamConfig} : ∀ {evs : List InWake} {s : Stream}, inprocRun cfg evs false s = some (false, s, [])
  | [], _ => rfl
  | ev :: evs, s => by
    rw [inprocRun, inprocStep, if_pos rfl]
    simp only
    rw [inproc_off]
    rfl

theorem wake_presented : ∀ (evs : List InWake), presented (evs.map wakeOp) = (packetsOf evs).map recvOr
  | [] => rfl
  | ev :: evs => by
    have ih := wake_presented evs
    unfold presented at ih ⊢
    rw [List.map_cons, List.flatMap_cons, ih]
    cases ev <;> rfl

theorem wake_presents {evs : List InWake} {ps : List Pkt} (h : (packetsOf evs).map recvOr = ps) : Presents (evs.map wakeOp) ps := by
  refine ⟨?_, by rw [wake_presented, h]⟩
  intro op hop
  obtain ⟨e, -, rfl⟩ := List.mem_map.1 hop
  cases e <;> (intro b hb; simp at hb) <;> (subst hb; simp)

end Spead2
