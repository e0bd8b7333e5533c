import Verif.Lemmas.RingStream
import Verif.Lemmas.RecvUdp

/-!
# Invariant of streams that put heaps in a ring buffer
-/

namespace Spead2
open Spec

variable {cfg : RsConfig} {cap : Nat} {t : Nat} {k : RKind} {p p' : RsPc} {pc pc' : RPc Entry} {ev tr : List RsEv} {c : RsCall} {s s' : RsState}

/-- What holds of an event, given the history before it. -/
def RsEvOk (pre : List RsEv) : RsEv → Prop
  | .ret _ .stopped => isClosed (ringEvs pre) = true ∧ isSealed (ringEvs pre) = true ∧ popped (ringEvs pre) = pushed (ringEvs pre)
  | .ret _ .empty => isSealed (ringEvs pre) = true → popped (ringEvs pre) ≠ pushed (ringEvs pre)
  | .ret _ (.heap e) => e.heap.isContiguous = true
  | .skipped _ e => e.heap.isContiguous = false
  | _ => True

def RsHist (pre tr : List RsEv) : Prop := ∀ a e b, tr = a ++ e :: b → RsEvOk (pre ++ a) e

theorem RsHist.append {pre a b : List RsEv} (h1 : RsHist pre a) (h2 : RsHist (pre ++ a) b) : RsHist pre (a ++ b) := by
  intro x e y h
  rw [List.append_eq_append_iff] at h
  rcases h with ⟨z, rfl, hz⟩ | ⟨z, rfl, hz⟩
  · rw [← List.append_assoc]; exact h2 z e y hz
  · cases z with
    | nil => have := h2 [] e y (by simpa using hz.symm); simpa using this
    | cons w z =>
      rw [List.cons_append, List.cons.injEq] at hz
      obtain ⟨rfl, rfl⟩ := hz
      exact h1 x e z rfl

theorem RsHist.one {pre : List RsEv} {e : RsEv} {l : List RsEv} (h : RsEvOk pre e) (h2 : RsHist (pre ++ [e]) l) : RsHist pre (e :: l) := by
  intro a x b hx
  cases a with
  | nil => rw [List.nil_append, List.cons.injEq] at hx; rw [List.append_nil, ← hx.1]; exact h
  | cons y a =>
    rw [List.cons_append, List.cons.injEq] at hx
    obtain ⟨rfl, hx⟩ := hx
    have := h2 a x b hx
    simpa using this

theorem RsHist.nil {pre : List RsEv} : RsHist pre [] := by intro a e b h; simp at h

/-- The invariant. -/
structure RsInv (cfg : RsConfig) (cap : Nat) (s : RsState) (tr : List RsEv) : Prop where
  sys : ∃ q e e', RSys cap s.ring (ringEvs tr) q e e'
  bal : removals (ringEvs tr) = 0
  len : s.progs.length = s.ring.threads.length
  compat : ∀ (t : Nat) (p : RsPc) (pc : RPc Entry), s.progs[t]? = some p → s.ring.threads[t]? = some pc → Compat p pc
  mutex : ∀ (t : Nat) (p : RsPc), s.progs[t]? = some p → holds p = true → s.owner = some t
  owner : ∀ (t : Nat), s.owner = some t → ∃ p, s.progs[t]? = some p ∧ holds p = true
  run : Stream.run cfg.stream (lockedOps tr) (Stream.new cfg.stream) = some (s.stream, handed tr)
  valid : ∀ op ∈ lockedOps tr, op.Valid
  locks : ∀ (t : Nat) (op : StreamOp), s.progs[t]? = some (.lock op) → op.Valid
  free : s.owner = none → FlowOk cfg tr s.stream [] []
  held : ∀ (t : Nat) (p : RsPc) (pc : RPc Entry), s.owner = some t → s.progs[t]? = some p → s.ring.threads[t]? = some pc → FlowOk cfg tr s.stream (restOf p) (curOf p pc)
  fin : ∀ (t : Nat) (p : RsPc), s.progs[t]? = some p → finOf p = true → s.stream.stopped = true
  closing : stopCalled tr = true → isClosed (ringEvs tr) = true ∨ ∃ t : Nat, s.progs[t]? = some .stopRing ∧ s.ring.threads[t]? = some (.stopTail false)
  stopping : stopCalled tr = true → s.stream.stopped = true ∨ ∃ t : Nat, s.progs[t]? = some .stopRing ∨ s.progs[t]? = some (.lock .stop)
  user : ∀ t : Nat, s.progs[t]? = some .stopRing → stopCalled tr = true
  cons : ∀ (t : Nat) (pc : RPc Entry), s.ring.threads[t]? = some pc → takenBy t tr = (fatesOf t tr).map Fate.entry ++ inFlight pc
  hist : RsHist [] tr
  calls : ∀ (t : Nat) (p : RsPc), s.progs[t]? = some p → streamCallsOf t tr = lockedBy t tr ++ pendingOp p
  ended : s.stream.stopped = true → isClosed (ringEvs tr) = true ∨ ∃ (t : Nat) (p : RsPc) (pc : RPc Entry), s.progs[t]? = some p ∧ s.ring.threads[t]? = some pc ∧ Ending p pc

theorem run_removals : ∀ {ops : List (RingOp Entry)} {r r' : RState Entry} {ev : List (REv Entry)}, RState.run ops r = some (r', ev) →
    (∀ i, RingOp.call i .removeProducer ∉ ops) → removals ev = 0
  | [], r, r', ev, h, _ => by cases h; rfl
  | op :: ops, r, r', ev, h, hn => by
    simp only [RState.run] at h
    cases hs : r.step op with
    | none => rw [hs] at h; cases h
    | some q =>
      obtain ⟨r1, e1⟩ := q
      rw [hs] at h
      simp only at h
      cases hr : RState.run ops r1 with
      | none => rw [hr] at h; cases h
      | some q =>
        obtain ⟨r2, e2⟩ := q
        rw [hr] at h
        cases h
        rw [removals_append, ring_step_removals hs (fun i e => hn i (by rw [e]; exact List.mem_cons_self)),
          run_removals hr (fun i hm => hn i (List.mem_cons_of_mem _ hm))]

/-- A stopped stream stays so and hands over nothing. -/
theorem stopped_step {cfg : StreamConfig} (hm : 0 < cfg.maxHeaps) (hsub : 0 < cfg.substreams) {ops : List StreamOp} (hv : ∀ op ∈ ops, op.Valid) {st st' : Stream} {out out' : List Entry}
    (h : Stream.run cfg ops (Stream.new cfg) = some (st, out)) (hs : st.stopped = true) {op : StreamOp} (hop : op.Valid) (hst : st.step cfg op = some (st', out')) :
    st'.stopped = true ∧ out' = [] := by
  obtain ⟨-, s', h1, h2, -⟩ := C24_stop_is_final cfg hm hsub hv h hs [op] (fun o ho => by rw [List.mem_singleton.mp ho]; exact hop)
  simp only [Stream.run, hst, Option.bind_eq_bind, Option.bind_some, List.append_nil, Option.some.injEq, Prod.mk.injEq] at h1
  exact ⟨by rw [h1.1]; exact h2, h1.2⟩

theorem step_total {cfg : StreamConfig} (hm : 0 < cfg.maxHeaps) (hsub : 0 < cfg.substreams) {ops : List StreamOp} (hv : ∀ op ∈ ops, op.Valid) {st : Stream} {out : List Entry}
    (h : Stream.run cfg ops (Stream.new cfg) = some (st, out)) {op : StreamOp} (hop : op.Valid) : st.step cfg op ≠ none := by
  intro hn
  obtain ⟨s2, a, x, h2, _⟩ := stream_refines cfg hm hsub (ops ++ [op]) (by
    intro o ho
    rcases List.mem_append.mp ho with ho | ho
    · exact hv o ho
    · rw [List.mem_singleton.mp ho]; exact hop)
  rw [run_none cfg ops [op] _ _ _ h (by simp only [Stream.run, hn, Option.bind_eq_bind, Option.bind_none])] at h2
  cases h2

theorem stop_stops {cfg : StreamConfig} {st st' : Stream} {out : List Entry} (h : st.step cfg .stop = some (st', out)) : st'.stopped = true := by
  simp only [Stream.step, Stream.stop] at h
  split at h
  · rename_i hs; cases h; exact hs
  · exact stopReceived_stopped h

theorem RsInv.ring (inv : RsInv cfg cap s tr) (eff : RsEff s s' t p' pc' ev) :
    (∃ q e e', RSys cap s'.ring (ringEvs (tr ++ ev)) q e e') ∧ removals (ringEvs (tr ++ ev)) = 0 := by
  obtain ⟨q, e, e', sys⟩ := inv.sys
  obtain ⟨rops, h1, h2⟩ := eff.ring
  obtain ⟨q', f, f', sys'⟩ := ring_run_some sys h1
  rw [ringEvs_append, removals_append, inv.bal, run_removals h1 h2]
  exact ⟨⟨q', f, f', sys'⟩, rfl⟩

/-- The facts about events. -/
theorem RsRule.hist {st st' : Stream} (r : RsRule cfg t st st' k p pc p' pc' ev) (inv : RsInv cfg cap s tr) (hpc : s.ring.threads[t]? = some pc)
    (h : HistOk [] (ringEvs tr ++ ringEvs ev)) : RsHist tr ev := by
  have popEnd : ∀ b q, Phase.after (eventsOf t (ringEvs tr)) .idle = some q → q = .called (.pop b) → ringEvs ev = [.ret t .stopped] → RsEvOk (tr ++ [.ring (.ret t .stopped)]) (.ret t .stopped) := by
    intro b q h1 h2 h3
    rw [h3] at h
    obtain ⟨q', h4, h5⟩ := hist_last h
    rw [show (REv.ret t Res.stopped : REv Entry).thread = t from rfl, h1] at h4
    cases h4
    have h6 := h5.2 b h2
    have e1 : ringEvs (tr ++ [.ring (.ret t .stopped)]) = ringEvs tr ++ [.ret t .stopped] := by rw [ringEvs_append]; rfl
    show isClosed _ = true ∧ isSealed _ = true ∧ popped _ = pushed _
    rw [e1, isClosed_append, isSealed_append, popped_append, pushed_append, h5.1, h6.1, h6.2]
    exact ⟨rfl, rfl, rfl⟩
  obtain ⟨q, e, e', sys⟩ := inv.sys
  obtain ⟨ph, hph1, hph2⟩ := sys.phase t pc hpc
  cases r
  case popHeap hct _ => exact .one trivial (.one hct .nil)
  case popSkip hct _ => exact .one trivial (.one hct (.one trivial .nil))
  case popBack _ _ =>
    obtain ⟨b', hb'⟩ := hph2
    exact .one trivial (.one (popEnd b' ph hph1 hb' rfl) .nil)
  case popEnd _ _ => exact .one trivial (.one (popEnd false ph hph1 hph2 rfl) .nil)
  case popNone _ _ =>
    refine .one trivial (.one ?_ .nil)
    obtain ⟨q', h4, h5⟩ := hist_last (show HistOk [] (ringEvs tr ++ REv.ret t Res.empty :: []) from h)
    have h6 : isSealed (ringEvs tr) = true → popped (ringEvs tr) ≠ pushed (ringEvs tr) := h5
    have e1 : ringEvs (tr ++ [.ring (.ret t .empty)]) = ringEvs tr ++ [.ret t .empty] := by rw [ringEvs_append]; rfl
    show isSealed _ = true → popped _ ≠ pushed _
    rw [e1, isSealed_append, popped_append, pushed_append]
    intro h7 h8
    exact h6 (by simpa [isSealed] using h7) (by simpa [popped, pushed] using h8)
  all_goals first | exact .nil | exact .one trivial .nil | exact .one trivial (.one trivial .nil)

theorem RsInv.move (hm : 0 < cfg.stream.maxHeaps) (hsub : 0 < cfg.stream.substreams) (inv : RsInv cfg cap s tr) (hp : s.progs[t]? = some p) (hpc : s.ring.threads[t]? = some pc)
    (r : RsRule cfg t s.stream s'.stream k p pc p' pc' ev) (ho : OwnerOk k t s.owner s'.owner) (eff : RsEff s s' t p' pc' ev) : RsInv cfg cap s' (tr ++ ev) := by
  have hlt := (List.getElem?_eq_some_iff.mp hp).1
  have hlt2 := (List.getElem?_eq_some_iff.mp hpc).1
  have hp' : s'.progs[t]? = some p' := by rw [eff.progs]; exact rs_set_get hp _
  have hpc' : s'.ring.threads[t]? = some pc' := by rw [eff.threads]; exact rs_set_get hpc _
  have other : ∀ i, i ≠ t → s'.progs[i]? = s.progs[i]? := fun i hi => by rw [eff.progs, List.getElem?_set_ne (Ne.symm hi)]
  have other2 : ∀ i, i ≠ t → s'.ring.threads[i]? = s.ring.threads[i]? := fun i hi => by rw [eff.threads, List.getElem?_set_ne (Ne.symm hi)]
  obtain ⟨sys', bal'⟩ := inv.ring eff
  have hist' : HistOk [] (ringEvs tr ++ ringEvs ev) := by obtain ⟨q, e, e', h⟩ := sys'; rw [← ringEvs_append]; exact h.hist
  -- the stream stays stopped
  have mono : s.stream.stopped = true → s'.stream.stopped = true := by
    intro h
    rcases r.stream with ⟨h1, -⟩ | ⟨op, out, -, rfl, h2, -⟩
    · rw [h1]; exact h
    · exact (stopped_step hm hsub inv.valid inv.run h (inv.locks t op hp) h2).1
  -- holding the mutex
  have hold := r.holds
  -- the flow of the others
  have flowFree : k ≠ .acquire → holds p = false → ∀ rest cur, FlowOk cfg tr s.stream rest cur → FlowOk cfg (tr ++ ev) s'.stream rest cur := by
    intro hk hh rest cur f
    rcases r.stream with ⟨h1, h2, h3, -⟩ | ⟨_, _, h, -⟩
    · have hkp : k = .plain := by
        cases k with
        | plain => rfl
        | acquire => exact absurd rfl hk
        | release => have := hold.1; rw [hh] at this; cases this
      obtain ⟨a, b, d⟩ := r.free hkp hh
      rw [h1]
      exact f.mono h3 b a (fun h => by rw [stopCalled_append, inv.user t (by rw [hp, d h])]; rfl)
    · exact absurd h hk
  refine { sys := sys', bal := bal', len := by rw [eff.progs, eff.threads, List.length_set, List.length_set]; exact inv.len, compat := ?_, mutex := ?_, owner := ?_, run := ?_, valid := ?_, locks := ?_, free := ?_, held := ?_, fin := ?_, closing := ?_, stopping := ?_, user := ?_, cons := ?_, hist := inv.hist.append (by simpa using r.hist inv hpc hist'), calls := ?_, ended := ?_ }
  · intro i q qc h1 h2
    by_cases hi : i = t
    · subst hi; rw [hp'] at h1; rw [hpc'] at h2; cases h1; cases h2; exact r.compat (inv.compat _ _ _ hp hpc)
    · rw [other i hi] at h1; rw [other2 i hi] at h2; exact inv.compat i q qc h1 h2
  · intro i q h1 h2
    by_cases hi : i = t
    · subst hi
      rw [hp'] at h1; cases h1
      cases k with
      | plain => rw [show s'.owner = s.owner from ho]; exact inv.mutex i p hp (by rw [← hold]; exact h2)
      | acquire => exact ho.2
      | release => rw [hold.2] at h2; cases h2
    · rw [other i hi] at h1
      have h3 := inv.mutex i q h1 h2
      cases k with
      | plain => rw [show s'.owner = s.owner from ho]; exact h3
      | acquire => rw [ho.1] at h3; cases h3
      | release => have h4 := inv.mutex t p hp hold.1; rw [h4] at h3; cases h3; exact absurd rfl hi
  · intro i h1
    cases k with
    | plain =>
      rw [show s'.owner = s.owner from ho] at h1
      obtain ⟨q, h2, h3⟩ := inv.owner i h1
      by_cases hi : i = t
      · subst hi; rw [hp] at h2; cases h2; exact ⟨p', hp', by rw [hold]; exact h3⟩
      · exact ⟨q, by rw [other i hi]; exact h2, h3⟩
    | acquire => rw [ho.2] at h1; cases h1; exact ⟨p', hp', hold.2⟩
    | release => rw [show s'.owner = none from ho] at h1; cases h1
  · rcases r.stream with ⟨h1, h2, h3, -⟩ | ⟨op, out, -, -, h2, h3, h4, -⟩
    · rw [lockedOps_append, handed_append, h1, h2, h3, List.append_nil, List.append_nil]; exact inv.run
    · rw [lockedOps_append, handed_append, h3, h4]
      exact run_append _ _ _ _ _ _ _ _ inv.run (by simp only [Stream.run, h2, Option.bind_eq_bind, Option.bind_some, List.append_nil])
  · intro o hO
    rw [lockedOps_append, List.mem_append] at hO
    rcases hO with hO | hO
    · exact inv.valid o hO
    · rcases r.stream with ⟨-, h2, -⟩ | ⟨op, out, -, rfl, -, h3, -⟩
      · rw [h2] at hO; cases hO
      · rw [h3] at hO; rw [List.mem_singleton.mp hO]; exact inv.locks t op hp
  · intro i op h1
    by_cases hi : i = t
    · subst hi; rw [hp'] at h1; cases h1; rw [(r.lock rfl).1]; trivial
    · rw [other i hi] at h1; exact inv.locks i op h1
  · intro hn
    cases k with
    | plain =>
      rw [show s'.owner = s.owner from ho] at hn
      have hh : holds p = false := by
        cases h : holds p with
        | false => rfl
        | true => rw [inv.mutex t p hp h] at hn; cases hn
      exact flowFree (by simp) hh _ _ (inv.free hn)
    | acquire => rw [ho.2] at hn; cases hn
    | release =>
      have h0 := inv.held t p pc (inv.mutex t p hp hold.1) hp hpc
      cases r with
      | stopNet e => rw [e]; exact h0.mono rfl rfl rfl (fun h => nomatch h)
      | leave e => rw [e]; exact h0.mono rfl rfl rfl (fun h => nomatch h)
  · intro i q qc h1 h2 h3
    cases k with
    | plain =>
      rw [show s'.owner = s.owner from ho] at h1
      by_cases hi : i = t
      · subst hi
        rw [hp'] at h2; rw [hpc'] at h3; cases h2; cases h3
        obtain ⟨w, hw1, hw2⟩ := inv.owner i h1
        rw [hp] at hw1; cases hw1
        exact r.flow rfl hw2 (inv.fin i p hp) hist' (inv.held i p pc h1 hp hpc)
      · rw [other i hi] at h2; rw [other2 i hi] at h3
        have hh : holds p = false := by
          cases h : holds p with
          | false => rfl
          | true => rw [inv.mutex t p hp h] at h1; cases h1; exact absurd rfl hi
        exact flowFree (by simp) hh _ _ (inv.held i q qc h1 h2 h3)
    | acquire =>
      rw [ho.2] at h1; cases h1
      rw [hp'] at h2; rw [hpc'] at h3; cases h2; cases h3
      have f := inv.free ho.1
      cases r with
      | take hst =>
        rename_i op out
        have hov := inv.locks t op hp
        refine ⟨?_, ?_, ?_, ?_⟩
        · have := f.hand
          rw [heapsReadied_append, handed_append]
          simp only [List.append_nil] at this
          rw [this]
          simp [heapsReadied, handed, restOf]
        · rw [ringEvs_append, heapsReadied_append]
          have := f.opened
          simpa [ringEvs, heapsReadied, curOf] using this
        · rw [ringEvs_append, heapsReadied_append]
          have := f.pre
          simpa [ringEvs, heapsReadied] using this
        · intro hsc
          rw [stopCalled_append] at hsc
          obtain ⟨g1, g2⟩ := f.net (by cases h : stopCalled tr <;> simp_all)
          rw [ringEvs_append, heapsReadied_append]
          refine ⟨by simpa [ringEvs, heapsReadied, curOf] using g1, fun h => ?_⟩
          have g3 := (g2 (by simpa [ringEvs] using h)).1
          obtain ⟨g4, g5⟩ := stopped_step hm hsub inv.valid inv.run g3 hov hst
          exact ⟨g4, g5, rfl⟩
    | release => rw [show s'.owner = none from ho] at h1; cases h1
  · intro i q h1 h2
    by_cases hi : i = t
    · subst hi
      rw [hp'] at h1; cases h1
      rcases r.fin h2 with h3 | h3
      · exact mono (inv.fin i p hp h3)
      · exact h3
    · rw [other i hi] at h1; exact mono (inv.fin i q h1 h2)
  · intro h
    rw [stopCalled_append, r.notCall, Bool.or_false] at h
    rcases inv.closing h with h1 | ⟨i, h1, h2⟩
    · left; rw [ringEvs_append, isClosed_append, h1]; rfl
    · by_cases hi : i = t
      · subst hi
        rw [hp] at h1; rw [hpc] at h2; cases h1; cases h2
        left; rw [ringEvs_append, isClosed_append, r.closes rfl rfl, Bool.or_true]
      · right; exact ⟨i, by rw [other i hi]; exact h1, by rw [other2 i hi]; exact h2⟩
  · intro h
    rw [stopCalled_append, r.notCall, Bool.or_false] at h
    rcases inv.stopping h with h1 | ⟨i, h1⟩
    · exact Or.inl (mono h1)
    · by_cases hi : i = t
      · subst hi
        rw [hp] at h1
        rcases h1 with h1 | h1
        · have h1 : p = .stopRing := by cases h1; rfl
          right
          rcases r.userStop h1 with h2 | h2
          · exact ⟨i, Or.inl (by rw [hp', h2])⟩
          · exact ⟨i, Or.inr (by rw [hp', h2])⟩
        · cases h1
          cases r with
          | take hst => exact Or.inl (stop_stops hst)
          | pushGet h _ => rcases h with ⟨_, h⟩ | ⟨_, h⟩ <;> cases h
          | pushRefused h _ => rcases h with ⟨_, h⟩ | ⟨_, h⟩ <;> cases h
          | pushIn h _ => rcases h with ⟨_, h⟩ | ⟨_, h⟩ <;> cases h
          | pushOk h _ => rcases h with ⟨_, h⟩ | ⟨_, h⟩ <;> cases h
          | pushBack h _ => rcases h with ⟨_, h⟩ | ⟨_, h⟩ <;> cases h
          | stopClose h _ => rcases h with h | h <;> cases h
          | stopSeal h _ => rcases h with h | h <;> cases h
          | stopSpace h _ => rcases h with h | h <;> cases h
          | popGet h _ => rcases h with h | h <;> cases h
          | popEmpty h _ => rcases h with h | h <;> cases h
          | popOut h _ => rcases h with h | h <;> cases h
          | popRefused h _ => rcases h with h | h <;> cases h
          | popBack h _ => rcases h with h | h <;> cases h
          | popEnd h _ => rcases h with h | h <;> cases h
          | popNone h _ => rcases h with h | h <;> cases h
      · right; exact ⟨i, by rw [other i hi]; exact h1⟩
  · intro i h1
    rw [stopCalled_append]
    by_cases hi : i = t
    · subst hi; rw [hp'] at h1
      rw [inv.user i (by rw [hp, r.stopRing (by cases h1; rfl)])]; rfl
    · rw [other i hi] at h1; rw [inv.user i h1]; rfl
  · intro i qc h1
    rw [takenBy_append, fatesOf_append, List.map_append]
    by_cases hi : i = t
    · subst hi
      rw [hpc'] at h1; cases h1
      rw [inv.cons i pc hpc, List.append_assoc, r.consumes, List.append_assoc]
    · rw [other2 i hi] at h1
      obtain ⟨h2, h3⟩ := r.others hi
      rw [h2, h3, inv.cons i qc h1]
      simp
  · intro i q h1
    obtain ⟨c1, c2, c3⟩ := r.calls i
    rw [streamCallsOf_append, lockedBy_append, c1, List.append_nil]
    by_cases hi : i = t
    · subst hi
      rw [hp'] at h1; cases h1
      rw [inv.calls i p hp, c3, List.append_assoc]
    · rw [other i hi] at h1
      rw [c2 hi, List.append_nil]; exact inv.calls i q h1
  · intro h1
    cases h0 : s.stream.stopped with
    | false => exact Or.inr ⟨t, p', pc', hp', hpc', r.ends h0 h1⟩
    | true =>
      rcases inv.ended h0 with h2 | ⟨i, q, qc, h2, h3, h4⟩
      · left; rw [ringEvs_append, isClosed_append, h2]; rfl
      · by_cases hi : i = t
        · subst hi
          rw [hp] at h2; rw [hpc] at h3; cases h2; cases h3
          rcases r.ending h4 with h5 | h5
          · left; rw [ringEvs_append, isClosed_append, h5, Bool.or_true]
          · exact Or.inr ⟨i, p', pc', hp', hpc', h5⟩
        · exact Or.inr ⟨i, q, qc, by rw [other i hi]; exact h2, by rw [other2 i hi]; exact h3, h4⟩

theorem RsInv.start (inv : RsInv cfg cap s tr) (hp : s.progs[t]? = some .idle) (hpc : s.ring.threads[t]? = some .idle) (hv : c.Valid)
    (r : RsStart t c p' pc' ev) (eff : RsEff s s' t p' pc' ev) (ho : s'.owner = s.owner) (hst : s'.stream = s.stream) : RsInv cfg cap s' (tr ++ ev) := by
  have hp' : s'.progs[t]? = some p' := by rw [eff.progs]; exact rs_set_get hp _
  have hpc' : s'.ring.threads[t]? = some pc' := by rw [eff.threads]; exact rs_set_get hpc _
  have other : ∀ i, i ≠ t → s'.progs[i]? = s.progs[i]? := fun i hi => by rw [eff.progs, List.getElem?_set_ne (Ne.symm hi)]
  have other2 : ∀ i, i ≠ t → s'.ring.threads[i]? = s.ring.threads[i]? := fun i hi => by rw [eff.threads, List.getElem?_set_ne (Ne.symm hi)]
  obtain ⟨sys', bal'⟩ := inv.ring eff
  obtain ⟨h1, h2, h3, h4, h5⟩ := r.stream
  have flow : ∀ rest cur, FlowOk cfg tr s.stream rest cur → FlowOk cfg (tr ++ ev) s'.stream rest cur := by
    intro rest cur f; rw [hst]; exact f.mono h2 h3 h4 (fun h => by rw [h5] at h; cases h)
  refine { sys := sys', bal := bal', len := by rw [eff.progs, eff.threads, List.length_set, List.length_set]; exact inv.len, compat := ?_, mutex := ?_, owner := ?_, run := ?_, valid := ?_, locks := ?_, free := ?_, held := ?_, fin := ?_, closing := ?_, stopping := ?_, user := ?_, cons := ?_, hist := inv.hist.append ?_, calls := ?_, ended := ?_ }
  · intro i q qc h1 h2
    by_cases hi : i = t
    · subst hi; rw [hp'] at h1; rw [hpc'] at h2; cases h1; cases h2; exact r.compat
    · rw [other i hi] at h1; rw [other2 i hi] at h2; exact inv.compat i q qc h1 h2
  · intro i q h1 h2
    rw [ho]
    by_cases hi : i = t
    · subst hi; rw [hp'] at h1; cases h1; rw [r.holds] at h2; cases h2
    · rw [other i hi] at h1; exact inv.mutex i q h1 h2
  · intro i h1
    rw [ho] at h1
    obtain ⟨q, h6, h7⟩ := inv.owner i h1
    by_cases hi : i = t
    · subst hi; rw [hp] at h6; cases h6; cases h7
    · exact ⟨q, by rw [other i hi]; exact h6, h7⟩
  · rw [lockedOps_append, handed_append, hst, h1, h2, List.append_nil, List.append_nil]; exact inv.run
  · rw [lockedOps_append, h1, List.append_nil]; exact inv.valid
  · intro i op h6
    by_cases hi : i = t
    · subst hi; rw [hp'] at h6; exact r.lock hv (by cases h6; rfl)
    · rw [other i hi] at h6; exact inv.locks i op h6
  · intro hn; rw [ho] at hn; exact flow _ _ (inv.free hn)
  · intro i q qc h6 h7 h8
    rw [ho] at h6
    by_cases hi : i = t
    · subst hi
      obtain ⟨q', h9, h10⟩ := inv.owner i h6
      rw [hp] at h9; cases h9; cases h10
    · rw [other i hi] at h7; rw [other2 i hi] at h8; exact flow _ _ (inv.held i q qc h6 h7 h8)
  · intro i q h6 h7
    rw [hst]
    by_cases hi : i = t
    · subst hi; rw [hp'] at h6; cases h6; rw [r.fin] at h7; cases h7
    · rw [other i hi] at h6; exact inv.fin i q h6 h7
  · intro h
    by_cases hs : stopCalled ev = true
    · obtain ⟨a, b⟩ := r.isStop.mp hs
      exact Or.inr ⟨t, by rw [hp', a], by rw [hpc', b]⟩
    · rw [stopCalled_append] at h
      rcases inv.closing (by cases h9 : stopCalled tr <;> simp_all) with h6 | ⟨i, h6, h7⟩
      · left; rw [ringEvs_append, isClosed_append, h6]; rfl
      · have hi : i ≠ t := by rintro rfl; rw [hp] at h6; cases h6
        exact Or.inr ⟨i, by rw [other i hi]; exact h6, by rw [other2 i hi]; exact h7⟩
  · intro h
    by_cases hs : stopCalled ev = true
    · obtain ⟨a, b⟩ := r.isStop.mp hs
      exact Or.inr ⟨t, Or.inl (by rw [hp', a])⟩
    · rw [stopCalled_append] at h
      rcases inv.stopping (by cases h9 : stopCalled tr <;> simp_all) with h6 | ⟨i, h6⟩
      · left; rw [hst]; exact h6
      · have hi : i ≠ t := by rintro rfl; rw [hp] at h6; rcases h6 with h6 | h6 <;> cases h6
        exact Or.inr ⟨i, by rw [other i hi]; exact h6⟩
  · intro i h6
    rw [stopCalled_append]
    by_cases hi : i = t
    · subst hi; rw [hp'] at h6; rw [r.stopRing (by cases h6; rfl), Bool.or_true]
    · rw [other i hi] at h6; rw [inv.user i h6]; rfl
  · intro i qc h6
    obtain ⟨a, b, d⟩ := r.consumes i
    rw [takenBy_append, fatesOf_append, a, b, List.append_nil, List.append_nil]
    by_cases hi : i = t
    · subst hi; rw [hpc'] at h6; cases h6; rw [d]
      exact inv.cons i .idle hpc
    · rw [other2 i hi] at h6; exact inv.cons i qc h6
  · cases r <;> first | exact .one trivial .nil | exact .one trivial (.one trivial .nil)
  · intro i q h6
    obtain ⟨c1, c2, c3⟩ := r.calls i
    rw [streamCallsOf_append, lockedBy_append, c1, List.append_nil]
    by_cases hi : i = t
    · subst hi
      rw [hp'] at h6; cases h6
      rw [inv.calls i .idle hp, c3]; simp [pendingOp]
    · rw [other i hi] at h6
      rw [c2 hi, List.append_nil]; exact inv.calls i q h6
  · rw [hst]
    intro h1
    rcases inv.ended h1 with h2 | ⟨i, q, qc, h2, h3, h4⟩
    · left; rw [ringEvs_append, isClosed_append, h2]; rfl
    · have hi : i ≠ t := by rintro rfl; rw [hp] at h2; cases h2; cases h4.1
      exact Or.inr ⟨i, q, qc, by rw [other i hi]; exact h2, by rw [other2 i hi]; exact h3, h4⟩

theorem rs_new_inv (hc : 0 < cap) (n : Nat) : RsInv cfg cap (RsState.new cfg cap n) [] := by
  have hprog : ∀ (t : Nat) (p : RsPc), (RsState.new cfg cap n).progs[t]? = some p → p = .idle := by
    intro t p h
    simp only [RsState.new, List.getElem?_replicate] at h
    split at h <;> cases h; rfl
  have hth : ∀ (t : Nat) (pc : RPc Entry), (RsState.new cfg cap n).ring.threads[t]? = some pc → pc = .idle := by
    intro t p h
    simp only [RsState.new, RState.new, List.getElem?_replicate] at h
    split at h <;> cases h; rfl
  refine { sys := ⟨_, _, _, ring_new_spec hc n⟩, bal := rfl, len := by simp [RsState.new, RState.new], compat := ?_, mutex := ?_, owner := (fun t h => nomatch h), run := rfl, valid := by simp [lockedOps], locks := ?_, free := (fun _ => ⟨rfl, fun _ => rfl, List.prefix_refl _, fun _ => ⟨rfl, fun h => nomatch h⟩⟩), held := (fun t _ _ h => nomatch h), fin := ?_, closing := (fun h => nomatch h), stopping := (fun h => nomatch h), user := ?_, cons := ?_, hist := .nil, calls := ?_, ended := (fun h => nomatch h) }
  · intro t p pc h1 h2; rw [hprog t p h1, hth t pc h2]; rfl
  · intro t p h1 h2; rw [hprog t p h1] at h2; cases h2
  · intro t op h; cases hprog t _ h
  · intro t p h1 h2; rw [hprog t p h1] at h2; cases h2
  · intro t h; cases hprog t _ h
  · intro t pc h; rw [hth t pc h]; rfl
  · intro t p h; rw [hprog t p h]; rfl

theorem RsInv.thread (inv : RsInv cfg cap s tr) {p : RsPc} (hp : s.progs[t]? = some p) : ∃ pc, s.ring.threads[t]? = some pc ∧ Compat p pc := by
  have hlt := (List.getElem?_eq_some_iff.mp hp).1
  rw [inv.len] at hlt
  exact ⟨_, List.getElem?_eq_getElem hlt, inv.compat t p _ hp (List.getElem?_eq_getElem hlt)⟩

/-- One transition. -/
theorem rs_step_inv (hm : 0 < cfg.stream.maxHeaps) (hsub : 0 < cfg.stream.substreams) (inv : RsInv cfg cap s tr) {op : RsOp} (hv : ∀ t c, op = .call t c → c.Valid)
    (h : s.step cfg op = some (s', ev)) : RsInv cfg cap s' (tr ++ ev) := by
  have same : s' = s → ev = [] → RsInv cfg cap s' (tr ++ ev) := by rintro rfl rfl; simpa using inv
  cases op with
  | call t c =>
    simp only [RsState.step] at h
    split at h
    · rename_i hp
      obtain ⟨pc, hpc, hcm⟩ := inv.thread hp
      have hpi : pc = .idle := hcm
      subst hpi
      cases hs : s.start t c with
      | none => rw [hs] at h; cases h
      | some q =>
        obtain ⟨s1, e1⟩ := q
        rw [hs] at h
        cases h
        obtain ⟨p', pc', r, eff, ho, hst⟩ := start_rule hpc hs
        exact inv.start hp hpc (hv t c rfl) r eff ho hst
    · cases h; exact same rfl rfl
  | act t =>
    simp only [RsState.step] at h
    split at h
    · cases h; exact same rfl rfl
    · rename_i p hp
      obtain ⟨pc, hpc, hcm⟩ := inv.thread hp
      rcases act_rule hp hpc hcm h with ⟨h1, h2, -⟩ | ⟨⟨k, p', pc', r, ho, eff⟩, -⟩
      · exact same h1 h2
      · exact inv.move hm hsub hp hpc r ho eff
  | fail t =>
    simp only [RsState.step] at h
    split at h
    · cases h; exact same rfl rfl
    · rename_i p hp
      obtain ⟨pc, hpc, hcm⟩ := inv.thread hp
      rcases fail_rule (cfg := cfg) hp hpc hcm h with ⟨h1, h2⟩ | ⟨k, p', pc', r, ho, eff⟩
      · exact same h1 h2
      · exact inv.move hm hsub hp hpc r ho eff

theorem rs_step_length (inv : RsInv cfg cap s tr) {op : RsOp} (h : s.step cfg op = some (s', ev)) : s'.progs.length = s.progs.length := by
  cases op with
  | call t c =>
    simp only [RsState.step] at h
    split at h
    · rename_i hp
      obtain ⟨pc, hpc, hcm⟩ := inv.thread hp
      have hpi : pc = .idle := hcm
      subst hpi
      cases hs : s.start t c with
      | none => rw [hs] at h; cases h
      | some q =>
        obtain ⟨s1, e1⟩ := q
        rw [hs] at h
        cases h
        obtain ⟨p', pc', r, eff, ho, hst⟩ := start_rule hpc hs
        rw [eff.progs, List.length_set]
    · cases h; rfl
  | act t =>
    simp only [RsState.step] at h
    split at h
    · cases h; rfl
    · rename_i p hp
      obtain ⟨pc, hpc, hcm⟩ := inv.thread hp
      rcases act_rule hp hpc hcm h with ⟨rfl, h2, -⟩ | ⟨⟨k, p', pc', r, ho, eff⟩, -⟩
      · rfl
      · rw [eff.progs, List.length_set]
  | fail t =>
    simp only [RsState.step] at h
    split at h
    · cases h; rfl
    · rename_i p hp
      obtain ⟨pc, hpc, hcm⟩ := inv.thread hp
      rcases fail_rule (cfg := cfg) hp hpc hcm h with ⟨rfl, h2⟩ | ⟨k, p', pc', r, ho, eff⟩
      · rfl
      · rw [eff.progs, List.length_set]

theorem RsInv.ring_total (inv : RsInv cfg cap s tr) (op : RingOp Entry) : ∃ r ev, s.ring.step op = some (r, ev) := by
  obtain ⟨q, e, e', sys⟩ := inv.sys
  have h := ring_step_balanced sys (by rw [inv.bal]; exact Nat.zero_le _) op
  cases hs : s.ring.step op with
  | none => exact absurd hs h
  | some x => exact ⟨x.1, x.2, rfl⟩

/-- No undefined behaviour. -/
theorem rs_step_total (hm : 0 < cfg.stream.maxHeaps) (hsub : 0 < cfg.stream.substreams) (inv : RsInv cfg cap s tr) (op : RsOp) : s.step cfg op ≠ none := by
  have callTotal : ∀ (s : RsState) t c p, s.ringCall t c p ≠ none := by
    intro s t c p h
    unfold RsState.ringCall at h
    split at h
    · rename_i h2
      simp only [RState.step] at h2
      split at h2 <;> cases h2
    · cases h
  have actTotal : ∀ t o p, s.ringAct t o p ≠ none := by
    intro t o p h
    obtain ⟨r, ev, hr⟩ := inv.ring_total o
    unfold RsState.ringAct at h
    rw [hr] at h
    dsimp only at h
    split at h
    · cases h
    · rename_i res hres
      split at h
      · rename_i hn
        cases p <;> simp only [RsState.resume] at hn <;> (try (cases hn; done))
        · split at hn <;> cases hn
        · split at hn
          · split at hn
            · cases hn
            · split at hn
              · rename_i h5; exact callTotal _ _ _ _ h5
              · cases hn
          · cases hn
          · cases hn
        · split at hn <;> cases hn
      · cases h
  intro h
  cases op with
  | call t c =>
    simp only [RsState.step] at h
    split at h
    · split at h
      · rename_i hn
        cases c <;> simp only [RsState.start] at hn <;> (try (cases hn; done)) <;> exact callTotal _ _ _ _ hn
      · cases h
    · cases h
  | fail t =>
    simp only [RsState.step] at h
    split at h
    · cases h
    · exact actTotal _ _ _ h
  | act t =>
    simp only [RsState.step] at h
    split at h
    · cases h
    · rename_i p hp
      cases p with
      | idle => cases h
      | lock op =>
        simp only [RsState.actProg] at h
        split at h
        · cases h
        · split at h
          · rename_i hn; exact step_total hm hsub inv.valid inv.run (inv.locks t op hp) hn
          · cases h
      | deliver hs fin =>
        cases hs with
        | nil =>
          cases fin
          · cases h
          · exact callTotal _ _ _ _ h
        | cons hd hs =>
          simp only [RsState.actProg] at h
          split at h
          · split at h
            · rename_i hn; exact callTotal _ _ _ _ hn
            · cases h
          · cases h
      | tryPush _ _ _ => simp only [RsState.actProg] at h; exact actTotal _ _ _ h
      | retry _ _ _ => exact callTotal _ _ _ _ h
      | push _ _ _ => simp only [RsState.actProg] at h; exact actTotal _ _ _ h
      | sealing => simp only [RsState.actProg] at h; exact actTotal _ _ _ h
      | stopRing => simp only [RsState.actProg] at h; exact actTotal _ _ _ h
      | pop _ => simp only [RsState.actProg] at h; exact actTotal _ _ _ h
      | popLive _ => simp only [RsState.actProg] at h; exact actTotal _ _ _ h

theorem rs_run_inv (hm : 0 < cfg.stream.maxHeaps) (hsub : 0 < cfg.stream.substreams) : ∀ {ops : List RsOp} {s s' : RsState} {tr ev : List RsEv}, RsInv cfg cap s tr → RsValid ops →
    RsState.run cfg ops s = some (s', ev) → RsInv cfg cap s' (tr ++ ev)
  | [], s, s', tr, ev, inv, _, h => by cases h; simpa using inv
  | op :: ops, s, s', tr, ev, inv, hv, h => by
    simp only [RsState.run] at h
    cases hs : s.step cfg op with
    | none => rw [hs] at h; cases h
    | some q =>
      obtain ⟨s1, e1⟩ := q
      rw [hs] at h
      dsimp only at h
      cases hr : RsState.run cfg ops s1 with
      | none => rw [hr] at h; cases h
      | some q =>
        obtain ⟨s2, e2⟩ := q
        rw [hr] at h
        cases h
        have h1 := rs_step_inv hm hsub inv (fun t c e => hv t c (by rw [e]; exact List.mem_cons_self)) hs
        have h2 := rs_run_inv hm hsub h1 (fun t c hmem => hv t c (List.mem_cons_of_mem _ hmem)) hr
        rw [← List.append_assoc]; exact h2

theorem rs_run_total (hm : 0 < cfg.stream.maxHeaps) (hsub : 0 < cfg.stream.substreams) : ∀ {ops : List RsOp} {s : RsState} {tr : List RsEv}, RsInv cfg cap s tr → RsValid ops →
    ∃ s' ev, RsState.run cfg ops s = some (s', ev)
  | [], s, tr, inv, _ => ⟨s, [], rfl⟩
  | op :: ops, s, tr, inv, hv => by
    cases hs : s.step cfg op with
    | none => exact absurd hs (rs_step_total hm hsub inv op)
    | some q =>
      obtain ⟨s1, e1⟩ := q
      have h1 := rs_step_inv hm hsub inv (fun t c e => hv t c (by rw [e]; exact List.mem_cons_self)) hs
      obtain ⟨s2, e2, h2⟩ := rs_run_total hm hsub h1 (fun t c hmem => hv t c (List.mem_cons_of_mem _ hmem))
      exact ⟨s2, e1 ++ e2, by simp only [RsState.run, hs, h2]⟩

theorem rs_reach_inv (hm : 0 < cfg.stream.maxHeaps) (hsub : 0 < cfg.stream.substreams) (hc : 0 < cap) {n : Nat} {ops : List RsOp} (hv : RsValid ops) (h : RsReach cfg cap n ops s tr) :
    RsInv cfg cap s tr := by
  simpa using rs_run_inv hm hsub (rs_new_inv hc n) hv h

end Spead2
