import Verif.Spec.RingStream
import Verif.Lemmas.Ring
import Verif.Props.Stream
import Mathlib.Tactic.CasesM
import Verif.Props.GetDescriptors

/-!
# Lemmas about streams that put heaps in a ring buffer
-/

namespace Spead2
open Spec

theorem ringEvs_append (a b : List RsEv) : ringEvs (a ++ b) = ringEvs a ++ ringEvs b := List.filterMap_append
theorem lockedOps_append (a b : List RsEv) : lockedOps (a ++ b) = lockedOps a ++ lockedOps b := List.filterMap_append
theorem heapsReadied_append (a b : List RsEv) : heapsReadied (a ++ b) = heapsReadied a ++ heapsReadied b := List.filterMap_append
theorem takenBy_append (t : Nat) (a b : List RsEv) : takenBy t (a ++ b) = takenBy t a ++ takenBy t b := List.filterMap_append
theorem fatesOf_append (t : Nat) (a b : List RsEv) : fatesOf t (a ++ b) = fatesOf t a ++ fatesOf t b := List.filterMap_append
theorem streamCallsOf_append (t : Nat) (a b : List RsEv) : streamCallsOf t (a ++ b) = streamCallsOf t a ++ streamCallsOf t b := List.filterMap_append
theorem lockedBy_append (t : Nat) (a b : List RsEv) : lockedBy t (a ++ b) = lockedBy t a ++ lockedBy t b := List.filterMap_append
theorem stopCalled_append (a b : List RsEv) : stopCalled (a ++ b) = (stopCalled a || stopCalled b) := List.any_append
theorem handed_append (a b : List RsEv) : handed (a ++ b) = handed a ++ handed b := by
  unfold handed; rw [List.filterMap_append, List.flatten_append]

/-! ### The transitions, one by one -/

/-- In a call of `try_push` (`b` false) or `push` by `heap_ready`. -/
def Pushing (p : RsPc) (h : Entry) (b : Bool) (hs : List Entry) (fin : Bool) : Prop :=
  (b = false ∧ p = .tryPush h hs fin) ∨ (b = true ∧ p = .push h hs fin)

def Stopping (p : RsPc) : Prop := p = .sealing ∨ p = .stopRing

def Popping (p : RsPc) (b : Bool) : Prop := p = .pop b ∨ p = .popLive b

/-- How the place in the code and the place in the call on the ring buffer go together. -/
def Compat : RsPc → RPc Entry → Prop
  | .tryPush h _ _, pc => pc = .getSpace h false ∨ pc = .emplace h ∨ pc = .putData ∨ pc = .backSpace ∨ pc = .fullCheck
  | .push h _ _, pc => pc = .getSpace h true ∨ pc = .emplace h ∨ pc = .putData ∨ pc = .backSpace
  | .sealing, pc => pc = .stopTail false ∨ (∃ x, pc = .stopHead x) ∨ pc = .stopSpace ∨ pc = .stopData
  | .stopRing, pc => pc = .stopTail false ∨ (∃ x, pc = .stopHead x) ∨ pc = .stopSpace ∨ pc = .stopData
  | .pop b, pc => pc = .getData b ∨ pc = .popInternal ∨ (∃ v, pc = .putSpace v) ∨ pc = .backData ∨ (b = false ∧ pc = .emptyCheck)
  | .popLive b, pc => pc = .getData b ∨ pc = .popInternal ∨ (∃ v, pc = .putSpace v) ∨ pc = .backData ∨ (b = false ∧ pc = .emptyCheck)
  | _, pc => pc = .idle

/-- What a transition does to the mutex. -/
inductive RKind
  | plain | acquire | release

/-- The transitions of a thread in a call: where it was, where it goes, the events. -/
inductive RsRule (cfg : RsConfig) (t : Nat) (st st' : Stream) : RKind → RsPc → RPc Entry → RsPc → RPc Entry → List RsEv → Prop
  | pushGet {p h b hs fin} : Pushing p h b hs fin → st' = st → RsRule cfg t st st' .plain p (.getSpace h b) p (.emplace h) []
  | pushFull {h hs fin} : st' = st → RsRule cfg t st st' .plain (.tryPush h hs fin) (.getSpace h false) (.tryPush h hs fin) .fullCheck []
  | pushRefused {p h b hs fin} : Pushing p h b hs fin → st' = st → RsRule cfg t st st' .plain p (.emplace h) p .backSpace []
  | pushIn {p h b hs fin} : Pushing p h b hs fin → st' = st → RsRule cfg t st st' .plain p (.emplace h) p .putData [.ring (.push t h)]
  | pushOk {p h b hs fin} : Pushing p h b hs fin → st' = st → RsRule cfg t st st' .plain p .putData (.deliver hs fin) .idle [.ring (.ret t .ok)]
  | pushBack {p h b hs fin} : Pushing p h b hs fin → st' = st → RsRule cfg t st st' .plain p .backSpace (.deliver hs fin) .idle [.ring (.ret t .stopped)]
  | fullStopped {h hs fin} : st' = st → RsRule cfg t st st' .plain (.tryPush h hs fin) .fullCheck (.deliver hs fin) .idle [.ring (.ret t .stopped)]
  | fullRetry {h hs fin} : st' = st → RsRule cfg t st st' .plain (.tryPush h hs fin) .fullCheck (.retry h hs fin) .idle [.ring (.ret t .full)]
  | stopClose {p x} : Stopping p → st' = st → RsRule cfg t st st' .plain p (.stopTail false) p (.stopHead x) [.ring (.close t)]
  | stopSeal {p x} : Stopping p → st' = st → RsRule cfg t st st' .plain p (.stopHead x) p .stopSpace [.ring (.seal t)]
  | stopSpace {p} : Stopping p → st' = st → RsRule cfg t st st' .plain p .stopSpace p .stopData []
  | stopUser : st' = st → RsRule cfg t st st' .plain .stopRing .stopData (.lock .stop) .idle [.ring (.ret t (.flag true))]
  | stopNet : st' = st → RsRule cfg t st st' .release .sealing .stopData .idle .idle [.ring (.ret t (.flag true)), .ret t .done]
  | popGet {p b} : Popping p b → st' = st → RsRule cfg t st st' .plain p (.getData b) p .popInternal []
  | popEmpty {p} : Popping p false → st' = st → RsRule cfg t st st' .plain p (.getData false) p .emptyCheck []
  | popOut {p b v} : Popping p b → st' = st → RsRule cfg t st st' .plain p .popInternal p (.putSpace v) [.ring (.pop t v)]
  | popRefused {p b} : Popping p b → st' = st → RsRule cfg t st st' .plain p .popInternal p .backData []
  | popHeap {b v} : v.heap.isContiguous = true → st' = st → RsRule cfg t st st' .plain (.pop b) (.putSpace v) .idle .idle [.ring (.ret t (.value v)), .ret t (.heap v)]
  | popSkip {b v} : v.heap.isContiguous = false → st' = st →
      RsRule cfg t st st' .plain (.pop b) (.putSpace v) (.pop b) (.getData b) [.ring (.ret t (.value v)), .skipped t v, .ring (.call t (.pop b))]
  | popLive {b v} : st' = st → RsRule cfg t st st' .plain (.popLive b) (.putSpace v) .idle .idle [.ring (.ret t (.value v)), .ret t (.live v)]
  | popBack {p b} : Popping p b → st' = st → RsRule cfg t st st' .plain p .backData .idle .idle [.ring (.ret t .stopped), .ret t .stopped]
  | popEnd {p} : Popping p false → st' = st → RsRule cfg t st st' .plain p .emptyCheck .idle .idle [.ring (.ret t .stopped), .ret t .stopped]
  | popNone {p} : Popping p false → st' = st → RsRule cfg t st st' .plain p .emptyCheck .idle .idle [.ring (.ret t .empty), .ret t .empty]
  | take {op out} : st.step cfg.stream op = some (st', out) →
      RsRule cfg t st st' .acquire (.lock op) .idle (.deliver out (!st.stopped && st'.stopped)) .idle [.locked t op out]
  | leave : st' = st → RsRule cfg t st st' .release (.deliver [] false) .idle .idle .idle [.ret t .done]
  | finish : st' = st → RsRule cfg t st st' .plain (.deliver [] true) .idle .sealing (.stopTail false) [.ring (.call t .stop)]
  | ready {h hs fin} : cfg.wants h = true → st' = st →
      RsRule cfg t st st' .plain (.deliver (h :: hs) fin) .idle (.tryPush h hs fin) (.getSpace h false) [.ready t h, .ring (.call t (.push h false))]
  | ignore {h hs fin} : cfg.wants h = false → st' = st → RsRule cfg t st st' .plain (.deliver (h :: hs) fin) .idle (.deliver hs fin) .idle [.ready t h]
  | again {h hs fin} : st' = st → RsRule cfg t st st' .plain (.retry h hs fin) .idle (.push h hs fin) (.getSpace h true) [.ring (.call t (.push h true))]

/-- The start of a call. -/
inductive RsStart (t : Nat) : RsCall → RsPc → RPc Entry → List RsEv → Prop
  | batch {ops} : RsStart t (.batch ops) (.lock (.batch ops)) .idle [.call t (.batch ops)]
  | flush : RsStart t .flush (.lock .flush) .idle [.call t .flush]
  | stop : RsStart t .stop .stopRing (.stopTail false) [.call t .stop, .ring (.call t .stop)]
  | pop {b} : RsStart t (.pop b) (.pop b) (.getData b) [.call t (.pop b), .ring (.call t (.pop b))]
  | popLive {b} : RsStart t (.popLive b) (.popLive b) (.getData b) [.call t (.popLive b), .ring (.call t (.pop b))]

/-- The effect on the mutex. -/
def OwnerOk (k : RKind) (t : Nat) (o o' : Option Nat) : Prop :=
  match k with
  | .plain => o' = o
  | .acquire => o = none ∧ o' = some t
  | .release => o' = none

/-- The new state. -/
structure RsEff (s s' : RsState) (t : Nat) (p' : RsPc) (pc' : RPc Entry) (ev : List RsEv) : Prop where
  progs : s'.progs = s.progs.set t p'
  threads : s'.ring.threads = s.ring.threads.set t pc'
  ring : ∃ rops, RState.run rops s.ring = some (s'.ring, ringEvs ev) ∧ ∀ i, RingOp.call i .removeProducer ∉ rops

/-- The thread can do nothing. -/
def Stuck (s : RsState) (p : RsPc) (pc : RPc Entry) : Prop :=
  p = .idle ∨ (∃ op, p = .lock op ∧ s.owner ≠ none) ∨ Waits s.ring.ring pc

def RsMoves (cfg : RsConfig) (s s' : RsState) (t : Nat) (p : RsPc) (pc : RPc Entry) (ev : List RsEv) : Prop :=
  ∃ k p' pc', RsRule cfg t s.stream s'.stream k p pc p' pc' ev ∧ OwnerOk k t s.owner s'.owner ∧ RsEff s s' t p' pc' ev

theorem ring_call_idle {r : RState Entry} {t : Nat} (h : r.threads[t]? = some .idle) (c : Call Entry) :
    r.step (.call t c) = some ({ r with threads := r.threads.set t c.start }, [.call t c]) := by
  simp only [RState.step, h]

theorem ringCall_idle {s : RsState} {t : Nat} (h : s.ring.threads[t]? = some .idle) (c : Call Entry) (p : RsPc) :
    s.ringCall t c p = some ({ s with ring := { s.ring with threads := s.ring.threads.set t c.start }, progs := s.progs.set t p }, [.ring (.call t c)]) := by
  unfold RsState.ringCall
  rw [ring_call_idle h]
  rfl

theorem ring_act_at {r : RState Entry} {t : Nat} {pc pc' : RPc Entry} {ring' : Ring Entry} {ev : List (REv Entry)} (h : r.threads[t]? = some pc) (ha : r.ring.act t pc = some (ring', pc', ev)) :
    r.step (.act t) = some ({ ring := ring', threads := r.threads.set t pc' }, ev) := by
  simp only [RState.step, h, ha]

theorem run_one {r r' : RState Entry} {op : RingOp Entry} {ev : List (REv Entry)} (h : r.step op = some (r', ev)) : RState.run [op] r = some (r', ev) := by
  simp [RState.run, h]

/-- An action in the ring buffer after which the call goes on. -/
theorem ringAct_on {s : RsState} {t : Nat} {pc pc' : RPc Entry} {ring' : Ring Entry} {ev : List (REv Entry)} (h : s.ring.threads[t]? = some pc)
    (ha : s.ring.ring.act t pc = some (ring', pc', ev)) (hr : ringRet ev = none) (p : RsPc) :
    s.ringAct t (.act t) p = some ({ s with ring := { ring := ring', threads := s.ring.threads.set t pc' } }, ev.map .ring) := by
  unfold RsState.ringAct
  rw [ring_act_at h ha]
  dsimp only
  rw [hr]

/-- An action in the ring buffer with which the call returns. -/
theorem ringAct_ret {s : RsState} {t : Nat} {pc pc' : RPc Entry} {ring' : Ring Entry} {ev : List (REv Entry)} {r : Res Entry} (h : s.ring.threads[t]? = some pc)
    (ha : s.ring.ring.act t pc = some (ring', pc', ev)) (hr : ringRet ev = some r) (p : RsPc) :
    s.ringAct t (.act t) p = (RsState.resume { s with ring := { ring := ring', threads := s.ring.threads.set t pc' } } t r p).map (fun x => (x.1, ev.map .ring ++ x.2)) := by
  unfold RsState.ringAct
  rw [ring_act_at h ha]
  dsimp only
  rw [hr]
  dsimp only
  cases RsState.resume { s with ring := { ring := ring', threads := s.ring.threads.set t pc' } } t r p <;> rfl

theorem ringEvs_ring (l : List (REv Entry)) : ringEvs (l.map .ring) = l := by
  unfold ringEvs
  rw [List.filterMap_map]
  exact List.filterMap_some

theorem rs_set_get {β : Type} {l : List β} {t : Nat} {x : β} (h : l[t]? = some x) (y : β) : (l.set t y)[t]? = some y := by
  rw [List.getElem?_set_self (List.getElem?_eq_some_iff.mp h).1]

theorem act_rule {cfg : RsConfig} {s s' : RsState} {t : Nat} {p : RsPc} {pc : RPc Entry} {ev : List RsEv} (hp : s.progs[t]? = some p) (hpc : s.ring.threads[t]? = some pc)
    (hc : Compat p pc) (h : s.actProg cfg t p = some (s', ev)) : (s' = s ∧ ev = [] ∧ Stuck s p pc) ∨ (RsMoves cfg s s' t p pc ev ∧ ¬ Stuck s p pc) := by
  have selfp := (ring_set_self hp).symm
  have callEff : ∀ (c : Call Entry) (p' : RsPc) (ev : List RsEv), pc = .idle → ringEvs ev = [.call t c] → (∀ i, RingOp.call i .removeProducer ≠ .call t c) →
      RsEff s { s with ring := { s.ring with threads := s.ring.threads.set t c.start }, progs := s.progs.set t p' } t p' c.start ev := by
    intro c p' ev hi he hne
    subst hi
    exact ⟨rfl, rfl, [.call t c], by rw [he]; exact run_one (ring_call_idle hpc c), fun i hm => hne i (List.mem_singleton.mp hm)⟩
  have actEff : ∀ (ring' : Ring Entry) (pc' : RPc Entry) (rev : List (REv Entry)) (p' : RsPc) (ev : List RsEv) (s' : RsState), s.ring.ring.act t pc = some (ring', pc', rev) →
      ringEvs ev = rev → s'.ring = { ring := ring', threads := s.ring.threads.set t pc' } → s'.progs = s.progs.set t p' → RsEff s s' t p' pc' ev := by
    intro ring' pc' rev p' ev s' ha he h1 h2
    exact ⟨h2, by rw [h1], [.act t], by rw [he, h1]; exact run_one (ring_act_at hpc ha), fun i hm => by cases List.mem_singleton.mp hm⟩
  -- actions in the ring buffer
  have pushCase : ∀ (hd : Entry) (b : Bool) (hs : List Entry) (fin : Bool), Pushing p hd b hs fin → s.ringAct t (.act t) p = some (s', ev) →
      (pc = .getSpace hd b ∨ pc = .emplace hd ∨ pc = .putData ∨ pc = .backSpace ∨ (b = false ∧ pc = .fullCheck)) →
      (s' = s ∧ ev = [] ∧ Stuck s p pc) ∨ (RsMoves cfg s s' t p pc ev ∧ ¬ Stuck s p pc) := by
    intro hd b hs fin hpu hr hcases
    have hnl : ∀ op, p ≠ .lock op := by rcases hpu with ⟨-, rfl⟩ | ⟨-, rfl⟩ <;> intro op e <;> cases e
    have hni : p ≠ .idle := by rcases hpu with ⟨-, rfl⟩ | ⟨-, rfl⟩ <;> intro e <;> cases e
    have hns : ¬ Waits s.ring.ring pc → ¬ Stuck s p pc := by
      rintro hw (h | ⟨op, h, -⟩ | h)
      · exact hni h
      · exact hnl op h
      · exact hw h
    rcases hcases with rfl | rfl | rfl | rfl | ⟨rfl, rfl⟩
    · by_cases hz : 0 < s.ring.ring.spaceSem
      · have ha : s.ring.ring.act t (.getSpace hd b) = some ({ s.ring.ring with spaceSem := s.ring.ring.spaceSem - 1 }, .emplace hd, []) := by
          simp only [Ring.act]; rw [if_pos hz]
        rw [ringAct_on hpc ha rfl] at hr
        cases hr
        exact Or.inr ⟨⟨.plain, p, _, .pushGet hpu rfl, rfl, actEff _ _ [] p _ _ ha rfl rfl selfp⟩, hns (by cases b <;> simp [Waits]; omega)⟩
      · cases b with
        | true =>
          have ha : s.ring.ring.act t (.getSpace hd true) = some (s.ring.ring, .getSpace hd true, []) := by
            simp only [Ring.act]; rw [if_neg hz, if_pos trivial]
          rw [ringAct_on hpc ha rfl, ring_set_self hpc] at hr
          cases hr
          exact Or.inl ⟨rfl, rfl, Or.inr (Or.inr (by show s.ring.ring.spaceSem = 0; omega))⟩
        | false =>
          have ha : s.ring.ring.act t (.getSpace hd false) = some (s.ring.ring, .fullCheck, []) := by
            simp only [Ring.act]; rw [if_neg hz, if_neg (by decide)]
          rw [ringAct_on hpc ha rfl] at hr
          cases hr
          have hpe : p = .tryPush hd hs fin := by rcases hpu with ⟨-, h⟩ | ⟨h, -⟩; exact h; cases h
          subst hpe
          exact Or.inr ⟨⟨.plain, _, _, .pushFull rfl, rfl, actEff _ _ [] _ _ _ ha rfl rfl selfp⟩, hns (by simp [Waits])⟩
    · cases he : s.ring.ring.emplace hd with
      | none =>
        exfalso
        unfold RsState.ringAct at hr
        simp only [RState.step, hpc, Ring.act, he] at hr
        cases hr
      | some o =>
        cases o with
        | none =>
          have ha : s.ring.ring.act t (.emplace hd) = some (s.ring.ring, .backSpace, []) := by
            simp only [Ring.act, he]
          rw [ringAct_on hpc ha rfl] at hr
          cases hr
          exact Or.inr ⟨⟨.plain, _, _, .pushRefused hpu rfl, rfl, actEff _ _ [] _ _ _ ha rfl rfl selfp⟩, hns (by simp [Waits])⟩
        | some r' =>
          have ha : s.ring.ring.act t (.emplace hd) = some (r', .putData, [.push t hd]) := by
            simp only [Ring.act, he]
          rw [ringAct_on hpc ha rfl] at hr
          cases hr
          exact Or.inr ⟨⟨.plain, _, _, .pushIn hpu rfl, rfl, actEff _ _ _ _ _ _ ha rfl rfl selfp⟩, hns (by simp [Waits])⟩
    · have ha : s.ring.ring.act t .putData = some ({ s.ring.ring with dataSem := s.ring.ring.dataSem + 1 }, .idle, [.ret t .ok]) := rfl
      rw [ringAct_ret hpc ha rfl] at hr
      refine Or.inr ⟨⟨.plain, .deliver hs fin, .idle, ?_, ?_, ?_⟩, hns (by simp [Waits])⟩
      · rcases hpu with ⟨rfl, rfl⟩ | ⟨rfl, rfl⟩ <;> cases hr <;> exact .pushOk (by first | exact Or.inl ⟨rfl, rfl⟩ | exact Or.inr ⟨rfl, rfl⟩) rfl
      · rcases hpu with ⟨rfl, rfl⟩ | ⟨rfl, rfl⟩ <;> cases hr <;> rfl
      · rcases hpu with ⟨rfl, rfl⟩ | ⟨rfl, rfl⟩ <;> cases hr <;> exact actEff _ _ _ _ _ _ ha rfl rfl rfl
    · have ha : s.ring.ring.act t .backSpace = some ({ s.ring.ring with spaceSem := s.ring.ring.spaceSem + 1 }, .idle, [.ret t .stopped]) := rfl
      rw [ringAct_ret hpc ha rfl] at hr
      refine Or.inr ⟨⟨.plain, .deliver hs fin, .idle, ?_, ?_, ?_⟩, hns (by simp [Waits])⟩
      · rcases hpu with ⟨rfl, rfl⟩ | ⟨rfl, rfl⟩ <;> cases hr <;> exact .pushBack (by first | exact Or.inl ⟨rfl, rfl⟩ | exact Or.inr ⟨rfl, rfl⟩) rfl
      · rcases hpu with ⟨rfl, rfl⟩ | ⟨rfl, rfl⟩ <;> cases hr <;> rfl
      · rcases hpu with ⟨rfl, rfl⟩ | ⟨rfl, rfl⟩ <;> cases hr <;> exact actEff _ _ _ _ _ _ ha rfl rfl rfl
    · have hpe : p = .tryPush hd hs fin := by rcases hpu with ⟨-, h⟩ | ⟨h, -⟩; exact h; cases h
      subst hpe
      by_cases hst : s.ring.ring.stopped = true
      · have ha : s.ring.ring.act t .fullCheck = some (s.ring.ring, .idle, [.ret t .stopped]) := by simp only [Ring.act]; rw [if_pos hst]
        rw [ringAct_ret hpc ha rfl] at hr
        cases hr
        exact Or.inr ⟨⟨.plain, _, _, .fullStopped rfl, rfl, actEff _ _ _ _ _ _ ha rfl rfl rfl⟩, hns (by simp [Waits])⟩
      · have ha : s.ring.ring.act t .fullCheck = some (s.ring.ring, .idle, [.ret t .full]) := by simp only [Ring.act]; rw [if_neg hst]
        rw [ringAct_ret hpc ha rfl] at hr
        cases hr
        exact Or.inr ⟨⟨.plain, _, _, .fullRetry rfl, rfl, actEff _ _ _ _ _ _ ha rfl rfl rfl⟩, hns (by simp [Waits])⟩
  have stopCase : Stopping p → s.ringAct t (.act t) p = some (s', ev) → (pc = .stopTail false ∨ (∃ x, pc = .stopHead x) ∨ pc = .stopSpace ∨ pc = .stopData) →
      (s' = s ∧ ev = [] ∧ Stuck s p pc) ∨ (RsMoves cfg s s' t p pc ev ∧ ¬ Stuck s p pc) := by
    intro hpu hr hcases
    have hnl : ∀ op, p ≠ .lock op := by rcases hpu with rfl | rfl <;> intro op e <;> cases e
    have hni : p ≠ .idle := by rcases hpu with rfl | rfl <;> intro e <;> cases e
    have hns : ¬ Waits s.ring.ring pc → ¬ Stuck s p pc := by
      rintro hw (h | ⟨op, h, -⟩ | h)
      · exact hni h
      · exact hnl op h
      · exact hw h
    rcases hcases with rfl | ⟨x, rfl⟩ | rfl | rfl
    · have ha : s.ring.ring.act t (.stopTail false) = some ({ s.ring.ring with stopped := true }, .stopHead s.ring.ring.tail, [.close t]) := rfl
      rw [ringAct_on hpc ha rfl] at hr
      cases hr
      exact Or.inr ⟨⟨.plain, _, _, .stopClose hpu rfl, rfl, actEff _ _ _ _ _ _ ha rfl rfl selfp⟩, hns (by simp [Waits])⟩
    · have ha : s.ring.ring.act t (.stopHead x) = some ({ s.ring.ring with stopPos := x }, .stopSpace, [.seal t]) := rfl
      rw [ringAct_on hpc ha rfl] at hr
      cases hr
      exact Or.inr ⟨⟨.plain, _, _, .stopSeal hpu rfl, rfl, actEff _ _ _ _ _ _ ha rfl rfl selfp⟩, hns (by simp [Waits])⟩
    · have ha : s.ring.ring.act t .stopSpace = some ({ s.ring.ring with spaceSem := s.ring.ring.spaceSem + 1 }, .stopData, []) := rfl
      rw [ringAct_on hpc ha rfl] at hr
      cases hr
      exact Or.inr ⟨⟨.plain, _, _, .stopSpace hpu rfl, rfl, actEff _ _ _ _ _ _ ha rfl rfl selfp⟩, hns (by simp [Waits])⟩
    · have ha : s.ring.ring.act t .stopData = some ({ s.ring.ring with dataSem := s.ring.ring.dataSem + 1 }, .idle, [.ret t (.flag true)]) := rfl
      rw [ringAct_ret hpc ha rfl] at hr
      rcases hpu with rfl | rfl
      · cases hr
        exact Or.inr ⟨⟨.release, _, _, .stopNet rfl, rfl, actEff _ _ _ _ _ _ ha rfl rfl rfl⟩, hns (by simp [Waits])⟩
      · cases hr
        exact Or.inr ⟨⟨.plain, _, _, .stopUser rfl, rfl, actEff _ _ _ _ _ _ ha rfl rfl rfl⟩, hns (by simp [Waits])⟩
  have popCase : ∀ (b : Bool), Popping p b → s.ringAct t (.act t) p = some (s', ev) →
      (pc = .getData b ∨ pc = .popInternal ∨ (∃ v, pc = .putSpace v) ∨ pc = .backData ∨ (b = false ∧ pc = .emptyCheck)) →
      (s' = s ∧ ev = [] ∧ Stuck s p pc) ∨ (RsMoves cfg s s' t p pc ev ∧ ¬ Stuck s p pc) := by
    intro b hpu hr hcases
    have hnl : ∀ op, p ≠ .lock op := by rcases hpu with rfl | rfl <;> intro op e <;> cases e
    have hni : p ≠ .idle := by rcases hpu with rfl | rfl <;> intro e <;> cases e
    have hns : ¬ Waits s.ring.ring pc → ¬ Stuck s p pc := by
      rintro hw (h | ⟨op, h, -⟩ | h)
      · exact hni h
      · exact hnl op h
      · exact hw h
    rcases hcases with rfl | rfl | ⟨v, rfl⟩ | rfl | ⟨rfl, rfl⟩
    · by_cases hz : 0 < s.ring.ring.dataSem
      · have ha : s.ring.ring.act t (.getData b) = some ({ s.ring.ring with dataSem := s.ring.ring.dataSem - 1 }, .popInternal, []) := by
          simp only [Ring.act]; rw [if_pos hz]
        rw [ringAct_on hpc ha rfl] at hr
        cases hr
        exact Or.inr ⟨⟨.plain, p, _, .popGet hpu rfl, rfl, actEff _ _ [] p _ _ ha rfl rfl selfp⟩, hns (by cases b <;> simp [Waits]; omega)⟩
      · cases b with
        | true =>
          have ha : s.ring.ring.act t (.getData true) = some (s.ring.ring, .getData true, []) := by
            simp only [Ring.act]; rw [if_neg hz, if_pos trivial]
          rw [ringAct_on hpc ha rfl, ring_set_self hpc] at hr
          cases hr
          exact Or.inl ⟨rfl, rfl, Or.inr (Or.inr (by show s.ring.ring.dataSem = 0; omega))⟩
        | false =>
          have ha : s.ring.ring.act t (.getData false) = some (s.ring.ring, .emptyCheck, []) := by
            simp only [Ring.act]; rw [if_neg hz, if_neg (by decide)]
          rw [ringAct_on hpc ha rfl] at hr
          cases hr
          exact Or.inr ⟨⟨.plain, _, _, .popEmpty hpu rfl, rfl, actEff _ _ [] _ _ _ ha rfl rfl selfp⟩, hns (by simp [Waits])⟩
    · cases he : s.ring.ring.popInternal with
      | none =>
        exfalso
        unfold RsState.ringAct at hr
        simp only [RState.step, hpc, Ring.act, he] at hr
        cases hr
      | some o =>
        cases o with
        | none =>
          have ha : s.ring.ring.act t .popInternal = some (s.ring.ring, .backData, []) := by
            simp only [Ring.act, he]
          rw [ringAct_on hpc ha rfl] at hr
          cases hr
          exact Or.inr ⟨⟨.plain, _, _, .popRefused hpu rfl, rfl, actEff _ _ [] _ _ _ ha rfl rfl selfp⟩, hns (by simp [Waits])⟩
        | some vr =>
          obtain ⟨v, r'⟩ := vr
          have ha : s.ring.ring.act t .popInternal = some (r', .putSpace v, [.pop t v]) := by
            simp only [Ring.act, he]
          rw [ringAct_on hpc ha rfl] at hr
          cases hr
          exact Or.inr ⟨⟨.plain, _, _, .popOut hpu rfl, rfl, actEff _ _ _ _ _ _ ha rfl rfl selfp⟩, hns (by simp [Waits])⟩
    · have ha : s.ring.ring.act t (.putSpace v) = some ({ s.ring.ring with spaceSem := s.ring.ring.spaceSem + 1 }, .idle, [.ret t (.value v)]) := rfl
      rw [ringAct_ret hpc ha rfl] at hr
      rcases hpu with rfl | rfl
      · by_cases hct : v.heap.isContiguous = true
        · simp only [RsState.resume, hct, if_true] at hr
          cases hr
          exact Or.inr ⟨⟨.plain, _, _, .popHeap hct rfl, rfl, actEff _ _ _ _ _ _ ha rfl rfl rfl⟩, hns (by simp [Waits])⟩
        · have hct' : v.heap.isContiguous = false := by simpa using hct
          simp only [RsState.resume, hct', Bool.false_eq_true, if_false] at hr
          rw [ringCall_idle (s := { s with ring := { ring := { s.ring.ring with spaceSem := s.ring.ring.spaceSem + 1 }, threads := s.ring.threads.set t .idle } }) (rs_set_get hpc _)] at hr
          cases hr
          refine Or.inr ⟨⟨.plain, _, _, .popSkip hct' rfl, rfl, ⟨rfl, by simp [Call.start], [.act t, .call t (.pop b)], ?_, ?_⟩⟩, hns (by simp [Waits])⟩
          · exact ring_run_append (run_one (ring_act_at hpc ha)) (run_one (ring_call_idle (rs_set_get hpc _) _))
          · simp
      · cases hr
        exact Or.inr ⟨⟨.plain, _, _, .popLive rfl, rfl, actEff _ _ _ _ _ _ ha rfl rfl rfl⟩, hns (by simp [Waits])⟩
    · have ha : s.ring.ring.act t .backData = some ({ s.ring.ring with dataSem := s.ring.ring.dataSem + 1 }, .idle, [.ret t .stopped]) := rfl
      rw [ringAct_ret hpc ha rfl] at hr
      have hw : ¬ Stuck s p .backData := hns (by simp [Waits])
      rcases hpu with rfl | rfl
      · cases hr
        exact Or.inr ⟨⟨.plain, _, _, .popBack (b := b) (Or.inl rfl) rfl, rfl, actEff _ _ _ _ _ _ ha rfl rfl rfl⟩, hw⟩
      · cases hr
        exact Or.inr ⟨⟨.plain, _, _, .popBack (b := b) (Or.inr rfl) rfl, rfl, actEff _ _ _ _ _ _ ha rfl rfl rfl⟩, hw⟩
    · have hw : ¬ Stuck s p .emptyCheck := hns (by simp [Waits])
      by_cases hst : s.ring.ring.head = s.ring.ring.stopPos
      · have ha : s.ring.ring.act t .emptyCheck = some (s.ring.ring, .idle, [.ret t .stopped]) := by simp only [Ring.act]; rw [if_pos hst]
        rw [ringAct_ret hpc ha rfl] at hr
        rcases hpu with rfl | rfl
        · cases hr
          exact Or.inr ⟨⟨.plain, _, _, .popEnd (Or.inl rfl) rfl, rfl, actEff _ _ _ _ _ _ ha rfl rfl rfl⟩, hw⟩
        · cases hr
          exact Or.inr ⟨⟨.plain, _, _, .popEnd (Or.inr rfl) rfl, rfl, actEff _ _ _ _ _ _ ha rfl rfl rfl⟩, hw⟩
      · have ha : s.ring.ring.act t .emptyCheck = some (s.ring.ring, .idle, [.ret t .empty]) := by simp only [Ring.act]; rw [if_neg hst]
        rw [ringAct_ret hpc ha rfl] at hr
        rcases hpu with rfl | rfl
        · cases hr
          exact Or.inr ⟨⟨.plain, _, _, .popNone (Or.inl rfl) rfl, rfl, actEff _ _ _ _ _ _ ha rfl rfl rfl⟩, hw⟩
        · cases hr
          exact Or.inr ⟨⟨.plain, _, _, .popNone (Or.inr rfl) rfl, rfl, actEff _ _ _ _ _ _ ha rfl rfl rfl⟩, hw⟩
  -- the place in the code
  have idleStuck : ∀ q : RsPc, p = q → q ≠ .idle → (∀ op, q ≠ .lock op) → pc = .idle → ¬ Stuck s p pc := by
    rintro q rfl h1 h2 rfl (h | ⟨op, h, -⟩ | h)
    · exact h1 h
    · exact h2 op h
    · exact h
  cases p with
  | idle => simp only [RsState.actProg] at h; cases h; exact Or.inl ⟨rfl, rfl, Or.inl rfl⟩
  | lock op =>
    have hpi : pc = .idle := hc
    subst hpi
    simp only [RsState.actProg] at h
    cases ho : s.owner with
    | some o =>
      rw [ho] at h
      cases h
      exact Or.inl ⟨rfl, rfl, Or.inr (Or.inl ⟨op, rfl, by rw [ho]; simp⟩)⟩
    | none =>
      rw [ho] at h
      dsimp only at h
      cases hs : s.stream.step cfg.stream op with
      | none => rw [hs] at h; cases h
      | some q =>
        obtain ⟨st, out⟩ := q
        rw [hs] at h
        cases h
        refine Or.inr ⟨⟨.acquire, _, _, .take hs, ⟨ho, rfl⟩, ⟨rfl, (ring_set_self hpc).symm, [], rfl, by simp⟩⟩, ?_⟩
        rintro (h | ⟨op, h, h2⟩ | h)
        · cases h
        · exact h2 ho
        · exact h
  | deliver hs fin =>
    have hpi : pc = .idle := hc
    have hns := idleStuck _ rfl (by simp) (by simp) hpi
    subst hpi
    cases hs with
    | nil =>
      cases fin with
      | false =>
        simp only [RsState.actProg] at h
        cases h
        exact Or.inr ⟨⟨.release, _, _, .leave rfl, rfl, ⟨rfl, (ring_set_self hpc).symm, [], rfl, by simp⟩⟩, hns⟩
      | true =>
        simp only [RsState.actProg] at h
        rw [ringCall_idle hpc] at h
        cases h
        exact Or.inr ⟨⟨.plain, _, _, .finish rfl, rfl, callEff .stop _ _ rfl rfl (by simp)⟩, hns⟩
    | cons hd hs =>
      simp only [RsState.actProg] at h
      by_cases hw : cfg.wants hd = true
      · rw [if_pos hw, ringCall_idle hpc] at h
        cases h
        exact Or.inr ⟨⟨.plain, _, _, .ready hw rfl, rfl, callEff (.push hd false) _ _ rfl rfl (by simp)⟩, hns⟩
      · rw [if_neg hw] at h
        cases h
        exact Or.inr ⟨⟨.plain, _, _, .ignore (by simpa using hw) rfl, rfl, ⟨rfl, (ring_set_self hpc).symm, [], rfl, by simp⟩⟩, hns⟩
  | tryPush hd hs fin => exact pushCase hd false hs fin (Or.inl ⟨rfl, rfl⟩) h (by simpa [Compat] using hc)
  | retry hd hs fin =>
    have hpi : pc = .idle := hc
    have hns := idleStuck _ rfl (by simp) (by simp) hpi
    subst hpi
    simp only [RsState.actProg] at h
    rw [ringCall_idle hpc] at h
    cases h
    exact Or.inr ⟨⟨.plain, _, _, .again rfl, rfl, callEff (.push hd true) _ _ rfl rfl (by simp)⟩, hns⟩
  | push hd hs fin => exact pushCase hd true hs fin (Or.inr ⟨rfl, rfl⟩) h (by simpa [Compat] using hc)
  | sealing => exact stopCase (Or.inl rfl) h hc
  | stopRing => exact stopCase (Or.inr rfl) h hc
  | pop b => exact popCase b (Or.inl rfl) h hc
  | popLive b => exact popCase b (Or.inr rfl) h hc

theorem fail_rule {cfg : RsConfig} {s s' : RsState} {t : Nat} {p : RsPc} {pc : RPc Entry} {ev : List RsEv} (hp : s.progs[t]? = some p) (hpc : s.ring.threads[t]? = some pc)
    (hc : Compat p pc) (h : s.ringAct t (.fail t) p = some (s', ev)) : (s' = s ∧ ev = []) ∨ RsMoves cfg s s' t p pc ev := by
  have selfp := (ring_set_self hp).symm
  by_cases h1 : ∃ v, pc = .getSpace v false
  · obtain ⟨v, rfl⟩ := h1
    have hst : s.ring.step (.fail t) = some ({ s.ring with threads := s.ring.threads.set t .fullCheck }, []) := by simp only [RState.step, hpc]
    unfold RsState.ringAct at h
    rw [hst] at h
    cases h
    have hpe : ∃ hs fin, p = .tryPush v hs fin := by
      cases p <;> simp only [Compat] at hc <;> (try (cases hc; done))
      · rename_i hd hs fin
        simp at hc
        exact ⟨hs, fin, by rw [hc]⟩
      all_goals simp at hc
    obtain ⟨hs, fin, rfl⟩ := hpe
    exact Or.inr ⟨.plain, _, _, .pushFull rfl, rfl, ⟨selfp, rfl, [.fail t], run_one hst, by simp⟩⟩
  · by_cases h2 : pc = .getData false
    · subst h2
      have hst : s.ring.step (.fail t) = some ({ s.ring with threads := s.ring.threads.set t .emptyCheck }, []) := by simp only [RState.step, hpc]
      unfold RsState.ringAct at h
      rw [hst] at h
      cases h
      have hpe : Popping p false := by
        cases p <;> simp [Compat] at hc
        · exact Or.inl (by rw [hc])
        · exact Or.inr (by rw [hc])
      exact Or.inr ⟨.plain, _, _, .popEmpty hpe rfl, rfl, ⟨selfp, rfl, [.fail t], run_one hst, by simp⟩⟩
    · have hst : s.ring.step (.fail t) = some (s.ring, []) := by
        simp only [RState.step, hpc]
        split
        · rename_i v hx; cases hx; exact absurd ⟨v, rfl⟩ h1
        · rename_i hx; cases hx; exact absurd rfl h2
        · rfl
      unfold RsState.ringAct at h
      rw [hst] at h
      cases h
      exact Or.inl ⟨rfl, rfl⟩

theorem start_rule {s s' : RsState} {t : Nat} {c : RsCall} {ev : List RsEv} (hpc : s.ring.threads[t]? = some .idle)
    (h : s.start t c = some (s', ev)) : ∃ p' pc', RsStart t c p' pc' (.call t c :: ev) ∧ RsEff s s' t p' pc' (.call t c :: ev) ∧ s'.owner = s.owner ∧ s'.stream = s.stream := by
  have callEff : ∀ (c : Call Entry) (p' : RsPc) (ev : List RsEv), ringEvs ev = [.call t c] → (∀ i, RingOp.call i .removeProducer ≠ .call t c) →
      RsEff s { s with ring := { s.ring with threads := s.ring.threads.set t c.start }, progs := s.progs.set t p' } t p' c.start ev := by
    intro c p' ev he hne
    exact ⟨rfl, rfl, [.call t c], by rw [he]; exact run_one (ring_call_idle hpc c), fun i hm => hne i (List.mem_singleton.mp hm)⟩
  cases c with
  | batch ops => cases h; exact ⟨_, _, .batch, ⟨rfl, (ring_set_self hpc).symm, [], rfl, by simp⟩, rfl, rfl⟩
  | flush => cases h; exact ⟨_, _, .flush, ⟨rfl, (ring_set_self hpc).symm, [], rfl, by simp⟩, rfl, rfl⟩
  | stop =>
    simp only [RsState.start] at h
    rw [ringCall_idle hpc] at h
    cases h
    exact ⟨_, _, .stop, callEff .stop _ _ rfl (by simp), rfl, rfl⟩
  | pop b =>
    simp only [RsState.start] at h
    rw [ringCall_idle hpc] at h
    cases h
    exact ⟨_, _, .pop, callEff (.pop b) _ _ rfl (by simp), rfl, rfl⟩
  | popLive b =>
    simp only [RsState.start] at h
    rw [ringCall_idle hpc] at h
    cases h
    exact ⟨_, _, .popLive, callEff (.pop b) _ _ rfl (by simp), rfl, rfl⟩

/-! ### What each transition does -/

/-- The thread holds the mutex. -/
def holds : RsPc → Bool
  | .deliver _ _ => true | .tryPush _ _ _ => true | .retry _ _ _ => true | .push _ _ _ => true | .sealing => true | _ => false

/-- Heaps that it still has to pass to `heap_ready`. -/
def restOf : RsPc → List Entry
  | .deliver hs _ => hs | .tryPush _ hs _ => hs | .retry _ hs _ => hs | .push _ hs _ => hs | _ => []

/-- It will call, or is calling, `stop_received`. -/
def finOf : RsPc → Bool
  | .deliver _ fin => fin | .tryPush _ _ fin => fin | .retry _ _ fin => fin | .push _ _ fin => fin | .sealing => true | _ => false

/-- The heap that it is trying to put in the ring buffer. -/
def curOf : RsPc → RPc Entry → List Entry
  | .tryPush h _ _, pc => if pc = .putData then [] else [h]
  | .push h _ _, pc => if pc = .putData then [] else [h]
  | .retry h _ _, _ => [h]
  | _, _ => []

/-- The heap that it has taken from the ring buffer. -/
def inFlight : RPc Entry → List Entry
  | .putSpace v => [v] | _ => []

/-- The operation on the stream that it has not done yet. -/
def pendingOp : RsPc → List StreamOp
  | .lock op => [op] | .stopRing => [.stop] | _ => []

/-- It will close the ring buffer because the stream has ended. -/
def Ending (p : RsPc) (pc : RPc Entry) : Prop := finOf p = true ∧ (p = .sealing → pc = .stopTail false)

variable {cfg : RsConfig} {t : Nat} {st st' : Stream} {k : RKind} {p p' : RsPc} {pc pc' : RPc Entry} {ev : List RsEv} {c : RsCall}

/-- Case distinction on where a thread pushes, stops or pops. -/
local macro "rs_split" : tactic =>
  `(tactic| (try casesm* Pushing _ _ _ _ _, Stopping _, Popping _ _, _ ∧ _) <;> (try subst_vars))

theorem RsRule.compat (r : RsRule cfg t st st' k p pc p' pc' ev) (hc : Compat p pc) : Compat p' pc' := by
  cases r <;> rs_split <;> simp_all [Compat]

theorem RsRule.holds (r : RsRule cfg t st st' k p pc p' pc' ev) : match k with
    | .plain => holds p' = holds p | .acquire => holds p = false ∧ holds p' = true | .release => holds p = true ∧ holds p' = false := by
  cases r <;> rs_split <;> simp [Spead2.holds]

theorem RsRule.fin (r : RsRule cfg t st st' k p pc p' pc' ev) (h : finOf p' = true) : finOf p = true ∨ st'.stopped = true := by
  cases r <;> rs_split <;> simp_all [finOf]

theorem RsRule.stream (r : RsRule cfg t st st' k p pc p' pc' ev) : (st' = st ∧ lockedOps ev = [] ∧ handed ev = [] ∧ k ≠ .acquire) ∨
    ∃ op out, k = .acquire ∧ p = .lock op ∧ st.step cfg.stream op = some (st', out) ∧ lockedOps ev = [op] ∧ handed ev = out ∧ restOf p' = out := by
  cases r <;> (try (left; exact ⟨by assumption, rfl, rfl, by simp⟩))
  right
  rename_i op out h
  exact ⟨op, out, rfl, rfl, h, rfl, by simp [handed], rfl⟩

theorem RsRule.notCall (r : RsRule cfg t st st' k p pc p' pc' ev) : stopCalled ev = false := by
  cases r <;> rfl

theorem RsRule.lock (r : RsRule cfg t st st' k p pc p' pc' ev) {op : StreamOp} (h : p' = .lock op) : op = .stop ∧ p = .stopRing := by
  cases r <;> rs_split <;> simp_all

theorem RsRule.stopRing (r : RsRule cfg t st st' k p pc p' pc' ev) (h : p' = .stopRing) : p = .stopRing := by
  cases r <;> rs_split <;> simp_all

theorem RsRule.closes (r : RsRule cfg t st st' k p pc p' pc' ev) (h : p = .stopRing) (h2 : pc = .stopTail false) : isClosed (ringEvs ev) = true := by
  cases r <;> rs_split <;> simp_all [isClosed, ringEvs]

theorem RsRule.userStop (r : RsRule cfg t st st' k p pc p' pc' ev) (h : p = .stopRing) : p' = .stopRing ∨ p' = .lock .stop := by
  cases r <;> rs_split <;> simp_all

theorem RsRule.consumes (r : RsRule cfg t st st' k p pc p' pc' ev) : inFlight pc ++ takenBy t ev = (fatesOf t ev).map Fate.entry ++ inFlight pc' := by
  cases r <;> simp [inFlight, takenBy, fatesOf, Fate.entry]

theorem RsRule.others (r : RsRule cfg t st st' k p pc p' pc' ev) {i : Nat} (hi : i ≠ t) : takenBy i ev = [] ∧ fatesOf i ev = [] := by
  have := Ne.symm hi
  cases r <;> simp [takenBy, fatesOf, this]

theorem RsRule.free (r : RsRule cfg t st st' k p pc p' pc' ev) (hk : k = .plain) (hh : Spead2.holds p = false) :
    pushed (ringEvs ev) = [] ∧ heapsReadied ev = [] ∧ (isClosed (ringEvs ev) = true → p = .stopRing) := by
  subst hk
  cases r <;> rs_split <;>
    simp_all [Spead2.holds, pushed, ringEvs, heapsReadied, isClosed]

theorem RsRule.calls (r : RsRule cfg t st st' k p pc p' pc' ev) (i : Nat) : streamCallsOf i ev = [] ∧ (i ≠ t → lockedBy i ev = []) ∧
    pendingOp p = lockedBy t ev ++ pendingOp p' := by
  cases r <;> rs_split <;> refine ⟨rfl, ?_, ?_⟩ <;> first | rfl | (intro _; rfl) | (intro h; simp [lockedBy, Ne.symm h]) | simp [lockedBy, pendingOp]

theorem RsRule.ending (r : RsRule cfg t st st' k p pc p' pc' ev) (h : Ending p pc) : isClosed (ringEvs ev) = true ∨ Ending p' pc' := by
  unfold Ending at h
  cases r <;> rs_split <;> simp_all [Ending, finOf, isClosed, ringEvs]

theorem RsRule.ends (r : RsRule cfg t st st' k p pc p' pc' ev) (h : st.stopped = false) (h' : st'.stopped = true) : Ending p' pc' := by
  cases r <;> simp_all [Ending, finOf]

theorem RsStart.calls (r : RsStart t c p' pc' ev) (i : Nat) : lockedBy i ev = [] ∧ (i ≠ t → streamCallsOf i ev = []) ∧ streamCallsOf t ev = pendingOp p' := by
  cases r <;> refine ⟨rfl, ?_, ?_⟩ <;> first | rfl | (intro h; simp [streamCallsOf, Ne.symm h]) | simp [streamCallsOf, pendingOp]

theorem RsStart.compat (r : RsStart t c p' pc' ev) : Compat p' pc' := by cases r <;> simp [Compat]
theorem RsStart.holds (r : RsStart t c p' pc' ev) : Spead2.holds p' = false := by cases r <;> rfl
theorem RsStart.fin (r : RsStart t c p' pc' ev) : finOf p' = false := by cases r <;> rfl
theorem RsStart.stream (r : RsStart t c p' pc' ev) : lockedOps ev = [] ∧ handed ev = [] ∧ heapsReadied ev = [] ∧ pushed (ringEvs ev) = [] ∧ isClosed (ringEvs ev) = false := by
  cases r <;> exact ⟨rfl, rfl, rfl, rfl, rfl⟩
theorem RsStart.lock (r : RsStart t c p' pc' ev) (hv : c.Valid) {op : StreamOp} (h : p' = .lock op) : op.Valid := by
  cases r <;> cases h
  · exact hv
  · trivial
theorem RsStart.isStop (r : RsStart t c p' pc' ev) : stopCalled ev = true ↔ (p' = .stopRing ∧ pc' = .stopTail false) := by
  cases r <;> simp [stopCalled]
theorem RsStart.stopRing (r : RsStart t c p' pc' ev) (h : p' = .stopRing) : stopCalled ev = true := by
  cases r <;> simp [stopCalled] at * 
theorem RsStart.consumes (r : RsStart t c p' pc' ev) (i : Nat) : takenBy i ev = [] ∧ fatesOf i ev = [] ∧ inFlight pc' = [] := by
  cases r <;> exact ⟨rfl, rfl, rfl⟩

/-! ### The flow of heaps -/

/-- Given the heaps that wait for `heap_ready` and the one in it: everything handed over is accounted for, and the heaps in
the ring buffer are those wanted among those passed to `heap_ready`, in order; all of them unless it was closed, and all of them unless a user
called `stop`. -/
structure FlowOk (cfg : RsConfig) (tr : List RsEv) (st : Stream) (rest cur : List Entry) : Prop where
  hand : heapsReadied tr ++ rest = handed tr
  opened : isClosed (ringEvs tr) = false → pushed (ringEvs tr) ++ cur = (heapsReadied tr).filter cfg.wants
  pre : pushed (ringEvs tr) <+: (heapsReadied tr).filter cfg.wants
  net : stopCalled tr = false → pushed (ringEvs tr) ++ cur = (heapsReadied tr).filter cfg.wants ∧
    (isClosed (ringEvs tr) = true → st.stopped = true ∧ rest = [] ∧ cur = [])

variable {tr : List RsEv} {rest cur : List Entry}

/-- Transitions that have nothing to do with it. -/
theorem FlowOk.mono (f : FlowOk cfg tr st rest cur) (h1 : handed ev = []) (h2 : heapsReadied ev = []) (h3 : pushed (ringEvs ev) = [])
    (h4 : isClosed (ringEvs ev) = true → stopCalled (tr ++ ev) = true) : FlowOk cfg (tr ++ ev) st rest cur := by
  refine ⟨?_, ?_, ?_, ?_⟩
  · rw [heapsReadied_append, handed_append, h1, h2, List.append_nil, List.append_nil]; exact f.hand
  · rw [ringEvs_append, isClosed_append, pushed_append, heapsReadied_append, h2, h3, List.append_nil, List.append_nil]
    intro h
    exact f.opened (by cases h5 : isClosed (ringEvs tr) <;> simp_all)
  · rw [ringEvs_append, pushed_append, heapsReadied_append, h2, h3, List.append_nil, List.append_nil]; exact f.pre
  · intro h
    have h5 : stopCalled tr = false := by rw [stopCalled_append] at h; cases h6 : stopCalled tr <;> simp_all
    have h7 : isClosed (ringEvs ev) = false := by cases h6 : isClosed (ringEvs ev) with | false => rfl | true => rw [h4 h6] at h; cases h
    rw [ringEvs_append, isClosed_append, pushed_append, heapsReadied_append, h2, h3, h7, List.append_nil, List.append_nil, Bool.or_false]
    exact f.net h5

/-- A ring event and what the history says about it. -/
theorem hist_last {pre : List (REv Entry)} {e : REv Entry} {b : List (REv Entry)} (h : HistOk [] (pre ++ e :: b)) :
    ∃ p, Phase.after (eventsOf e.thread pre) .idle = some p ∧ EvOk pre p e := by
  simpa using h.split (a := pre) (e := e) (b := b) rfl

/-- Transitions of the thread that holds the mutex. -/
theorem RsRule.flow (r : RsRule cfg t st st' k p pc p' pc' ev) (hk : k = .plain) (hh : Spead2.holds p = true) (hfin : finOf p = true → st.stopped = true)
    (hist : HistOk [] (ringEvs tr ++ ringEvs ev)) (f : FlowOk cfg tr st (restOf p) (curOf p pc)) : FlowOk cfg (tr ++ ev) st' (restOf p') (curOf p' pc') := by
  have keep : ∀ (ev : List RsEv) (rest cur : List Entry), handed ev = [] → heapsReadied ev = [] → pushed (ringEvs ev) = [] → isClosed (ringEvs ev) = false →
      restOf p = rest → curOf p pc = cur → FlowOk cfg (tr ++ ev) st rest cur := by
    intro ev rest cur h1 h2 h3 h4 h5 h6
    rw [h5, h6] at f
    exact f.mono h1 h2 h3 (by rw [h4]; intro h; cases h)
  have closedCase : ∀ (ev : List RsEv) (rest : List Entry), handed ev = [] → heapsReadied ev = [] → pushed (ringEvs ev) = [] → isClosed (ringEvs ev) = false → stopCalled ev = false →
      restOf p = rest → curOf p pc ≠ [] → isClosed (ringEvs tr) = true → FlowOk cfg (tr ++ ev) st rest [] := by
    intro ev rest h1 h2 h3 h4 hsc h5 h6 h7
    have g := keep ev rest (curOf p pc) h1 h2 h3 h4 h5 rfl
    refine ⟨g.hand, ?_, g.pre, ?_⟩
    · rw [ringEvs_append, isClosed_append, h7]; intro h; cases h
    · intro h
      rw [stopCalled_append, hsc, Bool.or_false] at h
      exact absurd ((f.net h).2 h7).2.2 h6
  subst hk
  cases r with
  | pushGet h e => subst e; exact keep [] _ _ rfl rfl rfl rfl rfl (by rcases h with ⟨rfl, rfl⟩ | ⟨rfl, rfl⟩ <;> simp [curOf])
  | pushFull e => subst e; exact keep [] _ _ rfl rfl rfl rfl rfl (by simp [curOf])
  | pushRefused h e => subst e; exact keep [] _ _ rfl rfl rfl rfl rfl (by rcases h with ⟨rfl, rfl⟩ | ⟨rfl, rfl⟩ <;> simp [curOf])
  | pushIn h e =>
    rename_i hd b hs fin
    subst e
    obtain ⟨q, -, hq⟩ := hist_last hist
    have hcl : isClosed (ringEvs tr) = false := hq
    have hcur : curOf p (.emplace hd) = [hd] := by rcases h with ⟨rfl, rfl⟩ | ⟨rfl, rfl⟩ <;> simp [curOf]
    have hcur' : curOf p .putData = [] := by rcases h with ⟨rfl, rfl⟩ | ⟨rfl, rfl⟩ <;> simp [curOf]
    have hpu : pushed (ringEvs (tr ++ [.ring (.push t hd)])) = pushed (ringEvs tr) ++ [hd] := by rw [ringEvs_append, pushed_append]; rfl
    have hre : heapsReadied (tr ++ [.ring (.push t hd)]) = heapsReadied tr := by rw [heapsReadied_append]; exact List.append_nil _
    have hcc : isClosed (ringEvs (tr ++ [.ring (.push t hd)])) = false := by rw [ringEvs_append, isClosed_append, hcl]; rfl
    rw [hcur] at f
    rw [hcur']
    have hF := f.opened hcl
    refine ⟨by rw [hre, handed_append]; simpa [handed] using f.hand, ?_, ?_, ?_⟩
    · intro _; rw [hpu, hre, List.append_nil]; exact hF
    · rw [hpu, hre, hF]; exact List.prefix_refl _
    · intro _; rw [hpu, hre, List.append_nil, hcc]; exact ⟨hF, fun h => nomatch h⟩
  | pushOk h e =>
    subst e
    exact keep [.ring (.ret t .ok)] _ _ rfl rfl rfl rfl (by rcases h with ⟨rfl, rfl⟩ | ⟨rfl, rfl⟩ <;> rfl) (by rcases h with ⟨rfl, rfl⟩ | ⟨rfl, rfl⟩ <;> simp [curOf])
  | pushBack h e =>
    subst e
    obtain ⟨q, -, hq⟩ := hist_last hist
    exact closedCase [.ring (.ret t .stopped)] _ rfl rfl rfl rfl rfl (by rcases h with ⟨rfl, rfl⟩ | ⟨rfl, rfl⟩ <;> rfl)
      (by rcases h with ⟨rfl, rfl⟩ | ⟨rfl, rfl⟩ <;> simp [curOf]) hq.1
  | fullStopped e =>
    subst e
    obtain ⟨q, -, hq⟩ := hist_last hist
    exact closedCase [.ring (.ret t .stopped)] _ rfl rfl rfl rfl rfl rfl (by simp [curOf]) hq.1
  | fullRetry e => subst e; exact keep [.ring (.ret t .full)] _ _ rfl rfl rfl rfl rfl (by simp [curOf])
  | stopClose h e =>
    subst e
    rcases h with rfl | rfl
    · refine ⟨by rw [heapsReadied_append, handed_append]; simpa [handed, heapsReadied, restOf] using f.hand, ?_, ?_, ?_⟩
      · rw [ringEvs_append, isClosed_append]; intro h; simp [ringEvs, isClosed] at h
      · rw [ringEvs_append, pushed_append, heapsReadied_append]; simpa [ringEvs, pushed, heapsReadied] using f.pre
      · intro h
        rw [stopCalled_append] at h
        have h2 := (f.net (by cases h6 : stopCalled tr <;> simp_all)).1
        refine ⟨?_, fun _ => ⟨hfin rfl, rfl, rfl⟩⟩
        rw [ringEvs_append, pushed_append, heapsReadied_append]
        simpa [ringEvs, pushed, heapsReadied, curOf] using h2
    · cases hh
  | stopSeal h e =>
    subst e
    exact keep [.ring (.seal t)] _ _ rfl rfl rfl rfl rfl (by rcases h with rfl | rfl <;> simp [curOf])
  | stopSpace h e => subst e; exact keep [] _ _ rfl rfl rfl rfl rfl (by rcases h with rfl | rfl <;> simp [curOf])
  | stopUser e => cases hh
  | popGet h e => rcases h with rfl | rfl <;> cases hh
  | popEmpty h e => rcases h with rfl | rfl <;> cases hh
  | popOut h e => rcases h with rfl | rfl <;> cases hh
  | popRefused h e => rcases h with rfl | rfl <;> cases hh
  | popHeap h e => cases hh
  | popSkip h e => cases hh
  | popLive e => cases hh
  | popBack h e => rcases h with rfl | rfl <;> cases hh
  | popEnd h e => rcases h with rfl | rfl <;> cases hh
  | popNone h e => rcases h with rfl | rfl <;> cases hh
  | finish e => subst e; exact keep [.ring (.call t .stop)] _ _ rfl rfl rfl rfl rfl rfl
  | ready hw e =>
    rename_i h hs fin
    subst e
    have hev : ringEvs [.ready t h, .ring (.call t (.push h false))] = [.call t (.push h false)] := rfl
    have hF : (heapsReadied (tr ++ [.ready t h, .ring (.call t (.push h false))])).filter cfg.wants = (heapsReadied tr).filter cfg.wants ++ [h] := by
      rw [heapsReadied_append, List.filter_append]; simp [heapsReadied, hw]
    have hp' : pushed (ringEvs (tr ++ [.ready t h, .ring (.call t (.push h false))])) = pushed (ringEvs tr) := by
      rw [ringEvs_append, pushed_append, hev]; exact List.append_nil _
    have hc' : isClosed (ringEvs (tr ++ [.ready t h, .ring (.call t (.push h false))])) = isClosed (ringEvs tr) := by
      rw [ringEvs_append, isClosed_append, hev]; exact Bool.or_false _
    refine ⟨?_, ?_, ?_, ?_⟩
    · have := f.hand
      rw [heapsReadied_append, handed_append]
      simpa [handed, heapsReadied, restOf] using this
    · rw [hF, hp', hc']; intro h2
      have := f.opened h2
      simpa [curOf] using this
    · rw [hF, hp']
      exact f.pre.trans (List.prefix_append _ _)
    · rw [hF, hp', hc']; intro h2
      rw [stopCalled_append] at h2
      have h3 := f.net (by cases h6 : stopCalled tr <;> simp_all)
      refine ⟨by have := h3.1; simpa [curOf] using this, fun h4 => ?_⟩
      exact absurd (h3.2 h4).2.1 (by simp [restOf])
  | ignore hw e =>
    rename_i h hs fin
    subst e
    have hF : (heapsReadied (tr ++ [.ready t h])).filter cfg.wants = (heapsReadied tr).filter cfg.wants := by
      rw [heapsReadied_append, List.filter_append]; simp [heapsReadied, hw]
    have hp' : pushed (ringEvs (tr ++ [.ready t h])) = pushed (ringEvs tr) := by
      rw [ringEvs_append, pushed_append]; exact List.append_nil _
    have hc' : isClosed (ringEvs (tr ++ [.ready t h])) = isClosed (ringEvs tr) := by
      rw [ringEvs_append, isClosed_append]; exact Bool.or_false _
    refine ⟨?_, ?_, ?_, ?_⟩
    · have := f.hand
      rw [heapsReadied_append, handed_append]
      simpa [handed, heapsReadied, restOf] using this
    · rw [hF, hp', hc']; intro h2
      have := f.opened h2
      simpa [curOf] using this
    · rw [hF, hp']; exact f.pre
    · rw [hF, hp', hc']; intro h2
      rw [stopCalled_append] at h2
      have h3 := f.net (by cases h6 : stopCalled tr <;> simp_all)
      refine ⟨by have := h3.1; simpa [curOf] using this, fun h4 => ?_⟩
      exact absurd (h3.2 h4).2.1 (by simp [restOf])
  | again e => subst e; exact keep [.ring (.call t (.push _ true))] _ _ rfl rfl rfl rfl rfl (by simp [curOf])

end Spead2
