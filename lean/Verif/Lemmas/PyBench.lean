import Verif.Spec.PyBench

/-!
# Lemmas about the agent of the Python benchmark
-/

namespace Spead2.PyBench

/-- Replies in turn; the flag says that the last one was to a start command. -/
inductive Alt : Bool → List Reply → Prop where
  | nil : Alt false []
  | ready {l} : Alt false l → Alt true (l ++ [.ready])
  | heaps {l n} : Alt true l → Alt false (l ++ [.heaps n])

theorem Alt.alternate {b : Bool} {l : List Reply} (h : Alt b l) :
    (b = false → ∀ m, Alternate m → Alternate (l ++ m)) ∧ (b = true → Alternate l ∧ ∀ n m, Alternate m → Alternate (l ++ .heaps n :: m)) := by
  induction h with
  | nil => exact ⟨fun _ m hm => hm, fun h => (by cases h)⟩
  | ready h ih =>
    refine ⟨fun h => (by cases h), fun _ => ⟨ih.1 rfl [.ready] trivial, ?_⟩⟩
    intro n m hm
    rw [List.append_assoc]
    exact ih.1 rfl _ hm
  | heaps h ih =>
    refine ⟨fun _ m hm => ?_, fun h => (by cases h)⟩
    rw [List.append_assoc]
    exact (ih.2 rfl).2 _ _ hm

theorem get_push {α : Type} (l : List α) (x : α) (p : Nat) : (l ++ [x])[p]? = if p = l.length then some x else l[p]? := by
  by_cases h : p < l.length
  · rw [List.getElem?_append_left h, if_neg (by omega)]
  · rw [List.getElem?_append_right (by omega)]
    by_cases h2 : p = l.length
    · simp [h2]
    · rw [if_neg h2, List.getElem?_eq_none (by simp; omega), List.getElem?_eq_none (by omega)]

theorem get_set {α : Type} {l : List α} {p : Nat} {x y : α} (hx : l[p]? = some x) (q : Nat) : (l.set p y)[q]? = if q = p then some y else l[q]? := by
  have hlt : p < l.length := (List.getElem?_eq_some_iff.1 hx).1
  by_cases h : q = p
  · subst h; simp [hlt]
  · rw [if_neg h, List.getElem?_set_ne (by omega)]

/-- What is known about a connection. -/
structure ConnOk (s : St) (x : Conn) : Prop where
  cur : ∀ k, x.cur = some k → k < s.streams.length
  wait : x.phase = .stopping ∨ x.phase = .closing → ∃ (k : Nat) (y : Stream), x.cur = some k ∧ s.streams[k]? = some y ∧ y.recv = false
  over : x.phase = .over → x.cur = none
  turn : x.phase ≠ .over → Alt x.cur.isSome x.replies
  alt : ∃ b, Alt b x.replies

structure Inv (s : St) : Prop where
  conns : ∀ x ∈ s.conns, ConnOk s x
  uniq : ∀ (c c' : Nat) (x x' : Conn) (k : Nat), s.conns[c]? = some x → s.conns[c']? = some x' → x.cur = some k → x'.cur = some k → c = c'
  takes : ∀ y ∈ s.streams, y.taken ≤ y.pushed
  ports : ∀ (i j : Nat) (x y : Stream), s.streams[i]? = some x → s.streams[j]? = some y → x.recv = true → y.recv = true → x.port = y.port → i = j

theorem Inv.setConn {s : St} (hi : Inv s) {c : Nat} {x x' : Conn} (hx : s.conns[c]? = some x) (hok : ConnOk s x') (hcur : x'.cur = none ∨ x'.cur = x.cur) : Inv (s.setConn c x') := by
  refine ⟨?_, ?_, hi.takes, hi.ports⟩
  · intro z hz
    have hz : z ∈ s.conns.set c x' := hz
    rcases List.mem_or_eq_of_mem_set hz with h | h
    · exact ⟨(hi.conns z h).cur, (hi.conns z h).wait, (hi.conns z h).over, (hi.conns z h).turn, (hi.conns z h).alt⟩
    · rw [h]; exact ⟨hok.cur, hok.wait, hok.over, hok.turn, hok.alt⟩
  · intro a b y z k ha hb hy hz
    have ha : (s.conns.set c x')[a]? = some y := ha
    have hb : (s.conns.set c x')[b]? = some z := hb
    rw [get_set hx] at ha hb
    have key : ∀ (d : Nat) (v : Conn), (if d = c then some x' else s.conns[d]?) = some v → v.cur = some k → ∃ u, s.conns[d]? = some u ∧ u.cur = some k := by
      intro d v hd hv
      split at hd
      · rename_i hdc
        cases hd
        rcases hcur with h | h
        · rw [h] at hv; cases hv
        · exact ⟨x, by rw [hdc]; exact hx, by rw [← h]; exact hv⟩
      · exact ⟨v, hd, hv⟩
    obtain ⟨u, hu, hu'⟩ := key a y ha hy
    obtain ⟨v, hv, hv'⟩ := key b z hb hz
    exact hi.uniq a b u v k hu hv hu' hv'

theorem Inv.setStream {s : St} (hi : Inv s) {k : Nat} {y y' : Stream} (hy : s.streams[k]? = some y) (hp : y'.port = y.port) (ht : y'.taken ≤ y'.pushed) (hr : y'.recv = true → y.recv = true) :
    Inv { s with streams := s.streams.set k y' } := by
  have hget := get_set (y := y') hy
  refine ⟨?_, hi.uniq, ?_, ?_⟩
  · intro x hx
    have h := hi.conns x hx
    refine ⟨fun j hj => by rw [List.length_set]; exact h.cur j hj, ?_, h.over, h.turn, h.alt⟩
    intro hw
    obtain ⟨j, z, h1, h2, h3⟩ := h.wait hw
    by_cases hj : j = k
    · refine ⟨j, y', h1, ?_, ?_⟩
      · show (s.streams.set k y')[j]? = _
        rw [hget, if_pos hj]
      · rw [hj, hy] at h2
        cases h2
        cases hr' : y'.recv with
        | false => rfl
        | true => have := hr hr'; rw [h3] at this; cases this
    · exact ⟨j, z, h1, (by show (s.streams.set k y')[j]? = _; rw [hget, if_neg hj]; exact h2), h3⟩
  · intro z hz
    rcases List.mem_or_eq_of_mem_set hz with h | h
    · exact hi.takes z h
    · rw [h]; exact ht
  · intro i j a b ha hb har hbr hab
    have ha : (s.streams.set k y')[i]? = some a := ha
    have hb : (s.streams.set k y')[j]? = some b := hb
    rw [hget] at ha hb
    have key : ∀ (d : Nat) (v : Stream), (if d = k then some y' else s.streams[d]?) = some v → v.recv = true → ∃ u, s.streams[d]? = some u ∧ u.recv = true ∧ u.port = v.port := by
      intro d v hd hv
      split at hd
      · rename_i hdk
        cases hd
        exact ⟨y, by rw [hdk]; exact hy, hr hv, hp.symm⟩
      · exact ⟨v, hd, hv, rfl⟩
    obtain ⟨u, hu, hu', hu''⟩ := key i a ha har
    obtain ⟨v, hv, hv', hv''⟩ := key j b hb hbr
    exact hi.ports i j u v hu hv hu' hv' (by rw [hu'', hv'', hab])

theorem Inv.halt {s : St} (hi : Inv s) (k : Nat) : Inv (s.halt k) := by
  unfold St.halt
  split
  · rename_i y hy
    exact hi.setStream hy rfl (hi.takes y (List.mem_of_getElem? hy)) (fun h => by cases h)
  · exact hi

theorem halt_get (s : St) {k : Nat} {y : Stream} (hy : s.streams[k]? = some y) : (s.halt k).streams[k]? = some y.halt := by
  unfold St.halt
  rw [hy]
  show (s.streams.set k y.halt)[k]? = _
  rw [get_set hy, if_pos rfl]

theorem halt_conns (s : St) (k : Nat) : (s.halt k).conns = s.conns ∧ (s.halt k).streams.length = s.streams.length ∧ (s.halt k).up = s.up ∧ (s.halt k).ibv = s.ibv := by
  unfold St.halt
  split
  · exact ⟨rfl, by simp, rfl, rfl⟩
  · exact ⟨rfl, rfl, rfl, rfl⟩

theorem atLine_some {s : St} {c : Nat} {x : Conn} (h : s.atLine c = some x) : s.conns[c]? = some x ∧ x.phase = .line := by
  unfold St.atLine at h
  split at h
  · rename_i y hy
    split at h
    · cases h; exact ⟨hy, by assumption⟩
    · cases h
  · cases h

theorem bound_false {s : St} {port : Nat} (h : s.bound port = false) {y : Stream} (hy : y ∈ s.streams) (hr : y.recv = true) : y.port ≠ port := by
  unfold St.bound at h
  rw [List.any_eq_false] at h
  have := h y hy
  simp only [hr, Bool.true_and, beq_iff_eq] at this
  exact this

theorem Inv.start {s : St} (hi : Inv s) {c : Nat} {x : Conn} (hx : s.conns[c]? = some x) (hl : x.phase = .line) (port : Nat) (opt : Bool) : Inv (s.start c x port opt) := by
  have hok := hi.conns x (List.mem_of_getElem? hx)
  unfold St.start
  split
  · exact hi
  · rename_i hc
    split
    · exact ⟨fun z hz => ⟨(hi.conns z hz).cur, (hi.conns z hz).wait, (hi.conns z hz).over, (hi.conns z hz).turn, (hi.conns z hz).alt⟩, hi.uniq, hi.takes, hi.ports⟩
    · split
      · exact hi.setConn hx ⟨(fun k h => by rw [hc] at h; cases h), (fun h => by rcases h with h | h <;> cases h), fun _ => hc, fun h => absurd rfl h, hok.alt⟩ (Or.inl hc)
      · rename_i hb
        have hb : s.bound port = false := by simpa using hb
        have hget := get_push s.streams ({ port := port } : Stream)
        have hturn : Alt false x.replies := by
          have := hok.turn (by rw [hl]; simp)
          rw [hc] at this
          exact this
        refine ⟨?_, ?_, ?_, ?_⟩
        · intro z hz
          have hz : z ∈ s.conns.set c _ := hz
          rcases List.mem_or_eq_of_mem_set hz with h | h
          · have hz := hi.conns z h
            refine ⟨fun k hk => ?_, fun hw => ?_, hz.over, hz.turn, hz.alt⟩
            · show k < (s.streams ++ [_]).length
              have := hz.cur k hk
              rw [List.length_append]; omega
            · obtain ⟨k, y, h1, h2, h3⟩ := hz.wait hw
              refine ⟨k, y, h1, ?_, h3⟩
              show (s.streams ++ [_])[k]? = _
              rw [hget, if_neg (by have := hz.cur k h1; omega)]
              exact h2
          · rw [h]
            refine ⟨fun k hk => ?_, fun hw => ?_, fun ho => ?_, fun _ => Alt.ready hturn, ⟨true, Alt.ready hturn⟩⟩
            · cases hk; show s.streams.length < (s.streams ++ [_]).length; simp
            · rw [show ({ x with cur := some s.streams.length, replies := x.replies ++ [.ready] } : Conn).phase = .line from hl] at hw
              rcases hw with hw | hw <;> cases hw
            · rw [show ({ x with cur := some s.streams.length, replies := x.replies ++ [.ready] } : Conn).phase = .line from hl] at ho
              cases ho
        · intro a b y z k ha hb' hy hz
          have ha : (s.conns.set c _)[a]? = some y := ha
          have hb' : (s.conns.set c _)[b]? = some z := hb'
          rw [get_set hx] at ha hb'
          have key : ∀ (d : Nat) (v : Conn), (if d = c then some ({ x with cur := some s.streams.length, replies := x.replies ++ [.ready] } : Conn) else s.conns[d]?) = some v → v.cur = some k →
              (d = c ∧ k = s.streams.length) ∨ (s.conns[d]? = some v ∧ k < s.streams.length) := by
            intro d v hd hv
            split at hd
            · rename_i hdc
              cases hd
              cases hv
              exact Or.inl ⟨hdc, rfl⟩
            · exact Or.inr ⟨hd, (hi.conns v (List.mem_of_getElem? hd)).cur k hv⟩
          rcases key a y ha hy with ⟨h1, h2⟩ | ⟨h1, h2⟩ <;> rcases key b z hb' hz with ⟨h3, h4⟩ | ⟨h3, h4⟩
          · rw [h1, h3]
          · omega
          · omega
          · exact hi.uniq a b y z k h1 h3 hy hz
        · intro z hz
          have hz : z ∈ s.streams ++ [_] := hz
          rcases List.mem_append.1 hz with h | h
          · exact hi.takes z h
          · rw [List.mem_singleton.1 h]; exact Nat.le_refl _
        · intro i j a b ha hb' har hbr hab
          have ha : (s.streams ++ [_])[i]? = some a := ha
          have hb' : (s.streams ++ [_])[j]? = some b := hb'
          rw [hget] at ha hb'
          split at ha
          · rename_i hi'
            split at hb'
            · omega
            · cases ha
              exact absurd hab.symm (bound_false hb (List.mem_of_getElem? hb') hbr)
          · split at hb'
            · cases hb'
              exact absurd hab (bound_false hb (List.mem_of_getElem? ha) har)
            · exact hi.ports i j a b ha hb' har hbr hab

theorem ConnOk.of_streams {s s' : St} {x : Conn} (h : ConnOk s x) (hs : s'.streams = s.streams) : ConnOk s' x :=
  ⟨by rw [hs]; exact h.cur, by rw [hs]; exact h.wait, h.over, h.turn, h.alt⟩

/-- After a stream was stopped its connection waits for it. -/
theorem Inv.await {s : St} (hi : Inv s) {c k : Nat} {x : Conn} (hx : s.conns[c]? = some x) (hl : x.phase = .line) (hc : x.cur = some k) {p : Phase} (hp : p = .stopping ∨ p = .closing) :
    Inv ((s.halt k).setConn c { x with phase := p }) := by
  have hok := hi.conns x (List.mem_of_getElem? hx)
  have hlt := hok.cur k hc
  have hy : s.streams[k]? = some s.streams[k] := List.getElem?_eq_getElem hlt
  have hne : p ≠ .over := by rcases hp with h | h <;> rw [h] <;> simp
  refine (hi.halt k).setConn (x := x) (by rw [(halt_conns s k).1]; exact hx) ⟨?_, ?_, fun h => absurd h hne, ?_, hok.alt⟩ (Or.inr rfl)
  · intro j hj
    rw [(halt_conns s k).2.1]
    exact hok.cur j hj
  · intro _
    exact ⟨k, _, hc, halt_get s hy, rfl⟩
  · intro _
    exact hok.turn (by rw [hl]; simp)

theorem step_inv {s s' : St} (hi : Inv s) {e : Ev} (h : s.step e = some s') : Inv s' := by
  unfold St.step at h
  split at h
  · cases e with
    | connect =>
      simp only [Option.some.injEq] at h
      subst h
      refine ⟨?_, ?_, hi.takes, hi.ports⟩
      · intro x hx
        rcases List.mem_append.1 hx with hx | hx
        · exact (hi.conns x hx).of_streams rfl
        · rw [List.mem_singleton.1 hx]
          exact ⟨(fun k h => by cases h), (fun h => by rcases h with h | h <;> cases h), fun _ => rfl, fun _ => Alt.nil, ⟨false, Alt.nil⟩⟩
      · intro a b x y k ha hb hx hy
        have ha : (s.conns ++ [_])[a]? = some x := ha
        have hb : (s.conns ++ [_])[b]? = some y := hb
        rw [get_push] at ha hb
        split at ha
        · cases ha; cases hx
        · split at hb
          · cases hb; cases hy
          · exact hi.uniq a b x y k ha hb hx hy
    | start c port opt =>
      simp only [Option.map_eq_some_iff] at h
      obtain ⟨x, hx, h⟩ := h
      subst h
      exact hi.start (atLine_some hx).1 (atLine_some hx).2 port opt
    | stop c =>
      simp only [Option.map_eq_some_iff] at h
      obtain ⟨x, hx, h⟩ := h
      subst h
      obtain ⟨hx, hl⟩ := atLine_some hx
      unfold St.stop
      split
      · exact hi
      · rename_i k hc
        exact hi.await hx hl hc (Or.inl rfl)
    | exit c =>
      simp only [Option.map_eq_some_iff] at h
      obtain ⟨x, hx, h⟩ := h
      subst h
      obtain ⟨hx, hl⟩ := atLine_some hx
      have hok := hi.conns x (List.mem_of_getElem? hx)
      unfold St.exit
      split
      · rename_i hc
        exact hi.setConn hx ⟨(fun k h => by rw [hc] at h; cases h), (fun h => by rcases h with h | h <;> cases h), fun _ => hc, fun h => absurd rfl h, hok.alt⟩ (Or.inl hc)
      · rename_i k hc
        exact hi.await hx hl hc (Or.inr rfl)
    | other c =>
      simp only [Option.map_eq_some_iff] at h
      obtain ⟨x, hx, h⟩ := h
      subst h
      exact hi
    | fault c =>
      simp only [Option.map_eq_some_iff] at h
      obtain ⟨x, hx, h⟩ := h
      subst h
      obtain ⟨hx, hl⟩ := atLine_some hx
      have hok := hi.conns x (List.mem_of_getElem? hx)
      exact hi.setConn hx ⟨(fun k h => by cases h), (fun h => by rcases h with h | h <;> cases h), fun _ => rfl, fun h => absurd rfl h, hok.alt⟩ (Or.inl rfl)
    | resume c =>
      simp only at h
      split at h
      · rename_i x hx
        have hok := hi.conns x (List.mem_of_getElem? hx)
        split at h
        · rename_i k hc
          split at h
          · rename_i y hy
            split at h
            · unfold St.resume at h
              split at h
              · rename_i hp
                cases h
                have hturn : Alt true x.replies := by
                  have := hok.turn (by rw [hp]; simp)
                  rw [hc] at this
                  exact this
                exact hi.setConn hx ⟨(fun k h => by cases h), (fun h => by rcases h with h | h <;> cases h), fun _ => rfl, fun _ => Alt.heaps hturn, ⟨_, Alt.heaps hturn⟩⟩ (Or.inl rfl)
              · cases h
                exact hi.setConn hx ⟨(fun k h => by cases h), (fun h => by rcases h with h | h <;> cases h), fun _ => rfl, fun h => absurd rfl h, hok.alt⟩ (Or.inl rfl)
              · cases h
            · cases h
          · cases h
        · cases h
      · cases h
    | heap k =>
      simp only at h
      split at h
      · rename_i y hy
        split at h
        · rename_i hr
          cases h
          have := hi.takes y (List.mem_of_getElem? hy)
          exact hi.setStream hy rfl (by show y.taken ≤ y.pushed + 1; omega) (fun _ => hr)
        · cases h
      · cases h
    | take k =>
      simp only at h
      split at h
      · rename_i y hy
        split at h
        · rename_i hr
          cases h
          exact hi.setStream hy rfl (by show y.taken + 1 ≤ y.pushed; omega) (fun h => h)
        · cases h
      · cases h
    | finish k =>
      simp only at h
      split at h
      · rename_i y hy
        split at h
        · cases h
          exact hi.setStream hy rfl (hi.takes y (List.mem_of_getElem? hy)) (fun h => by cases h)
        · cases h
      · cases h
  · cases h

theorem run_inv {ibv : Bool} {s : St} (h : Run ibv s) : Inv s := by
  induction h with
  | init => exact ⟨(fun x hx => by cases hx), (fun c c' x x' k h => by simp at h), (fun y hy => by cases hy), (fun i j x y h => by simp at h)⟩
  | step _ hs ih => exact step_inv ih hs

theorem Calm.run {ibv : Bool} {s : St} (h : Calm ibv s) : Run ibv s := by
  induction h with
  | init => exact .init
  | step _ hs _ ih => exact .step ih hs

end Spead2.PyBench
