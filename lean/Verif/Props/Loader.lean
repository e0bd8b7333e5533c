import Verif.Lemmas.Loader

/-!
# C103: libraries loaded at run time

Full property: whatever the threads do, every call runs the function of the library or raises the error that says why it cannot, and `has_…` tells whether the function can be called.
That is false: `has_…` answers yes if the library does not work at all, and a call made while another thread finds that a function is missing can enter a library that is being closed.
-/

namespace Spead2.Loader

/-- If the library works or is absent, every call does what is expected, for every schedule of any number of threads. -/
theorem C103_call (d : Decl) (l : Lib) (threads : Nat) (evs : List Ev) (s : St) (hr : run d l (start threads) evs = some s)
    (hw : Works d l ∨ l.present = false) (i : Nat) (o : Outcome) (ho : (Op.call i, o) ∈ s.out) : i < d.n ∧ Expected d l i o := by
  have h := (inv_run evs (inv_start d l threads) hr).out _ ho
  cases o with
  | ran =>
    obtain ⟨h0, h1, h2⟩ := h
    rcases hw with w | a
    · exact ⟨h0, Or.inl ⟨w, h2, rfl⟩⟩
    · rw [h1] at a; cases a
  | raised e =>
    obtain ⟨h0, h⟩ := h
    refine ⟨h0, ?_⟩
    rcases h with h | ⟨rfl, h1, h2⟩
    · exact Or.inr (Or.inr ⟨reason_not_works h, e, h, rfl⟩)
    · rcases hw with w | a
      · exact Or.inr (Or.inl ⟨w, h2, rfl⟩)
      · rw [h1] at a; cases a
  | crashed =>
    obtain ⟨_, h1, h2⟩ := h
    rcases hw with w | a
    · exact absurd w h2
    · rw [h1] at a; cases a
  | answered b => exact absurd h (by simp [OutOk])

/-- Every call does what is expected if no call starts while another thread is loading the library. -/
theorem C103_partial (d : Decl) (l : Lib) (threads : Nat) (evs : List Ev) (s : St) (hr : run d l (start threads) evs = some s)
    (hc : Calm d l (start threads) evs) (i : Nat) (o : Outcome) (ho : (Op.call i, o) ∈ s.out) : Expected d l i o := by
  refine (calm_run evs (inv_start d l threads) ⟨?_, ?_⟩ hc hr).out i o ho
  · intro i tgt h
    have := (List.mem_replicate.mp h).2
    cases this
  · intro i o h; cases h

/-- In particular, every call does what is expected in a program with one thread. -/
theorem C103_single (d : Decl) (l : Lib) (evs : List Ev) (s : St) (hr : run d l (start 1) evs = some s)
    (i : Nat) (o : Outcome) (ho : (Op.call i, o) ∈ s.out) : Expected d l i o :=
  C103_partial d l 1 evs s hr (calm_single evs (inv_start d l 1) (by simp [start]) hr) i o ho

/-- Errors that say why the library does not work are all the same. -/
theorem C103_same (d : Decl) (l : Lib) (threads : Nat) (evs : List Ev) (s : St) (hr : run d l (start threads) evs = some s)
    (i j : Nat) (e f : Err) (he : (Op.call i, Outcome.raised e) ∈ s.out) (hf : (Op.call j, Outcome.raised f) ∈ s.out)
    (hi : e ≠ .unsupported i) (hj : f ≠ .unsupported j) : e = f := by
  have h := inv_run evs (inv_start d l threads) hr
  rcases (h.out _ he).2 with a | a
  · rcases (h.out _ hf).2 with b | b
    · exact reason_unique a b
    · exact absurd b.1 hj
  · exact absurd a.1 hi

/-- The library is opened at most once; it is closed, and a message logged, at most once and only if it does not work. -/
theorem C103_once (d : Decl) (l : Lib) (threads : Nat) (evs : List Ev) (s : St) (hr : run d l (start threads) evs = some s) :
    s.opens ≤ 1 ∧ s.closes ≤ s.opens ∧ s.logs ≤ 1 ∧ (Works d l → s.closes = 0 ∧ s.logs = 0) ∧
    (s.mapped = true → s.opens = 1 ∧ s.closes = 0) := by
  have h := (inv_run evs (inv_start d l threads) hr).once
  have fresh : Fresh s → s.opens ≤ 1 ∧ s.closes ≤ s.opens ∧ s.logs ≤ 1 ∧ (Works d l → s.closes = 0 ∧ s.logs = 0) ∧
      (s.mapped = true → s.opens = 1 ∧ s.closes = 0) := by
    rintro ⟨_, m, _, a, b, c⟩
    exact ⟨by omega, by omega, by omega, fun _ => ⟨b, c⟩, fun g => by rw [m] at g; cases g⟩
  have loading : ∀ k, Loading d l s k → s.opens ≤ 1 ∧ s.closes ≤ s.opens ∧ s.logs ≤ 1 ∧ (Works d l → s.closes = 0 ∧ s.logs = 0) ∧
      (s.mapped = true → s.opens = 1 ∧ s.closes = 0) := by
    rintro k ⟨_, _, _, _, a, b, c, _, _⟩
    exact ⟨by omega, by omega, by omega, fun _ => ⟨b, c⟩, fun _ => ⟨a, b⟩⟩
  have failed : ∀ k n, n ≤ 1 → Failed d l s k n → s.opens ≤ 1 ∧ s.closes ≤ s.opens ∧ s.logs ≤ 1 ∧ (Works d l → s.closes = 0 ∧ s.logs = 0) ∧
      (s.mapped = true → s.opens = 1 ∧ s.closes = 0) := by
    rintro k n hn ⟨_, ⟨e, hre, _⟩, m, a, b, c, _⟩
    have hb : s.closes ≤ 1 := by rw [b]; split <;> omega
    exact ⟨by omega, by omega, by omega, fun w => absurd w (reason_not_works hre), fun g => by rw [m] at g; cases g⟩
  match ho : s.once with
  | .idle => rw [ho] at h; exact fresh h
  | .running _ .opening => rw [ho] at h; exact fresh h
  | .running _ (.sym k) => rw [ho] at h; exact loading k h
  | .running _ (.closing k) => rw [ho] at h; exact loading k h.1
  | .running _ (.resetting k) => rw [ho] at h; exact failed k 0 (by omega) h
  | .done =>
    rw [ho] at h
    rcases h with h | h
    · exact loading _ h.2
    · exact failed _ 1 (by omega) h

/-- When loading is over, there was one attempt to open the library; it is open, and no message was logged, exactly if it works. -/
theorem C103_opened (d : Decl) (l : Lib) (threads : Nat) (evs : List Ev) (s : St) (hr : run d l (start threads) evs = some s)
    (hd : s.once = .done) : s.opens = 1 ∧ (Works d l ↔ s.logs = 0) ∧ (Works d l ↔ s.mapped = true) := by
  have h := (inv_run evs (inv_start d l threads) hr).once
  rw [hd] at h
  rcases h with ⟨w, _, _, m, _, a, _, b, _, _⟩ | ⟨_, ⟨e, hre, _⟩, m, a, _, b, _⟩
  · exact ⟨a, ⟨fun _ => b, fun _ => w⟩, ⟨fun _ => m, fun _ => w⟩⟩
  · refine ⟨a, ⟨fun w => absurd w (reason_not_works hre), fun g => ?_⟩, ⟨fun w => absurd w (reason_not_works hre), fun g => ?_⟩⟩
    · omega
    · rw [m] at g; cases g

/-- `has_…` tells the truth if the library works. -/
theorem C103_query (d : Decl) (l : Lib) (threads : Nat) (evs : List Ev) (s : St) (hr : run d l (start threads) evs = some s)
    (hw : Works d l) (i : Nat) (o : Outcome) (ho : (Op.query i, o) ∈ s.out) : o = .answered (l.has i) := by
  have h := (inv_run evs (inv_start d l threads) hr).out _ ho
  cases o with
  | answered b => rw [h.1 hw]
  | ran => exact absurd h (by simp [OutOk])
  | raised e => exact absurd h (by simp [OutOk])
  | crashed => exact absurd h (by simp [OutOk])

/-- `has_…` always answers yes if the library does not work. -/
theorem C103_query_wrong (d : Decl) (l : Lib) (threads : Nat) (evs : List Ev) (s : St) (hr : run d l (start threads) evs = some s)
    (hw : ¬ Works d l) (i : Nat) (o : Outcome) (ho : (Op.query i, o) ∈ s.out) : o = .answered true := by
  have h := (inv_run evs (inv_start d l threads) hr).out _ ho
  cases o with
  | answered b => rw [h.2 hw]
  | ran => exact absurd h (by simp [OutOk])
  | raised e => exact absurd h (by simp [OutOk])
  | crashed => exact absurd h (by simp [OutOk])

/-- Calls return: as long as a thread is inside, something can happen, and without new calls only so much can. -/
theorem C103_returns (d : Decl) (l : Lib) (threads : Nat) (evs : List Ev) (s : St) (hr : run d l (start threads) evs = some s) :
    (∀ x ∈ s.thr, x ≠ .idle → ∃ e s', (∀ t i, e ≠ Ev.call t i ∧ e ≠ Ev.query t i) ∧ step d l s e = some s') ∧
    (∀ more s', (∀ e ∈ more, ∀ t i, e ≠ Ev.call t i ∧ e ≠ Ev.query t i) → run d l s more = some s' →
      more.length ≤ 2 * d.n + 6 + 3 * threads) := by
  have h := inv_run evs (inv_start d l threads) hr
  refine ⟨?_, ?_⟩
  · intro x hx hne
    obtain ⟨t, ht⟩ := List.mem_iff_getElem?.mp hx
    exact enabled t x ht hne
  · have len : s.thr.length = threads := by
      have : ∀ (evs : List Ev) (s s' : St), run d l s evs = some s' → s'.thr.length = s.thr.length := by
        intro evs
        induction evs with
        | nil => intro s s' hr; cases hr; rfl
        | cons e es ih =>
          intro s s' hr
          simp only [run] at hr
          split at hr
          · rename_i s1 h1; rw [ih s1 s' hr, step_len h1]
          · cases hr
      rw [this evs _ _ hr]; simp [start]
    have key : ∀ (more : List Ev) (s s' : St), Inv d l s → (∀ e ∈ more, ∀ t i, e ≠ Ev.call t i ∧ e ≠ Ev.query t i) → run d l s more = some s' →
        more.length ≤ total d s := by
      intro more
      induction more with
      | nil => intro s s' _ _ _; exact Nat.zero_le _
      | cons e es ih =>
        intro s s' h hm hr
        simp only [run] at hr
        split at hr
        · rename_i s1 h1
          have a := total_step h h1 (hm e (List.mem_cons_self ..))
          have b := ih s1 s' (inv_step h h1) (fun e' he' => hm e' (List.mem_cons_of_mem _ he')) hr
          simp only [List.length_cons]
          omega
        · cases hr
    intro more s' hm hr'
    have a := key more s s' h hm hr'
    have b : ∀ thr : List Thr, (thr.map weight).sum ≤ 3 * thr.length := by
      intro thr
      induction thr with
      | nil => simp
      | cons x xs ih =>
        have : weight x ≤ 3 := by
          match x with
          | .idle => simp [weight]
          | .loaded _ .first => simp [weight]
          | .loaded _ .stub => simp [weight]
          | .loaded _ .missing => simp [weight]
          | .loaded _ .real => simp [weight]
          | .waiting _ => simp [weight]
        simp only [List.map_cons, List.sum_cons, List.length_cons]
        omega
    have c : left d s.once ≤ 2 * d.n + 6 := by
      match s.once with
      | .idle => simp only [left]; omega
      | .running _ .opening => simp only [left]; omega
      | .running _ (.sym k) => simp only [left]; omega
      | .running _ (.closing _) => simp only [left]; omega
      | .running _ (.resetting k) => simp only [left]; omega
      | .done => simp only [left]; omega
    have := b s.thr
    unfold total at a
    rw [len] at this
    omega

/-- The full property. -/
def C103_statement : Prop :=
  ∀ (d : Decl) (l : Lib) (threads : Nat) (evs : List Ev) (s : St), run d l (start threads) evs = some s →
    (∀ i o, (Op.call i, o) ∈ s.out → Expected d l i o) ∧
    (∀ i b, (Op.query i, Outcome.answered b) ∈ s.out → (b = true ↔ Works d l ∧ l.has i = true))

/-- Three functions, of which the last is optional. -/
def demo : Decl := { n := 3, optional := fun i => decide (i = 2) }

/-- Nothing is installed, and `has_…` is asked for the optional function. -/
def askAbsent : List Ev := [.query 0 2, .enter 0, .init 0, .init 0, .init 0, .init 0, .init 0, .resume 0]

theorem C103_violated : ¬ C103_statement := by
  intro h
  have hr : ∃ s, run demo { present := false, has := fun _ => false } (start 1) askAbsent = some s ∧ (Op.query 2, Outcome.answered true) ∈ s.out :=
    ⟨_, rfl, List.mem_cons_self ..⟩
  obtain ⟨s, hr, ho⟩ := hr
  have := ((h demo _ 1 askAbsent s hr).2 2 true ho).1 rfl
  exact absurd this.1.1 (by decide)

/-- A library that lacks the second function: while thread 0 loads it, thread 1 calls the first. -/
def old : Lib := { present := true, has := fun i => decide (i = 0) }

def race : List Ev :=
  [.call 0 1, .jump 0, .enter 0, .init 0, .init 0, .call 1 0, .init 0, .init 0, .jump 1]

/-- A call that starts while another thread is loading a library that does not work can enter the library after it was closed. -/
theorem C103_race : ∃ s, run demo old (start 2) race = some s ∧ (Op.call 0, Outcome.crashed) ∈ s.out ∧ ¬ Works demo old ∧
    ¬ Expected demo old 0 .crashed := by
  refine ⟨_, rfl, List.mem_cons_self .., ?_, ?_⟩
  · intro w; exact w.2 1 ⟨by decide, by decide, by decide⟩
  · rintro (⟨_, _, h⟩ | ⟨_, _, h⟩ | ⟨_, e, _, h⟩) <;> cases h

/-- The error for a library that is absent has a code that does not test as an error; the others have one that does. -/
theorem C103_falsy (d : Decl) (l : Lib) (threads : Nat) (evs : List Ev) (s : St) (hr : run d l (start threads) evs = some s)
    (i : Nat) (e : Err) (he : (Op.call i, Outcome.raised e) ∈ s.out) : e.truthy = false ↔ l.present = false := by
  have h := (inv_run evs (inv_start d l threads) hr).out _ he
  rcases h.2 with (⟨a, rfl⟩ | ⟨a, k, rfl, _⟩) | ⟨rfl, a, _⟩
  · exact ⟨fun _ => a, fun _ => rfl⟩
  · refine ⟨fun g => ?_, fun g => ?_⟩
    · exact absurd g (by simp [Err.truthy, Err.value])
    · rw [a] at g; cases g
  · refine ⟨fun g => ?_, fun g => ?_⟩
    · exact absurd g (by simp [Err.truthy, Err.value])
    · rw [a] at g; cases g

/-- Memory is registered with the flags that were asked for, except that the optional ones are dropped if the newer function is missing; the older function never gets optional flags. -/
theorem C103_register (h : Bool) (access : BitVec 32) (allow : Bool) :
    ((register h access allow).1 = true → h = true) ∧
    ((register h access allow).2 &&& ~~~ optionalRange = access &&& ~~~ optionalRange) ∧
    ((register h access allow).1 = false → (register h access allow).2 &&& optionalRange = 0#32) ∧
    (h = true → (register h access allow).2 = if allow then access ||| relaxed else access) ∧
    (allow = false → access &&& optionalRange = 0#32 → register h access allow = (false, access)) := by
  have hrel : ∀ a : BitVec 32, (a ||| relaxed) &&& ~~~ optionalRange = a &&& ~~~ optionalRange := by
    intro a
    have : relaxed &&& ~~~ optionalRange = 0#32 := by decide
    rw [BitVec.and_comm, BitVec.and_or_distrib_left, BitVec.and_comm (~~~ optionalRange) relaxed, this, BitVec.or_zero, BitVec.and_comm]
  have hbase : ∀ a : BitVec 32, a &&& ~~~ optionalRange &&& ~~~ optionalRange = a &&& ~~~ optionalRange := by
    intro a; rw [BitVec.and_assoc, BitVec.and_self]
  have hzero : ∀ a : BitVec 32, a &&& ~~~ optionalRange &&& optionalRange = 0#32 := by
    intro a
    have : ~~~ optionalRange &&& optionalRange = 0#32 := by decide
    rw [BitVec.and_assoc, this, BitVec.and_zero]
  have hacc : (if allow then access ||| relaxed else access) &&& ~~~ optionalRange = access &&& ~~~ optionalRange := by
    cases allow
    · rfl
    · exact hrel access
  unfold register
  dsimp only
  generalize hg : (if allow then access ||| relaxed else access) = a at hacc ⊢
  refine ⟨?_, ?_, ?_, ?_, ?_⟩
  · split
    · intro g; cases g
    · split
      · rename_i g; intro _; exact g
      · intro g; cases g
  · split
    · exact hacc
    · split
      · exact hacc
      · show a &&& ~~~ optionalRange &&& ~~~ optionalRange = _
        rw [hbase]; exact hacc
  · split
    · rename_i c; intro _; exact c
    · split
      · intro g; cases g
      · intro _; exact hzero a
  · intro g
    subst g
    split <;> rfl
  · rintro rfl c
    have : access = a := hg
    subst this
    rw [if_pos c]

/-- Registration with relaxed ordering in a library that works calls a function the library has, whichever threads asked for it. -/
theorem C103_register_runs (d : Decl) (l : Lib) (threads : Nat) (evs : List Ev) (s : St) (hr : run d l (start threads) evs = some s)
    (hw : Works d l) (regMr iova2 : Nat) (h1 : regMr < d.n) (h2 : d.optional regMr = false) (b : Bool)
    (ho : (Op.query iova2, Outcome.answered b) ∈ s.out) (access : BitVec 32) :
    l.has (if (register b access true).1 then iova2 else regMr) = true ∧
    ((register b access true).1 = l.has iova2) := by
  have hb : Outcome.answered b = .answered (l.has iova2) := C103_query d l threads evs s hr hw iova2 _ ho
  have hb : b = l.has iova2 := by cases hb; rfl
  have hreg : l.has regMr = true := by
    cases hh : l.has regMr with
    | true => rfl
    | false => exact absurd ⟨h1, hh, h2⟩ (hw.2 regMr)
  have hone : ∀ a : BitVec 32, (a ||| relaxed) &&& optionalRange ≠ 0#32 := by
    intro a e
    have h1 : (a ||| relaxed) &&& optionalRange &&& relaxed = relaxed := by
      have : optionalRange &&& relaxed = relaxed := by decide
      rw [BitVec.and_assoc, this, BitVec.and_comm, BitVec.and_or_distrib_left, BitVec.and_self, BitVec.or_comm]
      ext i hi
      simp only [BitVec.getElem_or, BitVec.getElem_and]
      cases relaxed[i] <;> simp
    rw [e, BitVec.zero_and] at h1
    exact absurd h1 (by decide)
  have hfst : (register b access true).1 = b := by
    unfold register
    dsimp only
    rw [if_pos rfl, if_neg (hone access)]
    cases b <;> rfl
  rw [hfst]
  refine ⟨?_, hb⟩
  cases b with
  | true => exact hb.symm
  | false => exact hreg

/-! ## Concrete cases -/

/-- A library that has everything but the optional function. -/
def new : Lib := { present := true, has := fun i => decide (i < 2) }

theorem new_works : Works demo new := by
  refine ⟨rfl, ?_⟩
  rintro k ⟨h1, h2, h3⟩
  have h1 : k < 3 := h1
  have h2 : ¬ k < 2 := of_decide_eq_false h2
  have h3 : ¬ k = 2 := of_decide_eq_false h3
  omega

example : ∃ s, run demo new (start 3)
    [.call 0 1, .call 1 2, .jump 0, .enter 0, .init 0, .init 0, .call 2 0, .jump 1, .jump 2, .init 0, .init 0, .init 0,
     .resume 0, .jump 0, .resume 1, .jump 1, .query 2 2, .resume 2] = some s ∧
    s.out = [(.query 2, .answered false), (.call 2, .raised (.unsupported 2)), (.call 1, .ran), (.call 0, .ran)] ∧ s.opens = 1 ∧ s.logs = 0 :=
  ⟨_, rfl, rfl, rfl, rfl⟩

/-- One thread and a library that lacks a function: both calls raise the same error, and the library was closed. -/
example : ∃ s, run demo old (start 1)
    [.call 0 0, .jump 0, .enter 0, .init 0, .init 0, .init 0, .init 0, .init 0, .init 0, .init 0, .init 0, .resume 0, .jump 0, .call 0 2, .jump 0] = some s ∧
    s.out = [(.call 2, .raised (.symbol 1)), (.call 0, .raised (.symbol 1))] ∧ s.closes = 1 ∧ s.logs = 1 ∧ Reason demo old (.symbol 1) := by
  refine ⟨_, rfl, rfl, rfl, rfl, Or.inr ⟨rfl, 1, rfl, ⟨by decide, by decide, by decide⟩, ?_⟩⟩
  intro j hj lj
  have : j = 0 := by omega
  subst this
  exact absurd lj.2.1 (by decide)

/-- The only flag the library itself asks for, with relaxed ordering, with and without the newer function. -/
example : register true 1#32 true = (true, 0x00100001#32) ∧ register false 1#32 true = (false, 1#32) := by decide

end Spead2.Loader
