import Verif.Lemmas.PyConnect

/-!
# C98: connecting a TCP stream from Python
-/

namespace Spead2.PyConnect

/-- A stream is returned only if the connection was made; `OSError` has the error of the attempt; and the call ends as cancelled or interrupted only if it was. -/
theorem C98_result {sync : Bool} {evs : List Ev} {s : St} (h : Reach sync evs s) :
    (s.main = .returned → outcome evs = some none) ∧ (∀ e, s.main = .raised (.io e) → outcome evs = some (some e)) ∧ (s.main = .raised .cancelled → .cancel ∈ evs) := by
  have hi := reach_inv h
  exact ⟨hi.ret, fun e he => hi.io e (Or.inr he), fun he => by simpa using hi.canc (Or.inr he)⟩

/-- An exception is raised only after the writer has gone to sleep: nothing uses the stream any more when it is freed. -/
theorem C98_safe {sync : Bool} {s s' : St} {e : Ev} {f : Fail} (hs : s.step sync e = some s') (hn : s.main ≠ .raised f) (hr : s'.main = .raised f) : s'.pool = .asleep := by
  obtain ⟨gil, main, pool, told⟩ := s
  cases e with
  | destroyed =>
    simp only [St.step] at hs
    split at hs
    · rename_i hc; subst hc
      cases main <;> cases hs
      rfl
    · cases hs
  | mainResult =>
    simp only [St.step] at hs
    split at hs
    · cases told with
      | none => cases hs
      | some x => cases x <;> cases hs <;> cases hr
    · cases hs
  | cancel =>
    simp only [St.step] at hs
    split at hs
    · cases hs; cases hr
    · cases hs
  | mainTake => simp only [St.step] at hs; split at hs <;> cases hs; exact absurd hr hn
  | mainYield => simp only [St.step] at hs; split at hs <;> cases hs; exact absurd hr hn
  | connected ec =>
    simp only [St.step] at hs
    split at hs
    · cases sync <;> cases hs <;> exact absurd hr hn
    · cases hs
  | poolTake =>
    simp only [St.step] at hs
    split at hs
    · cases pool <;> cases hs <;> exact absurd hr hn
    · cases hs
  | poolPost =>
    cases pool with
    | callback ec p => cases p <;> cases hs; exact absurd hr hn
    | _ => cases hs
  | poolYield =>
    cases pool with
    | callback ec p => cases hs; exact absurd hr hn
    | _ => cases hs
  | poolEnd =>
    cases pool with
    | callback ec p => cases p <;> cases hs; exact absurd hr hn
    | _ => cases hs
  | poolSleep => simp only [St.step] at hs; split at hs <;> cases hs; exact absurd hr hn

/-- Besides taking and giving up the GIL, at most six things happen. -/
theorem C98_bounded {sync : Bool} {evs : List Ev} {s : St} (h : Reach sync evs s) : (evs.filter Ev.useful).length ≤ 6 := by
  have := rank_run evs h
  have h0 : ({} : St).rank = 6 := rfl
  omega

/-- A call that is not over is dead exactly if the stream is being destroyed and the thread of the pool waits for the GIL. -/
theorem C98_exact {sync : Bool} {evs : List Ev} {s : St} (h : Reach sync evs s) (ho : ¬ s.over) :
    Dead sync s ↔ (∃ f, s.main = .destroying f) ∧ ((∃ ec, s.pool = .wantGil ec) ∨ ∃ ec p, s.pool = .wantBack ec p) := by
  have hi := reach_inv h
  obtain ⟨gil, main, pool, told⟩ := s
  constructor
  · intro hd
    cases main with
    | returned => exact absurd (Or.inl rfl) ho
    | raised f => exact absurd (Or.inr ⟨f, rfl⟩) ho
    | waiting =>
      exfalso
      cases gil with
      | none => exact absurd (hd .mainTake) (by simp [St.step])
      | some t =>
        cases t with
        | main => exact absurd (hd .mainYield) (by simp [St.step])
        | pool =>
          obtain ⟨ec, p, hp⟩ := hi.gilPool.1 rfl
          simp only at hp
          subst hp
          exact absurd (hd .poolYield) (by simp [St.step])
    | destroying f =>
      refine ⟨⟨f, rfl⟩, ?_⟩
      cases pool with
      | connecting => exact absurd (hd (.connected none)) (by cases sync <;> simp [St.step])
      | wantGil ec => exact Or.inl ⟨ec, rfl⟩
      | callback ec p => exact absurd (hd .poolYield) (by simp [St.step])
      | wantBack ec p => exact Or.inr ⟨ec, p, rfl⟩
      | wakeup => exact absurd (hd .poolSleep) (by simp [St.step])
      | asleep => exact absurd (hd .destroyed) (by simp [St.step])
  · intro ⟨⟨f, hf⟩, hp⟩ e
    have hg := hi.gilMain ⟨f, hf⟩
    simp only at hf hg
    subst hf hg
    rcases hp with ⟨ec, hp⟩ | ⟨ec, p, hp⟩ <;> simp only at hp <;> subst hp <;> cases e <;> simp [St.step]

/-- The synchronous constructor never dies, also if it is interrupted. -/
theorem C98_sync {evs : List Ev} {s : St} (h : Reach true evs s) (ho : ¬ s.over) : ¬ Dead true s := by
  rw [C98_exact h ho]
  rintro ⟨_, hp⟩
  have := (reach_inv h).noPool rfl
  rcases hp with ⟨ec, hp⟩ | ⟨ec, p, hp⟩ <;> rw [hp] at this <;> cases this

/-- Nor does the asynchronous one if it is not cancelled, and the callback keeps the GIL from its beginning to its end. -/
theorem C98_partial {evs : List Ev} (hc : .cancel ∉ evs) (hy : .poolYield ∉ evs) {s : St} (h : Reach false evs s) (ho : ¬ s.over) : ¬ Dead false s := by
  rw [C98_exact h ho]
  have key : ∀ (es pre : List Ev) (s s' : St), .cancel ∉ es → .poolYield ∉ es → Reach false pre s → (∀ ec p, s.pool ≠ .wantBack ec p) →
      ((∃ f, s.main = .destroying f) → s.pool = .wakeup ∨ s.pool = .asleep) → St.run false s es = some s' →
      (∀ ec p, s'.pool ≠ .wantBack ec p) ∧ ((∃ f, s'.main = .destroying f) → s'.pool = .wakeup ∨ s'.pool = .asleep) := by
    intro es
    induction es with
    | nil => intro pre s s' _ _ _ h1 h2 hr; simp only [St.run, Option.some.injEq] at hr; subst hr; exact ⟨h1, h2⟩
    | cons e es ih =>
      intro pre s s' hce hye hre h1 h2 hr
      simp only [St.run] at hr
      cases hs : s.step false e with
      | none => rw [hs] at hr; cases hr
      | some s1 =>
        rw [hs] at hr
        have hre' : Reach false (pre ++ [e]) s1 := by
          have : ∀ (l : List Ev) (a b : St), St.run false a l = some b → St.run false a (l ++ [e]) = b.step false e := by
            intro l
            induction l with
            | nil => intro a b hab; simp only [St.run, Option.some.injEq] at hab; subst hab; simp [St.run]
            | cons x l ihl =>
              intro a b hab
              simp only [St.run, List.cons_append] at hab ⊢
              cases hx : a.step false x with
              | none => rw [hx] at hab; cases hab
              | some a1 => rw [hx] at hab; exact ihl a1 b hab
          exact (this pre _ _ hre).trans hs
        refine ih (pre ++ [e]) s1 s' (fun hm => hce (by simp [hm])) (fun hm => hye (by simp [hm])) hre' ?_ ?_ hr
        all_goals
          have hi := reach_inv hre
          obtain ⟨gil, main, pool, told⟩ := s
          simp only at h1 h2
        · intro ec p
          cases e with
          | poolYield => exact absurd (List.mem_cons_self) hye
          | mainTake => simp only [St.step] at hs; split at hs <;> cases hs; exact h1 ec p
          | mainYield => simp only [St.step] at hs; split at hs <;> cases hs; exact h1 ec p
          | connected x => simp only [St.step] at hs; split at hs <;> cases hs; simp
          | poolTake =>
            simp only [St.step] at hs
            split at hs
            · cases pool <;> cases hs <;> simp
            · cases hs
          | poolPost =>
            cases pool with
            | callback ec p => cases p <;> cases hs; simp
            | _ => cases hs
          | poolEnd =>
            cases pool with
            | callback ec p => cases p <;> cases hs; simp
            | _ => cases hs
          | poolSleep => simp only [St.step] at hs; split at hs <;> cases hs; simp
          | mainResult =>
            simp only [St.step] at hs
            split at hs
            · cases told with
              | none => cases hs
              | some x => cases x <;> cases hs <;> exact h1 ec p
            · cases hs
          | cancel => exact absurd (List.mem_cons_self) hce
          | destroyed =>
            simp only [St.step] at hs
            split at hs
            · cases main <;> cases hs; exact h1 ec p
            · cases hs
        · intro hf
          cases e with
          | poolYield => exact absurd (List.mem_cons_self) hye
          | cancel => exact absurd (List.mem_cons_self) hce
          | mainTake => simp only [St.step] at hs; split at hs <;> cases hs; exact h2 hf
          | mainYield => simp only [St.step] at hs; split at hs <;> cases hs; exact h2 hf
          | connected x =>
            simp only [St.step] at hs
            split at hs
            · rename_i hc; subst hc; cases hs; have := h2 hf; simp at this
            · cases hs
          | poolTake =>
            simp only [St.step] at hs
            split at hs
            · cases pool <;> cases hs <;> (have := h2 hf; simp at this)
            · cases hs
          | poolPost =>
            cases pool with
            | callback ec p => cases p <;> cases hs; have := h2 hf; simp at this
            | _ => cases hs
          | poolEnd =>
            cases pool with
            | callback ec p => cases p <;> cases hs; have := h2 hf; simp at this
            | _ => cases hs
          | poolSleep => simp only [St.step] at hs; split at hs <;> cases hs; exact Or.inr rfl
          | mainResult =>
            simp only [St.step] at hs
            split at hs
            · rename_i hcnd
              obtain ⟨e1, e2⟩ := hcnd
              subst e1 e2
              cases told with
              | none => cases hs
              | some x =>
                have hp : pool = .wakeup ∨ pool = .asleep := by
                  cases pool with
                  | connecting =>
                    have a := hi.conn.1 rfl
                    have b := hi.told x rfl
                    rw [a] at b; cases b
                  | wantGil ec => have := hi.telling ⟨ec, rfl⟩; cases this
                  | callback ec p => have := hi.gilPool.2 ⟨ec, p, rfl⟩; cases this
                  | wantBack ec p => exact absurd rfl (h1 ec p)
                  | wakeup => exact Or.inl rfl
                  | asleep => exact Or.inr rfl
                cases x <;> cases hs <;> exact hp
            · cases hs
          | destroyed =>
            simp only [St.step] at hs
            split at hs
            · cases main <;> cases hs
              obtain ⟨f, hf⟩ := hf
              cases hf
            · cases hs
  obtain ⟨k1, k2⟩ := key evs [] {} s hc hy rfl (by simp) (by simp) h
  rintro ⟨hf, hp⟩
  have := k2 hf
  rcases hp with ⟨ec, hp⟩ | ⟨ec, p, hp⟩ <;> rw [hp] at this <;> simp at this

/-- Once the handler is through, the waiting thread needs only the GIL to learn the outcome. -/
theorem C98_told {sync : Bool} {evs : List Ev} {s : St} (h : Reach sync evs s) (hm : s.main = .waiting) (hp : s.pool = .wakeup ∨ s.pool = .asleep) :
    ∃ s', (St.run sync s [.mainResult] = some s' ∨ St.run sync s [.mainTake, .mainResult] = some s') ∧ s'.main ≠ .waiting := by
  have hi := reach_inv h
  obtain ⟨gil, main, pool, told⟩ := s
  simp only at hm hp
  subst hm
  have ht : told = outcome evs := hi.done hp
  have hne : outcome evs ≠ none := fun ho => by
    have := hi.conn.2 ho
    simp only at this
    rcases hp with hp | hp <;> rw [hp] at this <;> cases this
  have hg : gil ≠ some .pool := fun hg => by
    obtain ⟨ec, p, hc⟩ := hi.gilPool.1 hg
    simp only at hc
    rcases hp with hp | hp <;> rw [hp] at hc <;> cases hc
  cases told with
  | none => exact absurd ht.symm hne
  | some x =>
    cases gil with
    | none => cases x <;> exact ⟨_, Or.inr rfl, by simp⟩
    | some t =>
      cases t with
      | pool => exact absurd rfl hg
      | main => cases x <;> exact ⟨_, Or.inl rfl, by simp⟩

/-- A call that is cancelled before the connection is made never ends, whatever happens afterwards; the thread that runs the event loop hangs with the GIL. -/
theorem C98_doomed {evs es : List Ev} {s s' : St} (h : Reach false evs s) (ho : outcome evs = none) {f : Fail} (hm : s.main = .destroying f) (hr : St.run false s es = some s') :
    s'.main = .destroying f := by
  have hi := reach_inv h
  refine doomed_run es hm (hi.gilMain ⟨f, hm⟩) ?_ hr
  rw [hi.conn.2 ho]; rfl

/-- A call always ends. -/
def C98_statement : Prop := ∀ (sync : Bool) (evs : List Ev) (s : St), Reach sync evs s → ¬ s.over → ¬ Dead sync s

theorem C98_violated : ¬ C98_statement := by
  intro hst
  have hr : Reach false [.mainTake, .cancel, .connected none] { gil := some .main, main := .destroying .cancelled, pool := .wantGil none } := rfl
  have ho : ¬ St.over { gil := some .main, main := .destroying .cancelled, pool := .wantGil none } := by simp [St.over]
  exact hst _ _ _ hr ho ((C98_exact hr ho).2 ⟨⟨_, rfl⟩, Or.inl ⟨_, rfl⟩⟩)

/-- The same with a connection that fails, if the event loop gets the GIL while the callback writes to its socket. -/
theorem C98_failed : ∃ evs s, Reach false evs s ∧ .cancel ∉ evs ∧ ¬ s.over ∧ Dead false s := by
  have hr : Reach false [.connected (some 111), .poolTake, .poolPost, .poolYield, .mainTake, .mainResult]
      { gil := some .main, main := .destroying (.io 111), pool := .wantBack (some 111) true, told := some (some 111) } := rfl
  have ho : ¬ St.over { gil := some .main, main := .destroying (.io 111), pool := .wantBack (some 111) true, told := some (some 111) } := by simp [St.over]
  exact ⟨_, _, hr, by simp, ho, (C98_exact hr ho).2 ⟨⟨_, rfl⟩, Or.inr ⟨_, _, rfl⟩⟩⟩

/-- Calls that end: with a stream, with an error, and interrupted. -/
example : ∃ s, Reach false [.connected none, .poolTake, .poolPost, .poolEnd, .mainTake, .mainResult] s ∧ s.main = .returned := ⟨_, rfl, rfl⟩
example : ∃ s, Reach false [.connected (some 111), .poolTake, .poolPost, .poolEnd, .mainTake, .mainResult, .poolSleep, .destroyed] s ∧ s.main = .raised (.io 111) := ⟨_, rfl, rfl⟩
example : ∃ s, Reach true [.mainTake, .cancel, .connected none, .poolSleep, .destroyed] s ∧ s.main = .raised .cancelled := ⟨_, rfl, rfl⟩

end Spead2.PyConnect
