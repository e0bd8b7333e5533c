import Verif.Spec.PyConnect

/-!
# The invariant of connecting from Python
-/

namespace Spead2.PyConnect

/-- The error codes that the pool knows of. -/
def Pool.ec? : Pool → Option (Option Nat)
  | .wantGil ec => some ec
  | .callback ec _ => some ec
  | .wantBack ec _ => some ec
  | _ => none

def outcome (evs : List Ev) : Option (Option Nat) := evs.findSome? (fun e => match e with | .connected ec => some ec | _ => none)

/-- What holds always; `out` is what the operation has reported. -/
structure Inv (sync : Bool) (out : Option (Option Nat)) (cancelled : Bool) (s : St) : Prop where
  conn : s.pool = .connecting ↔ out = none
  ec : ∀ x, s.pool.ec? = some x → out = some x
  told : ∀ x, s.told = some x → out = some x
  telling : (∃ ec, s.pool = .wantGil ec) → s.told = none
  before : ∀ ec, (s.pool = .callback ec false ∨ s.pool = .wantBack ec false) → s.told = none
  after : ∀ ec, (s.pool = .callback ec true ∨ s.pool = .wantBack ec true) → s.told = out
  done : (s.pool = .wakeup ∨ s.pool = .asleep) → s.told = out
  noPool : sync = true → s.pool.ec? = none
  gilPool : s.gil = some .pool ↔ ∃ ec p, s.pool = .callback ec p
  gilMain : (∃ f, s.main = .destroying f) → s.gil = some .main
  gilOver : s.over → s.gil ≠ some .main
  io : ∀ e, (s.main = .destroying (.io e) ∨ s.main = .raised (.io e)) → out = some (some e)
  ret : s.main = .returned → out = some none
  canc : (s.main = .destroying .cancelled ∨ s.main = .raised .cancelled) → cancelled = true

theorem inv_init (sync : Bool) : Inv sync none false {} := by
  constructor <;> simp [Pool.ec?, St.over]

def outStep (out : Option (Option Nat)) : Ev → Option (Option Nat)
  | .connected ec => out.or (some ec)
  | _ => out

set_option maxHeartbeats 2000000 in
theorem inv_step {sync : Bool} {out : Option (Option Nat)} {c : Bool} {s s' : St} {e : Ev} (h : Inv sync out c s) (hs : s.step sync e = some s') :
    Inv sync (outStep out e) (c || e = .cancel) s' := by
  obtain ⟨gil, main, pool, told⟩ := s
  obtain ⟨h1, h2, h3, h4, h5, h6, h7, h8, h9, h10, h11, h12, h13, h14⟩ := h
  cases e with
  | mainTake =>
    simp only [St.step] at hs
    split at hs
    · rename_i hc; obtain ⟨e1, e2⟩ := hc; subst e1 e2; cases hs
      constructor <;> simp_all [St.over, outStep, Pool.ec?]
    · cases hs
  | mainYield =>
    simp only [St.step] at hs
    split at hs
    · rename_i hc; obtain ⟨e1, e2⟩ := hc; subst e1 e2; cases hs
      constructor <;> simp_all [St.over, outStep, Pool.ec?]
    · cases hs
  | connected ec =>
    simp only [St.step] at hs
    split at hs
    · rename_i hc; subst hc
      have ho : out = none := h1.1 rfl
      subst ho
      cases sync with
      | true => cases hs; constructor <;> simp_all [St.over, outStep, Pool.ec?]
      | false =>
        cases hs
        have : told = none := by
          cases ht : told with
          | none => rfl
          | some x => have := h3 x ht; cases this
        constructor <;> simp_all [St.over, outStep, Pool.ec?]
    · cases hs
  | poolTake =>
    simp only [St.step] at hs
    split at hs
    · rename_i hc; subst hc
      cases pool <;> simp only [Option.some.injEq, reduceCtorEq] at hs <;> subst hs <;> constructor <;> simp_all [St.over, outStep, Pool.ec?]
    · cases hs
  | poolPost =>
    cases pool with
    | callback ec p =>
      cases p with
      | false =>
        simp only [St.step, Option.some.injEq] at hs
        subst hs
        constructor <;> simp_all [St.over, outStep, Pool.ec?]
      | true => cases hs
    | _ => cases hs
  | poolYield =>
    cases pool with
    | callback ec p =>
      simp only [St.step, Option.some.injEq] at hs
      subst hs
      constructor <;> simp_all [St.over, outStep, Pool.ec?]
    | _ => cases hs
  | poolEnd =>
    cases pool with
    | callback ec p =>
      cases p with
      | true =>
        simp only [St.step, Option.some.injEq] at hs
        subst hs
        constructor <;> simp_all [St.over, outStep, Pool.ec?]
      | false => cases hs
    | _ => cases hs
  | poolSleep =>
    simp only [St.step] at hs
    split at hs
    · rename_i hc; subst hc; cases hs
      constructor <;> simp_all [St.over, outStep, Pool.ec?] <;> assumption
    · cases hs
  | mainResult =>
    simp only [St.step] at hs
    split at hs
    · rename_i hc; obtain ⟨e1, e2⟩ := hc; subst e1 e2
      cases told with
      | none => cases hs
      | some x =>
        have ho := h3 x rfl
        subst ho
        clear h3 h12 h13 h14 h10 h11
        cases x with
        | none => cases hs; refine ⟨h1, h2, fun _ h => h, h4, h5, h6, h7, h8, ?_, ?_, ?_, ?_, fun _ => rfl, ?_⟩ <;> simp_all [St.over, outStep]
        | some e => cases hs; refine ⟨h1, h2, fun _ h => h, h4, h5, h6, h7, h8, h9, fun _ => rfl, ?_, ?_, ?_, ?_⟩ <;> simp [St.over, outStep]
    · cases hs
  | cancel =>
    simp only [St.step] at hs
    split at hs
    · rename_i hc; obtain ⟨e1, e2⟩ := hc; subst e1 e2; cases hs
      constructor <;> simp_all [St.over, outStep, Pool.ec?]
    · cases hs
  | destroyed =>
    simp only [St.step] at hs
    split at hs
    · rename_i hc; subst hc
      cases main with
      | destroying f => cases hs; constructor <;> simp_all [St.over, outStep, Pool.ec?]
      | _ => cases hs
    · cases hs

theorem outcome_snoc (evs : List Ev) (e : Ev) : outcome (evs ++ [e]) = outStep (outcome evs) e := by
  simp only [outcome, List.findSome?_append]
  cases e <;> simp only [List.findSome?_cons, List.findSome?_nil, outStep, Option.or_none]

theorem run_inv {sync : Bool} (es : List Ev) : ∀ {pre : List Ev} {s s' : St}, Inv sync (outcome pre) (decide (Ev.cancel ∈ pre)) s → St.run sync s es = some s' →
    Inv sync (outcome (pre ++ es)) (decide (Ev.cancel ∈ pre ++ es)) s' := by
  induction es with
  | nil =>
    intro pre s s' hi h
    simp only [St.run, Option.some.injEq] at h
    subst h
    rw [List.append_nil]
    exact hi
  | cons e es ih =>
    intro pre s s' hi h
    simp only [St.run] at h
    cases hs : s.step sync e with
    | none => rw [hs] at h; cases h
    | some s1 =>
      rw [hs] at h
      have h1 := inv_step hi hs
      rw [← outcome_snoc] at h1
      have h2 : (decide (Ev.cancel ∈ pre) || decide (e = Ev.cancel)) = decide (Ev.cancel ∈ pre ++ [e]) := by
        rw [Bool.eq_iff_iff]
        simp only [Bool.or_eq_true, decide_eq_true_eq, List.mem_append, List.mem_singleton]
        rw [eq_comm (a := e)]
      rw [h2] at h1
      have := ih h1 h
      rwa [List.append_assoc] at this

theorem reach_inv {sync : Bool} {evs : List Ev} {s : St} (h : Reach sync evs s) : Inv sync (outcome evs) (decide (Ev.cancel ∈ evs)) s := by
  have := run_inv evs (pre := []) (inv_init sync) h
  rwa [List.nil_append] at this

/-- How much is left to do. -/
def Pool.rank : Pool → Nat
  | .connecting => 4
  | .wantGil _ => 3
  | .callback _ false => 3
  | .wantBack _ false => 3
  | .callback _ true => 2
  | .wantBack _ true => 2
  | .wakeup => 1
  | .asleep => 0

def Main.rank : Main → Nat
  | .waiting => 2
  | .destroying _ => 1
  | _ => 0

def St.rank (s : St) : Nat := s.pool.rank + s.main.rank

theorem rank_step {sync : Bool} {s s' : St} {e : Ev} (hs : s.step sync e = some s') : s'.rank + (if e.useful then 1 else 0) ≤ s.rank := by
  obtain ⟨gil, main, pool, told⟩ := s
  cases e with
  | mainTake => simp only [St.step] at hs; split at hs <;> cases hs; exact Nat.le_refl _
  | mainYield => simp only [St.step] at hs; split at hs <;> cases hs; exact Nat.le_refl _
  | connected ec =>
    simp only [St.step] at hs
    split at hs
    · rename_i hc; subst hc
      cases sync <;> cases hs <;> simp only [St.rank, Pool.rank, Ev.useful, if_true] <;> omega
    · cases hs
  | poolTake =>
    simp only [St.step] at hs
    split at hs
    · cases pool with
      | wantGil ec => cases hs; simp [St.rank, Pool.rank, Ev.useful]
      | wantBack ec p => cases hs; cases p <;> simp [St.rank, Pool.rank, Ev.useful]
      | _ => cases hs
    · cases hs
  | poolPost =>
    cases pool with
    | callback ec p => cases p <;> cases hs; simp only [St.rank, Pool.rank, Ev.useful, if_true]; omega
    | _ => cases hs
  | poolYield =>
    cases pool with
    | callback ec p => cases p <;> cases hs <;> simp [St.rank, Pool.rank, Ev.useful]
    | _ => cases hs
  | poolEnd =>
    cases pool with
    | callback ec p => cases p <;> cases hs; simp only [St.rank, Pool.rank, Ev.useful, if_true]; omega
    | _ => cases hs
  | poolSleep =>
    simp only [St.step] at hs
    split at hs
    · rename_i hc; subst hc; cases hs; simp only [St.rank, Pool.rank, Ev.useful, if_true]; omega
    · cases hs
  | mainResult =>
    simp only [St.step] at hs
    split at hs
    · rename_i hc; obtain ⟨_, e2⟩ := hc; subst e2
      cases told with
      | none => cases hs
      | some x => cases x <;> cases hs <;> simp only [St.rank, Main.rank, Ev.useful, if_true] <;> omega
    · cases hs
  | cancel =>
    simp only [St.step] at hs
    split at hs
    · rename_i hc; obtain ⟨_, e2⟩ := hc; subst e2; cases hs; simp only [St.rank, Main.rank, Ev.useful, if_true]; omega
    · cases hs
  | destroyed =>
    simp only [St.step] at hs
    split at hs
    · cases main with
      | destroying f => cases hs; simp only [St.rank, Main.rank, Ev.useful, if_true]; omega
      | _ => cases hs
    · cases hs

theorem rank_run {sync : Bool} (es : List Ev) : ∀ {s s' : St}, St.run sync s es = some s' → (es.filter Ev.useful).length + s'.rank ≤ s.rank := by
  induction es with
  | nil => intro s s' h; simp only [St.run, Option.some.injEq] at h; subst h; simp
  | cons e es ih =>
    intro s s' h
    simp only [St.run] at h
    cases hs : s.step sync e with
    | none => rw [hs] at h; cases h
    | some s1 =>
      rw [hs] at h
      have h1 := rank_step hs
      have h2 := ih h
      rw [List.filter_cons]
      cases hu : e.useful with
      | true => rw [hu] at h1; simp only [if_true, List.length_cons] at h1 ⊢; omega
      | false => rw [hu] at h1; simp only [Bool.false_eq_true, if_false] at h1 ⊢; omega

/-- The handler still needs the GIL. -/
def Pool.needsGil (sync : Bool) : Pool → Bool
  | .connecting => !sync
  | .wantGil _ => true
  | .wantBack _ _ => true
  | _ => false

theorem doomed_step {s s' : St} {e : Ev} {f : Fail} (hm : s.main = .destroying f) (hg : s.gil = some .main) (hp : s.pool.needsGil false = true) (hs : s.step false e = some s') :
    s'.main = .destroying f ∧ s'.gil = some .main ∧ s'.pool.needsGil false = true := by
  obtain ⟨gil, main, pool, told⟩ := s
  simp only at hm hg hp
  subst hm hg
  cases e <;> cases pool <;> simp [St.step, Pool.needsGil] at hs hp ⊢
  subst hs
  exact ⟨rfl, rfl, rfl⟩

theorem doomed_run {f : Fail} (es : List Ev) : ∀ {s s' : St}, s.main = .destroying f → s.gil = some .main → s.pool.needsGil false = true → St.run false s es = some s' →
    s'.main = .destroying f := by
  induction es with
  | nil => intro s s' hm _ _ h; simp only [St.run, Option.some.injEq] at h; subst h; exact hm
  | cons e es ih =>
    intro s s' hm hg hp h
    simp only [St.run] at h
    cases hs : s.step false e with
    | none => rw [hs] at h; cases h
    | some s1 =>
      rw [hs] at h
      obtain ⟨h1, h2, h3⟩ := doomed_step hm hg hp hs
      exact ih h1 h2 h3 h

end Spead2.PyConnect
