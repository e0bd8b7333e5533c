import Verif.Spec.NetRaw

/-!
# C110: `spead2_net_raw` gives a program CAP_NET_RAW and nothing else
-/

namespace Spead2.NetRaw

theorem sub_iff (a b : Caps) : a.sub b = true ↔ ∀ c, a c = true → b c = true := by
  unfold Caps.sub
  rw [decide_eq_true_iff]

theorem sub_union (a b : Caps) : a.sub (a.union b) = true := by
  rw [sub_iff]; intro c h; simp [Caps.union, h]

/-- When the capability can be raised, and what the process then has. -/
theorem prepare_iff (p : Proc) (hs : Sound p) (he : ∀ c, p.effective c = true → p.permitted c = true) (p2 : Proc) :
    prepare p = some p2 ↔ (p.permitted netRaw = true ∧ (p.inheritable netRaw = true ∨ p.bounding netRaw = true) ∧ p.noRaise = false) ∧
      p2 = { p with inheritable := p.inheritable.union (only netRaw), ambient := p.ambient.union (only netRaw) } := by
  have hset : (capset p (p.permitted.union (only netRaw)) p.effective (p.inheritable.union (only netRaw))) =
      if p.permitted netRaw = true ∧ (p.inheritable netRaw = true ∨ p.bounding netRaw = true) then
        some { p with inheritable := p.inheritable.union (only netRaw) } else Option.none := by
    unfold capset
    by_cases hp : p.permitted netRaw = true
    · have hun : p.permitted.union (only netRaw) = p.permitted := by
        funext c
        by_cases hc : c = netRaw
        · subst hc; simp [Caps.union, hp]
        · simp [Caps.union, only, hc]
      have h1 : (p.inheritable.union (only netRaw)).sub (p.inheritable.union p.permitted) = true := by
        rw [sub_iff]
        intro c hc
        simp only [Caps.union, only, Bool.or_eq_true, beq_iff_eq] at hc ⊢
        rcases hc with hc | rfl
        · exact Or.inl hc
        · exact Or.inr hp
      have h3 : p.permitted.sub p.permitted = true := by rw [sub_iff]; exact fun _ h => h
      have h4 : p.effective.sub p.permitted = true := by rw [sub_iff]; exact he
      have h5 : p.ambient.inter (p.permitted.inter (p.inheritable.union (only netRaw))) = p.ambient := by
        funext c
        have := hs c
        cases ha : p.ambient c with
        | false => simp [Caps.inter, ha]
        | true => obtain ⟨x, y⟩ := this ha; simp [Caps.inter, Caps.union, ha, x, y]
      rw [hun, h1, h3, h4, h5]
      by_cases hb : p.inheritable netRaw = true ∨ p.bounding netRaw = true
      · have h2 : (p.inheritable.union (only netRaw)).sub (p.inheritable.union p.bounding) = true := by
          rw [sub_iff]
          intro c hc
          simp only [Caps.union, only, Bool.or_eq_true, beq_iff_eq] at hc ⊢
          rcases hc with hc | rfl
          · exact Or.inl hc
          · exact hb
        rw [h2]
        simp [hp, hb]
      · have h2 : (p.inheritable.union (only netRaw)).sub (p.inheritable.union p.bounding) = false := by
          rw [← Bool.not_eq_true, sub_iff]
          intro h
          apply hb
          have := h netRaw (by simp [Caps.union, only])
          simpa [Caps.union] using this
        rw [h2]
        simp [hp, hb]
    · have h3 : (p.permitted.union (only netRaw)).sub p.permitted = false := by
        rw [← Bool.not_eq_true, sub_iff]
        intro h
        exact hp (h netRaw (by simp [Caps.union, only]))
      rw [h3]
      simp [hp]
  unfold prepare
  rw [hset]
  by_cases h1 : p.permitted netRaw = true ∧ (p.inheritable netRaw = true ∨ p.bounding netRaw = true)
  · rw [if_pos h1]
    simp only [Option.bind_some, raise]
    have hi : (p.inheritable.union (only netRaw)) netRaw = true := by simp [Caps.union, only]
    simp only [h1.1, hi, Bool.true_and, Bool.not_eq_true']
    cases hr : p.noRaise with
    | true => simp
    | false =>
      simp only [h1.2, true_and, and_self, ↓reduceIte, Option.some.injEq]
      exact eq_comm
  · rw [if_neg h1]
    constructor
    · intro h; cases h
    · rintro ⟨⟨a, b, _⟩, _⟩; exact absurd ⟨a, b⟩ h1

/-- The process as the kernel can have it. -/
def Valid (p : Proc) : Prop := Sound p ∧ ∀ c, p.effective c = true → p.permitted c = true

/-- **C110.** The program is run exactly if one was given and found, the capability can be passed on and the kernel would run the program; it gets its own name and arguments, unchanged.  Otherwise nothing is run: the status is 2 without a program, and else 1. -/
theorem C110_runs (p : Proc) (hv : Valid p) (find : String → Option File) (argv : List String) :
    (argv.length < 2 ∧ main p find argv = .exit 2) ∨
    (∃ self prog args, argv = self :: prog :: args ∧
      ((∃ f q, find prog = some f ∧ (p.permitted netRaw = true ∧ (p.inheritable netRaw = true ∨ p.bounding netRaw = true) ∧ p.noRaise = false) ∧
        exec { p with inheritable := p.inheritable.union (only netRaw), ambient := p.ambient.union (only netRaw) } f = some q ∧ main p find argv = .becomes q (prog :: args)) ∨
       (main p find argv = .exit 1 ∧
        ¬ ∃ f q, find prog = some f ∧ (p.permitted netRaw = true ∧ (p.inheritable netRaw = true ∨ p.bounding netRaw = true) ∧ p.noRaise = false) ∧
          exec { p with inheritable := p.inheritable.union (only netRaw), ambient := p.ambient.union (only netRaw) } f = some q))) := by
  rcases argv with _ | ⟨self, _ | ⟨prog, args⟩⟩
  · exact Or.inl ⟨by simp, rfl⟩
  · exact Or.inl ⟨by simp, rfl⟩
  · refine Or.inr ⟨self, prog, args, rfl, ?_⟩
    have hiff := prepare_iff p hv.1 hv.2
    have hlen : ¬ (self :: prog :: args).length < 2 := by simp
    unfold main
    rw [if_neg hlen]
    simp only [List.drop_succ_cons, List.drop_zero]
    cases hprep : prepare p with
    | none =>
      refine Or.inr ⟨rfl, ?_⟩
      rintro ⟨f, q, _, h, _⟩
      have := (hiff _).mpr ⟨h, rfl⟩
      rw [hprep] at this; cases this
    | some p2 =>
      obtain ⟨hc, rfl⟩ := (hiff p2).mp hprep
      simp only
      cases hf : find prog with
      | none => exact Or.inr ⟨rfl, (fun ⟨f, q, h, _⟩ => by cases h)⟩
      | some f =>
        simp only
        cases hx : exec _ f with
        | none =>
          refine Or.inr ⟨rfl, ?_⟩
          rintro ⟨f', q, h1, _, h2⟩
          cases h1
          rw [hx] at h2; cases h2
        | some q => exact Or.inl ⟨f, q, rfl, hc, hx, rfl⟩

theorem exec_eq {p q : Proc} {f : File} (h : exec p f = some q) :
    q = { p with
      permitted := (if p.noNewPrivs then ((p.inheritable.inter (if f.hasCaps then f.inheritable else none)).union ((if f.hasCaps then f.permitted else none).inter p.bounding)).inter p.permitted
        else (p.inheritable.inter (if f.hasCaps then f.inheritable else none)).union ((if f.hasCaps then f.permitted else none).inter p.bounding)).union
          (if f.hasCaps || f.setId && !p.noNewPrivs then none else p.ambient)
      effective := if f.hasCaps && f.effective then (if p.noNewPrivs then ((p.inheritable.inter (if f.hasCaps then f.inheritable else none)).union ((if f.hasCaps then f.permitted else none).inter p.bounding)).inter p.permitted
        else (p.inheritable.inter (if f.hasCaps then f.inheritable else none)).union ((if f.hasCaps then f.permitted else none).inter p.bounding)).union
          (if f.hasCaps || f.setId && !p.noNewPrivs then none else p.ambient) else (if f.hasCaps || f.setId && !p.noNewPrivs then none else p.ambient)
      ambient := if f.hasCaps || f.setId && !p.noNewPrivs then none else p.ambient } := by
  unfold exec at h
  by_cases hc : ((f.hasCaps && f.effective) && !(if f.hasCaps then f.permitted else none).sub
      ((p.inheritable.inter (if f.hasCaps then f.inheritable else none)).union ((if f.hasCaps then f.permitted else none).inter p.bounding))) = true
  · simp only at h
    rw [if_pos hc] at h
    cases h
  · simp only at h
    rw [if_neg hc] at h
    exact (Option.some.inj h).symm

/-- What an ordinary program has: the ambient capabilities. -/
theorem exec_ordinary (p : Proc) (f : File) (hf : Ordinary f) : ∃ q, exec p f = some q ∧ q.effective = p.ambient ∧ q.permitted = p.ambient ∧ q.ambient = p.ambient ∧ q.inheritable = p.inheritable ∧ q.bounding = p.bounding := by
  obtain ⟨h1, h2⟩ := hf
  unfold exec
  simp only [h1, h2, Bool.false_eq_true, ↓reduceIte, Bool.false_and, Bool.or_self]
  refine ⟨_, rfl, rfl, ?_, rfl, rfl, rfl⟩
  funext c
  cases p.noNewPrivs <;> simp [Caps.union, Caps.inter, none]

/-- The full property, as the manual has it: any command that is run has the capability. -/
def C110_statement : Prop := ∀ (p : Proc) (_ : Valid p) (find : String → Option File) (argv : List String) (q : Proc) (args : List String), main p find argv = .becomes q args → CanRaw q

/-- **C110.** An ordinary program that is run has the capability, and otherwise exactly the capabilities it would have had without `spead2_net_raw`. -/
theorem C110_partial (p : Proc) (hv : Valid p) (find : String → Option File) (self prog : String) (args : List String) (f : File) (hf : find prog = some f) (ho : Ordinary f) (q : Proc) (a : List String)
    (h : main p find (self :: prog :: args) = .becomes q a) :
    a = prog :: args ∧ CanRaw q ∧ ∃ d, exec p f = some d ∧ (∀ c, q.permitted c = (d.permitted c || c == netRaw)) ∧ ∀ c, q.effective c = (d.effective c || c == netRaw) := by
  rcases C110_runs p hv find (self :: prog :: args) with ⟨hl, _⟩ | ⟨s, pr, ar, he, ⟨f', q', h1, h2, h3, h4⟩ | ⟨h1, _⟩⟩
  · exact absurd hl (by simp only [List.length_cons]; omega)
  · cases he
    rw [h] at h4
    cases h4
    rw [hf] at h1
    cases h1
    obtain ⟨q2, x1, x2, x3, _⟩ := exec_ordinary { p with inheritable := p.inheritable.union (only netRaw), ambient := p.ambient.union (only netRaw) } f ho
    rw [h3] at x1
    cases x1
    obtain ⟨d, y1, y2, y3, _⟩ := exec_ordinary p f ho
    refine ⟨rfl, ?_, d, y1, ?_, ?_⟩
    · change q.effective netRaw = true; rw [x2]; simp [Caps.union, only]
    · intro c; rw [x3, y3]; rfl
    · intro c; rw [x2, y2]; rfl
  · rw [h] at h1; cases h1

/-- **C110.** Installed as the manual says, `spead2_net_raw` run by any user gives every ordinary program CAP_NET_RAW and no other capability, unless the capability is out of the user's bounds, the user has given up new privileges, or ambient capabilities are disabled: then nothing is run. -/
theorem C110_installed (u : Proc) (find : String → Option File) (self prog : String) (args : List String) (f : File) (hf : find prog = some f) (ho : Ordinary f) :
    ∃ p, exec u installed = some p ∧
      ((u.bounding netRaw = true ∧ (u.noNewPrivs = false ∨ u.permitted netRaw = true) ∧ u.noRaise = false ∧
          ∃ q, main p find (self :: prog :: args) = .becomes q (prog :: args) ∧ q.permitted = only capNetRaw ∧ q.effective = only capNetRaw) ∨
       (¬ (u.bounding netRaw = true ∧ (u.noNewPrivs = false ∨ u.permitted netRaw = true) ∧ u.noRaise = false) ∧ main p find (self :: prog :: args) = .exit 1)) := by
  obtain ⟨p, hp, ha, he, hpn, hb, hr⟩ : ∃ p, exec u installed = some p ∧ p.ambient = none ∧ p.effective = none ∧
      (p.permitted netRaw = true ↔ u.bounding netRaw = true ∧ (u.noNewPrivs = false ∨ u.permitted netRaw = true)) ∧ p.bounding = u.bounding ∧ p.noRaise = u.noRaise := by
    unfold exec installed
    simp only [↓reduceIte, Bool.true_and, Bool.false_and, Bool.false_eq_true, Bool.true_or]
    refine ⟨_, rfl, rfl, rfl, ?_, rfl, rfl⟩
    cases u.noNewPrivs <;> simp [Caps.union, Caps.inter, none, only]
  refine ⟨p, hp, ?_⟩
  have hv : Valid p := ⟨(fun c h => by rw [ha] at h; cases h), (fun c h => by rw [he] at h; cases h)⟩
  have hamb : (p.ambient.union (only netRaw)) = only netRaw := by funext c; rw [ha]; simp [Caps.union, none]
  obtain ⟨q0, x1, x2, x3, _⟩ := exec_ordinary { p with inheritable := p.inheritable.union (only netRaw), ambient := p.ambient.union (only netRaw) } f ho
  rcases C110_runs p hv find (self :: prog :: args) with ⟨hl, _⟩ | ⟨s, pr, ar, heq, ⟨f', q', h1, ⟨h2, _, h2'⟩, h3, h4⟩ | ⟨h1, h2⟩⟩
  · exact absurd hl (by simp only [List.length_cons]; omega)
  · cases heq
    rw [hf] at h1
    cases h1
    rw [h3] at x1
    cases x1
    obtain ⟨b1, b2⟩ := hpn.mp h2
    exact Or.inl ⟨b1, b2, by rw [← hr]; exact h2', q0, h4, by rw [x3]; exact hamb, by rw [x2]; exact hamb⟩
  · cases heq
    refine Or.inr ⟨?_, h1⟩
    rintro ⟨b1, b2, b3⟩
    exact h2 ⟨f, q0, hf, ⟨hpn.mpr ⟨b1, b2⟩, Or.inr (by rw [hb]; exact b1), by rw [hr]; exact b3⟩, x1⟩

/-- **C110.** Without the capability nothing is run. -/
theorem C110_refused (p : Proc) (hv : Valid p) (hn : p.permitted netRaw = false) (find : String → Option File) (self prog : String) (args : List String) : main p find (self :: prog :: args) = .exit 1 := by
  rcases C110_runs p hv find (self :: prog :: args) with ⟨hl, _⟩ | ⟨s, pr, ar, heq, ⟨f', q', h1, ⟨h2, _⟩, h3, h4⟩ | ⟨h1, h2⟩⟩
  · exact absurd hl (by simp only [List.length_cons]; omega)
  · rw [hn] at h2; cases h2
  · exact h1

/-- **C110.** Whatever the program is, it gets no capability except CAP_NET_RAW that it would not have got without `spead2_net_raw`. -/
theorem C110_nothing_else (p : Proc) (hv : Valid p) (find : String → Option File) (self prog : String) (args : List String) (f : File) (hf : find prog = some f) (d : Proc) (hd : exec p f = some d) (q : Proc) (a : List String)
    (h : main p find (self :: prog :: args) = .becomes q a) (c : Cap) (hc : c ≠ netRaw) : q.permitted c = d.permitted c ∧ q.effective c = d.effective c ∧ q.ambient c = d.ambient c ∧ q.inheritable c = d.inheritable c := by
  rcases C110_runs p hv find (self :: prog :: args) with ⟨hl, _⟩ | ⟨s, pr, ar, he, ⟨f', q', h1, h2, h3, h4⟩ | ⟨h1, _⟩⟩
  · exact absurd hl (by simp only [List.length_cons]; omega)
  · cases he
    rw [h] at h4
    cases h4
    rw [hf] at h1
    cases h1
    have ho : only netRaw c = false := by simp [only, hc]
    rw [exec_eq h3, exec_eq hd]
    cases f.hasCaps <;> cases f.setId <;> cases p.noNewPrivs <;> cases f.effective <;> simp [Caps.union, Caps.inter, none, ho]
  · rw [h] at h1; cases h1

/-- **C110.** The children of an ordinary program, and what it executes, have the capability as well, as long as they are ordinary programs. -/
theorem C110_children (fs : List File) : ∀ (q : Proc) (_ : q.ambient netRaw = true) (_ : CanRaw q) (_ : ∀ f ∈ fs, Ordinary f), ∃ r, chain q fs = some r ∧ CanRaw r := by
  induction fs with
  | nil => exact fun q _ h _ => ⟨q, rfl, h⟩
  | cons f fs ih =>
    intro q ha _ ho
    obtain ⟨q2, x1, x2, _, x4, _⟩ := exec_ordinary q f (ho f List.mem_cons_self)
    obtain ⟨r, h1, h2⟩ := ih q2 (by rw [x4]; exact ha) (by change q2.effective netRaw = true; rw [x2]; exact ha) (fun g hg => ho g (List.mem_cons_of_mem _ hg))
    exact ⟨r, by simp only [chain, x1, Option.bind_some]; exact h1, h2⟩

/-- **C110.** … which is so for the program that is run. -/
theorem C110_ambient (p : Proc) (hv : Valid p) (find : String → Option File) (self prog : String) (args : List String) (f : File) (hf : find prog = some f) (ho : Ordinary f) (q : Proc) (a : List String)
    (h : main p find (self :: prog :: args) = .becomes q a) : q.ambient netRaw = true := by
  rcases C110_runs p hv find (self :: prog :: args) with ⟨hl, _⟩ | ⟨s, pr, ar, he, ⟨f', q', h1, h2, h3, h4⟩ | ⟨h1, _⟩⟩
  · exact absurd hl (by simp only [List.length_cons]; omega)
  · cases he
    rw [h] at h4
    cases h4
    rw [hf] at h1
    cases h1
    obtain ⟨q2, x1, _, _, x4, _⟩ := exec_ordinary { p with inheritable := p.inheritable.union (only netRaw), ambient := p.ambient.union (only netRaw) } f ho
    rw [h3] at x1
    cases x1
    rw [x4]; simp [Caps.union, only]
  · rw [h] at h1; cases h1

/-- **C110.** A program with capabilities of its own does not get CAP_NET_RAW, unless its file allows it or has it. -/
theorem C110_own (p : Proc) (f : File) (hc : f.hasCaps = true) (hI : f.inheritable netRaw = false) (hP : f.permitted netRaw = false) (q : Proc) (h : exec p f = some q) : ¬ CanRaw q := by
  rw [exec_eq h]
  · change ¬ Proc.effective _ netRaw = true
    simp only [hc]
    cases p.noNewPrivs <;> cases f.effective <;> simp [Caps.union, Caps.inter, none, hI, hP]

/-- A user without capabilities. -/
def user : Proc := { permitted := none, effective := none, inheritable := none, ambient := none, bounding := fun _ => true }

/-- `spead2_net_raw` when it runs. -/
def started : Proc := { user with permitted := only netRaw }

theorem started_eq : exec user installed = some started := by
  unfold exec installed user started
  simp only [↓reduceIte, Bool.false_eq_true, Bool.false_and, Bool.true_or, Bool.true_and, Option.some.injEq]
  congr 1
  funext c; simp [Caps.union, Caps.inter, none]

theorem started_valid : Valid started := ⟨(fun _ h => by cases h), (fun _ h => by cases h)⟩

/-- A program that is set-gid. -/
def setGid : File := { setId := true }

theorem C110_violated : ¬ C110_statement := by
  intro hst
  have hb : (match main started (fun _ => some setGid) ["spead2_net_raw", "prog"] with | .exit _ => false | .becomes q _ => !q.effective netRaw) = true := by decide +kernel
  cases hm : main started (fun _ => some setGid) ["spead2_net_raw", "prog"] with
  | exit n => rw [hm] at hb; cases hb
  | becomes q a =>
    rw [hm] at hb
    have := hst started started_valid _ _ q a hm
    change q.effective netRaw = true at this
    simp only [this] at hb
    cases hb

/-! ## Concrete cases -/

example : ∃ q, main started (fun n => if n = "prog" then some {} else Option.none) ["spead2_net_raw", "prog", "-x"] = .becomes q ["prog", "-x"] ∧ q.permitted = only capNetRaw ∧ q.effective = only capNetRaw := by
  obtain ⟨p, h1, h2⟩ := C110_installed user (fun n => if n = "prog" then some {} else Option.none) "spead2_net_raw" "prog" ["-x"] {} (by simp) ⟨rfl, rfl⟩
  rw [started_eq] at h1
  cases h1
  rcases h2 with ⟨_, _, _, q, h⟩ | ⟨h, _⟩
  · exact ⟨q, h⟩
  · exact absurd ⟨rfl, Or.inl rfl, rfl⟩ h

example : main user (fun _ => some {}) ["spead2_net_raw", "prog"] = .exit 1 := C110_refused user ⟨(fun _ h => by cases h), (fun _ h => by cases h)⟩ rfl _ _ _ _

end Spead2.NetRaw
