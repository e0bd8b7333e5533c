import Verif.Spec.Cmdline

/-! # Lemmas about command lines -/

namespace Spead2.Cmdline

theorem digitVal_digit {d : Nat} (h : d < 10) : digitVal (digit d) = some d := by
  have : ∀ d < 10, digitVal (digit d) = some d := by decide
  exact this d h

theorem digit_plain {d : Nat} (h : d < 10) : digit d ≠ ':' ∧ digit d ≠ '-' ∧ digit d ≠ '+' ∧ digit d ≠ '_' ∧ digit d ≠ ',' ∧ isSpace (digit d) = false := by
  have : ∀ d < 10, digit d ≠ ':' ∧ digit d ≠ '-' ∧ digit d ≠ '+' ∧ digit d ≠ '_' ∧ digit d ≠ ',' ∧ isSpace (digit d) = false := by decide
  exact this d h

theorem Decimal.chars {t : Text} {v : Nat} (h : Decimal t v) : ∀ c ∈ t, ∃ d < 10, c = digit d := by
  induction h with
  | one d hd => intro c hc; exact ⟨d, hd, List.mem_singleton.mp hc⟩
  | more t v d _ hd ih =>
    intro c hc
    rcases List.mem_append.mp hc with hc | hc
    · exact ih c hc
    · exact ⟨d, hd, List.mem_singleton.mp hc⟩

theorem Decimal.ne_nil {t : Text} {v : Nat} (h : Decimal t v) : t ≠ [] := by
  cases h <;> simp

theorem natFrom_snoc (c : Char) (t : Text) : ∀ acc, natFrom acc (t ++ [c]) = (natFrom acc t).bind fun v => (digitVal c).map fun d => 10 * v + d := by
  induction t with
  | nil =>
    intro acc
    simp only [List.nil_append, natFrom, Option.bind_some]
    cases digitVal c <;> rfl
  | cons x xs ih =>
    intro acc
    simp only [List.cons_append, natFrom]
    cases digitVal x with
    | none => rfl
    | some d => exact ih _

theorem natOf_ne {t : Text} (h : t ≠ []) : natOf t = natFrom 0 t := by
  cases t with
  | nil => exact absurd rfl h
  | cons => rfl

theorem Decimal.natOf {t : Text} {v : Nat} (h : Decimal t v) : natOf t = some v := by
  rw [natOf_ne h.ne_nil]
  induction h with
  | one d hd => simp only [natFrom, digitVal_digit hd]; simp
  | more t v d ht hd ih => rw [natFrom_snoc, ih, digitVal_digit hd]; rfl

theorem lexU16_plain {t : Text} (h : ∀ c ∈ t, c ≠ '-' ∧ c ≠ '+') :
    lexU16 t = (natOf t).bind fun v => if v ≤ 65535 then some v else none := by
  unfold lexU16
  split
  · exact absurd rfl (h '-' (List.mem_cons_self ..)).1
  · exact absurd rfl (h '+' (List.mem_cons_self ..)).2
  · rfl

theorem dropWhile_none {t : Text} (h : ∀ c ∈ t, isSpace c = false) : t.dropWhile isSpace = t := by
  cases t with
  | nil => rfl
  | cons c cs => rw [List.dropWhile_cons, h c (List.mem_cons_self ..)]; rfl

theorem strip_none {t : Text} (h : ∀ c ∈ t, isSpace c = false) : strip t = t := by
  unfold strip
  rw [dropWhile_none h, dropWhile_none (fun c hc => h c (List.mem_reverse.mp hc)), List.reverse_reverse]

theorem mem_dropWhile {c : Char} (hc : isSpace c = false) : ∀ {t : Text}, c ∈ t → c ∈ t.dropWhile isSpace
  | x :: xs, h => by
    rw [List.dropWhile_cons]
    split
    · rename_i hx
      rcases List.mem_cons.mp h with rfl | h
      · rw [hc] at hx; cases hx
      · exact mem_dropWhile hc h
    · exact h

theorem mem_strip {c : Char} {t : Text} (hc : isSpace c = false) (h : c ∈ t) : c ∈ strip t := by
  unfold strip
  exact List.mem_reverse.mpr (mem_dropWhile hc (List.mem_reverse.mpr (mem_dropWhile hc h)))

theorem pyFrom_plain : ∀ (t : Text) (acc : Nat), (∀ c ∈ t, c ≠ '_') → pyFrom acc t = natFrom acc t
  | [], _, _ => rfl
  | c :: cs, acc, h => by
    have hne := h c (List.mem_cons_self ..)
    unfold pyFrom
    split
    · rename_i heq; cases heq
    · rename_i heq; cases heq; exact absurd rfl hne
    · rename_i heq
      cases heq
      simp only [natFrom]
      cases digitVal c with
      | none => rfl
      | some d => exact pyFrom_plain cs _ (fun x hx => h x (List.mem_cons_of_mem _ hx))

theorem pyNat_plain {t : Text} (h : ∀ c ∈ t, c ≠ '_') : pyNat t = natOf t := by
  cases t with
  | nil => rfl
  | cons c cs =>
    simp only [pyNat, natOf, natFrom]
    cases digitVal c with
    | none => rfl
    | some d =>
      show pyFrom d cs = natFrom (10 * 0 + d) cs
      rw [pyFrom_plain cs d (fun x hx => h x (List.mem_cons_of_mem _ hx))]
      simp

theorem pyInt_plain {t : Text} (h : ∀ c ∈ t, c ≠ '-' ∧ c ≠ '+' ∧ c ≠ '_' ∧ isSpace c = false) :
    pyInt t = (natOf t).map fun v => (v : Int) := by
  unfold pyInt
  rw [strip_none (fun c hc => (h c hc).2.2.2)]
  split
  · exact absurd rfl (h '-' (List.mem_cons_self ..)).1
  · exact absurd rfl (h '+' (List.mem_cons_self ..)).2.1
  · rw [pyNat_plain (fun c hc => (h c hc).2.2.1)]

theorem Decimal.pyInt {t : Text} {v : Nat} (h : Decimal t v) : pyInt t = some (v : Int) := by
  rw [pyInt_plain, h.natOf]
  · rfl
  · intro c hc
    obtain ⟨d, hd, rfl⟩ := h.chars c hc
    have := digit_plain hd
    exact ⟨this.2.1, this.2.2.1, this.2.2.2.1, this.2.2.2.2.2⟩

theorem Decimal.lexU16 {t : Text} {v : Nat} (h : Decimal t v) : lexU16 t = if v ≤ 65535 then some v else none := by
  rw [lexU16_plain, h.natOf]
  · rfl
  · intro c hc
    obtain ⟨d, hd, rfl⟩ := h.chars c hc
    have := digit_plain hd
    exact ⟨this.2.1, this.2.2.1⟩

theorem Decimal.no_colon {t : Text} {v : Nat} (h : Decimal t v) : ':' ∉ t := by
  intro hc
  obtain ⟨d, hd, e⟩ := h.chars _ hc
  exact (digit_plain hd).1 e.symm

theorem Decimal.exists (n : Nat) : ∃ t, Decimal t n := by
  induction n using Nat.strongRecOn with
  | ind n ih =>
    by_cases h : n < 10
    · exact ⟨_, .one n h⟩
    · obtain ⟨t, ht⟩ := ih (n / 10) (by omega)
      refine ⟨t ++ [digit (n % 10)], ?_⟩
      have := Decimal.more t (n / 10) (n % 10) ht (by omega)
      have e : 10 * (n / 10) + n % 10 = n := by omega
      rw [e] at this
      exact this

theorem splitLast_none {t : Text} (h : ':' ∉ t) : splitLast t = none := by
  induction t with
  | nil => rfl
  | cons c cs ih =>
    simp only [splitLast]
    rw [ih (fun hc => h (List.mem_cons_of_mem _ hc))]
    have : c ≠ ':' := fun e => h (by rw [e]; exact List.mem_cons_self ..)
    simp [this]

theorem splitLast_colon {p : Text} (hp : ':' ∉ p) : ∀ h : Text, splitLast (h ++ ':' :: p) = some (h, p)
  | [] => by simp only [List.nil_append, splitLast]; rw [splitLast_none hp]; simp
  | c :: cs => by simp only [List.cons_append, splitLast]; rw [splitLast_colon hp cs]

theorem natFrom_digits : ∀ {t : Text} {acc v : Nat}, natFrom acc t = some v → ∀ c ∈ t, (digitVal c).isSome = true
  | [], _, _, _ => by intro c hc; cases hc
  | c :: cs, acc, v, h => by
    simp only [natFrom] at h
    cases hd : digitVal c with
    | none => rw [hd] at h; cases h
    | some d =>
      rw [hd] at h
      intro x hx
      rcases List.mem_cons.mp hx with rfl | hx
      · rw [hd]; rfl
      · exact natFrom_digits h x hx

theorem natOf_digits {t : Text} {v : Nat} (h : natOf t = some v) : ∀ c ∈ t, (digitVal c).isSome = true := by
  cases t with
  | nil => intro c hc; cases hc
  | cons c cs => exact natFrom_digits h

theorem pyFrom_digits (acc : Nat) (t : Text) : ∀ v, pyFrom acc t = some v → ∀ c ∈ t, (digitVal c).isSome = true ∨ c = '_' := by
  induction acc, t using pyFrom.induct with
  | case1 acc => intro v _ c hc; cases hc
  | case2 acc c cs d hd ih =>
    intro v h x hx
    simp only [pyFrom, hd] at h
    rcases List.mem_cons.mp hx with rfl | hx
    · exact Or.inr rfl
    · rcases List.mem_cons.mp hx with rfl | hx
      · exact Or.inl (by rw [hd]; rfl)
      · exact ih v h x hx
  | case3 acc c cs hd => intro v h; simp only [pyFrom, hd] at h; cases h
  | case4 acc c cs hne d hd ih =>
    intro v h x hx
    rw [pyFrom] at h
    · simp only [hd] at h
      rcases List.mem_cons.mp hx with rfl | hx
      · exact Or.inl (by rw [hd]; rfl)
      · exact ih v h x hx
    · exact hne
  | case5 acc c cs hne hd =>
    intro v h
    rw [pyFrom] at h
    · simp only [hd] at h; cases h
    · exact hne

theorem pyNat_digits {t : Text} {v : Nat} (h : pyNat t = some v) : ∀ c ∈ t, (digitVal c).isSome = true ∨ c = '_' := by
  cases t with
  | nil => intro c hc; cases hc
  | cons c cs =>
    simp only [pyNat] at h
    cases hd : digitVal c with
    | none => rw [hd] at h; cases h
    | some d =>
      rw [hd] at h
      intro x hx
      rcases List.mem_cons.mp hx with rfl | hx
      · exact Or.inl (by rw [hd]; rfl)
      · exact pyFrom_digits d cs v h x hx

theorem odd_lexU16 {t : Text} (h : t = [] ∨ ∃ c ∈ t, Odd c) : lexU16 t = none := by
  rcases h with rfl | ⟨c, hc, ho⟩
  · rfl
  · have key : ∀ cs, c ∈ cs → natOf cs = none := by
      intro cs hcs
      cases hn : natOf cs with
      | none => rfl
      | some v => have := natOf_digits hn c hcs; rw [ho.1] at this; cases this
    unfold lexU16
    split
    · rename_i cs
      rcases List.mem_cons.mp hc with e | hc
      · exact absurd e ho.2.2.2.1
      · rw [key cs hc]; rfl
    · rename_i cs
      rcases List.mem_cons.mp hc with e | hc
      · exact absurd e ho.2.2.1
      · rw [key cs hc]; rfl
    · rw [key t hc]; rfl

theorem odd_pyInt {t : Text} (h : t = [] ∨ ∃ c ∈ t, Odd c) : pyInt t = none := by
  rcases h with rfl | ⟨c, hc, ho⟩
  · rfl
  · have key : ∀ cs, c ∈ cs → pyNat cs = none := by
      intro cs hcs
      cases hn : pyNat cs with
      | none => rfl
      | some v =>
        rcases pyNat_digits hn c hcs with h | h
        · rw [ho.1] at h; cases h
        · exact absurd h ho.2.2.2.2
    have hm := mem_strip ho.2.1 hc
    unfold pyInt
    generalize strip t = u at hm
    split
    · rename_i cs
      rcases List.mem_cons.mp hm with e | hm
      · exact absurd e ho.2.2.2.1
      · rw [key cs hm]; rfl
    · rename_i cs
      rcases List.mem_cons.mp hm with e | hm
      · exact absurd e ho.2.2.1
      · rw [key cs hm]; rfl
    · rw [key u hm]; rfl

theorem digit_space {c : Char} (h : (digitVal c).isSome = true) : isSpace c = false ∧ c ≠ '_' ∧ c ≠ '-' ∧ c ≠ '+' := by
  unfold digitVal at h
  split at h
  · rename_i hc
    refine ⟨?_, ?_, ?_, ?_⟩
    · unfold isSpace
      simp only [Bool.or_eq_false_iff, Bool.and_eq_false_iff, beq_eq_false_iff_ne, decide_eq_false_iff_not]
      omega
    · rintro rfl; revert hc; decide
    · rintro rfl; revert hc; decide
    · rintro rfl; revert hc; decide
  · cases h

/-- Whatever the C++ tools take for a port, Python takes for an integer. -/
theorem lex_pyInt {t : Text} {v : Nat} (h : lexU16 t = some v) : (pyInt t).isSome = true := by
  have key : ∀ cs : Text, ∀ n, natOf cs = some n → pyNat cs = some n := by
    intro cs n hn
    rw [pyNat_plain (fun c hc => (digit_space (natOf_digits hn c hc)).2.1)]; exact hn
  unfold lexU16 at h
  split at h
  · rename_i cs
    cases hn : natOf cs with
    | none => rw [hn] at h; cases h
    | some n =>
      have hs : strip ('-' :: cs) = '-' :: cs := strip_none (by
        intro c hc
        rcases List.mem_cons.mp hc with rfl | hc
        · decide
        · exact (digit_space (natOf_digits hn c hc)).1)
      unfold pyInt
      rw [hs]
      simp only [key cs n hn]; rfl
  · rename_i cs
    cases hn : natOf cs with
    | none => rw [hn] at h; cases h
    | some n =>
      have hs : strip ('+' :: cs) = '+' :: cs := strip_none (by
        intro c hc
        rcases List.mem_cons.mp hc with rfl | hc
        · decide
        · exact (digit_space (natOf_digits hn c hc)).1)
      unfold pyInt
      rw [hs]
      simp only [key cs n hn]; rfl
  · cases hn : natOf t with
    | none => rw [hn] at h; cases h
    | some n =>
      rw [pyInt_plain, hn]
      · rfl
      · intro c hc
        have := digit_space (natOf_digits hn c hc)
        exact ⟨this.2.2.1, this.2.2.2, this.2.1, this.1⟩

theorem port_split {e p : Text} (h : IsPort e p) :
    (splitLast e = none ∧ e = p) ∨ ∃ x, splitLast e = some (x, p) := by
  obtain ⟨hc, rfl | ⟨x, rfl⟩⟩ := h
  · exact Or.inl ⟨splitLast_none hc, rfl⟩
  · exact Or.inr ⟨x, splitLast_colon hc x⟩

theorem port_exists (e : Text) : ∃ p, IsPort e p := by
  induction e with
  | nil => exact ⟨[], by simp, Or.inl rfl⟩
  | cons c cs ih =>
    obtain ⟨p, hc, rfl | ⟨x, rfl⟩⟩ := ih
    · by_cases h : c = ':'
      · subst h; exact ⟨cs, hc, Or.inr ⟨[], rfl⟩⟩
      · refine ⟨c :: cs, ?_, Or.inl rfl⟩
        intro hm
        rcases List.mem_cons.mp hm with e | hm
        · exact h e.symm
        · exact hc hm
    · exact ⟨p, hc, Or.inr ⟨c :: x, rfl⟩⟩

/-! ## Readers -/

theorem loop_same (v6 : Text → Bool) (o : Opts) (packet buffer : Nat) (srcs : List Source)
    (h : o.tcp = true ∨ o.ibv = true ∨ o.bind = [] ∨ ∀ h p, Source.net h p ∈ srcs → v6 h = false) :
    ∀ rs eps, cppLoop v6 o packet buffer srcs rs eps = pyLoop o packet buffer srcs rs eps := by
  induction srcs with
  | nil => intro rs eps; rfl
  | cons x xs ih =>
    have ih := ih (by
      rcases h with h | h | h | h
      · exact Or.inl h
      · exact Or.inr (Or.inl h)
      · exact Or.inr (Or.inr (Or.inl h))
      · exact Or.inr (Or.inr (Or.inr fun a b hm => h a b (List.mem_cons_of_mem _ hm))))
    intro rs eps
    cases x with
    | error => rfl
    | file f => exact ih _ _
    | net a b =>
      simp only [cppLoop, pyLoop]
      by_cases ht : o.tcp = true
      · rw [if_pos ht, if_pos ht]; exact ih _ _
      · rw [if_neg ht, if_neg ht]
        by_cases hi : o.ibv = true
        · rw [if_pos hi, if_pos hi]; exact ih _ _
        · rw [if_neg hi, if_neg hi]
          rcases h with h | h | h | h
          · exact absurd h ht
          · exact absurd h hi
          · simp only [h, List.isEmpty_nil, Bool.not_true, Bool.and_false, Bool.false_eq_true, if_false, if_true]
            exact ih _ _
          · have hv := h a b (List.mem_cons_self ..)
            cases hb : o.bind.isEmpty with
            | true => simp only [hv, Bool.not_true, Bool.and_false, Bool.false_eq_true, if_false, if_true]; exact ih _ _
            | false => simp only [hv, Bool.not_false, Bool.and_true, Bool.false_eq_true, if_false, if_true]; exact ih _ _

theorem cppLoop_sources (v6 : Text → Bool) (o : Opts) (packet buffer : Nat) (srcs : List Source) :
    ∀ rs eps rs' eps', cppLoop v6 o packet buffer srcs rs eps = some (rs', eps') →
      (o.ibv = false ∨ o.tcp = true → eps' = eps ∧ rs'.flatMap Reader.sources = rs.flatMap Reader.sources ++ srcs) ∧
      (o.ibv = true → o.tcp = false →
        rs'.flatMap Reader.sources = rs.flatMap Reader.sources ++ srcs.filter (fun x => !x.isNet) ∧
        (eps'.map fun x => Source.net x.1 x.2) = (eps.map fun x => Source.net x.1 x.2) ++ srcs.filter Source.isNet) ∧
      ((∀ r ∈ rs, r.Fits o packet buffer (fun h => !v6 h)) → ∀ r ∈ rs', r.Fits o packet buffer (fun h => !v6 h)) := by
  induction srcs with
  | nil =>
    intro rs eps rs' eps' h
    cases h
    refine ⟨fun _ => ⟨rfl, by simp⟩, fun _ _ => ⟨by simp, by simp⟩, fun h => h⟩
  | cons x xs ih =>
    intro rs eps rs' eps' h
    cases x with
    | error => cases h
    | file f =>
      obtain ⟨a, b, c⟩ := ih _ _ _ _ h
      refine ⟨fun g => ?_, fun g g' => ?_, fun g => ?_⟩
      · obtain ⟨a1, a2⟩ := a g
        refine ⟨a1, ?_⟩
        rw [a2, List.flatMap_append]; simp [Reader.sources]
      · obtain ⟨b1, b2⟩ := b g g'
        refine ⟨?_, ?_⟩
        · rw [b1, List.flatMap_append]; simp [Reader.sources, Source.isNet]
        · rw [b2]; simp [Source.isNet]
      · apply c
        intro r hr
        rcases List.mem_append.mp hr with hr | hr
        · exact g r hr
        · rw [List.mem_singleton.mp hr]; trivial
    | net a b =>
      simp only [cppLoop] at h
      by_cases ht : o.tcp = true
      · rw [if_pos ht] at h
        obtain ⟨a, b, c⟩ := ih _ _ _ _ h
        refine ⟨fun g => ?_, fun g g' => ?_, fun g => ?_⟩
        · obtain ⟨a1, a2⟩ := a g
          refine ⟨a1, ?_⟩
          rw [a2, List.flatMap_append]; simp [Reader.sources]
        · rw [ht] at g'; cases g'
        · apply c
          intro r hr
          rcases List.mem_append.mp hr with hr | hr
          · exact g r hr
          · rw [List.mem_singleton.mp hr]; exact ⟨ht, rfl, rfl⟩
      · have ht' : o.tcp = false := by simpa using ht
        rw [if_neg ht] at h
        by_cases hi : o.ibv = true
        · rw [if_pos hi] at h
          obtain ⟨a, b, c⟩ := ih _ _ _ _ h
          refine ⟨fun g => ?_, fun g g' => ?_, c⟩
          · rcases g with g | g
            · rw [hi] at g; cases g
            · exact absurd g ht
          · obtain ⟨b1, b2⟩ := b g g'
            refine ⟨?_, ?_⟩
            · rw [b1]; simp [Source.isNet]
            · rw [b2, List.map_append, List.append_assoc]; rfl
        · have hi' : o.ibv = false := by simpa using hi
          rw [if_neg hi] at h
          have fits : ∀ (c : Bool), (Reader.udp a b packet buffer (if c then o.bind else [])).Fits o packet buffer (fun h => !v6 h) ↔
              (if c then o.bind else []) = (if !v6 a then o.bind else []) := by
            intro c
            exact ⟨fun g => g.2.2.2.2, fun g => ⟨ht', hi', rfl, rfl, g⟩⟩
          have main : ∀ i : Text, i = (if !v6 a then o.bind else []) → cppLoop v6 o packet buffer xs (rs ++ [.udp a b packet buffer i]) eps = some (rs', eps') →
              (o.ibv = false ∨ o.tcp = true → eps' = eps ∧ rs'.flatMap Reader.sources = rs.flatMap Reader.sources ++ .net a b :: xs) ∧
              ((∀ r ∈ rs, r.Fits o packet buffer (fun h => !v6 h)) → ∀ r ∈ rs', r.Fits o packet buffer (fun h => !v6 h)) := by
            intro i hi2 h
            obtain ⟨x1, _, x3⟩ := ih _ _ _ _ h
            refine ⟨fun g => ?_, fun g => ?_⟩
            · obtain ⟨a1, a2⟩ := x1 g
              refine ⟨a1, ?_⟩
              rw [a2, List.flatMap_append]; simp [Reader.sources]
            · apply x3
              intro r hr
              rcases List.mem_append.mp hr with hr | hr
              · exact g r hr
              · rw [List.mem_singleton.mp hr]; exact ⟨ht', hi', rfl, rfl, hi2⟩
          have : ∃ i : Text, i = (if !v6 a then o.bind else []) ∧ cppLoop v6 o packet buffer xs (rs ++ [.udp a b packet buffer i]) eps = some (rs', eps') := by
            by_cases hb : (!v6 a && !o.bind.isEmpty) = true
            · rw [if_pos hb] at h
              refine ⟨o.bind, ?_, h⟩
              have : (!v6 a) = true := (Bool.and_eq_true_iff.mp hb).1
              rw [this]; rfl
            · rw [if_neg hb] at h
              refine ⟨[], ?_, h⟩
              cases hv : v6 a with
              | true => rfl
              | false =>
                rw [hv] at hb
                have : o.bind = [] := by
                  cases hbb : o.bind with
                  | nil => rfl
                  | cons y ys => rw [hbb] at hb; exact absurd rfl hb
                rw [this]; rfl
          obtain ⟨i, hi1, hi2⟩ := this
          obtain ⟨m1, m2⟩ := main i hi1 hi2
          refine ⟨m1, fun g => ?_, m2⟩
          rw [hi'] at g; cases g

/-! ## Options -/

variable {V : Type}

theorem addArguments_some (xs : List (Entry V)) : ∀ p q : Parser V, addArguments p xs = some q →
    q = p ++ xs.filterMap (fun x => x.mapped.map fun m => (flag m, m, x.value)) ∧
    (flags xs).Nodup ∧ ∀ f ∈ flags xs, ∀ a ∈ p, a.1 ≠ f := by
  induction xs with
  | nil => intro p q h; cases h; simp [flags]
  | cons x xs ih =>
    intro p q h
    simp only [addArguments] at h
    cases hm : x.mapped with
    | none =>
      rw [hm] at h
      obtain ⟨a, b, c⟩ := ih p q h
      have e : flags (x :: xs) = flags xs := by simp [flags, hm]
      rw [e]
      refine ⟨?_, b, c⟩
      rw [a]; simp [hm]
    | some m =>
      rw [hm] at h
      simp only at h
      split at h
      · cases h
      · rename_i hn
        obtain ⟨a, b, c⟩ := ih _ q h
        have e : flags (x :: xs) = flag m :: flags xs := by simp [flags, hm]
        rw [e]
        refine ⟨?_, ?_, ?_⟩
        · rw [a]; simp [hm]
        · refine List.nodup_cons.mpr ⟨?_, b⟩
          intro hf
          exact c _ hf (flag m, m, x.value) (by simp) rfl
        · intro f hf z hz
          rcases List.mem_cons.mp hf with rfl | hf
          · intro e
            apply hn
            rw [List.any_eq_true]
            exact ⟨z, hz, by simp [e]⟩
          · exact c f hf z (List.mem_append_left _ hz)

theorem addArguments_none (xs : List (Entry V)) : ∀ p : Parser V, (flags xs).Nodup → (∀ f ∈ flags xs, ∀ a ∈ p, a.1 ≠ f) →
    (addArguments p xs).isSome = true := by
  induction xs with
  | nil => intro p _ _; rfl
  | cons x xs ih =>
    intro p h1 h2
    simp only [addArguments]
    cases hm : x.mapped with
    | none =>
      have e : flags (x :: xs) = flags xs := by simp [flags, hm]
      rw [e] at h1 h2
      exact ih p h1 h2
    | some m =>
      have e : flags (x :: xs) = flag m :: flags xs := by simp [flags, hm]
      rw [e] at h1 h2
      obtain ⟨g1, g2⟩ := List.nodup_cons.mp h1
      simp only
      rw [if_neg]
      · refine ih _ g2 ?_
        intro f hf a ha
        rcases List.mem_append.mp ha with ha | ha
        · exact h2 f (List.mem_cons_of_mem _ hf) a ha
        · rw [List.mem_singleton.mp ha]
          rintro rfl
          exact g1 hf
      · intro hn
        obtain ⟨a, ha, he⟩ := List.any_eq_true.mp hn
        exact h2 _ (List.mem_cons_self ..) a ha (by simpa using he)

def upd (args : List (Text × V)) (a : Text × Text × V) : Text × Text × V := (a.1, a.2.1, (lastGiven a.1 args).getD a.2.2)

theorem lastGiven_cons (f g : Text) (v : V) (args : List (Text × V)) :
    lastGiven f ((g, v) :: args) = (lastGiven f args).or (if g == f then some v else none) := by
  unfold lastGiven
  rw [List.reverse_cons, List.find?_append]
  cases h : args.reverse.find? (fun a => a.1 == f) with
  | some a => simp
  | none =>
    simp only [Option.none_or, List.find?_cons, List.find?_nil, Option.map_none]
    cases hg : (g == f) <;> simp

theorem parse_some (args : List (Text × V)) : ∀ p q : Parser V, parse p args = some q →
    q = p.map (upd args) ∧ ∀ a ∈ args, ∃ b ∈ p, b.1 = a.1 := by
  induction args with
  | nil =>
    intro p q h
    cases h
    refine ⟨?_, by simp⟩
    have : (upd ([] : List (Text × V))) = id := by
      funext a; simp [upd, lastGiven]
    rw [this, List.map_id]
  | cons x xs ih =>
    intro p q h
    obtain ⟨f, v⟩ := x
    simp only [parse] at h
    split at h
    · rename_i hn
      obtain ⟨a, b⟩ := ih _ q h
      refine ⟨?_, ?_⟩
      · rw [a, List.map_map]
        apply List.map_congr_left
        intro z _
        simp only [Function.comp, upd]
        rw [lastGiven_cons]
        by_cases e : z.1 = f
        · have e1 : (z.1 == f) = true := by simp [e]
          have e2 : (f == z.1) = true := by simp [e]
          rw [if_pos e1, e2, if_pos rfl]
          cases lastGiven z.1 xs <;> simp
        · have e1 : ¬ (z.1 == f) = true := by simpa using e
          have e2 : ¬ (f == z.1) = true := by simpa using fun h => e h.symm
          rw [if_neg e1, if_neg e2]
          cases lastGiven z.1 xs <;> simp
      · intro z hz
        rcases List.mem_cons.mp hz with rfl | hz
        · obtain ⟨y, hy, he⟩ := List.any_eq_true.mp hn
          exact ⟨y, hy, by simpa using he⟩
        · obtain ⟨y, hy, he⟩ := b z hz
          obtain ⟨w, hw, rfl⟩ := List.mem_map.mp hy
          refine ⟨w, hw, ?_⟩
          rw [← he]
          split <;> rfl
    · cases h

theorem parse_isSome (args : List (Text × V)) : ∀ p : Parser V, (∀ a ∈ args, ∃ b ∈ p, b.1 = a.1) → (parse p args).isSome = true := by
  induction args with
  | nil => intro p _; rfl
  | cons x xs ih =>
    intro p h
    obtain ⟨f, v⟩ := x
    simp only [parse]
    rw [if_pos]
    · apply ih
      intro a ha
      obtain ⟨b, hb, he⟩ := h a (List.mem_cons_of_mem _ ha)
      refine ⟨_, List.mem_map_of_mem hb, ?_⟩
      rw [← he]; split <;> rfl
    · obtain ⟨b, hb, he⟩ := h (f, v) (List.mem_cons_self ..)
      exact List.any_eq_true.mpr ⟨b, hb, by simp [he]⟩

theorem find_dest (args : List (Text × V)) : ∀ (xs : List (Entry V)) (x : Entry V) (m : Text), x ∈ xs → x.mapped = some m → (flags xs).Nodup →
    ((xs.filterMap (fun x => x.mapped.map fun m => (flag m, m, x.value))).map (upd args)).find? (fun a => a.2.1 == m) =
      some (upd args (flag m, m, x.value))
  | y :: ys, x, m, hx, hm, hn => by
    cases hy : y.mapped with
    | none =>
      have e : flags (y :: ys) = flags ys := by simp [flags, hy]
      rw [e] at hn
      rcases List.mem_cons.mp hx with rfl | hx
      · rw [hm] at hy; cases hy
      · simp only [List.filterMap_cons, hy, Option.map_none]
        exact find_dest args ys x m hx hm hn
    | some k =>
      have e : flags (y :: ys) = flag k :: flags ys := by simp [flags, hy]
      rw [e] at hn
      obtain ⟨g1, g2⟩ := List.nodup_cons.mp hn
      simp only [List.filterMap_cons, hy, Option.map_some, List.map_cons, List.find?_cons]
      rcases List.mem_cons.mp hx with rfl | hx
      · rw [hm] at hy
        cases hy
        simp [upd]
      · have hne : k ≠ m := by
          rintro rfl
          apply g1
          exact List.mem_filterMap.mpr ⟨x, hx, by rw [hm]; rfl⟩
        have : ((upd args (flag k, k, y.value)).2.1 == m) = false := by simpa [upd] using hne
        rw [this]
        exact find_dest args ys x m hx hm g2

/-! ## Cores -/

theorem splitCommas_ne (t : Text) : splitCommas t ≠ [] := by
  cases t with
  | nil => simp [splitCommas]
  | cons c cs =>
    simp only [splitCommas]
    split
    · simp
    · split <;> simp

theorem splitCommas_single {t : Text} (h : ',' ∉ t) : splitCommas t = [t] := by
  induction t with
  | nil => rfl
  | cons c cs ih =>
    have hc : c ≠ ',' := fun e => h (by rw [e]; exact List.mem_cons_self ..)
    simp only [splitCommas, if_neg hc]
    rw [ih (fun g => h (List.mem_cons_of_mem _ g))]

theorem splitCommas_cons {t : Text} (h : ',' ∉ t) (u : Text) : splitCommas (t ++ ',' :: u) = t :: splitCommas u := by
  induction t with
  | nil => simp [splitCommas]
  | cons c cs ih =>
    have hc : c ≠ ',' := fun e => h (by rw [e]; exact List.mem_cons_self ..)
    simp only [List.cons_append, splitCommas, if_neg hc]
    rw [ih (fun g => h (List.mem_cons_of_mem _ g))]

theorem splitDash_none {t : Text} (h : '-' ∉ t) : splitDash t = none := by
  induction t with
  | nil => rfl
  | cons c cs ih =>
    have hc : c ≠ '-' := fun e => h (by rw [e]; exact List.mem_cons_self ..)
    simp only [splitDash, if_neg hc]
    rw [ih (fun g => h (List.mem_cons_of_mem _ g))]

theorem splitDash_some {t : Text} (h : '-' ∉ t) (u : Text) : splitDash (t ++ '-' :: u) = some (t, u) := by
  induction t with
  | nil => simp [splitDash]
  | cons c cs ih =>
    have hc : c ≠ '-' := fun e => h (by rw [e]; exact List.mem_cons_self ..)
    simp only [List.cons_append, splitDash, if_neg hc]
    rw [ih (fun g => h (List.mem_cons_of_mem _ g))]

theorem Decimal.no_dash {t : Text} {v : Nat} (h : Decimal t v) : '-' ∉ t := by
  intro hc
  obtain ⟨d, hd, e⟩ := h.chars _ hc
  exact (digit_plain hd).2.1 e.symm

theorem Decimal.no_comma {t : Text} {v : Nat} (h : Decimal t v) : ',' ∉ t := by
  intro hc
  obtain ⟨d, hd, e⟩ := h.chars _ hc
  exact (digit_plain hd).2.2.2.2.1 e.symm

theorem Part.no_comma {t : Text} {ns : List Int} (h : Part t ns) : ',' ∉ t := by
  cases h with
  | one t v h => exact h.no_comma
  | range s t a n hs ht =>
    intro hm
    rcases List.mem_append.mp hm with hm | hm
    · exact hs.no_comma hm
    · rcases List.mem_cons.mp hm with hm | hm
      · revert hm; decide
      · exact ht.no_comma hm

theorem Part.ne_nil {t : Text} {ns : List Int} (h : Part t ns) : t ≠ [] := by
  cases h with
  | one t v h => exact h.ne_nil
  | range s t a n hs ht => simp

theorem Part.parse {t : Text} {ns : List Int} (h : Part t ns) : parsePart t = some ns := by
  unfold parsePart
  cases h with
  | one t v h => rw [splitDash_none h.no_dash]; simp only [h.pyInt]; rfl
  | range s t a n hs ht =>
    rw [splitDash_some hs.no_dash]
    simp only [hs.pyInt, ht.pyInt, pyRange]
    have : (((a + n : Nat) : Int) + 1 - (a : Int)).toNat = n + 1 := by omega
    rw [this]

theorem parse_parts : ∀ (parts : List (Text × List Int)), (∀ x ∈ parts, Part x.1 x.2) → parts ≠ [] →
    parseParts (splitCommas (List.intercalate [','] (parts.map fun x => x.1))) = some (parts.flatMap fun x => x.2)
  | [x], h, _ => by
    have hx := h x (List.mem_cons_self ..)
    have e : List.intercalate [','] ([x].map fun x => x.1) = x.1 := by simp [List.intercalate]
    rw [e, splitCommas_single hx.no_comma]
    simp only [parseParts, hx.parse, List.flatMap_cons, List.flatMap_nil]
  | x :: y :: zs, h, _ => by
    have hx := h x (List.mem_cons_self ..)
    have e : List.intercalate [','] ((x :: y :: zs).map fun x => x.1) = x.1 ++ ',' :: List.intercalate [','] ((y :: zs).map fun x => x.1) := by
      simp [List.intercalate]
    rw [e, splitCommas_cons hx.no_comma]
    simp only [parseParts, hx.parse]
    rw [parse_parts (y :: zs) (fun z hz => h z (List.mem_cons_of_mem _ hz)) (by simp)]
    simp only [List.flatMap_cons]

end Spead2.Cmdline
