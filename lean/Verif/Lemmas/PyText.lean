import Verif.Spec.PyDescr

/-!
# A pair of `repr` and `literal_eval` as the theorems about descriptors need it

Used only to show that their hypothesis can be met: a made-up notation in which no text is the beginning of
another.
-/

namespace Spead2.PyDescr

/-- No text is the beginning of another. -/
def PrefixFree {α : Type} (f : α → List Nat) : Prop := ∀ a b x y, f a ++ x = f b ++ y → a = b ∧ x = y

def serNat (n : Nat) : List Nat := List.replicate n 1 ++ [0]

theorem serNat_pf : PrefixFree serNat := by
  intro a
  induction a with
  | zero =>
    intro b x y h
    cases b with
    | zero => simpa [serNat] using h
    | succ b => simp [serNat, List.replicate_succ] at h
  | succ a ih =>
    intro b x y h
    cases b with
    | zero => simp [serNat, List.replicate_succ] at h
    | succ b =>
      simp only [serNat, List.replicate_succ, List.cons_append, List.cons.injEq, true_and] at h
      have := ih b x y (by simpa [serNat] using h)
      exact ⟨by omega, this.2⟩

def serInt : Int → List Nat
  | .ofNat n => 0 :: serNat n
  | .negSucc n => 1 :: serNat n

theorem serInt_pf : PrefixFree serInt := by
  intro a b x y h
  cases a <;> cases b <;> simp only [serInt, List.cons_append, List.cons.injEq] at h
  · have := serNat_pf _ _ _ _ h.2
    exact ⟨by rw [this.1], this.2⟩
  · exact absurd h.1 (by decide)
  · exact absurd h.1 (by decide)
  · have := serNat_pf _ _ _ _ h.2
    exact ⟨by rw [this.1], this.2⟩

def serList {α : Type} (f : α → List Nat) : List α → List Nat
  | [] => [0]
  | a :: l => 1 :: (f a ++ serList f l)

theorem serList_pf {α : Type} {f : α → List Nat} (hf : PrefixFree f) : PrefixFree (serList f) := by
  intro a
  induction a with
  | nil =>
    intro b x y h
    cases b with
    | nil => simpa [serList] using h
    | cons b l => simp [serList] at h
  | cons a l ih =>
    intro b x y h
    cases b with
    | nil => simp [serList] at h
    | cons b l' =>
      simp only [serList, List.cons_append, List.append_assoc, List.cons.injEq, true_and] at h
      replace h := hf _ _ _ _ h
      rcases h with ⟨e, h⟩
      subst e
      replace h := ih _ _ _ h
      rcases h with ⟨e, h⟩
      subst e
      exact ⟨rfl, h⟩

def serOption {α : Type} (f : α → List Nat) : Option α → List Nat
  | none => [0]
  | some a => 1 :: f a

theorem serOption_pf {α : Type} {f : α → List Nat} (hf : PrefixFree f) : PrefixFree (serOption f) := by
  intro a b x y h
  cases a <;> cases b <;> simp only [serOption, List.cons_append, List.cons.injEq, List.nil_append] at h
  · exact ⟨rfl, h.2⟩
  · exact absurd h.1 (by decide)
  · exact absurd h.1 (by decide)
  · have := hf _ _ _ _ h.2
    exact ⟨by rw [this.1], this.2⟩

def serOrder : ByteOrder → List Nat
  | .little => [0]
  | .big => [1]
  | .none => [2]

theorem serOrder_pf : PrefixFree serOrder := by
  intro a b x y h
  cases a <;> cases b <;> simp_all [serOrder]

mutual
def serDescr : Descr → List Nat
  | .str o k n => 0 :: (serOrder o ++ (serList serNat k ++ serNat n))
  | .list l => 1 :: serFields l
def serFields : DescrFields → List Nat
  | .nil => [0]
  | .cons name d s rest => 1 :: (serList serNat name ++ (serDescr d ++ (serOption (serList serNat) s ++ serFields rest)))
end

mutual
theorem serDescr_pf : ∀ (a b : Descr) (x y : List Nat), serDescr a ++ x = serDescr b ++ y → a = b ∧ x = y
  | .str o k n, b, x, y, h => by
    cases b with
    | str o' k' n' =>
      simp only [serDescr, List.cons_append, List.append_assoc, List.cons.injEq, true_and] at h
      replace h := serOrder_pf _ _ _ _ h
      rcases h with ⟨e, h⟩
      subst e
      replace h := serList_pf serNat_pf _ _ _ _ h
      rcases h with ⟨e, h⟩
      subst e
      replace h := serNat_pf _ _ _ _ h
      rcases h with ⟨e, h⟩
      subst e
      exact ⟨rfl, h⟩
    | list l => simp [serDescr] at h
  | .list l, b, x, y, h => by
    cases b with
    | str o' k' n' => simp [serDescr] at h
    | list l' =>
      simp only [serDescr, List.cons_append, List.cons.injEq, true_and] at h
      replace h := serFields_pf l l' x y h
      rcases h with ⟨e, h⟩
      subst e
      exact ⟨rfl, h⟩
theorem serFields_pf : ∀ (a b : DescrFields) (x y : List Nat), serFields a ++ x = serFields b ++ y → a = b ∧ x = y
  | .nil, b, x, y, h => by
    cases b with
    | nil => simpa [serFields] using h
    | cons n d s r => simp [serFields] at h
  | .cons name d s rest, b, x, y, h => by
    cases b with
    | nil => simp [serFields] at h
    | cons name' d' s' rest' =>
      simp only [serFields, List.cons_append, List.append_assoc, List.cons.injEq, true_and] at h
      replace h := serList_pf serNat_pf _ _ _ _ h
      rcases h with ⟨e, h⟩
      subst e
      replace h := serDescr_pf d d' _ _ h
      rcases h with ⟨e, h⟩
      subst e
      replace h := serOption_pf (serList_pf serNat_pf) _ _ _ _ h
      rcases h with ⟨e, h⟩
      subst e
      replace h := serFields_pf rest rest' _ _ h
      rcases h with ⟨e, h⟩
      subst e
      exact ⟨rfl, h⟩
end

def serVal : Val → List Nat
  | .bool false => [0]
  | .bool true => [1]
  | .ints l => 2 :: serList serInt l
  | .descr d => 3 :: serDescr d
  | .other => [4]

theorem serVal_pf : PrefixFree serVal := by
  intro a b x y h
  cases a with
  | bool u => cases u <;> cases b <;> (try (rename_i v; cases v)) <;> simp_all [serVal]
  | ints l =>
    cases b with
    | bool v => cases v <;> simp [serVal] at h
    | ints l' =>
      simp only [serVal, List.cons_append, List.cons.injEq, true_and] at h
      replace h := serList_pf serInt_pf _ _ _ _ h
      rcases h with ⟨e, h⟩
      subst e
      exact ⟨rfl, h⟩
    | descr d => simp [serVal] at h
    | other => simp [serVal] at h
  | descr d =>
    cases b with
    | bool v => cases v <;> simp [serVal] at h
    | ints l' => simp [serVal] at h
    | descr d' =>
      simp only [serVal, List.cons_append, List.cons.injEq, true_and] at h
      replace h := serDescr_pf _ _ _ _ h
      rcases h with ⟨e, h⟩
      subst e
      exact ⟨rfl, h⟩
    | other => simp [serVal] at h
  | other =>
    cases b with
    | bool v => cases v <;> simp [serVal] at h
    | ints l' => simp [serVal] at h
    | descr d' => simp [serVal] at h
    | other => simpa [serVal] using h

def serEntry (e : Str × Val) : List Nat := serList serNat e.1 ++ serVal e.2

theorem serEntry_pf : PrefixFree serEntry := by
  intro a b x y h
  simp only [serEntry, List.append_assoc] at h
  obtain ⟨h1, h⟩ := serList_pf serNat_pf _ _ _ _ h
  obtain ⟨h2, h⟩ := serVal_pf _ _ _ _ h
  exact ⟨Prod.ext h1 h2, h⟩

def serLit : Lit → List Nat
  | .dict l => serList serEntry l
  | .other => [2]

theorem serLit_inj {a b : Lit} (h : serLit a = serLit b) : a = b := by
  cases a with
  | dict l =>
    cases b with
    | dict l' =>
      have := serList_pf serEntry_pf l l' [] [] (by simpa [serLit] using h)
      rw [this.1]
    | other => cases l <;> simp [serLit, serList] at h
  | other =>
    cases b with
    | dict l' => cases l' <;> simp [serLit, serList] at h
    | other => rfl

open Classical in
/-- A pair as `Faithful` wants it. -/
noncomputable def sampleText : PyText where
  repr := serLit
  eval s := if h : ∃ v, serLit v = s then some (Classical.choose h) else none

open Classical in
theorem sampleText_faithful : Spec.Faithful sampleText where
  eval_repr v := by
    have h : ∃ v', serLit v' = serLit v := ⟨v, rfl⟩
    show (if h : ∃ v', serLit v' = serLit v then some (Classical.choose h) else none) = some v
    rw [dif_pos h]
    exact congrArg some (serLit_inj (Classical.choose_spec h))
  nonempty v := by
    show serLit v ≠ []
    cases v with
    | dict l => cases l <;> simp [serLit, serList]
    | other => simp [serLit]

/-- Every text of the sample notation is ASCII. -/
theorem serNat_ascii (n : Nat) : ∀ c ∈ serNat n, c < 128 := by
  intro c hc
  simp only [serNat, List.mem_append, List.mem_singleton] at hc
  rcases hc with hc | hc
  · have := (List.mem_replicate.1 hc).2; omega
  · omega

end Spead2.PyDescr
