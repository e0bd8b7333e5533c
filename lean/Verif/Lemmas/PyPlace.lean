import Verif.Spec.PyPlace

namespace Spead2.PyPlace

/-- The function and user data of a callback are those of a capsule. -/
def Matches (h : Heap) (c : Callback) (cap : Nat) : Prop :=
  ∃ sig ctx, FunctionOf h cap c.ptr sig ctx ∧ ((sig = plainSig ∧ c.data = none) ∨ (sig = bindSig ∧ c.data = some ctx))

theorem fromPython_some (h : Heap) (x : Nat) (c : Callback) :
    fromPython h x = .ok (some c) ↔ c.obj = x ∧ ∃ cap, StartsWith h x cap ∧ Matches h c cap := by
  constructor
  · intro hf
    unfold fromPython at hf
    split at hf
    · cases hf
    · split at hf
      · cases hf
      · cases hf
      · rename_i cap rest hl
        have hsw : StartsWith h x cap := by
          unfold asTuple at hl
          split at hl
          · rename_i xs hx
            cases hl; exact ⟨rest, Or.inl hx⟩
          · rename_i xs hx
            cases hl; exact ⟨rest, Or.inr hx⟩
          · cases hl
        split at hf
        · rename_i p n ctx hc
          split at hf
          · cases hf
          · rename_i hp
            split at hf
            · cases hf
            · rename_i s
              split at hf
              · rename_i hs
                cases hf
                exact ⟨rfl, cap, hsw, s, ctx, ⟨hc, hp⟩, Or.inl ⟨hs, rfl⟩⟩
              · split at hf
                · rename_i hs
                  cases hf
                  exact ⟨rfl, cap, hsw, s, ctx, ⟨hc, hp⟩, Or.inr ⟨hs, rfl⟩⟩
                · cases hf
        · cases hf
  · rintro ⟨rfl, cap, ⟨rest, hx⟩, sig, ctx, ⟨hc, hp⟩, hd⟩
    have hn : ¬ h[c.obj]? = some .none := by
      rcases hx with hx | hx <;> rw [hx] <;> simp
    have ha : asTuple h c.obj = some (cap :: rest) := by
      unfold asTuple
      rcases hx with hx | hx <;> rw [hx]
    unfold fromPython
    rw [if_neg hn, ha]
    simp only [hc]
    rw [if_neg hp]
    obtain ⟨o, p, d⟩ := c
    rcases hd with ⟨rfl, hd⟩ | ⟨rfl, hd⟩
    · simp only at hd
      subst hd
      rw [if_pos rfl]
    · simp only at hd
      subst hd
      rw [if_neg (by decide), if_pos rfl]

def GoodCb (h : Heap) (c : Callback) : Prop :=
  (∃ xs, h[c.obj]? = some (.list xs)) ∨ ∃ cap rest, h[c.obj]? = some (.tuple (cap :: rest)) ∧ Matches h c cap

/-- Objects other than lists do not change, and lists stay lists. -/
def Grows (h k : Heap) : Prop := ∀ (x : Nat) (o : PyObj), h[x]? = some o → k[x]? = some o ∨ ((∃ xs, o = .list xs) ∧ ∃ ys, k[x]? = some (.list ys))

theorem grows_refl (h : Heap) : Grows h h := fun _ _ hx => Or.inl hx

theorem GoodCb.grow {h k : Heap} (hg : Grows h k) {c : Callback} (hc : GoodCb h c) : GoodCb k c := by
  rcases hc with ⟨xs, hx⟩ | ⟨cap, rest, hx, sig, ctx, ⟨h1, h2⟩, h3⟩
  · rcases hg _ _ hx with e | ⟨_, ys, e⟩
    · exact Or.inl ⟨xs, e⟩
    · exact Or.inl ⟨ys, e⟩
  · refine Or.inr ⟨cap, rest, ?_, sig, ctx, ⟨?_, h2⟩, h3⟩
    · rcases hg _ _ hx with e | ⟨⟨_, e⟩, _⟩
      · exact e
      · cases e
    · rcases hg _ _ h1 with e | ⟨⟨_, e⟩, _⟩
      · exact e
      · cases e

theorem grows_step (s : St) (op : Op) : Grows s.heap (step s op).heap := by
  intro x o hx
  have hlt : x < s.heap.length := by
    rcases Nat.lt_or_ge x s.heap.length with h | h
    · exact h
    · rw [List.getElem?_eq_none h] at hx
      cases hx
  cases op with
  | alloc p => exact Or.inl (by simp only [step]; rw [List.getElem?_append_left hlt]; exact hx)
  | mutate y ys =>
    simp only [step]
    split
    · rename_i zs hy
      rcases Nat.decEq y x with hne | rfl
      · exact Or.inl (by simp only; rw [List.getElem?_set_ne hne]; exact hx)
      · rw [hx] at hy
        cases hy
        exact Or.inr ⟨⟨_, rfl⟩, ys, by simp only; rw [List.getElem?_set_self hlt]⟩
    · exact Or.inl hx
  | drop _ => exact Or.inl hx
  | newConfig => exact Or.inl hx
  | delConfig _ => exact Or.inl hx
  | setPlace _ _ => simp only [step]; split <;> exact Or.inl hx
  | getPlace _ => simp only [step]; split <;> exact Or.inl hx
  | newStream _ => simp only [step]; split <;> exact Or.inl hx
  | delStream _ => exact Or.inl hx

def Inv (s : St) : Prop := (∀ c, some c ∈ s.configs → GoodCb s.heap c) ∧ ∀ c, some c ∈ s.streams → GoodCb s.heap c

theorem mem_set_none {l : List (Option Callback)} {i : Nat} {c : Callback} (h : some c ∈ l.set i none) : some c ∈ l := by
  rcases List.mem_or_eq_of_mem_set h with h | h
  · exact h
  · cases h

theorem inv_step (s : St) (op : Op) (hi : Inv s) : Inv (step s op) := by
  have hg := grows_step s op
  have hc : ∀ c, some c ∈ s.configs → GoodCb (step s op).heap c := fun c hc => (hi.1 c hc).grow hg
  have hs : ∀ c, some c ∈ s.streams → GoodCb (step s op).heap c := fun c hc => (hi.2 c hc).grow hg
  cases op with
  | alloc p => exact ⟨hc, hs⟩
  | drop _ => exact ⟨hc, hs⟩
  | mutate y ys =>
    revert hc hs
    simp only [step]
    split <;> exact fun hc hs => ⟨hc, hs⟩
  | newConfig =>
    refine ⟨?_, hs⟩
    intro c hm
    simp only [step, List.mem_append, List.mem_singleton] at hm
    rcases hm with hm | hm
    · exact hc c hm
    · cases hm
  | delConfig i => exact ⟨fun c hm => hc c (mem_set_none hm), hs⟩
  | setPlace i x =>
    revert hc hs
    simp only [step]
    cases hf : fromPython s.heap x with
    | error e => exact fun hc hs => ⟨hc, hs⟩
    | ok cb =>
      intro hc hs
      refine ⟨?_, hs⟩
      intro c hm
      rcases List.mem_or_eq_of_mem_set hm with hm | hm
      · exact hc c hm
      · subst hm
        obtain ⟨rfl, cap, ⟨rest, h1⟩, h2⟩ := (fromPython_some _ _ _).mp hf
        rcases h1 with h1 | h1
        · exact Or.inr ⟨cap, rest, h1, h2⟩
        · exact Or.inl ⟨_, h1⟩
  | getPlace i =>
    revert hc hs
    simp only [step]
    split <;> exact fun hc hs => ⟨hc, hs⟩
  | newStream i =>
    revert hc hs
    simp only [step]
    split
    · rename_i cb hcb
      intro hc hs
      refine ⟨hc, ?_⟩
      intro c hm
      simp only [List.mem_append, List.mem_singleton] at hm
      rcases hm with hm | hm
      · exact hs c hm
      · rw [Option.some.inj hm]
        exact hc cb (List.mem_of_getElem? hcb)
    · exact fun hc hs => ⟨hc, hs⟩
  | delStream j => exact ⟨hc, fun c hm => hs c (mem_set_none hm)⟩

theorem inv_run (s : St) (ops : List Op) (hi : Inv s) : Inv (run s ops) := by
  induction ops generalizing s with
  | nil => exact hi
  | cons o os ih => exact ih _ (inv_step s o hi)

theorem inv_init : Inv {} := ⟨(fun _ h => by cases h), (fun _ h => by cases h)⟩

theorem run_append (s : St) (a b : List Op) : run s (a ++ b) = run (run s a) b := List.foldl_append

theorem getD_some {l : List (Option Callback)} {j : Nat} {c : Callback} (h : (l[j]?).getD none = some c) : l[j]? = some (some c) := by
  cases hj : l[j]? with
  | none => rw [hj] at h; cases h
  | some x => rw [hj] at h; exact congrArg some h

/-- Rounding up, in two ways. -/
theorem round_eq (o a : Nat) (h : 0 < a) : (o + a - 1) / a * a = if o % a ≠ 0 then o + (a - o % a) else o := by
  have h1 := Nat.div_add_mod o a
  have h2 := Nat.mod_lt o h
  split
  · rename_i hne
    have e : o + a - 1 = (o % a - 1) + a * (o / a + 1) := by rw [Nat.mul_add]; omega
    rw [e, Nat.add_mul_div_left _ _ h, Nat.div_eq_of_lt (by omega), Nat.zero_add, Nat.mul_comm, Nat.mul_add]
    omega
  · rename_i he
    have he : o % a = 0 := by omega
    have e : o + a - 1 = (a - 1) + a * (o / a) := by omega
    rw [e, Nat.add_mul_div_left _ _ h, Nat.div_eq_of_lt (by omega), Nat.zero_add, Nat.mul_comm]
    omega

def toN : CTy → NTy
  | .ptr => .intp
  | .size => .size
  | .i64 => .int64

theorem shape_toN (p : Plat) (t : CTy) : (toN t).shape p = t.shape p := by cases t <;> rfl

theorem align_pos (p : Plat) (hp : p.Good) (t : CTy) : 0 < (t.shape p).2 := by
  cases t
  · exact hp.1
  · exact hp.1
  · exact hp.2

theorem layout_eq (p : Plat) (hp : p.Good) (fs : List (String × CTy)) (off : Nat) : nLayout p off (fs.map fun f => (f.1, toN f.2)) = cLayout p off fs := by
  induction fs generalizing off with
  | nil => rfl
  | cons f fs ih =>
    obtain ⟨n, t⟩ := f
    simp only [List.map_cons, nLayout, cLayout, shape_toN]
    rw [round_eq _ _ (align_pos p hp t), ih]

end Spead2.PyPlace
