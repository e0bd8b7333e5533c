import Verif.Spec.VerifyTool
import Verif.Lemmas.Bytes
import Mathlib.Data.List.Basic
import Mathlib.Tactic.Ring

/-!
# Lemmas: `--verify`
-/

namespace Spead2.VerifyTool

/-- The generator after `p` values. -/
def state (p : Nat) : Nat := factor ^ p % modulus

theorem state_zero : state 0 = seed 1 := by decide

theorem next_state (p : Nat) : next (state p) = state (p + 1) := by
  unfold next state
  rw [Nat.mod_mul_mod, Nat.pow_succ]

theorem state_succ (p : Nat) : state (p + 1) = random p := rfl

theorem random_lt (p : Nat) : random p < 256 ^ 4 := by
  have : random p < 2 ^ 31 - 1 := Nat.mod_lt _ (by decide)
  omega

theorem state_lt (p : Nat) : state p < modulus := Nat.mod_lt _ (by decide)

theorem state_ne (p : Nat) : state p ≠ 0 := by
  intro h
  have h1 : modulus ∣ factor ^ p := Nat.dvd_of_mod_eq_zero h
  have h2 : Nat.Coprime modulus (factor ^ p) := Nat.Coprime.pow_right _ (by decide)
  have := Nat.Coprime.eq_one_of_dvd h2 h1
  exact absurd this (by decide)

theorem seed_state (p : Nat) : seed (state p) = state p := by
  unfold seed
  rw [Nat.mod_eq_of_lt (state_lt p), if_neg (state_ne p)]

theorem numbers_length (p n : Nat) : (numbers p n).length = 4 * n := by
  unfold numbers
  induction n with
  | zero => rfl
  | succ n ih => rw [List.range_succ, List.flatMap_append, List.length_append, ih]; simp; omega

theorem numbers_succ (p n : Nat) : numbers p (n + 1) = beBytes 4 (random p) ++ numbers (p + 1) n := by
  unfold numbers
  rw [List.range_succ_eq_map, List.flatMap_cons, List.flatMap_map]
  refine congrArg (fun l => beBytes 4 (random p) ++ l) (List.flatMap_congr fun k _ => ?_)
  rw [show p + k.succ = p + 1 + k by omega]

theorem fillItem_state (n p : Nat) : fillItem n (state p) = (numbers p n, state (p + n)) := by
  induction n generalizing p with
  | zero => rfl
  | succ n ih =>
    unfold fillItem
    simp only
    rw [next_state, ih, numbers_succ, state_succ, show p + 1 + n = p + (n + 1) by omega]

theorem fillHeap_state (el k p : Nat) : fillHeap el k (state p) = ((List.range k).map (fun j => numbers (p + j * el) el), state (p + k * el)) := by
  induction k generalizing p with
  | zero => simp [fillHeap]
  | succ k ih =>
    unfold fillHeap
    simp only
    rw [fillItem_state, ih, List.range_succ_eq_map, List.map_cons, List.map_map]
    simp only
    refine Prod.ext ?_ ?_
    · show numbers p el :: _ = numbers (p + 0 * el) el :: _
      rw [Nat.zero_mul, Nat.add_zero]
      refine congrArg (fun l => numbers p el :: l) (List.map_congr_left fun j _ => ?_)
      show numbers (p + el + j * el) el = numbers (p + (j + 1) * el) el
      rw [show p + el + j * el = p + (j + 1) * el by ring]
    · show state (p + el + k * el) = state (p + (k + 1) * el)
      rw [show p + el + k * el = p + (k + 1) * el by ring]

theorem genAfter_state (el items k : Nat) : genAfter el items k = state (k * items * el) := by
  induction k with
  | zero => rw [Nat.zero_mul, Nat.zero_mul, state_zero]; rfl
  | succ k ih =>
    unfold genAfter
    rw [ih, fillHeap_state]
    simp only
    congr 1
    ring

theorem fill_eq (c : SendTool.Sender) (k : Nat) : fill c k = heapData c.elements c.items k := by
  unfold fill heapData
  rw [genAfter_state, fillHeap_state]
  simp only
  apply List.map_congr_left
  intro j _
  congr 1
  ring

theorem discardLoop_eq (k x p z : Nat) (hx : x < modulus) (hp : p < modulus) (hz : z < 2 ^ k) : discardLoop k x p z = x * p ^ z % modulus := by
  have hno : ∀ {a b : Nat}, a < modulus → b < modulus → a * b % 2 ^ 64 = a * b := by
    intro a b ha hb
    apply Nat.mod_eq_of_lt
    have : a * b ≤ modulus * modulus := Nat.mul_le_mul (Nat.le_of_lt ha) (Nat.le_of_lt hb)
    exact Nat.lt_of_le_of_lt this (by decide)
  induction k generalizing x p z with
  | zero =>
    have : z = 0 := by omega
    subst this
    unfold discardLoop
    rw [Nat.pow_zero, Nat.mul_one, Nat.mod_eq_of_lt hx]
  | succ k ih =>
    unfold discardLoop
    split
    · rename_i h
      subst h
      rw [Nat.pow_zero, Nat.mul_one, Nat.mod_eq_of_lt hx]
    · rw [ih _ _ _ ?_ (Nat.mod_lt _ (by decide)) (by rw [Nat.pow_succ] at hz; omega)]
      · rw [hno hp hp]
        have hsq : (p * p) ^ (z / 2) = p ^ (2 * (z / 2)) := by rw [← Nat.pow_two, ← Nat.pow_mul]
        split
        · rename_i h1
          rw [hno hx hp, Nat.mod_mul_mod, Nat.mul_mod, Nat.pow_mod (p * p % modulus), Nat.mod_mod, ← Nat.pow_mod, hsq, ← Nat.mul_mod]
          have : z = 2 * (z / 2) + 1 := by omega
          congr 1
          rw [Nat.mul_assoc, ← Nat.pow_succ']
          congr 2
          omega
        · rename_i h1
          rw [Nat.mul_mod, Nat.pow_mod (p * p % modulus), Nat.mod_mod, ← Nat.pow_mod, hsq, ← Nat.mul_mod]
          congr 3
          omega
      · split
        · exact Nat.mod_lt _ (by decide)
        · exact hx

theorem fastDiscard_state (p z : Nat) (hz : z < 2 ^ 64) : fastDiscard (state p) z = state (p + z) := by
  unfold fastDiscard
  split
  · rename_i h
    subst h
    rfl
  · rename_i h
    rw [next_state, discardLoop_eq 64 _ _ _ (state_lt _) (by decide) (by omega)]
    have : state (p + 1) * factor ^ (z - 1) % modulus = state (p + z) := by
      unfold state
      rw [Nat.mod_mul_mod, ← Nat.pow_add]
      congr 2
      omega
    rw [this, seed_state]

/-! ### The receiver -/

theorem mapM_map_some (b : Bytes) : (b.map some).mapM id = some b := by
  induction b with
  | nil => rfl
  | cons x b ih => rw [List.map_cons, List.mapM_cons, ih]; rfl

theorem word_eq (b : Bytes) (i : Nat) (h : 4 * i + 4 ≤ b.length) : word (b.map some) i = some (beNat ((b.drop (4 * i)).take 4)) := by
  unfold word
  simp only
  rw [← List.map_drop, ← List.map_take, if_neg (by rw [List.length_map, List.length_take, List.length_drop]; omega), mapM_map_some]
  rfl

/-- What a loop over the elements finds. -/
theorem verifyWords_spec (id : Nat) (b : Bytes) : ∀ (k i p : Nat), 4 * (i + k) ≤ b.length →
    ((b.drop (4 * i)).take (4 * k) = numbers p k ∧ verifyWords id (b.map some) k i (state p) = some (.ok (state (p + k)))) ∨
    ((b.drop (4 * i)).take (4 * k) ≠ numbers p k ∧ ∃ j a, j < k ∧ word (b.map some) (i + j) = some a ∧ a ≠ random (p + j) ∧
      verifyWords id (b.map some) k i (state p) = some (.error (.mismatch id (i + j) (random (p + j)) a)))
  | 0, i, p, _ => Or.inl ⟨by simp [numbers], rfl⟩
  | k + 1, i, p, h => by
    have hw := word_eq b i (by omega)
    have hsplit : (b.drop (4 * i)).take (4 * (k + 1)) = (b.drop (4 * i)).take 4 ++ (b.drop (4 * (i + 1))).take (4 * k) := by
      rw [show 4 * (k + 1) = 4 + 4 * k by omega, List.take_add, List.drop_drop, show 4 * i + 4 = 4 * (i + 1) by omega]
    have hlen : ((b.drop (4 * i)).take 4).length = 4 := by rw [List.length_take, List.length_drop]; omega
    have hunf : verifyWords id (b.map some) (k + 1) i (state p) =
        if random p ≠ beNat ((b.drop (4 * i)).take 4) then some (Except.error (.mismatch id i (random p) (beNat ((b.drop (4 * i)).take 4))))
        else verifyWords id (b.map some) k (i + 1) (state (p + 1)) := by
      show (match word (b.map some) i with
        | none => none
        | some actual => if next (state p) ≠ actual then some (Except.error (Verdict.mismatch id i (next (state p)) actual)) else verifyWords id (b.map some) k (i + 1) (next (state p))) = _
      rw [hw, next_state]
      rfl
    rw [hunf, hsplit, numbers_succ]
    have happ : (b.drop (4 * i)).take 4 ++ (b.drop (4 * (i + 1))).take (4 * k) = beBytes 4 (random p) ++ numbers (p + 1) k ↔
        (b.drop (4 * i)).take 4 = beBytes 4 (random p) ∧ (b.drop (4 * (i + 1))).take (4 * k) = numbers (p + 1) k := by
      constructor
      · intro h
        exact List.append_inj h (by rw [hlen, beBytes_length])
      · rintro ⟨h1, h2⟩
        rw [h1, h2]
    by_cases he : random p = beNat ((b.drop (4 * i)).take 4)
    · rw [if_neg (by simpa using he)]
      have hb : (b.drop (4 * i)).take 4 = beBytes 4 (random p) := by
        rw [he]
        have := beBytes_beNat ((b.drop (4 * i)).take 4)
        rw [hlen] at this
        exact this.symm
      rcases verifyWords_spec id b k (i + 1) (p + 1) (by omega) with ⟨h1, h2⟩ | ⟨h1, j, a, h2, h3, h4, h5⟩
      · left
        refine ⟨happ.mpr ⟨hb, h1⟩, ?_⟩
        rw [h2, show p + 1 + k = p + (k + 1) by omega]
      · right
        refine ⟨fun h => h1 (happ.mp h).2, j + 1, a, by omega, ?_, ?_, ?_⟩
        · rw [show i + (j + 1) = i + 1 + j by omega]; exact h3
        · rw [show p + (j + 1) = p + 1 + j by omega]; exact h4
        · rw [h5, show i + (j + 1) = i + 1 + j by omega, show p + (j + 1) = p + 1 + j by omega]
    · right
      rw [if_pos (by simpa using he)]
      refine ⟨?_, 0, _, by omega, hw, fun h => he h.symm, rfl⟩
      intro h
      have := (happ.mp h).1
      apply he
      rw [this, beNat_beBytes_of_lt (random_lt p)]

theorem TrueReport.cons {items : List RxItem} {el : Nat} {v : Verdict} (it : RxItem) (h : TrueReport items el v) : TrueReport (it :: items) el v := by
  have hsub : ∀ x ∈ dataOf items, x ∈ dataOf (it :: items) := by
    intro x hx
    unfold dataOf at hx ⊢
    rw [List.mem_filter] at hx ⊢
    exact ⟨List.mem_cons_of_mem _ hx.1, hx.2⟩
  cases v with
  | good => exact h.elim
  | warning => exact h.elim
  | inconsistent id =>
    obtain ⟨x, h1, h2⟩ := h
    exact ⟨x, hsub x h1, h2⟩
  | mismatch id offset expected actual =>
    obtain ⟨x, h1, h2⟩ := h
    exact ⟨x, hsub x h1, h2⟩

theorem holds_cons (p el : Nat) (it : RxItem) (l : List RxItem) : Holds p el (it :: l) ↔ it.data = (numbers p el).map some ∧ Holds (p + el) el l := by
  constructor
  · intro h
    refine ⟨by simpa using h 0 it rfl, ?_⟩
    intro j x hx
    rw [h (j + 1) x hx]
    congr 2
    ring
  · rintro ⟨h1, h2⟩ j x hx
    cases j with
    | zero =>
      cases hx
      simpa using h1
    | succ j =>
      rw [h2 j x hx]
      congr 2
      ring

/-- One item. -/
theorem verifyOne (it : RxItem) (b : Bytes) (hb : it.data = b.map some) (el p : Nat) :
    (it.data = (numbers p el).map some ∧ it.data.length = el * 4 ∧ verifyWords it.id it.data el 0 (state p) = some (.ok (state (p + el)))) ∨
    (it.data ≠ (numbers p el).map some ∧ (it.data.length ≠ el * 4 ∨ it.data.length = el * 4 ∧
      ∃ j a, j < el ∧ word it.data j = some a ∧ a ≠ random (p + j) ∧ verifyWords it.id it.data el 0 (state p) = some (.error (.mismatch it.id j (random (p + j)) a)))) := by
  have hinj : ∀ {a c : Bytes}, a.map some = c.map some ↔ a = c := by
    intro a c
    exact List.map_inj_right (fun x y h => Option.some.inj h)
  by_cases hl : it.data.length = el * 4
  · have hbl : b.length = 4 * el := by
      rw [hb, List.length_map] at hl
      omega
    have htake : (b.drop (4 * 0)).take (4 * el) = b := by
      rw [Nat.mul_zero, List.drop_zero, List.take_of_length_le (by omega)]
    have := verifyWords_spec it.id b el 0 p (by omega)
    rw [htake] at this
    rcases this with ⟨h1, h2⟩ | ⟨h1, j, a, h2, h3, h4, h5⟩
    · left
      rw [hb]
      exact ⟨hinj.mpr h1, by rw [← hb]; exact hl, h2⟩
    · right
      rw [hb]
      rw [Nat.zero_add] at h3 h5
      exact ⟨fun h => h1 (hinj.mp h), Or.inr ⟨by rw [← hb]; exact hl, j, a, h2, h3, h4, h5⟩⟩
  · right
    refine ⟨?_, Or.inl hl⟩
    intro h
    rw [h, List.length_map, numbers_length] at hl
    omega

theorem defined_cons {it : RxItem} {items : List RxItem} (h : Defined (it :: items)) : Defined items := by
  intro x hx
  refine h x ?_
  unfold dataOf at hx ⊢
  rw [List.mem_filter] at hx ⊢
  exact ⟨List.mem_cons_of_mem _ hx.1, hx.2⟩

theorem verifyItems_rest (cnt n el : Nat) : ∀ (items : List RxItem) (p : Nat), Defined items →
    (Holds p el (dataOf items) ∧ verifyItems cnt n items false el (state p) = some (.ok false)) ∨
    (¬ Holds p el (dataOf items) ∧ ∃ v, verifyItems cnt n items false el (state p) = some (.error v) ∧ TrueReport items el v)
  | [], p, _ => Or.inl ⟨by intro j it h; simp [dataOf] at h, rfl⟩
  | it :: rest, p, hd => by
    have hrest := defined_cons hd
    unfold verifyItems
    by_cases hid : it.id < 0x1000
    · rw [if_pos hid]
      have e : dataOf (it :: rest) = dataOf rest := by
        unfold dataOf
        rw [List.filter_cons_of_neg (by simpa using hid)]
      rw [e]
      rcases verifyItems_rest cnt n el rest p hrest with h | ⟨h, v, h1, h2⟩
      · exact Or.inl h
      · exact Or.inr ⟨h, v, h1, h2.cons it⟩
    · rw [if_neg hid]
      have e : dataOf (it :: rest) = it :: dataOf rest := by
        unfold dataOf
        rw [List.filter_cons_of_pos (by simpa using hid)]
      have hmem : it ∈ dataOf (it :: rest) := by rw [e]; exact List.mem_cons_self
      obtain ⟨b, hb⟩ := hd it hmem
      simp only [Bool.false_eq_true, if_false]
      rw [e, holds_cons]
      rcases verifyOne it b hb el p with ⟨h1, h2, h3⟩ | ⟨h1, h2 | ⟨h2, j, a, h3, h4, h5, h6⟩⟩
      · rw [if_neg (by simpa using h2), h3]
        rcases verifyItems_rest cnt n el rest (p + el) hrest with ⟨g1, g2⟩ | ⟨g1, v, g2, g3⟩
        · exact Or.inl ⟨⟨h1, g1⟩, g2⟩
        · exact Or.inr ⟨fun h => g1 h.2, v, g2, g3.cons it⟩
      · right
        rw [if_pos (by simpa using h2)]
        exact ⟨fun h => h1 h.1, _, rfl, it, hmem, rfl, h2⟩
      · right
        rw [if_neg (by simpa using h2), h6]
        exact ⟨fun h => h1 h.1, _, rfl, it, hmem, rfl, h3, h4, h5⟩

/-- Where the numbers of a heap should start. -/
def startOf (cnt n el : Nat) : Nat := el * n * (cnt + (2 ^ 64 - 1)) % 2 ^ 64

theorem verifyItems_first (cnt n : Nat) : ∀ (items : List RxItem), Defined items →
    (dataOf items = [] ∧ verifyItems cnt n items true 0 (state 0) = some (.ok true)) ∨
    (∃ it l, dataOf items = it :: l ∧
      ((Holds (startOf cnt n (it.data.length / 4)) (it.data.length / 4) (it :: l) ∧ verifyItems cnt n items true 0 (state 0) = some (.ok false)) ∨
       (¬ Holds (startOf cnt n (it.data.length / 4)) (it.data.length / 4) (it :: l) ∧ ∃ v, verifyItems cnt n items true 0 (state 0) = some (.error v) ∧
          TrueReport items (it.data.length / 4) v)))
  | [], _ => Or.inl ⟨rfl, rfl⟩
  | it :: rest, hd => by
    have hrest := defined_cons hd
    by_cases hid : it.id < 0x1000
    · have e : dataOf (it :: rest) = dataOf rest := by
        unfold dataOf
        rw [List.filter_cons_of_neg (by simpa using hid)]
      have e2 : verifyItems cnt n (it :: rest) true 0 (state 0) = verifyItems cnt n rest true 0 (state 0) := by
        conv => lhs; unfold verifyItems
        rw [if_pos hid]
      rw [e, e2]
      rcases verifyItems_first cnt n rest hrest with h | ⟨x, l, h0, h⟩
      · exact Or.inl h
      · right
        refine ⟨x, l, h0, ?_⟩
        rcases h with h | ⟨h1, v, h2, h3⟩
        · exact Or.inl h
        · exact Or.inr ⟨h1, v, h2, h3.cons it⟩
    · right
      have e : dataOf (it :: rest) = it :: dataOf rest := by
        unfold dataOf
        rw [List.filter_cons_of_pos (by simpa using hid)]
      have hmem : it ∈ dataOf (it :: rest) := by rw [e]; exact List.mem_cons_self
      obtain ⟨b, hb⟩ := hd it hmem
      refine ⟨it, dataOf rest, e, ?_⟩
      -- the same as for an item that is not the first
      have key : verifyItems cnt n (it :: rest) true 0 (state 0) =
          verifyItems cnt n (it :: rest) false (it.data.length / 4) (state (startOf cnt n (it.data.length / 4))) := by
        unfold verifyItems
        rw [if_neg hid, if_neg hid]
        simp only [if_true, Bool.false_eq_true, if_false]
        rw [fastDiscard_state 0 _ (Nat.mod_lt _ (by decide)), Nat.zero_add]
        rfl
      rw [key]
      have := verifyItems_rest cnt n (it.data.length / 4) (it :: rest) (startOf cnt n (it.data.length / 4)) hd
      rw [e] at this
      exact this

end Spead2.VerifyTool
