import Verif.Model.PlaceData
import Verif.Spec.PlaceData
import Verif.Lemmas.Framing
import Verif.Lemmas.EndItems
import Mathlib.Data.List.Basic

/-! # Lemmas about what a place callback sees -/

namespace Spead2.PlaceCb

open Spead2.Spec

theorem lastValue_cons (id : Nat) (x : Nat × Nat) (l : List (Nat × Nat)) :
    lastValue id (x :: l) = (lastValue id l).or (if x.1 = id then some x.2 else none) := by
  unfold lastValue
  by_cases h : x.1 = id
  · simp only [List.filter_cons, h, decide_true, if_true]
    cases hf : List.filter (fun y => decide (y.1 = id)) l with
    | nil => simp
    | cons a t => simp [List.getLast?_cons]
  · simp only [List.filter_cons, h, decide_false, if_false, Bool.false_eq_true]
    simp

theorem lastImm_eq (w id : Nat) (table : List Nat) : lastImm w id table = lastValue id (immediates w table) := by
  induction table with
  | nil => rfl
  | cons p ps ih =>
    rw [lastImm_cons, ih]
    unfold immediates
    by_cases h : ptrImmediate p
    · simp only [List.filter_cons, h, decide_true, if_true, List.map_cons, lastValue_cons, true_and]
    · simp [List.filter_cons, h]

theorem immediates_append (w : Nat) (a b : List Nat) : immediates w (a ++ b) = immediates w a ++ immediates w b := by
  unfold immediates; simp

/-- The effect of the pointers of a table on the items. -/
def upd (w id : Nat) (table : List Nat) (v : Int) : Int :=
  match lastImm w id table with
  | some x => x
  | none => v

theorem matchItem_eq (w : Nat) (ids : List Nat) (items : List Int) (hl : items.length = ids.length) (p : Nat) :
    matchItem (8 * w) ids items p = List.zipWith (fun id v => upd w id [p] v) ids items := by
  unfold matchItem
  by_cases h : isImmediate p = true
  · rw [if_pos h]
    have hi := (isImm_spec p).1 h
    congr 1
    funext id v
    unfold upd
    rw [lastImm_cons, getId_spec, getImmediate_spec]
    have e : lastImm w id [] = none := rfl
    rw [e]
    by_cases c : ptrId w p = id
    · simp [hi, c]
    · have c' : ¬ id = ptrId w p := fun h => c h.symm
      simp [hi, c, c']
  · rw [if_neg h]
    have hi : ¬ ptrImmediate p := fun c => h ((isImm_spec p).2 c)
    have e : (fun (id : Nat) (v : Int) => upd w id [p] v) = fun _ v => v := by
      funext id v
      unfold upd
      rw [lastImm_cons]
      have e : lastImm w id [] = none := rfl
      rw [e]
      simp [hi]
    rw [e]
    clear h hi e
    induction ids generalizing items with
    | nil => cases items with
      | nil => rfl
      | cons => simp at hl
    | cons a t ih => cases items with
      | nil => simp at hl
      | cons b s => simp only [List.zipWith_cons_cons]; rw [← ih s (by simpa using hl)]

theorem upd_cons (w id p : Nat) (ps : List Nat) (v : Int) : upd w id (p :: ps) v = upd w id ps (upd w id [p] v) := by
  unfold upd
  rw [lastImm_cons, lastImm_cons w id p []]
  have e : lastImm w id [] = none := rfl
  rw [e]
  cases lastImm w id ps <;> simp

theorem zipWith_zipWith_same {α β : Type} (f g : α → β → β) (l : List α) (m : List β) :
    List.zipWith f l (List.zipWith g l m) = List.zipWith (fun a b => f a (g a b)) l m := by
  induction l generalizing m with
  | nil => simp
  | cons a t ih => cases m with
    | nil => simp
    | cons b s => simp [ih]

theorem zipWith_snd {α β : Type} (l : List α) (m : List β) (h : m.length = l.length) : List.zipWith (fun _ b => b) l m = m := by
  induction l generalizing m with
  | nil => cases m with
    | nil => rfl
    | cons => simp at h
  | cons a t ih => cases m with
    | nil => simp at h
    | cons b s => simp only [List.zipWith_cons_cons]; rw [ih s (by simpa using h)]

theorem zipWith_replicate {β : Type} (f : Nat → Int → β) (l : List Nat) (v : Int) :
    List.zipWith f l (List.replicate l.length v) = l.map (fun a => f a v) := by
  induction l with
  | nil => rfl
  | cons a t ih => simp only [List.length_cons, List.replicate_succ, List.zipWith_cons_cons, List.map_cons, ih]

theorem scan_eq (w : Nat) (ids : List Nat) : ∀ (table : List Nat) (pre rest : Bytes) (fuel : Nat) (items : List Int),
    items.length = ids.length → (∀ p ∈ table, p < 2 ^ 64) → table.length < fuel →
    scan (pre ++ (table.flatMap (beBytes 8) ++ rest)) (8 * w) (pre.length + 8 * table.length) ids fuel pre.length items =
      some (List.zipWith (fun id v => upd w id table v) ids items)
  | [], pre, rest, fuel, items, hl, _, hf => by
    obtain ⟨f, rfl⟩ : ∃ f, fuel = f + 1 := ⟨fuel - 1, by simp at hf; omega⟩
    unfold scan
    rw [if_pos (by simp)]
    congr 1
    have e : (fun (id : Nat) (v : Int) => upd w id [] v) = fun _ v => v := by funext id v; rfl
    rw [e, zipWith_snd _ _ hl]
  | p :: ps, pre, rest, fuel, items, hl, hp, hf => by
    simp only [List.length_cons] at hf
    obtain ⟨f, rfl⟩ : ∃ f, fuel = f + 1 := ⟨fuel - 1, by omega⟩
    unfold scan
    rw [if_neg (by simp)]
    simp only [List.flatMap_cons, List.append_assoc]
    rw [load64?_mid _ _ _ (hp p (by simp))]
    simp only
    have hm := matchItem_eq w ids items hl p
    have := scan_eq w ids ps (pre ++ beBytes 8 p) rest f (matchItem (8 * w) ids items p) (by rw [hm]; simp [hl])
      (fun q hq => hp q (by simp [hq])) (by omega)
    have el : (pre ++ beBytes 8 p).length = pre.length + 8 := by simp
    rw [el] at this
    simp only [List.append_assoc] at this
    have e2 : pre.length + 8 * (p :: ps).length = pre.length + 8 + 8 * ps.length := by simp only [List.length_cons]; omega
    rw [e2, this, hm, zipWith_zipWith_same]
    congr 2
    funext id v
    exact (upd_cons w id p ps v).symm

theorem scan_table {d : Bytes} {aw : UInt8} {table : List Nat} {rest : Bytes} (h : HasTable d aw table rest) (ids : List Nat)
    (old : List Int) (ho : old.length = ids.length) :
    scan d (8 * aw.toNat) (8 + 8 * table.length) ids (d.length + 1) 8 (fill ids.length old) =
      some (requested ids (immediates aw.toNat table)) := by
  obtain ⟨_, h2, ⟨pre, hp, hd⟩, h4, _, _⟩ := hasTable_facts h
  have hfill : fill ids.length old = List.replicate ids.length (-1) := by
    unfold fill
    rw [List.drop_of_length_le (by omega)]; simp
  have := scan_eq aw.toNat ids table pre rest (d.length + 1) (fill ids.length old) (by rw [hfill]; simp) h4 (by omega)
  rw [← hd, hp] at this
  rw [this, hfill, zipWith_replicate]
  unfold requested
  congr 2
  funext id
  rw [← lastImm_eq]
  unfold upd optField
  cases lastImm aw.toNat id table <;> rfl

/-! ### Sent heaps -/

theorem immediates_items {w a : Nat} {items : List SendItem} {tail : List Nat} {ext : Nat} (h : Suffix w a items tail ext) :
    immediates w (itemPtrs w a items ++ tail) = immediateItems w items := by
  induction items generalizing a with
  | nil =>
    have h1 := h.lt
    have h2 := h.tail
    simp only [realPayload, List.flatMap_nil, List.length_nil, Nat.add_zero] at h1 h2
    simp only [itemPtrs, List.nil_append, immediateItems, List.filterMap_nil]
    rcases h2 with h2 | ⟨h2, _⟩
    · rw [h2]
      unfold immediates
      simp [(null_fields h.w7 h1).1]
    · rw [h2]; rfl
  | cons it rest ih =>
    have hlt := h.lt
    have e : immediateItems w (it :: rest) = immediateItems w [it] ++ immediateItems w rest := by
      unfold immediateItems
      rw [← List.filterMap_append]; rfl
    rw [e, ← ih h.cons]
    simp only [itemPtrs, List.cons_append]
    rcases item_cases w h.w1 h.w7 it a (h.ids it (by simp)).2 (h.inl it (by simp)) (by omega) with
      ⟨c0, v', _, _, c3, c4, c5, c6⟩ | ⟨_, c1, c2, _, c3⟩
    · rw [c3]
      unfold immediates
      have c5' : ptrId w (itemPtr w a it) = it.id := c5
      have c6' : ptrValue w (itemPtr w a it) = v' := c6
      simp only [List.filter_cons, c4, decide_true, if_true, List.map_cons, c5', c6', List.cons_append, List.nil_append]
    · rw [c1]
      unfold immediates
      simp only [List.filter_cons, c2, decide_false, Bool.false_eq_true, if_false, List.nil_append]

theorem hasTable_packetBytes {w cnt hl off : Nat} {ptrs : List Nat} {payload : Bytes} (hw1 : 1 ≤ w) (hw : w ≤ 7)
    (hcnt : cnt < 2 ^ (8 * w)) (hhl : hl < 2 ^ (8 * w)) (hoff : off + payload.length ≤ hl)
    (hn : 4 + ptrs.length < 65536) (hp : ∀ p ∈ ptrs, p < 2 ^ 64) :
    ∃ table, HasTable (packetBytes w cnt hl off ptrs payload) (UInt8.ofNat w) table payload ∧ table.length = 4 + ptrs.length ∧
      immediates w table = [(1, cnt), (2, hl), (3, off), (4, payload.length)] ++ immediates w ptrs := by
  have hpow4 : 4 < 2 ^ (63 - 8 * w) := Nat.lt_of_lt_of_le (by decide : 4 < 2 ^ 7) (Nat.pow_le_pow_right (by omega) (by omega))
  have i1 := imm_fields (w := w) (id := 1) (v := cnt) hw (by omega) hcnt
  have i2 := imm_fields (w := w) (id := 2) (v := hl) hw (by omega) hhl
  have i3 := imm_fields (w := w) (id := 3) (v := off) hw (by omega) (by omega)
  have i4 := imm_fields (w := w) (id := 4) (v := payload.length) hw (by omega) (by omega)
  have hlt1 : ∀ p ∈ [2 ^ 63 + 1 * 2 ^ (8 * w) + cnt, 2 ^ 63 + 2 * 2 ^ (8 * w) + hl, 2 ^ 63 + 3 * 2 ^ (8 * w) + off,
      2 ^ 63 + 4 * 2 ^ (8 * w) + payload.length], p < 2 ^ 64 := by
    have : 2 ^ (8 * w) ≤ 2 ^ 56 := Nat.pow_le_pow_right (by omega) (by omega)
    intro p hpm
    simp only [List.mem_cons, List.not_mem_nil, or_false] at hpm
    rcases hpm with rfl | rfl | rfl | rfl <;> omega
  generalize ht1 : 2 ^ 63 + 1 * 2 ^ (8 * w) + cnt = q1 at *
  generalize ht2 : 2 ^ 63 + 2 * 2 ^ (8 * w) + hl = q2 at *
  generalize ht3 : 2 ^ 63 + 3 * 2 ^ (8 * w) + off = q3 at *
  generalize ht4 : 2 ^ 63 + 4 * 2 ^ (8 * w) + payload.length = q4 at *
  refine ⟨[q1, q2, q3, q4] ++ ptrs, ⟨UInt8.ofNat (8 - w), 0, 0, ?_, ?_, ?_, ?_, by simp; omega, ?_⟩, by simp; omega, ?_⟩
  · unfold packetBytes
    rw [ht1, ht2, ht3, ht4]
    congr 3
    simp; omega
  · intro hc; have := congrArg UInt8.toNat hc; simp at this; omega
  · intro hc; have := congrArg UInt8.toNat hc; simp at this; omega
  · simp; omega
  · intro p hpm
    rcases List.mem_append.1 hpm with h | h
    · exact hlt1 p h
    · exact hp p h
  · rw [immediates_append]
    congr 1
    unfold immediates
    simp only [List.filter_cons, i1.1, i2.1, i3.1, i4.1, decide_true, if_true, List.map_cons, i1.2.1, i2.2.1, i3.2.1, i4.2.1,
      i1.2.2, i2.2.2, i3.2.2, i4.2.2, List.filter_nil, List.map_nil]

theorem packetSeq_get {w cnt hl : Nat} : ∀ (parts : List (List Nat × Bytes)) (off i : Nat) (d : Bytes),
    (packetSeq w cnt hl off parts)[i]? = some d → off + (parts.map (fun x => x.2.length)).sum ≤ hl →
    ∃ x : List Nat × Bytes, parts[i]? = some x ∧ d = packetBytes w cnt hl (off + ((parts.take i).map (fun x => x.2.length)).sum) x.1 x.2 ∧
      off + ((parts.take i).map (fun x => x.2.length)).sum + x.2.length ≤ hl
  | [], off, i, d, h, _ => by simp [packetSeq] at h
  | (ptrs, payload) :: rest, off, 0, d, h, hs => by
    simp only [packetSeq, List.getElem?_cons_zero, Option.some.injEq] at h
    simp only [List.map_cons, List.sum_cons] at hs
    exact ⟨_, rfl, by rw [← h]; simp, by simp; omega⟩
  | (ptrs, payload) :: rest, off, i + 1, d, h, hs => by
    simp only [packetSeq, List.getElem?_cons_succ] at h
    simp only [List.map_cons, List.sum_cons] at hs
    obtain ⟨x, h1, h2, h3⟩ := packetSeq_get rest _ i d h (by omega)
    refine ⟨x, by simpa using h1, ?_, ?_⟩
    · rw [h2]; congr 1; simp; omega
    · simp only [List.take_succ_cons, List.map_cons, List.sum_cons]; omega

end Spead2.PlaceCb
