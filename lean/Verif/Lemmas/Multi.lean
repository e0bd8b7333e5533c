import Verif.Spec.Ring

/-!
# Lemmas about systems of threads
-/

namespace Spead2
open Spec

/-- Sum of a weight over a list. -/
def wsum {β : Type} (f : β → Nat) (l : List β) : Nat := (l.map f).sum

theorem wsum_set {β : Type} (f : β → Nat) : ∀ {l : List β} {i : Nat} {x : β}, l[i]? = some x → ∀ y, wsum f (l.set i y) + f x = wsum f l + f y
  | [], i, x, h, y => by simp at h
  | a :: l, 0, x, h, y => by simp at h; subst h; simp [wsum]; omega
  | a :: l, i + 1, x, h, y => by
    rw [List.getElem?_cons_succ] at h
    have := wsum_set f h y
    simp only [wsum, List.set_cons_succ, List.map_cons, List.sum_cons] at this ⊢
    omega

theorem wsum_ge {β : Type} (f : β → Nat) : ∀ {l : List β} {i : Nat} {x : β}, l[i]? = some x → f x ≤ wsum f l
  | [], i, x, h => by simp at h
  | a :: l, 0, x, h => by simp at h; subst h; simp [wsum]
  | a :: l, i + 1, x, h => by
    rw [List.getElem?_cons_succ] at h
    have := wsum_ge f h
    simp only [wsum, List.map_cons, List.sum_cons] at this ⊢
    omega

theorem wsum_zero {β : Type} {f : β → Nat} : ∀ {l : List β}, (∀ x ∈ l, f x = 0) → wsum f l = 0
  | [], _ => rfl
  | a :: l, h => by
    have := wsum_zero (f := f) (l := l) (fun x hx => h x (by simp [hx]))
    simp only [wsum, List.map_cons, List.sum_cons] at this ⊢
    rw [h a (by simp)]
    omega

theorem wsum_pos {β : Type} {f : β → Nat} : ∀ {l : List β}, 0 < wsum f l → ∃ (i : Nat) (x : β), l[i]? = some x ∧ 0 < f x
  | [], h => by simp [wsum] at h
  | a :: l, h => by
    by_cases ha : 0 < f a
    · exact ⟨0, a, rfl, ha⟩
    · have : 0 < wsum f l := by simp only [wsum, List.map_cons, List.sum_cons] at h ⊢; omega
      obtain ⟨i, x, h1, h2⟩ := wsum_pos this
      exact ⟨i + 1, x, by rw [List.getElem?_cons_succ]; exact h1, h2⟩

theorem set_same {β : Type} {l : List β} {i : Nat} {x : β} (h : l[i]? = some x) : l.set i x = l := by
  apply List.ext_getElem?
  intro j
  by_cases he : i = j
  · subst he; rw [List.getElem?_set_self (List.getElem?_eq_some_iff.mp h).1, h]
  · rw [List.getElem?_set_ne he]

/-- Every event of the second list satisfies `P` after what precedes it and the phase of its thread. -/
def HistP {α : Type} [DecidableEq α] (P : List (REv α) → Phase α → REv α → Prop) : List (REv α) → List (REv α) → Prop
  | _, [] => True
  | pre, e :: l => (∃ p, Phase.after (eventsOf e.thread pre) .idle = some p ∧ P pre p e) ∧ HistP P (pre ++ [e]) l

theorem HistP.append {α : Type} [DecidableEq α] {P : List (REv α) → Phase α → REv α → Prop} : ∀ {pre a b : List (REv α)}, HistP P pre a → HistP P (pre ++ a) b → HistP P pre (a ++ b)
  | pre, [], b, _, h => by simpa using h
  | pre, e :: a, b, ⟨h1, h2⟩, h => ⟨h1, HistP.append h2 (by simpa using h)⟩

theorem HistP.split {α : Type} [DecidableEq α] {P : List (REv α) → Phase α → REv α → Prop} : ∀ {pre tr : List (REv α)}, HistP P pre tr →
    ∀ {a : List (REv α)} {e : REv α} {b : List (REv α)}, tr = a ++ e :: b → ∃ p, Phase.after (eventsOf e.thread (pre ++ a)) .idle = some p ∧ P (pre ++ a) p e
  | pre, [], _, a, e, b, he => by simp at he
  | pre, x :: tr, ⟨h1, h2⟩, [], e, b, he => by
    rw [List.nil_append, List.cons.injEq] at he
    obtain ⟨rfl, rfl⟩ := he
    simpa using h1
  | pre, x :: tr, ⟨h1, h2⟩, y :: a, e, b, he => by
    rw [List.cons_append, List.cons.injEq] at he
    obtain ⟨rfl, he⟩ := he
    have := HistP.split h2 he
    simpa using this

end Spead2
