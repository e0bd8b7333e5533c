import Verif.Spec.Alloc

/-!
# Lemmas about memory allocators
-/

namespace Spead2.Alloc

/-- The mapping of an allocation, if it is still there. -/
def mapOf (k : Kernel) (n : Nat) (x : Ptr) : Option Mapping :=
  if x.mapped && (x.live || x.odd k) then some ⟨n, pagesFor x.size (k.unit x.huge), x.huge⟩ else none

/-- The mappings of allocations from a number on. -/
def mapsFrom (k : Kernel) : Nat → List Ptr → List Mapping
  | _, [] => []
  | n, x :: l => (mapOf k n x).toList ++ mapsFrom k (n + 1) l

theorem mapsFrom_append (k : Kernel) (l : List Ptr) (x : Ptr) : ∀ n, mapsFrom k n (l ++ [x]) = mapsFrom k n l ++ (mapOf k (n + l.length) x).toList := by
  induction l with
  | nil => intro n; simp [mapsFrom]
  | cons y l ih =>
    intro n
    simp only [List.cons_append, mapsFrom, ih, List.length_cons, List.append_assoc]
    rw [show n + 1 + l.length = n + (l.length + 1) by omega]

theorem mapsFrom_id (k : Kernel) : ∀ (l : List Ptr) (n : Nat), ∀ m ∈ mapsFrom k n l, n ≤ m.id ∧ m.id < n + l.length ∧ ∃ x, l[m.id - n]? = some x ∧ mapOf k m.id x = some m := by
  intro l
  induction l with
  | nil => intro n m hm; cases hm
  | cons x l ih =>
    intro n m hm
    simp only [mapsFrom, List.mem_append, Option.mem_toList] at hm
    rcases hm with hm | hm
    · have hid : m.id = n := by
        unfold mapOf at hm
        split at hm
        · cases hm; rfl
        · cases hm
      refine ⟨by omega, by simp; omega, x, ?_, ?_⟩
      · rw [hid, Nat.sub_self]; rfl
      · rw [hid]; exact hm
    · obtain ⟨h1, h2, y, h3, h4⟩ := ih (n + 1) m hm
      refine ⟨by omega, by simp; omega, y, ?_, h4⟩
      rw [show m.id - n = (m.id - (n + 1)) + 1 by omega]
      exact h3

/-- Kernels with the same pages. -/
def Same (k k' : Kernel) : Prop := k'.page = k.page ∧ k'.huge = k.huge ∧ k'.totalSmall = k.totalSmall ∧ k'.totalHuge = k.totalHuge

theorem mapOf_same {k k' : Kernel} (h : Same k k') : mapOf k' = mapOf k := by
  funext n x
  unfold mapOf Kernel.unit Ptr.odd
  rw [h.1, h.2.1]

theorem mapsFrom_same {k k' : Kernel} (h : Same k k') : ∀ (l : List Ptr) (n : Nat), mapsFrom k' n l = mapsFrom k n l := by
  intro l
  induction l with
  | nil => intro n; rfl
  | cons x l ih => intro n; simp only [mapsFrom, mapOf_same h, ih]

/-- Changing a pointer that is not mapped, or stays as it is. -/
theorem mapsFrom_set {k : Kernel} {x y : Ptr} : ∀ (l : List Ptr) (n p : Nat), l[p]? = some x → mapOf k (n + p) y = mapOf k (n + p) x → mapsFrom k n (l.set p y) = mapsFrom k n l := by
  intro l
  induction l with
  | nil => intro n p h; simp at h
  | cons z l ih =>
    intro n p h he
    cases p with
    | zero =>
      simp only [List.getElem?_cons_zero, Option.some.injEq] at h
      subst h
      simp only [List.set_cons_zero, mapsFrom]
      rw [show n + 0 = n from rfl] at he
      rw [he]
    | succ p =>
      simp only [List.getElem?_cons_succ] at h
      simp only [List.set_cons_succ, mapsFrom]
      rw [ih (n + 1) p h (by rw [show n + 1 + p = n + (p + 1) by omega]; exact he)]

theorem cut_other {k : Kernel} {id size : Nat} {m : Mapping} (h : m.id ≠ id) : k.cut id size m = some m := by
  unfold Kernel.cut
  rw [if_neg h]

theorem filterMap_other {k : Kernel} {id size : Nat} : ∀ (l : List Mapping), (∀ m ∈ l, m.id ≠ id) → l.filterMap (k.cut id size) = l := by
  intro l
  induction l with
  | nil => intro _; rfl
  | cons m l ih =>
    intro h
    rw [List.filterMap_cons, cut_other (h m (by simp)), ih (fun m hm => h m (List.mem_cons_of_mem _ hm))]

theorem pagesFor_pos {size unit : Nat} (hs : size ≠ 0) (hu : 0 < unit) : 0 < pagesFor size unit := by
  unfold pagesFor
  exact Nat.div_pos (by omega) hu

theorem cut_self {k : Kernel} {n : Nat} {x : Ptr} (hm : x.del = .unmap x.size) (hs : x.size ≠ 0) (hl : x.live = true) :
    (mapOf k n x).toList.filterMap (k.cut n x.size) = (mapOf k n { x with live := false }).toList := by
  have hmap : x.mapped = true := by unfold Ptr.mapped; rw [hm]
  have hmap' : ({ x with live := false } : Ptr).mapped = true := hmap
  unfold mapOf
  rw [hmap, hmap', hl]
  simp only [Bool.true_or, Bool.and_self, if_true, Option.toList_some, Bool.false_or, Bool.true_and]
  have hodd : ({ x with live := false } : Ptr).odd k = x.odd k := rfl
  rw [hodd, List.filterMap_cons, List.filterMap_nil]
  cases ho : x.odd k with
  | true =>
    have : x.huge = true ∧ pagesFor x.size k.page * k.page % k.huge ≠ 0 := by simpa [Ptr.odd] using ho
    simp only [Kernel.cut, if_true]
    rw [if_pos (Or.inr this)]
    rfl
  | false =>
    have : ¬ (x.size = 0 ∨ (x.huge = true ∧ pagesFor x.size k.page * k.page % k.huge ≠ 0)) := by
      intro h
      rcases h with h | h
      · exact hs h
      · have : x.odd k = true := by simpa [Ptr.odd] using h
        rw [ho] at this
        cases this
    simp only [Kernel.cut, if_true]
    rw [if_neg this, if_pos (Nat.le_refl _)]
    rfl

/-- Releasing a pointer that is mapped. -/
theorem mapsFrom_release {k : Kernel} {x : Ptr} (hm : x.del = .unmap x.size) (hs : x.size ≠ 0) (hl : x.live = true) : ∀ (l : List Ptr) (n p : Nat), l[p]? = some x →
    (mapsFrom k n l).filterMap (k.cut (n + p) x.size) = mapsFrom k n (l.set p { x with live := false }) := by
  intro l
  induction l with
  | nil => intro n p h; simp at h
  | cons z l ih =>
    intro n p h
    cases p with
    | zero =>
      simp only [List.getElem?_cons_zero, Option.some.injEq] at h
      subst h
      simp only [List.set_cons_zero, mapsFrom, List.filterMap_append]
      rw [show n + 0 = n from rfl, cut_self hm hs hl, filterMap_other]
      intro m hm'
      have := (mapsFrom_id k l (n + 1) m hm').1
      omega
    | succ p =>
      simp only [List.getElem?_cons_succ] at h
      simp only [List.set_cons_succ, mapsFrom, List.filterMap_append]
      rw [← ih (n + 1) p h, show n + 1 + p = n + (p + 1) by omega]
      congr 1
      apply filterMap_other
      intro m hm'
      rw [Option.mem_toList] at hm'
      unfold mapOf at hm'
      split at hm'
      · cases hm'; simp
      · cases hm'

/-- The calls of `free` that an allocation should have led to. -/
def freeOf (p : Nat) (x : Ptr) : List (Nat × Nat × Nat) :=
  match x.del with
  | .legacy a u => if x.live then [] else [(a, p, u)]
  | _ => []

structure Inv (k : Kernel) (s : St) : Prop where
  same : Same k s.k
  maps : s.k.maps = mapsFrom k 0 s.ptrs
  dels : ∀ x ∈ s.ptrs, ∀ z, x.del = .unmap z → z = x.size ∧ x.size ≠ 0
  kinds : ∀ x ∈ s.ptrs, x.huge = true → x.mapped = true
  arrays : ∀ p, p ∈ s.arrays ↔ ∃ x, s.ptrs[p]? = some x ∧ x.live = true ∧ x.del = .array
  nodup : s.arrays.Nodup
  refs : ∀ a, s.refs a = s.holds a + (if s.held a then 1 else 0)
  frees : ∀ p, s.frees.filter (fun e => e.2.1 == p) = (s.ptrs[p]?.map (freeOf p)).getD []
  used : s.k.used true ≤ k.totalHuge ∧ s.k.used false ≤ k.totalSmall

theorem Inv.init {k : Kernel} (h : k.maps = []) : Inv k { k := k } := by
  refine ⟨⟨rfl, rfl, rfl, rfl⟩, h, ?_, ?_, ?_, List.nodup_nil, ?_, ?_, ?_⟩
  · intro x hx; cases hx
  · intro x hx; cases hx
  · intro p; simp
  · intro a; simp [St.holds]
  · intro p; simp
  · simp [Kernel.used, h]

theorem get_push {α : Type} (l : List α) (x : α) (p : Nat) : (l ++ [x])[p]? = if p = l.length then some x else l[p]? := by
  by_cases h : p < l.length
  · rw [List.getElem?_append_left h, if_neg (by omega)]
  · rw [List.getElem?_append_right (by omega)]
    by_cases h2 : p = l.length
    · simp [h2]
    · rw [if_neg h2, List.getElem?_eq_none (by simp; omega), List.getElem?_eq_none (by omega)]

theorem get_set {α : Type} {l : List α} {p : Nat} {x y : α} (hx : l[p]? = some x) (q : Nat) : (l.set p y)[q]? = if q = p then some y else l[q]? := by
  have hlt : p < l.length := (List.getElem?_eq_some_iff.1 hx).1
  by_cases h : q = p
  · subst h; simp [hlt]
  · rw [if_neg h, List.getElem?_set_ne (by omega)]

theorem countP_set {α : Type} (f : α → Bool) {x y : α} : ∀ (l : List α) (p : Nat), l[p]? = some x →
    (l.set p y).countP f + (if f x then 1 else 0) = l.countP f + (if f y then 1 else 0) := by
  intro l
  induction l with
  | nil => intro p h; simp at h
  | cons z l ih =>
    intro p h
    cases p with
    | zero =>
      simp only [List.getElem?_cons_zero, Option.some.injEq] at h
      subst h
      simp only [List.set_cons_zero, List.countP_cons]
      omega
    | succ p =>
      simp only [List.getElem?_cons_succ] at h
      simp only [List.set_cons_succ, List.countP_cons]
      have := ih p h
      omega

/-- A new pointer does not disturb what is about the others. -/
theorem frees_push {s : St} (hf : ∀ p, s.frees.filter (fun e => e.2.1 == p) = (s.ptrs[p]?.map (freeOf p)).getD []) {x : Ptr} (hl : x.live = true) (p : Nat) :
    s.frees.filter (fun e => e.2.1 == p) = ((s.ptrs ++ [x])[p]?.map (freeOf p)).getD [] := by
  rw [hf p, get_push]
  split
  · rename_i h
    subst h
    rw [List.getElem?_eq_none (Nat.le_refl _)]
    unfold freeOf
    cases hd : x.del <;> simp [hd, hl]
  · rfl

theorem holds_push (s : St) (x : Ptr) (k : Kernel) (ar : List Nat) (r : Nat → Nat) (h : Nat → Bool) (a : Nat) :
    St.holds ⟨k, s.ptrs ++ [x], ar, s.frees, r, h⟩ a = s.holds a + (if x.refers a then 1 else 0) := by
  unfold St.holds
  rw [List.countP_append, List.countP_singleton]

theorem used_app (k : Kernel) (m : Mapping) (h : Bool) : ({ k with maps := k.maps ++ [m] } : Kernel).used h = k.used h + (if m.huge = h then m.pages else 0) := by
  unfold Kernel.used
  simp only [List.filter_append, List.map_append]
  rw [List.sum_append_nat]
  by_cases hm : m.huge = h <;> simp [hm]

theorem used_cut {k : Kernel} {id size : Nat} (h : Bool) : (k.munmap id size).used h ≤ k.used h := by
  unfold Kernel.used Kernel.munmap
  simp only
  generalize k.maps = l
  induction l with
  | nil => exact Nat.le_refl _
  | cons m l ih =>
    rw [List.filterMap_cons]
    cases hc : k.cut id size m with
    | none =>
      simp only [List.filter_cons]
      split
      · simp only [List.map_cons, List.sum_cons]; omega
      · exact ih
    | some m' =>
      have hm : m'.huge = m.huge ∧ m'.pages ≤ m.pages := by
        unfold Kernel.cut at hc
        repeat' split at hc
        all_goals first | (cases hc; done) | (cases hc; exact ⟨rfl, by simp⟩)
      simp only [List.filter_cons, hm.1]
      split
      · simp only [List.map_cons, List.sum_cons]; omega
      · exact ih

theorem mmap_some {k k' : Kernel} {id size : Nat} {h : Bool} (hm : k.mmap id size h = some k') :
    size ≠ 0 ∧ k' = { k with maps := k.maps ++ [⟨id, pagesFor size (k.unit h), h⟩] } ∧ k.used h + pagesFor size (k.unit h) ≤ k.total h := by
  unfold Kernel.mmap at hm
  split at hm
  · cases hm
  · split at hm
    · cases hm; exact ⟨by assumption, rfl, by assumption⟩
    · cases hm

theorem tryMap_some {k k' : Kernel} {id size : Nat} {h : Bool} : ∀ {l : List Bool}, tryMap k id size l = some (k', h) → k.mmap id size h = some k' ∧ h ∈ l := by
  intro l
  induction l with
  | nil => intro hm; cases hm
  | cons b l ih =>
    intro hm
    simp only [tryMap] at hm
    split at hm
    · rename_i k1 hk
      cases hm
      exact ⟨hk, by simp⟩
    · exact ⟨(ih hm).1, List.mem_cons_of_mem _ (ih hm).2⟩

theorem same_unit {k k' : Kernel} (h : Same k k') (b : Bool) : k'.unit b = k.unit b := by
  unfold Kernel.unit; rw [h.1, h.2.1]

/-- A step that makes a pointer. -/
theorem Inv.push {k : Kernel} {s : St} (hi : Inv k s) {x : Ptr} (hl : x.live = true) (hd : ∀ z, x.del = .unmap z → z = x.size ∧ x.size ≠ 0) (hh : x.huge = true → x.mapped = true)
    {k' : Kernel} (hk : Same k k') (hmaps : k'.maps = s.k.maps ++ (mapOf k s.ptrs.length x).toList) (hused : k'.used true ≤ k.totalHuge ∧ k'.used false ≤ k.totalSmall)
    {ar : List Nat} (har : ar = s.arrays ++ (if x.del = .array then [s.ptrs.length] else []))
    {r : Nat → Nat} (hr : ∀ a, r a = s.refs a + (if x.refers a then 1 else 0)) :
    Inv k ⟨k', s.ptrs ++ [x], ar, s.frees, r, s.held⟩ := by
  have hnew : s.ptrs.length ∉ s.arrays := by
    intro h
    obtain ⟨y, hy, _⟩ := (hi.arrays _).1 h
    rw [List.getElem?_eq_none (Nat.le_refl _)] at hy
    cases hy
  refine ⟨hk, ?_, ?_, ?_, ?_, ?_, ?_, fun p => frees_push hi.frees hl p, hused⟩
  · show k'.maps = _
    rw [hmaps, hi.maps, mapsFrom_append, Nat.zero_add]
  · intro y hy z hz
    rcases List.mem_append.1 hy with h | h
    · exact hi.dels y h z hz
    · rw [List.mem_singleton.1 h] at hz ⊢; exact hd z hz
  · intro y hy
    rcases List.mem_append.1 hy with h | h
    · exact hi.kinds y h
    · rw [List.mem_singleton.1 h]; exact hh
  · intro p
    show p ∈ ar ↔ ∃ y, (s.ptrs ++ [x])[p]? = some y ∧ y.live = true ∧ y.del = .array
    rw [har, get_push]
    by_cases hp : p = s.ptrs.length
    · rw [if_pos hp]
      subst hp
      by_cases ha : x.del = .array
      · rw [if_pos ha]
        exact ⟨fun _ => ⟨x, rfl, hl, ha⟩, fun _ => by simp⟩
      · rw [if_neg ha, List.append_nil]
        refine ⟨fun h => absurd h hnew, fun ⟨y, h1, _, h3⟩ => ?_⟩
        cases h1
        exact absurd h3 ha
    · rw [if_neg hp, ← hi.arrays p]
      split
      · simp [hp]
      · simp
  · show ar.Nodup
    rw [har]
    split
    · rw [List.nodup_append]
      refine ⟨hi.nodup, by simp, ?_⟩
      intro a ha b hb
      rw [List.mem_singleton.1 hb]
      intro he
      rw [he] at ha
      exact hnew ha
    · rw [List.append_nil]; exact hi.nodup
  · intro a
    show r a = St.holds ⟨k', s.ptrs ++ [x], ar, s.frees, r, s.held⟩ a + _
    rw [holds_push, hr, hi.refs a]
    show _ = _ + (if s.held a = true then 1 else 0)
    omega

theorem step_inv {k : Kernel} {s s' : St} (hi : Inv k s) {e : Ev} {res : Res} (h : s.step e = some (s', res)) : Inv k s' := by
  cases e with
  | plain size =>
    cases h
    refine hi.push (x := { size := size, del := .array }) rfl (by simp) (by simp) hi.same ?_ hi.used (by simp) (by simp [Ptr.refers])
    simp [mapOf, Ptr.mapped]
  | mmap f pr size =>
    simp only [St.step, St.allocMmap] at h
    cases ht : tryMap s.k s.ptrs.length size (attempts f pr) with
    | none => rw [ht] at h; cases h; exact hi
    | some r =>
      obtain ⟨k1, hg⟩ := r
      rw [ht] at h
      cases h
      obtain ⟨hs, hk1, hle⟩ := mmap_some (tryMap_some ht).1
      have hsame : Same k k1 := by rw [hk1]; exact hi.same
      have hu := same_unit hi.same hg
      refine hi.push (x := { size := size, del := .unmap size, huge := hg }) rfl ?_ (fun _ => rfl) hsame ?_ ?_ (by simp) (by simp [Ptr.refers])
      · intro z hz; cases hz; exact ⟨rfl, hs⟩
      · rw [hk1]
        simp [mapOf, Ptr.mapped, hu]
      · rw [hk1, used_app, used_app]
        have h3 := hi.same.2.2.1
        have h4 := hi.same.2.2.2
        have := hi.used
        unfold Kernel.total at hle
        cases hg <;> simp at hle ⊢ <;> omega
  | custom a u size =>
    simp only [St.step] at h
    split at h
    · cases h
      refine hi.push (x := { size := size, del := .legacy a u }) rfl (by simp) (by simp) hi.same ?_ hi.used (by simp) ?_
      · simp [mapOf, Ptr.mapped]
      · intro b
        by_cases hb : b = a
        · simp [hb, Ptr.refers]
        · have : ¬ a = b := fun h => hb h.symm
          simp [hb, this, Ptr.refers]
    · cases h
  | drop a =>
    simp only [St.step] at h
    split at h
    · rename_i hh
      cases h
      refine ⟨hi.same, hi.maps, hi.dels, hi.kinds, hi.arrays, hi.nodup, ?_, hi.frees, hi.used⟩
      intro b
      have := hi.refs b
      show (if b = a then s.refs b - 1 else s.refs b) = s.holds b + (if (if b = a then false else s.held b) = true then 1 else 0)
      by_cases hb : b = a
      · subst hb
        rw [hh] at this
        simp only [if_true] at this ⊢
        simp only [Bool.false_eq_true, if_false]
        omega
      · simp only [if_neg hb]; exact this
    · cases h
  | release p =>
    simp only [St.step] at h
    split at h
    · rename_i x hx
      split at h
      · rename_i hl
        have hmem := List.mem_of_getElem? hx
        cases h
        generalize hy : ({ x with live := false } : Ptr) = y
        have hy1 : y.size = x.size := by rw [← hy]
        have hy2 : y.del = x.del := by rw [← hy]
        have hy3 : y.live = false := by rw [← hy]
        have hy4 : y.huge = x.huge := by rw [← hy]
        have hy5 : y.mapped = x.mapped := by unfold Ptr.mapped; rw [hy2]
        have hdels : ∀ v ∈ s.ptrs.set p y, ∀ z, v.del = .unmap z → z = v.size ∧ v.size ≠ 0 := by
          intro v hv z hz
          rcases List.mem_or_eq_of_mem_set hv with h | h
          · exact hi.dels v h z hz
          · rw [h, hy2] at hz; rw [h, hy1]; exact hi.dels x hmem z hz
        have hkinds : ∀ v ∈ s.ptrs.set p y, v.huge = true → v.mapped = true := by
          intro v hv
          rcases List.mem_or_eq_of_mem_set hv with h | h
          · exact hi.kinds v h
          · rw [h, hy4, hy5]; exact hi.kinds x hmem
        have hholds : ∀ (k' : Kernel) (ar : List Nat) (fr : List (Nat × Nat × Nat)) (r : Nat → Nat) (a : Nat),
            St.holds ⟨k', s.ptrs.set p y, ar, fr, r, s.held⟩ a + (if x.refers a then 1 else 0) = s.holds a := by
          intro k' ar fr r a
          have := countP_set (Ptr.refers a) (y := y) s.ptrs p hx
          have h0 : y.refers a = false := by unfold Ptr.refers; rw [hy3]; cases y.del <;> rfl
          rw [h0] at this
          simp only [Bool.false_eq_true, if_false, Nat.add_zero] at this
          exact this
        have harr : ∀ q, (∃ v, (s.ptrs.set p y)[q]? = some v ∧ v.live = true ∧ v.del = .array) ↔ q ≠ p ∧ q ∈ s.arrays := by
          intro q
          rw [get_set hx, hi.arrays q]
          by_cases hq : q = p
          · simp [hq, hy3]
          · simp [hq]
        have hpa : x.del ≠ .array → p ∉ s.arrays := by
          intro hne hp
          obtain ⟨v, h1, _, h3⟩ := (hi.arrays p).1 hp
          rw [hx] at h1
          cases h1
          exact hne h3
        have hfrees : (∀ a u, x.del ≠ .legacy a u) → ∀ q, s.frees.filter (fun e => e.2.1 == q) = ((s.ptrs.set p y)[q]?.map (freeOf q)).getD [] := by
          intro hne q
          rw [hi.frees q, get_set hx]
          by_cases hq : q = p
          · subst hq
            rw [if_pos rfl, hx]
            simp only [Option.map_some, Option.getD_some, freeOf]
            rw [hy2]
            generalize x.del = d at hne
            cases d with
            | legacy a u => exact absurd rfl (hne a u)
            | array => rfl
            | unmap z => rfl
          · rw [if_neg hq]
        have hunm : x.mapped = false → mapOf k (0 + p) y = mapOf k (0 + p) x := by
          intro h0
          unfold mapOf
          rw [hy5, h0]
          rfl
        cases hd : x.del with
        | array =>
          have hr0 : ∀ a, x.refers a = false := by intro a; unfold Ptr.refers; rw [hd]
          refine ⟨hi.same, ?_, hdels, hkinds, ?_, hi.nodup.erase p, ?_, hfrees (by rw [hd]; simp), hi.used⟩
          · show s.k.maps = mapsFrom k 0 (s.ptrs.set p _)
            rw [hi.maps, mapsFrom_set s.ptrs 0 p hx (hunm (by unfold Ptr.mapped; rw [hd]))]
          · intro q
            show q ∈ s.arrays.erase p ↔ ∃ v, (s.ptrs.set p y)[q]? = some v ∧ v.live = true ∧ v.del = .array
            rw [hi.nodup.mem_erase_iff, harr q]
          · intro a
            have := hholds s.k (s.arrays.erase p) s.frees s.refs a
            rw [hr0 a] at this
            simp only [Bool.false_eq_true, if_false, Nat.add_zero] at this
            show s.refs a = St.holds ⟨s.k, s.ptrs.set p y, s.arrays.erase p, s.frees, s.refs, s.held⟩ a + _
            rw [this]
            exact hi.refs a
        | unmap z =>
          have hr0 : ∀ a, x.refers a = false := by intro a; unfold Ptr.refers; rw [hd]
          obtain ⟨h1, h2⟩ := hi.dels x hmem z hd
          rw [h1] at hd ⊢
          refine ⟨hi.same, ?_, hdels, hkinds, ?_, hi.nodup, ?_, hfrees (by rw [hd]; simp), ?_⟩
          · show (s.k.maps.filterMap (s.k.cut p x.size)) = mapsFrom k 0 (s.ptrs.set p y)
            have hc : s.k.cut p x.size = k.cut p x.size := by
              funext m
              unfold Kernel.cut
              rw [hi.same.1, hi.same.2.1, same_unit hi.same]
            rw [hc, hi.maps]
            have := mapsFrom_release (k := k) hd h2 hl s.ptrs 0 p hx
            rw [Nat.zero_add, hy] at this
            exact this
          · intro q
            show q ∈ s.arrays ↔ ∃ v, (s.ptrs.set p y)[q]? = some v ∧ v.live = true ∧ v.del = .array
            rw [harr q]
            exact ⟨fun h => ⟨(fun he => hpa (by rw [hd]; simp) (he ▸ h)), h⟩, fun h => h.2⟩
          · intro a
            have := hholds (s.k.munmap p x.size) s.arrays s.frees s.refs a
            rw [hr0 a] at this
            simp only [Bool.false_eq_true, if_false, Nat.add_zero] at this
            show s.refs a = St.holds ⟨s.k.munmap p x.size, s.ptrs.set p y, s.arrays, s.frees, s.refs, s.held⟩ a + _
            rw [this]
            exact hi.refs a
          · exact ⟨Nat.le_trans (used_cut true) hi.used.1, Nat.le_trans (used_cut false) hi.used.2⟩
        | legacy b u =>
          have hr0 : ∀ a, x.refers a = (b == a) := by intro a; unfold Ptr.refers; rw [hd, hl]; rfl
          refine ⟨hi.same, ?_, hdels, hkinds, ?_, hi.nodup, ?_, ?_, hi.used⟩
          · show s.k.maps = mapsFrom k 0 (s.ptrs.set p _)
            rw [hi.maps, mapsFrom_set s.ptrs 0 p hx (hunm (by unfold Ptr.mapped; rw [hd]))]
          · intro q
            show q ∈ s.arrays ↔ ∃ v, (s.ptrs.set p y)[q]? = some v ∧ v.live = true ∧ v.del = .array
            rw [harr q]
            exact ⟨fun h => ⟨(fun he => hpa (by rw [hd]; simp) (he ▸ h)), h⟩, fun h => h.2⟩
          · intro a
            have h3 := hholds s.k s.arrays (s.frees ++ [(b, p, u)]) (fun c => if c = b then s.refs c - 1 else s.refs c) a
            rw [hr0 a] at h3
            have h4 := hi.refs a
            show (if a = b then s.refs a - 1 else s.refs a) = St.holds ⟨s.k, s.ptrs.set p y, s.arrays, s.frees ++ [(b, p, u)], fun c => if c = b then s.refs c - 1 else s.refs c, s.held⟩ a + (if s.held a then 1 else 0)
            by_cases hab : a = b
            · subst hab
              simp only [beq_self_eq_true, if_true] at h3
              rw [if_pos rfl]
              omega
            · have hne : (b == a) = false := by simp; exact fun h => hab h.symm
              simp only [hne, Bool.false_eq_true, if_false, Nat.add_zero] at h3
              rw [if_neg hab, h3]
              exact h4
          · intro q
            show (s.frees ++ [(b, p, u)]).filter (fun e => e.2.1 == q) = ((s.ptrs.set p y)[q]?.map (freeOf q)).getD []
            rw [List.filter_append, hi.frees q, get_set hx]
            by_cases hq : q = p
            · subst hq
              rw [if_pos rfl, hx]
              simp [freeOf, hd, hl, hy2, hy3]
            · have : (p == q) = false := by simp; exact fun h => hq h.symm
              rw [if_neg hq]
              simp [List.filter_cons, this]
      · cases h
    · cases h

theorem run_inv {k : Kernel} {s : St} (h : Run k s) : Inv k s := by
  induction h with
  | init h => exact Inv.init h
  | step _ hs ih => exact step_inv ih hs

theorem mapOf_mem {k : Kernel} {m : Mapping} : ∀ (l : List Ptr) (n p : Nat) (x : Ptr), l[p]? = some x → mapOf k (n + p) x = some m → m ∈ mapsFrom k n l := by
  intro l
  induction l with
  | nil => intro n p x h; simp at h
  | cons y l ih =>
    intro n p x h hm
    simp only [mapsFrom, List.mem_append, Option.mem_toList]
    cases p with
    | zero =>
      simp only [List.getElem?_cons_zero, Option.some.injEq] at h
      subst h
      exact Or.inl hm
    | succ p =>
      simp only [List.getElem?_cons_succ] at h
      exact Or.inr (ih (n + 1) p x h (by rw [show n + 1 + p = n + (p + 1) by omega]; exact hm))

theorem pagesFor_fits {size unit : Nat} (hu : 0 < unit) : size ≤ pagesFor size unit * unit := by
  unfold pagesFor
  have h1 := Nat.div_add_mod (size + unit - 1) unit
  have h2 := Nat.mod_lt (size + unit - 1) hu
  rw [Nat.mul_comm] at h1
  omega

theorem pagesFor_tight {size unit : Nat} (hu : 0 < unit) : pagesFor size unit * unit < size + unit := by
  unfold pagesFor
  have := Nat.div_mul_le_self (size + unit - 1) unit
  omega

theorem mmap_none {k : Kernel} {id size : Nat} {h : Bool} : k.mmap id size h = none ↔ size = 0 ∨ k.total h < k.used h + pagesFor size (k.unit h) := by
  unfold Kernel.mmap
  split
  · simp [*]
  · split
    · simp [*]
    · simp; right; omega

theorem tryMap_none {k : Kernel} {id size : Nat} : ∀ {l : List Bool}, tryMap k id size l = none ↔ ∀ h ∈ l, k.mmap id size h = none := by
  intro l
  induction l with
  | nil => simp [tryMap]
  | cons b l ih =>
    simp only [tryMap, List.mem_cons, forall_eq_or_imp]
    cases hk : k.mmap id size b with
    | some k' => simp
    | none => simp [ih]

theorem touched_mem (size : Nat) : ∀ (n i : Nat), size - i ≤ n → ∀ j, j ∈ touched size i ↔ i ≤ j ∧ j < size ∧ (j - i) % 4096 = 0 := by
  intro n
  induction n with
  | zero =>
    intro i hi j
    unfold touched
    rw [if_neg (by omega)]
    simp
    omega
  | succ n ih =>
    intro i hi j
    unfold touched
    by_cases h : i < size
    · rw [if_pos h, List.mem_cons, ih (i + 4096) (by omega) j]
      constructor
      · rintro (h | ⟨h1, h2, h3⟩)
        · subst h; exact ⟨Nat.le_refl _, by assumption, by simp⟩
        · exact ⟨by omega, h2, by omega⟩
      · rintro ⟨h1, h2, h3⟩
        by_cases hj : j = i
        · exact Or.inl hj
        · exact Or.inr ⟨by omega, h2, by omega⟩
    · rw [if_neg h]
      simp
      omega

theorem runs_run {k : Kernel} : ∀ (l : List Ev) {s s' : St}, Run k s → runs s l = some s' → Run k s' := by
  intro l
  induction l with
  | nil => intro s s' h hr; cases hr; exact h
  | cons e l ih =>
    intro s s' h hr
    simp only [runs] at hr
    split at hr
    · rename_i s1 r hs
      exact ih (Run.step h hs) hr
    · cases hr

theorem runs_append : ∀ (l m : List Ev) {s : St}, runs s (l ++ m) = (runs s l).bind (fun t => runs t m) := by
  intro l
  induction l with
  | nil => intro m s; rfl
  | cons e l ih =>
    intro m s
    simp only [List.cons_append, runs]
    split
    · exact ih m
    · rfl

end Spead2.Alloc
