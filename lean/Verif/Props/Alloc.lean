import Verif.Lemmas.Alloc

/-!
# C100: memory allocators
-/

namespace Spead2.Alloc

/-- **C100.** A successful allocation gives a new mapping that has room for all the bytes that were asked for, with huge pages only if they were asked for; other mappings stay. -/
theorem C100_fits {k : Kernel} (hp : 0 < k.page) (hh : 0 < k.huge) {s s' : St} (h : Run k s) {f pr : Bool} {size p : Nat} (hs : s.step (.mmap f pr size) = some (s', .ptr p)) :
    0 < size ∧ p = s.ptrs.length ∧ (∀ m ∈ s.k.maps, m.id ≠ p) ∧
      ∃ m : Mapping, m.id = p ∧ s'.k.maps = s.k.maps ++ [m] ∧ size ≤ m.pages * k.unit m.huge ∧ m.pages * k.unit m.huge < size + k.unit m.huge ∧ (m.huge = true → f = true ∨ pr = true) := by
  have hi := run_inv h
  simp only [St.step, St.allocMmap, Option.some.injEq] at hs
  split at hs
  · rename_i k' b ht
    obtain ⟨hm, hb⟩ := tryMap_some ht
    obtain ⟨h1, h2, h3⟩ := mmap_some hm
    cases hs
    have hu : 0 < k.unit b := by unfold Kernel.unit; cases b <;> simpa
    refine ⟨by omega, rfl, ?_, ⟨s.ptrs.length, pagesFor size (k.unit b), b⟩, rfl, ?_, pagesFor_fits hu, pagesFor_tight hu, ?_⟩
    · intro m hm'
      rw [hi.maps] at hm'
      have := (mapsFrom_id k s.ptrs 0 m hm').2.1
      show m.id ≠ s.ptrs.length
      omega
    · subst h2
      rw [← same_unit hi.same b]
    · intro hb'
      have hb' : b = true := hb'
      subst hb'
      unfold attempts at hb
      cases pr <;> simp_all
  · cases hs

/-- **C100.** It fails exactly if no bytes are asked for, or if there are not enough ordinary pages (huge ones if the flags say so) and huge pages are not wanted or not enough of them are there;
then nothing changes. -/
theorem C100_fails {s s' : St} {f pr : Bool} {size : Nat} {r : Res} (hs : s.step (.mmap f pr size) = some (s', r)) :
    (r = .badAlloc ↔ size = 0 ∨ (s.k.total f < s.k.used f + pagesFor size (s.k.unit f) ∧ (pr = true → s.k.totalHuge < s.k.used true + pagesFor size s.k.huge))) ∧
      (r = .badAlloc → s' = s) := by
  simp only [St.step, St.allocMmap, Option.some.injEq] at hs
  cases ht : tryMap s.k s.ptrs.length size (attempts f pr) with
  | some q =>
    rw [ht] at hs
    cases hs
    have hno : ¬ ∀ h ∈ attempts f pr, s.k.mmap s.ptrs.length size h = none := by
      rw [← tryMap_none, ht]; simp
    refine ⟨⟨fun h => (by cases h), fun h => absurd ?_ hno⟩, fun h => (by cases h)⟩
    intro b hb
    rw [mmap_none]
    rcases h with h | ⟨h1, h2⟩
    · exact Or.inl h
    · right
      unfold attempts at hb
      rcases List.mem_append.1 hb with hb | hb
      · split at hb
        · rename_i hpr
          rw [List.mem_singleton.1 hb]
          exact h2 hpr
        · cases hb
      · rw [List.mem_singleton.1 hb]; exact h1
  | none =>
    rw [ht] at hs
    cases hs
    refine ⟨⟨fun _ => ?_, fun _ => rfl⟩, fun _ => rfl⟩
    rw [tryMap_none] at ht
    have h1 := mmap_none.1 (ht f (by simp [attempts]))
    by_cases h0 : size = 0
    · exact Or.inl h0
    · refine Or.inr ⟨(h1.resolve_left h0), fun hpr => ?_⟩
      exact (mmap_none.1 (ht true (by simp [attempts, hpr]))).resolve_left h0

/-- **C100.** With `prefer_huge` the mapping has huge pages whenever there are enough of them. -/
theorem C100_preferred {s s' : St} {f : Bool} {size : Nat} {r : Res} (hs : s.step (.mmap f true size) = some (s', r)) (h0 : 0 < size)
    (hh : s.k.used true + pagesFor size s.k.huge ≤ s.k.totalHuge) : s'.k.maps = s.k.maps ++ [⟨s.ptrs.length, pagesFor size s.k.huge, true⟩] := by
  have hm : s.k.mmap s.ptrs.length size true = some { s.k with maps := s.k.maps ++ [⟨s.ptrs.length, pagesFor size s.k.huge, true⟩] } := by
    unfold Kernel.mmap
    rw [if_neg (by omega), if_pos (show s.k.used true + pagesFor size (s.k.unit true) ≤ s.k.total true from hh)]
    rfl
  simp only [St.step, St.allocMmap, attempts, if_true, List.cons_append, tryMap, hm, Option.some.injEq] at hs
  cases hs
  rfl

/-- **C100.** As long as a pointer was not released its memory is there, whatever happens to others: a mapping with room for its bytes, an array, or memory of the user's allocator for which
`free` was not called, and that allocator is still there. -/
theorem C100_live {k : Kernel} (hp : 0 < k.page) (hh : 0 < k.huge) {s : St} (h : Run k s) {p : Nat} {x : Ptr} (hx : s.ptrs[p]? = some x) (hl : x.live = true) :
    match x.del with
    | .unmap _ => ∃ m ∈ s.k.maps, m.id = p ∧ x.size ≤ m.pages * k.unit m.huge
    | .array => p ∈ s.arrays
    | .legacy a _ => (∀ e ∈ s.frees, e.2.1 ≠ p) ∧ 0 < s.refs a := by
  have hi := run_inv h
  cases hd : x.del with
  | array => exact (hi.arrays p).2 ⟨x, hx, hl, hd⟩
  | unmap z =>
    have hu : 0 < k.unit x.huge := by unfold Kernel.unit; cases x.huge <;> simpa
    refine ⟨⟨p, pagesFor x.size (k.unit x.huge), x.huge⟩, ?_, rfl, pagesFor_fits hu⟩
    rw [hi.maps]
    apply mapOf_mem s.ptrs 0 p x hx
    unfold mapOf Ptr.mapped
    rw [hd, hl]
    simp
  | legacy a u =>
    constructor
    · intro e he hep
      have := hi.frees p
      rw [hx] at this
      simp only [Option.map_some, Option.getD_some, freeOf, hd, hl, if_true] at this
      have : e ∈ s.frees.filter (fun e => e.2.1 == p) := List.mem_filter.2 ⟨he, by simp [hep]⟩
      rw [‹s.frees.filter _ = []›] at this
      cases this
    · have h1 := hi.refs a
      have h2 : 0 < s.holds a := by
        unfold St.holds
        exact List.countP_pos_iff.2 ⟨x, List.mem_of_getElem? hx, by simp [Ptr.refers, hd, hl]⟩
      omega

/-- **C100.** `free` of the user's allocator is called once for each pointer from it that was released, with that pointer and the user's own argument, and for nothing else. -/
theorem C100_frees {k : Kernel} {s : St} (h : Run k s) (p : Nat) :
    s.frees.filter (fun e => e.2.1 == p) =
      match s.ptrs[p]? with
      | some ⟨_, .legacy a u, _, false⟩ => [(a, p, u)]
      | _ => [] := by
  rw [(run_inv h).frees p]
  cases hx : s.ptrs[p]? with
  | none => rfl
  | some x =>
    obtain ⟨z, d, hg, l⟩ := x
    cases d <;> cases l <;> rfl

/-- **C100.** An allocator lives exactly as long as the user or one of its pointers refers to it. -/
theorem C100_refs {k : Kernel} {s : St} (h : Run k s) (a : Nat) : s.refs a = 0 ↔ s.held a = false ∧ ∀ x ∈ s.ptrs, ∀ u, x.del = .legacy a u → x.live = false := by
  have hi := (run_inv h).refs a
  have hh : s.holds a = 0 ↔ ∀ x ∈ s.ptrs, ∀ u, x.del = .legacy a u → x.live = false := by
    unfold St.holds
    rw [List.countP_eq_zero]
    constructor
    · intro h x hx u hd
      have := h x hx
      simpa [Ptr.refers, hd] using this
    · intro h x hx hr
      unfold Ptr.refers at hr
      split at hr
      · rename_i b u hd
        simp only [Bool.and_eq_true, beq_iff_eq] at hr
        have := h x hx u (by rw [hd, hr.2])
        rw [hr.1] at this
        cases this
      · cases hr
  cases hb : s.held a with
  | true => rw [hb] at hi; simp only [if_true] at hi; simp; omega
  | false => rw [hb] at hi; simp only [Bool.false_eq_true, if_false] at hi; rw [hi, Nat.add_zero, hh]; simp

/-- **C100.** The mappings are those of pointers that were not released, and those of pointers that were released with huge pages and a size that is not a multiple of theirs. -/
theorem C100_owner {k : Kernel} {s : St} (h : Run k s) (m : Mapping) :
    m ∈ s.k.maps ↔ ∃ x, s.ptrs[m.id]? = some x ∧ x.mapped = true ∧ (x.live = true ∨ x.odd k = true) ∧ m = ⟨m.id, pagesFor x.size (k.unit x.huge), x.huge⟩ := by
  rw [(run_inv h).maps]
  constructor
  · intro hm
    obtain ⟨_, _, x, hx, hm⟩ := mapsFrom_id k s.ptrs 0 m hm
    refine ⟨x, hx, ?_⟩
    unfold mapOf at hm
    split at hm
    · rename_i hc
      simp only [Bool.and_eq_true, Bool.or_eq_true] at hc
      exact ⟨hc.1, hc.2, (Option.some.inj hm).symm⟩
    · cases hm
  · rintro ⟨x, hx, h1, h2, h3⟩
    refine mapOf_mem s.ptrs 0 m.id x hx ?_
    rw [Nat.zero_add]
    unfold mapOf
    rw [if_pos (by simp only [Bool.and_eq_true, Bool.or_eq_true]; exact ⟨h1, h2⟩), ← h3]

/-- Releasing everything gives back everything. -/
def C100_statement : Prop :=
  ∀ (k : Kernel), 0 < k.page → 0 < k.huge → k.huge % k.page = 0 → ∀ s, Run k s → AllReleased s → s.k.maps = [] ∧ s.arrays = [] ∧ ∀ a, s.refs a = if s.held a then 1 else 0

/-- **C100, the part that holds.** Once all pointers were released all memory was given back, provided that no mapping with huge pages had a size that is not a multiple of theirs. -/
theorem C100_partial {k : Kernel} {s : St} (h : Run k s) (ha : AllReleased s) (ho : ∀ x ∈ s.ptrs, x.odd k = false) :
    s.k.maps = [] ∧ s.arrays = [] ∧ ∀ a, s.refs a = if s.held a then 1 else 0 := by
  have hi := run_inv h
  refine ⟨?_, ?_, ?_⟩
  · apply List.eq_nil_iff_forall_not_mem.2
    intro m hm
    obtain ⟨x, hx, _, h2, _⟩ := (C100_owner h m).1 hm
    have hmem := List.mem_of_getElem? hx
    rw [ha x hmem, ho x hmem] at h2
    simp at h2
  · apply List.eq_nil_iff_forall_not_mem.2
    intro p hp
    obtain ⟨x, hx, hl, _⟩ := (hi.arrays p).1 hp
    rw [ha x (List.mem_of_getElem? hx)] at hl
    cases hl
  · intro a
    have h0 : s.holds a = 0 := by
      unfold St.holds
      rw [List.countP_eq_zero]
      intro x hx
      have := ha x hx
      unfold Ptr.refers
      rw [this]
      cases x.del <;> simp
    have := hi.refs a
    rw [h0, Nat.zero_add] at this
    exact this

/-- **C100.** Allocators without huge pages have no such mappings. -/
theorem C100_ordinary {k : Kernel} {s s' : St} {size : Nat} {r : Res} (ho : ∀ x ∈ s.ptrs, x.odd k = false) (hs : s.step (.mmap false false size) = some (s', r)) :
    ∀ x ∈ s'.ptrs, x.odd k = false := by
  simp only [St.step, St.allocMmap, Option.some.injEq] at hs
  split at hs
  · rename_i k' b ht
    obtain ⟨_, hb⟩ := tryMap_some ht
    have hb : b = false := by simpa [attempts] using hb
    cases hs
    intro x hx
    rcases List.mem_append.1 hx with hx | hx
    · exact ho x hx
    · rw [List.mem_singleton.1 hx, hb]; rfl
  · cases hs; exact ho

/-- **C100.** Such mappings stay for ever: in every state in which the pointer was released all its huge pages are still taken. -/
theorem C100_leak {k : Kernel} (hh : 0 < k.huge) {s : St} (h : Run k s) {p : Nat} {x : Ptr} (hx : s.ptrs[p]? = some x) (ho : x.odd k = true) (h0 : x.size ≠ 0) :
    ∃ m ∈ s.k.maps, m.id = p ∧ m.huge = true ∧ 0 < m.pages := by
  have hg : x.huge = true := by
    unfold Ptr.odd at ho
    simp only [Bool.and_eq_true] at ho
    exact ho.1
  have hm := (run_inv h).kinds x (List.mem_of_getElem? hx) hg
  have : 0 < pagesFor x.size (k.unit x.huge) := by
    rw [hg]
    exact pagesFor_pos h0 hh
  exact ⟨⟨p, pagesFor x.size (k.unit x.huge), x.huge⟩, (C100_owner h _).2 ⟨x, hx, hm, Or.inr ho, rfl⟩, rfl, hg, this⟩

/-- A process that creates and destroys streams with ibverbs. -/
def streams (size : Nat) : Nat → List Ev
  | 0 => []
  | n + 1 => streams size n ++ ibvLife n size

/-- **C100.** A process that creates and destroys `n` of them one after another, each with a buffer that is not a multiple of a huge page, loses `n` times the huge pages of a buffer, as long as
there are so many. -/
theorem C100_streams {k : Kernel} (hk : k.maps = []) {size : Nat} (h0 : size ≠ 0) (ho : pagesFor size k.page * k.page % k.huge ≠ 0) :
    ∀ n, n * pagesFor size k.huge ≤ k.totalHuge → ∃ s, runs { k := k } (streams size n) = some s ∧ Run k s ∧ AllReleased s ∧ s.ptrs.length = n ∧ s.k.used true = n * pagesFor size k.huge := by
  intro n
  induction n with
  | zero =>
    intro _
    exact ⟨{ k := k }, rfl, Run.init hk, (by intro x hx; cases hx), rfl, by simp [Kernel.used, hk]⟩
  | succ n ih =>
    intro hn
    rw [Nat.succ_mul] at hn
    obtain ⟨s, hr, hrun, hrel, hlen, hused⟩ := ih (by omega)
    have hi := run_inv hrun
    have hm : s.k.mmap s.ptrs.length size true = some { s.k with maps := s.k.maps ++ [⟨s.ptrs.length, pagesFor size s.k.huge, true⟩] } := by
      unfold Kernel.mmap
      rw [if_neg h0, if_pos]
      · rfl
      · show s.k.used true + pagesFor size s.k.huge ≤ s.k.totalHuge
        rw [hi.same.2.1, hi.same.2.2.2, hused]
        exact hn
    have hs1 : s.step (.mmap false true size) =
        some ({ s with k := { s.k with maps := s.k.maps ++ [⟨s.ptrs.length, pagesFor size s.k.huge, true⟩] }, ptrs := s.ptrs ++ [⟨size, .unmap size, true, true⟩] }, .ptr s.ptrs.length) := by
      simp only [St.step, St.allocMmap, attempts, if_true, List.cons_append, tryMap, hm]
      rfl
    generalize hs1' : ({ s with k := { s.k with maps := s.k.maps ++ [⟨s.ptrs.length, pagesFor size s.k.huge, true⟩] }, ptrs := s.ptrs ++ [⟨size, .unmap size, true, true⟩] } : St) = s1 at hs1
    have hrun1 := Run.step hrun hs1
    have hp1 : s1.ptrs = s.ptrs ++ [⟨size, .unmap size, true, true⟩] := by rw [← hs1']
    have hg1 : s1.ptrs[n]? = some ⟨size, .unmap size, true, true⟩ := by rw [hp1, ← hlen]; simp
    have hs2 : s1.step (.release n) = some ({ s1 with k := s1.k.munmap n size, ptrs := s1.ptrs.set n ⟨size, .unmap size, true, false⟩ }, .ok) := by
      simp only [St.step, hg1, if_true]
      rfl
    generalize hs2' : ({ s1 with k := s1.k.munmap n size, ptrs := s1.ptrs.set n ⟨size, .unmap size, true, false⟩ } : St) = s2 at hs2
    have hrun2 := Run.step hrun1 hs2
    refine ⟨s2, ?_, hrun2, ?_, ?_, ?_⟩
    · rw [streams, runs_append, hr]
      simp only [Option.bind_some, ibvLife, runs, hs1, hs2]
    · intro x hx
      rw [← hs2', hp1] at hx
      rw [← hlen] at hx
      simp only [List.set_append, Nat.lt_irrefl, if_false, Nat.sub_self, List.set_cons_zero, List.mem_append, List.mem_singleton] at hx
      rcases hx with hx | hx
      · exact hrel x hx
      · rw [hx]
    · rw [← hs2', hp1]; simp [hlen]
    · have hmaps : s2.k.maps = s.k.maps ++ [⟨n, pagesFor size k.huge, true⟩] := by
        rw [(run_inv hrun2).maps, ← hs2', hp1, hi.maps, ← hlen]
        simp only [List.set_append, Nat.lt_irrefl, if_false, Nat.sub_self, List.set_cons_zero]
        rw [mapsFrom_append, Nat.zero_add]
        congr 1
        unfold mapOf
        rw [if_pos (by simp [Ptr.mapped, Ptr.odd, ho])]
        rfl
      show ((s2.k.maps.filter _).map _).sum = _
      rw [hmaps, Nat.succ_mul, ← hused]
      unfold Kernel.used
      simp [List.sum_append]

/-- A machine with 4 KiB and 2 MiB pages. -/
def machine (n : Nat) : Kernel := { page := 4096, huge := 2097152, totalSmall := 1000000, totalHuge := n }

/-- The buffer of a sender with default settings is such a one; that of a reader with default settings is not. -/
theorem C100_default : ibvBuffer 1472 524288 = 523844 ∧ pagesFor 523844 4096 * 4096 % 2097152 ≠ 0 ∧ ibvBuffer 9200 16777216 = 16774230 ∧ pagesFor 16774230 4096 * 4096 % 2097152 = 0 := by decide

/-- **C100 fails.** A stream is created and destroyed, and its huge page is lost. -/
theorem C100_violated : ¬ C100_statement := by
  intro h
  obtain ⟨s, _, hrun, hrel, _, hused⟩ := C100_streams (k := machine 1) rfl (size := ibvBuffer 1472 524288) (by decide) (by decide) 1 (by decide)
  have := (h (machine 1) (by decide) (by decide) (by decide) s hrun hrel).1
  unfold Kernel.used at hused
  rw [this] at hused
  revert hused
  decide

/-- **C100.** `prefault` writes within the buffer, and at every page if the buffer begins at a page. -/
theorem C100_prefault (size : Nat) : (∀ i ∈ touched size 0, i < size) ∧ ∀ b < size, ∃ i ∈ touched size 0, i / 4096 = b / 4096 := by
  have h := touched_mem size size 0 (by omega)
  refine ⟨fun i hi => ((h i).1 hi).2.1, fun b hb => ⟨b / 4096 * 4096, (h _).2 ⟨by omega, by omega, by omega⟩, by omega⟩⟩

/-- **C100.** If it does not, the last page is missed exactly if the bytes before the buffer in its first page and those after the last write come to more than a page. -/
theorem C100_prefault_missed {base size : Nat} (h0 : 0 < size) :
    (∀ i ∈ touched size 0, (base + i) / 4096 ≠ (base + (size - 1)) / 4096) ↔ 4096 ≤ base % 4096 + (size - 1) % 4096 := by
  have h := touched_mem size size 0 (by omega)
  constructor
  · intro hm
    have := hm ((size - 1) / 4096 * 4096) ((h _).2 ⟨by omega, by omega, by omega⟩)
    omega
  · intro hb i hi
    obtain ⟨_, h2, h3⟩ := (h i).1 hi
    omega

/-- An array of two pages that begins 16 bytes into a page, as those of `new` do. -/
example : ∀ i ∈ touched 8192 0, (16 + i) / 4096 ≠ (16 + 8191) / 4096 := (C100_prefault_missed (by decide)).2 (by decide)

/-- Two allocations, one of which is released, of which the first has huge pages. -/
example : ∃ s, runs { k := machine 4 } [.mmap false true 2097152, .plain 10, .custom 3 7 20, .release 0, .drop 3] = some s ∧
    s.k.maps = [] ∧ s.arrays = [1] ∧ s.refs 3 = 1 ∧ s.frees = [] := ⟨_, rfl, by decide, by decide, by decide, by decide⟩

/-- Without huge pages the allocation falls back to ordinary ones. -/
example : ((({ k := machine 0 } : St).step (.mmap false true 5000)).map (fun q => (q.1.k.maps, q.2))) = some ([⟨0, 2, false⟩], .ptr 0) := by decide

end Spead2.Alloc
