import Verif.Spec.MemPool

/-!
# Invariants of the memory pool
-/

namespace Spead2
open Spec

theorem allocated_append (a b : List PoolEv) : allocated (a ++ b) = allocated a ++ allocated b := List.filterMap_append
theorem freed_append (a b : List PoolEv) : freed (a ++ b) = freed a ++ freed b := List.filterMap_append
theorem given_append (a b : List PoolEv) : given (a ++ b) = given a ++ given b := List.filterMap_append
theorem givenBack_append (a b : List PoolEv) : givenBack (a ++ b) = givenBack a ++ givenBack b := List.filterMap_append

theorem count_eraseIdx {β γ : Type} [BEq γ] (f : β → γ) (y : γ) : ∀ {l : List β} {i : Nat} {x : β}, l[i]? = some x → (l.map f).count y = ((l.eraseIdx i).map f).count y + [f x].count y
  | [], i, x, h => by simp at h
  | a :: l, 0, x, h => by
    simp at h; subst h
    simp [List.count_cons]
  | a :: l, i + 1, x, h => by
    rw [List.getElem?_cons_succ] at h
    have := count_eraseIdx f y h
    simp only [List.eraseIdx_cons_succ, List.map_cons, List.count_cons] at this ⊢
    omega

/-- The buffer of a refill task. -/
def Refill.buf : Refill → Option Buf
  | .ready b => some b
  | .start => none

theorem inRefill_eq (p : Pool) : inRefill p = p.refills.filterMap Refill.buf := by
  unfold inRefill
  congr 1

theorem count_refill_cons (y : Buf) (a : Refill) (l : List Refill) : ((a :: l).filterMap Refill.buf).count y = (l.filterMap Refill.buf).count y + a.buf.toList.count y := by
  rw [List.filterMap_cons]
  cases a with
  | start => rfl
  | ready b => simp [Refill.buf, List.count_cons]

theorem count_refill_set (y : Buf) : ∀ {l : List Refill} {i : Nat} {x : Refill}, l[i]? = some x → ∀ z,
    (l.filterMap Refill.buf).count y + z.buf.toList.count y = ((l.set i z).filterMap Refill.buf).count y + x.buf.toList.count y
  | [], i, x, h, z => by simp at h
  | a :: l, 0, x, h, z => by
    simp at h; subst h
    rw [List.set_cons_zero, count_refill_cons, count_refill_cons]
    omega
  | a :: l, i + 1, x, h, z => by
    rw [List.getElem?_cons_succ] at h
    have := count_refill_set y h z
    rw [List.set_cons_succ, count_refill_cons, count_refill_cons]
    omega

theorem count_refill_erase (y : Buf) : ∀ {l : List Refill} {i : Nat} {x : Refill}, l[i]? = some x →
    (l.filterMap Refill.buf).count y = ((l.eraseIdx i).filterMap Refill.buf).count y + x.buf.toList.count y
  | [], i, x, h => by simp at h
  | a :: l, 0, x, h => by
    simp at h; subst h
    rw [List.eraseIdx_cons_zero, count_refill_cons]
  | a :: l, i + 1, x, h => by
    rw [List.getElem?_cons_succ] at h
    have := count_refill_erase y h
    rw [List.eraseIdx_cons_succ, count_refill_cons, count_refill_cons]
    omega

/-- The size of the buffer for a request. -/
def sizeFor (cfg : PoolConfig) (n : Nat) : Nat := if cfg.lower ≤ n ∧ n ≤ cfg.upper then cfg.upper else n

/-- The invariant, except for what concerns the end of the pool. -/
structure PoolInv (cfg : PoolConfig) (p : Pool) (tr : List PoolEv) : Prop where
  ids : ∀ b ∈ allocated tr, b.id < p.next
  nodup : ((allocated tr).map Buf.id).Nodup
  own : ∀ b, (freed tr).count b + (p.free.count b + (p.held.map Held.buf).count b + (p.refills.filterMap Refill.buf).count b) = (allocated tr).count b
  users : ∀ b, (given tr).count b = (givenBack tr).count b + (p.held.map Held.buf).count b
  sizes : ∀ b ∈ p.free, b.size = cfg.upper
  rsizes : ∀ b, Refill.ready b ∈ p.refills → b.size = cfg.upper
  hsizes : ∀ h ∈ p.held, h.pooled = true → h.buf.size = cfg.upper
  wsizes : ∀ n ∈ p.waiting, cfg.lower ≤ n ∧ n ≤ cfg.upper
  gsizes : ∀ b n, PoolEv.give b n ∈ tr → b.size = sizeFor cfg n
  bound : p.free.length ≤ cfg.maxFree
  one : p.refills.length ≤ 1
  flag : p.alive = true → (p.refilling = true ↔ p.refills ≠ [])
  dead : p.alive = false → p.handle = false ∧ p.free = [] ∧ p.waiting = [] ∧ p.held.all (fun h => !h.pooled)

theorem nodup_snoc {l : List Nat} {x : Nat} (h : l.Nodup) (hx : ∀ y ∈ l, y < x) : (l ++ [x]).Nodup := by
  rw [List.nodup_append]
  refine ⟨h, by simp, ?_⟩
  intro a ha b hb
  simp at hb
  subst hb
  have := hx a ha
  omega

/-- A new buffer from the base allocator. -/
theorem PoolInv.fresh {cfg : PoolConfig} {p : Pool} {tr : List PoolEv} (inv : PoolInv cfg p tr) {n : Nat} {ev : List PoolEv} (he : allocated ev = [{ id := p.next, size := n }]) :
    (∀ b ∈ allocated (tr ++ ev), b.id < p.next + 1) ∧ ((allocated (tr ++ ev)).map Buf.id).Nodup ∧
    ∀ b, (allocated (tr ++ ev)).count b = (allocated tr).count b + [(⟨p.next, n⟩ : Buf)].count b := by
  rw [allocated_append, he]
  refine ⟨?_, ?_, ?_⟩
  · intro b hb
    rw [List.mem_append] at hb
    rcases hb with hb | hb
    · have := inv.ids b hb; omega
    · simp at hb; subst hb; simp
  · rw [List.map_append]
    refine nodup_snoc inv.nodup ?_
    intro y hy
    rw [List.mem_map] at hy
    obtain ⟨b, hb, rfl⟩ := hy
    exact inv.ids b hb
  · intro b
    rw [List.count_append]

theorem pool_allocate_inv {cfg : PoolConfig} {p : Pool} {tr : List PoolEv} (inv : PoolInv cfg p tr) (ha : p.alive = true) (size : Nat) :
    PoolInv cfg (p.allocate cfg size).1 (tr ++ (p.allocate cfg size).2) := by
  unfold Pool.allocate
  by_cases hr : cfg.lower ≤ size ∧ size ≤ cfg.upper
  · rw [if_pos hr]
    cases hf : p.free with
    | nil =>
      simp only [List.append_nil]
      exact { inv with
        own := fun b => by have := inv.own b; rw [hf] at this; exact this
        sizes := fun b hb => by cases hb
        bound := Nat.zero_le _
        wsizes := fun n hn => by
          simp only [List.mem_cons] at hn
          rcases hn with rfl | hn
          · exact hr
          · exact inv.wsizes n hn
        dead := fun h => by simp only at h; rw [ha] at h; cases h }
    | cons b rest =>
      simp only
      have base : PoolInv cfg { p with free := rest, held := ⟨b, true⟩ :: p.held } (tr ++ [.give b size]) := by
        refine { ids := ?_, nodup := ?_, own := ?_, users := ?_, sizes := ?_, rsizes := inv.rsizes, hsizes := ?_, wsizes := inv.wsizes, gsizes := ?_, bound := ?_, one := inv.one,
                 flag := inv.flag, dead := fun h => (by simp only at h; rw [ha] at h; cases h) }
        · rw [allocated_append]; simpa [allocated] using inv.ids
        · rw [allocated_append]; simpa [allocated] using inv.nodup
        · intro c
          have := inv.own c
          rw [allocated_append, freed_append]
          simp only [allocated, freed, List.filterMap_cons, List.filterMap_nil, List.append_nil, hf, List.map_cons, List.count_cons] at this ⊢
          omega
        · intro c
          have := inv.users c
          rw [given_append, givenBack_append, List.count_append]
          simp only [given, givenBack, List.filterMap_cons, List.filterMap_nil, List.append_nil, List.map_cons, List.count_cons, List.count_nil] at this ⊢
          omega
        · intro c hc; exact inv.sizes c (by rw [hf]; simp [hc])
        · intro h hh hp
          simp only [List.mem_cons] at hh
          rcases hh with rfl | hh
          · exact inv.sizes _ (by rw [hf]; simp)
          · exact inv.hsizes h hh hp
        · intro c n hc
          simp only [List.mem_append, List.mem_singleton, PoolEv.give.injEq] at hc
          rcases hc with hc | ⟨rfl, rfl⟩
          · exact inv.gsizes c n hc
          · unfold sizeFor; rw [if_pos hr]; exact inv.sizes c (by rw [hf]; simp)
        · have := inv.bound; rw [hf] at this; simp only [List.length_cons] at this ⊢; omega
      split
      · rename_i hc
        have hnil : p.refills = [] := by
          cases h : p.refills with
          | nil => rfl
          | cons a l =>
            have := (inv.flag ha).mpr (by rw [h]; simp)
            rw [hc.2] at this; cases this
        exact { base with
          own := fun c => by have := base.own c; rw [count_refill_cons]; simpa [Refill.buf] using this
          rsizes := fun c hcm => by simp only [List.mem_cons] at hcm; rcases hcm with h | h; cases h; exact inv.rsizes c h
          one := by simp [hnil]
          flag := fun _ => by simp }
      · exact base
  · rw [if_neg hr]
    obtain ⟨f1, f2, f3⟩ := inv.fresh (n := size) (ev := [.baseAlloc { id := p.next, size := size }, .give { id := p.next, size := size } size]) rfl
    refine { ids := f1, nodup := f2, own := ?_, users := ?_, sizes := inv.sizes, rsizes := inv.rsizes, hsizes := ?_, wsizes := inv.wsizes, gsizes := ?_, bound := inv.bound, one := inv.one,
             flag := inv.flag, dead := fun h => (by simp only at h; rw [ha] at h; cases h) }
    · intro c
      have := inv.own c
      rw [f3, freed_append]
      simp only [freed, List.filterMap_cons, List.filterMap_nil, List.append_nil, List.map_cons, List.count_cons, List.count_nil] at this ⊢
      omega
    · intro c
      have := inv.users c
      rw [given_append, givenBack_append, List.count_append]
      simp only [given, givenBack, List.filterMap_cons, List.filterMap_nil, List.append_nil, List.map_cons, List.count_cons, List.count_nil] at this ⊢
      omega
    · intro h hh hp
      simp only [List.mem_cons] at hh
      rcases hh with rfl | hh
      · cases hp
      · exact inv.hsizes h hh hp
    · intro c n hc
      simp only [List.mem_append, List.mem_cons, List.not_mem_nil, or_false, PoolEv.give.injEq] at hc
      rcases hc with hc | hc | ⟨rfl, rfl⟩
      · exact inv.gsizes c n hc
      · cases hc
      · unfold sizeFor; rw [if_neg hr]

theorem pool_finish_inv {cfg : PoolConfig} {p : Pool} {tr : List PoolEv} (inv : PoolInv cfg p tr) (i : Nat) :
    PoolInv cfg (p.finish cfg i).1 (tr ++ (p.finish cfg i).2) := by
  unfold Pool.finish
  cases hw : p.waiting[i]? with
  | none => simpa using inv
  | some size =>
    simp only
    have hmem := List.mem_of_getElem? hw
    have ha : p.alive = true := by
      cases h : p.alive with
      | true => rfl
      | false => rw [(inv.dead h).2.2.1] at hmem; cases hmem
    obtain ⟨f1, f2, f3⟩ := inv.fresh (n := cfg.upper) (ev := [.baseAlloc { id := p.next, size := cfg.upper }, .give { id := p.next, size := cfg.upper } size]) rfl
    refine { ids := f1, nodup := f2, own := ?_, users := ?_, sizes := inv.sizes, rsizes := inv.rsizes, hsizes := ?_, wsizes := ?_, gsizes := ?_, bound := inv.bound, one := inv.one,
             flag := inv.flag, dead := fun h => (by simp only at h; rw [ha] at h; cases h) }
    · intro c
      have := inv.own c
      rw [f3, freed_append]
      simp only [freed, List.filterMap_cons, List.filterMap_nil, List.append_nil, List.map_cons, List.count_cons, List.count_nil] at this ⊢
      omega
    · intro c
      have := inv.users c
      rw [given_append, givenBack_append, List.count_append]
      simp only [given, givenBack, List.filterMap_cons, List.filterMap_nil, List.append_nil, List.map_cons, List.count_cons, List.count_nil] at this ⊢
      omega
    · intro h hh hp
      simp only [List.mem_cons] at hh
      rcases hh with rfl | hh
      · rfl
      · exact inv.hsizes h hh hp
    · intro n hn; exact inv.wsizes n (List.mem_of_mem_eraseIdx hn)
    · intro c n hc
      simp only [List.mem_append, List.mem_cons, List.not_mem_nil, or_false, PoolEv.give.injEq] at hc
      rcases hc with hc | hc | ⟨rfl, rfl⟩
      · exact inv.gsizes c n hc
      · cases hc
      · unfold sizeFor; rw [if_pos (inv.wsizes _ hmem)]

theorem pool_release_inv {cfg : PoolConfig} {p : Pool} {tr : List PoolEv} (inv : PoolInv cfg p tr) (i : Nat) :
    PoolInv cfg (p.release cfg i).1 (tr ++ (p.release cfg i).2) := by
  unfold Pool.release
  cases hw : p.held[i]? with
  | none => simpa using inv
  | some h =>
    simp only
    have hmem := List.mem_of_getElem? hw
    have hcount := fun c => count_eraseIdx Held.buf c hw
    have hdrop : PoolInv cfg { p with held := p.held.eraseIdx i } (tr ++ [.back h.buf, .baseFree h.buf]) := by
      refine { ids := ?_, nodup := ?_, own := ?_, users := ?_, sizes := inv.sizes, rsizes := inv.rsizes, hsizes := ?_, wsizes := inv.wsizes, gsizes := ?_, bound := inv.bound, one := inv.one,
               flag := inv.flag, dead := ?_ }
      · rw [allocated_append]; simpa [allocated] using inv.ids
      · rw [allocated_append]; simpa [allocated] using inv.nodup
      · intro c
        have := inv.own c
        have := hcount c
        rw [allocated_append, freed_append, List.count_append]
        simp only [allocated, freed, List.filterMap_cons, List.filterMap_nil, List.append_nil, List.count_cons, List.count_nil] at *
        omega
      · intro c
        have := inv.users c
        have := hcount c
        rw [given_append, givenBack_append, List.count_append, List.count_append]
        simp only [given, givenBack, List.filterMap_cons, List.filterMap_nil, List.append_nil, List.count_cons, List.count_nil] at *
        omega
      · intro x hx; exact inv.hsizes x (List.mem_of_mem_eraseIdx hx)
      · intro c n hc; simp at hc; exact inv.gsizes c n hc
      · intro hd
        obtain ⟨d1, d2, d3, d4⟩ := inv.dead hd
        refine ⟨d1, d2, d3, ?_⟩
        rw [List.all_eq_true] at d4 ⊢
        exact fun x hx => d4 x (List.mem_of_mem_eraseIdx hx)
    cases hp : h.pooled with
    | false => rw [if_neg (by simp)]; exact hdrop
    | true =>
      rw [if_pos rfl]
      by_cases hl : p.free.length < cfg.maxFree
      · rw [if_pos hl]
        have ha : p.alive = true := by
          cases hal : p.alive with
          | true => rfl
          | false =>
            have := (inv.dead hal).2.2.2
            rw [List.all_eq_true] at this
            have := this h hmem
            rw [hp] at this; cases this
        refine { ids := ?_, nodup := ?_, own := ?_, users := ?_, sizes := ?_, rsizes := inv.rsizes, hsizes := hdrop.hsizes, wsizes := inv.wsizes, gsizes := ?_, bound := ?_, one := inv.one,
                 flag := inv.flag, dead := fun h => (by simp only at h; rw [ha] at h; cases h) }
        · rw [allocated_append]; simpa [allocated] using inv.ids
        · rw [allocated_append]; simpa [allocated] using inv.nodup
        · intro c
          have := inv.own c
          have := hcount c
          rw [allocated_append, freed_append, List.count_append]
          simp only [allocated, freed, List.filterMap_cons, List.filterMap_nil, List.append_nil, List.count_cons, List.count_nil] at *
          omega
        · intro c
          have := inv.users c
          have := hcount c
          rw [given_append, givenBack_append, List.count_append, List.count_append]
          simp only [given, givenBack, List.filterMap_cons, List.filterMap_nil, List.append_nil, List.count_cons, List.count_nil] at *
          omega
        · intro c hc
          simp only [List.mem_cons] at hc
          rcases hc with rfl | hc
          · exact inv.hsizes h hmem hp
          · exact inv.sizes c hc
        · intro c n hc; simp at hc; exact inv.gsizes c n hc
        · simp only [List.length_cons]; omega
      · rw [if_neg hl]; exact hdrop

theorem mem_set_refill {l : List Refill} {i : Nat} {x y : Refill} (h : y ∈ l.set i x) : y = x ∨ y ∈ l := by
  rcases List.mem_or_eq_of_mem_set h with h | h
  · exact Or.inr h
  · exact Or.inl h

theorem pool_refill_inv {cfg : PoolConfig} (hv : cfg.initial ≤ cfg.maxFree) {p : Pool} {tr : List PoolEv} (inv : PoolInv cfg p tr) (i : Nat) :
    PoolInv cfg (p.refillStep cfg i).1 (tr ++ (p.refillStep cfg i).2) := by
  unfold Pool.refillStep
  cases hw : p.refills[i]? with
  | none => simpa using inv
  | some r =>
    have hmem := List.mem_of_getElem? hw
    have hlt := (List.getElem?_eq_some_iff.mp hw).1
    have hone := inv.one
    have hlen1 : p.refills.length = 1 := by omega
    cases r with
    | start =>
      simp only
      obtain ⟨f1, f2, f3⟩ := inv.fresh (n := cfg.upper) (ev := [.baseAlloc { id := p.next, size := cfg.upper }]) rfl
      refine { ids := f1, nodup := f2, own := ?_, users := ?_, sizes := inv.sizes, rsizes := ?_, hsizes := inv.hsizes, wsizes := inv.wsizes, gsizes := ?_, bound := inv.bound, one := ?_,
               flag := ?_, dead := inv.dead }
      · intro c
        have := inv.own c
        have := count_refill_set c hw (.ready { id := p.next, size := cfg.upper })
        rw [f3, freed_append]
        simp only [freed, Refill.buf, Option.toList, List.filterMap_cons, List.filterMap_nil, List.append_nil, List.count_cons, List.count_nil] at *
        omega
      · intro c
        have := inv.users c
        rw [given_append, givenBack_append]
        simpa [given, givenBack] using this
      · intro b hb
        rcases mem_set_refill hb with h | h
        · cases h; rfl
        · exact inv.rsizes b h
      · intro c n hc; simp at hc; exact inv.gsizes c n hc
      · simp only [List.length_set]; exact hone
      · intro ha
        simp only
        rw [inv.flag ha]
        rw [← List.length_pos_iff, ← List.length_pos_iff, List.length_set]
    | ready b =>
      simp only
      have herase : p.refills.eraseIdx i = [] := by
        apply List.eq_nil_of_length_eq_zero
        rw [List.length_eraseIdx, if_pos hlt]
        omega
      have hce := fun c => count_refill_erase c hw
      have hcs := fun c => count_refill_set c hw .start
      cases ha : p.alive with
      | false =>
        rw [if_neg (by simp)]
        refine { ids := ?_, nodup := ?_, own := ?_, users := ?_, sizes := inv.sizes, rsizes := fun c hc => (by simp only [herase] at hc; cases hc), hsizes := inv.hsizes, wsizes := inv.wsizes, gsizes := ?_,
                 bound := inv.bound, one := by simp [herase], flag := fun h => (by simp only at h; cases h), dead := fun _ => inv.dead ha }
        · rw [allocated_append]; simpa [allocated] using inv.ids
        · rw [allocated_append]; simpa [allocated] using inv.nodup
        · intro c
          have := inv.own c
          have := hce c
          rw [allocated_append, freed_append, List.count_append]
          simp only [allocated, freed, Refill.buf, Option.toList, List.filterMap_cons, List.filterMap_nil, List.append_nil, List.count_cons, List.count_nil] at *
          omega
        · intro c
          have := inv.users c
          rw [given_append, givenBack_append]
          simpa [given, givenBack] using this
        · intro c n hc; simp at hc; exact inv.gsizes c n hc
      | true =>
        rw [if_pos rfl]
        have hbs := inv.rsizes b hmem
        by_cases hl : p.free.length < cfg.maxFree
        · rw [if_pos hl]
          simp only [List.length_cons]
          have key : ∀ (rs : List Refill) (fl : Bool), (∀ c, (rs.filterMap Refill.buf).count c + [b].count c = (p.refills.filterMap Refill.buf).count c) → rs.length ≤ 1 →
              (∀ c, Refill.ready c ∈ rs → c.size = cfg.upper) → (fl = true ↔ rs ≠ []) → PoolInv cfg { p with free := b :: p.free, refilling := fl, refills := rs } (tr ++ []) := by
            intro rs fl h1 h2 h3 h4
            rw [List.append_nil]
            refine { ids := inv.ids, nodup := inv.nodup, own := ?_, users := inv.users, sizes := ?_, rsizes := h3, hsizes := inv.hsizes, wsizes := inv.wsizes, gsizes := inv.gsizes,
                     bound := by simp only [List.length_cons]; omega, one := h2, flag := fun _ => h4, dead := fun h => (by simp only at h; rw [ha] at h; cases h) }
            · intro c
              have := inv.own c
              have := h1 c
              simp only [List.count_cons, List.count_nil] at *
              omega
            · intro c hc
              simp only [List.mem_cons] at hc
              rcases hc with rfl | hc
              · exact hbs
              · exact inv.sizes c hc
          rw [ha] at key
          split
          · refine key (p.refills.eraseIdx i) false (fun c => ?_) (by simp [herase]) (fun c hc => by rw [herase] at hc; cases hc) (by simp [herase])
            have := hce c
            simp only [Refill.buf, Option.toList] at this
            omega
          · have := key (p.refills.set i .start) p.refilling (fun c => ?_) (by simpa using hone) (fun c hc => ?_) ?_
            · exact this
            · have := hcs c
              simp only [Refill.buf, Option.toList, List.count_nil] at this
              omega
            · rcases mem_set_refill hc with h | h
              · cases h
              · exact inv.rsizes c h
            · rw [inv.flag ha, ← List.length_pos_iff, ← List.length_pos_iff, List.length_set]
        · rw [if_neg hl]
          simp only
          rw [if_pos (by omega)]
          refine { ids := ?_, nodup := ?_, own := ?_, users := ?_, sizes := inv.sizes, rsizes := fun c hc => (by simp only [herase] at hc; cases hc), hsizes := inv.hsizes, wsizes := inv.wsizes, gsizes := ?_,
                   bound := inv.bound, one := by simp [herase], flag := fun h => by simp [herase], dead := fun h => (by simp only at h; rw [ha] at h; cases h) }
          · rw [allocated_append]; simpa [allocated] using inv.ids
          · rw [allocated_append]; simpa [allocated] using inv.nodup
          · intro c
            have := inv.own c
            have := hce c
            rw [allocated_append, freed_append, List.count_append]
            simp only [allocated, freed, Refill.buf, Option.toList, List.filterMap_cons, List.filterMap_nil, List.append_nil, List.count_cons, List.count_nil] at *
            omega
          · intro c
            have := inv.users c
            rw [given_append, givenBack_append]
            simpa [given, givenBack] using this
          · intro c n hc; simp at hc; exact inv.gsizes c n hc

theorem map_baseFree (l : List Buf) : allocated (l.map PoolEv.baseFree) = [] ∧ freed (l.map PoolEv.baseFree) = l ∧ given (l.map PoolEv.baseFree) = [] ∧ givenBack (l.map PoolEv.baseFree) = [] := by
  induction l with
  | nil => exact ⟨rfl, rfl, rfl, rfl⟩
  | cons b l ih =>
    obtain ⟨h1, h2, h3, h4⟩ := ih
    simp only [allocated, freed, given, givenBack] at *
    simp [h1, h2, h3, h4]

theorem pool_reap_inv {cfg : PoolConfig} {p : Pool} {tr : List PoolEv} (inv : PoolInv cfg p tr) : PoolInv cfg p.reap.1 (tr ++ p.reap.2) := by
  unfold Pool.reap
  split
  · rename_i hc
    obtain ⟨c1, c2, c3, c4⟩ := hc
    obtain ⟨m1, m2, m3, m4⟩ := map_baseFree p.free
    refine { ids := ?_, nodup := ?_, own := ?_, users := ?_, sizes := fun b hb => (by cases hb), rsizes := inv.rsizes, hsizes := inv.hsizes, wsizes := inv.wsizes, gsizes := ?_,
             bound := Nat.zero_le _, one := inv.one, flag := fun h => (by simp only at h; cases h), dead := fun _ => ⟨c2, rfl, c3, c4⟩ }
    · rw [allocated_append, m1, List.append_nil]; exact inv.ids
    · rw [allocated_append, m1, List.append_nil]; exact inv.nodup
    · intro b
      have := inv.own b
      rw [allocated_append, freed_append, m1, m2, List.append_nil, List.count_append]
      simp only [List.count_nil]
      omega
    · intro b
      rw [given_append, givenBack_append, m3, m4, List.append_nil, List.append_nil]
      exact inv.users b
    · intro b n hb
      simp at hb
      exact inv.gsizes b n hb
  · simpa using inv

theorem pool_step_inv {cfg : PoolConfig} (hv : cfg.initial ≤ cfg.maxFree) {p : Pool} {tr : List PoolEv} (inv : PoolInv cfg p tr) (op : PoolOp) :
    PoolInv cfg (p.step cfg op).1 (tr ++ (p.step cfg op).2) := by
  have fin : ∀ {q : Pool} {ev : List PoolEv}, PoolInv cfg q (tr ++ ev) → PoolInv cfg q.reap.1 (tr ++ (ev ++ q.reap.2)) := by
    intro q ev h
    rw [← List.append_assoc]
    exact pool_reap_inv h
  cases op with
  | allocate size =>
    simp only [Pool.step]
    cases hh : p.handle with
    | true =>
      rw [if_pos rfl]
      refine fin (pool_allocate_inv inv ?_ size)
      cases ha : p.alive with
      | true => rfl
      | false => rw [(inv.dead ha).1] at hh; cases hh
    | false => rw [if_neg (by simp)]; exact fin (by simpa using inv)
  | finish i => exact fin (pool_finish_inv inv i)
  | release i => exact fin (pool_release_inv inv i)
  | refill i => exact fin (pool_refill_inv hv inv i)
  | drop =>
    refine fin ?_
    rw [List.append_nil]
    exact { inv with dead := fun h => ⟨rfl, (inv.dead h).2⟩ }

theorem pool_run_inv {cfg : PoolConfig} (hv : cfg.initial ≤ cfg.maxFree) : ∀ (ops : List PoolOp) {p : Pool} {tr : List PoolEv}, PoolInv cfg p tr →
    PoolInv cfg (Pool.run cfg ops p).1 (tr ++ (Pool.run cfg ops p).2)
  | [], p, tr, inv => by simpa [Pool.run] using inv
  | op :: ops, p, tr, inv => by
    simp only [Pool.run]
    rw [← List.append_assoc]
    exact pool_run_inv hv ops (pool_step_inv hv inv op)

theorem pool_fill_inv {cfg : PoolConfig} : ∀ (n : Nat) {p : Pool} {tr : List PoolEv}, PoolInv cfg p tr → p.alive = true → p.free.length + n ≤ cfg.maxFree →
    PoolInv cfg (Pool.fill cfg n p).1 (tr ++ (Pool.fill cfg n p).2) ∧ (Pool.fill cfg n p).1.alive = true
  | 0, p, tr, inv, ha, hn => ⟨by simpa [Pool.fill] using inv, ha⟩
  | n + 1, p, tr, inv, ha, hn => by
    simp only [Pool.fill]
    obtain ⟨f1, f2, f3⟩ := inv.fresh (n := cfg.upper) (ev := [.baseAlloc { id := p.next, size := cfg.upper }]) rfl
    have := pool_fill_inv n (cfg := cfg) (p := { p with free := { id := p.next, size := cfg.upper } :: p.free, next := p.next + 1 }) (tr := tr ++ [.baseAlloc { id := p.next, size := cfg.upper }]) (by
      refine { ids := f1, nodup := f2, own := ?_, users := ?_, sizes := ?_, rsizes := inv.rsizes, hsizes := inv.hsizes, wsizes := inv.wsizes, gsizes := ?_,
               bound := by simp only [List.length_cons]; omega, one := inv.one, flag := inv.flag, dead := fun h => (by simp only at h; rw [ha] at h; cases h) }
      · intro c
        have := inv.own c
        rw [f3, freed_append]
        simp only [freed, List.filterMap_cons, List.filterMap_nil, List.append_nil, List.count_cons, List.count_nil] at *
        omega
      · intro c
        rw [given_append, givenBack_append]
        simpa [given, givenBack] using inv.users c
      · intro c hc
        simp only [List.mem_cons] at hc
        rcases hc with rfl | hc
        · rfl
        · exact inv.sizes c hc
      · intro c n hc; simp at hc; exact inv.gsizes c n hc) ha (by simp only [List.length_cons]; omega)
    rw [List.append_assoc] at this
    exact this

theorem pool_reach_inv {cfg : PoolConfig} (hv : cfg.initial ≤ cfg.maxFree) {ops : List PoolOp} {p : Pool} {tr : List PoolEv} (h : PoolReach cfg ops p tr) : PoolInv cfg p tr := by
  obtain ⟨rfl, rfl⟩ := h
  apply pool_run_inv hv
  have h0 : PoolInv cfg {} [] := by
    refine { ids := ?_, nodup := ?_, own := ?_, users := ?_, sizes := ?_, rsizes := ?_, hsizes := ?_, wsizes := ?_, gsizes := ?_, bound := Nat.zero_le _, one := Nat.zero_le _, flag := ?_, dead := ?_ } <;> simp [allocated, freed, given, givenBack]
  have := (pool_fill_inv cfg.initial h0 rfl (by simpa using hv)).1
  simpa [Pool.new] using this

/-- The rounds of the loop of a refill task in one transition. -/
def roundOf (p : Pool) : PoolOp → Nat
  | .refill i => (match p.refills[i]? with | some (.ready _) => 1 | _ => 0)
  | _ => 0

theorem refillRounds_cons (cfg : PoolConfig) (op : PoolOp) (ops : List PoolOp) (p : Pool) :
    refillRounds cfg (op :: ops) p = roundOf p op + refillRounds cfg ops (p.step cfg op).1 := by
  cases op <;> rfl

theorem reap_cases (p : Pool) : p.reap.1 = p ∨ (p.reap.1.alive = false ∧ p.reap.1.refills = p.refills) := by
  unfold Pool.reap
  split
  · exact Or.inr ⟨rfl, rfl⟩
  · exact Or.inl rfl

theorem erase_single {p : Pool} {i : Nat} {r : Refill} (h1 : p.refills.length ≤ 1) (h : p.refills[i]? = some r) : p.refills.eraseIdx i = [] := by
  have hlt := (List.getElem?_eq_some_iff.mp h).1
  apply List.eq_nil_of_length_eq_zero
  rw [List.length_eraseIdx, if_pos hlt]
  omega

theorem round_step {cfg : PoolConfig} (hv : cfg.initial ≤ cfg.maxFree) {p : Pool} {tr : List PoolEv} (inv : PoolInv cfg p tr) (ha : p.alive = true) (op : PoolOp)
    (hne : (p.step cfg op).1.refills ≠ []) :
    roundOf p op ≤ (cfg.initial - p.free.length) + (if isTake cfg p op then 1 else 0) ∧
    ((p.step cfg op).1.alive = true → roundOf p op + (cfg.initial - (p.step cfg op).1.free.length) ≤ (cfg.initial - p.free.length) + (if isTake cfg p op then 1 else 0)) := by
  have fin : ∀ (m : Pool), m.reap.1.refills ≠ [] → (m.refills ≠ [] → roundOf p op + (cfg.initial - m.free.length) ≤ (cfg.initial - p.free.length) + (if isTake cfg p op then 1 else 0)) →
      roundOf p op ≤ (cfg.initial - p.free.length) + (if isTake cfg p op then 1 else 0) ∧
      (m.reap.1.alive = true → roundOf p op + (cfg.initial - m.reap.1.free.length) ≤ (cfg.initial - p.free.length) + (if isTake cfg p op then 1 else 0)) := by
    intro m h1 h2
    rcases reap_cases m with h | ⟨h, h'⟩
    · rw [h] at h1 ⊢
      have := h2 h1
      exact ⟨by omega, fun _ => this⟩
    · rw [h'] at h1
      have := h2 h1
      exact ⟨by omega, fun hx => by rw [h] at hx; cases hx⟩
  cases op with
  | allocate size =>
    simp only [Pool.step] at hne ⊢
    refine fin _ hne ?_
    intro _
    rw [show roundOf p (.allocate size) = 0 from rfl, Nat.zero_add, show isTake cfg p (.allocate size) = (p.handle && decide (cfg.lower ≤ size ∧ size ≤ cfg.upper) && !p.free.isEmpty) from rfl]
    by_cases hh : p.handle = true
    case neg => rw [if_neg hh]; exact Nat.le_add_right _ _
    case pos =>
      rw [if_pos hh, hh]
      unfold Pool.allocate
      by_cases hr : cfg.lower ≤ size ∧ size ≤ cfg.upper
      · rw [if_pos hr]
        cases hf : p.free with
        | nil => simp
        | cons b rest =>
          simp only [hr, and_self, decide_true, Bool.true_and, List.isEmpty_cons, Bool.not_false, if_true, List.length_cons]
          split <;> simp <;> omega
      · rw [if_neg hr]
        simp
  | finish i =>
    simp only [Pool.step] at hne ⊢
    refine fin _ hne ?_
    intro _
    simp only [roundOf, isTake, Pool.finish]
    split <;> simp
  | release i =>
    simp only [Pool.step] at hne ⊢
    refine fin _ hne ?_
    intro _
    simp only [roundOf, isTake, Pool.release]
    split
    · simp
    · split
      · split
        · simp; omega
        · simp
      · simp
  | drop =>
    simp only [Pool.step] at hne ⊢
    refine fin _ hne ?_
    intro _
    simp [roundOf, isTake]
  | refill i =>
    simp only [Pool.step] at hne ⊢
    refine fin _ hne ?_
    clear hne
    intro hne
    simp only [roundOf, isTake, Pool.refillStep] at hne ⊢
    cases hw : p.refills[i]? with
    | none => simp
    | some r =>
      rw [hw] at hne
      cases r with
      | start => simp
      | ready b =>
        have he := erase_single inv.one hw
        simp only [ha, if_true] at hne ⊢
        by_cases hl : p.free.length < cfg.maxFree
        · simp only [if_pos hl, List.length_cons] at hne ⊢
          by_cases hi : cfg.initial ≤ p.free.length + 1
          · rw [if_pos hi] at hne
            exact absurd he hne
          · rw [if_neg hi]
            simp
            omega
        · simp only [if_neg hl] at hne ⊢
          rw [if_pos (by omega)] at hne
          exact absurd he hne

theorem dead_step {cfg : PoolConfig} {p : Pool} {tr : List PoolEv} (inv : PoolInv cfg p tr) (ha : p.alive = false) (op : PoolOp)
    (hne : (p.step cfg op).1.refills ≠ []) : roundOf p op = 0 ∧ (p.step cfg op).1.alive = false := by
  have hreap : ∀ m : Pool, m.alive = false → m.reap.1 = m := by
    intro m hm
    unfold Pool.reap
    rw [if_neg (by rw [hm]; simp)]
  obtain ⟨d1, d2, d3, d4⟩ := inv.dead ha
  cases op with
  | allocate size =>
    simp only [Pool.step]
    rw [if_neg (by rw [d1]; simp)]
    exact ⟨rfl, by rw [hreap _ ha]; exact ha⟩
  | finish i =>
    simp only [Pool.step, Pool.finish, d3]
    exact ⟨rfl, by rw [List.getElem?_nil]; simp only; rw [hreap _ ha]; exact ha⟩
  | release i =>
    have : (p.release cfg i).1.alive = false := by
      unfold Pool.release
      split
      · exact ha
      · split
        · dsimp only
          split <;> exact ha
        · exact ha
    exact ⟨rfl, by simp only [Pool.step]; rw [hreap _ this]; exact this⟩
  | drop => exact ⟨rfl, by simp only [Pool.step]; rw [hreap { p with handle := false } ha]; exact ha⟩
  | refill i =>
    have hal : (p.refillStep cfg i).1.alive = false := by
      unfold Pool.refillStep
      split
      · exact ha
      · exact ha
      · rw [if_neg (by rw [ha]; simp)]
        exact ha
    simp only [Pool.step] at hne ⊢
    rw [hreap _ hal] at hne ⊢
    refine ⟨?_, hal⟩
    simp only [roundOf]
    cases hw : p.refills[i]? with
    | none => rfl
    | some r =>
      cases r with
      | start => rfl
      | ready b =>
        simp only [Pool.refillStep, hw, ha] at hne
        exact absurd (erase_single inv.one hw) hne

theorem dead_rounds {cfg : PoolConfig} (hv : cfg.initial ≤ cfg.maxFree) : ∀ (ops : List PoolOp) {p : Pool} {tr : List PoolEv}, PoolInv cfg p tr → p.alive = false →
    (∀ k, k ≤ ops.length → (Pool.run cfg (ops.take k) p).1.refills ≠ []) → refillRounds cfg ops p = 0
  | [], p, tr, inv, ha, h => rfl
  | op :: ops, p, tr, inv, ha, h => by
    rw [refillRounds_cons]
    have h1 := h 1 (by simp)
    simp only [List.take_succ_cons, List.take_zero, Pool.run] at h1
    obtain ⟨k1, k2⟩ := dead_step inv ha op h1
    rw [k1, dead_rounds hv ops (pool_step_inv hv inv op) k2 (fun k hk => by
      have := h (k + 1) (by simp; omega)
      simpa only [List.take_succ_cons, Pool.run] using this)]

theorem alive_rounds {cfg : PoolConfig} (hv : cfg.initial ≤ cfg.maxFree) : ∀ (ops : List PoolOp) {p : Pool} {tr : List PoolEv}, PoolInv cfg p tr → p.alive = true →
    (∀ k, k ≤ ops.length → (Pool.run cfg (ops.take k) p).1.refills ≠ []) → refillRounds cfg ops p ≤ (cfg.initial - p.free.length) + takes cfg ops p
  | [], p, tr, inv, ha, h => Nat.zero_le _
  | op :: ops, p, tr, inv, ha, h => by
    rw [refillRounds_cons, takes]
    have h1 := h 1 (by simp)
    simp only [List.take_succ_cons, List.take_zero, Pool.run] at h1
    obtain ⟨k1, k2⟩ := round_step hv inv ha op h1
    have hrest : ∀ k, k ≤ ops.length → (Pool.run cfg (ops.take k) (p.step cfg op).1).1.refills ≠ [] := fun k hk => by
      have := h (k + 1) (by simp; omega)
      simpa only [List.take_succ_cons, Pool.run] using this
    cases hal : (p.step cfg op).1.alive with
    | true =>
      have := k2 hal
      have := alive_rounds hv ops (pool_step_inv hv inv op) hal hrest
      omega
    | false =>
      have := dead_rounds hv ops (pool_step_inv hv inv op) hal hrest
      omega

/-- Every event of the second list is proper after what precedes it. -/
def PoolHist : List PoolEv → List PoolEv → Prop
  | _, [] => True
  | pre, e :: l => EvProper pre e ∧ PoolHist (pre ++ [e]) l

theorem PoolHist.append : ∀ {a pre b : List PoolEv}, PoolHist pre a → PoolHist (pre ++ a) b → PoolHist pre (a ++ b)
  | [], pre, b, _, h => by simpa using h
  | e :: a, pre, b, ⟨h1, h2⟩, h => ⟨h1, PoolHist.append h2 (by simpa using h)⟩

theorem PoolHist.split : ∀ {tr pre : List PoolEv}, PoolHist pre tr → ∀ {a : List PoolEv} {e : PoolEv} {b : List PoolEv}, tr = a ++ e :: b → EvProper (pre ++ a) e
  | [], pre, _, a, e, b, he => by simp at he
  | x :: tr, pre, ⟨h1, h2⟩, [], e, b, he => by
    rw [List.nil_append, List.cons.injEq] at he
    obtain ⟨rfl, rfl⟩ := he
    simpa using h1
  | x :: tr, pre, ⟨h1, h2⟩, y :: a, e, b, he => by
    rw [List.cons_append, List.cons.injEq] at he
    obtain ⟨rfl, he⟩ := he
    have := PoolHist.split h2 he
    simpa using this

theorem alloc_le_one {l : List Buf} (h : (l.map Buf.id).Nodup) (b : Buf) : l.count b ≤ 1 := by
  have : l.Nodup := List.Pairwise.of_map Buf.id (fun a b hab => fun he => hab (by rw [he])) h
  exact List.nodup_iff_count.mp this b

theorem PoolInv.new_hist {cfg : PoolConfig} {p : Pool} {tr : List PoolEv} (inv : PoolInv cfg p tr) (n : Nat) : EvProper tr (.baseAlloc { id := p.next, size := n }) := by
  intro c hc
  have := inv.ids c hc
  simp only
  omega

theorem PoolInv.fresh_count {cfg : PoolConfig} {p : Pool} {tr : List PoolEv} (inv : PoolInv cfg p tr) (n : Nat) : (allocated tr).count { id := p.next, size := n } = 0 := by
  rw [List.count_eq_zero]
  intro hc
  have := inv.ids _ hc
  simp only at this
  omega

theorem PoolInv.give_hist {cfg : PoolConfig} {p : Pool} {tr : List PoolEv} (inv : PoolInv cfg p tr) (n m : Nat) : PoolHist tr [.baseAlloc { id := p.next, size := n }, .give { id := p.next, size := n } m] := by
  refine ⟨inv.new_hist n, ⟨?_, ?_, ?_⟩, trivial⟩
  · rw [allocated_append]; simp [allocated]
  · rw [freed_append]
    simp only [freed, List.filterMap_cons, List.filterMap_nil, List.append_nil]
    rw [← List.count_eq_zero]
    have := inv.own { id := p.next, size := n }
    rw [inv.fresh_count] at this
    simp only [freed] at this
    omega
  · rw [given_append, givenBack_append]
    simp only [given, givenBack, List.filterMap_cons, List.filterMap_nil, List.append_nil]
    have h1 := inv.own { id := p.next, size := n }
    rw [inv.fresh_count] at h1
    have h2 := inv.users { id := p.next, size := n }
    simp only [given, givenBack] at h2
    omega

/-- A buffer that the pool or a refill task owns. -/
theorem PoolInv.inside {cfg : PoolConfig} {p : Pool} {tr : List PoolEv} (inv : PoolInv cfg p tr) {b : Buf} (h : 0 < p.free.count b + (p.refills.filterMap Refill.buf).count b) :
    b ∈ allocated tr ∧ b ∉ freed tr ∧ (given tr).count b = (givenBack tr).count b := by
  have h1 := inv.own b
  have h2 := inv.users b
  have h3 := alloc_le_one inv.nodup b
  refine ⟨List.count_pos_iff.mp (by omega), List.count_eq_zero.mp (by omega), by omega⟩

theorem PoolInv.outside {cfg : PoolConfig} {p : Pool} {tr : List PoolEv} (inv : PoolInv cfg p tr) {b : Buf} (h : b ∈ p.held.map Held.buf) :
    b ∈ allocated tr ∧ b ∉ freed tr ∧ (given tr).count b = (givenBack tr).count b + 1 := by
  have h0 := List.count_pos_iff.mpr h
  have h1 := inv.own b
  have h2 := inv.users b
  have h3 := alloc_le_one inv.nodup b
  refine ⟨List.count_pos_iff.mp (by omega), List.count_eq_zero.mp (by omega), by omega⟩

theorem PoolInv.back_hist {cfg : PoolConfig} {p : Pool} {tr : List PoolEv} (inv : PoolInv cfg p tr) {b : Buf} (h : b ∈ p.held.map Held.buf) :
    PoolHist tr [.back b, .baseFree b] := by
  obtain ⟨h1, h2, h3⟩ := inv.outside h
  refine ⟨⟨h1, h2, h3⟩, ⟨?_, ?_, ?_⟩, trivial⟩
  · rw [allocated_append]; exact List.mem_append_left _ h1
  · rw [freed_append]; simpa [freed] using h2
  · rw [given_append, givenBack_append, List.count_append, List.count_append]
    simp only [given, givenBack, List.filterMap_cons, List.filterMap_nil, List.count_cons, List.count_nil] at h3 ⊢
    simp
    omega

theorem free_hist : ∀ (l : List Buf) {tr : List PoolEv}, (∀ b ∈ l, b ∈ allocated tr ∧ (given tr).count b = (givenBack tr).count b) → (∀ b ∈ l, (freed tr).count b + l.count b ≤ 1) →
    PoolHist tr (l.map .baseFree)
  | [], tr, _, _ => trivial
  | b :: l, tr, h, hc => by
    refine ⟨⟨(h b List.mem_cons_self).1, ?_, (h b List.mem_cons_self).2⟩, free_hist l ?_ ?_⟩
    · have := hc b List.mem_cons_self
      rw [List.count_cons_self] at this
      exact List.count_eq_zero.mp (by omega)
    · intro c hc
      have := h c (List.mem_cons_of_mem _ hc)
      rw [allocated_append, given_append, givenBack_append]
      simpa [allocated, given, givenBack] using this
    · intro c hm
      have := hc c (List.mem_cons_of_mem _ hm)
      rw [freed_append]
      simp only [freed, List.filterMap_cons, List.filterMap_nil, List.count_append, List.count_cons, List.count_nil] at this ⊢
      omega

theorem pool_reap_hist {cfg : PoolConfig} {p : Pool} {tr : List PoolEv} (inv : PoolInv cfg p tr) : PoolHist tr p.reap.2 := by
  unfold Pool.reap
  split
  · apply free_hist
    · intro b hb
      have := inv.inside (b := b) (by have := List.count_pos_iff.mpr hb; omega)
      exact ⟨this.1, this.2.2⟩
    · intro b hb
      have h1 := inv.own b
      have h3 := alloc_le_one inv.nodup b
      omega
  · trivial

theorem pool_step_hist {cfg : PoolConfig} (hv : cfg.initial ≤ cfg.maxFree) {p : Pool} {tr : List PoolEv} (inv : PoolInv cfg p tr) (op : PoolOp) :
    PoolHist tr (p.step cfg op).2 := by
  have fin : ∀ {q : Pool} {ev : List PoolEv}, PoolHist tr ev → PoolInv cfg q (tr ++ ev) → PoolHist tr (ev ++ q.reap.2) := fun h1 h2 => PoolHist.append h1 (pool_reap_hist h2)
  cases op with
  | allocate size =>
    simp only [Pool.step]
    by_cases hh : p.handle = true
    · rw [if_pos hh]
      have ha : p.alive = true := by
        cases ha : p.alive with
        | true => rfl
        | false => rw [(inv.dead ha).1] at hh; cases hh
      refine fin ?_ (pool_allocate_inv inv ha size)
      unfold Pool.allocate
      split
      · split
        · rename_i b rest hf
          exact ⟨inv.inside (by rw [hf, List.count_cons_self]; omega), trivial⟩
        · trivial
      · exact inv.give_hist _ _
    · rw [if_neg hh]
      exact fin trivial (by simpa using inv)
  | finish i =>
    refine fin ?_ (pool_finish_inv inv i)
    show PoolHist tr (p.finish cfg i).2
    unfold Pool.finish
    split
    · trivial
    · exact inv.give_hist _ _
  | release i =>
    refine fin ?_ (pool_release_inv inv i)
    show PoolHist tr (p.release cfg i).2
    unfold Pool.release
    split
    · trivial
    · rename_i h hw
      have hb : h.buf ∈ p.held.map Held.buf := List.mem_map_of_mem (List.mem_of_getElem? hw)
      have := inv.back_hist hb
      split
      · dsimp only
        split
        · exact ⟨this.1, trivial⟩
        · exact this
      · exact this
  | refill i =>
    refine fin ?_ (pool_refill_inv hv inv i)
    show PoolHist tr (p.refillStep cfg i).2
    unfold Pool.refillStep
    split
    · trivial
    · exact ⟨inv.new_hist _, trivial⟩
    · rename_i b hw
      have hb : 0 < (p.refills.filterMap Refill.buf).count b := by
        have := count_refill_erase b hw
        simp only [Refill.buf, Option.toList, List.count_cons_self, List.count_nil] at this
        omega
      have := inv.inside (b := b) (by omega)
      split
      · split
        rename_i q ev he
        have hev : PoolHist tr ev := by
          split at he
          · rw [Prod.mk.injEq] at he
            rw [← he.2]; trivial
          · rw [Prod.mk.injEq] at he
            rw [← he.2]; exact ⟨this, trivial⟩
        split <;> exact hev
      · exact ⟨this, trivial⟩
  | drop =>
    refine fin (ev := []) trivial ?_
    rw [List.append_nil]
    exact { inv with dead := fun h => ⟨rfl, (inv.dead h).2⟩ }

theorem pool_run_hist {cfg : PoolConfig} (hv : cfg.initial ≤ cfg.maxFree) : ∀ (ops : List PoolOp) {p : Pool} {tr : List PoolEv}, PoolInv cfg p tr →
    PoolHist tr (Pool.run cfg ops p).2
  | [], p, tr, inv => trivial
  | op :: ops, p, tr, inv => PoolHist.append (pool_step_hist hv inv op) (pool_run_hist hv ops (pool_step_inv hv inv op))

theorem fill_allocs {cfg : PoolConfig} : ∀ (n : Nat) (p : Pool), ∀ e ∈ (Pool.fill cfg n p).2, ∃ b, e = PoolEv.baseAlloc b ∧ p.next ≤ b.id
  | 0, p, e, h => by simp [Pool.fill] at h
  | n + 1, p, e, h => by
    simp only [Pool.fill, List.mem_cons] at h
    rcases h with rfl | h
    · exact ⟨_, rfl, Nat.le_refl _⟩
    · obtain ⟨b, h1, h2⟩ := fill_allocs n _ e h
      exact ⟨b, h1, by simp only at h2; omega⟩

theorem pool_fill_hist {cfg : PoolConfig} : ∀ (n : Nat) {p : Pool} {tr : List PoolEv}, (∀ b ∈ allocated tr, b.id < p.next) → PoolHist tr (Pool.fill cfg n p).2
  | 0, p, tr, h => trivial
  | n + 1, p, tr, h => by
    refine ⟨fun c hc => ?_, pool_fill_hist n ?_⟩
    · have := h c hc
      simp only
      omega
    · intro c hc
      rw [allocated_append, List.mem_append] at hc
      rcases hc with hc | hc
      · have := h c hc
        simp only
        omega
      · simp [allocated] at hc
        subst hc
        simp

theorem pool_reach_hist {cfg : PoolConfig} (hv : cfg.initial ≤ cfg.maxFree) {ops : List PoolOp} {p : Pool} {tr : List PoolEv} (h : PoolReach cfg ops p tr) : PoolHist [] tr := by
  have hn : PoolInv cfg (Pool.new cfg).1 (Pool.new cfg).2 := pool_reach_inv hv (ops := []) ⟨rfl, by simp [Pool.run]⟩
  obtain ⟨rfl, rfl⟩ := h
  exact PoolHist.append (pool_fill_hist _ (by simp [allocated])) (pool_run_hist hv ops hn)

/-- The pool is destroyed as soon as nothing refers to it. -/
def PoolQuiet (p : Pool) : Prop := p.handle = false → p.held = [] → p.waiting = [] → p.free = []

theorem reap_quiet (p : Pool) (h : p.alive = false → p.free = []) : PoolQuiet p.reap.1 := by
  intro h1 h2 h3
  unfold Pool.reap at h1 h2 h3 ⊢
  split
  · rfl
  · rename_i hc
    rw [if_neg hc] at h1 h2 h3
    simp only at h1 h2 h3
    cases ha : p.alive with
    | false => exact h ha
    | true => exact absurd ⟨ha, h1, h3, by rw [h2]; rfl⟩ hc

theorem pool_run_quiet {cfg : PoolConfig} (hv : cfg.initial ≤ cfg.maxFree) : ∀ (ops : List PoolOp) {p : Pool} {tr : List PoolEv}, PoolInv cfg p tr → PoolQuiet p → PoolQuiet (Pool.run cfg ops p).1
  | [], p, tr, inv, h => h
  | op :: ops, p, tr, inv, h => by
    refine pool_run_quiet hv ops (pool_step_inv hv inv op) ?_
    have : ∃ q : Pool, ∃ t, PoolInv cfg q t ∧ (p.step cfg op).1 = q.reap.1 := by
      cases op with
      | allocate size =>
        simp only [Pool.step]
        by_cases hh : p.handle = true
        · rw [if_pos hh]
          refine ⟨_, _, pool_allocate_inv inv ?_ size, rfl⟩
          cases ha : p.alive with
          | true => rfl
          | false => rw [(inv.dead ha).1] at hh; cases hh
        · rw [if_neg hh]
          exact ⟨_, _, inv, rfl⟩
      | finish i => exact ⟨_, _, pool_finish_inv inv i, rfl⟩
      | release i => exact ⟨_, _, pool_release_inv inv i, rfl⟩
      | refill i => exact ⟨_, _, pool_refill_inv hv inv i, rfl⟩
      | drop => exact ⟨{ p with handle := false }, tr, { inv with dead := fun h => ⟨rfl, (inv.dead h).2⟩ }, rfl⟩
    obtain ⟨q, t, hq, he⟩ := this
    have hg : PoolQuiet (p.step cfg op).1 := by
      rw [he]
      exact reap_quiet q (fun ha => (hq.dead ha).2.1)
    exact hg

theorem fill_handle {cfg : PoolConfig} : ∀ (n : Nat) (p : Pool), (Pool.fill cfg n p).1.handle = p.handle
  | 0, p => rfl
  | n + 1, p => fill_handle n _

theorem pool_reach_quiet {cfg : PoolConfig} (hv : cfg.initial ≤ cfg.maxFree) {ops : List PoolOp} {p : Pool} {tr : List PoolEv} (h : PoolReach cfg ops p tr) : PoolQuiet p := by
  have hn : PoolInv cfg (Pool.new cfg).1 (Pool.new cfg).2 := pool_reach_inv hv (ops := []) ⟨rfl, by simp [Pool.run]⟩
  obtain ⟨rfl, rfl⟩ := h
  refine pool_run_quiet hv ops hn ?_
  intro h
  rw [Pool.new, fill_handle] at h
  cases h

end Spead2
