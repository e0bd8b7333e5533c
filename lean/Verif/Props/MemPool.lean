import Verif.Lemmas.MemPool

/-!
# C37: the memory pool

Histories are arbitrary lists of transitions (`PoolReach`): calls of `allocate`, releases, steps of refill tasks and the
destruction of the pool, by any threads in any order.
-/

namespace Spead2
open Spec

/-- C37: a buffer handed to a user is at least as large as requested. Requests in the range of the pool get buffers of
exactly `upper` bytes, others of exactly the requested size. -/
theorem C37_size {cfg : PoolConfig} (hv : cfg.Valid) {ops : List PoolOp} {p : Pool} {tr : List PoolEv} (h : PoolReach cfg ops p tr) {b : Buf} {n : Nat} (hb : .give b n ∈ tr) :
    n ≤ b.size ∧ b.size = if cfg.lower ≤ n ∧ n ≤ cfg.upper then cfg.upper else n := by
  have := (pool_reach_inv hv.2.1 h).gsizes b n hb
  unfold sizeFor at this
  refine ⟨?_, this⟩
  rw [this]
  split <;> omega

/-- C37: every event of every history is proper (`EvProper`): buffers are handed to one user at a time, are not returned
to the base allocator while a user has them, and are not used or returned after they were returned. -/
theorem C37_proper {cfg : PoolConfig} (hv : cfg.Valid) {ops : List PoolOp} {p : Pool} {tr : List PoolEv} (h : PoolReach cfg ops p tr) {a b : List PoolEv} {e : PoolEv} (he : tr = a ++ e :: b) : EvProper a e := by
  have := (pool_reach_hist hv.2.1 h).split he
  simpa using this

/-- C37: a buffer that was obtained from the base allocator is in exactly one place: it was returned (once), or it is free
in the pool, or one user has it, or a refill task has it. -/
theorem C37_exclusive {cfg : PoolConfig} (hv : cfg.Valid) {ops : List PoolOp} {p : Pool} {tr : List PoolEv} (h : PoolReach cfg ops p tr) {b : Buf} (hb : b ∈ allocated tr) :
    (freed tr).count b + (p.free.count b + (withUsers p).count b + (inRefill p).count b) = 1 := by
  have inv := pool_reach_inv hv.2.1 h
  have h1 := inv.own b
  have h2 := alloc_le_one inv.nodup b
  have h3 := List.count_pos_iff.mpr hb
  rw [inRefill_eq]
  unfold withUsers
  omega

/-- C37: the users have exactly the buffers handed out and not released. -/
theorem C37_users {cfg : PoolConfig} (hv : cfg.Valid) {ops : List PoolOp} {p : Pool} {tr : List PoolEv} (h : PoolReach cfg ops p tr) (b : Buf) :
    (given tr).count b = (givenBack tr).count b + (withUsers p).count b := (pool_reach_inv hv.2.1 h).users b

/-- C37: the pool keeps at most `max_free` free buffers, each of `upper` bytes. -/
theorem C37_bounded {cfg : PoolConfig} (hv : cfg.Valid) {ops : List PoolOp} {p : Pool} {tr : List PoolEv} (h : PoolReach cfg ops p tr) :
    p.free.length ≤ cfg.maxFree ∧ ∀ b ∈ p.free, b.size = cfg.upper :=
  ⟨(pool_reach_inv hv.2.1 h).bound, (pool_reach_inv hv.2.1 h).sizes⟩

/-- C37: a request in range is served from the free buffers when there are any, without the base allocator. -/
theorem C37_reuses {cfg : PoolConfig} {p : Pool} (hh : p.handle = true) {size : Nat} (hs : cfg.lower ≤ size ∧ size ≤ cfg.upper) (hf : p.free ≠ []) :
    ∃ b rest, p.free = b :: rest ∧ (p.step cfg (.allocate size)).2 = [.give b size] ∧ (p.step cfg (.allocate size)).1.free = rest := by
  match hp : p.free, hf with
  | b :: rest, _ =>
    refine ⟨b, rest, rfl, ?_⟩
    simp only [Pool.step, hh, if_true, Pool.allocate, if_pos hs, hp]
    split <;> simp [Pool.reap, hh]

/-- C37: there is at most one refill task at a time, and one is posted as soon as the free buffers sink below the low water
mark: after a request that leaves fewer than `low_water` free buffers there is a refill task. -/
theorem C37_refill_posted {cfg : PoolConfig} (hv : cfg.Valid) {ops : List PoolOp} {p : Pool} {tr : List PoolEv} (h : PoolReach cfg ops p tr) :
    p.refills.length ≤ 1 ∧
    ∀ size, p.handle = true → cfg.lower ≤ size ∧ size ≤ cfg.upper → p.free ≠ [] → (p.step cfg (.allocate size)).1.free.length < cfg.lowWater → (p.step cfg (.allocate size)).1.refills ≠ [] := by
  have inv := pool_reach_inv hv.2.1 h
  refine ⟨inv.one, ?_⟩
  intro size hh hs hf hl
  have ha : p.alive = true := by
    cases ha : p.alive with
    | true => rfl
    | false => rw [(inv.dead ha).1] at hh; cases hh
  match hp : p.free, hf with
  | b :: rest, _ =>
    obtain ⟨b', rest', h1, h2, h3⟩ := C37_reuses (cfg := cfg) hh hs (by rw [hp]; simp)
    rw [hp, List.cons.injEq] at h1
    obtain ⟨rfl, rfl⟩ := h1
    rw [h3] at hl
    simp only [Pool.step, hh, if_true, Pool.allocate, if_pos hs, hp]
    by_cases hr : p.refilling = false
    · rw [if_pos ⟨hl, hr⟩]
      simp [Pool.reap, hh]
    · rw [if_neg (by intro hc; exact hr hc.2)]
      have := (inv.flag ha).mp (by simpa using hr)
      simp [Pool.reap, hh]
      exact this

/-- C37: a refill ends. In any stretch of a history during all of which a refill task exists, its loop is executed at most
once for each buffer missing at the start of the stretch and each buffer taken from the pool during the stretch. -/
theorem C37_refill_ends {cfg : PoolConfig} (hv : cfg.Valid) {ops : List PoolOp} {p : Pool} {tr : List PoolEv} (h : PoolReach cfg ops p tr) (more : List PoolOp)
    (hr : ∀ k, k ≤ more.length → (Pool.run cfg (more.take k) p).1.refills ≠ []) :
    refillRounds cfg more p ≤ (cfg.initial - p.free.length) + takes cfg more p := by
  have inv := pool_reach_inv hv.2.1 h
  cases ha : p.alive with
  | true => exact alive_rounds hv.2.1 more inv ha hr
  | false => rw [dead_rounds hv.2.1 more inv ha hr]; exact Nat.zero_le _

/-- C37: nothing is leaked. When the users have dropped the pool and released all buffers and no call or refill task is
left, every buffer obtained from the base allocator has been returned to it, once. -/
theorem C37_no_leak {cfg : PoolConfig} (hv : cfg.Valid) {ops : List PoolOp} {p : Pool} {tr : List PoolEv} (h : PoolReach cfg ops p tr)
    (hd : p.handle = false) (hh : p.held = []) (hw : p.waiting = []) (hr : p.refills = []) {b : Buf} (hb : b ∈ allocated tr) : (freed tr).count b = 1 := by
  have hf : p.free = [] := pool_reach_quiet hv.2.1 h hd hh hw
  have := C37_exclusive hv h hb
  simpa [hf, withUsers, hh, inRefill, hr] using this

/-- A pool of up to 3 free buffers. -/
def poolExample : PoolConfig := { lower := 10, upper := 100, maxFree := 3, initial := 2, lowWater := 1 }
example : poolExample.Valid := ⟨by decide, by decide, by decide⟩
/-- Requests that are served from the pool, start a refill, find the pool empty, and are out of range. -/
def poolOps : List PoolOp := [.allocate 50, .allocate 10, .refill 0, .allocate 60, .allocate 200, .finish 0, .refill 0, .refill 0, .release 3, .release 0, .refill 0]
example : ∃ p tr, PoolReach poolExample poolOps p tr := ⟨_, _, rfl, rfl⟩
example : ((Pool.new poolExample).1.run poolExample poolOps).2 =
    [.give ⟨1, 100⟩ 50, .give ⟨0, 100⟩ 10, .baseAlloc ⟨2, 100⟩, .baseAlloc ⟨3, 200⟩, .give ⟨3, 200⟩ 200, .baseAlloc ⟨4, 100⟩, .give ⟨4, 100⟩ 60,
     .baseAlloc ⟨5, 100⟩, .back ⟨1, 100⟩, .back ⟨4, 100⟩, .baseFree ⟨5, 100⟩] := by decide +kernel
example : ((Pool.new poolExample).1.run poolExample poolOps).1.free.length = 3 := by decide +kernel
/-- A stretch with a refill task; and an end without leaks, with more free buffers than allowed. -/
example : ∀ k, k ≤ 2 → (Pool.run poolExample (([.refill 0, .refill 0] : List PoolOp).take k) ((Pool.new poolExample).1.run poolExample [.allocate 50, .allocate 10]).1).1.refills ≠ [] := by decide +kernel
example : let p := ((Pool.new poolExample).1.run poolExample (poolOps ++ [.drop, .release 0, .release 0])).1
    p.handle = false ∧ p.held = [] ∧ p.waiting = [] ∧ p.refills = [] ∧ p.alive = false := by decide +kernel

end Spead2
