import Verif.Lemmas.ChunkStream

/-!
# C30: writes to chunks
-/

namespace Spead2
open Spec

/-- C30 (no undefined behaviour): if the user places heaps inside their chunks, no history of callbacks leads to a
write outside the arrays of a chunk or through a null pointer. -/
theorem C30_total {cfg : ChunkConfig} (hmax : 0 < cfg.maxChunks) {ops : List ChunkOp} (hv : ValidOps cfg ops) :
    ∃ s tr, ChunkStream.run cfg ops (ChunkStream.new cfg) = some (s, tr) := by
  obtain ⟨s, tr, hd, win, h, -⟩ := chunkRun_new hmax hv
  exact ⟨s, tr, h⟩

/-- C30. Every write to a chunk (payload, presence flag or extra data) is to a chunk that the user supplied before
and that has not yet been handed over, and stays inside the chunk's arrays. -/
theorem C30_no_late_write {cfg : ChunkConfig} (hmax : 0 < cfg.maxChunks) {ops : List ChunkOp} (hv : ValidOps cfg ops)
    {s : ChunkStream} {tr : List ChunkEv} (h : ChunkStream.run cfg ops (ChunkStream.new cfg) = some (s, tr))
    {before after : List ChunkEv} {e : ChunkEv} (htr : tr = before ++ e :: after) {c : Chunk} (hc : target e = some c) :
    Held cfg before c ∧ InBounds cfg e := by
  obtain ⟨s', tr', hd, win, h', rel⟩ := chunkRun_new hmax hv
  rw [h] at h'; cases h'
  simpa using rel.held.split htr hc

/-- C30 (chunks): with respect to chunks the stream behaves like the window of C29: what it was supplied with is
handed over in order of id, once. -/
theorem C30_chunks {cfg : ChunkConfig} (hmax : 0 < cfg.maxChunks) {ops : List ChunkOp} (hv : ValidOps cfg ops)
    {s : ChunkStream} {tr : List ChunkEv} (h : ChunkStream.run cfg ops (ChunkStream.new cfg) = some (s, tr)) :
    readied (winEvs tr) ++ inWindow s.window = supplied cfg.alloc (winEvs tr) ∧ (requested (winEvs tr)).Pairwise (· < ·) ∧
      s.window.headChunk = headAfter tr ∧ s.window.tailChunk ≤ s.window.headChunk + cfg.maxChunks := by
  obtain ⟨s', tr', hd, win, h', rel⟩ := chunkRun_new hmax hv
  rw [h] at h'; cases h'
  have hf := rel.st.flow
  rw [← inWindow_rel rel.rel] at hf
  have := rel.rel.fits
  refine ⟨by simpa using hf, rel.st.reqSorted, ?_, by rw [rel.rel.head, rel.rel.tail]; omega⟩
  rw [rel.rel.head]
  exact (lastHead_eq rel.st).symm

/-- C30 (payload). After any history, a packet of heap `h`, which the user placed at `pl`: if the heap's chunk was
supplied and is not too old, the payload is copied to the heap's offset plus the packet's offset, in the chunk with
the heap's chunk id (and the flag for the packet is set, if flags are per packet). Otherwise nothing is written. -/
theorem C30_copy {cfg : ChunkConfig} (hmax : 0 < cfg.maxChunks) {ops : List ChunkOp} (hv : ValidOps cfg ops)
    {s : ChunkStream} {tr : List ChunkEv} (h : ChunkStream.run cfg ops (ChunkStream.new cfg) = some (s, tr))
    {heap off : Nat} {data : Bytes} {pl : Place} (hpl : (placements ops)[heap]? = some pl)
    (ho : (ChunkOp.copy heap off data).Valid cfg (placements ops)) :
    (¬ Storable cfg tr pl → s.step cfg (.copy heap off data) = some (s, [])) ∧
    (Storable cfg tr pl → ∃ c, c.chunkId = pl.chunkId.toNat ∧ Held cfg tr c ∧
      s.step cfg (.copy heap off data) = some (s, .write c (pl.heapOffset + off) data ::
        if cfg.presenceSize = 0 then [] else [.present c (pl.heapIndex + off / cfg.presenceSize)])) := by
  obtain ⟨s', tr', hd, win, h', rel⟩ := chunkRun_new hmax hv
  rw [h] at h'; cases h'
  obtain ⟨pl', hpl', hb, hp⟩ := ho
  rw [hpl] at hpl'; cases hpl'
  obtain ⟨k1, k2⟩ := copy_spec rel hpl hb hp
  refine ⟨k1, fun hs => ?_⟩
  obtain ⟨x, hx, hxi, -, hk⟩ := k2 hs
  exact ⟨x, hxi, held_of_win rel.st hx, hk⟩

/-- C30 (end of a heap). After any history, when heap `h` comes to an end: an incomplete heap has no effect. A
complete heap whose chunk was supplied and is not too old gets its flag set (unless flags are per packet). A complete
heap whose chunk is too old by now is counted, unless it was already counted when it was allocated or its chunk was
not supplied. -/
theorem C30_heap_ready {cfg : ChunkConfig} (hmax : 0 < cfg.maxChunks) {ops : List ChunkOp} (hv : ValidOps cfg ops)
    {s : ChunkStream} {tr : List ChunkEv} (h : ChunkStream.run cfg ops (ChunkStream.new cfg) = some (s, tr))
    {heap : Nat} {pl : Place} (hpl : (placements ops)[heap]? = some pl)
    (ho : (ChunkOp.heapReady heap true).Valid cfg (placements ops)) :
    s.step cfg (.heapReady heap false) = some (s, []) ∧
    (¬ Storable cfg tr pl → s.step cfg (.heapReady heap true) = some (s, []) ∨ s.step cfg (.heapReady heap true) = some (s, [.tooOld])) ∧
    (Storable cfg tr pl → ∃ c, c.chunkId = pl.chunkId.toNat ∧ Held cfg tr c ∧
      s.step cfg (.heapReady heap true) = some (s, if cfg.presenceSize = 0 then [.present c pl.heapIndex] else [])) ∧
    (∀ before after sb tb, ops = before ++ .allocate pl :: after → (placements before).length = heap →
      ChunkStream.run cfg before (ChunkStream.new cfg) = some (sb, tb) →
      (s.step cfg (.heapReady heap true) = some (s, [.tooOld]) ↔ Storable cfg tb pl ∧ pl.chunkId.toNat < headAfter tr)) := by
  obtain ⟨s', tr', hd, win, h', rel⟩ := chunkRun_new hmax hv
  rw [h] at h'; cases h'
  obtain ⟨pl', hpl', hb⟩ := ho
  rw [hpl] at hpl'; cases hpl'
  obtain ⟨k1, k2, k3, k4⟩ := heapReady_spec rel hpl hb
  refine ⟨k1, k2, fun hs => ?_, ?_⟩
  · obtain ⟨x, hx, hxi, -, hk⟩ := k3 hs
    exact ⟨x, hxi, held_of_win rel.st hx, hk⟩
  · intro before after sb tb hops hlen hrun
    have hvb : ValidOps cfg before := fun a op b he => hv a op (b ++ .allocate pl :: after) (by rw [hops, he]; simp)
    obtain ⟨sb', tb', hdb, winb, hb', relb⟩ := chunkRun_new hmax hvb
    rw [hrun] at hb'; cases hb'
    have hva := hv before (.allocate pl) after hops
    obtain ⟨sa, ev, ha, wina, q1, q2, -, -, -, qm⟩ := allocate_spec hmax relb hva.1 hva.2
    obtain ⟨s2, t2, hd2, win2, r1, r2, r3⟩ := chunkRun_spec hmax after (before ++ [.allocate pl]) q2 (fun a op b he => by
      have := hv (before ++ .allocate pl :: a) op b (by rw [hops, he]; simp)
      simpa using this)
    have hs2 : s2 = s ∧ tr = tb ++ ev ++ t2 := by
      rw [hops] at h
      obtain ⟨x1, x2, x3, y1, y2, y3⟩ := chunkRun_append cfg _ _ _ h
      rw [hrun] at y1; cases y1
      unfold ChunkStream.run at y2
      have q1' : sb.step cfg (.allocate pl) = some (sa, ev) := q1
      rw [q1'] at y2
      simp only at y2
      rw [r1] at y2
      cases y2
      exact ⟨rfl, by rw [y3, List.append_assoc]⟩
    obtain ⟨rfl, htr⟩ := hs2
    -- the recorded metadata
    have hm : ∃ m, s2.heaps[heap]? = some m ∧ (m.chunk ≠ none ↔ Storable cfg tb pl) := by
      have hla : sa.heaps.length = heap + 1 := by
        rw [q2.len, placements_append, List.length_append, hlen]; rfl
      obtain ⟨m, hm⟩ : ∃ m, sa.heaps[heap]? = some m := ⟨_, List.getElem?_eq_getElem (by omega)⟩
      refine ⟨m, run_heaps cfg after r1 hm, ?_⟩
      exact qm m (by rw [relb.len, hlen]; exact hm)
    obtain ⟨m, hm1, hm2⟩ := hm
    have hhead : headAfter tr = hd := lastHead_eq rel.st
    rw [hhead, ← hm2]
    exact k4 m hm1

/-- C30 (allocation). After any history, a new heap placed at `pl`: it is counted as rejected exactly if its chunk id
is negative, and as too old exactly if its chunk id is below the head; in both cases nothing else happens. Otherwise the
window moves as described by C29, and the extra data is copied to the chunk if there is one. -/
theorem C30_allocate {cfg : ChunkConfig} (hmax : 0 < cfg.maxChunks) {ops : List ChunkOp} (hv : ValidOps cfg ops)
    {s : ChunkStream} {tr : List ChunkEv} (h : ChunkStream.run cfg ops (ChunkStream.new cfg) = some (s, tr))
    {pl : Place} (ho : (ChunkOp.allocate pl).Valid cfg (placements ops)) :
    ∃ s' ev, s.step cfg (.allocate pl) = some (s', ev) ∧
      (pl.chunkId < 0 → ev = [.rejected] ∧ s'.window = s.window) ∧
      (0 ≤ pl.chunkId → pl.chunkId.toNat < headAfter tr → ev = [.tooOld] ∧ s'.window = s.window) ∧
      (0 ≤ pl.chunkId → headAfter tr ≤ pl.chunkId.toNat → ∃ wev,
        s.window.step cfg.alloc (.get pl.chunkId.toNat cfg.streamId) = some (s'.window, wev) ∧
        ((cfg.alloc pl.chunkId.toNat = false ∨ pl.extra = []) → ev = wev.map .win) ∧
        (cfg.alloc pl.chunkId.toNat = true → pl.extra ≠ [] → ∃ c, c.chunkId = pl.chunkId.toNat ∧ ev = wev.map .win ++ [.extra c pl.extraOffset pl.extra])) := by
  obtain ⟨s', tr', hd, win, h', rel⟩ := chunkRun_new hmax hv
  rw [h] at h'; cases h'
  have hhead : headAfter tr = hd := lastHead_eq rel.st
  rw [hhead]
  obtain ⟨s1, ev, h1, win1, q1, q2, q3, q4, q5, -⟩ := allocate_spec hmax rel ho.1 ho.2
  have hsame : ∀ (hold : s.window.tooOld pl.chunkId = true), s1.window = s.window := by
    intro hold
    unfold ChunkStream.allocate at q1
    rw [if_pos hold] at q1
    cases q1; rfl
  refine ⟨s1, ev, q1, fun hneg => ⟨(q3 hneg).1, hsame ((tooOld_iff rel.rel _).2 (by omega))⟩,
    fun hge hlt => ⟨(q4 hge hlt).1, hsame ((tooOld_iff rel.rel _).2 (by omega))⟩, fun hge hle => ?_⟩
  obtain ⟨wev, c, g1, g2, g3, g4⟩ := q5 hge hle
  refine ⟨wev, ?_, ?_, ?_⟩
  · show (s.window.getChunk _ _ _).map _ = _
    rw [g1]; rfl
  · rintro (ha | hx)
    · rw [g2, g4.1 ha]; simp
    · rw [g2, hx]; cases c <;> simp
  · intro ha hx
    obtain ⟨x, rfl⟩ := g4.2 ha
    exact ⟨x, g3 x rfl, by rw [g2]; simp [hx]⟩

/-- C30 (a heap's flag is truthful). Whenever the end of heap `h` sets a flag, it is in the chunk with the heap's id,
and every packet of the heap that was copied before had its payload written to that very chunk at the heap's offset plus
its own. -/
theorem C30_present_complete {cfg : ChunkConfig} (hmax : 0 < cfg.maxChunks) {ops : List ChunkOp} (hv : ValidOps cfg ops)
    {s : ChunkStream} {tr : List ChunkEv} (h : ChunkStream.run cfg ops (ChunkStream.new cfg) = some (s, tr))
    {heap : Nat} {pl : Place} (hpl : (placements ops)[heap]? = some pl)
    (ho : (ChunkOp.heapReady heap true).Valid cfg (placements ops))
    {c : Chunk} {i : Nat} {s' : ChunkStream} {ev : List ChunkEv} (hr : s.step cfg (.heapReady heap true) = some (s', ev)) (hi : .present c i ∈ ev) :
    i = pl.heapIndex ∧ c.chunkId = pl.chunkId.toNat ∧ Held cfg tr c ∧
    ∀ before off data after, ops = before ++ .copy heap off data :: after →
      ∃ t1 t2 sb sa sev, ChunkStream.run cfg before (ChunkStream.new cfg) = some (sb, t1) ∧ sb.step cfg (.copy heap off data) = some (sa, sev) ∧
        ChunkStream.run cfg after sa = some (s, t2) ∧ tr = t1 ++ sev ++ t2 ∧ .write c (pl.heapOffset + off) data ∈ sev := by
  obtain ⟨s0, tr', hd, win, h', rel⟩ := chunkRun_new hmax hv
  rw [h] at h'; cases h'
  obtain ⟨pl', hpl', hb⟩ := ho
  rw [hpl] at hpl'; cases hpl'
  obtain ⟨k1, k2, k3, k4⟩ := heapReady_spec rel hpl hb
  have hr' : s.heapReady cfg heap true = some (s', ev) := hr
  by_cases hs : Storable cfg tr pl
  · obtain ⟨x, hx, hxi, hxa, hk⟩ := k3 hs
    rw [hk] at hr'
    cases hr'
    by_cases hz : cfg.presenceSize = 0
    · rw [if_pos hz] at hi
      simp only [List.mem_singleton, ChunkEv.present.injEq] at hi
      obtain ⟨rfl, rfl⟩ := hi
      refine ⟨rfl, hxi, held_of_win rel.st hx, ?_⟩
      intro before off data after hops
      rw [hops] at h
      obtain ⟨sb, t1, t23, y1, y2, y3⟩ := chunkRun_append cfg _ _ _ h
      have hvb : ValidOps cfg before := fun a op b he => hv a op (b ++ .copy heap off data :: after) (by rw [hops, he]; simp)
      obtain ⟨sb', tb', hdb, winb, hb', relb⟩ := chunkRun_new hmax hvb
      rw [y1] at hb'; cases hb'
      obtain ⟨pl', hpl1, hb1, hp1⟩ := hv before (.copy heap off data) after hops
      have hpe : pl' = pl := by
        rw [hops, placements_append, List.getElem?_append_left (lt_of_getElem? hpl1), hpl1] at hpl
        cases hpl; rfl
      subst hpe
      obtain ⟨-, c2⟩ := copy_spec relb hpl1 hb1 hp1
      -- the chunk was not too old then either
      unfold ChunkStream.run at y2
      cases hst : sb.step cfg (.copy heap off data) with
      | none => rw [hst] at y2; cases y2
      | some r =>
        obtain ⟨sa, sev⟩ := r
        rw [hst] at y2
        simp only at y2
        cases hra : ChunkStream.run cfg after sa with
        | none => rw [hra] at y2; cases y2
        | some r2 =>
          obtain ⟨sz, t2⟩ := r2
          rw [hra] at y2
          cases y2
          obtain ⟨sa', sev', ha, wina, m1, m2, m3⟩ := chunkStep_spec hmax relb (.copy heap off data) ⟨pl', hpl1, hb1, hp1⟩
          rw [hst] at m1; cases m1
          obtain ⟨s2, t2', hd2, win2, n1, n2, n3⟩ := chunkRun_spec hmax after (before ++ [.copy heap off data]) m2 (fun a op b he => by
            have := hv (before ++ .copy heap off data :: a) op b (by rw [hops, he]; simp)
            simpa using this)
          rw [hra] at n1; cases n1
          have hhd : hd2 = hd := by rw [← n2.rel.head, ← rel.rel.head]
          have hhb : headAfter t1 = hdb := lastHead_eq relb.st
          have hhd' : headAfter tr = hd := lastHead_eq rel.st
          have hsb : Storable cfg t1 pl' := ⟨hs.1, by have := hs.2.1; omega, hs.2.2⟩
          obtain ⟨xb, w1, w2, w3, w4⟩ := c2 hsb
          have w4' : sb.step cfg (.copy heap off data) = _ := w4
          rw [hst] at w4'
          have hst0 := hst
          cases w4'
          refine ⟨t1, t2, sb, sb, _, y1, hst0, hra, by rw [y3, List.append_assoc], ?_⟩
          -- same chunk: the metadata records the pointer
          have hxx : xb = c := by
            obtain ⟨m, hm⟩ := getElem?_some_of_lt (i := heap) relb.len.symm (lt_of_getElem? hpl1)
            have hm' : s.heaps[heap]? = some m := run_heaps cfg after hra hm
            have e1 := relb.heaps heap pl' m hpl1 hm
            have e2 := rel.heaps heap pl' m hpl hm'
            rcases e1 with ⟨_, hn⟩ | ⟨sid, rfl, -, -, -, e1⟩
            · exact absurd ⟨hsb.1, by rw [← hhb]; exact hsb.2.1, hsb.2.2⟩ hn
            · rcases e2 with ⟨hm0, _⟩ | ⟨sid', hm0, -, -, -, e2⟩
              · simp at hm0
              · have a1 := e1 (by rw [← hhb]; exact hsb.2.1)
                have a2 := e2 (by rw [← hhd']; exact hs.2.1)
                rw [w1] at a1
                rw [hx] at a2
                simp only [HeapMeta.mk.injEq, Option.some.injEq, true_and] at hm0 a1 a2
                rw [a1, a2, hm0]
          rw [hxx]
          exact List.mem_cons_self
    · rw [if_neg hz] at hi; cases hi
  · rcases k2 hs with hk | hk
    · rw [hk] at hr'; cases hr'; cases hi
    · rw [hk] at hr'; cases hr'; simp at hi

/-- A configuration with two chunks of 8 bytes and two flags. -/
def exampleChunkConfig : ChunkConfig where
  maxChunks := 2
  alloc := fun n => n != 1
  dataSize := fun _ => 8
  presentSize := fun _ => 2
  extraSize := fun _ => 1

/-- Heaps for chunks 0, 1 (not supplied), 3 (which ages out chunk 0), then a late packet for chunk 0 and a rejected heap. -/
def exampleChunkOps : List ChunkOp :=
  [.allocate ⟨0, 1, 4, 0, [9]⟩, .copy 0 0 [1, 2], .allocate ⟨1, 0, 0, 0, []⟩, .copy 1 0 [7], .allocate ⟨3, 1, 4, 0, []⟩,
   .copy 0 2 [3, 4], .copy 2 0 [5, 6], .copy 2 2 [7, 8], .heapReady 2 true, .heapReady 0 true, .allocate ⟨-1, 0, 0, 0, []⟩, .flush]

/-- Checking a history callback by callback. -/
def ValidFrom (cfg : ChunkConfig) : List Place → List ChunkOp → Prop
  | _, [] => True
  | pls, op :: ops => op.Valid cfg pls ∧ ValidFrom cfg (pls ++ placements [op]) ops

theorem ValidFrom.ops {cfg : ChunkConfig} : ∀ {ops : List ChunkOp} {pls : List Place}, ValidFrom cfg pls ops →
    ∀ a op b, ops = a ++ op :: b → op.Valid cfg (pls ++ placements a)
  | [], _, _, a, op, b, he => by simp at he
  | x :: ops, pls, ⟨h1, h2⟩, [], op, b, he => by
    rw [List.nil_append, List.cons.injEq] at he
    obtain ⟨rfl, rfl⟩ := he
    simpa [placements] using h1
  | x :: ops, pls, ⟨h1, h2⟩, y :: a, op, b, he => by
    rw [List.cons_append, List.cons.injEq] at he
    obtain ⟨rfl, he⟩ := he
    have := ValidFrom.ops h2 a op b he
    rw [List.append_assoc, ← placements_append] at this
    exact this

example : ValidOps exampleChunkConfig exampleChunkOps := by
  have : ValidFrom exampleChunkConfig [] exampleChunkOps := by
    simp [ValidFrom, exampleChunkOps, ChunkOp.Valid, placements, exampleChunkConfig]
  intro a op b he
  simpa using this.ops a op b he

example : (ChunkStream.run exampleChunkConfig exampleChunkOps (ChunkStream.new exampleChunkConfig)).map Prod.snd = some
    [.win (.alloc 0 0), .extra ⟨0, 0, 0⟩ 0 [9], .write ⟨0, 0, 0⟩ 4 [1, 2], .win (.alloc 1 0),
     .win (.ready ⟨0, 0, 0⟩), .win (.head 1), .win (.alloc 2 0), .win (.head 2), .win (.alloc 3 0),
     .write ⟨3, 3, 0⟩ 4 [5, 6], .write ⟨3, 3, 0⟩ 6 [7, 8], .present ⟨3, 3, 0⟩ 1, .tooOld, .rejected,
     .win (.ready ⟨2, 2, 0⟩), .win (.ready ⟨3, 3, 0⟩), .win (.head (2 ^ 64 - 1))] := by decide +kernel

end Spead2
