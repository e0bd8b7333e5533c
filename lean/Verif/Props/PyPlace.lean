import Verif.Lemmas.PyPlace

/-!
# C108: place callbacks that are set from Python
-/

namespace Spead2.PyPlace

/-- **C108.** In every history, a stream whose callback was given as a tuple calls the function of the capsule in the tuple, with the arguments of its signature, and the capsule and everything else in the tuple (such as the user data) still exist, whatever else was released or changed. -/
theorem C108_partial (ops : List Op) (j d n f : Nat) (args : List Nat) (hc : call (run {} ops) j d n = some (f, args)) :
    ∃ x, placeOf (run {} ops) j = some x ∧ Alive (run {} ops) x ∧
      ((∀ xs, (run {} ops).heap[x]? ≠ some (.list xs)) →
        ∃ c rest sig ctx, (run {} ops).heap[x]? = some (.tuple (c :: rest)) ∧ FunctionOf (run {} ops).heap c f sig ctx ∧ ArgumentsFor sig ctx d n args ∧
          ∀ y ∈ c :: rest, Alive (run {} ops) y) := by
  have hi := inv_run {} ops inv_init
  generalize run {} ops = s at hc hi
  unfold call at hc
  cases hj : (s.streams[j]?).getD none with
  | none => rw [hj] at hc; cases hc
  | some cb =>
    rw [hj] at hc
    simp only [Option.map_some, Option.some.injEq, Prod.mk.injEq] at hc
    obtain ⟨rfl, rfl⟩ := hc
    have hm : some cb ∈ s.streams := List.mem_of_getElem? (getD_some hj)
    have ha : Alive s cb.obj := .stream cb hm
    refine ⟨cb.obj, by unfold placeOf; rw [hj]; rfl, ha, ?_⟩
    intro hl
    rcases hi.2 cb hm with ⟨xs, hx⟩ | ⟨c, rest, hx, sig, ctx, hf, hd⟩
    · exact absurd hx (hl xs)
    · refine ⟨c, rest, sig, ctx, hx, hf, ?_, fun y hy => .inTuple _ y _ ha hx hy⟩
      rcases hd with ⟨hs, hd⟩ | ⟨hs, hd⟩
      · rw [hd]; exact Or.inl ⟨hs, rfl⟩
      · rw [hd]; exact Or.inr ⟨hs, rfl⟩

/-- The full property: a function that is called belongs to a capsule that exists. -/
def C108_statement : Prop := ∀ (ops : List Op) (j d n f : Nat) (args : List Nat), call (run {} ops) j d n = some (f, args) →
  ∃ c sig ctx, FunctionOf (run {} ops).heap c f sig ctx ∧ Alive (run {} ops) c

/-- A list is accepted in place of the tuple, and may be emptied while the stream runs. -/
def listOps : List Op := [.alloc (.capsule 99 (some plainSig) 0), .alloc (.list [0]), .newConfig, .setPlace 0 1, .newStream 0, .drop 0, .mutate 1 []]

theorem C108_violated : ¬ C108_statement := by
  intro hst
  have hh : (run {} listOps).heap = [.capsule 99 (some plainSig) 0, .list []] := rfl
  obtain ⟨c, sig, ctx, ⟨hf, _⟩, ha⟩ := hst listOps 0 5 6 99 [5, 6] rfl
  have only : ∀ x, Alive (run {} listOps) x → x = 1 := by
    intro x hx
    induction hx with
    | var x hx =>
      have : x ∈ [1] := hx
      exact List.mem_singleton.mp this
    | config cb hx =>
      have : some cb ∈ [some (⟨1, 99, none⟩ : Callback)] := hx
      rw [Option.some.inj (List.mem_singleton.mp this)]
    | stream cb hx =>
      have : some cb ∈ [some (⟨1, 99, none⟩ : Callback)] := hx
      rw [Option.some.inj (List.mem_singleton.mp this)]
    | inTuple c x xs _ h1 _ ih => rw [ih, hh] at h1; cases h1
    | inList c x xs _ h1 h2 ih =>
      rw [ih, hh] at h1
      cases h1
      cases h2
  rw [only c ha, hh] at hf
  cases hf

/-- **C108.** What is accepted: `None`, and iterables that start with a capsule whose name is one of the two signatures (capsules without function count as `None`). -/
theorem C108_accepts (h : Heap) (x : Nat) :
    (∀ c, fromPython h x = .ok (some c) ↔ c.obj = x ∧ ∃ cap sig ctx, StartsWith h x cap ∧ FunctionOf h cap c.ptr sig ctx ∧
      ((sig = "void (void *, size_t)" ∧ c.data = none) ∨ (sig = "void (void *, size_t, void *)" ∧ c.data = some ctx))) ∧
    (fromPython h x = .ok none ↔ h[x]? = some .none ∨ ∃ cap name ctx, StartsWith h x cap ∧ h[cap]? = some (.capsule 0 name ctx)) := by
  constructor
  · intro c
    rw [fromPython_some]
    constructor
    · rintro ⟨h1, cap, h2, sig, ctx, h3, h4⟩
      exact ⟨h1, cap, sig, ctx, h2, h3, h4⟩
    · rintro ⟨h1, cap, sig, ctx, h2, h3, h4⟩
      exact ⟨h1, cap, h2, sig, ctx, h3, h4⟩
  · constructor
    · intro hf
      unfold fromPython at hf
      split at hf
      · rename_i hn; exact Or.inl hn
      · split at hf
        · cases hf
        · cases hf
        · rename_i cap rest hl
          split at hf
          · rename_i p n ctx hc
            split at hf
            · rename_i hp
              subst hp
              refine Or.inr ⟨cap, n, ctx, ⟨rest, ?_⟩, hc⟩
              unfold asTuple at hl
              split at hl
              · rename_i hx; cases hl; exact Or.inl hx
              · rename_i hx; cases hl; exact Or.inr hx
              · cases hl
            · split at hf
              · cases hf
              · split at hf
                · cases hf
                · split at hf <;> cases hf
          · cases hf
    · rintro (hn | ⟨cap, n, ctx, ⟨rest, hx⟩, hc⟩)
      · unfold fromPython; rw [if_pos hn]
      · have hn : ¬ h[x]? = some .none := by rcases hx with hx | hx <;> rw [hx] <;> simp
        have ha : asTuple h x = some (cap :: rest) := by unfold asTuple; rcases hx with hx | hx <;> rw [hx]
        unfold fromPython
        rw [if_neg hn, ha]
        simp only [hc]
        rfl

/-- **C108.** Setting: what is refused changes nothing; what is accepted is what reading gives (`None` if there is no function), and other configs and the streams are not affected. -/
theorem C108_set (s : St) (i x : Nat) (hi : i < s.configs.length) :
    (∀ e, fromPython s.heap x = .error e → step s (.setPlace i x) = s) ∧
    (∀ c, fromPython s.heap x = .ok (some c) → toPython (((step s (.setPlace i x)).configs[i]?).getD none) = some x) ∧
    (fromPython s.heap x = .ok none → toPython (((step s (.setPlace i x)).configs[i]?).getD none) = none) ∧
    (∀ k, k ≠ i → (step s (.setPlace i x)).configs[k]? = s.configs[k]?) ∧ (step s (.setPlace i x)).streams = s.streams := by
  refine ⟨?_, ?_, ?_, ?_, ?_⟩
  · intro e he; simp only [step, he]
  · intro c hc
    simp only [step, hc]
    rw [List.getElem?_set_self hi]
    exact congrArg some ((fromPython_some _ _ _).mp hc).1
  · intro hc
    simp only [step, hc]
    rw [List.getElem?_set_self hi]; rfl
  · intro k hk
    simp only [step]
    split
    · rw [List.getElem?_set_ne (fun e => hk e.symm)]
    · rfl
  · simp only [step]
    split <;> rfl

/-- **C108.** A stream is made exactly if its config has a callback, and takes it; later changes of the config, its deletion and other streams do not matter: only deleting the stream ends it. -/
theorem C108_keeps (s : St) (i : Nat) :
    (∀ c, s.configs[i]? = some (some c) → (step s (.newStream i)).streams = s.streams ++ [some c]) ∧
    ((∀ c, s.configs[i]? ≠ some (some c)) → step s (.newStream i) = s) ∧
    (∀ (ops : List Op) (j d n : Nat), j < s.streams.length → (∀ op ∈ ops, op ≠ .delStream j) → call (run s ops) j d n = call s j d n) := by
  refine ⟨?_, ?_, ?_⟩
  · intro c hc; simp only [step, hc]
  · intro hn
    simp only [step]
  · intro ops j d n
    induction ops generalizing s with
    | nil => intro _ _; rfl
    | cons o os ih =>
      intro hj hd
      have hstep : s.streams.length ≤ (step s o).streams.length ∧ (step s o).streams[j]? = s.streams[j]? := by
        cases o with
        | alloc p => exact ⟨Nat.le_refl _, rfl⟩
        | drop _ => exact ⟨Nat.le_refl _, rfl⟩
        | mutate _ _ => simp only [step]; split <;> exact ⟨Nat.le_refl _, rfl⟩
        | newConfig => exact ⟨Nat.le_refl _, rfl⟩
        | delConfig _ => exact ⟨Nat.le_refl _, rfl⟩
        | setPlace _ _ => simp only [step]; split <;> exact ⟨Nat.le_refl _, rfl⟩
        | getPlace _ => simp only [step]; split <;> exact ⟨Nat.le_refl _, rfl⟩
        | newStream _ =>
          simp only [step]
          split
          · exact ⟨by simp, List.getElem?_append_left hj⟩
          · exact ⟨Nat.le_refl _, rfl⟩
        | delStream k =>
          have hk : k ≠ j := fun e => hd (.delStream k) List.mem_cons_self (by rw [e])
          simp only [step]
          exact ⟨by rw [List.length_set]; exact Nat.le_refl _, List.getElem?_set_ne hk⟩
      have h1 := ih (step s o) (Nat.lt_of_lt_of_le hj hstep.1) (fun op ho => hd op (List.mem_cons_of_mem _ ho))
      rw [show run s (o :: os) = run (step s o) os from rfl, h1]
      unfold call
      rw [hstep.2]

/-- **C108.** Nothing is kept for ever: when the program has dropped its references and the configs and streams are deleted, no object is left. -/
theorem C108_freed (s : St) (hv : s.vars = []) (hc : ∀ c ∈ s.configs, c = none) (hs : ∀ c ∈ s.streams, c = none) (x : Nat) : ¬ Alive s x := by
  intro ha
  induction ha with
  | var x hx => rw [hv] at hx; cases hx
  | config c hx => cases hc _ hx
  | stream c hx => cases hs _ hx
  | inTuple _ _ _ _ _ _ ih => exact ih
  | inList _ _ _ _ _ _ ih => exact ih

/-- **C108.** On every platform the record for numba has the fields of the structure, at the same offsets and of the same size. -/
theorem C108_record (p : Plat) (hp : p.Good) : nLayout p 0 nFields = cLayout p 0 cFields :=
  layout_eq p hp cFields 0

/-- **C108.** Fields are aligned and do not overlap, in any structure. -/
theorem C108_disjoint (p : Plat) (hp : p.Good) (fs : List (String × CTy)) (off : Nat) : WellPlaced off (cLayout p off fs) := by
  induction fs generalizing off with
  | nil => trivial
  | cons f fs ih =>
    obtain ⟨n, t⟩ := f
    refine ⟨?_, Nat.dvd_mul_left _ _, ih _⟩
    simp only
    rw [round_eq _ _ (align_pos p hp t)]
    split <;> omega

/-- **C108.** Callbacks that were compiled for an older version keep working: fields that are added at the end do not move the others. -/
theorem C108_extend (p : Plat) (fs gs : List (String × CTy)) (off : Nat) : ∃ more, cLayout p off (fs ++ gs) = cLayout p off fs ++ more := by
  induction fs generalizing off with
  | nil => exact ⟨_, rfl⟩
  | cons f fs ih =>
    obtain ⟨n, t⟩ := f
    obtain ⟨more, e⟩ := ih ((off + (t.shape p).2 - 1) / (t.shape p).2 * (t.shape p).2 + (t.shape p).1)
    refine ⟨more, ?_⟩
    simp only [List.cons_append, cLayout]
    rw [e]

/-! ## Concrete cases -/

/-- A tuple with user data; the program and the config let go of it, and the stream still calls with the user data. -/
def tupleOps : List Op :=
  [.alloc (.capsule 99 (some bindSig) 7), .alloc .other, .alloc (.tuple [0, 1]), .newConfig, .setPlace 0 2, .newStream 0, .drop 0, .drop 1, .drop 2, .delConfig 0]

example : call (run {} tupleOps) 0 5 80 = some (99, [5, 80, 7]) ∧ placeOf (run {} tupleOps) 0 = some 2 ∧ (run {} tupleOps).vars = [] ∧
    (run {} tupleOps).heap[2]? = some (.tuple [0, 1]) := ⟨rfl, rfl, rfl, rfl⟩

example : (run {} (tupleOps ++ [.delStream 0])).vars = [] ∧ (∀ c ∈ (run {} (tupleOps ++ [.delStream 0])).streams, c = none) ∧
    (∀ c ∈ (run {} (tupleOps ++ [.delStream 0])).configs, c = none) := by decide +kernel

/-- x86-64: 80 bytes; i386, where 64-bit integers are aligned to 4 bytes. -/
example : (cLayout ⟨8, 8⟩ 0 cFields).map (·.off) = [0, 8, 16, 24, 32, 40, 48, 56, 64, 72] ∧
    (nLayout ⟨4, 4⟩ 0 nFields).map (·.off) = [0, 4, 8, 12, 20, 24, 28, 32, 36, 40] ∧
    (nLayout ⟨4, 8⟩ 0 nFields).map (·.off) = [0, 4, 8, 16, 24, 28, 32, 36, 40, 44] := by decide +kernel

example : Plat.Good ⟨8, 8⟩ ∧ Plat.Good ⟨4, 4⟩ := by unfold Plat.Good; decide

end Spead2.PyPlace
