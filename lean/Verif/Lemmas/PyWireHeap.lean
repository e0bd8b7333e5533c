import Verif.Lemmas.PyWire

/-!
# From group to group: one heap
-/

namespace Spead2.PyWire
open PyDescr Spec

theorem descsE_append (a b : List Entry) : descsE (a ++ b) = descsE a ++ descsE b := by
  induction a with
  | nil => rfl
  | cons e a ih => cases e <;> simp [descsE, ih]

theorem valsE_append (a b : List Entry) : valsE (a ++ b) = valsE a ++ valsE b := by
  induction a with
  | nil => rfl
  | cons e a ih => cases e <;> simp [valsE, ih]

theorem addAll_ideal (dm vm : SendMode) : ∀ (l : List (Nat × PyItemObj Rest PyValue)) (q : PyGen) (es : List Entry),
    PyGen.addAll idealEnc dm vm l (q, ⟨descsE es, valsE es⟩) = ((addAll dm vm l (q, es)).1, ⟨descsE (addAll dm vm l (q, es)).2, valsE (addAll dm vm l (q, es)).2⟩) := by
  intro l
  induction l with
  | nil => intro q es; rfl
  | cons p l ih =>
    obtain ⟨o, x⟩ := p
    intro q es
    rw [PyGen.addAll, addAll, ← ih]
    congr 1
    simp only [PyGen.addOne, addOne, descsE_append, valsE_append]
    refine Prod.ext rfl ?_
    simp only []
    cases (q.decideDesc dm o (q.getInfo x.id o)).1 <;> cases (decideData vm x (q.decideDesc dm o (q.getInfo x.id o)).2).1 <;> simp [descsE, valsE, idealEnc]

theorem getHeap_ideal (q : PyGen) (g : PyGroup Rest PyValue) (dm vm : SendMode) :
    q.getHeap g idealEnc dm vm = ((getHeap q g dm vm).1, ⟨descsE (getHeap q g dm vm).2, valsE (getHeap q g dm vm).2⟩) := by
  have h := addAll_ideal dm vm g.values q []
  simp only [PyGen.getHeap, getHeap]
  simp only [descsE, valsE] at h
  rw [h]

theorem nameOf_strOf (n : String) : nameOf (strOf n) = n := by
  unfold nameOf strOf
  rw [List.map_map]
  have : (Char.ofNat ∘ Char.toNat) = id := by funext c; simp [Char.ofNat_toNat]
  rw [this, List.map_id, String.ofList_toList]

theorem restOf_full (d : Rest) (i : Nat) (n : String) : restOf (d.full i n) = (i, n, d) := by
  simp [restOf, Rest.full, nameOf_strOf]

/-- What becomes of a descriptor. -/
theorem pack_desc {f : Setup} (hT : PyDescr.Spec.Faithful f.text) (hw1 : 1 ≤ f.w) (hw7 : f.w ≤ 7) {i : Nat} {n : String} {d : Rest} (hd : DescOk d)
    (hs : Described f i n d) {it : SendItem} (h : pack f (.desc i n d) = some it) :
    ∃ raw b, it = ⟨DESCRIPTOR_ID, .buffer b false⟩ ∧ b ≠ [] ∧ Spead2.Spec.DescriptorFits f.w f.bc raw ∧ raw.id < 2 ^ (8 * f.w) ∧
      (∃ ok, encodeDescriptor (8 * f.w) f.bc raw = .ok (b, ok)) ∧ (fromRaw f.text f.bc (Spead2.Spec.receivedDescriptor raw)).map restOf = some (i, n, d) := by
  replace h : packDesc f i n d = some it := h
  unfold packDesc at h
  cases hr : toRaw f.text f.bc (d.full i n) with
  | none => rw [hr] at h; cases h
  | some raw =>
    rw [hr] at h
    replace h : descItem (encodeDescriptor (8 * f.w) f.bc raw) = some it := h
    cases he : encodeDescriptor (8 * f.w) f.bc raw with
    | error e => rw [he] at h; cases h
    | ok p =>
      obtain ⟨b, ok⟩ := p
      rw [he] at h
      replace h := Option.some.inj h
      obtain ⟨fit, hid⟩ := hs raw hr
      refine ⟨raw, b, h.symm, ?_, fit, hid, ⟨ok, he⟩, ?_⟩
      · unfold encodeDescriptor at he
        simp only [] at he
        split at he
        · cases he
        · simp only [Except.ok.injEq, Prod.mk.injEq] at he
          rw [← he.1]
          intro hb
          have := congrArg List.length hb
          simp only [List.length_append, beBytes_length, List.length_nil] at this
          omega
      · obtain ⟨raw', a1, a2⟩ := C89_partial f.text hT f.w f.bc hw1 hw7 (d.full i n) (d.full i n) ((mk_iff _ _).2 ⟨rfl, (hd i n).1⟩) (hd i n).2 raw hr fit hid
        rw [arrives_unique (arrives hw1 hw7 fit hid) a1, a2, Option.map_some, restOf_full]

theorem codeOf_c {c : Nat} (h : codeOf c = .c) : c = 99 := by
  unfold codeOf at h
  split at h
  · cases h
  · split at h
    · cases h
    · split at h
      · cases h
      · split at h
        · assumption
        · cases h

theorem valid_values {d : Rest} (hd : DescOk d) : d.values.valid = true := by
  obtain ⟨hv, hp⟩ := hd 0 ""
  unfold PyDesc.valid Rest.values
  simp only [Bool.and_eq_true, decide_eq_true_eq]
  constructor
  · have h := hv.unknowns
    have e : ∀ l : List (Option Int), ((l.map (Option.map Int.toNat)).filter Option.isNone).length = (l.filter (· = none)).length := by
      intro l
      induction l with
      | nil => rfl
      | cons a l ih => cases a <;> simp [ih]
    rw [e]
    exact h
  · cases ht : d.dtype with
    | some t =>
      obtain ⟨h1, _, h3⟩ := hv.dtype t ht
      simp only [Bool.and_eq_true, decide_eq_true_eq]
      refine ⟨h3, ?_⟩
      rw [List.all_eq_true]
      intro x hx
      obtain ⟨y, hy, rfl⟩ := List.mem_map.1 hx
      cases y with
      | none => exact absurd hy h1
      | some y => rfl
    | none =>
      have h1 := hv.one
      replace h1 : d.dtype.isSome = !d.format.isSome := h1
      rw [ht] at h1
      cases hf : d.format with
      | none => rw [hf] at h1; cases h1
      | some fm =>
        obtain ⟨_, h2, h3⟩ := hv.format fm hf
        simp only [Option.getD_some, Bool.and_eq_true, Bool.not_eq_true', List.isEmpty_eq_false_iff, ne_eq, List.map_eq_nil_iff]
        refine ⟨h2, ?_⟩
        rw [List.all_eq_true]
        intro x hx
        obtain ⟨⟨c, k⟩, hy, rfl⟩ := List.mem_map.1 hx
        rcases h3 _ hy with ⟨h, hk⟩ | ⟨h, hk⟩ | ⟨h, hk⟩
        · simp only [List.map_cons, List.map_nil, List.mem_cons, List.not_mem_nil, or_false] at h
          replace hk : 0 < k := hk
          have hk' : 0 < k.toNat := by omega
          rcases h with h | h | h <;> replace h : c = _ := h <;> subst h <;>
            simp [FieldFmt.legal, codeOf, hk']
        · replace h : c = 102 := h
          replace hk : k = 32 ∨ k = 64 := hk
          subst h
          rcases hk with rfl | rfl <;> decide
        · replace h : c = 99 := h
          replace hk : k = 8 := hk
          subst h hk
          decide

theorem string_values {d : Rest} (hd : DescOk d) : IsString d ↔ (d.values.shape.length = 1 ∧ d.values.elem = .format [⟨.c, 8⟩]) := by
  obtain ⟨hv, _⟩ := hd 0 ""
  unfold IsString Rest.values
  simp only [List.length_map]
  refine and_congr_right fun _ => ?_
  cases ht : d.dtype with
  | some t => simp
  | none =>
    simp only [true_and]
    have h1 := hv.one
    replace h1 : d.dtype.isSome = !d.format.isSome := h1
    rw [ht] at h1
    cases hf : d.format with
    | none => rw [hf] at h1; cases h1
    | some fm =>
      simp only [Option.getD_some, Option.some.injEq, ElemType.format.injEq]
      constructor
      · rintro rfl; rfl
      · intro h
        match fm, h with
        | [(c, k)], h =>
          simp only [List.map_cons, List.map_nil, List.cons.injEq, and_true, FieldFmt.mk.injEq] at h
          have := codeOf_c h.1
          subst this
          have : k = 8 := by omega
          subst this
          rfl
        | [], h => simp at h
        | _ :: _ :: _, h => simp at h

theorem strArray_inj {s t : List Nat} (h : strArray s = strArray t) : s = t := by
  unfold strArray at h
  simp only [PyArray.mk.injEq] at h
  have h2 := h.2
  refine (List.map_inj_right ?_).1 h2
  intro a b hab
  cases hab; rfl

theorem beBytes_pad {w : Nat} {b : Bytes} (h : b.length ≤ w) : beBytes w (beNat b) = List.replicate (w - b.length) 0 ++ b := by
  have h1 := beBytes_beNat (List.replicate (w - b.length) 0 ++ b)
  rw [beNat_append, beNat_replicate_zero, Nat.zero_mul, Nat.zero_add, List.length_append, List.length_replicate, Nat.sub_add_cancel h] at h1
  exact h1

theorem map_toNat_ofNat {bs : List Nat} (h : ∀ b ∈ bs, b < 256) : (bs.map UInt8.ofNat).map UInt8.toNat = bs := by
  rw [List.map_map]
  conv => rhs; rw [← List.map_id bs]
  apply List.map_congr_left
  intro b hb
  simp [Nat.mod_eq_of_lt (h b hb)]

/-- What becomes of a value. -/
theorem pack_value {f : Setup} {i : Nat} {d : Rest} {v : PyValue} (hd : DescOk d)
    (hs : Good f.wraps d v) {it : SendItem} (h : pack f (.value i d v) = some it) :
    ∃ b allow, it = ⟨i, .buffer b allow⟩ ∧ (¬ (allow = true ∧ b.length ≤ f.w) → b ≠ []) ∧
      decode d (if allow = true ∧ b.length ≤ f.w then ⟨true, (beBytes f.w (beNat b)).map UInt8.toNat⟩ else ⟨false, b.map UInt8.toNat⟩) = some v := by
  have hval := valid_values hd
  obtain ⟨bs, x, h1, h2, h3⟩ := C72_roundtrip_partial hval hs.fits hs.regular f.w
  obtain ⟨bs', h4, h5, h6, _⟩ := toBuffer_ok hval hs.fits (wraps := f.wraps)
    (fun hp e he xs hx v hv e0 => hs.regular.nul hp xs (hx ▸ he) (e0 ▸ hv)) hs.regular.sign
  rw [h1] at h4
  cases h4
  replace h : packValue f i d v = some it := h
  unfold packValue at h
  rw [h1] at h
  replace h := Option.some.inj h
  refine ⟨bs.map UInt8.ofNat, d.values.allowImmediate, h.symm, ?_, ?_⟩
  · intro hn hb
    have hb' : bs = [] := List.map_eq_nil_iff.1 hb
    rw [hb', List.length_nil] at h5
    rcases hs.nonempty with hp | ⟨hp, hq⟩
    · have hlen := hs.fits.data
      rw [hlen] at h5
      have hz : 0 < d.values.itemsizeBits := by
        unfold PyDesc.itemsizeBits
        unfold PyDesc.valid at hval
        cases he : d.values.elem with
        | dtype n => simp [he] at hval; simp; omega
        | format fs =>
          simp only [he, Bool.and_eq_true, Bool.not_eq_true', List.isEmpty_eq_false_iff, List.all_eq_true] at hval
          obtain ⟨_, h8, h9⟩ := hval
          match fs, h8, h9 with
          | x :: fs, _, h9 =>
            have := h9 x List.mem_cons_self
            simp only [FieldFmt.legal, Bool.and_eq_true, decide_eq_true_eq] at this
            simp only [List.map_cons, List.sum_cons]
            omega
      have := Nat.mul_pos hz hp
      omega
    · apply hn
      refine ⟨?_, by rw [hb]; simp⟩
      unfold PyDesc.allowImmediate
      have h8 : d.values.isVariableSize = false := by
        unfold PyDesc.isVariableSize Rest.values
        rw [List.any_eq_false]
        intro y hy
        simp only [List.mem_map] at hy
        obtain ⟨z, hz, rfl⟩ := hy
        cases z with
        | none => exact absurd hz hp
        | some z => simp
      rw [h8]
      have : d.values.itemsizeBits % 8 = 0 := Nat.mod_eq_zero_of_dvd hq
      simp [this]
  · have hx : x = v := by
      unfold Spead2.Spec.Expected at h3
      split at h3
      · rename_i hstr
        rw [← string_values hd] at hstr
        obtain ⟨s, hsv⟩ := hs.string.1 hstr
        obtain ⟨s', h8, h9⟩ := h3
        subst hsv
        rw [h9, strArray_inj h8]
      · rename_i hstr
        rw [← string_values hd] at hstr
        cases v with
        | array a => exact h3
        | str s => exact absurd (hs.string.2 ⟨s, rfl⟩) hstr
    subst hx
    unfold decode
    rw [← h2]
    congr 1
    unfold PyDesc.transport
    simp only [List.length_map, Bool.and_eq_true, decide_eq_true_eq]
    split
    · rename_i hc
      rw [beBytes_pad (by simpa using hc.2), List.map_append, map_toNat_ofNat h6, List.length_map, List.map_replicate]
      rfl
    · rw [map_toNat_ofNat h6]

/-- A received item, from what is known of it. -/
def adrRaw (y : Nat × Bytes) : Nat × RawItem := (y.1, ⟨false, y.2.map UInt8.toNat⟩)
def immRaw (w : Nat) (y : Nat × Nat) : Nat × RawItem := (y.1, ⟨true, (beBytes w y.2).map UInt8.toNat⟩)

/-- What the items of a heap are. -/
structure Packed (f : Setup) (es : List Entry) (items : List SendItem) (l : List (Nat × Descriptor × Bytes)) (rs : List (Nat × RawItem)) : Prop where
  enc : ∀ x ∈ l, x.1 = f.w ∧ Spead2.Spec.DescriptorFits x.1 f.bc x.2.1 ∧ x.2.1.id < 2 ^ (8 * x.1) ∧ ∃ ok, encodeDescriptor (8 * x.1) f.bc x.2.1 = .ok (x.2.2, ok)
  descs : (Spead2.Spec.addressedItems f.w items).filter (fun y => y.1 = DESCRIPTOR_ID) = l.map (fun x => (DESCRIPTOR_ID, x.2.2))
  back : l.mapM (fun x => (fromRaw f.text f.bc (Spead2.Spec.receivedDescriptor x.2.1)).map restOf) = some (descsE es)
  vals : List.Forall₂ (fun p q => q.1 = p.1 ∧ decode p.2.1 q.2 = some p.2.2) (valsE es) rs
  perm : (((Spead2.Spec.addressedItems f.w items).filter (fun y => y.1 ≠ DESCRIPTOR_ID)).map adrRaw ++ (Spead2.Spec.immediateItems f.w items).map (immRaw f.w)).Perm rs
  imm : ∀ y ∈ Spead2.Spec.immediateItems f.w items, y.1 ∈ (valsE es).map Prod.fst
  noEmpty : Spead2.Spec.NoEmpty f.w items
  immIds : ((Spead2.Spec.immediateItems f.w items).map Prod.fst).Sublist ((valsE es).map Prod.fst)
  ids : ∀ it ∈ items, it.id = DESCRIPTOR_ID ∨ it.id ∈ (valsE es).map Prod.fst

theorem addressed_cons (w : Nat) (it : SendItem) (l : List SendItem) : Spead2.Spec.addressedItems w (it :: l) =
    (if Spead2.Spec.itemPayload w it = [] then [] else [(it.id, Spead2.Spec.itemPayload w it)]) ++ Spead2.Spec.addressedItems w l := by
  unfold Spead2.Spec.addressedItems
  by_cases h : Spead2.Spec.itemPayload w it = [] <;> simp [List.filterMap_cons, h]

theorem immediate_cons (w i : Nat) (b : Bytes) (allow : Bool) (l : List SendItem) : Spead2.Spec.immediateItems w (⟨i, .buffer b allow⟩ :: l) =
    (if allow = true ∧ b.length ≤ w then [(i, beNat b)] else []) ++ Spead2.Spec.immediateItems w l := by
  unfold Spead2.Spec.immediateItems
  by_cases h : allow = true ∧ b.length ≤ w <;> simp [List.filterMap_cons, h]

theorem mapM_cons_some {α β : Type} {g : α → Option β} {a : α} {l : List α} {r : List β} (h : (a :: l).mapM g = some r) :
    ∃ b r', g a = some b ∧ l.mapM g = some r' ∧ r = b :: r' := by
  rw [List.mapM_cons] at h
  cases hg : g a with
  | none => rw [hg] at h; cases h
  | some b =>
    rw [hg] at h
    cases hl : l.mapM g with
    | none => rw [hl] at h; cases h
    | some r' => rw [hl] at h; exact ⟨b, r', rfl, rfl, (Option.some.inj h).symm⟩

theorem packed {f : Setup} (hT : PyDescr.Spec.Faithful f.text) (hw1 : 1 ≤ f.w) (hw7 : f.w ≤ 7) : ∀ {es : List Entry} {items : List SendItem},
    es.mapM (pack f) = some items → Sendable f es → (∀ p ∈ descsE es, DescOk p.2.2) → (∀ p ∈ valsE es, DescOk p.2.1 ∧ 6 < p.1) →
    ∃ l rs, Packed f es items l rs := by
  intro es
  induction es with
  | nil =>
    intro items h _ _ _
    cases h
    exact ⟨[], [], (by simp), rfl, rfl, .nil, List.Perm.refl _, (by simp [Spead2.Spec.immediateItems]), (by intro it hi; cases hi), List.Sublist.refl _, (by simp)⟩
  | cons e es ih =>
    intro items h hs hd hv
    obtain ⟨it, items', h1, h2, rfl⟩ := mapM_cons_some h
    have hs' : Sendable f es := fun e he => hs e (List.mem_cons_of_mem _ he)
    have he := hs e List.mem_cons_self
    cases e with
    | desc i n d =>
      obtain ⟨l, rs, ok⟩ := ih h2 hs' (fun p hp => hd p (List.mem_cons_of_mem _ hp)) hv
      obtain ⟨raw, b, rfl, hb, fit, hid, henc, hback⟩ := pack_desc hT hw1 hw7 (hd (i, n, d) List.mem_cons_self) he h1
      have hpay : Spead2.Spec.itemPayload f.w ⟨DESCRIPTOR_ID, .buffer b false⟩ = b := by simp [Spead2.Spec.itemPayload]
      have hadr : Spead2.Spec.addressedItems f.w (⟨DESCRIPTOR_ID, .buffer b false⟩ :: items') = (DESCRIPTOR_ID, b) :: Spead2.Spec.addressedItems f.w items' := by
        rw [addressed_cons, hpay, if_neg hb]; rfl
      have himm : Spead2.Spec.immediateItems f.w (⟨DESCRIPTOR_ID, .buffer b false⟩ :: items') = Spead2.Spec.immediateItems f.w items' := by
        rw [immediate_cons, if_neg (by simp)]; rfl
      refine ⟨(f.w, raw, b) :: l, rs, ?_, ?_, ?_, ok.vals, ?_, ?_, ?_, ?_, ?_⟩
      · intro x hx
        rcases List.mem_cons.1 hx with rfl | hx
        · exact ⟨rfl, fit, hid, henc⟩
        · exact ok.enc x hx
      · rw [hadr, List.filter_cons_of_pos (by simp), ok.descs, List.map_cons]
      · rw [List.mapM_cons, hback, ok.back]
        rfl
      · rw [hadr, List.filter_cons_of_neg (by simp), himm]
        exact ok.perm
      · rw [himm]; exact ok.imm
      · intro it hit b' allow hv'
        rcases List.mem_cons.1 hit with rfl | hit
        · cases hv'
          intro _; exact hb
        · exact ok.noEmpty it hit b' allow hv'
      · rw [himm]; exact ok.immIds
      · intro it hit
        rcases List.mem_cons.1 hit with rfl | hit
        · exact Or.inl rfl
        · exact ok.ids it hit
    | value i d v =>
      obtain ⟨hdv, h6⟩ := hv (i, (d, v)) List.mem_cons_self
      obtain ⟨l, rs, ok⟩ := ih h2 hs' hd (fun p hp => hv p (List.mem_cons_of_mem _ hp))
      obtain ⟨b, allow, rfl, hb, hdec⟩ := pack_value hdv he h1
      replace h6 : 6 < i := h6
      have hi5 : i ≠ DESCRIPTOR_ID := by
        intro e
        rw [e] at h6
        exact absurd h6 (by decide)
      have hids : ∀ it ∈ (⟨i, .buffer b allow⟩ : SendItem) :: items', it.id = DESCRIPTOR_ID ∨ it.id ∈ (valsE (.value i d v :: es)).map Prod.fst := by
        intro it hit
        rcases List.mem_cons.1 hit with rfl | hit
        · exact Or.inr List.mem_cons_self
        · exact (ok.ids it hit).imp id (fun h => List.mem_cons_of_mem _ h)
      have hne : Spead2.Spec.NoEmpty f.w (⟨i, .buffer b allow⟩ :: items') := by
        intro it hit b' allow' hv'
        rcases List.mem_cons.1 hit with rfl | hit
        · cases hv'
          exact hb
        · exact ok.noEmpty it hit b' allow' hv'
      by_cases hc : allow = true ∧ b.length ≤ f.w
      · rw [if_pos hc] at hdec
        have hpay : Spead2.Spec.itemPayload f.w ⟨i, .buffer b allow⟩ = [] := by simp [Spead2.Spec.itemPayload, hc]
        have hadr : Spead2.Spec.addressedItems f.w (⟨i, .buffer b allow⟩ :: items') = Spead2.Spec.addressedItems f.w items' := by
          rw [addressed_cons, hpay, if_pos rfl]; rfl
        have himm : Spead2.Spec.immediateItems f.w (⟨i, .buffer b allow⟩ :: items') = (i, beNat b) :: Spead2.Spec.immediateItems f.w items' := by
          rw [immediate_cons, if_pos hc]; rfl
        refine ⟨l, immRaw f.w (i, beNat b) :: rs, ok.enc, ?_, ok.back, .cons ⟨rfl, hdec⟩ ok.vals, ?_, ?_, hne, ?_, hids⟩
        · rw [hadr]; exact ok.descs
        · rw [hadr, himm, List.map_cons]
          exact List.perm_middle.trans (ok.perm.cons _)
        · intro y hy
          rw [himm] at hy
          rcases List.mem_cons.1 hy with rfl | hy
          · exact List.mem_cons_self
          · exact List.mem_cons_of_mem _ (ok.imm y hy)
        · rw [himm]
          exact ok.immIds.cons_cons _
      · rw [if_neg hc] at hdec
        have hpay : Spead2.Spec.itemPayload f.w ⟨i, .buffer b allow⟩ = b := by simp [Spead2.Spec.itemPayload, hc]
        have hadr : Spead2.Spec.addressedItems f.w (⟨i, .buffer b allow⟩ :: items') = (i, b) :: Spead2.Spec.addressedItems f.w items' := by
          rw [addressed_cons, hpay, if_neg (hb hc)]; rfl
        have himm : Spead2.Spec.immediateItems f.w (⟨i, .buffer b allow⟩ :: items') = Spead2.Spec.immediateItems f.w items' := by
          rw [immediate_cons, if_neg hc]; rfl
        refine ⟨l, adrRaw (i, b) :: rs, ok.enc, ?_, ok.back, .cons ⟨rfl, hdec⟩ ok.vals, ?_, ?_, hne, ?_, hids⟩
        · rw [hadr, List.filter_cons_of_neg (by simpa using hi5)]; exact ok.descs
        · rw [hadr, List.filter_cons_of_pos (by simpa using hi5), himm, List.map_cons, List.cons_append]
          exact ok.perm.cons _
        · intro y hy
          rw [himm] at hy
          exact List.mem_cons_of_mem _ (ok.imm y hy)
        · rw [himm]
          exact ok.immIds.cons _

theorem mapM_id_map_some (b : Bytes) : (b.map some).mapM (id : Option UInt8 → Option UInt8) = some b := by
  induction b with
  | nil => rfl
  | cons x b ih => rw [List.map_cons, List.mapM_cons, ih]; rfl

theorem mapM_append_some {α β : Type} {g : α → Option β} : ∀ {a b : List α} {r s : List β}, a.mapM g = some r → b.mapM g = some s → (a ++ b).mapM g = some (r ++ s)
  | [], b, r, s, h1, h2 => by cases h1; exact h2
  | x :: a, b, r, s, h1, h2 => by
    obtain ⟨y, r', h3, h4, rfl⟩ := mapM_cons_some h1
    rw [List.cons_append, List.mapM_cons, h3, mapM_append_some h4 h2]
    rfl

theorem adr_items : ∀ {adr : List RxItem} {ys : List (Nat × Bytes)}, (∀ it ∈ adr, it.isImm = false) →
    adr.map (fun it => (it.id, it.data)) = ys.map (fun y => (y.1, y.2.map some)) →
    (adr.filter (fun it => it.id ≠ DESCRIPTOR_ID)).mapM rawOf = some ((ys.filter (fun y => y.1 ≠ DESCRIPTOR_ID)).map adrRaw) ∧
    (adr.filter (fun it => it.id = DESCRIPTOR_ID)).map RxItem.data = (ys.filter (fun y => y.1 = DESCRIPTOR_ID)).map (fun y => y.2.map some)
  | [], [], _, _ => ⟨rfl, rfl⟩
  | [], _ :: _, _, h => by cases h
  | _ :: _, [], _, h => by cases h
  | it :: adr, y :: ys, hi, h => by
    rw [List.map_cons, List.map_cons, List.cons.injEq, Prod.mk.injEq] at h
    obtain ⟨⟨h1, h2⟩, h3⟩ := h
    obtain ⟨r1, r2⟩ := adr_items (fun x hx => hi x (List.mem_cons_of_mem _ hx)) h3
    by_cases h5 : y.1 = DESCRIPTOR_ID
    · have h5' : it.id = DESCRIPTOR_ID := h1.trans h5
      refine ⟨?_, ?_⟩
      · rw [List.filter_cons_of_neg (by simpa using h5'), List.filter_cons_of_neg (by simpa using h5)]
        exact r1
      · rw [List.filter_cons_of_pos (by simpa using h5'), List.filter_cons_of_pos (by simpa using h5), List.map_cons, List.map_cons, r2, h2]
    · have h5' : it.id ≠ DESCRIPTOR_ID := by rw [h1]; exact h5
      refine ⟨?_, ?_⟩
      · rw [List.filter_cons_of_pos (by simpa using h5'), List.filter_cons_of_pos (by simpa using h5), List.mapM_cons, r1, List.map_cons]
        have : rawOf it = some (adrRaw y) := by
          unfold rawOf adrRaw
          rw [h2, mapM_id_map_some, h1, hi it List.mem_cons_self]
          rfl
        rw [this]
        rfl
      · rw [List.filter_cons_of_neg (by simpa using h5'), List.filter_cons_of_neg (by simpa using h5)]
        exact r2

theorem imm_items {w : Nat} : ∀ {imm : List RxItem}, (∀ it ∈ imm, it.isImm = true ∧ it.data = (beBytes w it.value).map some) → (∀ it ∈ imm, it.id ≠ DESCRIPTOR_ID) →
    (imm.filter (fun it => it.id ≠ DESCRIPTOR_ID)).mapM rawOf = some ((imm.map (fun it => (it.id, it.value))).map (immRaw w)) ∧ imm.filter (fun it => it.id = DESCRIPTOR_ID) = []
  | [], _, _ => ⟨rfl, rfl⟩
  | it :: imm, hi, h => by
    obtain ⟨r1, r2⟩ := imm_items (fun x hx => hi x (List.mem_cons_of_mem _ hx)) (fun x hx => h x (List.mem_cons_of_mem _ hx))
    have h5 := h it List.mem_cons_self
    refine ⟨?_, by rw [List.filter_cons_of_neg (by simpa using h5), r2]⟩
    rw [List.filter_cons_of_pos (by simpa using h5), List.mapM_cons, r1, List.map_cons, List.map_cons]
    have : rawOf it = some (immRaw w (it.id, it.value)) := by
      unfold rawOf immRaw
      obtain ⟨h1, h2⟩ := hi it List.mem_cons_self
      rw [h2, mapM_id_map_some, h1]
      rfl
    rw [this]
    rfl

/-- The receiver gets from a heap what was put into it; values perhaps in another order. -/
theorem heap_read {f : Setup} (hw1 : 1 ≤ f.w) (hw7 : f.w ≤ 7) {es : List Entry} {items : List SendItem} {l : List (Nat × Descriptor × Bytes)}
    {rs : List (Nat × RawItem)} (h : Packed f es items l rs) (h6 : ∀ p ∈ valsE es, 6 < p.1) (hn : ((valsE es).map Prod.fst).Nodup) {rx : List RxItem} (ha : Arrived f.w items rx) :
    descsOf f rx = some (descsE es) ∧ ∃ is, itemsOf rx = some is ∧ is.Perm rs := by
  obtain ⟨adr, imm, rfl, a1, a2, a3, a4⟩ := ha
  have hnd : (Spead2.Spec.immediateItems f.w items).Nodup := (hn.sublist h.immIds).of_map
  rw [eraseDups_of_nodup hnd] at a4
  have himm5 : ∀ it ∈ imm, it.id ≠ DESCRIPTOR_ID := by
    intro it hit e
    have h1 : (it.id, it.value) ∈ imm.map (fun it => (it.id, it.value)) := List.mem_map.2 ⟨it, hit, rfl⟩
    have h2 := h.imm _ (a4.mem_iff.1 h1)
    obtain ⟨p, hp, hpe⟩ := List.mem_map.1 h2
    have := h6 p hp
    rw [hpe] at this
    replace this : 6 < it.id := this
    rw [e] at this
    exact absurd this (by decide)
  obtain ⟨r1, r2⟩ := adr_items a1 a2
  obtain ⟨r3, r4⟩ := imm_items a3 himm5
  constructor
  · unfold descsOf
    have hd : getDescriptors f.bc (adr ++ imm) = some (l.map (fun x => Spead2.Spec.receivedDescriptor x.2.1)) := by
      refine C50_roundtrip f.bc (adr ++ imm) l ?_ ?_
      · intro x hx
        obtain ⟨e1, e2, e3, e4⟩ := h.enc x hx
        exact ⟨by rw [e1]; exact hw1, by rw [e1]; exact hw7, e2, e3, e4⟩
      · rw [List.filter_append, r4, List.append_nil, r2, h.descs, List.map_map]
        rfl
    rw [hd]
    simp only []
    rw [← h.back, List.mapM_map]
    rfl
  · have hi : itemsOf (adr ++ imm) = some (((Spead2.Spec.addressedItems f.w items).filter (fun y => y.1 ≠ DESCRIPTOR_ID)).map adrRaw ++
        (imm.map (fun it => (it.id, it.value))).map (immRaw f.w)) := by
      unfold itemsOf
      rw [List.filter_append]
      exact mapM_append_some r1 r3
    exact ⟨_, hi, ((List.Perm.refl _).append (a4.map _)).trans h.perm⟩

/-- And an ideal heap gives the same group. -/
theorem update_refine {f : Setup} (hT : PyDescr.Spec.Faithful f.text) (hw1 : 1 ≤ f.w) (hw7 : f.w ≤ 7) {es : List Entry} {items : List SendItem}
    (hm : es.mapM (pack f) = some items) (hs : Sendable f es) (hd : ∀ p ∈ descsE es, DescOk p.2.2) (hv : ∀ p ∈ valsE es, DescOk p.2.1 ∧ 6 < p.1)
    (hn : ((valsE es).map Prod.fst).Nodup) {rx : List RxItem} (ha : Arrived f.w items rx) {g g' : PyGroup Rest PyValue} (hok : GroupOk g)
    (hu : g.update idealDec ⟨descsE es, valsE es⟩ = some (g', false)) : updateGroup f g rx = some g' := by
  obtain ⟨l, rs, hp⟩ := packed hT hw1 hw7 hm hs hd hv
  obtain ⟨h1, is, h2, h3⟩ := heap_read hw1 hw7 hp (fun p hp => (hv p hp).2) hn ha
  unfold updateGroup
  rw [h1, h2]
  simp only []
  have key : g.update decode ⟨descsE es, is⟩ = some (g', false) := by
    unfold PyGroup.update at hu ⊢
    simp only [Option.map_eq_some_iff] at hu ⊢
    obtain ⟨g1, u1, u2⟩ := hu
    refine ⟨g1, u1, ?_⟩
    obtain ⟨g1', u3, hok1⟩ := updateDescs_total (descsE es) hok
    rw [u1] at u3
    cases u3
    have := updateItems_refine decode hp.vals u2
    refine updateItems_perm decode h3.symm hok1 ?_ this
    have e : rs.map Prod.fst = (valsE es).map Prod.fst := by
      have : ∀ {a : List (Nat × (Rest × PyValue))} {b : List (Nat × RawItem)},
          List.Forall₂ (fun p q => q.1 = p.1 ∧ decode p.2.1 q.2 = some p.2.2) a b → b.map Prod.fst = a.map Prod.fst := by
        intro a b h
        induction h with
        | nil => rfl
        | cons h _ ih => rw [List.map_cons, List.map_cons, ih, h.1]
      exact this hp.vals
    rw [e]
    exact hn
  rw [key]

end Spead2.PyWire
