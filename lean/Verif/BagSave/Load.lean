import Verif.BagSave.Spec
import Verif.BagAttr.Batch
/-
Reading back what was written, chunk by chunk.
-/

namespace Verif.BagSave

open Verif.BagAttr

/-! ### The values a saved bag refers to -/

theorem encodeItems_prefix (es : List (Obj × Item)) (ins : List Input) :
    ins <+: (encodeItems es ins).2 := by
  induction es generalizing ins with
  | nil => exact List.prefix_rfl
  | cons e es ih => exact (List.prefix_append _ _).trans (ih _)

theorem encodeSlices_prefix (es : List (Alloc × Slice)) (ins : List Input) :
    ins <+: (encodeSlices es ins).2 := by
  induction es generalizing ins with
  | nil => exact List.prefix_rfl
  | cons e es ih => exact (List.prefix_append _ _).trans (ih _)

theorem prefix_get {ins ins' : List Input} {x : Input} (h : ins ++ [x] <+: ins') :
    ins'[ins.length]? = some x := by
  obtain ⟨t, rfl⟩ := h
  rw [List.append_assoc, List.getElem?_append_right (Nat.le_refl _), Nat.sub_self]
  rfl

theorem decodeChunks_append (attr : Attr) (ins : List Input) (b : Bag) (cs cs' : List Chunk) :
    decodeChunks attr ins b (cs ++ cs') = match decodeChunks attr ins b cs with
      | .error e => .error e
      | .ok b' => decodeChunks attr ins b' cs' := by
  induction cs generalizing b with
  | nil => rfl
  | cons c cs ih =>
    rw [List.cons_append, decodeChunks, decodeChunks]
    cases decodeChunk attr ins b c with
    | error e => rfl
    | ok b' => exact ih b'

/-! ### One object -/

theorem bind_ok {ε α β : Type} {x : Except ε α} {f : α → Except ε β} {b : β}
    (h : (x >>= f) = .ok b) : ∃ a, x = .ok a ∧ f a = .ok b := by
  cases x with
  | error e => cases h
  | ok a => exact ⟨a, rfl, h⟩

/-- Writing an attribute of an object leaves the other collections alone. -/
theorem setAttr_big {b b' : Bag} {o : Obj} {attr : Attr} {v : Item}
    (h : setAttr b (.object o) attr v = .ok b') (k : Alloc × Attr) (hk : k ≠ (o.alloc, attr)) :
    b'.top.big.get? k = b.top.big.get? k := by
  unfold setAttr at h
  by_cases hf : b.frozen = true
  · rw [if_pos hf] at h; cases h
  · rw [if_neg hf] at h
    simp only at h
    by_cases hs : o.alloc.isSmall = true
    · rw [if_pos hs] at h
      cases h
      rfl
    · rw [if_neg hs] at h
      obtain ⟨c, _, h⟩ := bind_ok h
      obtain ⟨c', _, h⟩ := bind_ok h
      cases h
      exact PyDict.get?_set_ne _ hk _

/-- The state of a bag that is being loaded. -/
structure Loading (b : Bag) : Prop where
  wf : b.WF
  frozen : b.frozen = false
  parents : b.parents = []

theorem loadItems_ok (attr : Attr) (es : List (Obj × Item)) (hnd : (PyDict.keys es).Nodup)
    (hv : ∀ e ∈ es, e.1.Valid) (ins0 ins : List Input) (hp : (encodeItems es ins0).2 <+: ins)
    {b : Bag} (hb : Loading b) :
    ∃ b', decodeChunks attr ins b (encodeItems es ins0).1 = .ok b' ∧ Loading b' ∧
      (∀ a attr', attr' ≠ attr ∨ (∀ e ∈ es, e.1.alloc ≠ a) →
        b'.top.big.get? (a, attr') = b.top.big.get? (a, attr')) ∧
      ∀ (x : Obj) attr', x.Valid → b'.lookup x attr' =
        if attr' = attr then (PyDict.get? es x).or (b.lookup x attr) else b.lookup x attr' := by
  induction es generalizing ins0 b with
  | nil =>
    refine ⟨b, rfl, hb, fun _ _ _ => rfl, ?_⟩
    intro x attr' _
    by_cases h : attr' = attr
    · rw [if_pos h, h]; rfl
    · rw [if_neg h]
  | cons e es ih =>
    have hnd' : (PyDict.keys es).Nodup ∧ e.1 ∉ PyDict.keys es := by
      unfold PyDict.keys at hnd ⊢
      rw [List.map_cons, List.nodup_cons] at hnd
      exact ⟨hnd.2, hnd.1⟩
    have hp' : (encodeItems es (ins0 ++ [.item e.2])).2 <+: ins := hp
    have hget := prefix_get ((encodeItems_prefix es _).trans hp')
    obtain ⟨b1, e1, w1⟩ := setAttr_object hb.wf hb.frozen (hv e List.mem_cons_self) attr e.2
    have hl1 : Loading b1 := ⟨w1.wf, w1.frozen.trans hb.frozen, w1.parents.trans hb.parents⟩
    obtain ⟨b', e2, h2, h3, h4⟩ := ih hnd'.1 (fun e' he => hv e' (List.mem_cons_of_mem _ he))
      (ins0 ++ [.item e.2]) hp' hl1
    refine ⟨b', ?_, h2, ?_, ?_⟩
    · show decodeChunks attr ins b (⟨e.1, ins0.length⟩ :: _) = _
      rw [decodeChunks]
      have : decodeChunk attr ins b ⟨e.1, ins0.length⟩ = .ok b1 := by
        unfold decodeChunk
        simp only
        rw [hget]
        simp only
        rw [e1]
        rfl
      rw [this]
      exact e2
    · intro a attr' hc
      rw [h3 a attr' (hc.imp id fun h e' he => h e' (List.mem_cons_of_mem _ he))]
      refine setAttr_big e1 _ ?_
      intro he
      rcases hc with h | h
      · exact h (congrArg Prod.snd he)
      · exact h e List.mem_cons_self (congrArg Prod.fst he).symm
    · intro x attr' hx
      rw [h4 x attr' hx, w1.lookup x attr' hx, w1.lookup x attr hx]
      by_cases h : attr' = attr
      · rw [if_pos h, if_pos h]
        show _ = (if e.1 = x then some e.2 else PyDict.get? es x).or _
        by_cases he : e.1 = x
        · rw [if_pos he, if_pos ⟨he.symm, rfl⟩, ← he, (PyDict.get?_none_iff _ _).2 hnd'.2]
          rfl
        · rw [if_neg he, if_neg (fun h => he h.1.symm)]
      · rw [if_neg h, if_neg h, if_neg (fun h' => h h'.2)]

/-! ### All objects of an allocation -/

/-- A slice that can be loaded for an allocation. -/
structure Fits (a : Alloc) (s : Slice) : Prop where
  alloc : a.WF
  big : a.isSmall = false
  wf : s.WF
  covers : a.n ≤ s.cells.length
  fits : s.cells.length ≤ a.capacity
  beyond : ∀ i v, a.n ≤ i → s.cells[i]? ≠ some (some (some v))

/-- What a loaded slice says about an object. -/
def sliceCell (s : Slice) (x : Obj) : Cell :=
  if s.types = [] then none else (s.cells[x.off]?).getD none

theorem loadSlice_ok {a : Alloc} {s : Slice} (hs : Fits a s) (attr : Attr) {b : Bag}
    (hb : Loading b) (hfresh : b.top.big.get? (a, attr) = none) :
    ∃ b', setAttrFullAlloc b a attr s = .ok b' ∧ Loading b' ∧
      (∀ k, k ≠ (a, attr) → b'.top.big.get? k = b.top.big.get? k) ∧
      ∀ (x : Obj) attr', b'.lookup x attr' =
        if x.alloc = a ∧ attr' = attr then sliceCell s x else b.lookup x attr' := by
  have hnone : ∀ x : Obj, x.alloc = a → b.lookup x attr = none := by
    intro x hx
    have hsm : x.alloc.isSmall = false := by rw [hx]; exact hs.big
    rw [Bag.lookup_big hsm]
    unfold Bag.layers
    rw [lookupBig_cons, hx, hfresh, hb.parents]
    rfl
  unfold setAttrFullAlloc
  rw [hb.frozen]
  simp only [Bool.false_eq_true, if_false]
  by_cases ht : s.types = []
  · have hem : s.isEmptyAndUnknown = true := by
      unfold Slice.isEmptyAndUnknown; rw [ht]; rfl
    rw [if_pos hem]
    refine ⟨b, rfl, hb, fun _ _ => rfl, ?_⟩
    intro x attr'
    by_cases hc : x.alloc = a ∧ attr' = attr
    · rw [if_pos hc, hc.2, hnone x hc.1]
      unfold sliceCell
      rw [if_pos ht]
    · rw [if_neg hc]
  · have hem : ¬ s.isEmptyAndUnknown = true := by
      unfold Slice.isEmptyAndUnknown
      cases hx : s.types with
      | nil => exact absurd hx ht
      | cons _ _ => simp
    rw [if_neg hem]
    have hnew : (if a.isSmall = true then false
        else if (!s.tb) = true then true
        else b.layers.all fun l => (l.big.get? (a, attr)).isNone) = true := by
      rw [hs.big]
      simp only [Bool.false_eq_true, if_false]
      by_cases htb : (!s.tb) = true
      · rw [if_pos htb]
      · rw [if_neg htb]
        unfold Bag.layers
        rw [hb.parents]
        simp [hfresh]
    rw [if_pos hnew]
    have hcr : createReadonly a s = .ok { alloc := a, rep := .ro s } := by
      unfold createReadonly
      rw [if_neg (by have := hs.fits; omega)]
    rw [hcr]
    have hrep : (Rep.ro s).WF a.n := by
      refine ⟨hs.covers, ?_, ?_, ?_⟩
      · intro i v hi hv
        have h1 := hs.beyond i v hi
        simp only [Rep.get] at hv
        cases hx : s.cells[i]? with
        | none => rw [hx] at hv; simp at hv
        | some c =>
          rw [hx] at hv h1
          apply h1
          cases c with
          | none => split at hv <;> simp_all
          | some w => cases w <;> simp_all
      · intro ty vals mask h; cases h
      · intro s' h
        cases h
        exact ⟨hs.wf, ht⟩
    have hd : ({ alloc := a, rep := .ro s } : Dense).WF a := ⟨rfl, hrep, hs.fits⟩
    refine ⟨_, rfl, ⟨Bag.setColl_wf hb.wf hs.alloc hs.big attr (Coll.WF.ofConst hd)
      (by intro h; cases h), hb.frozen, hb.parents⟩, ?_, ?_⟩
    · intro k hk
      exact PyDict.get?_set_ne _ hk _
    · intro x attr'
      rw [Bag.setColl_lookup b a hs.big]
      by_cases hc : x.alloc = a ∧ attr' = attr
      · rw [if_pos hc, if_pos hc, Coll.cell_const]
        show (Rep.ro s).get x.off = _
        rw [hrep.get_eq]
        unfold sliceCell
        rw [if_neg ht]
        rfl
      · rw [if_neg hc, if_neg hc]

theorem loadSlices_ok (attr : Attr) (es : List (Alloc × Slice)) (hnd : (PyDict.keys es).Nodup)
    (hv : ∀ e ∈ es, Fits e.1 e.2) (ins0 ins : List Input)
    (hp : (encodeSlices es ins0).2 <+: ins) {b : Bag} (hb : Loading b)
    (hfresh : ∀ e ∈ es, b.top.big.get? (e.1, attr) = none) :
    ∃ b', decodeChunks attr ins b (encodeSlices es ins0).1 = .ok b' ∧ Loading b' ∧
      (∀ a attr', attr' ≠ attr → b'.top.big.get? (a, attr') = b.top.big.get? (a, attr')) ∧
      ∀ (x : Obj) attr', b'.lookup x attr' =
        if attr' = attr then ((PyDict.get? es x.alloc).elim (b.lookup x attr) (sliceCell · x))
        else b.lookup x attr' := by
  induction es generalizing ins0 b with
  | nil =>
    refine ⟨b, rfl, hb, fun _ _ _ => rfl, ?_⟩
    intro x attr'
    by_cases h : attr' = attr
    · rw [if_pos h, h]; rfl
    · rw [if_neg h]
  | cons e es ih =>
    have hnd' : (PyDict.keys es).Nodup ∧ e.1 ∉ PyDict.keys es := by
      unfold PyDict.keys at hnd ⊢
      rw [List.map_cons, List.nodup_cons] at hnd
      exact ⟨hnd.2, hnd.1⟩
    have hp' : (encodeSlices es (ins0 ++ [.slice e.2])).2 <+: ins := hp
    have hget := prefix_get ((encodeSlices_prefix es _).trans hp')
    have hfit := hv e List.mem_cons_self
    obtain ⟨b1, e1, l1, k1, w1⟩ := loadSlice_ok hfit attr hb (hfresh e List.mem_cons_self)
    obtain ⟨b', e2, h2, h3, h4⟩ := ih hnd'.1 (fun e' he => hv e' (List.mem_cons_of_mem _ he))
      (ins0 ++ [.slice e.2]) hp' l1 (by
        intro e' he'
        rw [k1]
        · exact hfresh e' (List.mem_cons_of_mem _ he')
        · intro h
          apply hnd'.2
          rw [← congrArg Prod.fst h]
          exact List.mem_map_of_mem he')
    refine ⟨b', ?_, h2, ?_, ?_⟩
    · show decodeChunks attr ins b (⟨⟨e.1, 0⟩, ins0.length⟩ :: _) = _
      rw [decodeChunks]
      have : decodeChunk attr ins b ⟨⟨e.1, 0⟩, ins0.length⟩ = .ok b1 := by
        unfold decodeChunk
        simp only
        rw [hget]
        simp only
        rw [if_neg (by simp), if_neg (by have := hfit.fits; omega), e1]
        rfl
      rw [this]
      exact e2
    · intro a attr' hc
      rw [h3 a attr' hc]
      exact k1 _ (fun h => hc (congrArg Prod.snd h))
    · intro x attr'
      rw [h4 x attr', w1 x attr', w1 x attr]
      by_cases h : attr' = attr
      · rw [if_pos h, if_pos h]
        show _ = (if e.1 = x.alloc then some e.2 else PyDict.get? es x.alloc).elim _ _
        by_cases he : e.1 = x.alloc
        · rw [if_pos he, if_pos ⟨he.symm, rfl⟩, ← he, (PyDict.get?_none_iff _ _).2 hnd'.2]
          rfl
        · rw [if_neg he, if_neg (fun h => he h.1.symm)]
      · rw [if_neg h, if_neg h, if_neg (fun h' => h h'.2)]

/-! ### One attribute -/

/-- Content that can be loaded. -/
structure Content.WF (c : Content) : Prop where
  nodup : (PyDict.keys c.items).Nodup
  valid : ∀ e ∈ c.items, e.1.Valid
  nodupAllocs : (PyDict.keys c.allocs).Nodup
  fits : ∀ e ∈ c.allocs, Fits e.1 e.2
  apart : ∀ e ∈ c.items, ∀ e' ∈ c.allocs, e.1.alloc ≠ e'.1

/-- What content says about an object. -/
def Content.cell (c : Content) (x : Obj) : Cell :=
  (PyDict.get? c.allocs x.alloc).elim (PyDict.get? c.items x) (sliceCell · x)

theorem encodeAttr_prefix (c : Content) (ins : List Input) : ins <+: (encodeAttr c ins).2 :=
  (encodeItems_prefix _ _).trans (encodeSlices_prefix _ _)

theorem loadAttr_ok (attr : Attr) {c : Content} (hc : c.WF) (ins0 ins : List Input)
    (hp : (encodeAttr c ins0).2 <+: ins) {b : Bag} (hb : Loading b)
    (hfresh : ∀ a, b.top.big.get? (a, attr) = none) (hnone : ∀ x, x.Valid → b.lookup x attr = none) :
    ∃ b', decodeChunks attr ins b (encodeAttr c ins0).1 = .ok b' ∧ Loading b' ∧
      (∀ a attr', attr' ≠ attr → b'.top.big.get? (a, attr') = b.top.big.get? (a, attr')) ∧
      ∀ (x : Obj) attr', x.Valid → b'.lookup x attr' =
        if attr' = attr then c.cell x else b.lookup x attr' := by
  obtain ⟨b1, e1, l1, k1, w1⟩ := loadItems_ok attr c.items hc.nodup hc.valid ins0 ins
    ((encodeSlices_prefix _ _).trans hp) hb
  obtain ⟨b2, e2, l2, k2, w2⟩ := loadSlices_ok attr c.allocs hc.nodupAllocs hc.fits
    (encodeItems c.items ins0).2 ins hp l1 (by
      intro e he
      rw [k1 e.1 attr (.inr fun e' he' => hc.apart e' he' e he)]
      exact hfresh e.1)
  refine ⟨b2, ?_, l2, ?_, ?_⟩
  · show decodeChunks attr ins b ((encodeItems c.items ins0).1 ++
      (encodeSlices c.allocs (encodeItems c.items ins0).2).1) = _
    rw [decodeChunks_append, e1]
    exact e2
  · intro a attr' hne
    rw [k2 a attr' hne, k1 a attr' (.inl hne)]
  · intro x attr' hx
    rw [w2 x attr', w1 x attr' hx, w1 x attr hx]
    by_cases h : attr' = attr
    · rw [if_pos h, if_pos h, if_pos rfl, hnone x hx, Option.or_none]
      rfl
    · rw [if_neg h, if_neg h, if_neg h]

/-! ### All attributes -/

theorem encodeAttrs_prefix (K : Order) (layers : List Layer) (es : List (Attr × AttrIndex))
    (ins : List Input) : ins <+: (encodeAttrs K layers es ins).inputs := by
  induction es generalizing ins with
  | nil => exact List.prefix_rfl
  | cons e es ih => exact (encodeAttr_prefix _ _).trans (ih _)

theorem loadAttrs_ok (K : Order) (layers : List Layer) (es : List (Attr × AttrIndex))
    (hnd : (PyDict.keys es).Nodup) (hwf : ∀ e ∈ es, (extractAttr K layers e.1 e.2).WF)
    (ins0 ins : List Input) (hp : (encodeAttrs K layers es ins0).inputs <+: ins)
    {b : Bag} (hb : Loading b)
    (hfresh : ∀ e ∈ es, (∀ a, b.top.big.get? (a, e.1) = none) ∧
      ∀ x, x.Valid → b.lookup x e.1 = none) :
    ∃ b', decodeAttrs ins b (encodeAttrs K layers es ins0).attrs = .ok b' ∧ Loading b' ∧
      ∀ (x : Obj) attr, x.Valid → b'.lookup x attr =
        (PyDict.get? es attr).elim (b.lookup x attr)
          fun i => (extractAttr K layers attr i).cell x := by
  induction es generalizing ins0 b with
  | nil => exact ⟨b, rfl, hb, fun _ _ _ => rfl⟩
  | cons e es ih =>
    have hnd' : (PyDict.keys es).Nodup ∧ e.1 ∉ PyDict.keys es := by
      unfold PyDict.keys at hnd ⊢
      rw [List.map_cons, List.nodup_cons] at hnd
      exact ⟨hnd.2, hnd.1⟩
    have hp' : (encodeAttrs K layers es
        (encodeAttr (extractAttr K layers e.1 e.2) ins0).2).inputs <+: ins := hp
    have hf := hfresh e List.mem_cons_self
    obtain ⟨b1, e1, l1, k1, w1⟩ := loadAttr_ok e.1 (hwf e List.mem_cons_self) ins0 ins
      ((encodeAttrs_prefix K layers es _).trans hp') hb hf.1 hf.2
    have hne : ∀ e' ∈ es, e'.1 ≠ e.1 := by
      intro e' he' h
      apply hnd'.2
      rw [← h]
      exact List.mem_map_of_mem he'
    obtain ⟨b', e2, l2, w2⟩ := ih hnd'.1 (fun e' he => hwf e' (List.mem_cons_of_mem _ he))
      _ hp' l1 (by
        intro e' he'
        have hf' := hfresh e' (List.mem_cons_of_mem _ he')
        refine ⟨fun a => (k1 a _ (hne e' he')).trans (hf'.1 a), fun x hx => ?_⟩
        rw [w1 x _ hx, if_neg (hne e' he')]
        exact hf'.2 x hx)
    refine ⟨b', ?_, l2, ?_⟩
    · show decodeAttrs ins b ((e.1, _) :: _) = _
      rw [decodeAttrs, e1]
      exact e2
    · intro x attr hx
      rw [w2 x attr hx, w1 x attr hx]
      show _ = (if e.1 = attr then some e.2 else PyDict.get? es attr).elim _ _
      by_cases he : e.1 = attr
      · rw [if_pos he, if_pos he.symm, ← he, (PyDict.get?_none_iff _ _).2 hnd'.2]
        rfl
      · rw [if_neg he, if_neg (fun h => he h.symm)]

end Verif.BagSave
