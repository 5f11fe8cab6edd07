import Verif.BagAttr.Write
/-
Full allocations, new objects, forks.
-/

namespace Verif.BagAttr

/-! ### Full allocations -/

theorem createReadonly_ok {a : Alloc} (ha : a.WF) {values : Slice} (hv : values.WF)
    (hne : values.types ≠ []) (hlen : values.cells.length = a.n) :
    createReadonly a values = .ok { alloc := a, rep := .ro values } ∧
      ({ alloc := a, rep := .ro values } : Dense).WF a ∧
      ∀ i, (Rep.ro values).get i = (values.cells[i]?).getD none := by
  have hcap : values.cells.length ≤ a.capacity := by rw [hlen]; exact ha
  have hgetbeyond : ∀ i, a.n ≤ i → (Rep.ro values).get i = none := by
    intro i hi
    simp only [Rep.get]
    rw [List.getElem?_eq_none (by omega)]
  have hwf : (Rep.ro values).WF a.n := by
    refine ⟨by simp [Rep.size, hlen], ?_, ?_, ?_⟩
    · intro i v hi
      rw [hgetbeyond i hi]; simp
    · intro ty vals mask h; cases h
    · intro s h
      cases h
      exact ⟨hv, hne⟩
  refine ⟨?_, ⟨rfl, hwf, hcap⟩, hwf.get_eq⟩
  unfold createReadonly
  rw [if_neg (by omega)]

theorem Coll.WF.ofConst {a : Alloc} {d : Dense} (h : d.WF a) :
    Coll.WF a { sparse := none, mutDense := none, constDense := some d, lookupParent := false } where
  sparse := by intro s hs; cases hs
  mutd := by intro d hd; cases hd
  const := by
    intro d' hd
    have := Option.some.inj hd
    subst this
    exact ⟨h, rfl⟩

theorem Coll.cell_const (d : Dense) (o : Obj) (up : Cell) :
    Coll.cell { sparse := none, mutDense := none, constDense := some d, lookupParent := false } o up
      = d.get o := by
  simp only [Coll.cell, Option.bind_none, Option.bind_some, Option.none_or]
  cases hd : d.get o <;> simp [hd]

theorem lookupBig_absent (o : Obj) (attr : Attr) (layers : List Layer)
    (h : ∀ l ∈ layers, l.big.get? (o.alloc, attr) = none) : lookupBig o attr layers = none := by
  induction layers with
  | nil => rfl
  | cons l ls ih =>
    rw [lookupBig_cons, h l (by simp)]
    exact ih (fun l hl => h l (List.mem_cons_of_mem _ hl))

/-- The effect of writing an attribute of all objects of an allocation. -/
structure WroteFull (b b' : Bag) (a : Alloc) (attr : Attr) (cells : List Cell) : Prop where
  wf : b'.WF
  frozen : b'.frozen = b.frozen
  parents : b'.parents = b.parents
  id : b'.top.id = b.top.id
  lookup : ∀ o attr', o.Valid → b'.lookup o attr' =
    if o.alloc = a ∧ attr' = attr then ((cells[o.off]?).getD none).or (b.lookup o attr)
    else b.lookup o attr'

/-- The objects of the slow path of `setAttrFullAlloc`. -/
def setIds (a : Alloc) (values : Slice) : List (Option Obj) :=
  values.cells.mapIdx fun i c => if values.tb && c.isNone then none else some ⟨a, i⟩

theorem setIds_get (a : Alloc) (values : Slice) (i : Nat) :
    (setIds a values)[i]? = (values.cells[i]?).map fun c =>
      if values.tb && c.isNone then none else some ⟨a, i⟩ := by
  unfold setIds
  rw [List.getElem?_mapIdx]

theorem setIds_mem {a : Alloc} {values : Slice} {o : Obj} (h : some o ∈ setIds a values) :
    o.alloc = a ∧ o.off < values.cells.length := by
  obtain ⟨i, hi⟩ := List.mem_iff_getElem?.1 h
  rw [setIds_get] at hi
  cases hc : values.cells[i]? with
  | none => rw [hc] at hi; cases hi
  | some c =>
    rw [hc] at hi
    have hlt := (List.getElem?_eq_some_iff.1 hc).1
    simp only [Option.map_some, Option.some.injEq] at hi
    split at hi
    · cases hi
    · have := Option.some.inj hi
      subst this
      exact ⟨rfl, hlt⟩

/-- A list with at most one matching element. -/
theorem filterMap_unique {α β : Type} (l : List α) (f : α → Option β) (i : Nat) (x : α) (y : β)
    (hi : l[i]? = some x) (hf : f x = some y) (hu : ∀ j x', l[j]? = some x' → j ≠ i → f x' = none) :
    l.filterMap f = [y] := by
  induction l generalizing i with
  | nil => cases hi
  | cons z l ih =>
    rw [List.filterMap_cons]
    cases i with
    | zero =>
      rw [List.getElem?_cons_zero] at hi
      have := Option.some.inj hi
      subst this
      rw [hf]
      simp only
      have : l.filterMap f = [] := by
        rw [List.filterMap_eq_nil_iff]
        intro w hw
        obtain ⟨j, hj⟩ := List.mem_iff_getElem?.1 hw
        exact hu (j + 1) w (by rw [List.getElem?_cons_succ]; exact hj) (by omega)
      rw [this]
    | succ i =>
      rw [hu 0 z rfl (by omega)]
      exact ih i (by rw [List.getElem?_cons_succ] at hi; exact hi)
        (fun j x' hj hne => hu (j + 1) x' (by rw [List.getElem?_cons_succ]; exact hj) (by omega))

theorem setIds_writes (a : Alloc) (values : Slice) (hv : values.WF) (o : Obj) (ho : o.alloc = a)
    (hoff : o.off < values.cells.length) :
    writesOf (setIds a values) values o = ((values.cells[o.off]?).getD none).toList := by
  have hzip : ∀ j, ((setIds a values).zip values.cells)[j]? =
      (values.cells[j]?).map fun c : Cell =>
        ((if values.tb && c.isNone then none else some ⟨a, j⟩ : Option Obj), c) := by
    intro j
    rw [List.zip, List.getElem?_zipWith, setIds_get]
    cases values.cells[j]? <;> rfl
  obtain ⟨c, hc⟩ : ∃ c, values.cells[o.off]? = some c := ⟨_, List.getElem?_eq_getElem hoff⟩
  rw [hc, Option.getD_some]
  have hother : ∀ j x', ((setIds a values).zip values.cells)[j]? = some x' → j ≠ o.off →
      (if x'.1 = some o then some (x'.2.getD none) else none) = (none : Option Item) := by
    intro j x' hj hne
    rw [hzip] at hj
    cases hcj : values.cells[j]? with
    | none => rw [hcj] at hj; cases hj
    | some cj =>
      rw [hcj] at hj
      have hj := Option.some.inj hj
      rw [← hj]
      simp only
      rw [if_neg]
      intro he
      split at he
      · cases he
      · have := Option.some.inj he
        rw [← this] at hne
        exact hne rfl
  cases c with
  | none =>
    have htb : values.tb = true := by
      cases htb : values.tb with
      | true => rfl
      | false => exact absurd (List.mem_of_getElem? hc) (hv.noBuffer htb).2
    rw [Option.toList_none]
    unfold writesOf
    rw [List.filterMap_eq_nil_iff]
    intro x hx
    obtain ⟨j, hj⟩ := List.mem_iff_getElem?.1 hx
    by_cases hjo : j = o.off
    · subst hjo
      rw [hzip, hc, htb] at hj
      have hj := Option.some.inj hj
      rw [← hj]
      simp
    · exact hother j x hj hjo
  | some v =>
    rw [Option.toList_some]
    unfold writesOf
    refine filterMap_unique _ _ o.off (some o, some v) v ?_ ?_ hother
    · rw [hzip, hc]
      simp only [Option.map_some, Option.isNone_some, Bool.and_false, Bool.false_eq_true, if_false]
      rw [← ho]
    · simp

theorem setAttrFullAlloc_ok {b : Bag} (h : b.WF) (hf : b.frozen = false) {a : Alloc} (ha : a.WF)
    (attr : Attr) {values : Slice} (hv : values.WF) (hlen : values.cells.length = a.n)
    (hne : values.types ≠ []) :
    ∃ b', setAttrFullAlloc b a attr values = .ok b' ∧ WroteFull b b' a attr values.cells := by
  unfold setAttrFullAlloc
  rw [hf]
  have hemp : values.isEmptyAndUnknown = false := by
    unfold Slice.isEmptyAndUnknown
    cases hx : values.types with
    | nil => exact absurd hx hne
    | cons _ _ => rfl
  simp only [Bool.false_eq_true, if_false, hemp]
  -- the fast path
  have fast : a.isSmall = false → (∀ o : Obj, o.Valid → o.alloc = a →
      (values.cells[o.off]?).getD none = none → b.lookup o attr = none) →
      ∃ b', (do
        let d ← createReadonly a values
        pure (b.setColl a attr
          { sparse := none, mutDense := none, constDense := some d, lookupParent := false })) =
            Except.ok b' ∧ WroteFull b b' a attr values.cells := by
    intro hbig hold
    obtain ⟨e1, e2, e3⟩ := createReadonly_ok ha hv hne hlen
    simp only [e1, bind, Except.bind, pure, Except.pure]
    refine ⟨_, rfl, Bag.setColl_wf h ha hbig attr (Coll.WF.ofConst e2) (by intro h; cases h),
      rfl, rfl, rfl, ?_⟩
    intro o attr' ho
    rw [Bag.setColl_lookup b a hbig]
    by_cases hc : o.alloc = a ∧ attr' = attr
    · rw [if_pos hc, if_pos hc, Coll.cell_const]
      show (Rep.ro values).get o.off = _
      rw [e3]
      cases hx : (values.cells[o.off]?).getD none with
      | some x => rfl
      | none => rw [hold o ho hc.1 hx]; rfl
    · rw [if_neg hc, if_neg hc]
  -- the slow path
  have slow : ∃ b', setAttrSlice b (.objects (setIds a values)
      (if a.isSmall then [] else [a]) a.isSmall) attr values = .ok b' ∧
      WroteFull b b' a attr values.cells := by
    have hi : IdsWF (setIds a values) (if a.isSmall then [] else [a]) a.isSmall := by
      refine ⟨?_, ?_, ?_, ?_, ?_⟩
      · intro o ho
        have := setIds_mem ho
        exact ⟨by rw [this.1]; exact ha, by rw [this.1, ← hlen]; exact this.2⟩
      · intro o ho hs
        have := setIds_mem ho
        rw [this.1] at hs ⊢
        rw [hs]; simp
      · intro o ho hs
        have := setIds_mem ho
        rw [this.1] at hs
        exact hs
      · split <;> simp
      · intro a' ha'
        cases hs : a.isSmall with
        | true => rw [hs] at ha'; cases ha'
        | false =>
          rw [hs] at ha'
          have : a' = a := by simpa using ha'
          rw [this]
          exact ⟨ha, hs⟩
    obtain ⟨b', e1, e2⟩ := setAttrSlice_ok h hf hi attr hv (by simp [setIds])
    refine ⟨b', e1, e2.wf, e2.frozen, e2.parents, e2.id, ?_⟩
    intro o attr' ho
    by_cases hat : attr' = attr
    · subst hat
      have hw := e2.lookup o ho
      by_cases hoa : o.alloc = a
      · rw [if_pos ⟨hoa, rfl⟩]
        have hoff : o.off < values.cells.length := by rw [hlen, ← hoa]; exact ho.off
        rw [setIds_writes a values hv o hoa hoff] at hw
        cases hx : (values.cells[o.off]?).getD none with
        | none => rw [hx] at hw; exact hw.nil
        | some x => rw [hx] at hw; exact hw.single
      · rw [if_neg (fun h' => hoa h'.1)]
        rw [writesOf_nil (fun hm => hoa (setIds_mem hm).1)] at hw
        exact hw.nil
    · rw [if_neg (fun h' => hat h'.2)]
      exact e2.other o attr' ho hat
  have hslow : (setIds a values) = values.cells.mapIdx fun i c =>
      if values.tb && c.isNone then none else some ⟨a, i⟩ := rfl
  rw [hslow] at slow
  cases hs : a.isSmall with
  | true =>
    rw [hs] at slow
    simpa using slow
  | false =>
    rw [hs] at slow
    simp only [Bool.false_eq_true, if_false] at slow ⊢
    cases htb : values.tb with
    | false =>
      simp only [Bool.not_false, if_true]
      refine fast hs ?_
      intro o ho hoa hx
      have hoff : o.off < values.cells.length := by rw [hlen, ← hoa]; exact ho.off
      rw [List.getElem?_eq_getElem hoff, Option.getD_some] at hx
      exact absurd (hx ▸ List.getElem_mem hoff) (hv.noBuffer htb).2
    | true =>
      rw [htb] at slow
      simp only [Bool.not_true, Bool.false_eq_true, if_false]
      by_cases hall : b.layers.all (fun l => (l.big.get? (a, attr)).isNone) = true
      · rw [if_pos hall]
        refine fast hs ?_
        intro o ho hoa _
        rw [Bag.lookup_big (by rw [hoa]; exact hs)]
        apply lookupBig_absent
        intro l hl
        rw [hoa]
        exact Option.isNone_iff_eq_none.1 (List.all_eq_true.1 hall l hl)
      · rw [if_neg hall]
        exact slow

/-! ### Assigning an attribute of a slice -/

theorem unsetToRemoved_cells (s : Slice) (h : s.WF) :
    s.unsetToRemoved.cells = s.cells.map (fun c => some (c.getD none)) := by
  unfold Slice.unsetToRemoved
  cases htb : s.tb with
  | false =>
    simp only [Bool.not_false, if_true]
    have hn := (h.noBuffer htb).2
    apply List.ext_getElem?
    intro i
    rw [List.getElem?_map]
    cases hc : s.cells[i]? with
    | none => rfl
    | some c =>
      cases c with
      | none => exact absurd (List.mem_of_getElem? hc) hn
      | some x => rfl
  | true =>
    simp only [Bool.not_true, Bool.false_eq_true, if_false]
    by_cases ht : s.types.isEmpty = true
    · rw [if_pos ht]
      have hnp := (h.typesNil).1 (List.isEmpty_iff.1 ht)
      apply List.ext_getElem?
      intro i
      simp only [Slice.allRemoved, List.getElem?_map, List.getElem?_replicate]
      cases hc : s.cells[i]? with
      | none =>
        rw [if_neg (by have := List.getElem?_eq_none_iff.1 hc; omega)]
        rfl
      | some c =>
        rw [if_pos ((List.getElem?_eq_some_iff.1 hc).1)]
        match c with
        | none => rfl
        | some none => rfl
        | some (some v) => exact absurd (List.mem_of_getElem? hc) (hnp v)
    · rw [if_neg ht]
      apply List.map_congr_left
      intro c _
      cases c <;> rfl

theorem unsetToRemoved_types (s : Slice) : s.unsetToRemoved.types = s.types := by
  unfold Slice.unsetToRemoved
  split
  · rfl
  · split
    · rename_i h; exact (List.isEmpty_iff.1 h).symm
    · rfl

theorem unsetToRemoved_wf (s : Slice) (h : s.WF) : s.unsetToRemoved.WF := by
  have hc := unsetToRemoved_cells s h
  have ht := unsetToRemoved_types s
  have hmem : ∀ v, some (some v) ∈ s.unsetToRemoved.cells ↔ some (some v) ∈ s.cells := by
    intro v
    rw [hc, List.mem_map]
    constructor
    · rintro ⟨c, h1, h2⟩
      cases c with
      | none => simp at h2
      | some x => simp at h2; rw [h2] at h1; exact h1
    · intro h1; exact ⟨_, h1, rfl⟩
  refine ⟨by rw [ht]; exact h.nodup, ?_, ?_, ?_⟩
  · intro v hv
    rw [ht]
    exact h.mem v ((hmem v).1 hv)
  · intro t htm
    rw [ht] at htm
    obtain ⟨v, h1, h2⟩ := h.used t htm
    exact ⟨v, (hmem v).2 h1, h2⟩
  · intro htb
    constructor
    · rw [ht]
      unfold Slice.unsetToRemoved at htb
      cases hb : s.tb with
      | false => exact (h.noBuffer hb).1
      | true =>
        rw [hb] at htb
        simp only [Bool.not_true, Bool.false_eq_true, if_false] at htb
        split at htb
        · rename_i he; rw [List.isEmpty_iff.1 he]; simp
        · simpa using htb
    · rw [hc]; simp

/-! ### New objects -/

theorem createAllRemoved_wf {a : Alloc} (ha : a.WF) :
    (createAllRemoved a).WF a ∧ ∀ i, i < a.n → (createAllRemoved a).rep.get i = some none := by
  have hget : ∀ i, (Rep.typed unitType (List.replicate a.capacity none) none).get i =
      if i < a.capacity then some none else none := by
    intro i
    simp only [Rep.get, List.getElem?_replicate]
    by_cases hi : i < a.capacity
    · simp [hi]
    · simp [hi]
  refine ⟨⟨rfl, ⟨?_, ?_, ?_, ?_⟩, ?_⟩, ?_⟩
  · have : a.n ≤ a.capacity := ha
    simpa [createAllRemoved, Rep.size] using this
  · intro i v _
    show (Rep.typed unitType (List.replicate a.capacity none) none).get i ≠ _
    rw [hget]
    split <;> simp
  · intro ty vals mask hr
    obtain ⟨rfl, rfl, rfl⟩ := Rep.typed.inj hr
    constructor
    · intro v hv
      have := List.eq_of_mem_replicate hv
      cases this
    · intro m hm; cases hm
  · intro s hr; simp [createAllRemoved] at hr
  · simp [createAllRemoved, Rep.size]
  · intro i hi
    show (Rep.typed unitType (List.replicate a.capacity none) none).get i = _
    rw [hget, if_pos (Nat.lt_of_lt_of_le hi ha)]

/-- The effect of creating objects: the attributes of the new objects, read with
`GetAttr`, are the given ones; nothing else changes. -/
structure Created (b b' : Bag) (a : Alloc) (fields : List (Attr × Slice)) : Prop where
  wf : b'.WF
  frozen : b'.frozen = b.frozen
  parents : b'.parents = b.parents
  id : b'.top.id = b.top.id
  other : ∀ o attr, o.Valid → ¬ (o.alloc = a ∧ attr ∈ fields.map (·.1)) →
    b'.lookup o attr = b.lookup o attr
  fields : ∀ o f, o.Valid → o.alloc = a → f ∈ fields →
    (b'.lookup o f.1).getD none = f.2.item o.off

theorem allObjects_wf {a : Alloc} (ha : a.WF) :
    IdsWF ((List.range a.n).map fun i => some ⟨a, i⟩) (if a.isSmall then [] else [a]) a.isSmall := by
  have hmem : ∀ o, some o ∈ (List.range a.n).map (fun i => (some ⟨a, i⟩ : Option Obj)) →
      o.alloc = a ∧ o.off < a.n := by
    intro o ho
    obtain ⟨i, hi, he⟩ := List.mem_map.1 ho
    have := Option.some.inj he
    subst this
    exact ⟨rfl, List.mem_range.1 hi⟩
  refine ⟨?_, ?_, ?_, ?_, ?_⟩
  · intro o ho
    have := hmem o ho
    exact ⟨by rw [this.1]; exact ha, by rw [this.1]; exact this.2⟩
  · intro o ho hs
    rw [(hmem o ho).1] at hs ⊢
    rw [hs]; simp
  · intro o ho hs
    rw [(hmem o ho).1] at hs
    exact hs
  · split <;> simp
  · intro a' ha'
    cases hs : a.isSmall with
    | true => rw [hs] at ha'; cases ha'
    | false =>
      rw [hs] at ha'
      have : a' = a := by simpa using ha'
      rw [this]
      exact ⟨ha, hs⟩

theorem allObjects_writes (a : Alloc) (values : Slice) (o : Obj) (ho : o.alloc = a)
    (hoff : o.off < a.n) (hlen : values.cells.length = a.n) :
    writesOf ((List.range a.n).map fun i => some ⟨a, i⟩) values o = [values.item o.off] := by
  have hzip : ∀ j, (((List.range a.n).map fun i => (some ⟨a, i⟩ : Option Obj)).zip
      values.cells)[j]? = (values.cells[j]?).map fun c : Cell => ((some ⟨a, j⟩ : Option Obj), c) := by
    intro j
    rw [List.zip, List.getElem?_zipWith, List.getElem?_map]
    by_cases hj : j < a.n
    · rw [List.getElem?_range hj]
      cases values.cells[j]? <;> rfl
    · rw [List.getElem?_eq_none (by simp; omega), List.getElem?_eq_none (by omega)]
      rfl
  unfold writesOf
  obtain ⟨c, hc⟩ : ∃ c, values.cells[o.off]? = some c :=
    ⟨_, List.getElem?_eq_getElem (by omega)⟩
  refine filterMap_unique _ _ o.off (some o, c) _ ?_ ?_ ?_
  · rw [hzip, hc, Option.map_some, ← ho]
  · rw [if_pos rfl]
    unfold Slice.item
    rw [hc]; rfl
  · intro j x' hj hne
    rw [hzip] at hj
    cases hcj : values.cells[j]? with
    | none => rw [hcj] at hj; cases hj
    | some cj =>
      rw [hcj] at hj
      have hj := Option.some.inj hj
      rw [← hj]
      simp only
      rw [if_neg]
      intro he
      have := Option.some.inj he
      rw [← this] at hne
      exact hne rfl

theorem setFields_ok {a : Alloc} (ha : a.WF) (fields : List (Attr × Slice))
    (hnd : (fields.map (·.1)).Nodup)
    (hfl : ∀ f ∈ fields, f.2.WF ∧ f.2.cells.length = a.n) {b : Bag} (h : b.WF)
    (hf : b.frozen = false) :
    ∃ b', createObjects.setFields (allObjects a a.n) fields b = .ok b' ∧ Created b b' a fields := by
  induction fields generalizing b with
  | nil =>
    exact ⟨b, rfl, h, rfl, rfl, rfl, fun _ _ _ _ => rfl, fun _ _ _ _ hm => by cases hm⟩
  | cons f fs ih =>
    rw [List.map_cons, List.nodup_cons] at hnd
    have hff := hfl f (by simp)
    obtain ⟨b1, e1, e2⟩ := setAttrSlice_ok h hf (allObjects_wf ha) f.1 hff.1 (by simp [hff.2])
    obtain ⟨b', g1, g2⟩ := ih hnd.2 (fun f hf => hfl f (List.mem_cons_of_mem _ hf)) e2.wf
      (by rw [e2.frozen, hf])
    refine ⟨b', ?_, g2.wf, by rw [g2.frozen, e2.frozen], by rw [g2.parents, e2.parents],
      by rw [g2.id, e2.id], ?_, ?_⟩
    · rw [createObjects.setFields]
      simp only [allObjects] at e1 g1 ⊢
      simp only [e1, bind, Except.bind, g1]
    · intro o attr ho hne
      rw [g2.other o attr ho (fun h' => hne ⟨h'.1, by simp; exact .inr (by simpa using h'.2)⟩)]
      by_cases hat : attr = f.1
      · have hoa : o.alloc ≠ a := fun h' => hne ⟨h', by simp [hat]⟩
        have hw := e2.lookup o ho
        rw [writesOf_nil] at hw
        · rw [hat]; exact hw.nil
        · intro hm
          obtain ⟨i, _, he⟩ := List.mem_map.1 hm
          have := Option.some.inj he
          rw [← this] at hoa
          exact hoa rfl
      · exact e2.other o attr ho hat
    · intro o f' ho hoa hm
      rcases List.mem_cons.1 hm with he | hm'
      · subst he
        rw [g2.other o f'.1 ho (fun h' => hnd.1 h'.2)]
        have hw := e2.lookup o ho
        rw [allObjects_writes a f'.2 o hoa (by rw [← hoa]; exact ho.off) hff.2] at hw
        rw [hw.single]; rfl
      · exact g2.fields o f' ho hoa hm'

theorem emplaceFields_ok {a : Alloc} (ha : a.WF) (hs : a.isSmall = false)
    (fields : List (Attr × Slice)) (hnd : (fields.map (·.1)).Nodup)
    (hfl : ∀ f ∈ fields, f.2.WF ∧ f.2.cells.length = a.n) {b : Bag} (h : b.WF)
    (hfresh : ∀ attr ∈ fields.map (·.1), b.top.big.get? (a, attr) = none) :
    ∃ b', createObjects.emplaceFields a fields b = .ok b' ∧ Created b b' a fields := by
  induction fields generalizing b with
  | nil =>
    exact ⟨b, rfl, h, rfl, rfl, rfl, fun _ _ _ _ => rfl, fun _ _ _ _ hm => by cases hm⟩
  | cons f fs ih =>
    rw [List.map_cons, List.nodup_cons] at hnd
    have hff := hfl f (by simp)
    -- the new source
    obtain ⟨d, hd1, hd2, hd3⟩ : ∃ d, (if f.2.isEmptyAndUnknown then .ok (createAllRemoved a)
        else createReadonly a f.2) = .ok d ∧ d.WF a ∧
        ∀ o : Obj, o.alloc = a → o.off < a.n → (d.get o).getD none = f.2.item o.off := by
      by_cases he : f.2.isEmptyAndUnknown = true
      · rw [if_pos he]
        have hw := createAllRemoved_wf ha
        refine ⟨_, rfl, hw.1, ?_⟩
        intro o _ hoff
        have hnp := hff.1.typesNil.1 (List.isEmpty_iff.1 he)
        have h1 : (createAllRemoved a).get o = some none := hw.2 o.off hoff
        rw [h1]
        unfold Slice.item
        cases hc : f.2.cells[o.off]? with
        | none => rfl
        | some c =>
          match c with
          | none => rfl
          | some none => rfl
          | some (some v) => exact absurd (List.mem_of_getElem? hc) (hnp v)
      · rw [if_neg he]
        have hne : f.2.types ≠ [] := by
          intro h0
          apply he
          unfold Slice.isEmptyAndUnknown
          rw [h0]; rfl
        obtain ⟨e1, e2, e3⟩ := createReadonly_ok ha hff.1 hne hff.2
        refine ⟨_, e1, e2, ?_⟩
        intro o _ _
        show ((Rep.ro f.2).get o.off).getD none = _
        rw [e3]; rfl
    have hfr : b.top.big.get? (a, f.1) = none := hfresh f.1 (by simp)
    have hwf := Bag.setColl_wf h ha hs f.1 (Coll.WF.ofConst hd2) (by intro h; cases h)
    obtain ⟨b', g1, g2⟩ := ih hnd.2 (fun f hf => hfl f (List.mem_cons_of_mem _ hf)) hwf (by
      intro attr hat
      have hne : (a, attr) ≠ (a, f.1) := by
        intro he
        have : attr = f.1 := congrArg Prod.snd he
        exact hnd.1 (this ▸ hat)
      show (b.top.big.set (a, f.1) _).get? (a, attr) = none
      rw [PyDict.get?_set_ne _ hne]
      exact hfresh attr (List.mem_cons_of_mem _ hat))
    refine ⟨b', ?_, g2.wf, g2.frozen, g2.parents, g2.id, ?_, ?_⟩
    · rw [createObjects.emplaceFields, hd1]
      simp only
      rw [hfr]
      exact g1
    · intro o attr ho hne
      rw [g2.other o attr ho (fun h' => hne ⟨h'.1, List.mem_cons_of_mem _ h'.2⟩),
        Bag.setColl_lookup b a hs, if_neg]
      rintro ⟨h1, h2⟩
      exact hne ⟨h1, by simp [h2]⟩
    · intro o f' ho hoa hm
      rcases List.mem_cons.1 hm with he | hm'
      · subst he
        rw [g2.other o f'.1 ho (fun h' => hnd.1 h'.2), Bag.setColl_lookup b a hs,
          if_pos ⟨hoa, rfl⟩, Coll.cell_const]
        exact hd3 o hoa (by rw [← hoa]; exact ho.off)
      · exact g2.fields o f' ho hoa hm'

theorem createObjects_ok {b : Bag} (h : b.WF) (hf : b.frozen = false) {a : Alloc} (ha : a.WF)
    (hn : 0 < a.n) (fields : List (Attr × Slice)) (hne : fields ≠ [])
    (hnd : (fields.map (·.1)).Nodup)
    (hfl : ∀ f ∈ fields, f.2.WF ∧ f.2.cells.length = a.n)
    (hfresh : ∀ attr ∈ fields.map (·.1), b.top.big.get? (a, attr) = none) :
    ∃ b', createObjects b a fields = .ok (b', allObjects a a.n) ∧ Created b b' a fields := by
  unfold createObjects
  rw [hf]
  simp only [Bool.false_eq_true, if_false]
  match fields, hne with
  | (k, s0) :: fs, _ =>
    have h0 : s0.cells.length = a.n := (hfl (k, s0) (by simp)).2
    simp only
    rw [if_neg, if_neg (by omega), h0]
    · cases hs : a.isSmall with
      | true =>
        simp only [if_true]
        obtain ⟨b', e1, e2⟩ := setFields_ok ha ((k, s0) :: fs) hnd hfl h hf
        rw [e1]
        exact ⟨b', rfl, e2⟩
      | false =>
        simp only [Bool.false_eq_true, if_false]
        obtain ⟨b', e1, e2⟩ := emplaceFields_ok ha hs ((k, s0) :: fs) hnd hfl h hfresh
        rw [e1]
        exact ⟨b', rfl, e2⟩
    · intro hany
      obtain ⟨f, hfm, hx⟩ := List.any_eq_true.1 hany
      rw [(hfl f hfm).2, h0] at hx
      simp at hx

theorem createObjects_mismatch {b : Bag} (hf : b.frozen = false) (a : Alloc)
    {fields : List (Attr × Slice)} {f g : Attr × Slice} (h1 : f ∈ fields) (h2 : g ∈ fields)
    (hne : f.2.cells.length ≠ g.2.cells.length) :
    createObjects b a fields = .error .sizeMismatch := by
  unfold createObjects
  rw [hf]
  simp only [Bool.false_eq_true, if_false]
  match fields, h1 with
  | (k, s0) :: fs, h1 =>
    simp only
    rw [if_pos]
    rw [List.any_eq_true]
    by_cases he : f.2.cells.length = s0.cells.length
    · exact ⟨g, h2, by simp; omega⟩
    · exact ⟨f, h1, by simpa using he⟩

/-- The effect of creating one object. -/
theorem createObject_ok {b : Bag} (h : b.WF) (hf : b.frozen = false) {o : Obj} (ho : o.Valid)
    (hs : o.alloc.isSmall = true) (fields : List (Attr × Item))
    (hnd : (fields.map (·.1)).Nodup) :
    ∃ b', createObject b o fields = .ok b' ∧ b'.WF ∧ b'.frozen = b.frozen ∧
      b'.parents = b.parents ∧ b'.top.id = b.top.id ∧
      (∀ o' attr, o'.Valid → ¬ (o' = o ∧ attr ∈ fields.map (·.1)) →
        b'.lookup o' attr = b.lookup o' attr) ∧
      ∀ f ∈ fields, b'.lookup o f.1 = some f.2 := by
  unfold createObject
  rw [hf]
  simp only [Bool.false_eq_true, if_false]
  refine ⟨_, rfl, ?_⟩
  induction fields generalizing b with
  | nil =>
    exact ⟨h, hf, rfl, rfl, fun _ _ _ _ => rfl, fun _ hm => by cases hm⟩
  | cons f fs ih =>
    rw [List.map_cons, List.nodup_cons] at hnd
    rw [List.foldl_cons]
    obtain ⟨b1, e1, e2⟩ := setAttr_object h hf ho f.1 f.2
    have hb1 : b1 = b.setSmall f.1 ((b.smallSource f.1).set o f.2) := by
      unfold setAttr at e1
      rw [hf] at e1
      simp only [Bool.false_eq_true, if_false, hs, if_true] at e1
      exact (Except.ok.inj e1).symm
    rw [← hb1]
    obtain ⟨g1, g2, g3, g4, g5, g6⟩ := ih e2.wf (by rw [e2.frozen, hf]) hnd.2
    refine ⟨g1, g2, by rw [g3, e2.parents], by rw [g4, e2.id], ?_, ?_⟩
    · intro o' attr ho' hne
      rw [g5 o' attr ho' (fun h' => hne ⟨h'.1, List.mem_cons_of_mem _ h'.2⟩),
        e2.lookup o' attr ho', if_neg]
      rintro ⟨h1, h2⟩
      exact hne ⟨h1, by simp [h2]⟩
    · intro f' hm
      rcases List.mem_cons.1 hm with he | hm'
      · subst he
        rw [g5 o f'.1 ho (fun h' => hnd.1 h'.2), e2.lookup o f'.1 ho, if_pos ⟨rfl, rfl⟩]
      · exact g6 f' hm'

/-! ### Empty bags and forks -/

theorem emptyLayer_wf (id : Nat) : Layer.WF { id := id, small := [], big := [], rest := false } :=
  ⟨by simp [PyDict.keys], by simp [PyDict.keys], (by intro a s h; cases h),
    (by intro a b c h; cases h)⟩

theorem emptyBag_wf (id : Nat) : (emptyBag id).WF :=
  Bag.wf_of (emptyLayer_wf id) (by simp [emptyBag])

theorem emptyBag_lookup (id : Nat) (o : Obj) (attr : Attr) :
    (emptyBag id).lookup o attr = none := by
  unfold Bag.lookup
  split <;> rfl

theorem pristine_skip {l : Layer} (h : l.isPristine = true) (ls : List Layer) (o : Obj)
    (attr : Attr) : lookupSmall o attr (l :: ls) = lookupSmall o attr ls ∧
      lookupBig o attr (l :: ls) = lookupBig o attr ls := by
  unfold Layer.isPristine at h
  have h := Bool.and_eq_true_iff.1 (Bool.and_eq_true_iff.1 h).1
  have h1 : l.big = [] := List.isEmpty_iff.1 h.1
  have h2 : l.small = [] := List.isEmpty_iff.1 h.2
  rw [lookupSmall_cons, lookupBig_cons, h1, h2]
  exact ⟨rfl, rfl⟩

theorem fork_wf {b : Bag} (h : b.WF) (id : Nat) : (b.fork id).WF := by
  refine Bag.wf_of (emptyLayer_wf id) ?_
  unfold Bag.fork
  simp only
  split
  · exact h.parents
  · exact h

theorem fork_lookup (b : Bag) (id : Nat) (o : Obj) (attr : Attr) :
    (b.fork id).lookup o attr = b.lookup o attr := by
  unfold Bag.lookup Bag.fork Bag.layers
  simp only
  have hskip := pristine_skip (l := { id := id, small := [], big := [], rest := false }) rfl
  rw [(hskip _ o attr).1, (hskip _ o attr).2]
  by_cases ht : b.top.isPristine = true
  · rw [if_pos ht, (pristine_skip ht b.parents o attr).1, (pristine_skip ht b.parents o attr).2]
  · rw [if_neg ht]

end Verif.BagAttr
