import Verif.BagAttr.DenseSet
/-
Sparse sources, collections of sources, and looking up one object.
-/

namespace Verif.BagAttr

/-! ### Sparse sources -/

theorem Sparse.get_set {s : Sparse} {o : Obj} (h : s.belongs o = true) (v : Item) (o' : Obj) :
    (s.set o v).get o' = if o' = o then some v else s.get o' := by
  unfold Sparse.set Sparse.get
  rw [if_pos h]
  by_cases ho : o' = o
  · rw [if_pos ho, ho]; exact PyDict.get?_set_self _ _ _
  · rw [if_neg ho]; exact PyDict.get?_set_ne _ ho _

theorem Sparse.belongs_set (s : Sparse) (o : Obj) (v : Item) (o' : Obj) :
    (s.set o v).belongs o' = s.belongs o' := by
  unfold Sparse.set
  split <;> rfl

theorem Sparse.WF.set {al : Option Alloc} {s : Sparse} (h : s.WF al) {o : Obj} (ho : o.Valid)
    (v : Item) : (s.set o v).WF al := by
  unfold Sparse.set
  by_cases hb : s.belongs o = true
  · rw [if_pos hb]
    refine ⟨h.alloc, PyDict.nodup_set h.nodup o v, ?_⟩
    intro o' ho'
    have hk := (PyDict.get?_isSome_iff _ _).2 ho'
    by_cases he : o' = o
    · subst he
      exact ⟨hb, ho⟩
    · rw [PyDict.get?_set_ne _ he] at hk
      exact h.keys o' ((PyDict.get?_isSome_iff _ _).1 hk)
  · rw [if_neg hb]; exact h

theorem Sparse.WF.get_valid {al : Option Alloc} {s : Sparse} (h : s.WF al) {o : Obj}
    (hg : s.get o ≠ none) : s.belongs o = true ∧ o.Valid := by
  refine h.keys o ((PyDict.get?_isSome_iff _ _).1 ?_)
  unfold Sparse.get at hg
  cases hx : s.map.get? o with
  | none => exact absurd hx hg
  | some x => rfl

theorem Sparse.WF.belongs_some {a : Alloc} {s : Sparse} (h : s.WF (some a)) (o : Obj) :
    s.belongs o = true ↔ o.alloc = a := by
  unfold Sparse.belongs
  rw [h.alloc]
  simp

theorem Sparse.WF.belongs_none {s : Sparse} (h : s.WF none) (o : Obj) :
    s.belongs o = o.alloc.isSmall := by
  unfold Sparse.belongs
  rw [h.alloc]

/-- The loop of a batch write to a sparse source. -/
theorem Sparse.foldl_set {al : Option Alloc} (ps : List (Option Obj × Cell)) {s : Sparse}
    (h : s.WF al) (hv : ∀ o c, (some o, c) ∈ ps → o.Valid) :
    let s' := ps.foldl (fun s p =>
      match p.1 with
      | some o => s.set o (p.2.getD none)
      | none => s) s
    s'.WF al ∧ (∀ o, s'.belongs o = s.belongs o) ∧ ∀ o, s.belongs o = true →
      s'.get o = match (ps.filterMap fun p => if p.1 = some o then some (p.2.getD none)
          else none).getLast? with
        | none => s.get o
        | some v => some v := by
  induction ps generalizing s with
  | nil => exact ⟨h, fun _ => rfl, fun _ _ => rfl⟩
  | cons p ps ih =>
    obtain ⟨oo, c⟩ := p
    simp only [List.foldl_cons]
    cases oo with
    | none =>
      have := ih h (fun o c hm => hv o c (List.mem_cons_of_mem _ hm))
      refine ⟨this.1, this.2.1, fun o ho => ?_⟩
      rw [this.2.2 o ho]
      simp
    | some o1 =>
      simp only []
      have hval := hv o1 c (by simp)
      have := ih (h.set hval (c.getD none)) (fun o c hm => hv o c (List.mem_cons_of_mem _ hm))
      refine ⟨this.1, fun o => by rw [this.2.1, Sparse.belongs_set], fun o ho => ?_⟩
      rw [this.2.2 o (by rw [Sparse.belongs_set]; exact ho)]
      rw [List.filterMap_cons]
      by_cases he : o1 = o
      · subst he
        simp only [if_true]
        rw [getLast?_cons_getD, Sparse.get_set ho]
        cases (ps.filterMap _).getLast? with
        | none => simp
        | some v => rfl
      · have hne : ¬ ((some o1 : Option Obj) = some o) := fun h' => he (Option.some.inj h')
        simp only [if_neg hne]
        have : (s.set o1 (c.getD none)).get o = s.get o := by
          by_cases hb : s.belongs o1 = true
          · rw [Sparse.get_set hb, if_neg (fun h' => he h'.symm)]
          · unfold Sparse.set
            rw [if_neg hb]
        rw [this]

theorem Sparse.WF.setMany_ok {al : Option Alloc} {s : Sparse} (h : s.WF al)
    (ids : List (Option Obj)) (hids : ∀ o, some o ∈ ids → o.Valid) (values : Slice)
    (hlen : ids.length = values.cells.length) :
    ∃ s', s.setMany ids values = .ok s' ∧ s'.WF al ∧ ∀ o, s.belongs o = true →
      s'.get o = match (writesOf ids values o).getLast? with
        | none => s.get o
        | some v => some v := by
  have := Sparse.foldl_set (ids.zip values.cells) h (fun o c hm => hids o (List.of_mem_zip hm).1)
  refine ⟨_, if_neg (by simp [hlen]), this.1, this.2.2⟩

theorem written_of_last (values : Slice) (ws : List Item) (old new : Cell)
    (h : new = match ws.getLast? with
      | none => old
      | some v => some v) : Written values ws old new := by
  constructor
  · intro hn; rw [hn] at h; exact h
  · intro last hl
    rw [hl] at h
    exact ⟨⟨last, List.mem_of_getLast? hl, h⟩, fun _ => h⟩

theorem Written.single {values : Slice} {v : Item} {old new : Cell}
    (h : Written values [v] old new) : new = some v := by
  refine (h.2 v rfl).2 ?_
  cases v with
  | none => exact .inr (.inl rfl)
  | some x => exact .inr (.inr ⟨x.ty, by simp⟩)

theorem Written.nil {values : Slice} {old new : Cell} (h : Written values [] old new) :
    new = old := h.1 rfl

theorem Sparse.setMany_mismatch (s : Sparse) (ids : List (Option Obj)) (values : Slice)
    (hlen : ids.length ≠ values.cells.length) :
    s.setMany ids values = .error .sizeMismatch := by
  unfold Sparse.setMany
  rw [if_pos hlen]

/-! ### Collections -/

/-- What a collection says about an object, given what the layers below say. -/
def Coll.cell (c : Coll) (o : Obj) (up : Cell) : Cell :=
  (c.sparse.bind (·.get o)).or ((c.mutDense.bind (·.get o)).or
    ((c.constDense.bind (·.get o)).or (if c.lookupParent then up else none)))

theorem lookupBig_cons (o : Obj) (attr : Attr) (l : Layer) (ls : List Layer) :
    lookupBig o attr (l :: ls) = match l.big.get? (o.alloc, attr) with
      | none => lookupBig o attr ls
      | some c => c.cell o (lookupBig o attr ls) := by
  rw [lookupBig]
  cases l.big.get? (o.alloc, attr) with
  | none => rfl
  | some c =>
    simp only [Coll.cell]
    cases c.sparse.bind (·.get o) with
    | some x => rfl
    | none =>
      simp only [Option.none_or]
      cases c.mutDense.bind (·.get o) with
      | some x => rfl
      | none =>
        simp only [Option.none_or]
        cases c.constDense.bind (·.get o) with
        | some x => rfl
        | none => rfl

/-- What a list of sources says about an object. -/
def cellOf (srcs : List Dense × List Sparse) (o : Obj) : Cell :=
  (srcs.2.findSome? (·.get o)).or (srcs.1.findSome? (·.get o))

theorem findSome_toList {α β : Type} (x : Option α) (f : α → Option β) :
    x.toList.findSome? f = x.bind f := by
  cases x with
  | none => rfl
  | some a =>
    simp only [Option.toList_some, List.findSome?_cons, List.findSome?_nil, Option.bind_some]
    cases f a <;> rfl

theorem bigSources_cell (o : Obj) (attr : Attr) (layers : List Layer) (size : Nat)
    (h : ∀ l ∈ layers, l.WF) :
    cellOf (bigSources o.alloc attr layers size).2 o = lookupBig o attr layers := by
  induction layers with
  | nil => rfl
  | cons l ls ih =>
    have ih := ih (fun l hl => h l (List.mem_cons_of_mem _ hl))
    rw [lookupBig_cons, bigSources]
    cases hg : l.big.get? (o.alloc, attr) with
    | none => exact ih
    | some c =>
      have hc := ((h l (by simp)).big _ _ _ hg).2.2.1
      simp only []
      obtain ⟨sp, md, cd, lp⟩ := c
      have hone : ∀ d : Dense, [d].findSome? (·.get o) = d.get o := by
        intro d
        simp only [List.findSome?_cons, List.findSome?_nil]
        cases d.get o <;> rfl
      cases md with
      | some d =>
        have := hc.mutd d rfl
        simp only at this
        rw [this.2.2.1, this.2.2.2.1, this.2.2.2.2]
        simp only [Coll.cell, cellOf, findSome_toList, hone]
        cases hdo : d.get o <;> simp [hdo]
      | none =>
        cases cd with
        | some d =>
          have := (hc.const d rfl).2
          simp only at this
          rw [this]
          simp only [Coll.cell, cellOf, findSome_toList, hone]
          cases hdo : d.get o <;> simp [hdo]
        | none =>
          cases lp with
          | false =>
            simp [Coll.cell, cellOf, findSome_toList]
          | true =>
            simp only [if_true]
            rw [← ih]
            simp only [Coll.cell, cellOf, List.findSome?_append, findSome_toList, if_true,
              Option.bind_none, Option.none_or, Option.or_assoc]

/-- The sources of a big allocation are well formed, and there is at most one dense
one. -/
theorem bigSources_wf (a : Alloc) (attr : Attr) (layers : List Layer) (size : Nat)
    (h : ∀ l ∈ layers, l.WF) :
    (∀ d ∈ (bigSources a attr layers size).2.1, d.WF a) ∧
    (∀ s ∈ (bigSources a attr layers size).2.2, s.WF (some a)) ∧
    (bigSources a attr layers size).2.1.length ≤ 1 := by
  induction layers with
  | nil => simp [bigSources]
  | cons l ls ih =>
    have ih := ih (fun l hl => h l (List.mem_cons_of_mem _ hl))
    rw [bigSources]
    cases hg : l.big.get? (a, attr) with
    | none => exact ih
    | some c =>
      have hc := ((h l (by simp)).big _ _ _ hg).2.2.1
      simp only []
      have hsp : ∀ s ∈ c.sparse.toList, s.WF (some a) := by
        intro s hs
        exact hc.sparse s (Option.mem_toList.1 hs)
      cases hm : c.mutDense with
      | some d =>
        refine ⟨?_, hsp, by simp⟩
        simp; exact (hc.mutd d hm).1
      | none =>
        cases hcd : c.constDense with
        | some d =>
          refine ⟨?_, hsp, by simp⟩
          simp; exact (hc.const d hcd).1
        | none =>
          simp only []
          split
          · refine ⟨ih.1, ?_, ih.2.2⟩
            intro s hs
            rcases List.mem_append.1 hs with h1 | h1
            · exact hsp s h1
            · exact ih.2.1 s h1
          · exact ⟨by simp, hsp, by simp⟩

theorem dataSources_big {a : Alloc} (ha : a.isSmall = false) (attr : Attr) (layers : List Layer) :
    dataSources a attr layers = bigSources a attr layers a.capacity := by
  unfold dataSources
  rw [ha]
  rfl

/-! ### Small allocations -/

theorem smallSources_cell (o : Obj) (attr : Attr) (layers : List Layer) :
    (smallSources attr layers).findSome? (·.get o) = lookupSmall o attr layers := by
  induction layers with
  | nil => rfl
  | cons l ls ih =>
    unfold smallSources at ih ⊢
    rw [List.filterMap_cons, lookupSmall]
    cases l.small.get? attr with
    | none => exact ih
    | some s =>
      simp only [List.findSome?_cons]
      cases s.get o with
      | some x => rfl
      | none => exact ih

theorem smallSources_wf (attr : Attr) (layers : List Layer) (h : ∀ l ∈ layers, l.WF) :
    ∀ s ∈ smallSources attr layers, s.WF none := by
  intro s hs
  unfold smallSources at hs
  obtain ⟨l, hl, hg⟩ := List.mem_filterMap.1 hs
  exact (h l hl).small attr s hg

/-! ### Merging sparse entries -/

theorem findSome_cons_or {α β : Type} (f : α → Option β) (x : α) (l : List α) :
    (x :: l).findSome? f = (f x).or (l.findSome? f) := by
  rw [List.findSome?_cons]
  cases f x <;> rfl

theorem get?_filter (d : PyDict Obj Item) (p : Obj → Bool) (o : Obj) :
    PyDict.get? (d.filter fun e => p e.1) o = if p o then PyDict.get? d o else none := by
  induction d with
  | nil => simp [PyDict.get?]
  | cons e d ih =>
    rw [List.filter_cons]
    by_cases hp : p e.1 = true
    · rw [if_pos hp]
      show (if e.1 = o then some e.2 else PyDict.get? (d.filter fun e => p e.1) o) =
        if p o then (if e.1 = o then some e.2 else PyDict.get? d o) else none
      by_cases he : e.1 = o
      · rw [if_pos he, if_pos he, ← he, if_pos hp]
      · rw [if_neg he, if_neg he, ih]
    · rw [if_neg hp, ih]
      show _ = if p o then (if e.1 = o then some e.2 else PyDict.get? d o) else none
      by_cases he : e.1 = o
      · rw [← he, if_neg hp, if_neg hp]
      · rw [if_neg he]

theorem get?_append (d d' : PyDict Obj Item) (o : Obj) :
    PyDict.get? (d ++ d') o = (PyDict.get? d o).or (PyDict.get? d' o) := by
  induction d with
  | nil => rfl
  | cons e d ih =>
    show (if e.1 = o then some e.2 else PyDict.get? (d ++ d') o) =
      (if e.1 = o then some e.2 else PyDict.get? d o).or (PyDict.get? d' o)
    by_cases he : e.1 = o
    · rw [if_pos he, if_pos he]; rfl
    · rw [if_neg he, if_neg he, ih]

theorem mergedEntries_get (ss : List Sparse) (o : Obj) :
    PyDict.get? (mergedEntries ss) o = ss.findSome? (·.get o) := by
  induction ss with
  | nil => rfl
  | cons s ss ih =>
    have hf := get?_filter (mergedEntries ss) (fun o => (s.map.get? o).isNone) o
    rw [mergedEntries, get?_append, findSome_cons_or, hf, ih]
    show (s.get o).or _ = _
    cases hs : s.get o with
    | some x => rfl
    | none =>
      have : (s.map.get? o).isNone = true := by
        unfold Sparse.get at hs
        rw [hs]; rfl
      rw [if_pos this]

theorem mergedEntries_nodup (ss : List Sparse) (h : ∀ s ∈ ss, s.map.keys.Nodup) :
    (mergedEntries ss).keys.Nodup := by
  induction ss with
  | nil => simp [mergedEntries, PyDict.keys]
  | cons s ss ih =>
    have ih := ih (fun s hs => h s (List.mem_cons_of_mem _ hs))
    unfold mergedEntries PyDict.keys
    rw [List.map_append, List.nodup_append]
    refine ⟨h s (by simp), ?_, ?_⟩
    · exact List.Sublist.nodup (List.Sublist.map _ List.filter_sublist) ih
    · intro o ho o' ho' he
      subst he
      obtain ⟨e, he, rfl⟩ := List.mem_map.1 ho'
      have h2 := (List.mem_filter.1 he).2
      have h3 := (PyDict.get?_isSome_iff s.map e.1).2 ho
      cases hx : s.map.get? e.1 with
      | none => rw [hx] at h3; cases h3
      | some x => rw [hx] at h2; cases h2

theorem writesOf_entries (es : PyDict Obj Item) (h : es.keys.Nodup) (s : Slice)
    (hs : s.cells = es.map (fun e => some e.2)) (o : Obj) :
    writesOf (es.map (fun e => some e.1)) s o = (es.get? o).toList := by
  unfold writesOf
  rw [hs]
  clear hs
  induction es with
  | nil => rfl
  | cons e es ih =>
    have hn : (PyDict.keys es).Nodup := by
      unfold PyDict.keys at h ⊢
      rw [List.map_cons, List.nodup_cons] at h
      exact h.2
    have hne : e.1 ∉ PyDict.keys es := by
      unfold PyDict.keys at h ⊢
      rw [List.map_cons, List.nodup_cons] at h
      exact h.1
    rw [List.map_cons, List.map_cons, List.zip_cons_cons, List.filterMap_cons, ih hn]
    show _ = (if e.1 = o then some e.2 else PyDict.get? es o).toList
    by_cases he : e.1 = o
    · rw [if_pos he, if_pos (by rw [he])]
      have : PyDict.get? es o = none := by
        rw [PyDict.get?_none_iff, ← he]; exact hne
      rw [this]
      rfl
    · rw [if_neg he, if_neg (fun h' => he (Option.some.inj h'))]

theorem findSome_valid {al : Option Alloc} {ss : List Sparse} (h : ∀ s ∈ ss, s.WF al) {o : Obj}
    {x : Item} (hx : ss.findSome? (·.get o) = some x) :
    o.Valid ∧ ∃ s ∈ ss, s.belongs o = true := by
  obtain ⟨s, hs, hg⟩ := List.exists_of_findSome?_eq_some hx
  have := (h s hs).get_valid (o := o) (by rw [hg]; simp)
  exact ⟨this.2, s, hs, this.1⟩

/-! ### Making a source dense -/

theorem dense_getD {ds : List Dense} (h : ds.length ≤ 1) (o : Obj) :
    ds.findSome? (·.get o) = (ds.head?).bind (·.get o) := by
  match ds, h with
  | [], _ => rfl
  | [d], _ =>
    simp only [List.findSome?_cons, List.findSome?_nil, List.head?_cons, Option.bind_some]
    cases d.get o <;> rfl

/-- `createMutableDense` replaces a collection by one dense source with the same
contents. -/
theorem createMutableDense_ok (parents : List Layer) (hp : ∀ l ∈ parents, l.WF) (c : Coll)
    (a : Alloc) (attr : Attr) (ty : Option Nat) (size : Nat) (hc : c.WF a)
    (hm : c.mutDense = none) (ha : a.isSmall = false) (h1 : a.n ≤ size) (h2 : size ≤ a.capacity) :
    ∃ d, createMutableDense parents c a attr ty size =
        .ok { sparse := none, mutDense := some d, constDense := none, lookupParent := false } ∧
      d.WF a ∧ d.rep.isMutable = true ∧
      ∀ o : Obj, o.alloc = a → o.off < a.n → d.get o = c.cell o (lookupBig o attr parents) := by
  unfold createMutableDense
  by_cases hcase : (c.constDense.isSome && c.sparse.isNone) = true
  · rw [if_pos hcase]
    have hcs := Bool.and_eq_true_iff.1 hcase
    obtain ⟨d0, hd0⟩ := Option.isSome_iff_exists.1 hcs.1
    have hsp : c.sparse = none := Option.isNone_iff_eq_none.1 hcs.2
    have hw := hc.const d0 hd0
    refine ⟨d0.copy, ?_, ⟨hw.1.alloc, hw.1.rep.copy, ?_⟩,
      Rep.copy_mutable _, ?_⟩
    · obtain ⟨sp, md, cd, lp⟩ := c
      simp only at hd0 hsp hw hm
      simp only [hd0, hsp, hw.2, Option.map_some]
    · have hsz : d0.rep.mutableCopy.size = d0.rep.size := by
        rw [← hw.1.rep.copy.cellsLen, ← hw.1.rep.cellsLen, hw.1.rep.copy_cells]
      show d0.rep.mutableCopy.size ≤ _
      rw [hsz]; exact hw.1.size
    · intro o ho hoff
      simp only [Coll.cell, hsp, hm, hd0, hw.2, Option.bind_none, Option.bind_some]
      show d0.rep.mutableCopy.get o.off = _
      rw [hw.1.rep.copy.get_eq, hw.1.rep.copy_cells, ← hw.1.rep.get_eq]
      show d0.get o = _
      cases d0.get o <;> rfl
  · rw [if_neg hcase]
    simp only []
    -- the sparse sources
    have hup := bigSources_wf a attr parents a.capacity hp
    have hupd : ∃ up : List Dense × List Sparse,
        (if c.lookupParent = true then (dataSources a attr parents).2 else ([], [])) = up ∧
        (∀ d ∈ up.1, d.WF a) ∧ (∀ s ∈ up.2, s.WF (some a)) ∧ up.1.length ≤ 1 ∧
        (c.constDense.isSome = true → up = ([], [])) ∧
        (∀ o : Obj, o.alloc = a → cellOf up o =
          if c.lookupParent then lookupBig o attr parents else none) := by
      refine ⟨_, rfl, ?_⟩
      cases hl : c.lookupParent with
      | false =>
        simp only [Bool.false_eq_true, if_false]
        exact ⟨by simp, by simp, by simp, fun _ => trivial, fun _ _ => rfl⟩
      | true =>
        simp only [if_true]
        rw [dataSources_big ha]
        refine ⟨hup.1, hup.2.1, hup.2.2, ?_, ?_⟩
        · intro hcd
          obtain ⟨d0, hd0⟩ := Option.isSome_iff_exists.1 hcd
          have := (hc.const d0 hd0).2
          rw [hl] at this; cases this
        · intro o ho
          subst ho
          exact bigSources_cell o attr parents _ hp
    obtain ⟨up, hupe, hw1, hw2, hw3, hw4, hw5⟩ := hupd
    rw [hupe]
    -- the dense base
    have hbase : ∃ base : Dense, (((up.1.head?.map Dense.copy).or
          (c.constDense.map Dense.copy)).getD (createMutable a size ty)) = base ∧
        base.WF a ∧ base.rep.isMutable = true ∧
        ∀ o : Obj, o.alloc = a → o.off < a.n → base.get o =
          (c.constDense.bind (·.get o)).or (up.1.findSome? (·.get o)) := by
      refine ⟨_, rfl, ?_⟩
      have hcopy : ∀ d : Dense, d.WF a →
          d.copy.WF a ∧ d.copy.rep.isMutable = true ∧ ∀ o, d.copy.get o = d.get o := by
        intro d hd
        refine ⟨⟨hd.alloc, hd.rep.copy, ?_⟩, Rep.copy_mutable _, fun o => ?_⟩
        · have hsz : d.rep.mutableCopy.size = d.rep.size := by
            rw [← hd.rep.copy.cellsLen, ← hd.rep.cellsLen, hd.rep.copy_cells]
          show d.rep.mutableCopy.size ≤ _
          rw [hsz]; exact hd.size
        · show d.rep.mutableCopy.get o.off = d.rep.get o.off
          rw [hd.rep.copy.get_eq, hd.rep.copy_cells, ← hd.rep.get_eq]
      cases hu : up.1 with
      | cons d ds =>
        have hd := hcopy d (hw1 d (by rw [hu]; simp))
        have hcd : c.constDense = none := by
          cases hcd : c.constDense with
          | none => rfl
          | some d0 =>
            have := hw4 (by rw [hcd]; rfl)
            rw [this] at hu
            cases hu
        refine ⟨hd.1, hd.2.1, ?_⟩
        intro o _ _
        have hds : ds = [] := by
          rw [hu] at hw3
          simp at hw3
          exact hw3
        rw [hds, hcd]
        simp only [Option.bind_none, List.findSome?_cons, List.findSome?_nil, List.head?_cons,
          Option.map_some, Option.some_or, Option.getD_some]
        rw [hd.2.2]
        cases d.get o <;> rfl
      | nil =>
        cases hcd : c.constDense with
        | none =>
          have := createMutable_wf a size ty h1 h2
          exact ⟨this.1, this.2.1, fun o _ _ => this.2.2 o.off⟩
        | some d0 =>
          have hd := hcopy d0 (hc.const d0 hcd).1
          refine ⟨hd.1, hd.2.1, ?_⟩
          intro o _ _
          simp only [Option.map_some, Option.getD_some, Option.bind_some, List.findSome?_nil,
            List.head?_nil, Option.map_none, Option.none_or]
          rw [hd.2.2]
          cases d0.get o <;> rfl
    obtain ⟨base, hbe, hb1, hb2, hb3⟩ := hbase
    rw [hbe]
    -- the cell of the collection
    have hcell : ∀ o : Obj, o.alloc = a → o.off < a.n →
        ((c.sparse.toList ++ up.2).findSome? (·.get o)).or (base.get o) =
          c.cell o (lookupBig o attr parents) := by
      intro o ho hoff
      rw [List.findSome?_append, findSome_toList, hb3 o ho hoff]
      have h5 := hw5 o ho
      unfold cellOf at h5
      simp only [Coll.cell, hm, Option.bind_none, Option.none_or, Option.or_assoc]
      rw [← h5]
      cases hcd : c.constDense with
      | none => simp only [Option.bind_none, Option.none_or]
      | some d0 =>
        have hnil := hw4 (by rw [hcd]; rfl)
        rw [hnil]
        simp only [List.findSome?_nil, Option.none_or, Option.or_none]
    have hall : ∀ s ∈ c.sparse.toList ++ up.2, s.WF (some a) := by
      intro s hs
      rcases List.mem_append.1 hs with h | h
      · exact hc.sparse s (Option.mem_toList.1 h)
      · exact hw2 s h
    generalize c.sparse.toList ++ up.2 = src at hcell hall
    cases hsrc : src with
    | nil =>
      refine ⟨base, rfl, hb1, hb2, ?_⟩
      intro o ho hoff
      rw [← hcell o ho hoff, hsrc]
      rfl
    | cons s0 ss =>
      rw [if_neg (by simp), ← hsrc]
      have hnd := mergedEntries_nodup (src) (fun s hs => (hall s hs).nodup)
      have hvalid : ∀ o, some o ∈ (mergedEntries (src)).map (fun e => some e.1) →
          o.Valid := by
        intro o ho
        obtain ⟨e, he, heo⟩ := List.mem_map.1 ho
        have heo := Option.some.inj heo
        subst heo
        have hg := PyDict.get?_of_mem hnd (show (e.1, e.2) ∈ mergedEntries (src) from he)
        rw [mergedEntries_get] at hg
        exact (findSome_valid hall hg).1
      obtain ⟨d', hd1, hd2, hd3, _, hd4⟩ := hb1.setMany_ok hb2
        ((mergedEntries (src)).map (fun e => some e.1)) hvalid
        (build ((mergedEntries (src)).map (fun e => some e.2)))
        (build_wf _) (by simp [build])
      rw [hd1]
      refine ⟨d', rfl, hd2, hd3, ?_⟩
      intro o ho hoff
      have hwr := hd4 o ho hoff
      rw [writesOf_entries _ hnd _ rfl, mergedEntries_get] at hwr
      rw [← hcell o ho hoff]
      cases hx : (src).findSome? (·.get o) with
      | none => rw [hx] at hwr; exact hwr.nil
      | some x => rw [hx] at hwr; exact hwr.single

theorem Coll.cell_dense (d : Dense) (o : Obj) (up : Cell) :
    Coll.cell { sparse := none, mutDense := some d, constDense := none, lookupParent := false } o up
      = d.get o := by
  simp only [Coll.cell, Option.bind_none, Option.bind_some]
  cases d.get o <;> rfl

theorem Coll.WF.ofDense {a : Alloc} {d : Dense} (h : d.WF a) (hm : d.rep.isMutable = true) :
    Coll.WF a { sparse := none, mutDense := some d, constDense := none, lookupParent := false } where
  sparse := by intro s hs; cases hs
  mutd := by
    intro d' hd
    have := Option.some.inj hd
    subst this
    exact ⟨h, hm, rfl, rfl, rfl⟩
  const := by intro d hd; cases hd

end Verif.BagAttr
