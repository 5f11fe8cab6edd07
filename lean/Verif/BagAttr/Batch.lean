import Verif.BagAttr.Create
/-
Reading an attribute of many objects gives what reading it of each of them gives.
-/

namespace Verif.BagAttr

/-- One element per object: removed where there is no object. -/
def cellsOf (g : Obj → Cell) (ids : List (Option Obj)) : List Cell :=
  ids.map fun o => o.elim (some none) g

theorem cellsOf_congr {g g' : Obj → Cell} {ids : List (Option Obj)}
    (h : ∀ o, some o ∈ ids → g o = g' o) : cellsOf g ids = cellsOf g' ids := by
  apply List.map_congr_left
  intro o ho
  cases o with
  | none => rfl
  | some o => exact h o ho

theorem mask_eq (ids : List (Option Obj)) : mask ids = cellsOf (fun _ => none) ids := by
  apply List.map_congr_left
  intro o _
  cases o <;> rfl

theorem fill_cellsOf (f g : Obj → Cell) (ids : List (Option Obj)) :
    fill f ids (cellsOf g ids) = cellsOf (fun o => (g o).or (f o)) ids := by
  unfold fill cellsOf
  induction ids with
  | nil => rfl
  | cons o ids ih =>
    rw [List.map_cons, List.map_cons, List.zipWith_cons_cons, ih]
    congr 1
    cases o with
    | none => rfl
    | some o =>
      simp only [Option.elim_some, Option.bind_some]
      cases hg : g o <;> simp [hg]

theorem finalized_cellsOf {g : Obj → Cell} {ids : List (Option Obj)}
    (h : finalized (cellsOf g ids) = true) (o : Obj) (ho : some o ∈ ids) : g o ≠ none := by
  unfold finalized cellsOf at h
  rw [List.all_map, List.all_eq_true] at h
  have := h (some o) ho
  intro hn
  simp [hn] at this

theorem fillAll_cellsOf (fs : List (Obj → Cell)) (g : Obj → Cell) (ids : List (Option Obj)) :
    fillAll fs ids (cellsOf g ids) = cellsOf (fun o => (g o).or (fs.findSome? (· o))) ids := by
  induction fs generalizing g with
  | nil =>
    apply cellsOf_congr
    intro o _
    simp
  | cons f fs ih =>
    show fillAll fs ids (if finalized (cellsOf g ids) = true then cellsOf g ids
      else fill f ids (cellsOf g ids)) = _
    by_cases hf : finalized (cellsOf g ids) = true
    · rw [if_pos hf, ih]
      apply cellsOf_congr
      intro o ho
      cases hg : g o with
      | none => exact absurd hg (finalized_cellsOf hf o ho)
      | some x => rfl
    · rw [if_neg hf, fill_cellsOf, ih]
      apply cellsOf_congr
      intro o _
      rw [findSome_cons_or, Option.or_assoc]

/-! ### The sources of one bag -/

theorem sparse_none {al : Option Alloc} {s : Sparse} (h : s.WF al) {o : Obj}
    (hb : s.belongs o = false) : s.get o = none := by
  cases hg : s.get o with
  | none => rfl
  | some x =>
    have := (h.get_valid (o := o) (by rw [hg]; simp)).1
    rw [hb] at this
    cases this

theorem findSome_none {α β : Type} {f : α → Option β} {l : List α} (h : ∀ x ∈ l, f x = none) :
    l.findSome? f = none := by
  rw [List.findSome?_eq_none_iff]
  exact h

theorem findSome_congr {α β : Type} {f g : α → Option β} {l : List α} (h : ∀ x ∈ l, f x = g x) :
    l.findSome? f = l.findSome? g := by
  induction l with
  | nil => rfl
  | cons x l ih =>
    rw [findSome_cons_or, findSome_cons_or, h x List.mem_cons_self,
      ih (fun y hy => h y (List.mem_cons_of_mem _ hy))]

theorem flatMap_findSome {α β γ : Type} [DecidableEq α] (f : α → List β) (g : β → Option γ)
    (a : α) (l : List α) (h : ∀ x ∈ l, x ≠ a → ∀ y ∈ f x, g y = none) :
    (l.flatMap f).findSome? g = if a ∈ l then (f a).findSome? g else none := by
  induction l with
  | nil => rfl
  | cons x l ih =>
    rw [List.flatMap_cons, List.findSome?_append, ih (fun y hy => h y (List.mem_cons_of_mem _ hy))]
    by_cases hx : x = a
    · subst hx
      rw [if_pos List.mem_cons_self]
      cases hg : (f x).findSome? g with
      | some v => rfl
      | none => split <;> rfl
    · rw [findSome_none (h x List.mem_cons_self hx), Option.none_or]
      have : a ∈ x :: l ↔ a ∈ l := by
        rw [List.mem_cons]
        constructor
        · rintro (h | h)
          · exact absurd h.symm hx
          · exact h
        · exact Or.inr
      by_cases hm : a ∈ l
      · rw [if_pos hm, if_pos (this.2 hm)]
      · rw [if_neg hm, if_neg (fun h => hm (this.1 h))]

theorem sources_cell {b : Bag} (h : b.WF) {ids : List (Option Obj)} {allocs : List Alloc}
    {small : Bool} (hi : IdsWF ids allocs small) (attr : Attr) (o : Obj) (ho : some o ∈ ids) :
    ((((if small then smallSources attr b.layers else []) ++
        (allocs.map fun a => dataSources a attr b.layers).flatMap (·.2.2)).map Sparse.get) ++
      ((allocs.map fun a => dataSources a attr b.layers).flatMap (·.2.1)).map
        Dense.inserts).findSome? (· o) = b.lookup o attr := by
  have hv := hi.valid o ho
  have hsrc : ∀ a ∈ allocs, dataSources a attr b.layers = bigSources a attr b.layers a.capacity :=
    fun a ha => dataSources_big (hi.wf a ha).2 attr b.layers
  rw [List.findSome?_append, List.findSome?_map, List.findSome?_map, List.findSome?_append,
    List.flatMap_map, List.flatMap_map]
  have hsp : ∀ s ∈ (if small then smallSources attr b.layers else []), s.WF none := by
    intro s hs
    split at hs
    · exact smallSources_wf attr b.layers h s hs
    · cases hs
  rw [flatMap_findSome _ _ o.alloc allocs, flatMap_findSome _ _ o.alloc allocs]
  · cases hs : o.alloc.isSmall with
    | true =>
      have hn : o.alloc ∉ allocs := fun hm => by rw [(hi.wf _ hm).2] at hs; cases hs
      rw [if_neg hn, if_neg hn, Option.or_none, Option.or_none, hi.small o ho hs, if_pos rfl]
      unfold Bag.lookup
      rw [if_pos hs]
      exact smallSources_cell o attr b.layers
    | false =>
      have hm := hi.big o ho hs
      rw [if_pos hm, if_pos hm, findSome_none, Option.none_or, Bag.lookup_big hs,
        ← bigSources_cell o attr b.layers o.alloc.capacity h, hsrc _ hm]
      · unfold cellOf
        have hw := bigSources_wf o.alloc attr b.layers o.alloc.capacity h
        have : (bigSources o.alloc attr b.layers o.alloc.capacity).2.1.findSome?
              ((fun x => x o) ∘ Dense.inserts) =
            (bigSources o.alloc attr b.layers o.alloc.capacity).2.1.findSome? (·.get o) := by
          apply findSome_congr
          intro d hd
          exact (hw.1 d hd).inserts_eq o rfl hv.off
        rw [this]
        rfl
      · intro s hsm
        have := (hsp s hsm).belongs_none o
        exact sparse_none (hsp s hsm) (by rw [this, hs])
  · intro a ha hne d hd
    rw [hsrc a ha] at hd
    exact ((bigSources_wf a attr b.layers a.capacity h).1 d hd).inserts_ne o (fun h' => hne h'.symm)
  · intro a ha hne s hs
    rw [hsrc a ha] at hs
    have hw := (bigSources_wf a attr b.layers a.capacity h).2.1 s hs
    refine sparse_none hw ?_
    cases hb : s.belongs o with
    | false => rfl
    | true => exact absurd ((hw.belongs_some o).1 hb).symm hne

/-! ### The loop over the bags -/

theorem getWithRemoved_cons (b : Bag) (bs : List Bag) (o : Obj) (attr : Attr) :
    getWithRemoved (b :: bs) o attr = (b.lookup o attr).or (getWithRemoved bs o attr) := by
  rw [getWithRemoved]
  cases b.lookup o attr <;> rfl

/-- What the builder (or its absence) stands for: `g` is what the bags so far know. -/
def Holds (g : Obj → Cell) (ids : List (Option Obj)) : Option (List Cell) → Prop
  | none => ∀ o, some o ∈ ids → g o = none
  | some b => b = cellsOf g ids

theorem Holds.getD {g : Obj → Cell} {ids : List (Option Obj)} {b : Option (List Cell)}
    (h : Holds g ids b) : b.getD (mask ids) = cellsOf g ids := by
  cases b with
  | some b => exact h
  | none =>
    rw [Option.getD_none, mask_eq]
    exact cellsOf_congr (fun o ho => (h o ho).symm)

/-- The result of a batch read: well formed, one element for each object, the
items are those `g` gives. -/
structure ReadItems (g : Obj → Cell) (ids : List (Option Obj)) (s : Slice) : Prop where
  wf : s.WF
  length : s.cells.length = ids.length
  item : ∀ i, s.item i = ((ids[i]?.getD none).elim none fun o => (g o).getD none)

theorem ReadItems.ofCells {g : Obj → Cell} {ids : List (Option Obj)} :
    ReadItems g ids (build (cellsOf g ids)) := by
  refine ⟨build_wf _, by simp [build, cellsOf], ?_⟩
  intro i
  unfold Slice.item build cellsOf
  simp only [List.getElem?_map]
  cases ids[i]? with
  | none => rfl
  | some o => cases o <;> rfl

theorem allRemoved_wf (n : Nat) : (Slice.allRemoved n).WF := by
  refine ⟨by simp [Slice.allRemoved], ?_, by simp [Slice.allRemoved], ?_⟩
  · intro v hv
    have := List.eq_of_mem_replicate hv
    cases this
  · intro _
    refine ⟨by simp [Slice.allRemoved], ?_⟩
    intro hm
    have := List.eq_of_mem_replicate hm
    cases this

theorem single_read (ids : List (Option Obj)) (ty : Nat) (items : List Item) (g : Obj → Cell)
    (hty : ∀ v, some v ∈ items → v.ty = ty)
    (hit : items = ids.map fun o => o.elim none fun o => (g o).getD none) :
    ReadItems g ids { cells := items.map some
                      types := if items.all (·.isNone) then [] else [ty]
                      tb := false } := by
  have hmem : ∀ v : Val, some (some v) ∈ items.map some ↔ some v ∈ items := by
    intro v; simp
  refine ⟨⟨?_, ?_, ?_, ?_⟩, by simp [hit], ?_⟩
  · dsimp only; split <;> simp
  · intro v hv
    have hv' := (hmem v).1 hv
    dsimp only
    rw [if_neg]
    · simp [hty v hv']
    · intro hall
      have := List.all_eq_true.1 hall (some v) hv'
      cases this
  · intro t ht
    dsimp only at ht
    split at ht
    · cases ht
    · rename_i hall
      have ht' : t = ty := by simpa using ht
      have : ∃ x ∈ items, x.isNone = false := by
        rw [Bool.not_eq_true, List.all_eq_false] at hall
        obtain ⟨x, h1, h2⟩ := hall
        exact ⟨x, h1, by cases x <;> simp_all⟩
      obtain ⟨x, h1, h2⟩ := this
      cases x with
      | none => cases h2
      | some v => exact ⟨v, (hmem v).2 h1, by rw [ht', hty v h1]⟩
  · intro _
    refine ⟨by dsimp only; split <;> simp, by simp⟩
  · intro i
    unfold Slice.item
    simp only [List.getElem?_map, hit]
    cases ids[i]? with
    | none => rfl
    | some o => rfl

theorem Dense.WF.getMany_ok {a : Alloc} {d : Dense} (h : d.WF a) {ids : List (Option Obj)}
    (hids : ∀ o, some o ∈ ids → o.Valid) (check : Bool)
    (hc : check = false → ∀ o, some o ∈ ids → o.alloc = a) :
    ReadItems d.inserts ids (d.getMany ids check) := by
  have hal := h.alloc
  have key : ∀ (ty : Nat) (f : Nat → Item), (∀ i v, f i = some v → v.ty = ty) →
      (∀ o : Obj, o.alloc = a → o.off < a.n → (d.get o).getD none = f o.off) →
      ReadItems d.inserts ids (Dense.getMany.single d ids check ty f) := by
    intro ty f hty hf
    refine single_read ids ty _ d.inserts ?_ ?_
    · intro v hv
      obtain ⟨o, _, he⟩ := List.mem_map.1 hv
      cases o with
      | none => cases he
      | some o =>
        simp only at he
        split at he
        · cases he
        · exact hty _ _ he
    · apply List.map_congr_left
      intro o ho
      cases o with
      | none => rfl
      | some o =>
        simp only [Option.elim_some]
        by_cases hoa : o.alloc = a
        · rw [h.inserts_eq o hoa (by rw [← hoa]; exact (hids o ho).off),
            hf o hoa (by rw [← hoa]; exact (hids o ho).off), if_neg]
          simp [hal, hoa]
        · cases check with
          | false => exact absurd (hc rfl o ho) hoa
          | true =>
            rw [h.inserts_ne o hoa, if_pos]
            · rfl
            · simp [hal, hoa]
  cases hr : d.rep with
  | multi cells =>
    have : d.getMany ids check = build (fill d.inserts ids (mask ids)) := by
      unfold Dense.getMany; rw [hr]
    rw [this, mask_eq, fill_cellsOf]
    exact ReadItems.ofCells
  | typed ty vals mk =>
    have : d.getMany ids check = Dense.getMany.single d ids check ty
        (fun off => vals[off]?.getD none) := by
      unfold Dense.getMany; rw [hr]
    rw [this]
    have hw := h.rep.typed ty vals mk hr
    refine key _ _ ?_ ?_
    · intro i v hv
      cases hx : vals[i]? with
      | none => rw [hx] at hv; cases hv
      | some x =>
        rw [hx] at hv
        simp only [Option.getD_some] at hv
        rw [hv] at hx
        exact hw.1 v (List.mem_of_getElem? hx)
    · intro o _ _
      unfold Dense.get
      rw [hr]
      simp only [Rep.get]
      cases hx : vals[o.off]? with
      | none => rfl
      | some x =>
        cases x with
        | some v => rfl
        | none =>
          cases mk with
          | none => rfl
          | some m =>
            show Option.getD (if m.getD o.off false = true then some none else none) none = none
            by_cases hm : m.getD o.off false = true
            · rw [if_pos hm]; rfl
            · rw [if_neg hm]; rfl
  | ro data =>
    have hd := h.rep.ro data hr
    cases hdt : data.dtype with
    | none =>
      have : d.getMany ids check = build (fill d.inserts ids (mask ids)) := by
        unfold Dense.getMany; rw [hr]; simp only; rw [hdt]
      rw [this, mask_eq, fill_cellsOf]
      exact ReadItems.ofCells
    | some ty =>
      have : d.getMany ids check = Dense.getMany.single d ids check ty
          (fun off => data.item off) := by
        unfold Dense.getMany; rw [hr]; simp only; rw [hdt]
      rw [this]
      refine key _ _ ?_ ?_
      · intro i v hv
        unfold Slice.item at hv
        cases hx : data.cells[i]? with
        | none => rw [hx] at hv; cases hv
        | some c =>
          rw [hx] at hv
          simp only [Option.getD_some] at hv
          cases c with
          | none => cases hv
          | some y =>
            simp only [Option.getD_some] at hv
            subst hv
            have := hd.1.mem v (List.mem_of_getElem? hx)
            rw [Slice.dtype_some.1 hdt] at this
            simpa using this
      · intro o _ _
        unfold Dense.get
        rw [h.rep.get_eq, hr]
        rfl

theorem getStep_ok {b : Bag} (h : b.WF) {ids : List (Option Obj)} {allocs : List Alloc}
    {small : Bool} (hi : IdsWF ids allocs small) (attr : Attr) (many last : Bool)
    {g : Obj → Cell} {bl : Option (List Cell)} (hb : Holds g ids bl) :
    (∃ bl', getStep b last ids allocs small attr many bl = .builder bl' ∧
      (bl.isSome → bl'.isSome) ∧ Holds (fun o => (g o).or (b.lookup o attr)) ids bl') ∨
    (last = true ∧ bl = none ∧ ∃ s, getStep b last ids allocs small attr many bl = .done s ∧
      ReadItems (fun o => b.lookup o attr) ids s) := by
  unfold getStep
  simp only
  cases many with
  | true =>
    left
    simp only [if_true]
    refine ⟨_, rfl, by simp, ?_⟩
    rw [hb.getD, fillAll_cellsOf, fill_cellsOf]
    apply cellsOf_congr
    intro o ho
    rw [Option.or_assoc]
    congr 1
    rw [List.findSome?_map]
    cases hs : o.alloc.isSmall with
    | true =>
      rw [if_pos rfl, Option.or_none, hi.small o ho hs, if_pos rfl]
      unfold Bag.lookup
      rw [if_pos hs]
      exact smallSources_cell o attr b.layers
    | false =>
      rw [if_neg Bool.false_ne_true, Bag.lookup_big hs, findSome_none, Option.none_or]
      intro s hsm
      have hw : s.WF none := by
        split at hsm
        · exact smallSources_wf attr b.layers h s hsm
        · cases hsm
      exact sparse_none hw (by rw [hw.belongs_none, hs])
  | false =>
    simp only [Bool.false_eq_true, if_false]
    have hsrc := sources_cell h hi attr
    generalize hsp : ((if small = true then smallSources attr b.layers else []) ++
        (allocs.map fun a => dataSources a attr b.layers).flatMap (·.2.2)) = sparse at hsrc ⊢
    generalize hde : (allocs.map fun a => dataSources a attr b.layers).flatMap (·.2.1) = dense
      at hsrc ⊢
    by_cases hem : (dense.isEmpty && sparse.isEmpty) = true
    · left
      rw [if_pos hem]
      have he := Bool.and_eq_true_iff.1 hem
      have h1 := List.isEmpty_iff.1 he.1
      have h2 := List.isEmpty_iff.1 he.2
      refine ⟨bl, rfl, id, ?_⟩
      have hl : ∀ o, some o ∈ ids → b.lookup o attr = none := by
        intro o ho
        rw [← hsrc o ho, h1, h2]; rfl
      cases bl with
      | none =>
        intro o ho
        show (g o).or _ = none
        rw [hl o ho, hb o ho]; rfl
      | some cells =>
        show cells = _
        rw [show cells = _ from hb]
        apply cellsOf_congr
        intro o ho
        rw [hl o ho, Option.or_none]
    · rw [if_neg hem]
      have hbuild : Holds (fun o => (g o).or (b.lookup o attr)) ids
          (some (fillAll (sparse.map Sparse.get ++ dense.map Dense.inserts) ids
            (bl.getD (mask ids)))) := by
        show _ = _
        rw [hb.getD, fillAll_cellsOf]
        apply cellsOf_congr
        intro o ho
        rw [hsrc o ho]
      split
      · rename_i d
        right
        refine ⟨rfl, rfl, _, rfl, ?_⟩
        -- the allocation of the source
        have hdm : d ∈ (allocs.map fun a => dataSources a attr b.layers).flatMap (·.2.1) := by
          rw [hde]; simp
        rw [List.mem_flatMap] at hdm
        obtain ⟨r, hr, hdr⟩ := hdm
        obtain ⟨a, ha, rfl⟩ := List.mem_map.1 hr
        rw [dataSources_big (hi.wf a ha).2] at hdr
        have hdw := (bigSources_wf a attr b.layers a.capacity h).1 d hdr
        have hr := hdw.getMany_ok (ids := ids) hi.valid (small || decide (1 < allocs.length)) (by
          intro hc o ho
          rw [Bool.or_eq_false_iff] at hc
          have hlen : ¬ 1 < allocs.length := by simpa using hc.2
          have hob : o.alloc.isSmall = false := by
            cases hs : o.alloc.isSmall with
            | false => rfl
            | true => rw [hi.small o ho hs] at hc; cases hc.1
          have hm := hi.big o ho hob
          match allocs, hlen, ha, hm with
          | [x], _, ha, hm =>
            have h1 : a = x := by simpa using ha
            have h2 : o.alloc = x := by simpa using hm
            rw [h1, h2]
          | _ :: _ :: _, hlen, _, _ => simp at hlen)
        have hl : ∀ o, some o ∈ ids → d.inserts o = b.lookup o attr := by
          intro o ho
          rw [← hsrc o ho]
          simp
        refine ⟨hr.wf, hr.length, ?_⟩
        intro i
        rw [hr.item]
        cases hx : ids[i]? with
        | none => rfl
        | some o =>
          cases o with
          | none => rfl
          | some o =>
            simp only [Option.getD_some, Option.elim_some]
            rw [hl o (List.mem_of_getElem? hx)]
      · left
        exact ⟨_, rfl, by simp, hbuild⟩

theorem getLoop_ok {ids : List (Option Obj)} {allocs : List Alloc} {small : Bool}
    (hi : IdsWF ids allocs small) (attr : Attr) (many : Bool) (bags : List Bag)
    (h : ∀ b ∈ bags, b.WF) {g : Obj → Cell} {bl : Option (List Cell)} (hb : Holds g ids bl) :
    ReadItems (fun o => (g o).or (getWithRemoved bags o attr)) ids
      (getLoop bags ids allocs small attr many bl) ∧
    (bl.isSome → (getLoop bags ids allocs small attr many bl).cells =
      cellsOf (fun o => (g o).or (getWithRemoved bags o attr)) ids) := by
  induction bags generalizing g bl with
  | nil =>
    rw [getLoop.eq_def]
    simp only
    have hg : ∀ o, (g o).or (getWithRemoved [] o attr) = g o := by
      intro o; rw [getWithRemoved, Option.or_none]
    simp only [hg]
    cases bl with
    | some cells =>
      simp only
      rw [show cells = _ from hb]
      exact ⟨ReadItems.ofCells, fun _ => rfl⟩
    | none =>
      simp only
      refine ⟨⟨allRemoved_wf _, by simp [Slice.allRemoved], ?_⟩, by simp⟩
      intro i
      unfold Slice.item Slice.allRemoved
      simp only [List.getElem?_replicate]
      cases hx : ids[i]? with
      | none =>
        rw [if_neg (by have := List.getElem?_eq_none_iff.1 hx; omega)]
        rfl
      | some o =>
        rw [if_pos (List.getElem?_eq_some_iff.1 hx).1]
        cases o with
        | none => rfl
        | some o =>
          simp only [Option.getD_some, Option.elim_some]
          rw [hb o (List.mem_of_getElem? hx)]
          rfl
  | cons b bs ih =>
    have hbw := h b List.mem_cons_self
    have hbs : ∀ b ∈ bs, b.WF := fun b hb => h b (List.mem_cons_of_mem _ hb)
    have hg : (fun o => (g o).or (getWithRemoved (b :: bs) o attr)) =
        fun o => ((g o).or (b.lookup o attr)).or (getWithRemoved bs o attr) := by
      funext o
      rw [getWithRemoved_cons, Option.or_assoc]
    rw [getLoop.eq_def, hg]
    simp only
    rcases getStep_ok hbw hi attr many bs.isEmpty hb with ⟨bl', e1, e2, e3⟩ | ⟨h1, h2, s, e1, e2⟩
    · rw [e1]
      cases bl' with
      | none =>
        have hi' := ih hbs e3
        refine ⟨hi'.1, ?_⟩
        intro hs
        have := e2 hs
        cases this
      | some cells =>
        simp only
        by_cases hf : finalized cells = true
        · rw [if_pos hf]
          have hc : cells = cellsOf (fun o => ((g o).or (b.lookup o attr)).or
              (getWithRemoved bs o attr)) ids := by
            rw [show cells = _ from e3] at hf ⊢
            apply cellsOf_congr
            intro o ho
            have := finalized_cellsOf hf o ho
            cases hx : (g o).or (b.lookup o attr) with
            | none => exact absurd hx this
            | some x => rfl
          rw [hc]
          exact ⟨ReadItems.ofCells, fun _ => rfl⟩
        · rw [if_neg hf]
          have hi' := ih hbs e3
          exact ⟨hi'.1, fun _ => hi'.2 rfl⟩
    · rw [e1]
      simp only
      have hbn : bs = [] := List.isEmpty_iff.1 h1
      subst hbn
      subst h2
      refine ⟨⟨e2.wf, e2.length, ?_⟩, by simp⟩
      intro i
      rw [e2.item]
      cases hx : ids[i]? with
      | none => rfl
      | some o =>
        cases o with
        | none => rfl
        | some o =>
          simp only [Option.getD_some, Option.elim_some]
          rw [hb o (List.mem_of_getElem? hx), getWithRemoved, Option.or_none, Option.none_or]

theorem getAttrImpl_ok {ids : List (Option Obj)} {allocs : List Alloc} {small : Bool}
    (hi : IdsWF ids allocs small) (attr : Attr) (bags : List Bag) (h : ∀ b ∈ bags, b.WF)
    (withRemoved : Bool) :
    ∃ s, getAttrImpl bags (.objects ids allocs small) attr withRemoved = .ok s ∧
      ReadItems (fun o => getWithRemoved bags o attr) ids s ∧
      (withRemoved = true → s.cells = cellsOf (fun o => getWithRemoved bags o attr) ids) := by
  unfold getAttrImpl
  refine ⟨_, rfl, ?_⟩
  have key : ∀ bl : Option (List Cell), bl = none ∨ bl = some (mask ids) → _ :=
    fun bl hbl => getLoop_ok hi attr (hasTooManyAllocs allocs.length ids.length) bags h
      (g := fun _ => none) (bl := bl) (by
        rcases hbl with rfl | rfl
        · intro _ _; rfl
        · exact mask_eq ids)
  simp only [Option.none_or] at key
  by_cases hc : (withRemoved || hasTooManyAllocs allocs.length ids.length) = true
  · rw [if_pos hc]
    have := key _ (.inr rfl)
    exact ⟨this.1, fun _ => this.2 rfl⟩
  · rw [if_neg hc]
    have := key _ (.inl rfl)
    refine ⟨this.1, ?_⟩
    intro hw
    rw [hw] at hc
    simp at hc

/-! ### Full allocations -/

theorem bigSources_size (a : Alloc) (attr : Attr) (layers : List Layer) (size : Nat)
    (h : ∀ l ∈ layers, l.WF) :
    (bigSources a attr layers size).1 = size ∨
      ∃ d ∈ (bigSources a attr layers size).2.1, (bigSources a attr layers size).1 = d.rep.size := by
  induction layers with
  | nil => exact .inl rfl
  | cons l ls ih =>
    have ih := ih (fun l hl => h l (List.mem_cons_of_mem _ hl))
    rw [bigSources]
    cases hc : l.big.get? (a, attr) with
    | none => exact ih
    | some c =>
      simp only
      cases hm : c.mutDense with
      | some d => exact .inr ⟨d, by simp, rfl⟩
      | none =>
        simp only
        cases hk : c.constDense with
        | some d => exact .inr ⟨d, by simp, rfl⟩
        | none =>
          simp only
          split
          · exact ih
          · exact .inl rfl

theorem fullAllocPrefix_some {objs : Objs} {a : Alloc} (h : fullAllocPrefix objs = some a) :
    ∃ ids, objs = .objects ids [a] false ∧
      ids = (List.range ids.length).map (fun i => some ⟨a, i⟩) := by
  unfold fullAllocPrefix at h
  split at h
  · rename_i ids a'
    split at h
    · rename_i he
      have := Option.some.inj h
      subst this
      exact ⟨ids, rfl, he⟩
    · cases h
  · cases h

theorem range_mem {a : Alloc} {ids : List (Option Obj)}
    (h : ids = (List.range ids.length).map (fun i => some ⟨a, i⟩)) {i : Nat}
    (hi : i < ids.length) : ids[i]? = some (some ⟨a, i⟩) := by
  rw [h, List.getElem?_map, List.getElem?_range (by simpa using hi)]
  rfl

theorem cellsOf_range {a : Alloc} {ids : List (Option Obj)} {g : Obj → Cell} {cells : List Cell}
    (h : ids = (List.range ids.length).map (fun i => some ⟨a, i⟩))
    (hl : cells.length = ids.length)
    (hc : ∀ i, i < ids.length → cells[i]? = some (g ⟨a, i⟩)) : cells = cellsOf g ids := by
  apply List.ext_getElem?
  intro i
  unfold cellsOf
  rw [List.getElem?_map]
  by_cases hi : i < ids.length
  · rw [hc i hi, range_mem h hi]; rfl
  · rw [List.getElem?_eq_none (by omega), List.getElem?_eq_none (by omega)]; rfl

theorem fullGo_ok {ids : List (Option Obj)} {a : Alloc} (hi : IdsWF ids [a] false) (attr : Attr)
    (bags : List Bag) (h : ∀ b ∈ bags, b.WF)
    (hids : ids = (List.range ids.length).map (fun i => some ⟨a, i⟩))
    (rest : List Bag) (hrest : ∀ b ∈ rest, b.WF) (dense : List Dense) (full : Bool)
    (hd : dense.length ≤ 1) (hdw : ∀ d ∈ dense, d.WF a)
    (hfull : full = true → 0 < ids.length → ids.length = a.n)
    (hstate : ∀ o, some o ∈ ids → getWithRemoved bags o attr =
      (dense.findSome? (·.get o)).or (getWithRemoved rest o attr)) :
    ∃ s f, getMaybeFullAlloc.go bags (.objects ids [a] false) attr a ids.length rest dense full =
        .ok (s, f) ∧
      s.cells = cellsOf (fun o => getWithRemoved bags o attr) ids ∧
      (f = true → 0 < ids.length → ids.length = a.n) := by
  have hbig := (hi.wf a (by simp)).2
  have haw := (hi.wf a (by simp)).1
  have hn : 0 < ids.length → ids.length ≤ a.n := by
    intro hpos
    have hm := range_mem hids (i := ids.length - 1) (by omega)
    have hv := (hi.valid _ (List.mem_of_getElem? hm)).off
    simp only at hv
    omega
  induction rest generalizing dense full with
  | nil =>
    rw [getMaybeFullAlloc.go.eq_def]
    simp only
    have hst : ∀ i, i < ids.length → getWithRemoved bags ⟨a, i⟩ attr =
        dense.findSome? (·.get ⟨a, i⟩) := by
      intro i hil
      rw [hstate _ (List.mem_of_getElem? (range_mem hids hil)), getWithRemoved, Option.or_none]
    cases dense with
    | nil =>
      refine ⟨_, _, rfl, ?_, hfull⟩
      refine cellsOf_range hids (by simp [build]) ?_
      intro i hil
      simp only [build, List.getElem?_replicate]
      rw [if_pos hil, hst i hil]
      rfl
    | cons d ds =>
      have hds : ds = [] := by
        cases ds with
        | nil => rfl
        | cons _ _ => simp at hd
      subst hds
      have hw := hdw d (by simp)
      have hsz := hw.rep.cellsLen
      have hsize := hw.rep.size
      refine ⟨_, _, rfl, ?_, hfull⟩
      have hcells : (if d.rep.getAll.cells.length = ids.length then d.rep.getAll
          else d.rep.getAll.prefixOf ids.length).cells = d.rep.cells.take ids.length := by
        rw [hw.rep.getAll_cells]
        split
        · rename_i he
          rw [← he, List.take_length, hw.rep.getAll_cells]
        · show d.rep.getAll.cells.take _ = _
          rw [hw.rep.getAll_cells]
      rw [hcells]
      refine cellsOf_range hids ?_ ?_
      · rw [List.length_take, hsz]
        by_cases hpos : 0 < ids.length
        · have := hn hpos; omega
        · omega
      · intro i hil
        have hin : i < a.n := by have := hn (by omega); omega
        rw [List.getElem?_take_of_lt hil, hw.rep.get_lt hin, hst i hil]
        simp only [List.findSome?_cons, List.findSome?_nil]
        show some (d.rep.get i) = some _
        unfold Dense.get
        simp only
        cases d.rep.get i <;> rfl
  | cons b bs ih =>
    have hbw := hrest b List.mem_cons_self
    have hbs : ∀ b ∈ bs, b.WF := fun b hb => hrest b (List.mem_cons_of_mem _ hb)
    rw [getMaybeFullAlloc.go.eq_def]
    simp only
    rw [dataSources_big hbig]
    have hsw := bigSources_wf a attr b.layers a.capacity hbw
    have hsz := bigSources_size a attr b.layers a.capacity hbw
    have hcell : ∀ o, some o ∈ ids → cellOf (bigSources a attr b.layers a.capacity).2 o =
        b.lookup o attr := by
      intro o ho
      have hoa : o.alloc = a := by
        have hob : o.alloc.isSmall = false := by
          cases hs : o.alloc.isSmall with
          | false => rfl
          | true => have := hi.small o ho hs; cases this
        simpa using hi.big o ho hob
      rw [Bag.lookup_big (by rw [hoa]; exact hbig), ← hoa]
      exact bigSources_cell o attr b.layers _ hbw
    generalize bigSources a attr b.layers a.capacity = r at hsw hsz hcell ⊢
    have hfull' : (full || r.1 == ids.length) = true → 0 < ids.length → ids.length = a.n := by
      intro hf hpos
      rw [Bool.or_eq_true] at hf
      rcases hf with hf | hf
      · exact hfull hf hpos
      · have he : r.1 = ids.length := eq_of_beq hf
        have hle := hn hpos
        rcases hsz with hs | ⟨d, hdm, hs⟩
        · have : a.n ≤ a.capacity := haw
          omega
        · have := (hsw.1 d hdm).rep.size
          omega
    by_cases hc : (decide (1 < (dense ++ r.2.1).length) || !r.2.2.isEmpty) = true
    · rw [if_pos hc]
      obtain ⟨s, e1, _, e3⟩ := getAttrImpl_ok hi attr bags h true
      rw [e1]
      exact ⟨s, _, rfl, e3 rfl, hfull'⟩
    · rw [if_neg hc]
      rw [Bool.not_eq_true, Bool.or_eq_false_iff] at hc
      have hsp : r.2.2 = [] := by
        have := hc.2
        simpa using this
      refine ih hbs (dense ++ r.2.1) _ ?_ ?_ hfull' ?_
      · have := hc.1
        simpa using this
      · intro d hdm
        rcases List.mem_append.1 hdm with hdm | hdm
        · exact hdw d hdm
        · exact hsw.1 d hdm
      · intro o ho
        rw [hstate o ho, getWithRemoved_cons, ← hcell o ho, List.findSome?_append,
          Option.or_assoc]
        congr 2
        unfold cellOf
        rw [hsp]
        rfl

theorem getMaybeFullAlloc_ok {ids : List (Option Obj)} {allocs : List Alloc} {small : Bool}
    (hi : IdsWF ids allocs small) (attr : Attr) (bags : List Bag) (h : ∀ b ∈ bags, b.WF) :
    ∃ s full, getMaybeFullAlloc bags (.objects ids allocs small) attr = .ok (s, full) ∧
      s.cells = cellsOf (fun o => getWithRemoved bags o attr) ids ∧
      (full = true → ids ≠ [] → ∃ a, ids = (List.range a.n).map (fun i => some ⟨a, i⟩)) := by
  unfold getMaybeFullAlloc
  cases hp : fullAllocPrefix (.objects ids allocs small) with
  | none =>
    obtain ⟨s, e1, _, e3⟩ := getAttrImpl_ok hi attr bags h true
    all_goals (try simp only)
    rw [e1]
    exact ⟨s, false, rfl, e3 rfl, by simp⟩
  | some a =>
    obtain ⟨ids', he, hids⟩ := fullAllocPrefix_some hp
    obtain ⟨rfl, rfl, rfl⟩ := Objs.objects.inj he
    simp only
    obtain ⟨s, f, e1, e2, e3⟩ := fullGo_ok hi attr bags h hids bags h [] false (by simp)
      (by simp) (by simp) (by intro o _; rfl)
    refine ⟨s, f, e1, e2, ?_⟩
    intro hf hne
    have := e3 hf (List.length_pos_iff.2 hne)
    exact ⟨a, by rw [← this]; exact hids⟩

end Verif.BagAttr
