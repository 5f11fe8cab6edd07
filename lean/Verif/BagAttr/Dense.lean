import Verif.BagAttr.Spec
/-
Dense sources: every function of the model in terms of the list of cells a source
stands for.
-/

namespace Verif.BagAttr

/-- The cells a dense source stands for. -/
def Rep.cells : Rep → List Cell
  | .typed _ vals mask => typedCells vals mask
  | .multi cells => cells
  | .ro data => data.cells

theorem typedCells_length (vals : List Item) (mask : Option (List Bool))
    (h : ∀ m, mask = some m → m.length = vals.length) :
    (typedCells vals mask).length = vals.length := by
  cases mask with
  | none => simp [typedCells]
  | some m => simp [typedCells, h m rfl]

/-- What a missing element of a typed source stands for. -/
def maskCell (mask : Option (List Bool)) (i : Nat) : Cell :=
  match mask with
  | none => some none
  | some m => if m.getD i false then some none else none

/-- What an element of a typed source stands for. -/
def typedCell (mask : Option (List Bool)) (i : Nat) (v : Item) : Cell :=
  match v with
  | some x => some (some x)
  | none => maskCell mask i

theorem typedCells_get (vals : List Item) (mask : Option (List Bool))
    (h : ∀ m, mask = some m → m.length = vals.length) (i : Nat) :
    (typedCells vals mask)[i]? = (vals[i]?).map (typedCell mask i) := by
  cases mask with
  | none =>
    simp only [typedCells, List.getElem?_map]
    cases vals[i]? with
    | none => rfl
    | some v => cases v <;> rfl
  | some m =>
    have hl := h m rfl
    simp only [typedCells, List.getElem?_zipWith]
    cases hv : vals[i]? with
    | none => simp
    | some v =>
      have hi : i < vals.length := (List.getElem?_eq_some_iff.1 hv).1
      have hm : m[i]? = some (m[i]'(by omega)) := List.getElem?_eq_getElem (by omega)
      have hd : m.getD i false = m[i]'(by omega) := by
        rw [List.getD_eq_getElem?_getD, hm]; rfl
      cases v with
      | some x => simp [hm, typedCell]
      | none => simp [hm, hd, typedCell, maskCell]

variable {n : Nat}

theorem Rep.WF.maskLen {ty vals mask} (h : Rep.WF n (.typed ty vals mask)) :
    ∀ m, mask = some m → m.length = vals.length :=
  fun m hm => ((h.typed ty vals mask rfl).2 m hm).1

theorem Rep.WF.cellsLen {r : Rep} (h : r.WF n) : r.cells.length = r.size := by
  cases r with
  | typed ty vals mask => exact typedCells_length vals mask h.maskLen
  | multi cells => rfl
  | ro data => rfl

theorem Rep.WF.get_eq {r : Rep} (h : r.WF n) (i : Nat) : r.get i = (r.cells[i]?).getD none := by
  cases r with
  | typed ty vals mask =>
    simp only [Rep.get, Rep.cells, typedCells_get vals mask h.maskLen]
    cases vals[i]? with
    | none => rfl
    | some v =>
      cases v with
      | some x => rfl
      | none => cases mask <;> rfl
  | multi cells => rfl
  | ro data =>
    simp only [Rep.get, Rep.cells]
    cases hc : data.cells[i]? with
    | none => rfl
    | some c =>
      cases c with
      | some x => cases x <;> rfl
      | none =>
        have hm : (none : Cell) ∈ data.cells := List.mem_of_getElem? hc
        cases htb : data.tb with
        | true => rfl
        | false => exact absurd hm ((h.ro data rfl).1.noBuffer htb).2

theorem Rep.WF.size_pos {r : Rep} (h : r.WF n) {i : Nat} (hi : i < n) : i < r.cells.length := by
  rw [h.cellsLen]; exact Nat.lt_of_lt_of_le hi h.size

theorem Rep.WF.get_lt {r : Rep} (h : r.WF n) {i : Nat} (hi : i < n) :
    r.cells[i]? = some (r.get i) := by
  rw [h.get_eq, List.getElem?_eq_getElem (h.size_pos hi)]; rfl

theorem Dense.WF.inserts_lt {a : Alloc} {d : Dense} (h : d.WF a) (o : Obj) (ho : o.alloc = a)
    (hi : o.off < d.rep.size) : d.inserts o = d.get o := by
  have hr := h.rep
  have hsz : o.off < d.rep.cells.length := by rw [hr.cellsLen]; exact hi
  unfold Dense.inserts Dense.get
  rw [if_neg (by rw [h.alloc]; exact fun hne => hne ho)]
  cases hrep : d.rep with
  | typed ty vals mask =>
    rw [hrep] at hr hsz
    simp only [Rep.get]
    have hl := typedCells_length vals mask hr.maskLen
    have hv : o.off < vals.length := by
      have := hsz; simp only [Rep.cells] at this; omega
    rw [List.getElem?_eq_getElem hv]
    cases mask with
    | none => cases vals[o.off] <;> rfl
    | some m =>
      have ht := ((hr.typed ty vals _ rfl).2 m rfl).2 o.off
      rw [List.getElem?_eq_getElem hv] at ht
      cases hx : vals[o.off] with
      | none => rfl
      | some x =>
        rw [hx] at ht
        have := ht x rfl
        simp only [List.getD_eq_getElem?_getD, this, Option.getD_some, if_true]
  | multi cells =>
    simp only [Rep.get]
    cases hc : cells[o.off]?.getD none with
    | none => rfl
    | some x => cases x <;> rfl
  | ro data =>
    rw [hrep] at hr hsz
    simp only [Rep.get, Slice.item]
    have hv : o.off < data.cells.length := hsz
    rw [List.getElem?_eq_getElem hv]
    cases hc : data.cells[o.off] with
    | none =>
      have hm : (none : Cell) ∈ data.cells := by rw [← hc]; exact List.getElem_mem hv
      cases htb : data.tb with
      | true => simp
      | false => exact absurd hm ((hr.ro data rfl).1.noBuffer htb).2
    | some x => cases x <;> simp

theorem Dense.WF.inserts_eq {a : Alloc} {d : Dense} (h : d.WF a) (o : Obj) (ho : o.alloc = a)
    (hi : o.off < a.n) : d.inserts o = d.get o :=
  h.inserts_lt o ho (Nat.lt_of_lt_of_le hi h.rep.size)

theorem Dense.WF.inserts_ne {a : Alloc} {d : Dense} (h : d.WF a) (o : Obj) (ho : o.alloc ≠ a) :
    d.inserts o = none := by
  unfold Dense.inserts
  rw [if_pos (by rw [h.alloc]; exact ho)]

/-! ### build -/

theorem presentTypes_foldl (cells : List Cell) (ts : List Nat) (hn : ts.Nodup) :
    let r := cells.foldl addType ts
    r.Nodup ∧ (∀ t, t ∈ r ↔ t ∈ ts ∨ ∃ v, some (some v) ∈ cells ∧ v.ty = t) := by
  induction cells generalizing ts with
  | nil => simp [hn]
  | cons c cs ih =>
    simp only [List.foldl_cons]
    match c with
    | none =>
      have := ih ts hn
      refine ⟨this.1, fun t => ?_⟩
      show t ∈ List.foldl addType ts cs ↔ _
      rw [this.2 t]; simp
    | some none =>
      have := ih ts hn
      refine ⟨this.1, fun t => ?_⟩
      show t ∈ List.foldl addType ts cs ↔ _
      rw [this.2 t]; simp
    | some (some v) =>
      simp only [addType]
      by_cases hv : v.ty ∈ ts
      · rw [if_pos hv]
        have := ih ts hn
        refine ⟨this.1, fun t => ?_⟩
        rw [this.2 t]
        constructor
        · rintro (h | ⟨w, hw, rfl⟩)
          · exact .inl h
          · exact .inr ⟨w, List.mem_cons_of_mem _ hw, rfl⟩
        · rintro (h | ⟨w, hw, rfl⟩)
          · exact .inl h
          · rcases List.mem_cons.1 hw with h | h
            · cases h; exact .inl hv
            · exact .inr ⟨w, h, rfl⟩
      · rw [if_neg hv]
        have := ih (ts ++ [v.ty]) (by
          rw [List.nodup_append]
          exact ⟨hn, by simp, fun a ha b hb => by
            simp at hb; subst hb; exact fun h => hv (h ▸ ha)⟩)
        refine ⟨this.1, fun t => ?_⟩
        rw [this.2 t]
        constructor
        · rintro (h | ⟨w, hw, rfl⟩)
          · rcases List.mem_append.1 h with h | h
            · exact .inl h
            · simp at h; exact .inr ⟨v, by simp, h.symm⟩
          · exact .inr ⟨w, List.mem_cons_of_mem _ hw, rfl⟩
        · rintro (h | ⟨w, hw, rfl⟩)
          · exact .inl (List.mem_append.2 (.inl h))
          · rcases List.mem_cons.1 hw with h | h
            · cases h; exact .inl (by simp)
            · exact .inr ⟨w, h, rfl⟩

theorem mem_presentTypes (cells : List Cell) (t : Nat) :
    t ∈ presentTypes cells ↔ ∃ v, some (some v) ∈ cells ∧ v.ty = t := by
  have := (presentTypes_foldl cells [] (by simp)).2 t
  unfold presentTypes
  simpa using this

theorem build_wf (cells : List Cell) : (build cells).WF where
  nodup := (presentTypes_foldl cells [] (by simp)).1
  mem := fun v hv => (mem_presentTypes cells v.ty).2 ⟨v, hv, rfl⟩
  used := fun t ht => (mem_presentTypes cells t).1 ht
  noBuffer := fun h => by simp [build] at h

theorem Slice.WF.typesNil {s : Slice} (h : s.WF) :
    s.types = [] ↔ ∀ v, some (some v) ∉ s.cells := by
  constructor
  · intro h0 v hv
    have := h.mem v hv
    rw [h0] at this; cases this
  · intro h0
    cases ht : s.types with
    | nil => rfl
    | cons t ts =>
      obtain ⟨v, hv, _⟩ := h.used t (by rw [ht]; simp)
      exact absurd hv (h0 v)

/-! ### getAll -/

theorem Rep.WF.getAll_cells {r : Rep} (_h : r.WF n) : r.getAll.cells = r.cells := by
  cases r with
  | typed ty vals mask => cases mask <;> rfl
  | multi cells => rfl
  | ro data => rfl

theorem Rep.WF.getAll_wf {r : Rep} (h : r.WF n) : r.getAll.WF := by
  cases r with
  | multi cells => exact build_wf cells
  | ro data => exact (h.ro data rfl).1
  | typed ty vals mask =>
    have ht := h.typed ty vals mask rfl
    have hcells : ∀ v, some (some v) ∈ typedCells vals mask ↔ some v ∈ vals := by
      intro v
      constructor
      · intro hv
        obtain ⟨i, hi⟩ := List.mem_iff_getElem?.1 hv
        rw [typedCells_get vals mask h.maskLen] at hi
        cases hx : vals[i]? with
        | none => rw [hx] at hi; cases hi
        | some x =>
          rw [hx] at hi
          cases x with
          | some y =>
            have := Option.some.inj hi
            have := Option.some.inj this
            rw [← this]; exact List.mem_of_getElem? hx
          | none =>
            simp only [Option.map_some, Option.some.injEq, typedCell, maskCell] at hi
            cases mask with
            | none => cases hi
            | some m =>
              simp only [] at hi
              split at hi <;> cases hi
      · intro hv
        obtain ⟨i, hi⟩ := List.mem_iff_getElem?.1 hv
        have := typedCells_get vals mask h.maskLen i
        rw [hi] at this
        exact List.mem_of_getElem? this
    have hall : vals.all (·.isNone) = true ↔ ∀ v, some v ∉ vals := by
      rw [List.all_eq_true]
      constructor
      · intro ha v hv; have := ha _ hv; cases this
      · intro ha x hx
        cases x with
        | none => rfl
        | some v => exact absurd hx (ha v)
    have key : ∀ (tb : Bool), (tb = false → none ∉ typedCells vals mask) →
        Slice.WF { cells := typedCells vals mask
                   types := if vals.all (·.isNone) then [] else [ty]
                   tb := tb } := by
      intro tb htb
      refine ⟨?_, ?_, ?_, ?_⟩
      · show (if vals.all (·.isNone) then [] else [ty] : List Nat).Nodup
        split <;> simp
      · intro v hv
        have hv' := (hcells v).1 hv
        show v.ty ∈ (if vals.all (·.isNone) then [] else [ty] : List Nat)
        rw [if_neg (fun ha => (hall.1 ha) v hv')]
        simp [ht.1 v hv']
      · intro t
        show t ∈ (if vals.all (·.isNone) then [] else [ty] : List Nat) → _
        by_cases ha : vals.all (·.isNone) = true
        · rw [if_pos ha]; simp
        · rw [if_neg ha]
          intro h1
          have ht1 : t = ty := by simpa using h1
          have : ∃ v, some v ∈ vals := by
            refine Classical.byContradiction fun hne => ha (hall.2 fun v hv => hne ⟨v, hv⟩)
          obtain ⟨v, hv⟩ := this
          exact ⟨v, (hcells v).2 hv, by rw [ht1]; exact ht.1 v hv⟩
      · intro h1
        refine ⟨?_, htb h1⟩
        show (if vals.all (·.isNone) then [] else [ty] : List Nat).length ≤ 1
        split <;> simp
    cases mask with
    | none =>
      refine key false fun _ hm => ?_
      simp [typedCells] at hm
    | some m => exact key true (by simp)

/-! ### Mutable copies -/

theorem Rep.WF.copy_cells {r : Rep} (h : r.WF n) : r.mutableCopy.cells = r.cells := by
  cases r with
  | typed ty vals mask => rfl
  | multi cells => rfl
  | ro data =>
    simp only [Rep.mutableCopy]
    cases data.dtype with
    | none => rfl
    | some ty =>
      simp only [Rep.cells]
      cases htb : data.tb with
      | true =>
        simp only [if_true, typedCells]
        apply List.ext_getElem?
        intro i
        rw [List.getElem?_zipWith, List.getElem?_map, List.getElem?_map]
        cases data.cells[i]? with
        | none => rfl
        | some c =>
          cases c with
          | none => rfl
          | some x => cases x <;> rfl
      | false =>
        have hnb := ((h.ro data rfl).1.noBuffer htb).2
        simp only [Bool.false_eq_true, if_false, typedCells, List.map_map]
        rw [List.map_congr_left (g := id)]
        · simp
        · intro c hc
          cases c with
          | none => exact absurd hc hnb
          | some x => rfl

theorem Rep.copy_mutable (r : Rep) : r.mutableCopy.isMutable = true := by
  cases r with
  | typed ty vals mask => rfl
  | multi cells => rfl
  | ro data =>
    simp only [Rep.mutableCopy]
    cases data.dtype <;> rfl

theorem Slice.dtype_some {s : Slice} {t : Nat} : s.dtype = some t ↔ s.types = [t] := by
  unfold Slice.dtype
  split
  · rename_i x hx
    rw [hx]
    constructor
    · intro h; cases h; rfl
    · intro h; cases h; rfl
  · rename_i hx
    constructor
    · intro h; cases h
    · intro h; exact absurd h (hx t)

/-- A representation is well formed as soon as its cells are. -/
theorem Rep.WF.of_cells {r r' : Rep} (h : r.WF n) (hsz : r'.size = r.size)
    (hc : ∀ i v, n ≤ i → (r'.cells[i]?).getD none ≠ some (some v))
    (htyped : ∀ ty vals mask, r' = .typed ty vals mask →
      (∀ v, some v ∈ vals → v.ty = ty) ∧
      (∀ m, mask = some m → m.length = vals.length ∧
        ∀ (i : Nat) (v : Val), vals[i]? = some (some v) → m[i]? = some true))
    (hro : ∀ s, r' = .ro s → s.WF ∧ s.types ≠ []) : r'.WF n := by
  have h0 : r'.WF 0 ∨ True := .inr trivial
  refine ⟨by rw [hsz]; exact h.size, ?_, htyped, hro⟩
  intro i v hi
  have hw : Rep.WF r'.size r' := by
    refine ⟨Nat.le_refl _, ?_, htyped, hro⟩
    intro j w hj
    cases hr : r' with
    | typed ty vals mask =>
      rw [hr] at hj
      simp only [Rep.size] at hj
      simp only [Rep.get]
      rw [List.getElem?_eq_none hj]
      simp
    | multi cells =>
      rw [hr] at hj
      simp only [Rep.size] at hj
      simp only [Rep.get]
      rw [List.getElem?_eq_none hj]
      simp
    | ro data =>
      rw [hr] at hj
      simp only [Rep.size] at hj
      simp only [Rep.get]
      rw [List.getElem?_eq_none hj]
      simp
  rw [hw.get_eq]
  exact hc i v hi

theorem Rep.WF.copy {r : Rep} (h : r.WF n) : r.mutableCopy.WF n := by
  have hc := h.copy_cells
  refine h.of_cells ?_ ?_ ?_ ?_
  · cases r with
    | typed ty vals mask => rfl
    | multi cells => rfl
    | ro data =>
      simp only [Rep.mutableCopy]
      cases data.dtype <;> simp [Rep.size]
  · intro i v hi
    rw [hc, ← h.get_eq]; exact h.beyond i v hi
  · intro ty vals mask hr
    cases r with
    | typed ty' vals' mask' =>
      simp only [Rep.mutableCopy, Rep.typed.injEq] at hr
      obtain ⟨rfl, rfl, rfl⟩ := hr
      exact h.typed _ _ _ rfl
    | multi cells => simp [Rep.mutableCopy] at hr
    | ro data =>
      simp only [Rep.mutableCopy] at hr
      cases hd : data.dtype with
      | none => rw [hd] at hr; cases hr
      | some t =>
        rw [hd] at hr
        simp only [Rep.typed.injEq] at hr
        obtain ⟨rfl, rfl, rfl⟩ := hr
        have hw := (h.ro data rfl).1
        have htypes := Slice.dtype_some.1 hd
        constructor
        · intro v hv
          obtain ⟨c, hc1, hc2⟩ := List.mem_map.1 hv
          cases c with
          | none => cases hc2
          | some x =>
            simp only [Option.getD_some] at hc2
            subst hc2
            have := hw.mem v hc1
            rw [htypes] at this
            simpa using this
        · intro m hm
          split at hm
          · have := Option.some.inj hm
            subst this
            refine ⟨by simp, ?_⟩
            intro i v hv
            rw [List.getElem?_map] at hv ⊢
            cases hci : data.cells[i]? with
            | none => rw [hci] at hv; cases hv
            | some c =>
              rw [hci] at hv
              cases c with
              | none => cases hv
              | some x => rfl
          · cases hm
  · intro s hs
    have := Rep.copy_mutable r
    rw [hs] at this
    cases this

end Verif.BagAttr
