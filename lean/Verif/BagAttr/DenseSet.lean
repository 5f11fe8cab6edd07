import Verif.BagAttr.Dense
/-
Writing to dense sources.
-/

namespace Verif.BagAttr

variable {n : Nat}

/-! ### One object -/

theorem getD_set {α : Type} (l : List α) (i j : Nat) (x d : α) (hi : i < l.length) :
    ((l.set i x)[j]?).getD d = if j = i then x else (l[j]?).getD d := by
  by_cases h : j = i
  · subst h
    rw [if_pos rfl, List.getElem?_set_self hi]; rfl
  · rw [if_neg h, List.getElem?_set_ne (fun h' => h h'.symm)]

theorem typedCells_set (vals : List Item) (mask : Option (List Bool)) (off : Nat) (x : Item)
    (h : ∀ m, mask = some m → m.length = vals.length) :
    typedCells (vals.set off x) (mask.map (·.set off true)) =
      (typedCells vals mask).set off (some x) := by
  apply List.ext_getElem?
  intro j
  have hm' : ∀ m, mask.map (·.set off true) = some m → m.length = (vals.set off x).length := by
    intro m hm
    cases mask with
    | none => cases hm
    | some m0 =>
      have := Option.some.inj hm
      subst this
      simp [h m0 rfl]
  rw [typedCells_get _ _ hm']
  by_cases hj : j = off
  · subst hj
    by_cases hl : j < vals.length
    · rw [List.getElem?_set_self hl,
        List.getElem?_set_self (by rw [typedCells_length _ _ h]; exact hl)]
      cases x with
      | some y => rfl
      | none =>
        cases mask with
        | none => rfl
        | some m =>
          have hml := h m rfl
          simp [typedCell, maskCell, List.getD_eq_getElem?_getD, List.getElem?_set_self (show j < m.length by omega)]
    · rw [List.getElem?_eq_none (by simp; omega),
        List.getElem?_eq_none (by simp [typedCells_length _ _ h]; omega)]
      rfl
  · rw [List.getElem?_set_ne (fun h' => hj h'.symm), List.getElem?_set_ne (fun h' => hj h'.symm),
      typedCells_get _ _ h]
    cases vals[j]? with
    | none => rfl
    | some v =>
      cases v with
      | some y => rfl
      | none =>
        cases mask with
        | none => rfl
        | some m =>
          simp [typedCell, maskCell, List.getD_eq_getElem?_getD, List.getElem?_set_ne (fun h' => hj (Eq.symm h'))]

/-- Setting only the mask, then the cell. -/
theorem typedCells_maskSet (vals : List Item) (mask : Option (List Bool)) (off : Nat) (x : Cell)
    (h : ∀ m, mask = some m → m.length = vals.length) :
    (typedCells vals (mask.map (·.set off true))).set off x = (typedCells vals mask).set off x := by
  apply List.ext_getElem?
  intro j
  have hm' : ∀ m, mask.map (·.set off true) = some m → m.length = vals.length := by
    intro m hm
    cases mask with
    | none => cases hm
    | some m0 =>
      have := Option.some.inj hm
      subst this
      simp [h m0 rfl]
  by_cases hj : j = off
  · subst hj
    rw [List.getElem?_set, List.getElem?_set]
    simp only [if_true]
    rw [typedCells_length _ _ h, typedCells_length _ _ hm']
  · rw [List.getElem?_set_ne (fun h' => hj h'.symm), List.getElem?_set_ne (fun h' => hj h'.symm),
      typedCells_get _ _ h, typedCells_get _ _ hm']
    cases vals[j]? with
    | none => rfl
    | some v =>
      cases v with
      | some y => rfl
      | none =>
        cases mask with
        | none => rfl
        | some m =>
          simp [typedCell, maskCell, List.getD_eq_getElem?_getD, List.getElem?_set_ne (fun h' => hj (Eq.symm h'))]

/-- A write to a mutable source succeeds and changes one cell. -/
theorem Rep.WF.set_ok {r : Rep} (h : r.WF n) (hm : r.isMutable = true) (off : Nat)
    (v : Item) (hoff : off < n ∨ v = none) :
    ∃ r', r.set off v = .ok r' ∧ r'.WF n ∧ r'.isMutable = true ∧ r'.size = r.size ∧
      r'.cells = r.cells.set off (some v) := by
  have beyond : ∀ (cells : List Cell), cells = r.cells.set off (some v) →
      ∀ i w, n ≤ i → (cells[i]?).getD none ≠ some (some w) := by
    intro cells hc i w hi
    rw [hc]
    rcases hoff with hoff | hv
    · rw [List.getElem?_set_ne (by omega), ← h.get_eq]
      exact h.beyond i w hi
    · by_cases hio : off = i
      · subst hio hv
        rw [List.getElem?_set_self']
        cases r.cells[off]? <;> simp
      · rw [List.getElem?_set_ne hio, ← h.get_eq]
        exact h.beyond i w hi
  cases r with
  | ro data => cases hm
  | multi cells =>
    refine ⟨_, rfl, ?_, rfl, by simp [Rep.size], rfl⟩
    exact h.of_cells (by simp [Rep.size]) (beyond _ rfl) (fun _ _ _ hr => by cases hr)
      (fun _ hr => by cases hr)
  | typed ty vals mask =>
    have ht := h.typed ty vals mask rfl
    have hmulti : ∀ x : Val, v = some x → ∃ r', (Except.ok (.multi ((typedCells vals
        (mask.map (·.set off true))).set off (some (some x)))) : Except Err Rep) = .ok r' ∧
        r'.WF n ∧ r'.isMutable = true ∧ r'.size = (Rep.typed ty vals mask).size ∧
        r'.cells = (Rep.typed ty vals mask).cells.set off (some v) := by
      intro x hx
      subst hx
      have hc := typedCells_maskSet vals mask off (some (some x)) h.maskLen
      refine ⟨_, rfl, ?_, rfl, ?_, hc⟩
      · refine h.of_cells ?_ (beyond _ hc) (fun _ _ _ hr => by cases hr)
          (fun _ hr => by cases hr)
        simp only [Rep.size]
        rw [hc, List.length_set, typedCells_length _ _ h.maskLen]
      · simp only [Rep.size]
        rw [hc, List.length_set, typedCells_length _ _ h.maskLen]
    have htyped : (∀ x, v = some x → x.ty = ty) →
        ∃ r', (Except.ok (.typed ty (vals.set off v) (mask.map (·.set off true))) :
          Except Err Rep) = .ok r' ∧
        r'.WF n ∧ r'.isMutable = true ∧ r'.size = (Rep.typed ty vals mask).size ∧
        r'.cells = (Rep.typed ty vals mask).cells.set off (some v) := by
      intro hv
      have hc := typedCells_set vals mask off v h.maskLen
      refine ⟨_, rfl, ?_, rfl, by simp [Rep.size], hc⟩
      refine h.of_cells (by simp [Rep.size]) (beyond _ hc) ?_ (fun _ hr => by cases hr)
      intro ty' vals' mask' hr
      obtain ⟨rfl, rfl, rfl⟩ := Rep.typed.inj hr
      constructor
      · intro w hw
        rcases List.mem_or_eq_of_mem_set hw with h1 | h1
        · exact ht.1 w h1
        · exact hv w h1.symm
      · intro m hm'
        cases mask with
        | none => cases hm'
        | some m0 =>
          have hm'' := Option.some.inj hm'
          subst hm''
          have h0 := ht.2 m0 rfl
          refine ⟨by simp [h0.1], ?_⟩
          intro i w hw
          by_cases hi : i = off
          · subst hi
            have hlen : i < vals.length := by
              have := (List.getElem?_eq_some_iff.1 hw).1
              simpa using this
            rw [List.getElem?_set_self (by omega)]
          · rw [List.getElem?_set_ne (fun h' => hi h'.symm)] at hw ⊢
            exact h0.2 i w hw
    cases v with
    | none => exact htyped (by simp)
    | some x =>
      simp only [Rep.set]
      by_cases hx : x.ty = ty
      · rw [if_pos hx]
        exact htyped (by intro y hy; cases hy; exact hx)
      · rw [if_neg hx]
        exact hmulti x rfl

theorem Rep.WF.get_set {r r' : Rep} (h : r.WF n) (h' : r'.WF n) {off : Nat} {v : Item}
    (hoff : off < r.size) (hc : r'.cells = r.cells.set off (some v)) (i : Nat) :
    r'.get i = if i = off then some v else r.get i := by
  rw [h'.get_eq, hc, getD_set _ _ _ _ _ (by rw [h.cellsLen]; exact hoff), ← h.get_eq]

theorem Dense.WF.set_ok {a : Alloc} {d : Dense} (h : d.WF a) (hm : d.rep.isMutable = true)
    (o : Obj) (ho : o.alloc = a) (v : Item)
    (hoff : o.off < a.n ∨ (v = none ∧ o.off < d.rep.size)) :
    ∃ d', d.set o v = .ok d' ∧ d'.WF a ∧ d'.rep.isMutable = true ∧ d'.rep.size = d.rep.size ∧
      (∀ i, d'.rep.get i = if i = o.off then some v else d.rep.get i) := by
  obtain ⟨r', h1, h2, h3, h4, h5⟩ := h.rep.set_ok hm o.off v (hoff.imp id (·.1))
  have hsz : o.off < d.rep.size := by
    rcases hoff with hoff | hoff
    · exact Nat.lt_of_lt_of_le hoff h.rep.size
    · exact hoff.2
  refine ⟨{ d with rep := r' }, ?_, ⟨h.alloc, h2, by rw [h4]; exact h.size⟩, h3, h4,
    h.rep.get_set h2 hsz h5⟩
  unfold Dense.set
  rw [if_neg (by rw [h.alloc]; exact fun hne => hne ho), h1]
  rfl

/-! ### Many objects -/

/-- The values written to an offset, in order. -/
def valuesAt (ws : List (Nat × Cell)) (i : Nat) : List Item :=
  ws.filterMap fun w => if w.1 = i then some (w.2.getD none) else none

theorem valuesAt_cons (w : Nat × Cell) (ws : List (Nat × Cell)) (i : Nat) :
    valuesAt (w :: ws) i =
      if w.1 = i then w.2.getD none :: valuesAt ws i else valuesAt ws i := by
  unfold valuesAt
  rw [List.filterMap_cons]
  by_cases h : w.1 = i
  · simp only [if_pos h]
  · simp only [if_neg h]

theorem multiSetSingle_length (cells : List Cell) (ws : List (Nat × Cell)) :
    (multiSetSingle cells ws).length = cells.length := by
  unfold multiSetSingle
  induction ws generalizing cells with
  | nil => rfl
  | cons w ws ih => simp only [List.foldl_cons]; rw [ih]; simp

theorem getLast?_cons_getD {α : Type} (x : α) (l : List α) :
    (x :: l).getLast? = some (l.getLast?.getD x) := by
  rw [List.getLast?_cons]

theorem multiSetSingle_get (cells : List Cell) (ws : List (Nat × Cell)) (i : Nat)
    (hi : i < cells.length) :
    ((multiSetSingle cells ws)[i]?).getD none =
      match (valuesAt ws i).getLast? with
      | none => (cells[i]?).getD none
      | some v => some v := by
  induction ws generalizing cells with
  | nil => rfl
  | cons w ws ih =>
    have : multiSetSingle cells (w :: ws) =
        multiSetSingle (cells.set w.1 (some (w.2.getD none))) ws := rfl
    rw [this, ih _ (by simpa using hi), valuesAt_cons]
    by_cases h : w.1 = i
    · rw [if_pos h, getLast?_cons_getD, h]
      cases (valuesAt ws i).getLast? with
      | none => simp [List.getElem?_set_self hi]
      | some v => rfl
    · rw [if_neg h, List.getElem?_set_ne h]

/-- The pass of `multiSetMixed` for one type. -/
def typePass (ty : Nat) (cells : List Cell) (ws : List (Nat × Cell)) : List Cell :=
  ws.foldl (fun cs w =>
      match w.2 with
      | some (some v) => if v.ty = ty then cs.set w.1 (some (some v)) else cs
      | _ => cs) cells

/-- The last pass of `multiSetMixed`. -/
def removePass (cells : List Cell) (ws : List (Nat × Cell)) : List Cell :=
  ws.foldl (fun cs w =>
    match w.2 with
    | some (some _) => cs
    | _ => cs.set w.1 (some none)) cells

theorem multiSetMixed_eq (cells : List Cell) (types : List Nat) (ws : List (Nat × Cell)) :
    multiSetMixed cells types ws =
      removePass (types.foldl (fun cs ty => typePass ty cs ws) cells) ws := rfl

theorem typePass_length (ty : Nat) (cells : List Cell) (ws : List (Nat × Cell)) :
    (typePass ty cells ws).length = cells.length := by
  unfold typePass
  induction ws generalizing cells with
  | nil => rfl
  | cons w ws ih =>
    simp only [List.foldl_cons]; rw [ih]
    split
    · split <;> simp
    · rfl

theorem removePass_length (cells : List Cell) (ws : List (Nat × Cell)) :
    (removePass cells ws).length = cells.length := by
  unfold removePass
  induction ws generalizing cells with
  | nil => rfl
  | cons w ws ih =>
    simp only [List.foldl_cons]; rw [ih]
    split <;> simp

theorem typePasses_length (types : List Nat) (cells : List Cell) (ws : List (Nat × Cell)) :
    (types.foldl (fun cs ty => typePass ty cs ws) cells).length = cells.length := by
  induction types generalizing cells with
  | nil => rfl
  | cons t ts ih => simp only [List.foldl_cons]; rw [ih, typePass_length]

/-- The values of one type written to an offset. -/
def typedAt (ty : Nat) (vs : List Item) : List Item :=
  vs.filter fun v => match v with
    | some x => x.ty == ty
    | none => false

theorem typePass_get (ty : Nat) (cells : List Cell) (ws : List (Nat × Cell)) (i : Nat)
    (hi : i < cells.length) :
    ((typePass ty cells ws)[i]?).getD none =
      match (typedAt ty (valuesAt ws i)).getLast? with
      | none => (cells[i]?).getD none
      | some v => some v := by
  induction ws generalizing cells with
  | nil => rfl
  | cons w ws ih =>
    obtain ⟨off, c⟩ := w
    have hstep : typePass ty cells ((off, c) :: ws) = typePass ty (match c with
      | some (some v) => if v.ty = ty then cells.set off (some (some v)) else cells
      | _ => cells) ws := rfl
    rw [hstep, valuesAt_cons]
    have hskip : ∀ c' : Item, (match c' with
        | some x => x.ty == ty
        | none => false) = false →
        typedAt ty (if off = i then c' :: valuesAt ws i else valuesAt ws i) =
          typedAt ty (valuesAt ws i) := by
      intro c' hc'
      by_cases h : off = i
      · rw [if_pos h]
        unfold typedAt
        rw [List.filter_cons, hc']
        rfl
      · rw [if_neg h]
    match c with
    | none =>
      simp only [Option.getD_none]
      rw [ih _ hi, hskip none rfl]
    | some none =>
      simp only [Option.getD_some]
      rw [ih _ hi, hskip none rfl]
    | some (some v) =>
      simp only [Option.getD_some]
      by_cases hv : v.ty = ty
      · rw [if_pos hv, ih _ (by simpa using hi)]
        by_cases h : off = i
        · rw [if_pos h]
          have : typedAt ty (some v :: valuesAt ws i) = some v :: typedAt ty (valuesAt ws i) := by
            unfold typedAt
            rw [List.filter_cons_of_pos (by simpa using hv)]
          rw [this, getLast?_cons_getD, h]
          cases (typedAt ty (valuesAt ws i)).getLast? with
          | none => simp [List.getElem?_set_self hi]
          | some v => rfl
        · rw [if_neg h, List.getElem?_set_ne h]
      · rw [if_neg hv, ih _ hi, hskip (some v) (by simpa using hv)]

theorem typePasses_get (types : List Nat) (cells : List Cell) (ws : List (Nat × Cell)) (i : Nat)
    (hi : i < cells.length) :
    let r := ((types.foldl (fun cs ty => typePass ty cs ws) cells)[i]?).getD none
    ((∀ v, some v ∈ valuesAt ws i → v.ty ∉ types) → r = (cells[i]?).getD none) ∧
    ((∃ v, some v ∈ valuesAt ws i ∧ v.ty ∈ types) →
      ∃ v, some v ∈ valuesAt ws i ∧ v.ty ∈ types ∧ r = some (some v) ∧
        (typedAt v.ty (valuesAt ws i)).getLast? = some (some v)) := by
  induction types generalizing cells with
  | nil => simp
  | cons t ts ih =>
    simp only [List.foldl_cons]
    have hlen : i < (typePass t cells ws).length := by rw [typePass_length]; exact hi
    have hih := ih (typePass t cells ws) hlen
    simp only [] at hih
    have hp := typePass_get t cells ws i hi
    have hmem : ∀ v, v ∈ typedAt t (valuesAt ws i) ↔
        v ∈ valuesAt ws i ∧ ∃ x, v = some x ∧ x.ty = t := by
      intro v
      unfold typedAt
      rw [List.mem_filter]
      constructor
      · rintro ⟨h1, h2⟩
        refine ⟨h1, ?_⟩
        cases v with
        | none => cases h2
        | some x => exact ⟨x, rfl, by simpa using h2⟩
      · rintro ⟨h1, x, rfl, h2⟩
        exact ⟨h1, by simpa using h2⟩
    constructor
    · intro hno
      rw [hih.1 (fun v hv hm => hno v hv (List.mem_cons_of_mem _ hm)), hp]
      have : typedAt t (valuesAt ws i) = [] := by
        rw [List.eq_nil_iff_forall_not_mem]
        intro v hv
        obtain ⟨h1, x, rfl, h2⟩ := (hmem v).1 hv
        exact hno x h1 (by rw [h2]; simp)
      rw [this]
      rfl
    · rintro ⟨v, hv, hvt⟩
      by_cases hts : ∃ w, some w ∈ valuesAt ws i ∧ w.ty ∈ ts
      · obtain ⟨w, h1, h2, h3, h4⟩ := hih.2 hts
        exact ⟨w, h1, List.mem_cons_of_mem _ h2, h3, h4⟩
      · have hvt' : v.ty = t := by
          rcases List.mem_cons.1 hvt with h | h
          · exact h
          · exact absurd ⟨v, hv, h⟩ hts
        have hne : typedAt t (valuesAt ws i) ≠ [] :=
          List.ne_nil_of_mem ((hmem (some v)).2 ⟨hv, v, rfl, hvt'⟩)
        obtain ⟨last, hlast⟩ : ∃ l, (typedAt t (valuesAt ws i)).getLast? = some l :=
          ⟨_, List.getLast?_eq_some_getLast hne⟩
        obtain ⟨h1, x, hx, h2⟩ := (hmem last).1 (List.mem_of_getLast? hlast)
        subst hx
        refine ⟨x, h1, by rw [h2]; simp, ?_, by rw [h2]; exact hlast⟩
        rw [hih.1 (fun w hw hm => hts ⟨w, hw, hm⟩), hp, hlast]

theorem removePass_get (cells : List Cell) (ws : List (Nat × Cell)) (i : Nat)
    (hi : i < cells.length) :
    ((removePass cells ws)[i]?).getD none =
      if none ∈ valuesAt ws i then some none else (cells[i]?).getD none := by
  induction ws generalizing cells with
  | nil => simp [removePass, valuesAt]
  | cons w ws ih =>
    obtain ⟨off, c⟩ := w
    have hstep : removePass cells ((off, c) :: ws) = removePass (match c with
      | some (some _) => cells
      | _ => cells.set off (some none)) ws := rfl
    rw [hstep, valuesAt_cons]
    have hrem : ((removePass (cells.set off (some none)) ws)[i]?).getD none =
        if none ∈ (if off = i then none :: valuesAt ws i else valuesAt ws i) then some none
        else (cells[i]?).getD none := by
      rw [ih _ (by simpa using hi)]
      by_cases h : off = i
      · subst h
        simp [List.getElem?_set_self hi]
      · rw [if_neg h, List.getElem?_set_ne h]
    match c with
    | none => exact hrem
    | some none => exact hrem
    | some (some v) =>
      simp only [Option.getD_some]
      rw [ih _ hi]
      by_cases h : off = i
      · rw [if_pos h]
        simp
      · rw [if_neg h]

theorem multiSet_length (cells : List Cell) (values : Slice) (ws : List (Nat × Cell)) :
    (multiSet cells values ws).length = cells.length := by
  unfold multiSet
  split
  · rw [multiSetMixed_eq, removePass_length, typePasses_length]
  · exact multiSetSingle_length cells ws

/-- A batch write to a multitype source. -/
theorem multiSet_get (cells : List Cell) (values : Slice) (ws : List (Nat × Cell)) (i : Nat)
    (hi : i < cells.length)
    (hty : ∀ v, some v ∈ valuesAt ws i → v.ty ∈ values.types) :
    Written values (valuesAt ws i) ((cells[i]?).getD none)
      (((multiSet cells values ws)[i]?).getD none) := by
  unfold multiSet Written
  by_cases hmix : values.isMixed = true
  · rw [if_pos hmix, multiSetMixed_eq]
    have hlen : i < (values.types.foldl (fun cs ty => typePass ty cs ws) cells).length := by
      rw [typePasses_length]; exact hi
    rw [removePass_get _ ws i hlen]
    have hp := typePasses_get values.types cells ws i hi
    simp only [] at hp
    constructor
    · intro hnil
      rw [hnil, if_neg (by simp)]
      exact hp.1 (by rw [hnil]; simp)
    · intro last hlast
      have hml := List.mem_of_getLast? hlast
      by_cases hnone : none ∈ valuesAt ws i
      · rw [if_pos hnone]
        refine ⟨⟨none, hnone, rfl⟩, ?_⟩
        rintro (h | h | ⟨t, h⟩)
        · unfold Slice.isMixed at hmix
          have := of_decide_eq_true hmix
          omega
        · rw [h]
        · obtain ⟨v, hv, _⟩ := h none hnone
          cases hv
      · rw [if_neg hnone]
        cases last with
        | none => exact absurd hml hnone
        | some x =>
          obtain ⟨v, h1, h2, h3, h4⟩ := hp.2 ⟨x, hml, hty x hml⟩
          refine ⟨⟨some v, h1, h3⟩, ?_⟩
          rintro (h | h | ⟨t, h⟩)
          · unfold Slice.isMixed at hmix
            have := of_decide_eq_true hmix
            omega
          · cases h
          · rw [h3]
            have hall : typedAt v.ty (valuesAt ws i) = valuesAt ws i := by
              unfold typedAt
              rw [List.filter_eq_self]
              intro w hw
              obtain ⟨y, rfl, hy⟩ := h w hw
              obtain ⟨z, hz, hzt⟩ := h (some v) h1
              cases hz
              simp [hy, hzt]
            rw [hall, hlast] at h4
            rw [Option.some.inj h4]
  · rw [if_neg hmix, multiSetSingle_get cells ws i hi]
    constructor
    · intro hnil; rw [hnil]; rfl
    · intro last hlast
      rw [hlast]
      exact ⟨⟨last, List.mem_of_getLast? hlast, rfl⟩, fun _ => rfl⟩

theorem typedSet_step (vals : List Item) (mask : Option (List Bool)) (w : Nat × Cell)
    (ws : List (Nat × Cell)) :
    typedSet vals mask (w :: ws) =
      typedSet (vals.set w.1 (w.2.getD none)) (mask.map (·.set w.1 true)) ws := by
  unfold typedSet
  cases mask <;> rfl

/-- A batch write of one type to a typed source, as a sequence of single writes. -/
theorem typedSet_cells (vals : List Item) (mask : Option (List Bool)) (ws : List (Nat × Cell))
    (h : ∀ m, mask = some m → m.length = vals.length) :
    typedCells (typedSet vals mask ws).1 (typedSet vals mask ws).2 =
      multiSetSingle (typedCells vals mask) ws := by
  induction ws generalizing vals mask with
  | nil =>
    have : typedSet vals mask [] = (vals, mask) := by
      unfold typedSet
      cases mask <;> rfl
    rw [this]; rfl
  | cons w ws ih =>
    rw [typedSet_step, ih]
    · rw [typedCells_set _ _ _ _ h]; rfl
    · intro m hm
      cases mask with
      | none => cases hm
      | some m0 =>
        have := Option.some.inj hm
        subst this
        simp [h m0 rfl]

theorem typedSet_ok (ty : Nat) (vals : List Item) (mask : Option (List Bool))
    (ws : List (Nat × Cell)) (hw : ∀ w ∈ ws, ∀ v, w.2 = some (some v) → v.ty = ty)
    (h1 : ∀ v, some v ∈ vals → v.ty = ty)
    (h2 : ∀ m, mask = some m → m.length = vals.length ∧
      ∀ (i : Nat) (v : Val), vals[i]? = some (some v) → m[i]? = some true) :
    (∀ v, some v ∈ (typedSet vals mask ws).1 → v.ty = ty) ∧
    (∀ m, (typedSet vals mask ws).2 = some m → m.length = (typedSet vals mask ws).1.length ∧
      ∀ (i : Nat) (v : Val), (typedSet vals mask ws).1[i]? = some (some v) → m[i]? = some true) ∧
    (typedSet vals mask ws).1.length = vals.length := by
  induction ws generalizing vals mask with
  | nil =>
    have : typedSet vals mask [] = (vals, mask) := by
      unfold typedSet
      cases mask <;> rfl
    rw [this]
    exact ⟨h1, h2, rfl⟩
  | cons w ws ih =>
    rw [typedSet_step]
    have := ih (vals.set w.1 (w.2.getD none)) (mask.map (·.set w.1 true))
      (fun w' hw' => hw w' (List.mem_cons_of_mem _ hw')) ?_ ?_
    · refine ⟨this.1, this.2.1, ?_⟩
      rw [this.2.2]; simp
    · intro v hv
      rcases List.mem_or_eq_of_mem_set hv with h | h
      · exact h1 v h
      · refine hw w (by simp) v ?_
        cases hc : w.2 with
        | none => rw [hc] at h; cases h
        | some x => rw [hc] at h; exact congrArg some h.symm
    · intro m hm
      cases mask with
      | none => cases hm
      | some m0 =>
        have hm'' := Option.some.inj hm
        subst hm''
        have h0 := h2 m0 rfl
        refine ⟨by simp [h0.1], ?_⟩
        intro i v hv
        by_cases hi : i = w.1
        · subst hi
          have hlen : w.1 < vals.length := by
            have := (List.getElem?_eq_some_iff.1 hv).1
            simpa using this
          rw [List.getElem?_set_self (by omega)]
        · rw [List.getElem?_set_ne (fun h' => hi h'.symm)] at hv ⊢
          exact h0.2 i v hv

theorem mem_writesTo {a : Alloc} {ids : List (Option Obj)} {cells : List Cell} {w : Nat × Cell} :
    w ∈ writesTo a ids cells ↔ ∃ o, (some o, w.2) ∈ ids.zip cells ∧ o.alloc = a ∧ o.off = w.1 := by
  unfold writesTo
  rw [List.mem_filterMap]
  constructor
  · rintro ⟨⟨oo, c⟩, h1, h2⟩
    cases oo with
    | none => cases h2
    | some o =>
      simp only [] at h2
      by_cases h : o.alloc = a
      · rw [if_pos h] at h2
        cases h2
        exact ⟨o, h1, h, rfl⟩
      · rw [if_neg h] at h2; cases h2
  · rintro ⟨o, h1, h2, h3⟩
    refine ⟨(some o, w.2), h1, ?_⟩
    simp only []
    rw [if_pos h2, h3]

theorem valuesAt_writesTo (a : Alloc) (ids : List (Option Obj)) (values : Slice) (o : Obj)
    (ho : o.alloc = a) :
    valuesAt (writesTo a ids values.cells) o.off = writesOf ids values o := by
  unfold valuesAt writesTo writesOf
  rw [List.filterMap_filterMap]
  congr 1
  funext ⟨oo, c⟩
  cases oo with
  | none => simp
  | some o' =>
    simp only []
    by_cases h : o' = o
    · subst h
      simp [ho]
    · have hne : ¬ ((some o' : Option Obj) = some o) := fun h' => h (Option.some.inj h')
      rw [if_neg hne]
      by_cases h1 : o'.alloc = a
      · rw [if_pos h1]
        have : ¬ o'.off = o.off := by
          intro h2
          apply h
          cases o'; cases o
          simp only at h1 h2 ho
          subst h1; subst h2; subst ho
          rfl
        simp [this]
      · rw [if_neg h1]
        rfl

theorem mem_writesOf {ids : List (Option Obj)} {values : Slice} {o : Obj} {v : Item} :
    v ∈ writesOf ids values o ↔ ∃ c, (some o, c) ∈ ids.zip values.cells ∧ v = c.getD none := by
  unfold writesOf
  rw [List.mem_filterMap]
  constructor
  · rintro ⟨⟨oo, c⟩, h1, h2⟩
    by_cases h : oo = some o
    · subst h
      rw [if_pos rfl] at h2
      exact ⟨c, h1, (Option.some.inj h2).symm⟩
    · rw [if_neg h] at h2; cases h2
  · rintro ⟨c, h1, h2⟩
    exact ⟨(some o, c), h1, by rw [if_pos rfl, h2]⟩

/-- A batch write to a mutable dense source. -/
theorem Dense.WF.setMany_ok' {a : Alloc} {d : Dense} (h : d.WF a) (hm : d.rep.isMutable = true)
    (ids : List (Option Obj))
    (values : Slice) (hids : ∀ o c, (some o, c) ∈ ids.zip values.cells → o.alloc = a →
      o.off < a.n ∨ c.getD none = none)
    (hv : values.WF) (hlen : ids.length = values.cells.length) :
    ∃ d', d.setMany ids values = .ok d' ∧ d'.WF a ∧ d'.rep.isMutable = true ∧
      d'.rep.size = d.rep.size ∧
      (∀ o : Obj, o.alloc = a → o.off < a.n →
        Written values (writesOf ids values o) (d.get o) (d'.get o)) := by
  have hws : ∀ w ∈ writesTo d.alloc ids values.cells, (w.1 < a.n ∨ w.2.getD none = none) ∧
      (∀ v, w.2 = some (some v) → v.ty ∈ values.types) := by
    intro w hw
    obtain ⟨o, h1, h2, h3⟩ := mem_writesTo.1 hw
    constructor
    · have := hids o w.2 h1 (by rw [h2, h.alloc])
      rw [h3] at this
      exact this
    · intro v hv'
      rw [hv'] at h1
      exact hv.mem v (List.of_mem_zip h1).2
  have hat : ∀ i, a.n ≤ i → ∀ v ∈ valuesAt (writesTo d.alloc ids values.cells) i, v = none := by
    intro i hi v hvm
    unfold valuesAt at hvm
    obtain ⟨w, hw, h2⟩ := List.mem_filterMap.1 hvm
    by_cases hwi : w.1 = i
    · rw [if_pos hwi] at h2
      have h2 := Option.some.inj h2
      rcases (hws w hw).1 with h3 | h3
      · omega
      · rw [← h2, h3]
    · rw [if_neg hwi] at h2; cases h2
  have hty : ∀ i v, some v ∈ valuesAt (writesTo d.alloc ids values.cells) i →
      v.ty ∈ values.types := by
    intro i v hvm
    unfold valuesAt at hvm
    obtain ⟨w, hw, h2⟩ := List.mem_filterMap.1 hvm
    by_cases h : w.1 = i
    · rw [if_pos h] at h2
      have h2 := Option.some.inj h2
      refine (hws w hw).2 v ?_
      cases hc : w.2 with
      | none => rw [hc] at h2; cases h2
      | some x => rw [hc] at h2; exact congrArg some h2
    · rw [if_neg h] at h2; cases h2
  -- any new cells with the right effect give a well-formed result
  have key : ∀ r' : Rep, r'.size = d.rep.size → r'.isMutable = true →
      r'.cells = multiSet d.rep.cells values (writesTo d.alloc ids values.cells) →
      (∀ ty vals mask, r' = .typed ty vals mask →
        (∀ v, some v ∈ vals → v.ty = ty) ∧
        (∀ m, mask = some m → m.length = vals.length ∧
          ∀ (i : Nat) (v : Val), vals[i]? = some (some v) → m[i]? = some true)) →
      ({ d with rep := r' } : Dense).WF a ∧
      (∀ o : Obj, o.alloc = a → o.off < a.n →
        Written values (writesOf ids values o) (d.get o) (({ d with rep := r' } : Dense).get o)) := by
    intro r' hsz hmut hc htyped
    have hget : ∀ i, i < d.rep.cells.length → Written values
        (valuesAt (writesTo d.alloc ids values.cells) i) (d.rep.get i) ((r'.cells[i]?).getD none) := by
      intro i hi
      rw [hc, h.rep.get_eq]
      exact multiSet_get d.rep.cells values _ i hi (hty i)
    have hwf : r'.WF a.n := by
      refine h.rep.of_cells hsz ?_ htyped ?_
      · intro i v hi
        by_cases hlt : i < d.rep.cells.length
        · cases hl : (valuesAt (writesTo d.alloc ids values.cells) i).getLast? with
          | none =>
            rw [(hget i hlt).1 (List.getLast?_eq_none_iff.1 hl)]
            exact h.rep.beyond i v hi
          | some last =>
            obtain ⟨w, hw1, hw2⟩ := ((hget i hlt).2 last hl).1
            rw [hw2, hat i hi w hw1]
            simp
        · rw [List.getElem?_eq_none]
          · simp
          · rw [hc, multiSet_length]; omega
      · intro s hs; rw [hs] at hmut; cases hmut
    refine ⟨⟨h.alloc, hwf, by rw [hsz]; exact h.size⟩, ?_⟩
    intro o ho hoff
    have hthis := hget o.off (h.rep.size_pos hoff)
    rw [valuesAt_writesTo d.alloc ids values o (by rw [h.alloc]; exact ho)] at hthis
    show Written _ _ (d.rep.get o.off) (r'.get o.off)
    rw [hwf.get_eq]
    exact hthis
  cases hrep : d.rep with
  | ro data => rw [hrep] at hm; cases hm
  | multi cells =>
    have hr : d.setMany ids values =
        .ok { d with rep := .multi (multiSet cells values (writesTo d.alloc ids values.cells)) } := by
      simp only [Dense.setMany, hrep]
      rw [if_neg (by simp [hlen])]
    rw [hr]
    rw [hrep] at key
    have := key (.multi (multiSet cells values (writesTo d.alloc ids values.cells)))
      (by simp [Rep.size, multiSet_length]) rfl rfl (fun _ _ _ hr => by cases hr)
    exact ⟨_, rfl, this.1, rfl, by simp [Rep.size, multiSet_length], this.2⟩
  | typed ty vals mask =>
    have hwf := h.rep
    rw [hrep] at hwf
    have ht := hwf.typed ty vals mask rfl
    simp only [Dense.setMany, hrep]
    rw [if_neg (by simp [hlen])]
    rw [hrep] at key
    by_cases hd : (values.isEmptyAndUnknown || values.dtype == some ty) = true
    · rw [if_pos hd]
      have hnm : values.types.length ≤ 1 ∧ ∀ t ∈ values.types, t = ty := by
        rcases Bool.or_eq_true_iff.1 hd with h1 | h1
        · unfold Slice.isEmptyAndUnknown at h1
          rw [List.isEmpty_iff.1 h1]; simp
        · have := Slice.dtype_some.1 (eq_of_beq h1)
          rw [this]; simp
      have hmix : values.isMixed = false := by
        unfold Slice.isMixed
        simpa using hnm.1
      have hok := typedSet_ok ty vals mask (writesTo d.alloc ids values.cells)
        (fun w hw v hv => hnm.2 _ ((hws w hw).2 v hv)) ht.1 ht.2
      have hcells : (Rep.typed ty (typedSet vals mask (writesTo d.alloc ids values.cells)).1
          (typedSet vals mask (writesTo d.alloc ids values.cells)).2).cells =
          multiSet (Rep.typed ty vals mask).cells values (writesTo d.alloc ids values.cells) := by
        unfold multiSet
        rw [hmix]
        exact typedSet_cells vals mask _ hwf.maskLen
      have := key (.typed ty (typedSet vals mask (writesTo d.alloc ids values.cells)).1
          (typedSet vals mask (writesTo d.alloc ids values.cells)).2)
        hok.2.2 rfl hcells (fun ty' vals' mask' hr => by
          obtain ⟨rfl, rfl, rfl⟩ := Rep.typed.inj hr
          exact ⟨hok.1, hok.2.1⟩)
      exact ⟨_, rfl, this.1, rfl, hok.2.2, this.2⟩
    · rw [if_neg hd]
      have := key (.multi (multiSet (typedCells vals mask) values
          (writesTo d.alloc ids values.cells)))
        (by simp [Rep.size, multiSet_length, typedCells_length _ _ hwf.maskLen]) rfl rfl
        (fun _ _ _ hr => by cases hr)
      exact ⟨_, rfl, this.1, rfl,
        by simp [Rep.size, multiSet_length, typedCells_length _ _ hwf.maskLen], this.2⟩

theorem Dense.WF.setMany_ok {a : Alloc} {d : Dense} (h : d.WF a) (hm : d.rep.isMutable = true)
    (ids : List (Option Obj)) (hids : ∀ o, some o ∈ ids → o.Valid)
    (values : Slice) (hv : values.WF) (hlen : ids.length = values.cells.length) :
    ∃ d', d.setMany ids values = .ok d' ∧ d'.WF a ∧ d'.rep.isMutable = true ∧
      d'.rep.size = d.rep.size ∧
      (∀ o : Obj, o.alloc = a → o.off < a.n →
        Written values (writesOf ids values o) (d.get o) (d'.get o)) :=
  h.setMany_ok' hm ids values
    (fun o _ h1 h2 => .inl (by rw [← h2]; exact (hids o (List.of_mem_zip h1).1).off)) hv hlen

theorem Dense.setMany_mismatch (d : Dense) (hm : d.rep.isMutable = true)
    (ids : List (Option Obj)) (values : Slice) (hlen : ids.length ≠ values.cells.length) :
    d.setMany ids values = .error .sizeMismatch := by
  unfold Dense.setMany
  cases hrep : d.rep with
  | ro data => rw [hrep] at hm; cases hm
  | multi cells => simp only []; rw [if_pos hlen]
  | typed ty vals mask => simp only []; rw [if_pos hlen]

/-! ### New sources -/

theorem createMutable_wf (a : Alloc) (size : Nat) (ty : Option Nat) (h1 : a.n ≤ size)
    (h2 : size ≤ a.capacity) :
    (createMutable a size ty).WF a ∧ (createMutable a size ty).rep.isMutable = true ∧
      ∀ i, (createMutable a size ty).rep.get i = none := by
  cases ty with
  | none =>
    have hget : ∀ i, (Rep.multi (List.replicate size none)).get i = none := by
      intro i
      simp only [Rep.get, List.getElem?_replicate]
      split <;> rfl
    refine ⟨⟨rfl, ⟨by simpa [createMutable, Rep.size] using h1, ?_, ?_, ?_⟩,
      by simpa [createMutable, Rep.size] using h2⟩, rfl, hget⟩
    · intro i v _
      show (Rep.multi (List.replicate size none)).get i ≠ _
      rw [hget]; simp
    · intro ty vals mask hr; simp [createMutable] at hr
    · intro s hr; simp [createMutable] at hr
  | some t =>
    have hget : ∀ i, (Rep.typed t (List.replicate size none)
        (some (List.replicate size false))).get i = none := by
      intro i
      simp only [Rep.get, List.getElem?_replicate, List.getD_eq_getElem?_getD]
      split
      · rfl
      · rename_i h; split at h <;> cases h
      · split <;> simp
    refine ⟨⟨rfl, ⟨by simpa [createMutable, Rep.size] using h1, ?_, ?_, ?_⟩,
      by simpa [createMutable, Rep.size] using h2⟩, rfl, hget⟩
    · intro i v _
      show (Rep.typed t (List.replicate size none) (some (List.replicate size false))).get i ≠ _
      rw [hget]; simp
    · intro ty vals mask hr
      obtain ⟨rfl, rfl, rfl⟩ := Rep.typed.inj hr
      constructor
      · intro v hv
        have := List.eq_of_mem_replicate hv
        cases this
      · intro m hm
        have := Option.some.inj hm
        subst this
        refine ⟨by simp, ?_⟩
        intro i v hv
        rw [List.getElem?_replicate] at hv
        split at hv <;> cases hv
    · intro s hr; simp [createMutable] at hr

end Verif.BagAttr
